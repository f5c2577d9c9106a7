import Verif.Model.Evaluators
import Verif.Model.Cost

/-!
# Model of `GPyOpt/core/bo.py`: the optimization loop

The mutable object is a `BOState`; a method maps a state to a new state and an outcome, so that the
state after an exception is part of the model. External components (model fitting, suggestion,
objective, clock) are parameters in `BOEnv` and may depend on the whole state.
-/

namespace GPyOpt

/-- A number or `np.inf`. -/
inductive Limit
  | fin (q : ℚ) | inf
  deriving DecidableEq

/-- `limit > q`. -/
def Limit.exceeds : Limit → ℚ → Bool
  | .fin l, q => decide (q < l)
  | .inf, _ => true

/-- `_compute_results` (`bo.py:206-212`): `Y_best`, `x_opt`, `fx_opt`. -/
structure Results where
  yBest : Vec
  xOpt : Vec
  fxOpt : ℚ
  deriving DecidableEq

/-- One call of `model.updateModel` (`bo.py:258`): value of `num_acquisitions`, inputs, outputs. -/
structure Fit where
  acq : Nat
  X : Mat
  Y : Vec
  deriving DecidableEq

/-- The attributes of a `BO` object that the loop reads or writes (`bo.py:43-58`), and (`world`,
`fits`) the record of calls to the objective, clock and model. `Y = none` is Python's `None`. -/
structure BOState where
  X : Mat
  Y : Option Vec
  context : Option Context := none
  numAcq : Nat := 0
  params : Option Mat := none
  cost : CostModel
  timeZero : ℚ := 0
  cumTime : ℚ := 0
  results : Option Results := none
  world : World
  fits : List Fit := []

/-- Components of a `BO` object that are fixed at construction, and external behaviour: outcome of
`updateModel` (`fit`), of `get_model_parameters` (`params`), of the optimization of the cost GP
(`costFit`), of `_compute_next_evaluations` (`suggest`, with pending and ignored points), of the
objective and the clock. `normalize` is `normalize(·, 'stats')`. -/
structure BOEnv where
  sp : Space
  obj : Option (Nat → Vec → Py ℚ)
  clock : Nat → ℚ
  fit : BOState → Mat → Vec → Py Unit
  params : BOState → Py Vec
  costFit : BOState → Py Unit
  lg : ℚ → ℚ
  suggest : BOState → Option Mat → Option Mat → Py Mat
  normalizeY : Bool
  normalize : Vec → Vec
  interval : Int

/-- `BO.__init__` (`bo.py:43-58`). -/
def boInit (X : Mat) (Y : Option Vec) (cost : CostArg) : BOState :=
  { X := X, Y := Y, cost := costModelInit cost, world := { calls := [], ticks := 0 } }

/-- `_save_model_parameter_values` (`bo.py:263-267`). -/
def saveParams (env : BOEnv) (s : BOState) : BOState × Py Unit :=
  match env.params s with
  | .error e => (s, .error e)
  | .ok p => match s.params with
    | none => ({ s with params := some [p] }, .ok ())
    | some ps => ({ s with params := some (ps ++ [p]) }, .ok ())

/-- `Y_inmodel` (`bo.py:253-256`). -/
def BOEnv.modelY (env : BOEnv) (Y : Vec) : Vec := if env.normalizeY then env.normalize Y else Y

/-- `_update_model` (`bo.py:243-261`). `Y = None` makes `normalize` or the model raise; the kind of
exception is simplified. -/
def updateModel (env : BOEnv) (s : BOState) : BOState × Py Unit :=
  if env.interval = 0 then (s, .error .zeroDivision)
  else if (s.numAcq : Int) % env.interval = 0 then
    match env.sp.unzipInputs s.X with
    | .error e => (s, .error e)
    | .ok Xm => match s.Y with
      | none => (s, .error .valueError)
      | some Y =>
        let s1 := { s with fits := s.fits ++ [{ acq := s.numAcq, X := Xm, Y := env.modelY Y }] }
        match env.fit s Xm (env.modelY Y) with
        | .error e => (s1, .error e)
        | .ok () => saveParams env s1
  else saveParams env s

/-- Sum of squared differences (`bo.py:221`). -/
def rowSqDist (a b : Vec) : ℚ := ((List.zipWith (· - ·) a b).map fun d => d ^ 2).sum

/-- `len(X) > 1 and _distance_last_evaluations() <= eps` (`bo.py:147`, `:214-221`): the square root
is avoided by squaring. -/
def lastTwoClose (eps : ℚ) (X : Mat) : Bool :=
  match X.reverse with
  | a :: b :: _ => decide (0 ≤ eps ∧ rowSqDist a b ≤ eps ^ 2)
  | _ => false

/-- `evaluate_objective` (`bo.py:198-204`) at the rows `m`: evaluate, update the cost model, and only
then augment `Y`. -/
def evaluateObjective (env : BOEnv) (obj : Nat → Vec → Py ℚ) (s : BOState) (m : Mat) :
    BOState × Py Unit :=
  match evalFunc obj env.clock m s.world with
  | (w, .error e) => ({ s with world := w }, .error e)
  | (w, .ok (ys, ts)) =>
    match s.cost.update env.lg (env.costFit s) m (.list ts) with
    | (c, .error e) => ({ s with world := w, cost := c }, .error e)
    | (c, .ok ()) => match s.Y with
      | none => ({ s with world := w, cost := c }, .error .valueError)
      | some Y => ({ s with world := w, cost := c, Y := some (Y ++ ys) }, .ok ())

/-- Why the loop ended: time budget (`bo.py:139`), `LinAlgError` (`:143`), iteration budget or two
equal locations (`:146-148`). -/
inductive Stop
  | time | fit | limit
  deriving DecidableEq

/-- Result of one round of the loop. -/
inductive Round
  | next (s : BOState)
  | stop (s : BOState) (why : Stop)
  | raised (s : BOState) (e : Err)

/-- One round of the loop (`bo.py:139-160`). Simplification: the rows of a suggestion are as wide as
those of `X` (otherwise `np.vstack` raises at `:153`). -/
def boRound (env : BOEnv) (obj : Nat → Vec → Py ℚ) (maxIter maxTime : Limit) (eps : ℚ)
    (s : BOState) : Round :=
  if maxTime.exceeds s.cumTime then
    match updateModel env s with
    | (s1, .error .linAlg) => .stop s1 .fit
    | (s1, .error e) => .raised s1 e
    | (s1, .ok ()) =>
      if ¬ maxIter.exceeds (s1.numAcq : ℚ) ∨ lastTwoClose eps s1.X then .stop s1 .limit
      else match env.suggest s1 none none with
        | .error e => .raised s1 e
        | .ok m =>
          match evaluateObjective env obj { s1 with X := s1.X ++ m } m with
          | (s2, .error e) => .raised s2 e
          | (s2, .ok ()) =>
            .next { s2 with
              cumTime := env.clock s2.world.ticks - s2.timeZero
              world := { s2.world with ticks := s2.world.ticks + 1 }
              numAcq := s2.numAcq + 1 }
  else .stop s .time

/-- Result of a run: finished, raised, or still running after the given number of rounds. -/
inductive RunResult
  | done (why : Stop)
  | raised (e : Err)
  | running
  deriving DecidableEq

/-- The loop (`bo.py:139-160`), at most `fuel` rounds. -/
def boLoop (env : BOEnv) (obj : Nat → Vec → Py ℚ) (maxIter maxTime : Limit) (eps : ℚ) :
    (fuel : Nat) → BOState → BOState × RunResult
  | 0, s => (s, .running)
  | fuel + 1, s => match boRound env obj maxIter maxTime eps s with
    | .stop s' why => (s', .done why)
    | .raised s' e => (s', .raised e)
    | .next s' => boLoop env obj maxIter maxTime eps fuel s'

/-- `best_value` (`util/general.py:131-142`, `sign = 1`): minimum of every non-empty prefix. -/
def bestValue (Y : Vec) : Vec :=
  (List.range Y.length).map fun i => ((Y.take (i + 1)).foldl min ((Y.take (i + 1)).headD 0))

/-- `_compute_results` (`bo.py:206-212`). -/
def computeResults (X : Mat) (Y : Vec) : Py Results :=
  match argmin Y with
  | .error e => .error e
  | .ok i => match npGet X i with
    | .error e => .error e
    | .ok x => match npGet Y i with
      | .error e => .error e
      | .ok y => .ok { yBest := bestValue Y, xOpt := x, fxOpt := y }

/-- Arguments of `run_optimization` (`bo.py:78`); `none` is Python's `None`. Report and result files
are not part of the run (see `saveEvaluations`). -/
structure RunArgs where
  maxIter : Option Limit := some (.fin 0)
  maxTime : Option Limit := some .inf
  eps : ℚ := 1 / 10 ^ 8
  context : Option Context := none

/-- Stop conditions (`bo.py:112-123`). -/
def RunArgs.limits (a : RunArgs) : Limit × Limit :=
  match a.maxIter, a.maxTime with
  | none, none => (.fin 0, .inf)
  | none, some t => (.inf, t)
  | some n, none => (n, .inf)
  | some n, some t => (n, t)

/-- `run_optimization` up to the loop (`bo.py:101-136`). -/
def runStart (env : BOEnv) (obj : Nat → Vec → Py ℚ) (a : RunArgs) (s : BOState) :
    BOState × Py Unit :=
  let s1 := { s with params := none, context := a.context }
  let init (s : BOState) : BOState :=
    { s with timeZero := env.clock s.world.ticks
             world := { s.world with ticks := s.world.ticks + 1 }, cumTime := 0, numAcq := 0 }
  match s.Y with
  | some _ => (init s1, .ok ())
  | none => match evalFunc obj env.clock s1.X s1.world with
    | (w, .error e) => ({ s1 with world := w }, .error e)
    | (w, .ok (ys, ts)) =>
      let s2 := { s1 with world := w, Y := some ys }
      if s2.cost.kind = .evaluationTime then
        match s2.cost.update env.lg (env.costFit s2) s2.X (.list ts) with
        | (c, .error e) => ({ s2 with cost := c }, .error e)
        | (c, .ok ()) => (init { s2 with cost := c }, .ok ())
      else (init s2, .ok ())

/-- `run_optimization` (`bo.py:78-167`). -/
def runOptimization (env : BOEnv) (a : RunArgs) (fuel : Nat) (s : BOState) : BOState × RunResult :=
  match env.obj with
  | none => (s, .raised .invalidConfig)
  | some obj => match runStart env obj a s with
    | (s1, .error e) => (s1, .raised e)
    | (s1, .ok ()) =>
      match boLoop env obj a.limits.1 a.limits.2 a.eps fuel s1 with
      | (s2, .done why) => match s2.Y with
        | none => (s2, .raised .attributeError)
        | some Y => match computeResults s2.X Y with
          | .error e => (s2, .raised e)
          | .ok r => ({ s2 with results := some r }, .done why)
      | r => r

/-- `suggest_next_locations` (`bo.py:60-76`). -/
def suggestNext (env : BOEnv) (context : Option Context) (pending ignored : Option Mat)
    (s : BOState) : BOState × Py Mat :=
  let s1 := { s with params := none, numAcq := 0, context := context }
  match updateModel env s1 with
  | (s2, .error e) => (s2, .error e)
  | (s2, .ok ()) => (s2, env.suggest s2 pending ignored)

/-- `suggest` of a `BO` object: `_compute_next_evaluations` (`bo.py:223-241`) with the object's
context and data; the acquisition and the random numbers may depend on the whole state. -/
def stdSuggest (sp : Space) (ev : Evaluator) (envs : BOState → EvalEnv) (deDup : Bool) (s : BOState)
    (pending ignored : Option Mat) : Py Mat :=
  computeNext ev (envs s) sp s.context deDup s.X pending ignored

/-- `save_evaluations` (`bo.py:376-387`): the table that is written. `np.hstack` requires the same
number of rows. -/
def saveEvaluations (X : Mat) (Y : Vec) : Py (List String × Mat) :=
  if X.length = Y.length then
    let width := (X.headD []).length
    .ok (["Iteration", "Y"] ++ (List.range width).map (fun k => "var_" ++ toString (k + 1)),
      List.zipWith (fun (k : Nat) (yx : ℚ × Vec) => ((k : ℚ) + 1) :: yx.1 :: yx.2)
        (List.range Y.length) (List.zip Y X))
  else .error .valueError

/-- `_sign` (`methods/bayesian_optimization.py:200-204`). -/
def signed (maximize : Bool) (f : Nat → Vec → Py ℚ) : Nat → Vec → Py ℚ :=
  if maximize then fun k x => (f k x).map Neg.neg else f

end GPyOpt
