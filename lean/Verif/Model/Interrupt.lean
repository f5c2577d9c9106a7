import Verif.Model.ParallelRun

/-!
# Interrupts

A user who presses Ctrl-C raises `KeyboardInterrupt` between any two statements, or inside of the user's function, of a fit or of
any other call. No statement of `GPyOpt/core/bo.py` catches it (`bo.py:143` catches `LinAlgError` only). What is left are the
attributes of the object at that moment. Here are the states that an object goes through in `run_optimization` and
`suggest_next_locations`: one before the first assignment of an attribute, and one after each.

The functions follow those of `Model/BO.lean`, `Model/Cost.lean` statement by statement; that the last state is the one of
`runOptimization` is proved (`C167_last_moment`). Attributes that nothing reads again (`suggested_sample`, `Y_new`, `verbosity`,
the paths of the files) are left out, as in `Model/BO.lean`. The parts of an object of GPy that is interrupted in a fit are not
modelled.
-/

namespace GPyOpt

/-- Calls and clock readings while rows are evaluated one after the other (`_eval_func`, `objective.py:64-77`): before a row, after
the first reading of the clock, when the function has been interrupted (it raises, as for any exception), when it has returned,
and after the second reading. -/
def evalMoments (obj : Nat → Vec → Py ℚ) : Mat → World → List World
  | [], w => [w]
  | x :: xs, w =>
    [w, { w with ticks := w.ticks + 1 },
      { calls := w.calls ++ [(x, .error .objectiveError)], ticks := w.ticks + 1 }] ++
    match obj w.calls.length x with
    | .error e => [{ calls := w.calls ++ [(x, .error e)], ticks := w.ticks + 1 }]
    | .ok y => { calls := w.calls ++ [(x, .ok y)], ticks := w.ticks + 1 } ::
        evalMoments obj xs { calls := w.calls ++ [(x, .ok y)], ticks := w.ticks + 2 }

/-- The cost model in `update_cost_model` (`cost.py:55-74`): the update is counted (`:73`) before the GP is given the data
(`:74`). -/
def CostModel.moments (lg : ℚ → ℚ) (fit : Py Unit) (c : CostModel) (x : Mat) (t : CostEvals) : List CostModel :=
  if (c.update lg fit x t).1.numUpdates = c.numUpdates then [c]
  else [c, { c with numUpdates := c.numUpdates + 1 }, (c.update lg fit x t).1]

/-- `_update_model` (`bo.py:243-261`): before the model is given the data, when it has been called (`:258`), and after the
parameters have been stored (`:261`). -/
def updateMoments (env : BOEnv) (s : BOState) : List BOState :=
  if env.interval ≠ 0 ∧ (s.numAcq : Int) % env.interval = 0 then
    match env.sp.unzipInputs s.X, s.Y with
    | .ok Xm, some Y =>
      [s, { s with fits := s.fits ++ [{ acq := s.numAcq, X := Xm, Y := env.modelY Y }] }, (updateModel env s).1]
    | _, _ => [s]
  else [s, (updateModel env s).1]

/-- `evaluate_objective` (`bo.py:198-204`) at the rows `m`. -/
def evaluateMoments (env : BOEnv) (obj : Nat → Vec → Py ℚ) (s : BOState) (m : Mat) : List BOState :=
  (evalMoments obj m s.world).map (fun w => { s with world := w }) ++
  match evalFunc obj env.clock m s.world with
  | (_, .error _) => []
  | (w, .ok (_, ts)) =>
    (s.cost.moments env.lg (env.costFit s) m (.list ts)).map (fun c => { s with world := w, cost := c }) ++
      [(evaluateObjective env obj s m).1]

/-- One round of the loop (`bo.py:139-160`): the locations are added (`:153`) before they are evaluated (`:156`); afterwards the
time (`:159`) and the number of acquisitions (`:160`) are set. -/
def roundMoments (env : BOEnv) (obj : Nat → Vec → Py ℚ) (maxIter maxTime : Limit) (eps : ℚ) (s : BOState) : List BOState :=
  if maxTime.exceeds s.cumTime then
    updateMoments env s ++
    match updateModel env s with
    | (_, .error _) => []
    | (s1, .ok ()) =>
      if ¬ maxIter.exceeds (s1.numAcq : ℚ) ∨ lastTwoClose eps s1.X then []
      else match env.suggest s1 none none with
        | .error _ => []
        | .ok m =>
          evaluateMoments env obj { s1 with X := s1.X ++ m } m ++
          match evaluateObjective env obj { s1 with X := s1.X ++ m } m with
          | (_, .error _) => []
          | (s2, .ok ()) =>
            let s3 : BOState := { s2 with
              cumTime := env.clock s2.world.ticks - s2.timeZero
              world := { s2.world with ticks := s2.world.ticks + 1 } }
            [s3, { s3 with numAcq := s3.numAcq + 1 }]
  else [s]

/-- The loop (`bo.py:139-160`), at most `fuel` rounds. -/
def loopMoments (env : BOEnv) (obj : Nat → Vec → Py ℚ) (maxIter maxTime : Limit) (eps : ℚ) :
    (fuel : Nat) → BOState → List BOState
  | 0, s => [s]
  | fuel + 1, s => roundMoments env obj maxIter maxTime eps s ++
    match boRound env obj maxIter maxTime eps s with
    | .next s' => loopMoments env obj maxIter maxTime eps fuel s'
    | _ => []

/-- `run_optimization` up to the loop (`bo.py:97-136`): the stored parameters are dropped (`:101`), the context is set (`:102`),
the initial locations are evaluated if they are not (`:126-129`), the clock is started (`:132`), time and number of acquisitions are
set to 0 (`:133-134`). -/
def startMoments (env : BOEnv) (obj : Nat → Vec → Py ℚ) (a : RunArgs) (s : BOState) : List BOState :=
  let s1 : BOState := { s with params := none, context := a.context }
  let clocks (s : BOState) : List BOState :=
    let t : BOState := { s with timeZero := env.clock s.world.ticks, world := { s.world with ticks := s.world.ticks + 1 } }
    [t, { t with cumTime := 0 }, { t with cumTime := 0, numAcq := 0 }]
  [s, { s with params := none }, s1] ++
  match s.Y with
  | some _ => clocks s1
  | none => (evalMoments obj s1.X s1.world).map (fun w => { s1 with world := w }) ++
    match evalFunc obj env.clock s1.X s1.world with
    | (_, .error _) => []
    | (w, .ok (ys, ts)) =>
      let s2 : BOState := { s1 with world := w, Y := some ys }
      if s2.cost.kind = .evaluationTime then
        (s2.cost.moments env.lg (env.costFit s2) s2.X (.list ts)).map (fun c => { s2 with cost := c }) ++
        match s2.cost.update env.lg (env.costFit s2) s2.X (.list ts) with
        | (_, .error _) => []
        | (c, .ok ()) => clocks { s2 with cost := c }
      else s2 :: clocks s2

/-- An object at a moment of `_compute_results` (`bo.py:206-212`), which sets three attributes one after the other. -/
structure Moment where
  state : BOState
  yBest : Option Vec
  xOpt : Option Vec
  fxOpt : Option ℚ

/-- The object when no assignment of `_compute_results` is under way. -/
def BOState.moment (s : BOState) : Moment :=
  { state := s, yBest := s.results.map (·.yBest), xOpt := s.results.map (·.xOpt), fxOpt := s.results.map (·.fxOpt) }

/-- `_compute_results` (`bo.py:206-212`) with the results `r`. -/
def resultMoments (s : BOState) (r : Results) : List Moment :=
  [{ s.moment with yBest := some r.yBest }, { s.moment with yBest := some r.yBest, xOpt := some r.xOpt },
    ({ s with results := some r } : BOState).moment]

/-- `run_optimization` (`bo.py:78-167`) without the files. If there are no outputs the results raise at `np.min` of nothing or of
`None`; `Y_best` is then set or not, and this moment is left out. -/
def runMoments (env : BOEnv) (a : RunArgs) (fuel : Nat) (s : BOState) : List Moment :=
  match env.obj with
  | none => [s.moment]
  | some obj => (startMoments env obj a s).map BOState.moment ++
    match runStart env obj a s with
    | (_, .error _) => []
    | (s1, .ok ()) => (loopMoments env obj a.limits.1 a.limits.2 a.eps fuel s1).map BOState.moment ++
      match boLoop env obj a.limits.1 a.limits.2 a.eps fuel s1 with
      | (s2, .done _) => match s2.Y with
        | none => []
        | some Y => match computeResults s2.X Y with
          | .error _ => []
          | .ok r => resultMoments s2 r
      | _ => []

/-- `suggest_next_locations` (`bo.py:60-76`): parameters, number of acquisitions and context are set, then the model is updated;
the suggestion sets no attribute of the object. -/
def suggestMoments (env : BOEnv) (context : Option Context) (s : BOState) : List BOState :=
  [s, { s with params := none }, { s with params := none, numAcq := 0 }] ++
    updateMoments env { s with params := none, numAcq := 0, context := context }

/-- What a user can do after an interrupt: remove the locations without output, `bo.X = bo.X[:len(bo.Y)]`. -/
def BOState.repair (s : BOState) : BOState :=
  match s.Y with
  | none => s
  | some Y => { s with X := s.X.take Y.length }

/-- `SingleObjective.evaluate` (`objective.py:44-61`) when the user interrupts. With one process the interrupt leaves `evaluate`.
With several, everything that `_syncronous_batch_evaluation` raises is caught (`except:`, `:54`), an interrupt too, and all rows
are evaluated again in the process of the optimizer (`:59`). -/
inductive EvaluateInterrupted (n : Nat) (f : Vec → Py ℚ) (clock : Nat → ℚ) (w : World) (x : Mat) :
    Option (Py (Vec × CostEvals)) → Prop
  | leaves : n = 1 → EvaluateInterrupted n f clock w x none
  | caught : n ≠ 1 →
      EvaluateInterrupted n f clock w x (some ((evalFunc (fun _ => f) clock x w).2.map fun r => (r.1, .list r.2)))

/-- The evaluations of a run with `n` processes in which the user interrupts some of the evaluations: an evaluation returns what
it returns without an interrupt, or what is left of the interrupt. -/
def InterruptedEvaluation (n : Nat) (f : Vec → Py ℚ) (size : Vec → Nat) (cap : Nat) (canStart : Bool) (clock : Nat → ℚ)
    (ev : Evaluation) : Prop :=
  ∀ s m w r, ev s m = some (w, r) → ObjEvaluates n f size cap canStart clock s.world m r ∨
    EvaluateInterrupted n f clock s.world m (some r)

end GPyOpt
