import Verif.Model.BO
import Verif.Model.Constructor

/-!
# The optimization loop with several processes

`Model/BO.lean` has the loop with an objective that is evaluated in the process of the optimizer. Here the same functions take
any evaluation of a batch: `self.objective.evaluate(x)` (`objective.py:42-61`) may use several processes, and may never return.
-/

namespace GPyOpt

/-- What a call of `self.objective.evaluate(x)` does: outputs and costs, or an exception, and the calls and clock readings it
leaves behind; `none` if it never returns. It may depend on everything that happened before. -/
abbrev Evaluation := BOState → Mat → Option (World × Py (Vec × CostEvals))

/-- The evaluation with one process (`objective.py:46-47`). -/
def seqEvaluation (obj : Nat → Vec → Py ℚ) (clock : Nat → ℚ) : Evaluation := fun s m =>
  some ((evalFunc obj clock m s.world).1, (evalFunc obj clock m s.world).2.map fun r => (r.1, .list r.2))

/-- `evaluate_objective` (`bo.py:198-204`). -/
def evaluateObjectiveBy (env : BOEnv) (ev : Evaluation) (s : BOState) (m : Mat) : Option (BOState × Py Unit) :=
  match ev s m with
  | none => none
  | some (w, .error e) => some ({ s with world := w }, .error e)
  | some (w, .ok (ys, ts)) =>
    match s.cost.update env.lg (env.costFit s) m ts with
    | (c, .error e) => some ({ s with world := w, cost := c }, .error e)
    | (c, .ok ()) => match s.Y with
      | none => some ({ s with world := w, cost := c }, .error .valueError)
      | some Y => some ({ s with world := w, cost := c, Y := some (Y ++ ys) }, .ok ())

/-- One round of the loop (`bo.py:139-160`), see `boRound`; `none` if it never ends. -/
def boRoundBy (env : BOEnv) (ev : Evaluation) (maxIter maxTime : Limit) (eps : ℚ) (s : BOState) : Option Round :=
  if maxTime.exceeds s.cumTime then
    match updateModel env s with
    | (s1, .error .linAlg) => some (.stop s1 .fit)
    | (s1, .error e) => some (.raised s1 e)
    | (s1, .ok ()) =>
      if ¬ maxIter.exceeds (s1.numAcq : ℚ) ∨ lastTwoClose eps s1.X then some (.stop s1 .limit)
      else match env.suggest s1 none none with
        | .error e => some (.raised s1 e)
        | .ok m =>
          match evaluateObjectiveBy env ev { s1 with X := s1.X ++ m } m with
          | none => none
          | some (s2, .error e) => some (.raised s2 e)
          | some (s2, .ok ()) =>
            some (.next { s2 with
              cumTime := env.clock s2.world.ticks - s2.timeZero
              world := { s2.world with ticks := s2.world.ticks + 1 }
              numAcq := s2.numAcq + 1 })
  else some (.stop s .time)

/-- The loop (`bo.py:139-160`), at most `fuel` rounds. -/
def boLoopBy (env : BOEnv) (ev : Evaluation) (maxIter maxTime : Limit) (eps : ℚ) :
    (fuel : Nat) → BOState → Option (BOState × RunResult)
  | 0, s => some (s, .running)
  | fuel + 1, s => match boRoundBy env ev maxIter maxTime eps s with
    | none => none
    | some (.stop s' why) => some (s', .done why)
    | some (.raised s' e) => some (s', .raised e)
    | some (.next s') => boLoopBy env ev maxIter maxTime eps fuel s'

/-- `run_optimization` up to the loop (`bo.py:101-136`). -/
def runStartBy (env : BOEnv) (ev : Evaluation) (a : RunArgs) (s : BOState) : Option (BOState × Py Unit) :=
  let s1 := { s with params := none, context := a.context }
  let init (s : BOState) : BOState :=
    { s with timeZero := env.clock s.world.ticks
             world := { s.world with ticks := s.world.ticks + 1 }, cumTime := 0, numAcq := 0 }
  match s.Y with
  | some _ => some (init s1, .ok ())
  | none => match ev s1 s1.X with
    | none => none
    | some (w, .error e) => some ({ s1 with world := w }, .error e)
    | some (w, .ok (ys, ts)) =>
      let s2 := { s1 with world := w, Y := some ys }
      if s2.cost.kind = .evaluationTime then
        match s2.cost.update env.lg (env.costFit s2) s2.X ts with
        | (c, .error e) => some ({ s2 with cost := c }, .error e)
        | (c, .ok ()) => some (init { s2 with cost := c }, .ok ())
      else some (init s2, .ok ())

/-- `run_optimization` (`bo.py:78-167`) of an object with an objective. -/
def runOptimizationBy (env : BOEnv) (ev : Evaluation) (a : RunArgs) (fuel : Nat) (s : BOState) : Option (BOState × RunResult) :=
  match runStartBy env ev a s with
  | none => none
  | some (s1, .error e) => some (s1, .raised e)
  | some (s1, .ok ()) =>
    match boLoopBy env ev a.limits.1 a.limits.2 a.eps fuel s1 with
    | none => none
    | some (s2, .done why) => match s2.Y with
      | none => some (s2, .raised .attributeError)
      | some Y => match computeResults s2.X Y with
        | .error e => some (s2, .raised e)
        | .ok r => some ({ s2 with results := some r }, .done why)
    | some r => some r

/-- The evaluations that `n` processes can make of an objective that is a function of the location: every interleaving of
their steps, with the sequential evaluation if the processes cannot be started (`objective.py:42-61`). Calls and clock
readings are not restricted. -/
def ProcessEvaluation (n : Nat) (f : Vec → Py ℚ) (size : Vec → Nat) (cap : Nat) (canStart : Bool) (clock : Nat → ℚ)
    (ev : Evaluation) : Prop :=
  ∀ s m w r, ev s m = some (w, r) → ObjEvaluates n f size cap canStart clock s.world m r

end GPyOpt
