import Verif.Py

/-!
# Model of `GPyOpt/core/task/cost.py` and of the sequential part of `GPyOpt/core/task/objective.py`
-/

namespace GPyOpt

/-! ## Objective -/

/-- Everything the evaluation of the objective changes outside of the optimizer: the calls of the
user's function with their outcomes, and the number of readings of the clock. -/
structure World where
  calls : List (Vec × Py ℚ)
  ticks : Nat
  deriving DecidableEq

/-- `_eval_func` (`objective.py:64-77`): rows are evaluated in order; `obj k x` is the outcome of the
`k`-th call of the user's function, `clock k` the `k`-th reading of the clock. Returns the outputs and
the evaluation times. Simplification: the function returns one number per row. -/
def evalFunc (obj : Nat → Vec → Py ℚ) (clock : Nat → ℚ) : Mat → World → World × Py (Vec × Vec)
  | [], w => (w, .ok ([], []))
  | x :: xs, w =>
    match obj w.calls.length x with
    | .error e => ({ calls := w.calls ++ [(x, .error e)], ticks := w.ticks + 1 }, .error e)
    | .ok y =>
      match evalFunc obj clock xs { calls := w.calls ++ [(x, .ok y)], ticks := w.ticks + 2 } with
      | (w', .error e) => (w', .error e)
      | (w', .ok (ys, ts)) => (w', .ok (y :: ys, (clock (w.ticks + 1) - clock w.ticks) :: ts))

/-! ## Cost model -/

/-- The argument of `CostModel(cost_withGradients)`: nothing, a string, a function, or another
`CostModel` object. -/
inductive CostArg
  | none | str (s : String) | function | costModel
  deriving DecidableEq

/-- `cost_type` after construction (`cost.py:28-38`). -/
inductive CostKind
  | constant | evaluationTime | userDefined
  deriving DecidableEq

/-- `CostModel` object: kind, number of updates, and the data held by the GP
(`self.cost_model.model.X`, `.Y`; `none` before the GP is created). -/
structure CostModel where
  kind : CostKind
  numUpdates : Nat
  data : Option (Mat × Vec)
  deriving DecidableEq

/-- `CostModel.__init__` (`cost.py:22-38`). -/
def costModelInit (a : CostArg) : CostModel :=
  match a with
  | .none => { kind := .constant, numUpdates := 0, data := none }
  | .str s => if s = "evaluation_time" then { kind := .evaluationTime, numUpdates := 0, data := none }
    else { kind := .userDefined, numUpdates := 0, data := none }
  | .function => { kind := .userDefined, numUpdates := 0, data := none }
  | .costModel => { kind := .userDefined, numUpdates := 0, data := none }

/-- The evaluation times as returned by the objective: a list (`_eval_func`, `objective.py:69`) or an
array with one column (`_syncronous_batch_evaluation`, `objective.py:96`). -/
inductive CostEvals
  | list (ts : Vec)
  | column (ts : Vec)

/-- `np.log(np.atleast_2d(np.asarray(cost_x)).T)` (`cost.py:64`), as a list of rows: a list becomes
one column, an array with one column becomes one row. `lg` is the logarithm. -/
def costColumn (lg : ℚ → ℚ) : CostEvals → Mat
  | .list ts => ts.map fun t => [lg t]
  | .column ts => [ts.map lg]

/-- The rows of a matrix with one column, as a vector. -/
def columnValues : Mat → Option Vec
  | [] => some []
  | [v] :: m => (columnValues m).map (v :: ·)
  | _ :: _ => none

/-- `update_cost_model` (`cost.py:55-74`). `fit` is the outcome of the optimization of the GP's
parameters. GPy requires as many outputs as inputs; a matrix of outputs that is not one column wide
has another number of rows than the inputs, and is modelled by the same exception. From the second update on such a
matrix is refused by `np.vstack` already, before the update is counted. -/
def CostModel.update (lg : ℚ → ℚ) (fit : Py Unit) (c : CostModel) (x : Mat) (t : CostEvals) :
    CostModel × Py Unit :=
  match c.kind with
  | .evaluationTime =>
    let c' := { c with numUpdates := c.numUpdates + 1 }
    if c.numUpdates = 0 then
      match columnValues (costColumn lg t) with
      | none => (c', .error .valueError)
      | some new =>
        if x.length = new.length then ({ c' with data := some (x, new) }, fit)
        else (c', .error .valueError)
    else match c.data with
      | none => (c, .error .attributeError)
      | some (X, Y) =>
        match columnValues (costColumn lg t) with
        | none => (c, .error .valueError)
        | some new =>
          if (X ++ x).length = (Y ++ new).length then
            ({ c' with data := some (X ++ x, Y ++ new) }, fit)
          else (c', .error .valueError)
  | _ => (c, .ok ())

end GPyOpt
