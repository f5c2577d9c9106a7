import Verif.Model.Cost
import Mathlib.Analysis.SpecialFunctions.ExpDeriv

/-!
# Model of the predicted cost (`GPyOpt/core/task/cost.py:42-53`) and of the wiring of the cost model in
`GPyOpt/methods/bayesian_optimization.py`
-/

namespace GPyOpt

/-- The `cost_withGradients` attribute of a `CostModel` (`cost.py:30`, `:35`, `:38`), evaluated at one
location of dimension `d`. `gp data x` are the mean and its gradient of a GP fitted on `data`
(`predict_withGradients`), `user x` the outcome of the given cost function. -/
noncomputable def CostModel.costWithGradients (gp : Mat × Vec → (Nat → ℝ) → ℝ × (Nat → ℝ))
    (user : (Nat → ℝ) → Py (ℝ × (Nat → ℝ))) (c : CostModel) (x : Nat → ℝ) : Py (ℝ × (Nat → ℝ)) :=
  match c.kind with
  | .constant => .ok (1, fun _ => 0)
  | .evaluationTime => match c.data with
    | none => .error .attributeError
    | some D => .ok (Real.exp (gp D x).1, fun i => Real.exp (gp D x).1 * (gp D x).2 i)
  | .userDefined => user x

/-- The two cost models of a `BayesianOptimization` object: the one whose `cost_withGradients` the
acquisition uses (`bayesian_optimization.py:112`, `:178`) and the one that the loop updates
(`:169` passes the first one to `BO.__init__`, which wraps it again, `bo.py:53`). -/
structure BayesCost where
  acquisition : CostModel
  loop : CostModel

/-- `BayesianOptimization.__init__` (`bayesian_optimization.py:112`, `:169`; `bo.py:53`). -/
def bayesCostInit (a : CostArg) : BayesCost :=
  { acquisition := costModelInit a, loop := costModelInit .costModel }

/-- `self.cost.update_cost_model` in the loop (`bo.py:129`, `:203`). -/
def BayesCost.update (lg : ℚ → ℚ) (fit : Py Unit) (b : BayesCost) (x : Mat) (t : CostEvals) :
    BayesCost × Py Unit :=
  ({ b with loop := (b.loop.update lg fit x t).1 }, (b.loop.update lg fit x t).2)

end GPyOpt
