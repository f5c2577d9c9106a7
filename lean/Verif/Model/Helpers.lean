import Verif.Model.General
import Verif.Model.Cost
import Mathlib.Analysis.SpecialFunctions.Sqrt

/-!
# Model of the remaining helpers of `GPyOpt/util/general.py`

`compute_integrated_acquisition`, `samples_multidimensional_uniform`, `get_moments`, `get_d_moments` and
`evaluate_function`.
-/

namespace GPyOpt

/-- Attributes of a `GPModel_MCMC` object after an update (`gpmodel.py:197-211`, `:218-227`, `:251-255`). -/
def mcmcAttributes : List String :=
  ["MCMC_sampler", "analytical_gradient_prediction", "kernel", "noise_var", "exact_feval", "verbose", "n_samples",
   "subsample_interval", "n_burnin", "step_size", "leapfrog_steps", "model", "input_dim", "hmc", "hmc_samples"]

/-- `compute_integrated_acquisition` (`general.py:9-24`): `attrs` are the attributes of the model, `num` the value of
`num_hmc_samples`, and `value i` the acquisition with the `i`-th sample of the parameters. -/
noncomputable def integratedAcquisition (attrs : List String) (num : Nat) (value : Nat → ℝ) : Py ℝ :=
  if attrs.contains "num_hmc_samples" then
    if num = 0 then .error .zeroDivision
    else .ok (((List.range num).map value).sum / num)
  else .error .attributeError

/-- `compute_integrated_acquisition_withGradients` (`general.py:26-46`), with one component of the gradient: `value i` and
`grad i` are what the acquisition returns with the `i`-th sample of the parameters. -/
noncomputable def integratedGradient (attrs : List String) (num : Nat) (value grad : Nat → ℝ) : Py (ℝ × ℝ) :=
  if attrs.contains "num_hmc_samples" then
    if num = 0 then .error .zeroDivision
    else .ok (((List.range num).map value).sum / num, ((List.range num).map grad).sum / num)
  else .error .attributeError

/-- `samples_multidimensional_uniform` (`general.py:63-73`): `u r k` is the `r`-th number of the `k`-th call of the
generator in `[0, 1)`, scaled by `np.random.uniform`. -/
def uniformSamples (bounds : List (ℚ × ℚ)) (n : Nat) (u : Nat → Nat → ℚ) : Mat :=
  (List.range n).map fun r => bounds.zipIdx.map fun b => b.1.1 + (b.1.2 - b.1.1) * u r b.2

/-- `get_moments` (`general.py:86-96`) at one location: `predict` are mean and variance, `X` the data of the model. -/
noncomputable def getMoments (predict : List ℝ → ℝ × ℝ) (X : List (List ℝ)) (x : List ℝ) : Py (ℝ × ℝ × ℝ) :=
  if X = [] then .error .valueError
  else .ok ((predict x).1, Real.sqrt (max (predict x).2 0), minR (X.map fun z => (predict z).1))

/-- `get_d_moments` (`general.py:98-110`), one component: the derivatives of mean and variance are `dm` and `dv`. The
quotient by zero or by the root of a negative number (`nan` in numpy) is totalized. -/
noncomputable def getDMoments (v dm dv : ℝ) : ℝ × ℝ := (dm, dv / (2 * Real.sqrt v))

/-- The assignment `Y_eval[i,:] = f(X[i,:])` (`general.py:163`) in a row of `d` columns: one value is repeated, as many
values as columns are copied, other numbers raise. -/
def broadcastRow (d : Nat) (y : Vec) : Py Vec :=
  if y.length = 1 then .ok (List.replicate d (y.headD 0))
  else if y.length = d then .ok y
  else .error .valueError

/-- `evaluate_function` (`general.py:154-165`): the outputs, and the times from the clock (`t k` is its `k`-th reading).
`i` counts the rows evaluated before. -/
def evaluateFunction (f : Vec → Py Vec) (t : Nat → ℚ) (d : Nat) : Nat → Mat → Py (Mat × Vec)
  | _, [] => .ok ([], [])
  | i, x :: xs => match f x with
    | .error e => .error e
    | .ok y => match broadcastRow d y with
      | .error e => .error e
      | .ok row => match evaluateFunction f t d (i + 1) xs with
        | .error e => .error e
        | .ok (Y, T) => .ok (row :: Y, (t (2 * i + 1) - t (2 * i)) :: T)

end GPyOpt
