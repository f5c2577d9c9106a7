import Verif.Model.General
import Verif.Model.EntropySearch
import Verif.Model.Space

/-!
# Models other than `GPModel`: random forests, warped GPs; the sampler of entropy search

`GPyOpt/models/rfmodel.py`, `warpedgpmodel.py`, `input_warped_gpmodel.py`, the construction of GPy models in
`gpmodel.py`, and `GPyOpt/util/mcmc_sampler.py`.
-/

namespace GPyOpt

/-! ## Random forests -/

/-- An `RFModel` object: `self.X`, `self.Y`, and the data of the calls of `fit` of the scikit-learn forest
(none before the first update). -/
structure RFObj where
  data : Option (Mat × Vec) := none
  fits : List (Mat × Vec) := []
  deriving DecidableEq

/-- `RFModel.updateModel` and `_create_model` (`rfmodel.py:42-77`): the forest is created in the first update,
and fitted to all the data in each. -/
def RFObj.update (m : RFObj) (X : Mat) (Y : Vec) : RFObj :=
  { data := some (X, Y), fits := m.fits ++ [(X, Y)] }

/-- The loop body of `RFModel.predict` (`rfmodel.py:87-92`) for the row `x`: mean and standard deviation of the
predictions of the trees. Trees may refuse a single row (scikit-learn from version 0.19 on). A forest has at least one
tree. -/
noncomputable def rfPredictRow (trees : List (List ℝ → Py ℝ)) (x : List ℝ) : Py (ℝ × ℝ) :=
  match mapE (fun t : List ℝ → Py ℝ => t x) trees with
  | .error e => .error e
  | .ok preds => if preds = [] then .error .unmodelled else .ok (meanR preds, stdR preds)

/-- `RFModel.predict` (`rfmodel.py:79-93`). -/
noncomputable def rfPredict (trees : List (List ℝ → Py ℝ)) (X : List (List ℝ)) : Py (List ℝ × List ℝ) :=
  match mapE (rfPredictRow trees) X with
  | .error e => .error e
  | .ok ms => .ok (ms.map Prod.fst, ms.map Prod.snd)

/-- `RFModel.get_fmin` (`rfmodel.py:95-96`); `forest` is the `predict` of the scikit-learn forest. The minimum of an
empty array raises `ValueError`. -/
noncomputable def rfFmin (forest : List (List ℝ) → Py (List ℝ)) (X : List (List ℝ)) : Py ℝ :=
  match forest X with
  | .error e => .error e
  | .ok m => if m = [] then .error .valueError else .ok (minR m)

/-! ## Warped GPs -/

/-- `WarpedGPModel.predict` for one point (`warpedgpmodel.py:61-65`): `mv` is the mean and variance GPy predicts. -/
noncomputable def warpedPredict (mv : ℝ × ℝ) : ℝ × ℝ := (mv.1, Real.sqrt (max mv.2 (1 / 10 ^ 10)))

/-- The GPy models the library constructs. -/
inductive GPClass
  | regression | sparse | mcmc | warped | inputWarped
  deriving DecidableEq

/-- Constraint of the noise variance of a GPy model: fixed, in an interval, or positive. -/
inductive NoiseConstraint
  | fixed (v : ℚ) | bounded (lo hi : ℚ) | positive
  deriving DecidableEq

/-- `Y.var()` -/
def varQ (Y : Vec) : ℚ := ((Y.map fun y => (y - Y.sum / Y.length) ^ 2).sum) / Y.length

/-- What GPy is told about the noise: the initial variance (`none` if the argument is not passed, then GPy starts at
one) and the constraint. -/
structure NoiseSpec where
  initial : Option ℚ
  constraint : NoiseConstraint
  deriving DecidableEq

/-- The noise in `_create_model` (`gpmodel.py:65-76`, `:225-238`, `warpedgpmodel.py:42-50`,
`input_warped_gpmodel.py:79-88`): all compute `noise_var`, but only two pass it on. -/
def createNoise (c : GPClass) (noiseVar : Option ℚ) (exactFeval : Bool) (Y : Vec) : NoiseSpec :=
  let nv := match noiseVar with
    | none => varQ Y * (1 / 100)
    | some v => v
  { initial := match c with
      | .regression => some nv
      | .mcmc => some nv
      | _ => none
    constraint :=
      if exactFeval then .fixed (1 / 10 ^ 6)
      else match c with
        | .mcmc => .positive
        | .warped => .positive
        | _ => .bounded (1 / 10 ^ 9) (10 ^ 6) }

/-- `X.min(axis=0)` -/
def colMin : Mat → Vec
  | [] => []
  | [r] => r
  | r :: m => List.zipWith min r (colMin m)

/-- `X.max(axis=0)` -/
def colMax : Mat → Vec
  | [] => []
  | [r] => r
  | r :: m => List.zipWith max r (colMax m)

/-- The range of the inputs an `InputWarpedGPModel` has given to GPy, if it has been created. -/
abbrev WarpRange := Option (Vec × Vec)

/-- `updateModel` (`gpmodel.py:78-84`) with `InputWarpedGPModel._create_model` (`input_warped_gpmodel.py:81-82`): the range is
that of the data of the first update, later updates replace the data only. The minimum of an empty array raises
`ValueError`. -/
def warpUpdate (st : WarpRange) (X : Mat) : Py WarpRange :=
  match st with
  | some r => .ok (some r)
  | none => if X = [] then .error .valueError else .ok (some (colMin X, colMax X))

/-- A sequence of updates. -/
def warpUpdates (st : WarpRange) : List Mat → Py WarpRange
  | [] => .ok st
  | X :: Xs => match warpUpdate st X with
    | .error e => .error e
    | .ok st' => warpUpdates st' Xs

/-! ## Entropy search on a space -/

/-- `AffineInvariantEnsembleSampler.get_samples` (`mcmc_sampler.py:39-59`): `restarts` is the random design and `run` the
Markov chains. `emcee` asserts an even number of walkers that is at least twice the dimension, and start
positions with as many columns as the dimension. -/
def ensembleSamples {α : Type} (sp : Space) (n : Nat) (restarts : Py Mat) (run : Mat → Py α) : Py α :=
  match restarts with
  | .error e => .error e
  | .ok r => match sp.inputDim with
    | .error e => .error e
    | .ok d =>
      if n % 2 ≠ 0 ∨ n < 2 * d then .error .exception
      else if r.any (fun x => x.length != d) then .error .valueError
      else run r

/-- `_compute_acq` (`ES.py:124-170`) of an object made for the space `sp` (`ES.py:47`), at one model row. -/
noncomputable def esEvaluate (sp : Space) (W : List ℝ) (post : Posterior) (samples : List (List ℝ × LogVal))
    (st : Option ESParams) (z : Vec) : Py (List ℝ) × Option ESParams :=
  match sp.inputDim with
  | .error e => (.error e, st)
  | .ok d => esCompute d W post samples z.length [z.map fun q : ℚ => (q : ℝ)] st

end GPyOpt
