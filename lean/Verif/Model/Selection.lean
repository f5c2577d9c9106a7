import Verif.Model.BO

/-!
# Model of `GPyOpt/util/arguments_manager.py` and of the selectors by name
-/

namespace GPyOpt

/-- Evaluator classes. -/
inductive EvalKind
  | sequential | randomBatch | thompsonBatch | localPenalization
  deriving DecidableEq

/-- `evaluator_creator` (`arguments_manager.py:17-38`): `none` is Python's `None`, returned when no branch
applies. `isLP` tells whether the acquisition is an `AcquisitionLP` already; then `acquisition_lp` is
not assigned. -/
def evaluatorCreator (type : Option String) (isLP : Bool) (batchSize : Int) (modelType : String) :
    Py (Option EvalKind) :=
  if batchSize = 1 ∨ type = some "sequential" then .ok (some .sequential)
  else if batchSize > 1 ∧ (type = some "random" ∨ type = none) then .ok (some .randomBatch)
  else if batchSize > 1 ∧ type = some "thompson_sampling" then .ok (some .thompsonBatch)
  else if type = some "local_penalization" then
    if ¬ ["GP", "sparseGP", "GP_MCMC", "warpedGP"].contains modelType then .error .invalidConfig
    else if isLP then .error .unboundLocal
    else .ok (some .localPenalization)
  else .ok none

/-- Acquisition classes. -/
inductive AcqKind
  | ei | eiMCMC | mpi | mpiMCMC | lcb | lcbMCMC | lp | es
  deriving DecidableEq

/-- What an acquisition is created with: class, cost function given or not, parameter (jitter or
exploration weight). -/
structure AcqSpec where
  kind : AcqKind
  withCost : Bool
  param : ℚ
  deriving DecidableEq

/-- `acquisition_creator` (`arguments_manager.py:42-75`). -/
def acquisitionCreator (type : Option String) (jitter weight : Option ℚ) : Py AcqSpec :=
  let j := jitter.getD (1 / 100)
  let w := weight.getD 2
  if type = none ∨ type = some "EI" then .ok ⟨.ei, true, j⟩
  else if type = some "EI_MCMC" then .ok ⟨.eiMCMC, true, j⟩
  else if type = some "MPI" then .ok ⟨.mpi, true, j⟩
  else if type = some "MPI_MCMC" then .ok ⟨.mpiMCMC, true, j⟩
  else if type = some "LCB" then .ok ⟨.lcb, false, w⟩
  else if type = some "LCB_MCMC" then .ok ⟨.lcbMCMC, false, w⟩
  else .error .exception

/-- `select_acquisition` (`acquisitions/__init__.py:14-35`). -/
def selectAcquisition (name : String) : Py AcqKind :=
  if name = "EI" then .ok .ei
  else if name = "EI_MCMC" then .ok .eiMCMC
  else if name = "LCB" then .ok .lcb
  else if name = "LCB_MCMC" then .ok .lcbMCMC
  else if name = "MPI" then .ok .mpi
  else if name = "MPI_MCMC" then .ok .mpiMCMC
  else if name = "LP" then .ok .lp
  else if name = "ES" then .ok .es
  else .error .exception

/-- `select_evaluator` (`core/evaluators/__init__.py:10-20`). -/
def selectEvaluator (name : String) : Py EvalKind :=
  if name = "sequential" then .ok .sequential
  else if name = "random" then .ok .randomBatch
  else if name = "local_penalization" then .ok .localPenalization
  else if name = "thompson_sampling" then .ok .thompsonBatch
  else .error .exception

/-- Model classes. -/
inductive ModelKind
  | gp (sparse : Bool) | gpMCMC | rf | warpedGP | inputWarpedGP
  deriving DecidableEq

/-- `model_creator` (`arguments_manager.py:78-142`): `none` is Python's `None`. -/
def modelCreator (type : String) : Option ModelKind :=
  if type = "GP" ∨ type = "sparseGP" then some (.gp (type = "sparseGP"))
  else if type = "GP_MCMC" then some .gpMCMC
  else if type = "RF" then some .rf
  else if type = "warpedGP" then some .warpedGP
  else if type = "input_warped_GP" then some .inputWarpedGP
  else none

/-- `select_model` (`models/__init__.py:11-21`). -/
def selectModel (name : String) : Py ModelKind :=
  if name = "GP" then .ok (.gp false)
  else if name = "GP_MCMC" then .ok .gpMCMC
  else if name = "RF" then .ok .rf
  else if name = "warpGP" then .ok .warpedGP
  else .error .exception

/-- `MCMC_sampler` of the model classes (`models/base.py:12`, `gpmodel.py:198`). -/
def ModelKind.mcmc : ModelKind → Bool
  | .gpMCMC => true
  | _ => false

/-- Which classes define `get_model_parameters` (`gpmodel.py:161`, `:345`; `InputWarpedGPModel` inherits
it). -/
def ModelKind.hasParameters : ModelKind → Bool
  | .gp _ => true
  | .gpMCMC => true
  | .inputWarpedGP => true
  | .rf => false
  | .warpedGP => false

/-- `self.model.get_model_parameters()` as called by the loop (`bo.py:265`): a class without this method
raises `AttributeError`. -/
def paramsOf (m : ModelKind) (get : BOState → Vec) (s : BOState) : Py Vec :=
  if m.hasParameters then .ok (get s) else .error .attributeError

/-- Construction of an acquisition for a model (`acquisitions/base.py:22`: `None` has no
`analytical_gradient_prediction`; the integrated acquisitions assert that the model is an MCMC one,
`EI_mcmc.py:27`). -/
def acqInit (m : Option ModelKind) (a : AcqSpec) : Py (ModelKind × AcqSpec) :=
  match m with
  | none => .error .attributeError
  | some m =>
    if (a.kind = .eiMCMC ∨ a.kind = .mpiMCMC ∨ a.kind = .lcbMCMC) ∧ m.mcmc = false then
      .error .exception
    else .ok (m, a)

/-- The model and the acquisition `BayesianOptimization.__init__` creates
(`bayesian_optimization.py:126-160`), if no model or acquisition object is passed. -/
def chooseModelAcq (modelType : String) (acqType : Option String) (jitter weight : Option ℚ) :
    Py (ModelKind × AcqSpec) :=
  match acquisitionCreator acqType jitter weight with
  | .error e => .error e
  | .ok a => acqInit (modelCreator modelType) a

/-! ## Input warping -/

/-- The two nested loops of `InputWarpedGPModel.__init__` (`input_warped_gpmodel.py:51-57`), with counter
`i`, over the variables before expansion. -/
def warpingIndices : (i : Nat) → List Var → List Nat
  | _, [] => []
  | i, v :: vs =>
    (if v.kind.isContinuous || v.kind.isDiscrete then (List.range v.dimensionality).map (i + ·) else [])
      ++ warpingIndices (i + v.dimensionality) vs

end GPyOpt
