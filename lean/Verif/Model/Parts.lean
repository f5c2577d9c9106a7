import Verif.Model.Constructor

/-!
# Model of the components of a `BayesianOptimization` object that are passed as objects

The keywords `model` and `acquisition` may hold objects of the user (`bayesian_optimization.py:126-155`).  Which objects are
the same matters then: the loop fits `self.model`, an acquisition is computed from its own model, and the context is written
into the optimizer of `self.acquisition`.  Simplifications: an acquisition of the user is defined on the same space, and the
anchor points are chosen by the acquisition (`type_anchor_points_logic` is not given).
-/

namespace GPyOpt

/-- Identity of a Python object. -/
abbrev Ref := Nat

/-- What a keyword holds: nothing, an object of the class that is tested for, or something else. -/
inductive Given (α : Type)
  | absent
  | object (a : α)
  | other

/-- A model object, and its flag `MCMC_sampler` (`models/base.py:12`). -/
structure ModelPart where
  ref : Ref
  mcmc : Bool
  deriving DecidableEq

/-- An acquisition object (`acquisitions/base.py:18-27`): its model and its optimizer, which may be `None`.  For an
`AcquisitionLP`, `base` is the model of the acquisition that is penalized (`LP.py:26-29`). -/
structure AcqPart where
  model : Ref
  optimizer : Option Ref
  base : Option Ref := none
  deriving DecidableEq

/-- The model that the values of an acquisition are computed from (`EI.py:36`, `LP.py:70-75`). -/
def AcqPart.valueModel (q : AcqPart) : Ref := q.base.getD q.model

/-- The objects that the constructor creates: model and optimizer of the acquisition. -/
structure MadeParts where
  model : Ref
  optimizer : Ref

/-- The components of a constructed object: `self.model` (which may be `None`), `self.acquisition`, class of
`self.evaluator` (which may be `None`), and the penalized acquisition that a `LocalPenalization` evaluator was given. -/
structure Parts where
  model : Option Ref
  modelType : String
  acq : AcqPart
  evaluator : Option EvalKind
  penalized : Option AcqPart
  deriving DecidableEq

/-- The choice of the model (`bayesian_optimization.py:126-133`): the model and `self.model_type`. -/
def chooseModelPart (modelType : String) (given : Given ModelPart) (made : MadeParts) : Option ModelPart × String :=
  match given with
  | .object m => (some m, "User defined model used.")
  | _ => ((modelCreator modelType).map fun k => { ref := made.model, mcmc := k.mcmc }, modelType)

/-- The acquisition of a name (`arguments_manager.py:42-75`, `acquisitions/base.py:22`, `EI_mcmc.py:27`). -/
def acqPartOfName (acqType : Option String) (model : Option ModelPart) (made : MadeParts) : Py AcqPart :=
  match acquisitionCreator acqType none none with
  | .error e => .error e
  | .ok a => match model with
    | none => .error .attributeError
    | some m =>
      if (a.kind = .eiMCMC ∨ a.kind = .mpiMCMC ∨ a.kind = .lcbMCMC) ∧ m.mcmc = false then .error .exception
      else .ok { model := m.ref, optimizer := some made.optimizer }

/-- The choice of the acquisition (`bayesian_optimization.py:147-155`): an acquisition of the user is taken as it is, the
name is used otherwise. -/
def chooseAcqPart (acqType : Option String) (model : Option ModelPart) (given : Given AcqPart) (made : MadeParts) : Py AcqPart :=
  match given with
  | .object q => .ok q
  | _ => acqPartOfName acqType model made

/-- The components that `BayesianOptimization.__init__` uses (`bayesian_optimization.py:121-159`), with the evaluator of
`arguments_manager.py:17-38`: local penalization penalizes `self.acquisition` with `self.model` and with the optimizer of
the constructor. -/
def chooseParts (a : BayesArgs) (gm : Given ModelPart) (ga : Given AcqPart) (made : MadeParts) : Py Parts :=
  let m := chooseModelPart a.modelType gm made
  match chooseAcqPart a.acqType m.1 ga made with
  | .error e => .error e
  | .ok q => match evaluatorCreator a.evaluatorType q.base.isSome a.batchSize m.2 with
    | .error e => .error e
    | .ok ev =>
      let pen : Py (Option AcqPart) :=
        if ev = some .localPenalization then
          match m.1 with
          | none => .error .attributeError
          | some mp => .ok (some { model := mp.ref, optimizer := some made.optimizer, base := some q.valueModel })
        else .ok none
      match pen with
      | .error e => .error e
      | .ok l => .ok { model := m.1.map ModelPart.ref, modelType := m.2, acq := q, evaluator := ev, penalized := l }

/-- The evaluator of a batch size (`evaluators/__init__.py`). -/
def EvalKind.ofSize (n : Nat) : EvalKind → Evaluator
  | .sequential => .sequential
  | .randomBatch => .random n
  | .thompsonBatch => .thompson n
  | .localPenalization => .localPenalization n

/-- The data a model was fitted to last: the loop fits `self.model` only (`bo.py:258`), `init` are the fits before. -/
def Parts.fitOf (p : Parts) (init : Ref → Option Fit) (s : BOState) (r : Ref) : Option Fit :=
  if p.model = some r then s.fits.getLast?.or (init r) else init r

/-- `_compute_next_evaluations` (`bo.py:223-241`) with these components.  `mk` is what the acquisition computes from the data
of its model and, if it is penalized, of the model of the penalizers.  The context is written into the optimizer of
`self.acquisition` (`:232`); the optimizer of the penalized acquisition, if it is another one, has the context manager it was
created with, which knows no context (`acquisition_optimizer.py:44`).  `None` has no attribute `context_manager` or
`compute_batch`. -/
def partsSuggest (p : Parts) (n : Nat) (init : Ref → Option Fit) (mk : Option Fit → Option Fit → BOState → EvalEnv)
    (sp : Space) (deDup : Bool) (s : BOState) (pending ignored : Option Mat) : Py Mat :=
  match contextManager sp s.context with
  | .error e => .error e
  | .ok _ => match p.acq.optimizer, p.evaluator with
    | none, _ => .error .attributeError
    | some _, none => .error .attributeError
    | some o, some ev =>
      let q := p.penalized.getD p.acq
      let env := mk (p.fitOf init s q.valueModel) (p.fitOf init s q.model) s
      let context := if q.optimizer = some o then s.context else none
      computeNext (ev.ofSize n) env sp context deDup s.X pending ignored

end GPyOpt
