import Verif.Model.Selection
import Verif.Model.Parallel

/-!
# Model of the constructor of `GPyOpt/methods/bayesian_optimization.py`

The order of the steps matters: the initial design is evaluated before model, acquisition and
evaluator are chosen.
-/

namespace GPyOpt

/-- Arguments of `BayesianOptimization(...)` (`bayesian_optimization.py:76-79`) except the options of
the components; `none` is Python's `None`. Simplification: no model or acquisition object is passed
as a keyword (`:126-133`, `:147-155`). -/
structure BayesArgs where
  f : Option (Nat → Vec → Py ℚ)
  maximize : Bool := false
  X : Option Mat := none
  Y : Option Vec := none
  designType : String := "random"
  numData : Nat := 5
  modelType : String := "GP"
  acqType : Option String := some "EI"
  evaluatorType : Option String := some "sequential"
  batchSize : Nat := 1
  numCores : Nat := 1

/-- `self.f` (`bayesian_optimization.py:104-109`). -/
def BayesArgs.objective (a : BayesArgs) : Option (Nat → Vec → Py ℚ) := a.f.map (signed a.maximize)

/-- Number of processes of the objective: `SingleObjective(self.f, self.batch_size, ...)`
(`bayesian_optimization.py:106`), whose second parameter is `num_cores` (`objective.py:36-38`). -/
def BayesArgs.nProcs (a : BayesArgs) : Nat := a.batchSize

/-- `_init_design_chooser` (`bayesian_optimization.py:183-199`): `o` is the random source and `evaluate`
the evaluation of the objective at some rows (calls, and outputs or an exception). -/
def initDesignChooser (a : BayesArgs) (sp : Space) (o : DesignOracle)
    (evaluate : Mat → World → World × Py Vec) (w : World) : World × Py (Mat × Vec) :=
  if a.f.isNone ∧ (a.X.isNone ∨ a.Y.isNone) then (w, .error .invalidConfig)
  else match a.X, a.Y with
    | none, _ => match initialDesign a.designType sp o a.numData with
      | .error e => (w, .error e)
      | .ok X => match evaluate X w with
        | (w', .error e) => (w', .error e)
        | (w', .ok Y) => (w', .ok (X, Y))
    | some X, none => match evaluate X w with
      | (w', .error e) => (w', .error e)
      | (w', .ok Y) => (w', .ok (X, Y))
    | some X, some Y => (w, .ok (X, Y))

/-- A constructed object: state of the loop, space, model, acquisition, evaluator. -/
structure BayesObj where
  state : BOState
  sp : Space
  model : ModelKind
  acq : AcqSpec
  evaluator : Option EvalKind

/-- `BayesianOptimization.__init__` (`bayesian_optimization.py:76-181`): space, objective, initial data,
then model, acquisition and evaluator, then `BO.__init__`. -/
def bayesConstruct (a : BayesArgs) (config : List Desc) (cs : Option (List ConstrDict))
    (o : DesignOracle) (evaluate : Mat → World → World × Py Vec) : World × Py BayesObj :=
  let w0 : World := { calls := [], ticks := 0 }
  match designSpace config cs with
  | .error e => (w0, .error e)
  | .ok sp => match initDesignChooser a sp o evaluate w0 with
    | (w, .error e) => (w, .error e)
    | (w, .ok (X, Y)) => match chooseModelAcq a.modelType a.acqType none none with
      | .error e => (w, .error e)
      | .ok (m, q) => match evaluatorCreator a.evaluatorType false a.batchSize a.modelType with
        | .error e => (w, .error e)
        | .ok ev => (w, .ok { state := { boInit X (some Y) .costModel with world := w }
                              sp := sp, model := m, acq := q, evaluator := ev })

/-- `self.objective.evaluate(X)` in one process (`objective.py:46-47`): the outputs without the
times. -/
def sequentialEvaluate (obj : Nat → Vec → Py ℚ) (clock : Nat → ℚ) (X : Mat) (w : World) :
    World × Py Vec :=
  ((evalFunc obj clock X w).1, (evalFunc obj clock X w).2.map Prod.fst)

/-- Possible results of `self.objective.evaluate(x)` with `n` processes (`objective.py:42-61`) for an
objective that is a function of the location. -/
inductive ObjEvaluates (n : Nat) (f : Vec → Py ℚ) (size : Vec → Nat) (cap : Nat) (canStart : Bool)
    (clock : Nat → ℚ) (w : World) (x : Mat) : Py (Vec × CostEvals) → Prop
  | sequential : n = 1 → ObjEvaluates n f size cap canStart clock w x
      ((evalFunc (fun _ => f) clock x w).2.map fun r => (r.1, .list r.2))
  | parallel {r : Py (Vec × CostEvals)} : n ≠ 1 →
      ParEvaluates { n := n, f := f, x := x, size := size, cap := cap, canStart := canStart } clock w r →
      ObjEvaluates n f size cap canStart clock w x r

end GPyOpt
