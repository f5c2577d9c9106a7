import Verif.Model.BO
import Mathlib.Analysis.Real.Sqrt

/-!
# Model of the reports, result files and plots of `GPyOpt/core/bo.py` and `GPyOpt/plotting/plots_bo.py`

A file is the list of lines written so far, so that the content of a file after an exception is part
of the model. Drawing itself is not modelled, only the data that are drawn.
-/

namespace GPyOpt

/-- A value in a report. -/
inductive RVal
  | completed (yes : Bool) (samples : Nat)
  | nat (n : Nat) | int (n : Int) | num (q : ℚ) | flag (b : Bool) | text (s : String) | row (x : Vec)
  | cost (k : CostKind)
  deriving DecidableEq

/-- A line of a report. -/
abbrev RLine := String × RVal

/-- The attributes read by `save_report` that only `BayesianOptimization.__init__` sets
(`bayesian_optimization.py:92-161`); `BO.__init__` (`bo.py:43-58`) and
`ModularBayesianOptimization.__init__` (`modular_bayesian_optimization.py:24-40`) do not. -/
structure BayesAttrs where
  numData : Nat := 5
  objectiveName : String := "no_name"
  exactFeval : Bool := false
  constraints : Option (List ConstrDict) := none
  modelType : String := "GP"
  acqType : String := "EI"
  optName : String := "lbfgs"
  evaluatorType : String := "sequential"
  batchSize : Nat := 1
  numCores : Nat := 1

/-- An attribute of `self`, if the object has it. -/
def attrOf {α β : Type} (o : Option α) (f : α → β) : Py β :=
  match o with
  | none => .error .attributeError
  | some a => .ok (f a)

/-- Writing lines one after the other (`bo.py:319-368`): an exception while a line is computed leaves
the lines before it in the file. -/
def writeLines : List (Py RLine) → List RLine × Py Unit
  | [] => ([], .ok ())
  | .error e :: _ => ([], .error e)
  | .ok l :: r => (l :: (writeLines r).1, (writeLines r).2)

/-- `self.num_acquisitions==self.max_iter` (`bo.py:326`). -/
def Limit.isNat : Limit → Nat → Bool
  | .fin q, n => decide ((n : ℚ) = q)
  | .inf, _ => false

/-- `str(min(self.Y))` and `self.X[np.argmin(self.Y),:]` (`bo.py:365-366`). -/
def reportMin : Option Vec → Py ℚ
  | none => .error .typeError
  | some Y => match argmin Y with
    | .error e => .error e
    | .ok i => npGet Y i

def reportArgmin (X : Mat) : Option Vec → Py Vec
  | none => .error .typeError
  | some Y => match argmin Y with
    | .error e => .error e
    | .ok i => npGet X i

/-- The lines of `save_report` after the line about completion (`bo.py:328-366`). `attrs` are the
attributes of a `BayesianOptimization` object. The header with version and date (`bo.py:321-325`) and
the headings of sections are left out. `self.constraints==True` (`bo.py:345`) compares a list or
`None` with `True`. -/
def reportBody (env : BOEnv) (attrs : Option BayesAttrs) (eps : ℚ) (s : BOState) : List (Py RLine) :=
  [ (attrOf attrs (·.numData)).map fun v => ("Number initial samples", .nat v),
    .ok ("Tolerance", .num eps),
    .ok ("Optimization time", .num s.cumTime),
    (attrOf attrs (·.objectiveName)).map fun v => ("Problem name", .text v),
    .ok ("Problem dimension", .nat env.sp.dimensionality),
    env.sp.getContinuousDims.map fun v => ("Number continuous variables", .nat v.length),
    env.sp.getDiscreteDims.map fun v => ("Number discrete variables", .nat v.length),
    .ok ("Number bandits", .nat env.sp.getBandit.length),
    (attrOf attrs (·.exactFeval)).map fun v => ("Noiseless evaluations", .flag v),
    .ok ("Cost used", .cost s.cost.kind),
    (attrOf attrs (·.constraints)).map fun _ => ("Constraints", .flag false),
    .ok ("Normalized outputs", .flag env.normalizeY),
    (attrOf attrs (·.modelType)).map fun v => ("Model type", .text v),
    .ok ("Model update interval", .int env.interval),
    (attrOf attrs (·.acqType)).map fun v => ("Acquisition type", .text v),
    (attrOf attrs (·.optName)).map fun v => ("Acquisition optimizer", .text v),
    (attrOf attrs (·.acqType)).map fun v => ("Acquisition type", .text v),
    (attrOf attrs (·.optName)).map fun v => ("Acquisition optimizer", .text v),
    (attrOf attrs (·.evaluatorType)).map fun v => ("Evaluator type", .text v),
    (attrOf attrs (·.batchSize)).map fun v => ("Batch size", .nat v),
    (attrOf attrs (·.numCores)).map fun v => ("Cores used", .nat v),
    (reportMin s.Y).map fun v => ("Value at minimum", .num v),
    (reportArgmin s.X s.Y).map fun v => ("Best found minimum location", .row v) ]

/-- `save_report` (`bo.py:312-369`): the lines in the file, and the outcome. `lim` are `max_iter` and
`eps` of the last call of `run_optimization`; before the first one the attributes do not exist. -/
def saveReport (env : BOEnv) (attrs : Option BayesAttrs) (lim : Option (Limit × ℚ)) (s : BOState) :
    List RLine × Py Unit :=
  match lim with
  | none => ([], .error .attributeError)
  | some (maxIter, eps) =>
    writeLines (.ok ("Optimization completed", .completed (maxIter.isNat s.numAcq) s.X.length)
      :: reportBody env attrs eps s)

/-- `save_models` (`bo.py:389-403`): the table that is written; `names` is
`model.get_model_parameters_names()`. -/
def saveModels (names : List String) (s : BOState) : Py (List String × Mat) :=
  match s.params with
  | none => .error .valueError
  | some ps => .ok ("Iteration" :: names,
      List.zipWith (fun (k : Nat) (p : Vec) => ((k : ℚ) + 1) :: p) (List.range ps.length) ps)

/-- Which files `run_optimization` is asked for (`bo.py:78`). -/
structure FileArgs where
  report : Bool := false
  evaluations : Bool := false
  models : Bool := false

/-- The contents of the files after a call; `none` if the file was not opened. -/
structure Files where
  report : Option (List RLine) := none
  evaluations : Option (List String × Mat) := none
  models : Option (List String × Mat) := none
  deriving DecidableEq

/-- Saving the evaluations, if asked for (`bo.py:172-173`). -/
def saveEvaluationsIf (wanted : Bool) (s : BOState) (fs : Files) : Files × Py Unit :=
  if wanted then
    match s.Y with
    | none => (fs, .error .attributeError)
    | some Y => match saveEvaluations s.X Y with
      | .error e => (fs, .error e)
      | .ok t => ({ fs with evaluations := some t }, .ok ())
  else (fs, .ok ())

/-- Saving the model parameters, if asked for (`bo.py:174-175`). -/
def saveModelsIf (wanted : Bool) (names : List String) (s : BOState) (fs : Files) : Files × Py Unit :=
  if wanted then
    match saveModels names s with
    | .error e => (fs, .error e)
    | .ok t => ({ fs with models := some t }, .ok ())
  else (fs, .ok ())

/-- The end of `run_optimization` (`bo.py:169-175`): report, evaluations, models, in this order. -/
def writeFiles (env : BOEnv) (attrs : Option BayesAttrs) (names : List String) (fa : FileArgs)
    (lim : Limit × ℚ) (s : BOState) : Files × Py Unit :=
  let r : Files × Py Unit :=
    if fa.report then ({ report := some (saveReport env attrs (some lim) s).1 },
      (saveReport env attrs (some lim) s).2)
    else ({}, .ok ())
  match r with
  | (fs, .error e) => (fs, .error e)
  | (fs, .ok ()) => match saveEvaluationsIf fa.evaluations s fs with
    | (fs, .error e) => (fs, .error e)
    | (fs, .ok ()) => saveModelsIf fa.models names s fs

/-- `run_optimization` with its files (`bo.py:78-175`). -/
def runWithFiles (env : BOEnv) (attrs : Option BayesAttrs) (names : List String) (fa : FileArgs)
    (a : RunArgs) (fuel : Nat) (s : BOState) : BOState × RunResult × Files :=
  match runOptimization env a fuel s with
  | (s', .done why) => match writeFiles env attrs names fa (a.limits.1, a.eps) s' with
    | (fs, .error e) => (s', .raised e, fs)
    | (fs, .ok ()) => (s', .done why, fs)
  | (s', r) => (s', r, {})

/-! ## Plots -/

/-- The inputs and outputs of the model that is plotted (`bo.py:278-287`): those of the last fit, or,
if the model was never fitted, `X` and the normalized outputs given to a copy of the model. -/
def plotData (env : BOEnv) (s : BOState) : Option (Mat × Vec) :=
  match s.fits.getLast? with
  | some f => some (f.X, f.Y)
  | none => s.Y.map fun Y => (s.X, env.modelY Y)

/-- `plot_acquisition` (`bo.py:269-298`): the state after it, and the data, the suggestion that are
plotted. The arguments are evaluated in order: data first, then `self.suggest_next_locations()`.
`copyFit` is the outcome of fitting the copy, `draw` that of drawing. -/
def plotAcquisition (env : BOEnv) (copyFit draw : Py Unit) (s : BOState) :
    BOState × Py ((Mat × Vec) × Mat) :=
  match plotData env s with
  | none => (s, .error .valueError)
  | some d => match (if s.fits = [] then copyFit else .ok ()) with
    | .error e => (s, .error e)
    | .ok () => match suggestNext env none none none s with
      | (s', .error e) => (s', .error e)
      | (s', .ok m) => match draw with
        | .error e => (s', .error e)
        | .ok () => (s', .ok (d, m))

/-- `acqu_normalized` (`plots_bo.py:60`, `:108`): `acq` are the values of the acquisition on the grid;
Python's `min` of an empty sequence raises. `none` stands for an array of `nan` (`0/0`). -/
noncomputable def acquNormalized (acq : List ℝ) : Py (Option (List ℝ)) :=
  match acq.map Neg.neg with
  | [] => .error .valueError
  | v :: vs =>
    let lo := vs.foldl min v
    let sh := (v :: vs).map (· - lo)
    let hi := sh.foldl max (v - lo)
    if hi = 0 then .ok none else .ok (some (sh.map (· / hi)))

/-- Distances of consecutive rows (`plots_bo.py:154-155`). -/
noncomputable def consecutiveDistances (X : Mat) : List ℝ :=
  List.zipWith (fun a b => Real.sqrt ((rowSqDist a b : ℚ) : ℝ)) (X.drop 1) X

/-- `plot_convergence` (`bo.py:300-307`, `plots_bo.py:149-177`): the two curves. `Y_best` does not
exist before the first completed run; a curve needs as many abscissae as ordinates. -/
noncomputable def plotConvergence (X : Mat) (results : Option Results) : Py (List ℝ × Vec) :=
  match results with
  | none => .error .attributeError
  | some r => if r.yBest.length = X.length then .ok (consecutiveDistances X, r.yBest)
    else .error .valueError

end GPyOpt
