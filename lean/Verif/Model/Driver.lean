import Verif.Model.Interface
import Verif.Model.Selection
import Verif.Model.Space

/-!
# Model of the construction of the components from a configuration

`GPyOpt/interface/driver.py`, `GPyOpt/interface/func_loader.py`, `GPyOpt/interface/output.py`,
`Design_space.fromConfig`, and the `fromConfig` methods of models and acquisitions.
-/

namespace GPyOpt

/-! ## The space -/

/-- A value in a configuration: a text, or something else. -/
inductive ConfVal (α : Type)
  | text (s : String)
  | value (a : α)
  deriving DecidableEq

/-- The dictionary of a variable in a configuration file (`examples/branin/config.json`): domain and dimensionality are
texts there. -/
structure ConfDesc where
  name : Option String := none
  type : Option String := none
  domain : Option (ConfVal Dom) := none
  dimensionality : Option (ConfVal Nat) := none
  deriving DecidableEq

/-- The body of the loop of `Design_space.fromConfig` (`space.py:94-97`), which changes the dictionary: the state of the
dictionary after it, and the exception if there is one. `int` and `literal_eval` are parameters;
`literal_eval` raises `ValueError` for anything that is not a text. -/
def fromConfigStep (int : String → Py Nat) (literal : String → Py Dom) (d : ConfDesc) : ConfDesc × Option Err :=
  match d.dimensionality with
  | none => (d, some .keyError)
  | some dim => match (match dim with
      | .text s => int s
      | .value n => .ok n : Py Nat) with
    | .error e => (d, some e)
    | .ok n =>
      let d1 := { d with dimensionality := some (.value n) }
      match d1.domain with
      | none => (d1, some .keyError)
      | some (.value _) => (d1, some .valueError)
      | some (.text s) => match literal s with
        | .error e => (d1, some e)
        | .ok dom => ({ d1 with domain := some (.value dom) }, none)

/-- The loop of `Design_space.fromConfig` (`space.py:94-97`): the list of dictionaries after it. -/
def fromConfigLoop (int : String → Py Nat) (literal : String → Py Dom) :
    List ConfDesc → List ConfDesc × Option Err
  | [] => ([], none)
  | d :: ds => match fromConfigStep int literal d with
    | (d', some e) => (d' :: ds, some e)
    | (d', none) => (d' :: (fromConfigLoop int literal ds).1, (fromConfigLoop int literal ds).2)

/-- The descriptor `Design_space.__init__` reads from the dictionary; a text is not a domain (it never gets one from
`fromConfig`). -/
def ConfDesc.toDesc (d : ConfDesc) : Desc where
  name := d.name
  type := d.type
  domain := d.domain.bind fun v => match v with
    | .value a => some a
    | .text _ => none
  dimensionality := d.dimensionality.bind fun v => match v with
    | .value n => some n
    | .text _ => none

/-- `Design_space.fromConfig` (`space.py:90-98`) as called by `_get_space` (`driver.py:34-43`): the dictionaries of the
configuration afterwards, and the space. -/
def fromConfig (int : String → Py Nat) (literal : String → Py Dom) (space : List ConfDesc)
    (constraints : List ConstrDict) : List ConfDesc × Py Space :=
  match fromConfigLoop int literal space with
  | (ds, some e) => (ds, .error e)
  | (ds, none) => (ds, designSpace (ds.map ConfDesc.toDesc) (if constraints = [] then none else some constraints))

/-! ## Model, acquisition, evaluator -/

/-- The options of a section of a configuration. -/
abbrev Opts (α : Type) := List (String × α)

/-- `GPModel.fromConfig` (`gpmodel.py:47-48`), which `InputWarpedGPModel` inherits; the other classes have no such method
(`gpmodel.py:180`, `rfmodel.py:8`, `warpedgpmodel.py:15` derive from `BOModel`, `models/base.py:7`). -/
def modelFromConfig {α : Type} (m : ModelKind) (opts : Opts α) : Py (ModelKind × Opts α) :=
  match m with
  | .gp _ | .inputWarpedGP => callKw gpModelParams (opts.map Prod.fst) (.ok (.gp false, opts))
  | _ => .error .attributeError

/-- `_get_model` (`driver.py:45-55`): options without `type`, which must be there. The options are copied before. -/
def driverModel {α : Type} (name : α → Option String) (opts : Opts α) : Py (ModelKind × Opts α) :=
  match opts.lookup "type" with
  | none => .error .keyError
  | some t => match name t with
    | none => .error .exception
    | some n => match selectModel n with
      | .error e => .error e
      | .ok m => modelFromConfig m (opts.filter fun o => o.1 != "type")

/-- The classes with a method `fromConfig`, and the class it creates: `EI.py:28-30`, `MPI.py:28-30`; the integrated
acquisitions inherit it (`EI_mcmc.py:8`, `MPI_mcmc.py:8`); `LCB.py`, `LCB_mcmc.py` and `LP.py` have none (the base class
calls it `fromDict`, `base.py:29-31`); `ES.py:120-122` raises. -/
def acqFromConfig (a : AcqKind) (jitter : Option ℚ) : Py (AcqKind × ℚ) :=
  match a with
  | .ei | .eiMCMC => match jitter with
    | some j => .ok (.ei, j)
    | none => .error .keyError
  | .mpi | .mpiMCMC => match jitter with
    | some j => .ok (.mpi, j)
    | none => .error .keyError
  | .lcb | .lcbMCMC | .lp => .error .attributeError
  | .es => .error .notImplemented

/-- `_get_acquisition` (`driver.py:58-71`). The optimizer accepts every name and every option here
(`acquisition_optimizer.py:27-44`). -/
def driverAcq (type : String) (jitter : Option ℚ) : Py (AcqKind × ℚ) :=
  match selectAcquisition type with
  | .error e => .error e
  | .ok a => acqFromConfig a jitter

/-- `_get_acq_evaluator` (`driver.py:73-82`): the batch size has a default for the sequential evaluator only
(`sequential.py:15`, `batch_random.py:18`, `batch_local_penalization.py:17`, `batch_thompson.py:18`). -/
def driverEvaluator (type : String) (opts : Opts Int) : Py (EvalKind × Int) :=
  match selectEvaluator type with
  | .error e => .error e
  | .ok k => callKw ["batch_size"] (opts.map Prod.fst) (match opts.lookup "batch_size", k with
    | some n, k => .ok (k, n)
    | none, .sequential => .ok (.sequential, 1)
    | none, _ => .error .typeError)

/-- Whether an acquisition passes the assertion of `LocalPenalization.compute_batch`
(`batch_local_penalization.py:26-27`), which is evaluated in every iteration. -/
def AcqKind.penalizable : AcqKind → Bool
  | .lp => true
  | _ => false

/-! ## Loading the objective -/

/-- A path: absolute or relative, with its components. -/
structure Path where
  abs : Bool
  parts : List String
  deriving DecidableEq

/-- `os.path.join(p, q)`; also what a relative path `q` means in the working directory `p`. -/
def Path.join (p q : Path) : Path := if q.abs then q else ⟨p.abs, p.parts ++ q.parts⟩

/-- `load_objective` (`func_loader.py:7-21`): the working directory afterwards, and the function. `files` are the modules on
disk with their attributes; `stem` is the name of the file without `.py` if it ends with `.py`. -/
def loadObjective {F : Type} (files : Path → Option (List (String × F))) (cwd : Path) (prjpath : Option Path)
    (mainFile : Option (String × Option String)) (language : String) : Path × Py F :=
  match prjpath, mainFile with
  | none, _ => (cwd, .error .exception)
  | some _, none => (cwd, .error .exception)
  | some prj, some (file, stem) =>
    let cwd' := cwd.join prj
    if language.toLower = "python" then match stem with
      | none => (cwd', .error .exception)
      | some name => match files (cwd'.join (prj.join ⟨false, [file]⟩)) with
        | none => (cwd', .error .exception)
        | some m => match m.lookup name with
          | none => (cwd', .error .keyError)
          | some f => (cwd', .ok f)
    else (cwd', .error .unboundLocal)

/-! ## The file of a logger -/

/-- A line of the file: the headline with the number of inputs, or a row. -/
inductive LogLine
  | head (inputs : Nat)
  | row (iter : Nat) (time best : ℚ) (input : Vec)
  deriving DecidableEq

/-- A logger in an output engine: the data appended so far, its interval and clock, and the lines of its file (`none` if the
file could not be opened, `output.py:42-47`). -/
structure LoggerState where
  iters : List Nat := []
  times : Vec := []
  Xs : List Mat := []
  Ys : List Vec := []
  interval : Int
  clock : Int
  headline : Bool := true
  file : Option (List LogLine)

/-- `Logger.save_data` (`output.py:53-63`). -/
def loggerSave (s : LoggerState) : LoggerState × Option Err :=
  match s.file with
  | none => (s, none)
  | some lines =>
    match (if s.headline then match s.Xs.head? with
        | none => .error .indexError
        | some X => .ok (lines ++ [.head ((X.headD []).length)])
      else .ok lines : Py (List LogLine)) with
    | .error e => (s, some e)
    | .ok lines1 => match loggerRow s.iters s.times s.Xs s.Ys with
      | .error e => ({ s with file := some lines1, headline := false }, some e)
      | .ok (n, t, y, x) => ({ s with file := some (lines1 ++ [.row n t y x]), headline := false }, none)

/-- One call of `append_iter` (`output.py:86-99`). -/
structure IterCall where
  iter : Nat
  time : ℚ
  X : Mat
  Y : Vec
  final : Bool := false

/-- `append_iter` (`output.py:86-99`) for an engine with one logger. -/
def loggerAppend (s : LoggerState) (c : IterCall) : LoggerState × Option Err :=
  let s1 := { s with iters := s.iters ++ [c.iter], times := s.times ++ [c.time], Xs := s.Xs ++ [c.X],
                     Ys := s.Ys ++ [c.Y] }
  match saverStep s.interval s.clock c.final with
  | (clock, false) => ({ s1 with clock := clock }, none)
  | (clock, true) => match loggerSave s1 with
    | (s2, some e) => ({ s2 with clock := 0 }, some e)
    | (s2, none) => ({ s2 with clock := clock }, none)

/-- A sequence of calls; an exception ends it. -/
def loggerAppends : LoggerState → List IterCall → LoggerState × Option Err
  | s, [] => (s, none)
  | s, c :: cs => match loggerAppend s c with
    | (s', some e) => (s', some e)
    | (s', none) => loggerAppends s' cs

end GPyOpt
