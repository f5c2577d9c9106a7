import Verif.Model.BO
import Verif.Model.GPModel

/-!
# Model of `GPyOpt/interface`: configuration, output schedule, driver
-/

namespace GPyOpt

/-! ## Configurations -/

/-- A value that is not a dictionary (numbers, strings, lists: only identity matters). -/
abbrev Atom := String

mutual
/-- A JSON value: anything that is not a dictionary, or a dictionary. -/
inductive Cfg
  | atom (a : Atom)
  | dict (items : Items)
/-- The items of a dictionary, in insertion order. -/
inductive Items
  | nil
  | cons (key : String) (value : Cfg) (rest : Items)
end

/-- `d.get(key)` -/
def Items.get : Items → String → Option Cfg
  | .nil, _ => none
  | .cons k v rest, key => if k = key then some v else rest.get key

/-- `d[key] = v`: replaces the value or appends the item. -/
def Items.set : Items → String → Cfg → Items
  | .nil, key, v => .cons key v .nil
  | .cons k w rest, key, v => if k = key then .cons k v rest else .cons k w (rest.set key v)

/-- `any([isinstance(v, dict) for v in list(d.values())])` -/
def Items.anyDict : Items → Bool
  | .nil => false
  | .cons _ (.dict _) _ => true
  | .cons _ (.atom _) rest => rest.anyDict

/-- `d.update(new)` -/
def Items.update : Items → Items → Items
  | d, .nil => d
  | d, .cons k v rest => (d.set k v).update rest

mutual
/-- `update_config` (`config_parser.py:62-75`) where the default is a dictionary. If the default value of
a section is not a dictionary (the case `some (.atom _)` of `updateLoop`), the recursive call raises:
`AttributeError` (no `update`) if the section has no subsection and `TypeError` otherwise. -/
def updateConfig : Items → Items → Py Items
  | new, d => if new.anyDict then updateLoop new d else .ok (d.update new)
termination_by new => (sizeOf new, 1)
/-- The loop of `update_config` (`config_parser.py:68-72`). -/
def updateLoop : Items → Items → Py Items
  | .nil, d => .ok d
  | .cons k (.dict v) rest, d => match d.get k with
    | some (.dict dk) => match updateConfig v dk with
      | .error e => .error e
      | .ok r => updateLoop rest (d.set k (.dict r))
    | some (.atom _) => .error (if v.anyDict then .typeError else .attributeError)
    | none => updateLoop rest (d.set k (.dict v))
  | .cons k (.atom a) rest, d => updateLoop rest (d.set k (.atom a))
termination_by new => (sizeOf new, 0)
end

/-! ## Output schedule -/

/-- `DataSaver.__init__` (`output.py:8-14`, the assertion at `:10`): the assertion on the interval. -/
def dataSaverInit (interval : Int) : Py Int :=
  if 0 < interval ∨ interval = -1 then .ok interval else .error .exception

/-- One data saver in `append_iter` (`output.py:94-99`): the clock after an iteration, and whether data
are saved. -/
def saverStep (interval clock : Int) (final : Bool) : Int × Bool :=
  let c1 := if final then (if clock = -1 then 0 else clock) else (if clock > 0 then clock - 1 else clock)
  if c1 = 0 then (interval, true) else (c1, false)

/-- `OutputEng`: the intervals of the data savers with their clocks (`output.py:84`). -/
def outputInit (intervals : List Int) : List (Int × Int) := intervals.map fun k => (k, k)

/-- `append_iter` (`output.py:86-99`): new clocks, and for each data saver whether it saved. -/
def appendIter (savers : List (Int × Int)) (final : Bool) : List (Int × Int) × List Bool :=
  (savers.map fun s => (s.1, (saverStep s.1 s.2 final).1), savers.map fun s => (saverStep s.1 s.2 final).2)

/-- A sequence of iterations: for each, which data savers saved. -/
def appendIters : List (Int × Int) → List Bool → List (List Bool)
  | _, [] => []
  | savers, f :: fs => (appendIter savers f).2 :: appendIters (appendIter savers f).1 fs

/-- The row `Logger.save_data` writes (`output.py:53-63`), as iteration, time, best output, its input;
`Xs`, `Ys` are the blocks appended so far. -/
def loggerRow (iters : List Nat) (times : Vec) (Xs : List Mat) (Ys : List Vec) :
    Py (Nat × ℚ × ℚ × Vec) :=
  match argmin Ys.flatten with
  | .error e => .error e
  | .ok i => match npGet Ys.flatten i with
    | .error e => .error e
    | .ok y => match npGet Xs.flatten i with
      | .error e => .error e
      | .ok x => match iters.getLast?, times.getLast? with
        | some n, some t => .ok (n, t, y, x)
        | _, _ => .error .indexError

/-! ## Driver -/

/-- An entry of the resources section: a number or `'NA'`. -/
inductive Res
  | num (q : ℚ) | na
  deriving DecidableEq

/-- The part of a configuration `BODriver` reads besides the space. -/
structure DriverConfig where
  cores : Int
  maxIter : Res
  maxTime : Res
  tolerance : ℚ

/-- `_check_stop` (`driver.py:84-98`), with the elapsed time in seconds. Nothing in the repository calls
it. -/
def checkStop (r : DriverConfig) (iters : ℚ) (elapsed : ℚ) (converged : Int) : Bool :=
  let s1 := decide (converged = 0)
  let s2 := match r.maxIter with
    | .na => s1
    | .num n => if iters ≥ n then true else s1
  match r.maxTime with
    | .na => s2
    | .num t => if elapsed / 60 ≥ t then true else s2

/-- Parameters of `SingleObjective.__init__` (`objective.py:36`). -/
def singleObjectiveParams : List String :=
  ["func", "num_cores", "objective_name", "batch_type", "space"]

/-- Keywords of the call in `_get_obj` (`driver.py:32`). -/
def driverObjKwargs : List String := ["space", "unfold_args"]

/-- `_get_obj` (`driver.py:24-32`). -/
def driverObj {α : Type} (mk : Py α) : Py α := callKw singleObjectiveParams driverObjKwargs mk

/-- The arguments `run` passes to `run_optimization` (`driver.py:117-118`): `'NA'` is replaced by
infinity for the time, but not for the number of iterations (`none` here: a string, which Python
cannot compare with a number). -/
def driverRunArgs (r : DriverConfig) : Option RunArgs :=
  match r.maxIter with
  | .na => none
  | .num n => some { maxIter := some (.fin n)
                     maxTime := some (match r.maxTime with | .num t => .fin t | .na => .inf)
                     eps := r.tolerance }

/-- `run` (`driver.py:100-119`): create the space, then the objective, then everything else. -/
def driverRun {σ α : Type} (getSpace : Py σ) (mkObj : σ → Py α) (rest : σ → α → Py Unit) : Py Unit :=
  match getSpace with
  | .error e => .error e
  | .ok sp => match driverObj (mkObj sp) with
    | .error e => .error e
    | .ok o => rest sp o

end GPyOpt
