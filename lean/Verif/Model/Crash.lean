import Verif.Model.Csv

/-!
# Files and crashes

What is on the disk if the process is killed at any moment. `run_optimization` evaluates the objective during the loop and
writes its files only after it (`bo.py:139-175`). Files are opened with `open(filename, 'w')`, which empties them at once, and
written through a buffer of the process that is handed over to the operating system at times that the program does not
control; closing the file (the end of the `with` statement, `bo.py:319`, `:372`) hands over the rest. What is handed over
survives the death of the process (the death of the machine is not modelled). Several handles on one file are not modelled.
-/

namespace GPyOpt

/-- What is on the disk, by path, and what is in the buffers of the process. -/
structure DiskState where
  disk : List Char → Option (List Char)
  buf : List Char → List Char

/-- What a run does: calls of the objective, and operations on files. -/
inductive RunAct
  | call (x : Vec)
  | openW (p : List Char)
  | write (p text : List Char)
  | close (p : List Char)
  deriving DecidableEq

/-- The effect of an action. -/
def RunAct.step (d : DiskState) : RunAct → DiskState
  | .call _ => d
  | .openW p => { disk := fun q => if q = p then some [] else d.disk q
                  buf := fun q => if q = p then [] else d.buf q }
  | .write p text => { d with buf := fun q => if q = p then d.buf q ++ text else d.buf q }
  | .close p => { disk := fun q => if q = p then (d.disk q).map (· ++ d.buf q) else d.disk q
                  buf := fun q => if q = p then [] else d.buf q }

/-- Some characters of the buffer of a file are handed over. -/
def DiskState.flush (d : DiskState) (p : List Char) (k : Nat) : DiskState :=
  { disk := fun q => if q = p then (d.disk q).map (· ++ (d.buf q).take k) else d.disk q
    buf := fun q => if q = p then (d.buf q).drop k else d.buf q }

/-- The states that are reached by doing the actions, with any handovers before, between and after them. -/
inductive Reaches : List RunAct → DiskState → DiskState → Prop
  | done (d : DiskState) : Reaches [] d d
  | flush (p : List Char) (k : Nat) {as : List RunAct} {d d' : DiskState} (h : Reaches as (d.flush p k) d') :
      Reaches as d d'
  | act (a : RunAct) {as : List RunAct} {d d' : DiskState} (h : Reaches as (a.step d) d') : Reaches (a :: as) d d'

/-- The process is killed after some of the actions. -/
def CrashedIn (as : List RunAct) (d d' : DiskState) : Prop := ∃ pre, pre <+: as ∧ Reaches pre d d'

/-- Writing a file in pieces (`bo.py:319-369`, `:371-374`). -/
def saveActs (p : List Char) (pieces : List (List Char)) : List RunAct :=
  .openW p :: (pieces.map (RunAct.write p) ++ [.close p])

/-- Names of the three files (`bo.py:98-100`). -/
structure FilePaths where
  report : List Char
  evaluations : List Char
  models : List Char

/-- The texts that are handed to `file.write`, for the report (`bo.py:323-368`) and for a table (`writer.writerows`,
`bo.py:374`). -/
structure FilePieces where
  report : List RLine → List (List Char)
  table : List String × Mat → List (List Char)

/-- The files that a call of `run_optimization` opens, in the order of `bo.py:170-175`. The `with` statements close the files
also if an exception is raised. -/
def fileActs (paths : FilePaths) (pieces : FilePieces) (fs : Files) : List RunAct :=
  (match fs.report with
    | some r => saveActs paths.report (pieces.report r)
    | none => []) ++
  ((match fs.evaluations with
    | some t => saveActs paths.evaluations (pieces.table t)
    | none => []) ++
  match fs.models with
    | some t => saveActs paths.models (pieces.table t)
    | none => [])

/-- The calls of the objective between two states. -/
def callActs (s s' : BOState) : List RunAct :=
  (s'.world.calls.drop s.world.calls.length).map fun c => .call c.1

/-- The actions of a call of `run_optimization` (`bo.py:124-175`): the calls of the objective, then the files. -/
def runActs (paths : FilePaths) (pieces : FilePieces) (s : BOState) (r : BOState × RunResult × Files) : List RunAct :=
  callActs s r.1 ++ fileActs paths pieces r.2.2

end GPyOpt
