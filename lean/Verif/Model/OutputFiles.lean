import Verif.Py

/-!
# Names and contents of the output files

`gen_datestr` (`util/io.py`) and the constructors of the data savers (`interface/output.py:22-29`, `:33-47`). Strings are lists
of characters. The file system is a function from paths to contents; paths are compared as strings (links, `..` and repeated
slashes are not modelled), and opening a file never fails.
-/

namespace GPyOpt

/-- What `datetime.now()` returns: the reading of the local clock, without microseconds and time zone. -/
structure ClockReading where
  year : Nat
  month : Nat
  day : Nat
  hour : Nat
  minute : Nat
  second : Nat
  deriving DecidableEq

/-- `str(n)` of an integer that is not negative. -/
def strNat (n : Nat) : List Char := Nat.toDigits 10 n

/-- `gen_datestr` (`util/io.py:4-10`). -/
def genDatestr (t : ClockReading) : List Char :=
  strNat t.year ++ ('.' :: (strNat t.month ++ ('.' :: (strNat t.day ++ ('_' :: (strNat t.hour ++
    ('.' :: (strNat t.minute ++ ('.' :: strNat t.second)))))))))

/-- `os.path.join(a, b)` on POSIX systems. -/
def pathJoin (a b : List Char) : List Char :=
  if b.head? = some '/' then b
  else if a = [] ∨ a.getLast? = some '/' then a ++ b
  else a ++ '/' :: b

/-- `Report` and `Logger`. -/
inductive SaverKind
  | report | logger
  deriving DecidableEq

/-- The extensions of the default names (`output.py:27`, `:39`). -/
def SaverKind.ext : SaverKind → List Char
  | .report => ['.', 't', 'x', 't']
  | .logger => ['.', 'c', 's', 'v']

/-- What determines the file of a data saver: its class, the directory, the name of the experiment, its own name (that of its
section), the option `filename`, and the reading of the clock when it is created. -/
structure SaverArgs where
  kind : SaverKind
  outpath : List Char
  prjname : List Char
  name : List Char
  filename : Option (List Char)
  created : ClockReading
  deriving DecidableEq

/-- `self.filename` (`output.py:27-28`, `:39-40`). -/
def SaverArgs.path (s : SaverArgs) : List Char :=
  pathJoin s.outpath (match s.filename with
    | none => s.name ++ ('_' :: (s.prjname ++ ('_' :: (genDatestr s.created ++ s.kind.ext))))
    | some f => f)

/-- Contents of the files: lines of some kind; `none` where there is no file. -/
abbrev FileSys (α : Type) : Type := List Char → Option (List α)

/-- What a data saver does: it is created (a logger opens its file for writing, `output.py:43-45`, which empties it), or it
saves lines (a logger appends them, `output.py:53-63`; a report is written anew, `output.py:30-31`, `bo.py:319`). -/
inductive SaverEvent (α : Type)
  | create (s : SaverArgs)
  | save (s : SaverArgs) (lines : List α)

/-- The data saver of an event. -/
def SaverEvent.saver {α : Type} : SaverEvent α → SaverArgs
  | .create s => s
  | .save s _ => s

/-- The effect of an event on the files. -/
def SaverEvent.apply {α : Type} (fs : FileSys α) : SaverEvent α → FileSys α
  | .create s => match s.kind with
    | .report => fs
    | .logger => fun p => if p = s.path then some [] else fs p
  | .save s lines => match s.kind with
    | .report => fun p => if p = s.path then some lines else fs p
    | .logger => fun p => if p = s.path then some ((fs p).getD [] ++ lines) else fs p

/-- The effect of a sequence of events. -/
def SaverEvent.applyAll {α : Type} (fs : FileSys α) (es : List (SaverEvent α)) : FileSys α :=
  es.foldl SaverEvent.apply fs

end GPyOpt
