import Verif.Model.Report

/-!
# Model of the result files at the level of characters

`_write_csv` (`bo.py:371-374`) opens a text file with the default newline translation and writes with `csv.writer`,
dialect `excel` with tabulators: fields are quoted if needed, quotes doubled, rows end with `\r\n`. The writer, the reader
and the newline translation are those of CPython (`Modules/_csv.c`, `io.TextIOWrapper`), transcribed from their
documentation. Characters are Unicode code points; the encoding of the file is not modelled.
-/

namespace GPyOpt

/-! ## Writing -/

/-- `QUOTE_MINIMAL`: a field is quoted if it contains the delimiter, a quote or a character of the line terminator. -/
def csvSpecial (c : Char) : Bool := c == '\t' || c == '"' || c == '\r' || c == '\n'

/-- Quotes inside a quoted field are doubled. -/
def csvEscape (f : List Char) : List Char := f.flatMap fun c => if c = '"' then ['"', '"'] else [c]

/-- A field in the file. -/
def csvField (f : List Char) : List Char := if f.any csvSpecial then '"' :: (csvEscape f ++ ['"']) else f

/-- Fields separated by tabulators. -/
def csvFields : List (List Char) → List Char
  | [] => []
  | [f] => csvField f
  | f :: g :: r => csvField f ++ '\t' :: csvFields (g :: r)

/-- `writer.writerow`: a row with a single empty field is written as a pair of quotes. -/
def csvRow (r : List (List Char)) : List Char := (if r = [[]] then ['"', '"'] else csvFields r) ++ ['\r', '\n']

/-- `writer.writerows(data)` (`bo.py:374`). -/
def csvRows (t : List (List (List Char))) : List Char := t.flatMap csvRow

/-- `open(filename, 'w')` (`bo.py:372`): every `\n` becomes `os.linesep`. -/
def writeNewlines (linesep : List Char) (t : List Char) : List Char := t.flatMap fun c => if c = '\n' then linesep else [c]

/-- `_write_csv` (`bo.py:371-374`) of a header and a table of numbers: the characters of the file. `repr` is the text of a
number, that of Python for floats (`results.tolist()`, `bo.py:386`, `:402`). -/
def writeCsv (linesep : List Char) (repr : ℚ → List Char) (t : List String × Mat) : List Char :=
  writeNewlines linesep (csvRows (t.1.map String.toList :: t.2.map fun r => r.map repr))

/-! ## Reading -/

/-- `open(filename)`: `\r\n` and `\r` become `\n`. -/
def readNewlines : List Char → List Char
  | [] => []
  | c :: t => if c = '\r' then match t with
      | [] => ['\n']
      | d :: u => if d = '\n' then '\n' :: readNewlines u else '\n' :: readNewlines (d :: u)
    else c :: readNewlines t

/-- States of `csv.reader`. -/
inductive CsvState
  | startRecord | startField | inField | inQuoted | quoteInQuoted | eatCrnl
  deriving DecidableEq

/-- The reader: state, characters of the current field, fields of the current row, rows so far. -/
structure CsvReader where
  st : CsvState := .startRecord
  field : List Char := []
  row : List (List Char) := []
  rows : List (List (List Char)) := []
  deriving DecidableEq

/-- `parse_save_field`. -/
def CsvReader.save (s : CsvReader) (st : CsvState) : CsvReader :=
  { s with st := st, field := [], row := s.row ++ [s.field] }

/-- `parse_add_char`. -/
def CsvReader.add (s : CsvReader) (c : Char) (st : CsvState) : CsvReader := { s with st := st, field := s.field ++ [c] }

/-- `parse_process_char` in the state `START_FIELD`. -/
def CsvReader.startField (s : CsvReader) (c : Char) : CsvReader :=
  if c = '\n' ∨ c = '\r' then s.save .eatCrnl
  else if c = '"' then { s with st := .inQuoted }
  else if c = '\t' then s.save .startField
  else s.add c .inField

/-- `parse_process_char` (`delimiter` tabulator, `doublequote`, not `strict`). A character after the end of a record in the
same line is an error. -/
def CsvReader.char (s : CsvReader) (c : Char) : Py CsvReader :=
  match s.st with
  | .startRecord => if c = '\n' ∨ c = '\r' then .ok { s with st := .eatCrnl } else .ok (s.startField c)
  | .startField => .ok (s.startField c)
  | .inField =>
    if c = '\n' ∨ c = '\r' then .ok (s.save .eatCrnl)
    else if c = '\t' then .ok (s.save .startField)
    else .ok (s.add c .inField)
  | .inQuoted => if c = '"' then .ok { s with st := .quoteInQuoted } else .ok (s.add c .inQuoted)
  | .quoteInQuoted =>
    if c = '"' then .ok (s.add c .inQuoted)
    else if c = '\t' then .ok (s.save .startField)
    else if c = '\n' ∨ c = '\r' then .ok (s.save .eatCrnl)
    else .ok (s.add c .inField)
  | .eatCrnl => if c = '\n' ∨ c = '\r' then .ok s else .error .exception

/-- The row is complete. -/
def CsvReader.emit (s : CsvReader) : CsvReader := { rows := s.rows ++ [s.row] }

/-- `parse_process_char` at the end of a line, and the end of the record unless it is inside quotes. -/
def CsvReader.eol (s : CsvReader) : CsvReader :=
  match s.st with
  | .startRecord | .eatCrnl => s.emit
  | .startField | .inField | .quoteInQuoted => (s.save .startRecord).emit
  | .inQuoted => s

/-- The lines of the file one after the other; a line ends with `\n`. -/
def CsvReader.run : CsvReader → List Char → Py CsvReader
  | s, [] => .ok s
  | s, c :: t => match s.char c with
    | .error e => .error e
    | .ok s' => if c = '\n' then CsvReader.run s'.eol t else CsvReader.run s' t

/-- Rows returned by `csv.reader(open(filename), delimiter='\t')`. A last line without newline ends a record too; a record
that is open at the end of the file is returned as it is. -/
def readCsv (t : List Char) : Py (List (List (List Char))) :=
  match CsvReader.run {} (readNewlines t) with
  | .error e => .error e
  | .ok s =>
    if s.st = .startRecord then .ok s.rows
    else if s.st = .inQuoted then .ok ((s.save .startRecord).emit).rows
    else .ok s.eol.rows

end GPyOpt
