import Verif.Model.Upload
import Verif.Model.Errors
/-
From the text of an uploaded CSV file to the rows the workers get (`ProcessCSV`, `createColumnMap`,
`parseExternalTransaction`, `internal/files/files.go:228-249, 381-457`), with the reader of
`encoding/csv` as it is configured there: commas, double quotes, no comments, strict quotes, every
record as long as the first.

Texts are lists of characters. Trimming and lower-casing are those of ASCII.
-/
namespace Blnk.Csv

open Blnk.Errs (Text)

/-! ### Characters -/

/-- What `strings.TrimSpace` removes. -/
def isSpace (c : Char) : Bool := c == ' ' || c == '\t' || c == '\n' || c == '\x0b' || c == '\x0c' || c == '\r'

/-- `strings.TrimSpace`. -/
def trim (t : Text) : Text := ((t.dropWhile isSpace).reverse.dropWhile isSpace).reverse

/-- `strings.ToLower`. -/
def lower (t : Text) : Text := t.map Char.toLower

/-! ### `encoding/csv` -/

/-- `readLine`: a line end of two characters becomes one, and a carriage return at the very end is dropped. -/
def normalize : Text → Text
  | [] => []
  | ['\r'] => []
  | '\r' :: '\n' :: t => '\n' :: normalize t
  | c :: t => c :: normalize t

/-- Where the reader is. -/
inductive Mode
  /-- at the beginning of a line; nothing of a record has been read -/
  | line
  /-- at the beginning of a field that is not the first -/
  | field
  /-- inside a field without quotes -/
  | plain
  /-- inside a field in quotes -/
  | quoted
  /-- after a quote inside a field in quotes -/
  | quote
  /-- after an error, in the rest of the line -/
  | skip
deriving DecidableEq, Repr

/-- What `Read` returns: a record or an error. -/
abbrev Row := Option (List Text)

/-- `readRecord` over the rest of the file, called until the end: the fields of the record so far are
`acc`, the field so far is `cur`. -/
def read : Mode → List Text → Text → Text → List Row
  | .line, _, _, [] => []
  | .field, acc, cur, [] => [some (acc ++ [cur])]
  | .plain, acc, cur, [] => [some (acc ++ [cur])]
  | .quoted, _, _, [] => [none]
  | .quote, acc, cur, [] => [some (acc ++ [cur])]
  | .skip, _, _, [] => [none]
  | .line, _, _, c :: t =>
    if c = '\n' then read .line [] [] t
    else if c = '"' then read .quoted [] [] t
    else if c = ',' then read .field [[]] [] t
    else read .plain [] [c] t
  | .field, acc, _, c :: t =>
    if c = '\n' then some (acc ++ [[]]) :: read .line [] [] t
    else if c = '"' then read .quoted acc [] t
    else if c = ',' then read .field (acc ++ [[]]) [] t
    else read .plain acc [c] t
  | .plain, acc, cur, c :: t =>
    if c = '\n' then some (acc ++ [cur]) :: read .line [] [] t
    else if c = '"' then read .skip [] [] t
    else if c = ',' then read .field (acc ++ [cur]) [] t
    else read .plain acc (cur ++ [c]) t
  | .quoted, acc, cur, c :: t =>
    if c = '"' then read .quote acc cur t
    else read .quoted acc (cur ++ [c]) t
  | .quote, acc, cur, c :: t =>
    if c = '"' then read .quoted acc (cur ++ ['"']) t
    else if c = ',' then read .field (acc ++ [cur]) [] t
    else if c = '\n' then some (acc ++ [cur]) :: read .line [] [] t
    else read .skip [] [] t
  | .skip, _, _, c :: t => if c = '\n' then none :: read .line [] [] t else read .skip [] [] t

/-- All calls of `Read`. -/
def rows (t : Text) : List Row := read .line [] [] (normalize t)

/-- `FieldsPerRecord`: a record of another length than the first is an error. -/
def sameLength (n : Nat) : Row → Row
  | none => none
  | some fs => if fs.length = n then some fs else none

/-! ### Columns -/

/-- The name of a column (`internal/files/files.go:386`). -/
def normalName (h : Text) : Text := lower (trim h)

/-- `columnMap[name]`: the last column of that name (`internal/files/files.go:385-388`). -/
def column (headers : List Text) (name : Text) : Option Nat :=
  match headers.reverse.findIdx? (fun h => normalName h == name) with
  | some i => some (headers.length - 1 - i)
  | none => none

/-- `len(columnMap)`: the number of different names. -/
def columns (headers : List Text) : Nat := (headers.map normalName).eraseDups.length

/-- The required columns (`internal/files/files.go:382, 390-394`). -/
def headerOk (headers : List Text) : Bool :=
  [t! "id", t! "amount", t! "date"].all (fun c => (column headers c).isSome)

/-- `getRequiredField` (`internal/files/files.go:448-457`): an empty text stands for its errors. -/
def cell (headers : List Text) (record : List Text) (name : Text) : String :=
  match column headers name with
  | some i => String.ofList (trim (record.getD i []))
  | none => ""

/-- The cells of a record (`parseExternalTransaction`, `internal/files/files.go:399-446`); if the number of fields is not
the number of different columns, the record is refused, as one with blank cells is. -/
def cells (headers record : List Text) : Upload.Cells :=
  if record.length ≠ columns headers then ⟨"", "", "", "", "", ""⟩
  else
    { id := cell headers record (t! "id"), amount := cell headers record (t! "amount"), currency := cell headers record (t! "currency"),
      reference := cell headers record (t! "reference"), description := cell headers record (t! "description"),
      date := cell headers record (t! "date") }

/-- What becomes of one call of `Read`. -/
def line (headers : List Text) (r : Row) : Upload.Line :=
  match sameLength headers.length r with
  | none => .broken
  | some fs => .cells (cells headers fs)

/-- `ProcessCSV` up to the workers (`internal/files/files.go:228-249`): nothing if the header is refused. -/
def lines (t : Text) : Option (List Upload.Line) :=
  match rows t with
  | some headers :: rest => if headerOk headers then some (rest.map (line headers)) else none
  | _ => none

end Blnk.Csv
