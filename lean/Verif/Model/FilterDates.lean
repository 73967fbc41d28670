import Verif.Model.Filter
/-
Dates and times in filters: how the texts of a URL are read as dates (`internal/filter/datetime.go`,
`internal/filter/values.go`), how the URL parser splits the values of `between` and `in`
(`internal/filter/parser.go:109-141`), and what a JSON body keeps of them
(`api/filter_helper.go:85-140`, `internal/filter/types.go:30-35`).

Times are nanoseconds since the beginning of the year 0, by the digits that are written: the
driver sends a time with its offset from UTC, and a `TIMESTAMP` column drops the offset
(`sql/1708676327.sql:24`, `:49`, `:66`, `:80`, `:98`, `:114`, `sql/1741007609.sql:16`), so only the
digits reach the comparison.
-/
namespace Blnk.Filter

/-! ### The calendar of Go's `time` package -/

def isLeap (y : Nat) : Bool := y % 4 == 0 && (y % 100 != 0 || y % 400 == 0)

def monthLen (y m : Nat) : Nat :=
  if m = 2 then (if isLeap y then 29 else 28) else if m = 4 ∨ m = 6 ∨ m = 9 ∨ m = 11 then 30 else 31

/-- Days since the first day of the year 0. -/
def dayNumber (y m d : Nat) : Nat :=
  365 * y + (y + 3) / 4 - (y + 99) / 100 + (y + 399) / 400 +
    ((List.range (m - 1)).map (fun i => monthLen y (i + 1))).sum + (d - 1)

/-! ### Reading a text -/

def digitVal (c : Char) : Nat := c.toNat - '0'.toNat

/-- Exactly `k` digits, as Go's `time.Parse` reads `2006`, `01`, `02`, `04` and `05`. -/
def number : Nat → Nat → List Char → Option (Nat × List Char)
  | 0, acc, cs => some (acc, cs)
  | _ + 1, _, [] => none
  | k + 1, acc, c :: cs => if isDigit c then number k (acc * 10 + digitVal c) cs else none

/-- One or two digits, as `time.Parse` reads `15`. -/
def hourNumber : List Char → Option (Nat × List Char)
  | c :: d :: cs => if isDigit c then (if isDigit d then some (digitVal c * 10 + digitVal d, cs)
      else some (digitVal c, d :: cs)) else none
  | [c] => if isDigit c then some (digitVal c, []) else none
  | [] => none

def literal (c : Char) : List Char → Option (List Char)
  | x :: xs => if x = c then some xs else none
  | [] => none

/-- Nanoseconds written after the point: the first nine digits count. -/
def nanosOf (ds : List Char) : Nat :=
  (ds.take 9).foldl (fun n c => n * 10 + digitVal c) 0 * 10 ^ (9 - ds.length)

/-- Seconds may carry a fraction after a point or a comma, whatever the layout says of it. -/
def fractionOf : List Char → Nat × List Char
  | p :: d :: cs => if (p = '.' ∨ p = ',') ∧ isDigit d then
      (nanosOf ((d :: cs).takeWhile isDigit), (d :: cs).dropWhile isDigit) else (0, p :: d :: cs)
  | cs => (0, cs)

/-- Whether a text is a zone as `Z07:00` reads it. -/
def isZone : List Char → Bool
  | ['Z'] => true
  | [s, a, b, c, d, e] => (s == '+' || s == '-') && isDigit a && isDigit b && c == ':' && isDigit d && isDigit e &&
      decide (digitVal a * 10 + digitVal b ≤ 24 ∧ digitVal d * 10 + digitVal e ≤ 60)
  | _ => false

/-- The time of day; `zoned` tells whether a layout with a zone exists. -/
def clockOf (zoned : Bool) (cs : List Char) : Option Nat := do
  let (h, cs) ← hourNumber cs
  let cs ← literal ':' cs
  let (m, cs) ← number 2 0 cs
  if 24 ≤ h ∨ 60 ≤ m then none
  else if cs = [] then some ((h * 60 + m) * 60000000000)
  else do
    let cs ← literal ':' cs
    let (s, cs) ← number 2 0 cs
    if 60 ≤ s then none
    else
      let (ns, rest) := fractionOf cs
      if rest = [] ∨ (zoned ∧ isZone rest) then some (((h * 60 + m) * 60 + s) * 1000000000 + ns) else none

/-- `ParseDateTime` (`internal/filter/datetime.go:9-34`): the fourteen layouts, tried in turn, accept
these texts. Simplified: the Go parser is described, not modelled line by line. -/
def parseDateTime (cs : List Char) : Option Nat := do
  let (y, cs) ← number 4 0 cs
  match cs with
  | '-' :: cs => do
    let (m, cs) ← number 2 0 cs
    let cs ← literal '-' cs
    let (d, cs) ← number 2 0 cs
    if m = 0 ∨ 12 < m ∨ d = 0 ∨ monthLen y m < d then none
    else
      let day := dayNumber y m d * 86400000000000
      match cs with
      | [] => some day
      | 'T' :: cs => (clockOf true cs).map (day + ·)
      | ' ' :: cs => (clockOf false (cs.dropWhile (· = ' '))).map (day + ·)
      | _ => none
  | '/' :: cs => do
    let (m, cs) ← number 2 0 cs
    let cs ← literal '/' cs
    let (d, cs) ← number 2 0 cs
    if m = 0 ∨ 12 < m ∨ d = 0 ∨ monthLen y m < d ∨ cs ≠ [] then none
    else some (dayNumber y m d * 86400000000000)
  | _ => none

/-- The digits `getDatePrecisionFromString` finds after the first point
(`internal/filter/datetime.go:37-45`): up to the next point, without a final `Z`, up to a sign. -/
def fractionPart (cs : List Char) : List Char :=
  let part := ((cs.dropWhile (· != '.')).drop 1).takeWhile (· != '.')
  let part := if part.getLast? = some 'Z' then part.dropLast else part
  part.takeWhile (fun c => c != '+' && c != '-')

/-- `getDatePrecisionFromString` (`internal/filter/datetime.go:36-70`). -/
def precisionOf (cs : List Char) : Prec :=
  if cs.contains '.' && decide (6 ≤ (fractionPart cs).length) then .microseconds
  else if cs.contains '.' && decide (0 < (fractionPart cs).length) then .milliseconds
  else if 2 ≤ cs.count ':' then .second
  else if cs.count ':' = 1 then .minute
  else if cs.contains 'T' || cs.contains ' ' then .hour
  else .day

/-- The last step of `parseValue` (`internal/filter/values.go:23-30`). -/
def readDate (s : String) : Option Val := (parseDateTime s.toList).map (fun t => .time t (precisionOf s.toList))

/-! ### The two doors -/

/-- The names of the operators (`internal/filter/types.go:8-21`). -/
def Op.name : Op → String
  | .eq => "eq" | .ne => "ne" | .gt => "gt" | .gte => "gte" | .lt => "lt" | .lte => "lte" | .isIn => "in"
  | .between => "between" | .like => "like" | .ilike => "ilike" | .isnull => "isnull" | .isnotnull => "isnotnull"

/-- `strings.Split` by one character. -/
def splitBy (c : Char) : List Char → List (List Char)
  | [] => [[]]
  | x :: xs => if x = c then [] :: splitBy c xs else
      match splitBy c xs with
      | [] => [[x]]
      | p :: ps => (x :: p) :: ps

/-- `strings.TrimSpace`, for the ASCII blanks. -/
def trimBlanks (cs : List Char) : List Char :=
  ((cs.dropWhile (fun c => c == ' ' || c == '\t' || c == '\n' || c == '\r')).reverse.dropWhile
    (fun c => c == ' ' || c == '\t' || c == '\n' || c == '\r')).reverse

/-- A filter of the URL (`internal/filter/parser.go:104-141`); `none` is a refusal. Limits on the
number and the length of values are left out. -/
def urlFilter (float : String → Option Val) (field : String) (op : Op) (value : List Char) : Option Filter :=
  match op with
  | .between => match splitBy '|' value with
    | [a, b] => some ⟨field, op.name, .null, [parseValue float readDate (String.ofList a), parseValue float readDate (String.ofList b)]⟩
    | _ => none
  | .isIn => some ⟨field, op.name, .null,
      (splitBy ',' value).map (fun v => parseValue float readDate (String.ofList (trimBlanks v)))⟩
  | .isnull | .isnotnull => some ⟨field, op.name, .null, []⟩
  | _ => some ⟨field, op.name, parseValue float readDate (String.ofList value), []⟩

/-- A filter of a JSON body (`api/filter_helper.go:85-140`): texts stay texts. -/
def bodyFilter (field : String) (op : Op) (values : List (List Char)) : Filter :=
  match op with
  | .between | .isIn => ⟨field, op.name, .null, values.map (fun v => .text (String.ofList v))⟩
  | _ => ⟨field, op.name, match values with | v :: _ => .text (String.ofList v) | [] => .null, []⟩

end Blnk.Filter
