import Verif.Model.ReconRun
/-
Uploading external records (`internal/files/files.go`, `reconciliation.go:90-115`,
`database/reconciliation.go:349-366`, `api/reconciliation_api.go:48-220`).

CSV files are read by one goroutine and stored by several; their steps are interleaved here in every
way. Not modelled: detecting the file type, splitting text into cells (`encoding/csv`), the temporary
file, the download.
-/
namespace Blnk.Upload

open Blnk.Recon

/-- The cells of a CSV row under the columns the code looks for, trimmed; a missing column is a blank
cell (`getRequiredField`, `internal/files/files.go:448-457`). -/
structure Cells where
  id : String
  amount : String
  currency : String := "USD"
  reference : String := "r"
  description : String := "d"
  date : String
deriving DecidableEq, Repr

/-- A row as `csv.Reader` gives it: an error, for one with another number of cells than the header, or
its cells. -/
inductive Line
  | broken
  | cells (c : Cells)
deriving DecidableEq, Repr

structure Cfg where
  /-- `strconv.ParseFloat` -/
  num : String → Option Rat
  /-- `time.Parse` with RFC 3339 -/
  time : String → Option Rat
  /-- the number of workers, at most four (`internal/files/files.go:253-256`) -/
  workers : Nat
  /-- `DefaultChannelSize`, 1000 -/
  channel : Nat
  /-- `DefaultBatchSize`, 500 -/
  batch : Nat
  /-- this upload -/
  mine : String
  /-- whether inserts may fail at any time -/
  flaky : Bool
  /-- ids that other uploads do not use meanwhile -/
  reserved : List String

/-- `time.Time{}` in seconds from 1970. -/
def zeroTime : Rat := -62135596800

/-- `parseExternalTransaction` (`internal/files/files.go:399-446`): `parseFloat` gives zero and `parseTime` the zero
time for a text they cannot read (`internal/files/files.go:501-515`). -/
def parse (c : Cfg) (x : Cells) : Option Rec :=
  if x.id = "" ∨ x.amount = "" ∨ x.currency = "" ∨ x.reference = "" ∨ x.description = "" ∨ x.date = "" then none
  else some { id := x.id, amount := (c.num x.amount).getD 0, date := (c.time x.date).getD zeroTime, description := x.description,
              reference := x.reference, currency := x.currency }

/-- A worker (`processWorker`, `internal/files/files.go:319-370`). -/
inductive Hand
  /-- waiting for a row, with its batch so far -/
  | gather (b : List Rec)
  /-- sending an error; `last` if the batch was the final one -/
  | report (b : List Rec) (last : Bool)
  /-- storing a batch of `n` rows, of which `todo` are left -/
  | store (todo : List Rec) (n : Nat) (last : Bool)
  | finished
deriving DecidableEq, Repr

structure Shared where
  /-- the rows of the file not read yet -/
  lines : List Line
  /-- `rowChan` -/
  chan : List Cells := []
  /-- the number of errors in `errChan` -/
  errs : Nat := 0
  /-- `totalCount` -/
  total : Nat := 0
  /-- the table of external transactions, with the upload of each -/
  stored : List (String × Rec)
  /-- whether the request's context has ended: the client has gone, or the time for the download and
  the storing together is over (`api/reconciliation_api.go:160-165`) -/
  cancelled : Bool := false
deriving DecidableEq, Repr

def ids (stored : List (String × Rec)) : List String := stored.map (·.2.id)

/-- After the final batch the worker returns, after another it starts the next. -/
def next (b : List Rec) (last : Bool) : Hand := if last then .finished else .gather b

/-- A step of a worker. -/
inductive HandStep (c : Cfg) (s : Shared) : Hand → Shared → Hand → Prop
  | take {b x rest r} (h : s.chan = x :: rest) (hp : parse c x = some r) (hl : b.length + 1 < c.batch) :
      HandStep c s (.gather b) { s with chan := rest } (.gather (b ++ [r]))
  | full {b x rest r} (h : s.chan = x :: rest) (hp : parse c x = some r) (hl : c.batch ≤ b.length + 1) :
      HandStep c s (.gather b) { s with chan := rest } (.store (b ++ [r]) (b ++ [r]).length false)
  | bad {b x rest} (h : s.chan = x :: rest) (hp : parse c x = none) :
      HandStep c s (.gather b) { s with chan := rest } (.report b false)
  /-- the channel is closed and empty -/
  | rest {b} (h1 : s.lines = []) (h2 : s.chan = []) (hb : b ≠ []) : HandStep c s (.gather b) s (.store b b.length true)
  | leave (h1 : s.lines = []) (h2 : s.chan = []) : HandStep c s (.gather []) s .finished
  /-- `errChan` has room for as many errors as there are workers and is read only when all have returned -/
  | send {b l} (h : s.errs < c.workers) : HandStep c s (.report b l) { s with errs := s.errs + 1 } (next b l)
  /-- `id` is the primary key (`sql/1721922047.sql:50`) -/
  | insert {r t n l} (h : r.id ∉ ids s.stored) : HandStep c s (.store (r :: t) n l) { s with stored := s.stored ++ [(c.mine, r)] } (.store t n l)
  /-- `storeBatch` stops at the first error; the rows before it stay (`internal/files/files.go:372-379`) -/
  | fails {r t n l} (h : c.flaky = true ∨ s.cancelled = true ∨ r.id ∈ ids s.stored) : HandStep c s (.store (r :: t) n l) s (.report [] l)
  | counted {n l} : HandStep c s (.store [] n l) { s with total := s.total + n } (next [] l)
  /-- the context has ended: the worker returns without storing its batch and without an error
  (`internal/files/files.go:324-328`, `350-357`) -/
  | quit {b} (h : s.cancelled = true) : HandStep c s (.gather b) s .finished
  | quitRow {b x rest} (h : s.cancelled = true) (hx : s.chan = x :: rest) : HandStep c s (.gather b) { s with chan := rest } .finished

/-- A step of the reading goroutine (`internal/files/files.go:273-300`). -/
inductive ReadStep (c : Cfg) (s : Shared) : Shared → Prop
  | row {x ls} (h : s.lines = .cells x :: ls) (hr : s.chan.length < c.channel) : ReadStep c s { s with lines := ls, chan := s.chan ++ [x] }
  | broken {ls} (h : s.lines = .broken :: ls) (he : s.errs < c.workers) : ReadStep c s { s with lines := ls, errs := s.errs + 1 }
  | stops (h : s.cancelled = true) : ReadStep c s { s with lines := [] }

structure State where
  shared : Shared
  hands : List Hand
deriving DecidableEq, Repr

/-- A step of the upload itself. -/
inductive Own (c : Cfg) (u : State) : State → Prop
  | reader {s'} (h : ReadStep c u.shared s') : Own c u { u with shared := s' }
  | worker {l h r s' h'} (hh : u.hands = l ++ h :: r) (hs : HandStep c u.shared h s' h') : Own c u { shared := s', hands := l ++ h' :: r }

/-- What happens around it: the context ends, other uploads store rows. -/
inductive Other (c : Cfg) (u : State) : State → Prop
  | cancel : Other c u { u with shared := { u.shared with cancelled := true } }
  | store {up r} (hu : up ≠ c.mine) (hr : r.id ∉ ids u.shared.stored) (hx : r.id ∉ c.reserved) :
      Other c u { u with shared := { u.shared with stored := u.shared.stored ++ [(up, r)] } }

inductive Steps (c : Cfg) : State → State → Prop
  | refl {u} : Steps c u u
  | own {u v w} (h : Steps c u v) (hs : Own c v w) : Steps c u w
  | other {u v w} (h : Steps c u v) (hs : Other c v w) : Steps c u w

/-- The upload begins. -/
def start (c : Cfg) (lines : List Line) (stored : List (String × Rec)) : State :=
  { shared := { lines := lines, stored := stored }, hands := List.replicate c.workers (.gather []) }

/-- All workers have returned: the upload is answered. -/
def Finished (u : State) : Prop := ∀ h ∈ u.hands, h = .finished

instance (u : State) : Decidable (Finished u) := inferInstanceAs (Decidable (∀ h ∈ u.hands, h = .finished))

/-- The answer: the number of records if there was no error (`internal/files/files.go:302-316`). -/
def answer (u : State) : Option Nat := if u.shared.errs = 0 then some u.shared.total else none

/-! ### JSON -/

/-- An element of a JSON array of records, and what `Decode` makes of it. -/
inductive Elem
  | unreadable
  | record (r : Rec)
deriving DecidableEq, Repr

/-- `ProcessJSON` (`internal/files/files.go:463-499`): the elements are stored one after the other up to the first
error. `decoder.More` is false at the closing bracket and also where the text just ends after an
element; the rest is not looked at, so the function does not depend on whether the array is closed. -/
def json (mine : String) (stored : List (String × Rec)) (total : Nat) : List Elem → Option Nat × List (String × Rec)
  | [] => (some total, stored)
  | .unreadable :: _ => (none, stored)
  | .record r :: es => if r.id ∈ ids stored then (none, stored) else json mine (stored ++ [(mine, r)]) (total + 1) es

/-- An uploaded JSON text: its elements up to where it ends, and whether it ends with the bracket that
closes the array. -/
structure JsonFile where
  elems : List Elem
  closed : Bool
deriving DecidableEq, Repr

def jsonUpload (mine : String) (stored : List (String × Rec)) (f : JsonFile) : Option Nat × List (String × Rec) := json mine stored 0 f.elems

end Blnk.Upload
