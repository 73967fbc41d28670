import Verif.Model.Lineage
import Verif.Model.Auth
/-
The note a debit gets about whose money it spent (`BLNK_FUND_ALLOCATION`, `lineage_allocation_metadata.go:28-70`), and
`GET /transactions/{id}/lineage`, which shows it (`lineage_queries.go:131-186`).
-/
namespace Blnk.Lineage

/-- What there is of one debit: the rows, and the note in its metadata. -/
structure Noted where
  st : LState
  note : Option (List Alloc) := none
deriving DecidableEq, Repr

/-- One attempt: where the rows stop, whether the process dies between the last row and the note, and whether the
statement that writes the note succeeds (a failure is only logged, `lineage_allocation_metadata.go:41-43`). -/
structure Try where
  att : Attempt
  dies : Bool := false
  writes : Bool := true
deriving DecidableEq, Repr

/-- `processLineageDebit` (`lineage_debit.go:83-107`) with the note. What is noted is what this attempt allocated
(`buildFundAllocationList`, `lineage_allocation_metadata.go:55-71`; every allocation has a mapping), in place of an
earlier note (`||` of the key, `database/metadata.go:54`). -/
def noteAttempt (d : Debit) (t : Try) (n : Noted) : Noted × Bool :=
  let left := d.amount - total n.st.released
  if left ≤ 0 then (n, true)
  else
    let al := calculate d.strategy (live n.st.sources) left
    let r := process d.inflight (d.tracks && t.att.prepared) al t.att.writes n.st
    if !r.2 || t.dies then ({ n with st := r.1 }, false)
    else if al.isEmpty || !t.writes then ({ n with st := r.1 }, true)
    else (⟨r.1, some al⟩, true)

/-- Attempts until one ends well (`lineage_worker.go:170-182`). -/
def noteAttempts (d : Debit) : List Try → Noted → Noted × Bool
  | [], n => (n, false)
  | t :: ts, n =>
    let r := noteAttempt d t n
    if r.2 then r else noteAttempts d ts r.1

/-- The noted amount as it is shown: the number in the stored JSON is decoded into an `interface{}`, that is a
`float64` (`lineage_queries.go:163-186`). -/
def readBack (a : Int) : Int := a.sign * (Auth.toFloat a.natAbs : Nat)

/-- `fund_allocation` (`lineage_queries.go:164-186`). -/
def Noted.shown (n : Noted) : List Alloc := (n.note.getD []).map fun x => (x.1, readBack x.2)

/-! ### Which transaction shows it -/

/-- A stored transaction. -/
structure Stored where
  id : String
  parent : String := ""
  note : Option (List Alloc) := none
deriving DecidableEq, Repr

/-- `UpdateTransactionMetadata` (`database/metadata.go:43-58`). -/
def annotate (rows : List Stored) (id : String) (note : List Alloc) : List Stored :=
  rows.map fun r => if r.id = id ∨ r.parent = id then { r with note := some note } else r

/-- A lineage transaction; `for_` is `_shadow_for`. -/
structure Shadow where
  for_ : String
  provider : String
  amount : Int
deriving DecidableEq, Repr

/-- What is stored after a debit was worked on: the rows it left behind carry its id (`lineage_debit.go:293`), and so
does the note. Left out: the rows that credit a destination that keeps track too, which carry the id as well
(`lineage_debit.go:418`). -/
def finish (rows : List Stored) (sh : List Shadow) (id : String) (n : Noted) : List Stored × List Shadow :=
  (match n.note with
   | some l => annotate rows id l
   | none => rows,
   sh ++ n.st.released.map fun x => ⟨id, x.1, x.2⟩)

/-- `GetTransactionLineage` (`lineage_queries.go:131-153`, `database/transaction_lineage.go:30-92`): the note of the
transaction and the lineage transactions made for it. Simplified: amounts of the note as stored. -/
def lineageOf (rows : List Stored) (sh : List Shadow) (id : String) : Option (List Alloc × List Alloc) :=
  match rows.find? (fun r => r.id = id) with
  | none => none
  | some r => some (r.note.getD [], (sh.filter (fun x => x.for_ = id)).map fun x => (x.provider, x.amount))

end Blnk.Lineage
