import Verif.Model.ReconGroup
/-
Which external records a reconciliation reads, and what it stores (`reconciliation.go:454-500`,
`545-618`; `database/reconciliation.go:172-290`, `613-664`).
-/
namespace Blnk.Recon

/-! ### Reading the upload -/

/-- The cache of `GetExternalTransactionsPaginated`: its keys are the batch size and the offset only
(`database/reconciliation.go:618`). -/
abbrev PageCache := List ((Nat × Nat) × List Rec)

def cached (c : PageCache) (key : Nat × Nat) : List Rec :=
  match c.find? (fun e => e.1 = key) with
  | some e => e.2
  | none => []

/-- A run over an upload: the offset reached, the records handed to the workers, whether it has seen an
empty page. -/
structure Reading where
  upload : String
  off : Nat := 0
  seen : List Rec := []
  done : Bool := false
deriving DecidableEq, Repr

structure Shop where
  /-- the external transactions with their uploads -/
  stored : List (String × Rec) := []
  cache : PageCache := []
  readings : List Reading := []
deriving DecidableEq, Repr

def uploaded (stored : List (String × Rec)) (u : String) : List Rec := (stored.filter (fun p => p.1 = u)).map (·.2)

inductive ShopEv
  /-- a record is uploaded -/
  | store (u : String) (r : Rec)
  /-- a reconciliation of this upload starts (not `many_to_one`) -/
  | start (u : String)
  /-- the `n`-th reconciliation reads its next page. If the database is asked, `answer` is its
  `ORDER BY date DESC` listing without `LIMIT` and `OFFSET`. -/
  | page (n : Nat) (answer : List Rec)
  /-- a cached page expires, after five minutes at the latest -/
  | expire (key : Nat × Nat)
deriving Repr

/-- One page of a reading (`fetchTransactions`, `transaction_batch_processing.go:171-222`, with
`database/reconciliation.go:613-664`): the reading and the cache afterwards. -/
def readPage (size : Nat) (cache : PageCache) (answer : List Rec) (r : Reading) : Reading × PageCache :=
  if r.done then (r, cache)
  else if cached cache (size, r.off) ≠ [] then
    ({ r with off := r.off + (cached cache (size, r.off)).length, seen := r.seen ++ cached cache (size, r.off) }, cache)
  else if Paging.page answer size r.off = [] then ({ r with done := true }, cache)
  else
    ({ r with off := r.off + (Paging.page answer size r.off).length, seen := r.seen ++ Paging.page answer size r.off },
      ((size, r.off), Paging.page answer size r.off) :: cache)

def shopStep (size : Nat) (s : Shop) : ShopEv → Shop
  | .store u r => { s with stored := s.stored ++ [(u, r)] }
  | .start u => { s with readings := s.readings ++ [{ upload := u }] }
  | .page n answer => match s.readings[n]? with
    | none => s
    | some r => { s with readings := s.readings.set n (readPage size s.cache answer r).1, cache := (readPage size s.cache answer r).2 }
  | .expire key => { s with cache := s.cache.filter (fun e => e.1 ≠ key) }

def shopRun (size : Nat) (s : Shop) : List ShopEv → Shop
  | [] => s
  | e :: es => shopRun size (shopStep size s e) es

/-- A listing `ORDER BY date DESC`: records of the same date in any order. -/
structure Listing (rows l : List Rec) : Prop where
  perm : l.Perm rows
  sorted : l.Pairwise fun a b => b.date ≤ a.date

/-- The answers the database gives along the way are listings of the uploads read. -/
def Answers (size : Nat) : Shop → List ShopEv → Prop
  | _, [] => True
  | s, e :: es => (∀ n answer r, e = .page n answer → s.readings[n]? = some r → Listing (uploaded s.stored r.upload) answer) ∧
      Answers size (shopStep size s e) es

/-! ### Storing the results -/

/-- `NUMERIC(12, 2)` (`sql/1721922047.sql:36`): two decimals, ten digits before them. -/
def cents (a : Rat) : Int := if 0 ≤ a then (a * 100 + 1 / 2).floor else -((-a * 100 + 1 / 2).floor)

def storable (a : Rat) : Bool := (cents a).natAbs < 10 ^ 12

/-- A row of `matches`. -/
structure MatchRow where
  external : String
  internal : String
  amount : Rat
deriving DecidableEq, Repr

def matchRow (m : Match) : MatchRow := { external := m.external, internal := m.internal, amount := (cents m.amount : Rat) / 100 }

/-- A run's counters and what it has stored. -/
structure Tally where
  matched : Nat := 0
  unmatched : Nat := 0
  rows : List MatchRow := []
  misses : List String := []
  failed : Bool := false
deriving DecidableEq, Repr

/-- `process` (`reconciliation.go:454-500`) given what the strategy reports of the record. -/
def process (dry : Bool) (t : Tally) (o : Outcome) : Tally :=
  let t := { t with matched := t.matched + o.matched.length, unmatched := t.unmatched + o.unmatched.length }
  if dry then t
  else if o.matched.all (fun m => storable m.amount) then { t with rows := t.rows ++ o.matched.map matchRow, misses := t.misses ++ o.unmatched }
  else { t with failed := true }

/-- The records of a run in the order they are finished. A worker that meets an error stops, the others
go on (`reconciliation.go:569-584`). -/
def processAll (dry : Bool) (t : Tally) : List Outcome → Tally
  | [] => t
  | o :: os => processAll dry (process dry t o) os

structure Summary where
  completed : Bool
  matched : Nat
  unmatched : Nat
deriving DecidableEq, Repr

/-- `processReconciliation` at the end (`reconciliation.go:356-370`, `150-158`). -/
def finish (t : Tally) : Summary :=
  if t.failed then { completed := false, matched := 0, unmatched := 0 } else { completed := true, matched := t.matched, unmatched := t.unmatched }

end Blnk.Recon
