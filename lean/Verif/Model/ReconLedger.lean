import Verif.Model.ReconGroup
import Verif.Model.Queue
/-
The side of the ledger in a reconciliation: which transactions it is given to compare with
(`database/transaction_criteria.go:33-141`, `database/transaction_grouping.go:33-322`), and from which
pages, old or new, it takes them.
-/
namespace Blnk.Recon

/-! ### The rows -/

/-- A row of the transaction table as the rules see it (`reconciliation.go:275-311`). No query of
reconciliation asks for a status, and no rule can. Left out: the description, which `Txn` does not have. -/
def entryOf (t : Txn) : Rec :=
  { id := t.id, amount := t.amount, date := t.createdAt, reference := t.reference, currency := t.currency }

/-- `ORDER BY created_at ASC` (`database/transaction_criteria.go:78`, `database/transaction_grouping.go:54`): rows of the
same time in any order. -/
structure Dated (rows l : List Txn) : Prop where
  perm : l.Perm rows
  sorted : l.Pairwise fun a b => a.createdAt ≤ b.createdAt

/-- Grouping columns that a client would use (`database/transaction_grouping.go:238-322`); the others, like the id, the
status or the time, are left out. -/
inductive Column
  | parent | source | reference | currency | destination
deriving DecidableEq, Repr

def Column.of : Column → Txn → String
  | .parent, t => t.parent
  | .source, t => t.source
  | .reference, t => t.reference
  | .currency, t => t.currency
  | .destination, t => t.destination

/-- The rows of a grouping query: those with a key, with their keys (`database/transaction_grouping.go:240-318`). -/
def keyed (c : Column) (rows : List Txn) : List (String × Rec) :=
  (rows.filter (fun t => c.of t ≠ "")).map fun t => (c.of t, entryOf t)

/-! ### The pages

`GetTransactionsPaginated` and `GroupTransactions` keep every page that is not empty, for an hour or
five minutes, under the page size and the offset (`database/transaction_grouping.go:38`, `119`, `152`, `227`).
Nothing removes them when a transaction is recorded. Below the page size is fixed. -/

section
variable {α : Type}

/-- A pass over the pages: what was stored when it began (bookkeeping of the model), the offset reached,
the rows it was given, whether it has met an empty page. -/
structure Pass (α : Type) where
  began : List α
  off : Nat := 0
  seen : List α := []
  done : Bool := false

structure Hall (α : Type) where
  stored : List α := []
  /-- the pages kept, by offset -/
  kept : List (Nat × List α) := []
  passes : List (Pass α) := []

inductive HallEv (α : Type)
  /-- a transaction is recorded -/
  | post (r : α)
  /-- a pass begins -/
  | start
  /-- the `n`-th pass asks for its next page. If the database is asked, `answer` is its listing without
  `LIMIT` and `OFFSET`. -/
  | page (n : Nat) (answer : List α)
  /-- a kept page expires -/
  | expire (off : Nat)

/-- The page kept for an offset; nothing and an empty page are the same
(`database/transaction_grouping.go:43`, `156`). -/
def keptAt (kept : List (Nat × List α)) (off : Nat) : List α :=
  match kept.find? (fun e => e.1 = off) with
  | some e => e.2
  | none => []

/-- The next page: what it holds and the pages kept afterwards (`database/transaction_grouping.go:40-49`,
`117-124`, and `154-161`, `225-230`). -/
def fetch (size : Nat) (kept : List (Nat × List α)) (answer : List α) (off : Nat) : List α × List (Nat × List α) :=
  if !(keptAt kept off).isEmpty then (keptAt kept off, kept)
  else if (Paging.page answer size off).isEmpty then ([], kept)
  else (Paging.page answer size off, (off, Paging.page answer size off) :: kept)

/-- How far the offset goes: by the rows got for `many_to_one` (`transaction_batch_processing.go:219`), by the
page size for groups (`reconciliation.go:980`). -/
def stride (grouped : Bool) (size : Nat) (got : List α) : Nat := if grouped then size else got.length

/-- A pass with its next page. -/
def Pass.next (grouped : Bool) (size : Nat) (p : Pass α) (got : List α) : Pass α :=
  if got.isEmpty then { p with done := true }
  else { p with off := p.off + stride grouped size got, seen := p.seen ++ got }

def hallStep (grouped : Bool) (size : Nat) (s : Hall α) : HallEv α → Hall α
  | .post r => { s with stored := s.stored ++ [r] }
  | .start => { s with passes := s.passes ++ [{ began := s.stored }] }
  | .page n answer => match s.passes[n]? with
    | none => s
    | some p =>
      if p.done then s
      else { s with kept := (fetch size s.kept answer p.off).2
                    passes := s.passes.set n (p.next grouped size (fetch size s.kept answer p.off).1) }
  | .expire off => { s with kept := s.kept.filter (fun e => e.1 ≠ off) }

def hallRun (grouped : Bool) (size : Nat) (s : Hall α) : List (HallEv α) → Hall α
  | [] => s
  | e :: es => hallRun grouped size (hallStep grouped size s e) es

/-- A listing in the order `le`: rows that are equal in it in any order. -/
structure Ordered (le : α → α → Prop) (rows l : List α) : Prop where
  perm : l.Perm rows
  sorted : l.Pairwise le

/-- The answers of the database along the way are listings of what is stored at the time. -/
def Honest (grouped : Bool) (size : Nat) (le : α → α → Prop) : Hall α → List (HallEv α) → Prop
  | _, [] => True
  | s, e :: es => (∀ n answer, e = .page n answer → Ordered le s.stored answer) ∧
      Honest grouped size le (hallStep grouped size s e) es

end
end Blnk.Recon
