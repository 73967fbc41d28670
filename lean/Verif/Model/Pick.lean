import Verif.Model.Worker
/-
Which waiting transactions a delivery takes along in one coalesced batch
(`transaction_coalescing.go:45-88`, `:286-380`, `:537-608`, `database/transaction_coalescing.go:32-188`).

Simplified: no query fails; a row's time of creation is a number, so the rounding of the time in the
task to the database's microseconds is left out.
-/
namespace Blnk.Pick

open Queue

/-- `queuedCoalescingScope…` in the order they are tried (`transaction_coalescing.go:303-307`). -/
inductive Scope
  | pair
  | source
  | destination
deriving DecidableEq, Repr

/-- The part of the three `WHERE` clauses that differs (`database/transaction_coalescing.go:42-43`,
`:81`, `:119`). -/
def Scope.covers : Scope → Txn → Txn → Bool
  | .pair, l, t => t.source = l.source && t.destination = l.destination
  | .source, l, t => t.source = l.source
  | .destination, l, t => t.destination = l.destination

/-- The `WHERE` clause (`database/transaction_coalescing.go:41-50`, `:80-88`, `:118-126`) for the
leader `l`; the row left out by name is the leader's own, `l.parent`
(`transaction_coalescing.go:347-380`). -/
def fits (db : DB) (s : Scope) (l t : Txn) : Bool :=
  t.status = .queued && s.covers l t && t.currency = l.currency && t.id ≠ l.parent
    && l.createdAt ≤ t.createdAt && !(db.txns.any fun c => c.parent = t.id)

/-- What a query may return (`ORDER BY t.created_at ASC LIMIT n`): rows created at the same time
come in any order. -/
def Rows (db : DB) (s : Scope) (l : Txn) (n : Nat) (xs : List Txn) : Prop :=
  ∃ ys : List Txn, ys.Perm (db.txns.filter (fits db s l)) ∧ ys.Pairwise (fun a b => a.createdAt ≤ b.createdAt) ∧ xs = ys.take n

/-- `canCoalesceQueuedTransaction` (`transaction_coalescing.go:537-565`). A task has no split parts. -/
def canLead (t : Txn) : Bool :=
  t.parent ≠ "" && t.status = .queued && !t.atomic && !t.skipQueue && t.scheduledFor.isNone
    && t.source ≠ "" && t.destination ≠ "" && t.currency ≠ ""

/-- `canCoalesceQueuedOriginal` (`transaction_coalescing.go:567-592`). A row has no split parts. -/
def canFollow (t : Txn) : Bool :=
  t.status = .queued && !t.atomic && !t.skipQueue && t.scheduledFor.isNone
    && t.source ≠ "" && t.destination ≠ "" && t.currency ≠ ""

/-- `queuedCoalescingBatchSize` (`transaction_coalescing.go:286-300`, `transaction.go:46`). -/
def batchSize (force coalescing : Bool) (size : Int) : Int :=
  if !force && !coalescing then 0
  else if size ≤ 1 then size
  else if 10000 < size then 10000
  else size

/-- The loop of `buildQueuedCoalescingBatchForScope` (`transaction_coalescing.go:320-345`): each
row as read back, its flags taken from its metadata, and a fresh copy made of it. -/
def copies (fresh : Nat → String) : Nat → List Txn → List Txn
  | _, [] => []
  | k, r :: rs =>
    if canFollow (restore (scan r)) then queueCopy (restore (scan r)) (fresh k) :: copies fresh (k + 1) rs
    else copies fresh k rs

/-- `buildQueuedCoalescingBatch` (`transaction_coalescing.go:302-318`): the first scope with at
least one other member. Each query reads the database as it then is. -/
inductive Built (dbs : Scope → DB) (l : Txn) (n : Nat) (fresh : Nat → String) : Option (Scope × List Txn) → Prop
  | pair {xs} : Rows (dbs .pair) .pair l (n - 1) xs → copies fresh 0 xs ≠ [] →
      Built dbs l n fresh (some (.pair, l :: copies fresh 0 xs))
  | source {xs ys} : Rows (dbs .pair) .pair l (n - 1) xs → copies fresh 0 xs = [] →
      Rows (dbs .source) .source l (n - 1) ys → copies fresh 0 ys ≠ [] →
      Built dbs l n fresh (some (.source, l :: copies fresh 0 ys))
  | destination {xs ys zs} : Rows (dbs .pair) .pair l (n - 1) xs → copies fresh 0 xs = [] →
      Rows (dbs .source) .source l (n - 1) ys → copies fresh 0 ys = [] →
      Rows (dbs .destination) .destination l (n - 1) zs → copies fresh 0 zs ≠ [] →
      Built dbs l n fresh (some (.destination, l :: copies fresh 0 zs))
  | alone {xs ys zs} : Rows (dbs .pair) .pair l (n - 1) xs → copies fresh 0 xs = [] →
      Rows (dbs .source) .source l (n - 1) ys → copies fresh 0 ys = [] →
      Rows (dbs .destination) .destination l (n - 1) zs → copies fresh 0 zs = [] →
      Built dbs l n fresh none

/-- `tryRecordQueuedTransactionBatch` up to the batch (`transaction_coalescing.go:45-88`): `none` is
"not handled". -/
inductive Tried (force coalescing : Bool) (size : Int) (dbs : Scope → DB) (l : Txn) (fresh : Nat → String) : Option (Scope × List Txn) → Prop
  | not : canLead l = false ∨ batchSize force coalescing size < 2 → Tried force coalescing size dbs l fresh none
  | built {r} : canLead l = true → 2 ≤ batchSize force coalescing size →
      Built dbs l (batchSize force coalescing size).toNat fresh r → Tried force coalescing size dbs l fresh r

end Blnk.Pick
