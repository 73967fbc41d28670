import Verif.Model.Ledger
/-
How a coalesced batch is written (`RecordTransactionsWithBalanceSetAndOutboxes`, `database/transaction.go:326-367`):
the balances in chunks of one statement each, the rows by `COPY`, the lineage outbox by one statement.

`recordBatch` (Ledger) writes balance by balance, loads them in no particular order and has no outbox; what is
here is closer to the code.
-/
namespace Blnk.Big
open Blnk

/-- Parameters of one statement. PostgreSQL and the driver take no more; this is not in the repository. -/
def maxParams : Nat := 65535

/-- `maxBalancesPerUpdateChunk` (`database/balance.go:36`). -/
def chunkSize : Nat := 1000

/-- Why nothing was written. -/
inductive BigErr
  | op (e : OpErr)
  /-- more than `maxParams` parameters -/
  | tooMany
  /-- "Failed to insert all lineage outbox entries" (`database/lineage.go:243-245`) -/
  | notAll
deriving DecidableEq, Repr

/-- The first occurrence of every balance with an id (`database/balance.go:911-922`). No pointer is nil. -/
def uniq : List String → List Balance → List Balance
  | _, [] => []
  | seen, b :: bs => if b.id = "" ∨ b.id ∈ seen then uniq seen bs else b :: uniq (b.id :: seen) bs

/-- `b.balance_id = v.balance_id AND b.version = v.expected_version` (`database/balance.go:1030-1031`). -/
def hits (b r : Balance) : Bool := r.id = b.id && r.version = b.version

/-- `SET …` (`database/balance.go:953-963`). Ledger and creation time are not modelled. -/
def written (b r : Balance) : Balance :=
  { r with balance := b.balance, credit := b.credit, debit := b.debit, inflightBalance := b.inflightBalance
           inflightCredit := b.inflightCredit, inflightDebit := b.inflightDebit, currency := b.currency, version := r.version + 1 }

/-- `updateBalanceChunk` (`database/balance.go:946-1063`): one statement with eleven parameters a balance; every
balance must be among the rows it returns. -/
def updateChunk (rows chunk : List Balance) : Except BigErr (List Balance) :=
  if maxParams < 11 * chunk.length then .error .tooMany
  else
    let updated := (rows.filter (fun r => chunk.any (hits · r))).map (·.id)
    if chunk.all (fun b => updated.contains b.id) then
      .ok (rows.map fun r => match chunk.find? (hits · r) with
        | some b => written b r
        | none => r)
    else .error (.op .conflict)

/-- The loop over the chunks (`database/balance.go:928-937`), each of `k + 1` balances. -/
def updateLoop (k : Nat) (rows : List Balance) : List Balance → Except BigErr (List Balance)
  | [] => .ok rows
  | b :: bs => match updateChunk rows ((b :: bs).take (k + 1)) with
    | .error e => .error e
    | .ok rows' => updateLoop k rows' ((b :: bs).drop (k + 1))
termination_by bs => bs.length
decreasing_by simp; omega

/-- `updateBalanceSet` (`database/balance.go:910-944`). -/
def updateSet (rows bs : List Balance) : Except BigErr (List Balance) := updateLoop (chunkSize - 1) rows (uniq [] bs)

/-- The ids without repetition: the keys of `outboxesByTransactionID` (`database/lineage.go:218-224`). -/
def keys : List String → List String
  | [] => []
  | i :: is => if i ∈ keys is then keys is else i :: keys is

/-- `insertLineageOutboxesInTx` (`database/lineage.go:170-248`): one statement, ten parameters an entry. -/
def insertBoxes (boxes : List String) : Except BigErr Unit :=
  if maxParams < 10 * boxes.length then .error .tooMany
  else if boxes.length ≠ (keys boxes).length then .error .notAll
  else .ok ()

/-- Whether a transaction gets an entry in the lineage outbox: `prepareTransactionOutbox`
(`transaction_execution.go:761-773`) and `PrepareLineageOutbox` (`lineage_outbox.go:43-56`). `tracks` says which
balances track lineage, `named` which transactions carry a provider. -/
def needsBox (tracks : String → Bool) (named : Txn → Bool) (r : Txn) : Bool :=
  (r.status = .applied || r.status = .inflight) && !(r.parent ≠ "" && r.metaInflight = some true)
    && (tracks r.source || named r && tracks r.destination)

/-- `RecordTransactionsWithBalanceSetAndOutboxes` (`database/transaction.go:326-367`); `COPY` refuses the same rows
as single insertions. `boxes` are the transaction ids of the outbox entries. -/
def persist (boxes : List String) (db : DB) (w : Work) : Except BigErr DB :=
  match updateSet db.balances w.balances with
  | .error e => .error e
  | .ok rows => match ({ db with balances := rows } : DB).insertTxns w.rows with
    | .error e => .error (.op e)
    | .ok db' => match insertBoxes boxes with
      | .error e => .error e
      | .ok () => .ok db'

/-- The members of the batch for which there is an entry; it is decided before the inflight mark is taken off
(`transaction_execution.go:729-730`). -/
def boxes (needs : Txn → Bool) (ts : List Txn) : List String := ((ts.map batchMember).filter needs).map (·.id)

/-- `persistQueuedTransactionBatch` (`transaction_coalescing.go:129-220`) with no other writer in between; `ids` are
the balance ids in the order they are sorted in (`:400`). -/
def record (cfg : Cfg) (needs : Txn → Bool) (ids : List String) (db : DB) (ts : List Txn) : DB × Except BigErr (List Txn) :=
  if ts.any (fun t => t.currency ≠ (ts.head?.map (·.currency)).getD "") then (db, .error (.op .mixedCurrencies))
  else match loadAll cfg db ids with
    | .error e => (db, .error (.op e))
    | .ok bs => match prepareMembers db ts [] bs with
      | .error e => (db, .error (.op e))
      | .ok (rows, bs') => match persist (boxes needs ts) db ⟨rows, bs'⟩ with
        | .error e => (db, .error e)
        | .ok db' => (db', .ok rows)

end Blnk.Big
