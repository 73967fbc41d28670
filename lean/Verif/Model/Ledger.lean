import Verif.Model.Balance
/-
The ledger as a database plus the two ways the service posts to it: the
single-transaction path and the coalesced batch path.

Each path is split where the code splits it: a *prepare* phase that reads rows
and computes new balances in memory, and a *persist* phase that runs one SQL
transaction.  `Concurrent.lean` interleaves these phases.
-/
namespace Blnk

/-- The two tables of the `blnk` schema the posting paths touch
(`sql/1708676327.sql:54-119`). -/
structure DB where
  balances : List Balance := []
  txns : List Txn := []
deriving Repr, DecidableEq

/-- Configuration switches the posting paths read
(`config.TransactionConfig`: `EnableQueuedChecks`). -/
structure Cfg where
  queuedChecks : Bool := false
deriving Repr

/-- Errors of the posting paths. -/
inductive OpErr
  /-- an error from the balance arithmetic -/
  | bal (e : BalErr)
  /-- "reference … has already been used" (`transaction_execution.go:284`) or the
  unique index of `sql/1770611011.sql:17-19` -/
  | duplicateRef
  /-- transaction id already stored (`sql/1708676327.sql:105`) -/
  | duplicateId
  /-- balance row not found (`transaction_execution.go:66-71`) -/
  | balanceNotFound
  /-- "Optimistic locking failure" (`database/balance.go:899-901`) -/
  | conflict
  /-- unique index on `(indicator, currency)` or on the balance id -/
  | balanceExists
  /-- "coalescing batch contains multiple currencies" (`transaction_coalescing.go:169`) -/
  | mixedCurrencies
  /-- "reference is required" (`transaction_coalescing.go:502`) -/
  | missingRef
  /-- "batch coalescing does not support zero-amount transactions"
  (`transaction_coalescing.go:265`) -/
  | zeroAmount
deriving DecidableEq, Repr

/-- Row lookup by balance id. -/
def DB.find (db : DB) (id : String) : Option Balance :=
  db.balances.find? (fun b => b.id = id)

/-- `TransactionExistsByRef` (`database/transaction_queries.go:132-158`). -/
def DB.hasRef (db : DB) (r : String) : Bool := db.txns.any (fun t => t.reference = r)

/-- Whether a stored transaction has this id. -/
def DB.hasTxnId (db : DB) (i : String) : Bool := db.txns.any (fun t => t.id = i)

/-- A stored child that takes its queued parent out of the queued totals
(`database/transaction_queue.go:49-54`). -/
def closesQueued (c : Txn) (id : String) : Bool :=
  c.parent = id && (c.status = .applied || c.status = .rejected || c.status = .void || c.status = .inflight)

/-- Queued debit total of a balance, `GetQueuedAmounts`
(`database/transaction_queue.go:34-55`). -/
def DB.queuedDebit (db : DB) (id : String) : Int :=
  ((db.txns.filter (fun t => t.source = id && t.status = .queued
      && !(db.txns.any (fun c => closesQueued c t.id)))).map
    (fun t => t.preciseAmount.getD 0)).sum

/-- `GetBalanceByID(…, withQueued)` / `GetBalanceByIDLite`
(`transaction_execution.go:60-71`): the row, plus the queued debit total when
queued checks are on. -/
def DB.load (cfg : Cfg) (db : DB) (id : String) : Except OpErr Balance :=
  match db.find id with
  | none => .error .balanceNotFound
  | some b => .ok { b with queuedDebit := if cfg.queuedChecks then some (db.queuedDebit id) else none }

/-- `CreateBalance` (`database/balance.go:203-278`): fresh id, zero columns.
The caller supplies the generated id; a clash with the primary key or with the
`(indicator, currency)` constraint (`sql/1748323024.sql:16`) is refused.
An empty indicator is stored as NULL and never clashes. -/
def DB.createBalance (db : DB) (id indicator currency : String) : Except OpErr DB :=
  if db.balances.any (fun b => b.id = id) then .error .balanceExists
  else if indicator ≠ "" && db.balances.any (fun b => b.indicator = indicator && b.currency = currency) then
    .error .balanceExists
  else .ok { db with balances := db.balances ++ [{ id := id, indicator := indicator, currency := currency }] }

/-- An identifier naming an indicator rather than a balance id
(`strings.HasPrefix(s, "@")`, `transaction_execution.go:50`). -/
def isIndicator (s : String) : Bool := s.toList.head? = some '@'

/-- `getOrCreateBalanceByIndicator` + `resolveBalanceIDs` for one side
(`balance.go:154-209`, `transaction_execution.go:115-146`).  `newId` is the id
the server would generate.  When creation fails the lookup is repeated, as the
code does; here nothing runs in between, so the second lookup fails too. -/
def DB.resolve (db : DB) (ident currency newId : String) : Except OpErr (DB × String) :=
  if isIndicator ident then
    match db.balances.find? (fun b => b.indicator = ident && b.currency = currency) with
    | some b => .ok (db, b.id)
    | none => match db.createBalance newId ident currency with
      | .ok db' => .ok (db', newId)
      | .error e => .error e
  else .ok (db, ident)

/-- Status map of `updateTransactionDetails` (`transaction_execution.go:199-209`). -/
def finalStatus (t : Txn) : Status :=
  if t.inflight then .inflight
  else match t.status with
    | .queued | .applied | .scheduled | .commit => .applied
    | .void => .void
    | _ => .blank

/-- `clearTerminalInflightMetadata` (`transaction_inflight.go:86-95`): every row
that is not a hold loses the inflight mark. -/
def clearTerminalInflight (t : Txn) : Txn :=
  if t.status = .inflight then t else { t with inflight := false, metaInflight := none }

/-- The row stored for a transaction applied to these balances
(`buildTransactionExecutionWork`, `transaction_execution.go:719-738`). -/
def finalRow (t : Txn) : Txn :=
  clearTerminalInflight { applyRecord t with status := finalStatus t }

/-- Prepared work: rows to insert and in-memory balances to write back, each
carrying the version it was read at. -/
structure Work where
  rows : List Txn
  balances : List Balance
deriving Repr

/-- Prepare phase of the single path after the ids are resolved and the lock is
held (`recordTransactionSingle`, `transaction_execution.go:496-519`).
`none` means "zero amount, discarded, not persisted". -/
def prepareSingle (cfg : Cfg) (db : DB) (t : Txn) : Except OpErr (Option Work) :=
  if db.hasRef t.reference then .error .duplicateRef
  else match db.load cfg t.source, db.load cfg t.destination with
    | .ok s, .ok d =>
      match applyToBalances t s d with
      | .error e => .error (.bal e)
      | .ok (s', d') =>
        if (finalRow t).preciseAmount = some 0 then .ok none
        else .ok (some { rows := [finalRow t], balances := [s', d'] })
    | _, _ => .error .balanceNotFound

/-- `updateBalance` (`database/balance.go:876-908`): writes the row whose id and
version match and bumps the version; no such row is a conflict. -/
def updateRow (rows : List Balance) (b : Balance) : Except OpErr (List Balance) :=
  if rows.any (fun r => r.id = b.id && r.version = b.version) then
    .ok (rows.map fun r =>
      if r.id = b.id && r.version = b.version then
        { r with balance := b.balance, credit := b.credit, debit := b.debit,
                 inflightBalance := b.inflightBalance, inflightCredit := b.inflightCredit,
                 inflightDebit := b.inflightDebit, currency := b.currency,
                 version := r.version + 1 }
      else r)
  else .error .conflict

/-- Several `updateBalance` calls in one SQL transaction; the first conflict
aborts. -/
def updateRows : List Balance → List Balance → Except OpErr (List Balance)
  | rows, [] => .ok rows
  | rows, b :: bs => match updateRow rows b with
    | .ok rows' => updateRows rows' bs
    | .error e => .error e

/-- `INSERT INTO blnk.transactions` under the unique constraints on reference
(`sql/1770611011.sql:17-19`) and transaction id (`sql/1708676327.sql:105`);
`recordTransactionInTx` (`database/transaction.go:79-104`). -/
def DB.insertTxn (db : DB) (t : Txn) : Except OpErr DB :=
  if db.hasTxnId t.id then .error .duplicateId
  else if db.hasRef t.reference then .error .duplicateRef
  else .ok { db with txns := db.txns ++ [t] }

/-- Several inserts in one SQL transaction (`recordTransactionsInTx`,
`database/transaction.go:108-190`). -/
def DB.insertTxns : DB → List Txn → Except OpErr DB
  | db, [] => .ok db
  | db, t :: ts => match db.insertTxn t with
    | .ok db' => db'.insertTxns ts
    | .error e => .error e

/-- Persist phase, one SQL transaction: all balance updates, then all inserts,
or nothing (`RecordTransactionWithBalancesAndOutbox`,
`database/transaction.go:261-315`; `RecordTransactionsWithBalanceSetAndOutboxes`,
`:326-367`).  The lineage outbox insert is modelled in `Lineage.lean`. -/
def DB.persist (db : DB) (w : Work) : Except OpErr DB :=
  match updateRows db.balances w.balances with
  | .error e => .error e
  | .ok rows => ({ db with balances := rows } : DB).insertTxns w.rows

/-- What a posting call returns to its caller. -/
inductive Outcome
  | posted (rows : List Txn)
  | discarded
  | refused (e : OpErr)
deriving DecidableEq, Repr

/-- Prepare and persist with no other writer in between. -/
def postResolved (cfg : Cfg) (db : DB) (t : Txn) : DB × Outcome :=
  match prepareSingle cfg db t with
  | .error e => (db, .refused e)
  | .ok none => (db, .discarded)
  | .ok (some w) => match db.persist w with
    | .ok db' => (db', .posted w.rows)
    | .error e => (db, .refused e)

/-- `recordTransactionSingle` under `executeWithLock`
(`transaction_execution.go:490-555`, `616-646`): resolve both identifiers
(creating indicator balances), then post.  `n1`, `n2` are the ids the server
would generate for a missing source or destination indicator. -/
def recordSingle (cfg : Cfg) (db : DB) (t : Txn) (n1 n2 : String) : DB × Outcome :=
  match db.resolve t.source t.currency n1 with
  | .error e => (db, .refused e)
  | .ok (db1, sid) => match db1.resolve t.destination t.currency n2 with
    | .error e => (db1, .refused e)
    | .ok (db2, did) => postResolved cfg db2 { t with source := sid, destination := did }

/-! ### Coalesced batches (`transaction_coalescing.go`) -/

/-- `collectQueuedCoalescingBalanceIDs` (`transaction_coalescing.go:382-402`):
distinct non-empty ids of all members.  Simplified: not sorted; the order only
decides the order of rows inside one SQL statement. -/
def addId (i : String) (l : List String) : List String :=
  if i = "" || l.contains i then l else i :: l

/-- See `addId`. -/
def batchIds : List Txn → List String
  | [] => []
  | t :: ts => addId t.source (addId t.destination (batchIds ts))

/-- `loadBalancesForQueuedBatch` (`transaction_coalescing.go:428-459`). -/
def loadAll (cfg : Cfg) (db : DB) : List String → Except OpErr (List Balance)
  | [] => .ok []
  | id :: ids => match db.load cfg id with
    | .error e => .error e
    | .ok b => match loadAll cfg db ids with
      | .error e => .error e
      | .ok bs => .ok (b :: bs)

/-- Overwrite one in-memory balance. -/
def putBalance (bs : List Balance) (b : Balance) : List Balance :=
  bs.map fun x => if x.id = b.id then b else x

/-- Balance application inside a batch: the members share one in-memory map, so
a self-transfer sees a single object (`coalescingBalancesForTransaction`,
`transaction_coalescing.go:461-473`). -/
def applyInMemory (t : Txn) (bs : List Balance) : Except OpErr (List Balance) :=
  match bs.find? (fun b => b.id = t.source), bs.find? (fun b => b.id = t.destination) with
  | some s, some d =>
    if t.source = t.destination then
      match applyToAliased t s with
      | .error e => .error (.bal e)
      | .ok b => .ok (putBalance bs b)
    else match applyToBalances t s d with
      | .error e => .error (.bal e)
      | .ok (s', d') => .ok (putBalance (putBalance bs s') d')
  | _, _ => .error .balanceNotFound

/-- The member as it is applied: `updateTransactionDetails` runs before
`processBalances` on this path (`transaction_coalescing.go:257-258`). -/
def batchMember (t : Txn) : Txn := { t with status := finalStatus t }

/-- The loop of `persistQueuedTransactionBatchLocked`
(`transaction_coalescing.go:199-210`) over `prepareQueuedBatchTransaction`
(`:241-269`).  `refs` are the references already taken by earlier members.
Both configurations of the batch reference check come to the same test: the
reference is neither stored nor used earlier in the batch (`:496-531`). -/
def prepareMembers (db : DB) : List Txn → List String → List Balance → Except OpErr (List Txn × List Balance)
  | [], _, bs => .ok ([], bs)
  | t :: ts, refs, bs =>
    if (bs.find? (fun b => b.id = t.source)).isNone || (bs.find? (fun b => b.id = t.destination)).isNone then
      .error .balanceNotFound
    else if t.reference = "" then .error .missingRef
    else if refs.contains t.reference || db.hasRef t.reference then .error .duplicateRef
    else
      match applyInMemory (batchMember t) bs with
      | .error e => .error e
      | .ok bs' =>
        if (finalRow (batchMember t)).preciseAmount = some 0 then .error .zeroAmount
        else match prepareMembers db ts (t.reference :: refs) bs' with
          | .error e => .error e
          | .ok (rows, bs'') => .ok (finalRow (batchMember t) :: rows, bs'')

/-- Prepare phase of a batch (`persistQueuedTransactionBatch`,
`transaction_coalescing.go:129-220`). -/
def prepareBatch (cfg : Cfg) (db : DB) (ts : List Txn) : Except OpErr Work :=
  if ts.any (fun t => t.currency ≠ (ts.head?.map (·.currency)).getD "") then .error .mixedCurrencies
  else match loadAll cfg db (batchIds ts) with
    | .error e => .error e
    | .ok bs => match prepareMembers db ts [] bs with
      | .error e => .error e
      | .ok (rows, bs') => .ok { rows := rows, balances := bs' }

/-- `persistQueuedTransactionBatch` with no other writer in between. -/
def recordBatch (cfg : Cfg) (db : DB) (ts : List Txn) : DB × Outcome :=
  match prepareBatch cfg db ts with
  | .error e => (db, .refused e)
  | .ok w => match db.persist w with
    | .ok db' => (db', .posted w.rows)
    | .error e => (db, .refused e)

/-! ### The ledger as a state machine -/

/-- Everything that writes the two tables on the posting side. -/
inductive Op
  /-- create an account (`POST /balances`) -/
  | create (id indicator currency : String)
  /-- apply one transaction now -/
  | post (t : Txn) (newSrc newDst : String)
  /-- apply a coalesced batch -/
  | batch (ts : List Txn)
  /-- store a transaction row without touching balances: QUEUED, SCHEDULED and
  REJECTED rows (`transaction_queue.go:268-284`, `transaction_rejection.go:48`) -/
  | store (t : Txn)
deriving Repr

/-- One operation. -/
def step (cfg : Cfg) (db : DB) : Op → DB × Outcome
  | .create id ind cur => match db.createBalance id ind cur with
    | .ok db' => (db', .posted [])
    | .error e => (db, .refused e)
  | .post t n1 n2 => recordSingle cfg db t n1 n2
  | .batch ts => recordBatch cfg db ts
  | .store t => match db.insertTxn t with
    | .ok db' => (db', .posted [t])
    | .error e => (db, .refused e)

/-- A run of operations from a state. -/
def run (cfg : Cfg) (db : DB) : List Op → DB
  | [] => db
  | op :: ops => run cfg (step cfg db op).1 ops

end Blnk
