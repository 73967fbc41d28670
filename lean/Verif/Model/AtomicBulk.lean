import Verif.Model.Queue
/-
Atomic bulk requests (`transaction_bulk.go`): items are handed to `QueueTransaction` one after the
other; when one fails and the request is atomic, what the batch made so far is voided (inflight) or
refunded (`rollbackBatchTransactions`, `:57-98`).

Other requests run in between; they are the `others` of each slot. Simplified: the rows to roll back
are read once, before the first of them is rolled back (the service reads them page by page, see
`Paging.lean`).
-/
namespace Blnk.Atomic

/-- One item of a request: what others did since the previous item, the item, the legs it is split
into (`SplitTransactionPrecise`; empty for an ordinary item), and the account ids the server would
generate. -/
structure Slot where
  others : List Act := []
  txn : Txn
  legs : List Txn := []
  n1 : String := ""
  n2 : String := ""

/-- What `processBulkTransactions` makes of an item (`transaction_bulk.go:34-44`) before
`QueueTransaction` prepares it (`transaction_queue.go:73-76`). Clients cannot set a status. -/
def bulkTxn (batch : String) (inflight : Bool) (t : Txn) : Txn :=
  submit { t with inflight := inflight, skipQueue := true, parent := batch, status := .blank }

/-- A leg of a split item: its parent is the item, not the batch (`model/transaction.go:434-443`). -/
def bulkLeg (batch : String) (inflight : Bool) (t leg : Txn) : Txn :=
  { bulkTxn batch inflight t with id := leg.id, parent := t.id, reference := leg.reference, source := leg.source
                                  destination := leg.destination, preciseAmount := leg.preciseAmount, amount := leg.amount }

/-- The legs of a split item, in order; the first refusal ends it (`transaction_queue.go:238-247`).
Simplified: items without the `atomic` flag of their own (the request's flag is not copied to them). -/
def placeLegs (cfg : Cfg) (batch : String) (inflight : Bool) (t : Txn) : DB → List Txn → DB × Bool
  | db, [] => (db, true)
  | db, l :: ls =>
    let r := recordSingle cfg db (bulkLeg batch inflight t l) "" ""
    match r.2 with
    | .refused _ => (r.1, false)
    | _ => placeLegs cfg batch inflight t r.1 ls

/-- `processBulkTransactions` with `skip_queue` (`transaction_bulk.go:32-53`): whether all items
passed. A zero amount is discarded without an error. -/
def place (cfg : Cfg) (batch : String) (inflight : Bool) : DB → List Slot → DB × Bool
  | db, [] => (db, true)
  | db, s :: ss =>
    let db := acts cfg db s.others
    if s.legs = [] then
      let r := recordSingle cfg db (bulkTxn batch inflight s.txn) s.n1 s.n2
      match r.2 with
      | .refused _ => (r.1, false)
      | _ => place cfg batch inflight r.1 ss
    else
      let r := placeLegs cfg batch inflight s.txn db s.legs
      if r.2 then place cfg batch inflight r.1 ss else (r.1, false)

/-- `GetInflightTransactionsByParentID` (`database/transaction_grouping.go:335-378`), newest first. -/
def inflightLegs (db : DB) (id : String) : List Txn :=
  let infl := db.txns.filter (fun t => (t.id = id || t.parent = id || t.metaQueuedParent = id) && t.status = .inflight)
  if infl = [] then
    (db.txns.filter (fun t => (t.id = id || t.parent = id) && t.status = .queued && t.metaInflight = some true
      && !(db.txns.any (fun r => r.reference = t.reference ++ "_q" && r.status = .rejected))
      && !(db.txns.any (fun c => c.parent = t.id && c.status = .inflight)))).reverse
  else infl.reverse

/-- One void of a rollback: what others did before it, and the generated ids. -/
structure VSlot where
  others : List Act := []
  newId : String
  ref : String
  n1 : String := ""
  n2 : String := ""

/-- The single `VoidWorker` of a rollback (`transaction_bulk.go:72-84`, `transaction_inflight.go:138-159`). -/
def voidAll (cfg : Cfg) : DB → List (Txn × VSlot) → DB × List (Except InfErr Outcome)
  | db, [] => (db, [])
  | db, (r, v) :: rest =>
    let db := acts cfg db v.others
    let o := voidInflight cfg db r.id v.newId v.ref v.n1 v.n2
    let more := voidAll cfg o.1 rest
    (more.1, o.2 :: more.2)

/-- One refund of a rollback, or one delivery by a worker: what others did before it, and the
generated id. -/
structure RSlot where
  others : List Act := []
  newId : String

/-- The single `RefundWorker` of a rollback (`transaction_bulk.go:86-98`, `transaction_refunds.go:30-49`):
`skip_queue` is not stored, so every refund is a QUEUED row. -/
def refundAll (cfg : Cfg) : DB → List (Txn × RSlot) → DB × List (Except RefErr Outcome)
  | db, [] => (db, [])
  | db, (r, v) :: rest =>
    let db := acts cfg db v.others
    let o := refund cfg db r.id false v.newId "" ""
    let more := refundAll cfg o.1 rest
    (more.1, o.2 :: more.2)

/-- Workers apply queued rows (`cmd/workers.go:86`, `transaction_queue.go:379-385`). -/
def deliverAll (cfg : Cfg) : DB → List (Txn × RSlot) → DB × List Outcome
  | db, [] => (db, [])
  | db, (row, v) :: rest =>
    let db := acts cfg db v.others
    let o := recordSingle cfg db (Queue.queueCopy row v.newId) "" ""
    let more := deliverAll cfg o.1 rest
    (more.1, o.2 :: more.2)

/-- Pair the rows of a rollback with generated ids. -/
def numbered (mk : Nat → α) : Nat → List Txn → List (Txn × α)
  | _, [] => []
  | k, t :: ts => (t, mk k) :: numbered mk (k + 1) ts

/-- `rollbackBatchTransactions` (`transaction_bulk.go:57-69`) with nothing else going on; `fresh k`
is the id generated for the `k`-th row. -/
def rollback (cfg : Cfg) (batch : String) (inflight : Bool) (fresh : Nat → String) (db : DB) : DB :=
  if inflight then (voidAll cfg db (numbered (fun k => { newId := fresh k, ref := fresh k ++ "_ref" }) 0 (inflightLegs db batch))).1
  else (refundAll cfg db (numbered (fun k => { newId := fresh k }) 0 (db.refundables batch))).1

/-- `CreateBulkTransactions` with `atomic` and `skip_queue` (`transaction_bulk.go:172-271`): the state
when the answer is given, and whether it is a success. -/
def bulkAtomic (cfg : Cfg) (batch : String) (inflight : Bool) (fresh : Nat → String) (db : DB) (ss : List Slot) : DB × Bool :=
  let r := place cfg batch inflight db ss
  if r.2 then r else (rollback cfg batch inflight fresh r.1, false)

/-- Items of a request without `skip_queue`: those whose split fails are refused at once, all
others become QUEUED rows marked with the batch (`transaction_queue.go:79-111`, `268-284`).
Simplified: the rows are stored before the next item is handled (they are stored in the
background), and storing does not fail. -/
def placeQueued (cfg : Cfg) (batch : String) : DB → List (Txn × Bool) → DB × Bool
  | db, [] => (db, true)
  | db, (t, badSplit) :: rest =>
    if badSplit then (db, false)
    else placeQueued cfg batch (step cfg db (.store { submit { t with inflight := false, parent := batch, status := .blank } with
      metaQueuedParent := batch })).1 rest

/-- `CreateBulkTransactions` with `atomic` and without `skip_queue`. -/
def bulkQueued (cfg : Cfg) (batch : String) (fresh : Nat → String) (db : DB) (items : List (Txn × Bool)) : DB × Bool :=
  let r := placeQueued cfg batch db items
  if r.2 then r else (rollback cfg batch false fresh r.1, false)

end Blnk.Atomic
