import Verif.Model.Inflight
/-
Refunds (`transaction_refunds.go`, `database/transaction_refunds.go`) and the first half of
`QueueTransaction` (`transaction_queue.go:69-78`), which every refund goes through.

Each call of `RefundTransactionWithOptions` runs under the lock `refund:<id>` (`:265-271`).
The model does not rely on it: `RStep.refund` posts a refund that was decided on any
earlier reading of the original.
-/
namespace Blnk

/-- `setTransactionMetadata` and `setTransactionStatus` (`transaction_queue.go:328-368`).
Simplified: ids are generated by the caller, the hash is left out, and time stands still
(`createdAt`, `effectiveDate` are not touched). -/
def submit (t : Txn) : Txn :=
  let t := t.applyPrecision
  { t with metaInflight := if t.inflight then some true else t.metaInflight
           metaAtomic := if t.atomic then some true else t.metaAtomic
           metaAllowOverdraft := if t.allowOverdraft then some true else t.metaAllowOverdraft
           status := if t.scheduledFor.isSome then .scheduled else if t.status = .blank then .queued else t.status }

/-- Refusals of a refund before anything is posted. -/
inductive RefErr
  /-- not in the database (`transaction_refunds.go:116-136`); a transaction found only in the
  queue is QUEUED and refused by the status check, which comes to the same -/
  | notFound
  /-- "cannot be refunded in status …" (`:155`) -/
  | status
  /-- "has already been refunded" (`:167`) -/
  | already
deriving DecidableEq, Repr

/-- `IsTransactionRefunded` (`database/transaction_queue.go:227-252`). -/
def DB.isRefunded (db : DB) (t : Txn) : Bool :=
  db.txns.any (fun r => r.parent = t.id && r.source = t.destination && r.destination = t.source)

/-- `validateTransactionForRefund` (`transaction_refunds.go:144-174`). -/
def validateRefund (db : DB) (t : Txn) : Except RefErr Unit :=
  if t.status = .applied ∨ t.status = .void then
    if db.isRefunded t then .error .already else .ok ()
  else .error .status

/-- Reference of a refund (`transaction_refunds.go:202`). -/
def refundRef (id : String) : String := id ++ "_refund"

/-- `prepareRefundTransaction` (`transaction_refunds.go:199-238`). `GetTransaction` does not
read `scheduled_for` or `effective_date`, so neither is inherited. Caller metadata is left out. -/
def refundTxn (o : Txn) (skip : Bool) (newId : String) : Txn :=
  { o with id := newId, reference := refundRef o.id, parent := o.id, source := o.destination, destination := o.source
           allowOverdraft := true, skipQueue := skip, inflight := o.status = .void, status := .blank
           scheduledFor := none, effectiveDate := 0 }

/-- What `RefundTransactionWithOptions` hands to the posting or storing step. -/
def decideRefund (db : DB) (id : String) (skip : Bool) (newId : String) : Except RefErr Txn :=
  match db.getTxn id with
  | none => .error .notFound
  | some o => match validateRefund db o with
    | .error e => .error e
    | .ok () => .ok (submit (refundTxn o skip newId))

/-- A queued refund's stored row (`transaction_queue.go:102-111`, `268-284`): the queued parent
mark is the refund's own id. Simplified: a stored original's parties are balance ids already, so
`prepareTransactionForQueue` changes nothing. -/
def queuedRow (t : Txn) : Txn := { t with metaQueuedParent := t.id }

/-- `RefundTransactionWithOptions` (`transaction_refunds.go:259-298`): synchronously when
`skip_queue` is set, else by storing the QUEUED row that the queue will apply. -/
def refund (cfg : Cfg) (db : DB) (id : String) (skip : Bool) (newId n1 n2 : String) : DB × Except RefErr Outcome :=
  match decideRefund db id skip newId with
  | .error e => (db, .error e)
  | .ok t =>
    let r := if skip then recordSingle cfg db t n1 n2 else step cfg db (.store (queuedRow t))
    (r.1, .ok r.2)

/-- `GetRefundableTransactionsByParentID` (`database/transaction_refunds.go:32-53`): newest
first; rows are stored in creation order. -/
def DB.refundables (db : DB) (id : String) : List Txn :=
  (db.txns.filter (fun t => (t.id = id && t.status = .applied)
    || (t.parent = id && (t.status = .applied || t.status = .void))
    || (t.status = .applied && t.metaQueuedParent = id))).reverse

/-- The worker loop over the refundable rows (`transaction_refunds.go:70-87`); an error does
not stop it. `fresh k` is the id generated for the `k`-th call. -/
def refundEach (cfg : Cfg) (skip : Bool) (fresh : Nat → String) : DB → Nat → List Txn → DB × List (Except RefErr Outcome)
  | db, _, [] => (db, [])
  | db, k, t :: ts =>
    let r := refund cfg db t.id skip (fresh k) "" ""
    let rest := refundEach cfg skip fresh r.1 (k + 1) ts
    (rest.1, r.2 :: rest.2)

/-- `POST /refund-transaction/:id` (`api/transactions.go:242-283`) with one worker. Simplified:
the refundable rows are read once; the service reads them page by page while refunding
(`transaction_batch_processing.go:171-222`). -/
def refundRequest (cfg : Cfg) (db : DB) (id : String) (skip : Bool) (fresh : Nat → String) :
    DB × List (Except RefErr Outcome) :=
  refundEach cfg skip fresh db 0 (db.refundables id)

/-- Histories with refunds. -/
inductive RStep
  | act (a : Act)
  /-- a refund decided on the reading `o` of the original, at any earlier time and with no
  mutual exclusion, reaches the database now -/
  | refund (o : Txn) (skip : Bool) (newId n1 n2 : String)
deriving Repr

/-- The posting or storing step of a refund. -/
def landRefund (cfg : Cfg) (db : DB) (o : Txn) (skip : Bool) (newId n1 n2 : String) : DB × Outcome :=
  if skip then recordSingle cfg db (submit (refundTxn o true newId)) n1 n2
  else step cfg db (.store (queuedRow (submit (refundTxn o false newId))))

/-- One step. -/
def rstep (cfg : Cfg) (db : DB) : RStep → DB
  | .act a => act cfg db a
  | .refund o skip newId n1 n2 => (landRefund cfg db o skip newId n1 n2).1

/-- A history. -/
def rsteps (cfg : Cfg) (db : DB) : List RStep → DB
  | [] => db
  | s :: ss => rsteps cfg (rstep cfg db s) ss

/-- Specification: the originals for which a refund was created, in order, once per refund. -/
def refundsMade (cfg : Cfg) (db : DB) : List RStep → List String
  | [] => []
  | s :: ss =>
    (match s with
      | .refund o skip newId n1 n2 => match (landRefund cfg db o skip newId n1 n2).2 with
        | .posted _ => [o.id]
        | _ => []
      | .act _ => []) ++ refundsMade cfg (rstep cfg db s) ss

end Blnk
