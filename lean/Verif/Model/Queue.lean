import Verif.Model.Refund
/-
The transaction queue: `QueueTransaction` (`transaction_queue.go`), the worker
(`cmd/workers.go`), coalescing (`transaction_coalescing.go`), rejection
(`transaction_rejection.go`) and recovery (`queue_recovery.go`).

The system is a relation `Step`: any request, worker, coalesced batch or recovery pass may move
next. Tasks are never taken out of the task list, so a task can be delivered any number of times
(a worker that crashes before it acknowledges is a delivery followed by another one; one that
crashes before its database commit is no step at all).
-/
namespace Blnk.Queue

/-- What a client submitted: the generated transaction id and the client's reference. This is
bookkeeping of the model; the service has no such record. -/
structure Key where
  id : String
  ref : String
deriving DecidableEq, Repr

/-- The submission a row or an accepted transaction stands for. -/
def keyOf (t : Txn) : Key := ⟨t.id, t.reference⟩

/-- `createQueueCopy` (`transaction_queue.go:379-385`). -/
def queueCopy (t : Txn) (newId : String) : Txn :=
  { t with id := newId, parent := t.id, reference := t.reference ++ "_q" }

/-- A QUEUED row as coalescing and recovery read it back
(`database/transaction_coalescing.go:143-188`, `database/transaction_recovery.go:58-90`): flags,
overdraft limit and effective date have no column in these queries. -/
def scan (t : Txn) : Txn :=
  ({ t with allowOverdraft := false, overdraftLimit := 0, inflight := false, atomic := false
            skipQueue := false, effectiveDate := 0 } : Txn).applyPrecision

/-- `restoreTransactionFlagsFromMetadata` (`transaction_coalescing.go:594-608`). -/
def restore (t : Txn) : Txn :=
  { t with inflight := t.metaInflight.getD t.inflight
           atomic := t.metaAtomic.getD t.atomic
           allowOverdraft := t.metaAllowOverdraft.getD t.allowOverdraft }

/-- `prepareTransactionForQueue` (`transaction_queue.go:33-56`) and the insert of
`processSingleTransaction` (`:268-284`): the transaction as far as it was changed, and whether
its row was stored. The lane is left out here, see `HotPairs.lean`. -/
def persistQueued (cfg : Cfg) (db : DB) (t : Txn) (n1 n2 : String) : DB × Txn × Bool :=
  match db.resolve t.source t.currency n1 with
  | .error _ => (db, t, false)
  | .ok (db1, sid) => match db1.resolve t.destination t.currency n2 with
    | .error _ => (db1, t, false)
    | .ok (db2, did) =>
      match db2.load cfg sid, db2.load cfg did with
      | .ok _, .ok _ =>
        let row := { t with source := sid, destination := did, metaQueuedParent := t.id }
        match db2.insertTxn row with
        | .ok db3 => (db3, row, true)
        | .error _ => (db2, row, false)
      | _, _ => (db2, t, false)

/-- How a delivery or recovery pass ended for a submission. -/
inductive Verdict
  | applied
  | rejected
deriving DecidableEq, Repr

/-- The database, the accepted submissions, the tasks in Redis with the submission each stands
for, and (bookkeeping) every outcome so far. -/
structure Sys where
  db : DB := {}
  accepted : List Txn := []
  tasks : List (Key × Txn) := []
  log : List (Key × Verdict) := []
  /-- what was done past the queue (bookkeeping) -/
  others : List Act := []

/-- Work that can be attempted: a task from Redis, or a fresh copy of a stored QUEUED row made by
coalescing (`transaction_coalescing.go:320-345`) or recovery (`queue_recovery.go:202`). Both
queries also ask that the row has no child yet; the answer may be stale when it is used, so the
model does not rely on it. -/
inductive Job (s : Sys) : Key → Txn → Prop
  | task {k t} : (k, t) ∈ s.tasks → Job s k t
  | copy {row} (newId : String) : row ∈ s.db.txns → row.status = .queued →
      Job s (keyOf row) (queueCopy (restore (scan row)) newId)

/-- What the goroutine behind `QueueTransaction` leaves in Redis
(`transaction_queue.go:136-163`, `413-428`). -/
inductive Enqueued
  /-- the queue copy, after the row was stored -/
  | copy
  /-- the transaction itself, when storing it reported an error (it may still be stored) -/
  | original
  /-- nothing: the process stopped, Redis refused, or the queue was full -/
  | nothing
deriving DecidableEq, Repr

/-- Outcome of a posting attempt as log entries. -/
def outcome (ks : List Key) : Outcome → List (Key × Verdict)
  | .posted _ => ks.map (·, .applied)
  | _ => []

/-- `RejectTransaction` (`transaction_rejection.go:34-80`), the stored row. -/
def rejectedRow (t : Txn) : Txn := { t with status := .rejected }

/-- One step of the system. -/
inductive Step (cfg : Cfg) : Sys → Sys → Prop
  /-- anything else: accounts, direct postings, commits, voids, stored rows -/
  | other (s : Sys) (a : Act) : Step cfg s { s with db := act cfg s.db a, others := a :: s.others }
  /-- `QueueTransaction` answers (`transaction_queue.go:69-134`); clients cannot set a status
  (`api/model/model.go:356`) -/
  | accept (s : Sys) (t : Txn) : t.status = .blank → Step cfg s { s with accepted := submit t :: s.accepted }
  /-- its goroutine stores the row and enqueues -/
  | persist (s : Sys) (t : Txn) (n1 n2 newId : String) (e : Enqueued) :
      t ∈ s.accepted → (e = .copy → (persistQueued cfg s.db t n1 n2).2.2 = true) →
      Step cfg s { s with
        db := (persistQueued cfg s.db t n1 n2).1
        tasks := match e with
          | .copy => (keyOf t, queueCopy (persistQueued cfg s.db t n1 n2).2.1 newId) :: s.tasks
          | .original => (keyOf t, (persistQueued cfg s.db t n1 n2).2.1) :: s.tasks
          | .nothing => s.tasks }
  /-- a delivery or recovery pass posts one transaction (`cmd/workers.go:86`) -/
  | single (s : Sys) (k : Key) (t : Txn) (n1 n2 : String) : Job s k t →
      Step cfg s { s with
        db := (recordSingle cfg s.db t n1 n2).1
        log := s.log ++ outcome [k] (recordSingle cfg s.db t n1 n2).2 }
  /-- a delivery or recovery pass posts a coalesced batch (`transaction_coalescing.go:45-157`) -/
  | batch (s : Sys) (js : List (Key × Txn)) : (∀ j ∈ js, Job s j.1 j.2) →
      Step cfg s { s with
        db := (recordBatch cfg s.db (js.map (·.2))).1
        log := s.log ++ outcome (js.map (·.1)) (recordBatch cfg s.db (js.map (·.2))).2 }
  /-- a delivery or recovery pass rejects -/
  | reject (s : Sys) (k : Key) (t : Txn) : Job s k t →
      Step cfg s { s with
        db := (step cfg s.db (.store (rejectedRow t))).1
        log := s.log ++ (match (step cfg s.db (.store (rejectedRow t))).2 with
          | .posted _ => [(k, .rejected)]
          | _ => []) }

/-- Any number of steps from the empty system. -/
inductive Reach (cfg : Cfg) : Sys → Prop
  | init : Reach cfg {}
  | step {s s'} : Reach cfg s → Step cfg s s' → Reach cfg s'

end Blnk.Queue
