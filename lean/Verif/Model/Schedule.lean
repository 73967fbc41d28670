import Verif.Model.AtomicBulk
import Verif.Model.InflightQueue
/-
Dates a client puts on a transaction: `scheduled_for`, `inflight_expiry_date` and
`inflight_commit_date`. Each becomes a delayed task in Redis (`queue.go:143-165`, `:290-300`,
`:363-415`), and a worker does what the task says (`cmd/workers.go:61-152`, `:292-347`).

Simplified: time is a number that only grows; asynq hands a task out at or after its date, any
number of times, until an attempt succeeds or the task is archived; the background store of
a queued request (`transaction_queue.go:135-162`) happens within the request, and split
requests through the queue are left out (`Split.lean` has their rows). A refused attempt to apply a queued
transaction leaves the task; turning it into a REJECTED row is `Worker.lean`.
-/
namespace Blnk.Sched

/-- What a delayed task does. -/
inductive Job
  /-- apply the queued transaction (`cmd/workers.go:61-152`) -/
  | apply (t : Txn)
  /-- `processInflightExpiry` (`cmd/workers.go:331-347`); the payload is the bare id -/
  | expire (id : String)
  /-- `processInflightCommit` (`cmd/workers.go:292-327`): full commit under a generated action id -/
  | settle (id action : String)
deriving DecidableEq, Repr

/-- A task with the time before which it is not handed out (`asynq.ProcessIn`). -/
structure Task where
  due : Nat
  job : Job
deriving DecidableEq, Repr

/-- Ledger, clock, tasks waiting in Redis, and tasks asynq gave up on. -/
structure Sys where
  db : DB := {}
  now : Nat := 0
  tasks : List Task := []
  dead : List Task := []
deriving DecidableEq

/-- One request as it reaches `QueueTransaction` (`transaction_queue.go:69`): the transaction with
its generated id, the legs of the split if it is one (amounts and ids as `Split.lean` computes
them), the two dates, and the ids generated on the way. -/
structure Req where
  txn : Txn
  legs : List Txn := []
  expiry : Option Nat := none
  commitAt : Option Nat := none
  action : String := "act"
  copyId : String := ""
  gen : Nat → String := fun _ => ""

/-- A leg of a split request (`SplitTransactionPrecise`, `model/transaction.go:428-446`): the request's
fields with its own id, reference, accounts and amount, and the request as parent. -/
def legOf (t leg : Txn) : Txn :=
  { t with id := leg.id, parent := t.id, reference := leg.reference, source := leg.source
           destination := leg.destination, preciseAmount := leg.preciseAmount, amount := leg.amount }

/-- The transactions a `skip_queue` request records (`transaction_queue.go:229-251`). -/
def Req.rows (r : Req) : List Txn :=
  if r.legs = [] then [submit r.txn] else r.legs.map (legOf (submit r.txn))

/-- `processTxns` with `skip_queue` (`transaction_queue.go:229-251`): the first refusal ends it.
Simplified: without the rollback for `atomic` splits. `k` counts generated account ids. -/
def place (cfg : Cfg) (gen : Nat → String) : Nat → DB → List Txn → DB × Bool
  | _, db, [] => (db, true)
  | k, db, t :: ts =>
    let o := recordSingle cfg db t (gen k) (gen (k + 1))
    match o.2 with
    | .refused _ => (o.1, false)
    | _ => place cfg gen (k + 2) o.1 ts

/-- The tasks made of the two dates (`transaction_queue.go:116-131`). They carry the id of the
request, whatever rows were stored for it. -/
def Req.dated (r : Req) : List Task :=
  r.expiry.toList.map (fun d => ⟨d, .expire r.txn.id⟩) ++ r.commitAt.toList.map (fun d => ⟨d, .settle r.txn.id r.action⟩)

/-- `QueueTransaction` with `skip_queue` (`transaction_queue.go:85-98`, `:116-131`). -/
def direct (cfg : Cfg) (s : Sys) (r : Req) : Sys :=
  let o := place cfg r.gen 0 s.db r.rows
  if o.2 then { s with db := o.1, tasks := s.tasks ++ r.dated } else { s with db := o.1 }

/-- What is handed to the queue: the copy of the stored row (`transaction_queue.go:268-284`,
`:379-385`), or the transaction itself when it could not be stored (`:413-416`). -/
def Req.queueTxn (r : Req) (p : DB × Txn × Bool) : Txn := if p.2.2 then Queue.queueCopy p.2.1 r.copyId else p.2.1

/-- `QueueTransaction` through the queue (`transaction_queue.go:99-131`, `queue.go:290-300`). -/
def queued (cfg : Cfg) (s : Sys) (r : Req) : Sys :=
  let p := Queue.persistQueued cfg s.db (submit r.txn) (r.gen 0) (r.gen 1)
  let t := r.queueTxn p
  { s with db := p.1, tasks := s.tasks ++ ⟨t.scheduledFor.getD s.now, .apply t⟩ :: r.dated }

/-- Ids generated during one attempt at a task, and what other processes do between the legs. -/
structure Gen where
  fresh : Nat → String := fun _ => ""
  ref : String := ""
  before : Nat → List Act := fun _ => []

/-- The legs an automatic commit settles (`transaction_inflight.go:664-681`), with their generated ids. -/
def legCalls (g : Gen) : Nat → List Txn → List LegCall
  | _, [] => []
  | k, t :: ts => { leg := t.id, newId := g.fresh k, before := g.before k } :: legCalls g (k + 1) ts

/-- The action of an automatic commit (`queue.go:363-375`). -/
def autoCommit (action : String) : QAction := { void := false, amount := 0, actionID := action }

/-- One attempt at a task: the ledger after it, and whether the task is acknowledged.
No legs means nothing to do and an acknowledgement (`transaction_inflight.go:713-717`). -/
def attempt (cfg : Cfg) (db : DB) (g : Gen) : Job → DB × Bool
  | .apply t =>
    let o := recordSingle cfg db t (g.fresh 0) (g.fresh 1)
    (o.1, match o.2 with | .refused _ => false | _ => true)
  | .expire id =>
    let o := voidInflight cfg db id (g.fresh 0) g.ref (g.fresh 1) (g.fresh 2)
    (o.1, match o.2 with | .ok (.refused _) => false | .ok _ => true | .error _ => false)
  | .settle id action =>
    let o := runAction cfg db (autoCommit action) (legCalls g 0 (Atomic.inflightLegs db id))
    (o.1, acked o.2)

/-- Something happening. -/
inductive Ev
  | direct (r : Req)
  | queued (r : Req)
  /-- time passes -/
  | tick (n : Nat)
  /-- a worker attempts the `k`-th task -/
  | run (k : Nat) (g : Gen)
  /-- asynq archives the `k`-th task after its last failed attempt -/
  | archive (k : Nat)
  /-- coalescing or recovery applies the `k`-th stored row, if it waits in QUEUED
  (`database/transaction_coalescing.go:143-188`, `database/transaction_recovery.go:58-90`) -/
  | pick (k : Nat) (newId : String)
  /-- anything else clients and workers do to the ledger -/
  | other (a : Act)

/-- One event. -/
def step (cfg : Cfg) (s : Sys) : Ev → Sys
  | .direct r => Sched.direct cfg s r
  | .queued r => Sched.queued cfg s r
  | .tick n => { s with now := s.now + n }
  | .run k g => match s.tasks[k]? with
    | none => s
    | some t =>
      if t.due ≤ s.now then
        let o := attempt cfg s.db g t.job
        if o.2 then { s with db := o.1, tasks := s.tasks.eraseIdx k } else { s with db := o.1 }
      else s
  | .archive k => match s.tasks[k]? with
    | none => s
    | some t => if t.due ≤ s.now then { s with tasks := s.tasks.eraseIdx k, dead := s.dead ++ [t] } else s
  | .pick k newId => match s.db.txns[k]? with
    | none => s
    | some row =>
      if row.status = .queued then
        { s with db := (recordSingle cfg s.db (Queue.queueCopy (Queue.restore (Queue.scan row)) newId) "" "").1 }
      else s
  | .other a => { s with db := act cfg s.db a }

/-- A history. -/
def run (cfg : Cfg) (s : Sys) : List Ev → Sys
  | [] => s
  | e :: es => run cfg (step cfg s e) es

end Blnk.Sched
