import Verif.Model.SettleCall
import Verif.Model.Schedule
/-
A commit or void asked for without `skip_queue`: what is checked before it is accepted
(`transaction_inflight.go:751-879`), the task it becomes (`queue.go:69-107`) and what the worker does with it
(`cmd/workers.go:292-327`, `transaction_inflight.go:697-749`).
-/
namespace Blnk.Ask
open Blnk

/-- `validateInflightActionAmount` (`transaction_inflight.go:830-847`): the amount is looked at for a commit only. -/
def checkAmount (db : DB) (t : Txn) (void : Bool) (amt : Int) : Except InfErr Txn :=
  let left := remaining db t
  if left = 0 then .error .alreadyCommitted
  else if void then .ok t
  else if amt < 0 then .error .negative
  else if amt = 0 then .ok t
  else if amt > t.preciseAmount.getD 0 then .error .exceedsOriginal
  else if amt > left then .error .exceedsRemaining
  else .ok t

/-- `anyInflightLegRemaining` (`transaction_inflight.go:815-826`). -/
def anyLeft (db : DB) (legs : List Txn) : Bool := legs.any (fun t => remaining db t ≠ 0)

/-- `preValidateInflightAction` (`transaction_inflight.go:760-794`). For an id that is no hold itself the holds
under it are looked at, but not whether they were voided, nor the amount. `collectInflightLegs` (`:665-682`) is
taken as one query. -/
def precheck (db : DB) (id : String) (void : Bool) (amt : Int) : Except InfErr Txn :=
  match fetchInflight db id with
  | .ok t => checkAmount db t void amt
  | .error e =>
    if Undo.expands e then
      match Atomic.inflightLegs db id with
      | [] => .error e
      | t :: ts => if anyLeft db (t :: ts) then .ok { t with id := id } else .error .alreadyCommitted
    else .error e

/-- A task of the inflight-commit queue, with the id it was asked for and the number of failed attempts. -/
structure Task where
  id : String
  action : QAction
  tries : Nat := 0
deriving DecidableEq, Repr

/-- The ledger and the queue. A task that failed for the last time is archived by asynq; it is not tried again, and
its task id stays taken until it is removed. -/
structure Sys where
  db : DB := {}
  waiting : List Task := []
  archived : List Task := []

/-- What the client is told at once. -/
inductive Answer
  /-- 200 with `queued: true` (`api/transactions.go:544`), or the item is QUEUED (`:893-895`) -/
  | queued
  /-- 409 (`api/transactions.go:537-540`), or the item is ALREADY_QUEUED (`:896-898`) -/
  | already
  | refused (e : InfErr)
deriving DecidableEq, Repr

/-- The task id `inflight-action:<id>` is taken (`queue.go:90-91`, `:98-100`; asynq refuses a task id that exists in
any state). -/
def Sys.taken (s : Sys) (id : String) : Bool := (s.waiting ++ s.archived).any (fun t => t.id = id)

/-- `QueueInflightAction` (`transaction_inflight.go:852-879`) and `EnqueueInflightAction` (`queue.go:84-107`). `act`
is the generated action id. Simplified: Redis answers. -/
def ask (s : Sys) (id : String) (void : Bool) (amt : Int) (act : String) : Sys × Answer :=
  match precheck s.db id void amt with
  | .error e => (s, .refused e)
  | .ok _ =>
    if s.taken id then (s, .already)
    else ({ s with waiting := s.waiting ++ [⟨id, ⟨void, amt, act⟩, 0⟩] }, .queued)

/-- One item of a bulk call, with the action id generated for it. -/
structure Item where
  id : String
  amount : Int
  act : String
deriving Repr, DecidableEq

/-- `queueBulkInflight` (`api/transactions.go:888-905`): one item after the other. -/
def askAll (s : Sys) (void : Bool) : List Item → Sys × List Answer
  | [] => (s, [])
  | it :: its =>
    let r := ask s it.id void it.amount it.act
    let rest := askAll r.1 void its
    (rest.1, r.2 :: rest.2)

/-- An item counts as succeeded (`api/transactions.go:892-902`). -/
def Answer.ok : Answer → Bool
  | .refused _ => false
  | _ => true

/-- One delivery of a task (`transaction_inflight.go:704-749`): the holds are listed, then settled one by one. -/
def deliver (cfg : Cfg) (db : DB) (t : Task) (g : Sched.Gen) : DB × List LegClass :=
  runAction cfg db t.action (Sched.legCalls g 0 (Atomic.inflightLegs db t.id))

/-- Something happening. -/
inductive Ev
  | ask (id : String) (void : Bool) (amt : Int) (act : String)
  /-- a worker takes the `k`-th task and finishes with it -/
  | deliver (k : Nat) (g : Sched.Gen)
  /-- a worker takes the `k`-th task and dies after `n` holds; asynq hands the task out again -/
  | crash (k n : Nat) (g : Sched.Gen)
  /-- the `k`-th archived task is removed -/
  | purge (k : Nat)
  /-- anything else clients and workers do to the ledger -/
  | other (a : Act)

/-- One event. `maxTries` is `Queue.MaxRetryAttempts` (`queue.go:93`): asynq archives a task that fails when it has
been retried that often. -/
def step (cfg : Cfg) (maxTries : Nat) (s : Sys) : Ev → Sys
  | .ask id void amt act => (ask s id void amt act).1
  | .deliver k g => match s.waiting[k]? with
    | none => s
    | some t =>
      let r := deliver cfg s.db t g
      if acked r.2 then { s with db := r.1, waiting := s.waiting.eraseIdx k }
      else if t.tries < maxTries then { s with db := r.1, waiting := s.waiting.set k { t with tries := t.tries + 1 } }
      else { s with db := r.1, waiting := s.waiting.eraseIdx k, archived := s.archived ++ [t] }
  | .crash k n g => match s.waiting[k]? with
    | none => s
    | some t => { s with db := (runAction cfg s.db t.action ((Sched.legCalls g 0 (Atomic.inflightLegs s.db t.id)).take n)).1 }
  | .purge k => { s with archived := s.archived.eraseIdx k }
  | .other a => { s with db := act cfg s.db a }

/-- A history. -/
def run (cfg : Cfg) (maxTries : Nat) (s : Sys) : List Ev → Sys
  | [] => s
  | e :: es => run cfg maxTries (step cfg maxTries s e) es

end Blnk.Ask
