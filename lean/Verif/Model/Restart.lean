import Verif.Model.HotPairs
/-
Payments that wait while blnk is started again with other queue settings: the queue a task is put in
(`geTask`, `transactionQueueName`, `queue.go:289-315`), the queues the workers consume
(`cmd/workers.go:349-380`, `:464-481`) and the rows recovery looks for
(`database/transaction_recovery.go:33-50`, `queue_recovery.go:136-224`).

What a worker or recovery does with a payment is not modelled here: it is finished (applied or
rejected, a child row is stored). Storing the row and the task of a request succeed; workers do not
fail. Recovery takes any one row it looks for (the limit of a pass is left out).
-/
namespace Blnk.Restart
open Blnk.Queue (QCfg Lane queueName servedQueues)

/-- A row that was accepted. `scheduled` tells SCHEDULED from QUEUED (`setTransactionStatus`,
`transaction_queue.go:328-334`). -/
structure Row where
  id : Nat
  scheduled : Bool
  created : Nat
  done : Bool := false
deriving DecidableEq, Repr

/-- A task in Redis: its queue, the row it is for, and when it is due
(`asynq.ProcessIn`, `queue.go:293-295`). -/
structure Task where
  queue : String
  row : Nat
  due : Nat
deriving DecidableEq, Repr

structure Sys where
  cfg : QCfg
  now : Nat := 0
  rows : List Row := []
  tasks : List Task := []

inductive Ev
  /-- a payment is accepted, with a date or without -/
  | accept (id : Nat) (source : String) (lane : Lane) (date : Option Nat)
  /-- a worker takes the task of a row from a queue -/
  | work (queue : String) (id : Nat)
  /-- recovery takes a row -/
  | recover (id : Nat)
  | wait (d : Nat)
  /-- blnk is started again with other settings -/
  | restart (cfg : QCfg)

/-- `stuckThreshold`, in seconds (`queue_recovery.go:51`). -/
def threshold : Nat := 7200

def finish (id : Nat) (rows : List Row) : List Row :=
  rows.map fun r => if r.id = id then { r with done := true } else r

/-- The rows of `GetStuckQueuedTransactions` (`database/transaction_recovery.go:39-49`). -/
def stuck (now : Nat) (r : Row) : Bool := !r.scheduled && !r.done && r.created + threshold < now

def step (s : Sys) : Ev → Sys
  | .accept id source lane date =>
    if s.rows.any (fun r => r.id = id) then s
    else { s with
      rows := { id := id, scheduled := date.isSome, created := s.now } :: s.rows
      tasks := { queue := queueName s.cfg lane source, row := id, due := date.getD s.now } :: s.tasks }
  | .work q id =>
    if q ∈ servedQueues s.cfg ∧ s.tasks.any (fun t => t.queue = q && t.row = id && t.due ≤ s.now) then
      { s with rows := finish id s.rows, tasks := s.tasks.filter (fun t => !(t.queue = q && t.row = id)) }
    else s
  | .recover id =>
    if s.rows.any (fun r => r.id = id && stuck s.now r) then { s with rows := finish id s.rows } else s
  | .wait d => { s with now := s.now + d }
  | .restart cfg => { s with cfg := cfg }

def run (s : Sys) : List Ev → Sys
  | [] => s
  | e :: es => run (step s e) es

end Blnk.Restart
