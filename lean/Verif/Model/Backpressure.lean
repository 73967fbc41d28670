import Verif.Model.Errors
import Verif.Model.HotPairs
/-
The gate in front of the transaction queue (`queue_backpressure.go`) and the only path of a request
through it (`transaction_queue.go:69-165`, `413-428`).

Simplified: `float64(used) / float64(max) * 100` is exact here. The text of Redis' `INFO memory` is
given as the two numbers `parseRedisMemoryInfo` finds in it; a line that is missing or unreadable
reads as 0 (`queue_backpressure.go:163-198`). The check and the note of its result are one step.
-/
namespace Blnk.Press
open Blnk

/-- The settings of the gate (`config/config.go:217-225`). Times are in nanoseconds. -/
structure Cfg where
  enabled : Bool
  memoryPercent : Rat := 85
  maxPending : Int := 0
  interval : Int := 500000000
  queues : Queue.QCfg := {}
  /-- whether the queue was given a Redis client and an inspector -/
  hasRedis : Bool := true
  hasInspector : Bool := true

/-- The answer of `Inspector.GetQueueInfo`. -/
inductive Info
  | failed
  /-- no task was ever put into the queue -/
  | notFound
  | counts (pending scheduled retry : Nat)
deriving DecidableEq, Repr

/-- What Redis would answer at a moment. -/
structure World where
  /-- `used_memory` and `maxmemory`; `none` if the call fails -/
  memory : Option (Int × Int) := some (0, 0)
  info : String → Info := fun _ => .notFound

/-- `queuePendingTotal` (`queue_backpressure.go:136-145`). -/
def pendingTotal (w : World) (queue : String) : Option Nat :=
  match w.info queue with
  | .failed => none
  | .notFound => some 0
  | .counts p s r => some (p + s + r)

def sumAll (w : World) : List String → Option Nat
  | [] => some 0
  | q :: qs => match pendingTotal w q with
    | none => none
    | some n => (sumAll w qs).map (n + ·)

/-- `transactionQueuePendingCount` (`queue_backpressure.go:117-136`): it walks the queues that are also
the ones served. -/
def pendingCount (c : Cfg) (w : World) : Option Nat := sumAll w (Queue.servedQueues c.queues)

/-- `usageRatio` against the threshold (`queue_backpressure.go:93-99`, `154-159`). -/
def memoryFull (c : Cfg) (used max : Int) : Bool :=
  decide (0 < max) && decide ((if c.memoryPercent ≤ 0 then 85 else c.memoryPercent) ≤ (used : Rat) / (max : Rat) * 100)

/-- The second half of `evaluateBackpressure` (`queue_backpressure.go:103-114`). -/
def tasksFull (c : Cfg) (w : World) : Option Bool :=
  if 0 < c.maxPending ∧ c.hasInspector = true then (pendingCount c w).map (fun n : Nat => decide (c.maxPending ≤ (n : Int)))
  else some false

/-- `evaluateBackpressure` (`queue_backpressure.go:86-115`): `none` is an error. -/
def evaluate (c : Cfg) (w : World) : Option Bool :=
  if c.hasRedis then
    match w.memory with
    | none => none
    | some (u, m) => if memoryFull c u m then some true else tasksFull c w
  else tasksFull c w

/-- `bpCheckedAt` and `bpReject` of one process. -/
structure Gate where
  checkedAt : Option Int := none
  reject : Bool := false
deriving DecidableEq, Repr

/-- The interval in force (`queue_backpressure.go:59-62`). -/
def Cfg.every (c : Cfg) : Int := if c.interval ≤ 0 then 500000000 else c.interval

/-- `shouldRejectEnqueue` (`queue_backpressure.go:58-84`). -/
def shouldReject (c : Cfg) (g : Gate) (now : Int) (w : World) : Option Bool × Gate :=
  match g.checkedAt with
  | some t => if now - t < c.every then (some g.reject, g) else fresh
  | none => fresh
where
  fresh : Option Bool × Gate := match evaluate c w with
    | none => (none, g)
    | some r => (some r, { checkedAt := some now, reject := r })

/-- `assertEnqueueAllowed` (`queue_backpressure.go:38-56`): whether the task may be put into the queue.
A failed check lets it through. -/
def allowed (c : Cfg) (g : Gate) (now : Int) (w : World) : Bool × Gate :=
  if c.enabled then
    match shouldReject c g now w with
    | (some true, g') => (false, g')
    | (_, g') => (true, g')
  else (true, g)

/-- Attempts of one process at given moments: the answers, and the gate after them. -/
def attempts (c : Cfg) (w : Int → World) : Gate → List Int → List Bool × Gate
  | g, [] => ([], g)
  | g, t :: ts =>
    let (b, g') := allowed c g t (w t)
    let (bs, g'') := attempts c w g' ts
    (b :: bs, g'')

/-! ### A request and its goroutine -/

/-- How the storing of the rows went (`processTxns`, `transaction_queue.go:231-256`): how many rows were
stored, and whether all were. -/
structure Stored where
  rows : Nat
  all : Bool
deriving DecidableEq, Repr

/-- `enqueueTransactions` (`transaction_queue.go:413-428`) over the attempts at the gate: the legs put
into the queue, up to the first refusal; and whether all were. Other failures of Redis are left out. -/
def enqueueAll : List Bool → Nat × Bool
  | [] => (0, true)
  | false :: _ => (0, false)
  | true :: bs => ((enqueueAll bs).1 + 1, (enqueueAll bs).2)

/-- The number of tasks the goroutine tries to put into the queue: the legs, or the transaction itself
if it has none or if storing failed (`transaction_queue.go:414-417`, `151-158`). -/
def tasksOf (legs : Nat) (st : Stored) : Nat := if st.all ∧ legs ≠ 0 then legs else 1

/-- What the client is told (`api/transactions.go`): 201 with the transaction, or a code. -/
inductive Answer
  | created
  | error (code : String)
deriving DecidableEq, Repr

/-- `QueueTransaction` without `skip_queue` (`transaction_queue.go:69-134`): the answer is made before the
goroutine runs and does not depend on what comes of it (`:136-163`; both errors are only recorded in the
trace). `gate` are the answers of the gate to the goroutine's tasks. -/
structure Run where
  answer : Answer
  stored : Nat
  queued : Nat
deriving DecidableEq, Repr

def submit (legs : Nat) (st : Stored) (gate : List Bool) : Run :=
  { answer := .created, stored := st.rows, queued := (enqueueAll (gate.take (tasksOf legs st))).1 }

end Blnk.Press
