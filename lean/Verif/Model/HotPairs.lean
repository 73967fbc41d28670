import Verif.Model.Queue
/-
Which Redis queue a transaction goes to: `transactionQueueName` (`queue.go:300-328`) and the hot
lane (`internal/hotpairs/hotpairs.go`, `internal/hotpairs/router.go`).
-/
namespace Blnk.Queue

/-- FNV-1a over 32 bits (`hash/fnv`, `fnv.New32a`). -/
def fnv32a (bytes : List UInt8) : UInt32 :=
  bytes.foldl (fun h b => (h ^^^ b.toUInt32) * 16777619) 2166136261

/-- `hashBalanceID` (`queue.go:324-328`). `int` has 64 bits, so the value is not negative. -/
def hashBalanceID (id : String) : Nat := (fnv32a id.toUTF8.toList).toNat

/-- Lanes (`internal/hotpairs/hotpairs.go:12-15`). -/
inductive Lane
  | normal
  | hot
deriving DecidableEq, Repr

/-- The parts of `config.Queue` that name queues. -/
structure QCfg where
  enableHotLane : Bool := false
  transactionQueue : String := "new:transaction"
  hotQueue : String := "hot_transactions"
  numberOfQueues : Nat := 20

/-- The numbered queue of a source (`queue.go:313-314`). `NumberOfQueues` is not zero
(`config/config.go:480-482`). -/
def numberedQueue (c : QCfg) (source : String) : String :=
  c.transactionQueue ++ "_" ++ toString (hashBalanceID source % c.numberOfQueues + 1)

/-- `transactionQueueName` (`queue.go:300-315`); `lane` is `meta_data["queue_lane"]`. -/
def queueName (c : QCfg) (lane : Lane) (source : String) : String :=
  if c.enableHotLane && lane = .hot then c.hotQueue else numberedQueue c source

/-- The queues the workers consume (`initializeQueues`, `initializeHotQueues`, `cmd/workers.go:349-385`;
handlers `:462-478`). -/
def servedQueues (c : QCfg) : List String :=
  (List.range c.numberOfQueues).map (fun i => c.transactionQueue ++ "_" ++ toString (i + 1)) ++
    (if c.enableHotLane then [c.hotQueue] else [])

/-! ### The hot-pair state machine, for one pair -/

/-- States (`internal/hotpairs/hotpairs.go:17-24`). A missing key reads as `normal`. -/
inductive PState
  | normal
  | promoting
  | hot
  | cooling
deriving DecidableEq, Repr

/-- The Redis keys of one pair and the QUEUED rows of the pair without a child, by the lane in
their metadata (`CountQueuedTransactionsForPairLane`, `database/transaction_coalescing.go:191-215`);
`flight` are submissions whose lane is decided but whose row is not stored yet. -/
structure Pair where
  state : PState := .normal
  active : Bool := false
  contention : Nat := 0
  pendingNormal : Nat := 0
  pendingHot : Nat := 0
  flight : List Lane := []
deriving DecidableEq, Repr

/-- `ResolveQueueLane` (`internal/hotpairs/router.go:46-117`) when Redis and the database answer. -/
def resolveLane (p : Pair) : Pair × Lane :=
  match p.state with
  | .promoting =>
    if p.pendingNormal = 0 then ({ p with state := .hot, active := true }, .hot) else (p, .normal)
  | .hot =>
    if p.active then (p, .hot)
    else if 0 < p.pendingHot then ({ p with state := .cooling }, .hot)
    else ({ p with state := .normal, active := false, contention := 0 }, .normal)
  | .cooling =>
    if 0 < p.pendingHot then (p, .hot)
    else ({ p with state := .normal, active := false, contention := 0 }, .normal)
  | .normal => (p, .normal)

/-- `Manager.RecordContention` (`internal/hotpairs/hotpairs.go:102-134`). -/
def recordContention (threshold : Nat) (p : Pair) : Pair :=
  let p := { p with contention := p.contention + 1, active := true }
  if p.contention < threshold then p
  else match p.state with
    | .normal => { p with state := .promoting }
    | _ => p

/-- Storing the row of a submission that was given lane `l`. -/
def addPending (p : Pair) : Lane → Pair
  | .normal => { p with pendingNormal := p.pendingNormal + 1 }
  | .hot => { p with pendingHot := p.pendingHot + 1 }

/-- What can happen to a pair. -/
inductive PEv
  /-- a submission: its lane is decided and its row stored with nothing in between -/
  | submit
  /-- the lane of a submission is decided (`transaction_queue.go:50`) … -/
  | assign
  /-- … and the row of an earlier one is stored (`transaction_queue.go:274`, `:309`) -/
  | store (l : Lane)
  /-- a submission for which Redis or the database failed before anything changed: the normal
  lane is used (`internal/hotpairs/router.go:35-36`) -/
  | submitFailed
  /-- a pending transaction gets its outcome -/
  | finish (l : Lane)
  /-- a lock was contended -/
  | contend
  /-- the activity key expires -/
  | activityExpires
  /-- the contention counter expires -/
  | counterExpires
  /-- the state key expires (`stateTTL`, four times the activity TTL) -/
  | stateExpires
deriving DecidableEq, Repr

/-- One event. -/
def pstep (threshold : Nat) (p : Pair) : PEv → Pair
  | .submit => addPending (resolveLane p).1 (resolveLane p).2
  | .assign => { (resolveLane p).1 with flight := (resolveLane p).2 :: p.flight }
  | .store l => if l ∈ p.flight then addPending { p with flight := p.flight.erase l } l else p
  | .submitFailed => addPending p .normal
  | .finish .normal => { p with pendingNormal := p.pendingNormal - 1 }
  | .finish .hot => { p with pendingHot := p.pendingHot - 1 }
  | .contend => recordContention threshold p
  | .activityExpires => { p with active := false }
  | .counterExpires => { p with contention := 0 }
  | .stateExpires => { p with state := .normal }

/-- A history. -/
def psteps (threshold : Nat) (p : Pair) : List PEv → Pair
  | [] => p
  | e :: es => psteps threshold (pstep threshold p e) es

/-- The lanes of the legs of one split (`processSplitTransactions`, `transaction_queue.go:298-319`).
Legs made from a submission with metadata share one map (`model/transaction.go:431` copies the
struct only): each stored row keeps the lane decided for it, but the tasks, serialised afterwards
(`queue.go:241`), all carry the lane decided last. -/
def splitTaskLanes (sharedMap : Bool) (lanes : List Lane) : List Lane :=
  if sharedMap then lanes.map (fun _ => lanes.getLast?.getD .normal) else lanes

end Blnk.Queue
