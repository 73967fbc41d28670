import Verif.Model.HotPairs
/-
Settings (`config/config.go`): what is used for what the operator wrote, and the rate limit in front of
the API (`api/middleware/middleware.go:41-78`).

A setting is given in the JSON file or, taking precedence, in an environment variable
(`config/config.go:284-316`); either way the decoded value is here, with `none` for a setting that was given in
neither. Durations are nanoseconds: a number in the file, a text like "5m" in the environment. Settings
of the database, search, reconciliation and notification are left out, as are required fields.
-/
namespace Blnk.Conf

/-- Arithmetic on `int64`. -/
def wrap (x : Int) : Int := (x + 9223372036854775808) % 18446744073709551616 - 9223372036854775808

def second : Int := 1000000000

/-- What was given (`QueueConfig`, `TransactionConfig`, `HashChainConfig`, `config/config.go:186-226`, `251-256`). -/
structure Given where
  enableCoalescing : Option Bool := none
  enableQueuedChecks : Option Bool := none
  enableHotLane : Option Bool := none
  enableBackpressure : Option Bool := none
  batchSize : Option Int := none
  numberOfQueues : Option Int := none
  maxRetryAttempts : Option Int := none
  workerConcurrency : Option Int := none
  contentionThreshold : Option Int := none
  lockDuration : Option Int := none
  lockWaitTimeout : Option Int := none
  hotPairTTL : Option Int := none
  checkInterval : Option Int := none
  pollInterval : Option Int := none
  trailingDelay : Option Int := none
  rps : Option Rat := none
  burst : Option Int := none

/-- What is used. -/
structure Used where
  enableCoalescing : Bool
  enableQueuedChecks : Bool
  enableHotLane : Bool
  enableBackpressure : Bool
  batchSize : Int
  numberOfQueues : Int
  maxRetryAttempts : Int
  workerConcurrency : Int
  contentionThreshold : Int
  lockDuration : Int
  lockWaitTimeout : Int
  hotPairTTL : Int
  checkInterval : Int
  pollInterval : Int
  trailingDelay : Int
  rps : Rat
  burst : Int
deriving DecidableEq, Repr

/-- `defaultTransaction`, `defaultQueue` (`config/config.go:50-93`), `setHashChainDefaults` (`:407-418`) and
`setupRateLimiting` (`:590-602`). -/
def defaults : Used :=
  { enableCoalescing := true, enableQueuedChecks := false, enableHotLane := false, enableBackpressure := true
    batchSize := 1000, numberOfQueues := 20, maxRetryAttempts := 5, workerConcurrency := 4, contentionThreshold := 3
    lockDuration := 300 * second, lockWaitTimeout := 3 * second, hotPairTTL := 300 * second
    checkInterval := 500000000, pollInterval := 5 * second, trailingDelay := 30 * second
    rps := 5000000, burst := 10000000 }

/-- `if x == 0 { x = default }` over a decoded number; a setting left out decodes as 0. -/
def orDefault (x : Option Int) (d : Int) : Int := if x.getD 0 = 0 then d else x.getD 0

/-- `if x <= 0 { x = default }`. -/
def orDefaultPos (x : Option Int) (d : Int) : Int := if x.getD 0 ≤ 0 then d else x.getD 0

/-- `LockDuration` and `LockWaitTimeout` (`config/config.go:431-440`). -/
def lockTime (x : Option Int) (d : Int) : Int :=
  if x.getD 0 = 0 then d
  else if 0 < x.getD 0 ∧ x.getD 0 < second then wrap (x.getD 0 * second)
  else x.getD 0

/-- `HotPairTTL` (`config/config.go:489-493`). -/
def hotTTL (x : Option Int) (d : Int) : Int := if x.getD 0 = 0 then d else wrap (x.getD 0 * second)

/-- `int(f)` of a float: towards zero. -/
def trunc (x : Rat) : Int := Int.tdiv x.num x.den

/-- `setupRateLimiting` (`config/config.go:588-613`). -/
def rate (rps : Option Rat) (burst : Option Int) : Rat × Int :=
  match rps, burst with
  | none, none => (5000000, 10000000)
  | some r, none => (r, 2 * trunc r)
  | none, some b => ((b : Rat) / 2, b)
  | some r, some b => (r, b)

/-- `validateAndAddDefaults` (`config/config.go:318-343`). A switch that was left out decodes as false; only
`EnableCoalescing` is looked at again (`:441-443`). -/
def used (g : Given) : Used :=
  { enableCoalescing := if g.enableCoalescing.getD false then true else defaults.enableCoalescing
    enableQueuedChecks := g.enableQueuedChecks.getD false
    enableHotLane := g.enableHotLane.getD false
    enableBackpressure := g.enableBackpressure.getD false
    batchSize := orDefault g.batchSize defaults.batchSize
    numberOfQueues := orDefault g.numberOfQueues defaults.numberOfQueues
    maxRetryAttempts := orDefault g.maxRetryAttempts defaults.maxRetryAttempts
    workerConcurrency := orDefault g.workerConcurrency defaults.workerConcurrency
    contentionThreshold := orDefault g.contentionThreshold defaults.contentionThreshold
    lockDuration := lockTime g.lockDuration defaults.lockDuration
    lockWaitTimeout := lockTime g.lockWaitTimeout defaults.lockWaitTimeout
    hotPairTTL := hotTTL g.hotPairTTL defaults.hotPairTTL
    checkInterval := orDefault g.checkInterval defaults.checkInterval
    pollInterval := orDefaultPos g.pollInterval defaults.pollInterval
    trailingDelay := orDefaultPos g.trailingDelay defaults.trailingDelay
    rps := (rate g.rps g.burst).1
    burst := (rate g.rps g.burst).2 }

/-! ### Queues for a number of queues that may be negative -/

/-- `hash % NumberOfQueues` in Go keeps the sign of the hash, which is not negative (`queue.go:313`). -/
def queueOf (n : Int) (source : String) : Int := Int.tmod (Queue.hashBalanceID source) n + 1

/-- The queues that get a worker (`initializeQueues`, `cmd/workers.go:349-372`):
`for i := 1; i <= NumberOfQueues; i++`. -/
def served (n : Int) (q : Int) : Bool := decide (1 ≤ q ∧ q ≤ n)

/-! ### The rate limit -/

/-- A token bucket as `golang.org/x/time/rate` keeps it: `tokens` at the moment `last`. The library is
assumed to behave like this; forgetting a bucket after `cleanup_interval_sec` is left out, as is how
requests are told apart. Times are in seconds. -/
structure Bucket where
  tokens : Rat
  last : Rat
deriving DecidableEq, Repr

/-- A new bucket is full (`rate.NewLimiter`, `SetBurst`; `api/middleware/middleware.go:59-62`). -/
def newBucket (burst : Int) (now : Rat) : Bucket := ⟨burst, now⟩

/-- The tokens at `now`: refilled at the rate, at most `burst`. -/
def refill (rps : Rat) (burst : Int) (b : Bucket) (now : Rat) : Rat :=
  let t := b.tokens + (now - b.last) * rps
  if t ≤ burst then t else burst

/-- `tollbooth.LimitByRequest` for a request at `now` (`api/middleware/middleware.go:66-77`): whether it passes. A refused
request takes nothing. -/
def request (rps : Rat) (burst : Int) (b : Bucket) (now : Rat) : Bool × Bucket :=
  if 1 ≤ refill rps burst b now then (true, ⟨refill rps burst b now - 1, now⟩) else (false, b)

def requests (rps : Rat) (burst : Int) : Bucket → List Rat → List Bool
  | _, [] => []
  | b, t :: ts => (request rps burst b t).1 :: requests rps burst (request rps burst b t).2 ts

end Blnk.Conf
