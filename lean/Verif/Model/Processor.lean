/-
The three background processors, `ChainProcessor` (`chain_worker.go:37-128`), `LineageOutboxProcessor`
(`lineage_worker.go:31-160`) and `QueuedTransactionRecoveryProcessor` (`queue_recovery.go:29-117`). They are started
and stopped by the same code; what is here is that code, with any number of callers at once.
-/
namespace Blnk.Proc

/-- Where a loop (`run`) is. -/
inductive Pc
  /-- about to enter the `select` -/
  | top
  /-- in the `select`; the stop channel it listens on was read from the field when it entered
  (`chain_worker.go:122`, `lineage_worker.go:153`, `queue_recovery.go:110`) -/
  | wait (c : Nat)
  /-- in `processTick`/`processBatch` -/
  | work
  /-- `run` has returned, `wg.Done` is still to come -/
  | out
deriving DecidableEq, Repr

/-- The processor and the calls in progress. Channels are numbered as they are made. -/
structure St where
  running : Bool := false
  /-- the field `stopCh` -/
  chan : Nat := 0
  made : Nat := 1
  closed : List Nat := []
  /-- the counter of the wait group -/
  wg : Nat := 0
  loops : List Pc := []
  /-- calls of `Start` after the mutex is released, before `wg.Add(1)` -/
  adding : Nat := 0
  /-- calls of `Start` after `wg.Add(1)`, before the goroutine exists -/
  spawning : Nat := 0
  /-- calls of `Stop` in `wg.Wait` -/
  stopping : Nat := 0
  /-- a channel was closed twice or the counter of the wait group fell below zero -/
  panicked : Bool := false
deriving DecidableEq, Repr

/-- What can happen next. The sections under the mutex are single steps. -/
inductive Act
  /-- `Start` under the mutex (`chain_worker.go:75-82`, `lineage_worker.go:101-108`, `queue_recovery.go:60-67`) -/
  | start
  /-- `wg.Add(1)` (`chain_worker.go:84`, `lineage_worker.go:110`, `queue_recovery.go:69`) -/
  | add
  /-- `go func` (`chain_worker.go:85`, `lineage_worker.go:111`, `queue_recovery.go:70`) -/
  | spawn
  /-- `Stop` under the mutex (`chain_worker.go:94-101`, `lineage_worker.go:120-127`, `queue_recovery.go:80-87`) -/
  | stop
  /-- `wg.Wait` returns (`chain_worker.go:103`, `lineage_worker.go:129`, `queue_recovery.go:89`) -/
  | ret
  /-- loop `i` enters the `select` -/
  | enter (i : Nat)
  /-- the ticker is ready and chosen; of several ready cases any may be chosen -/
  | tick (i : Nat)
  /-- the work is done -/
  | finish (i : Nat)
  /-- the stop channel is closed and chosen -/
  | see (i : Nat)
  /-- the context is cancelled and this is chosen -/
  | cancel (i : Nat)
  /-- `defer p.wg.Done()` -/
  | leave (i : Nat)
deriving DecidableEq, Repr

/-- One step; `none` if it cannot happen. -/
def act (s : St) : Act → Option St
  | .start => if s.running then some s
      else some { s with running := true, chan := s.made, made := s.made + 1, adding := s.adding + 1 }
  | .add => if s.adding = 0 then none else some { s with adding := s.adding - 1, wg := s.wg + 1, spawning := s.spawning + 1 }
  | .spawn => if s.spawning = 0 then none else some { s with spawning := s.spawning - 1, loops := s.loops ++ [.top] }
  | .stop => if !s.running then some s
      else some { s with running := false, closed := s.chan :: s.closed, stopping := s.stopping + 1
                         panicked := s.panicked || s.closed.contains s.chan }
  | .ret => if s.stopping = 0 ∨ s.wg ≠ 0 then none else some { s with stopping := s.stopping - 1 }
  | .enter i => if s.loops[i]? = some .top then some { s with loops := s.loops.set i (.wait s.chan) } else none
  | .tick i => match s.loops[i]? with
    | some (.wait _) => some { s with loops := s.loops.set i .work }
    | _ => none
  | .finish i => if s.loops[i]? = some .work then some { s with loops := s.loops.set i .top } else none
  | .see i => match s.loops[i]? with
    | some (.wait c) => if c ∈ s.closed then some { s with loops := s.loops.set i .out } else none
    | _ => none
  | .cancel i => match s.loops[i]? with
    | some (.wait _) => some { s with loops := s.loops.set i .out }
    | _ => none
  | .leave i => if s.loops[i]? = some .out then
      some { s with loops := s.loops.eraseIdx i, wg := s.wg - 1, panicked := s.panicked || s.wg = 0 }
    else none

/-- A new processor (`chain_worker.go:50-71`, `lineage_worker.go:49-57`, `queue_recovery.go:45-56`). -/
def fresh : St := {}

/-- Several steps. -/
def acts : St → List Act → Option St
  | s, [] => some s
  | s, a :: as => match act s a with
    | none => none
    | some s' => acts s' as

/-- No call of `Start` or `Stop` is in progress. -/
def idle (s : St) : Bool := s.adding = 0 && s.spawning = 0 && s.stopping = 0

/-- Steps in which `Start` and `Stop` are called one after the other, as the commands do (`cmd/workers.go:561-571`,
`cmd/server.go:402-411`). -/
def inTurn : St → List Act → Bool
  | _, [] => true
  | s, a :: as => (idle s || !(a = .start || a = .stop)) && match act s a with
    | none => false
    | some s' => inTurn s' as

end Blnk.Proc
