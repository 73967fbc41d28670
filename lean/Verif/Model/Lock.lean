/-
The Redis locks of `internal/lock/lock.go`.

Redis executes commands one at a time, so the store is a map with a clock and each command is
a function on it. Clients are numbered; the number stands for the lock value, which every
caller draws as a fresh UUID (`transaction_execution.go:166`, `transaction_inflight.go:203`,
`transaction_refunds.go:266`). Expiry is exact: an entry is gone when the clock reaches its
expiry time. Replication and fail-over of Redis are not modelled.
-/
namespace Blnk.Lock

/-- Redis as the locker sees it: a clock and, for each key, a value with its expiry time. -/
structure Store where
  now : Nat
  ent : String → Option (Nat × Nat)

/-- The value a `GET` returns: entries past their expiry time are gone. -/
def Store.live (s : Store) (k : String) : Option Nat :=
  match s.ent k with
  | some (v, e) => if s.now < e then some v else none
  | none => none

/-- Write one entry. -/
def Store.put (s : Store) (k : String) (x : Option (Nat × Nat)) : Store :=
  { s with ent := fun j => if j = k then x else s.ent j }

/-- `Locker.Lock` (`internal/lock/lock.go:87-99`): `SET key value NX PX ttl`. -/
def setNX (s : Store) (k : String) (v ttl : Nat) : Store × Bool :=
  match s.live k with
  | some _ => (s, false)
  | none => (s.put k (some (v, s.now + ttl)), true)

/-- `Locker.Unlock` (`internal/lock/lock.go:108-122`): a script that deletes the key if it holds our value. -/
def delIf (s : Store) (k : String) (v : Nat) : Store × Bool :=
  if s.live k = some v then (s.put k none, true) else (s, false)

/-- `Locker.ExtendLock` (`internal/lock/lock.go:131-142`): a script that sets a new expiry if the key holds
our value. -/
def expireIf (s : Store) (k : String) (v ttl : Nat) : Store × Bool :=
  if s.live k = some v then (s.put k (some (v, s.now + ttl)), true) else (s, false)

/-- One command by some client, or time passing. -/
inductive Cmd
  | lock (k : String) (v ttl : Nat)
  | unlock (k : String) (v : Nat)
  | extend (k : String) (v ttl : Nat)
  | tick (n : Nat)

/-- Effect and answer of a command. -/
def exec (s : Store) : Cmd → Store × Bool
  | .lock k v ttl => setNX s k v ttl
  | .unlock k v => delIf s k v
  | .extend k v ttl => expireIf s k v ttl
  | .tick n => ({ s with now := s.now + n }, true)

/-- A sequence of commands. -/
def execs (s : Store) : List Cmd → Store
  | [] => s
  | c :: cs => execs (exec s c).1 cs

/-! ### Multi-locks -/

/-- First occurrences only. -/
def dedup : List String → List String
  | [] => []
  | k :: ks => k :: (dedup ks).filter (fun j => decide (j ≠ k))

/-- Insertion into a sorted list. -/
def insertKey (k : String) : List String → List String
  | [] => [k]
  | j :: js => if k ≤ j then k :: j :: js else j :: insertKey k js

/-- `sort.Strings`, here by insertion: the sorted list is the same whatever the algorithm. -/
def sortKeys : List String → List String
  | [] => []
  | k :: ks => insertKey k (sortKeys ks)

/-- `NewMultiLocker` (`internal/lock/lock.go:186-212`): blanks and repetitions dropped, then sorted. -/
def normalize (ks : List String) : List String :=
  sortKeys (dedup (ks.filter (fun k => decide (k ≠ ""))))

/-- Where a client is in `MultiLocker.WaitLock`, its critical section and `MultiLocker.Unlock`.
`keys` is the normalised key list, `got` the keys taken by the current attempt in order, `due`
the time at which the first lock of the attempt can expire. -/
inductive Phase
  /-- not started -/
  | idle
  /-- inside `MultiLocker.Lock` (`internal/lock/lock.go:220-234`), `todo` still to take -/
  | acquiring (keys got todo : List String) (due : Nat)
  /-- inside `rollback` (`internal/lock/lock.go:295-300`); `again` says whether `WaitLock` will retry -/
  | rollback (keys got : List String) (again : Bool)
  /-- between two attempts of `WaitLock` (`internal/lock/lock.go:244-271`, `:324-355`) -/
  | sleeping (keys : List String)
  /-- all locks taken, the caller's critical section runs -/
  | holding (keys : List String) (due : Nat)
  /-- inside `MultiLocker.Unlock` (`internal/lock/lock.go:278-289`), `got` still to release -/
  | unlocking (keys got : List String)
  /-- released, failed or timed out -/
  | done
  /-- the process died -/
  | crashed

/-- The whole system. -/
structure World where
  store : Store
  phase : Nat → Phase

def World.set (w : World) (c : Nat) (p : Phase) : World :=
  { w with phase := fun d => if d = c then p else w.phase d }

def World.with (w : World) (s : Store) : World := { w with store := s }

/-- One step of one client, or time passing. With `lossy` the connection to Redis may also lose
the reply of an executed `SET`, and lose an unlock script before it is executed; the code
ignores the latter (`internal/lock/lock.go:283-285`, `:298`). -/
inductive WStep (lossy : Bool) : World → World → Prop
  /-- `NewMultiLocker` then the first attempt of `WaitLock` -/
  | start (w : World) (c : Nat) (ks : List String) (ttl : Nat) (h : w.phase c = .idle) :
      WStep lossy w (w.set c (.acquiring (normalize ks) [] (normalize ks) (w.store.now + ttl)))
  /-- the next key was free -/
  | take (w : World) (c : Nat) (keys got todo : List String) (k : String) (due ttl : Nat)
      (h : w.phase c = .acquiring keys got (k :: todo) due) (hfree : w.store.live k = none)
      (httl : due ≤ w.store.now + ttl) :
      WStep lossy w ((w.with (setNX w.store k c ttl).1).set c (.acquiring keys (got ++ [k]) todo due))
  /-- the next key was held (`ErrLockHeld`): roll back, then retry -/
  | busy (w : World) (c : Nat) (keys got todo : List String) (k : String) (due v : Nat)
      (h : w.phase c = .acquiring keys got (k :: todo) due) (hheld : w.store.live k = some v) :
      WStep lossy w (w.set c (.rollback keys got true))
  /-- the command failed without being executed (cancelled context, no connection) -/
  | fail (w : World) (c : Nat) (keys got todo : List String) (due : Nat)
      (h : w.phase c = .acquiring keys got todo due) :
      WStep lossy w (w.set c (.rollback keys got false))
  /-- all keys taken -/
  | enter (w : World) (c : Nat) (keys got : List String) (due : Nat)
      (h : w.phase c = .acquiring keys got [] due) :
      WStep lossy w (w.set c (.holding keys due))
  /-- `rollback` releases the key taken last -/
  | undo (w : World) (c : Nat) (keys got : List String) (k : String) (again : Bool)
      (h : w.phase c = .rollback keys (got ++ [k]) again) :
      WStep lossy w ((w.with (delIf w.store k c).1).set c (.rollback keys got again))
  /-- rolled back: sleep or give up -/
  | undone (w : World) (c : Nat) (keys : List String) (again : Bool)
      (h : w.phase c = .rollback keys [] again) :
      WStep lossy w (w.set c (if again then .sleeping keys else .done))
  /-- next attempt -/
  | retry (w : World) (c : Nat) (keys : List String) (ttl : Nat) (h : w.phase c = .sleeping keys) :
      WStep lossy w (w.set c (.acquiring keys [] keys (w.store.now + ttl)))
  /-- `ErrLockWaitTimeout` -/
  | timeout (w : World) (c : Nat) (keys : List String) (h : w.phase c = .sleeping keys) :
      WStep lossy w (w.set c .done)
  /-- end of the critical section -/
  | leave (w : World) (c : Nat) (keys : List String) (due : Nat) (h : w.phase c = .holding keys due) :
      WStep lossy w (w.set c (.unlocking keys keys))
  /-- `Unlock` releases the last remaining key -/
  | release (w : World) (c : Nat) (keys got : List String) (k : String)
      (h : w.phase c = .unlocking keys (got ++ [k])) :
      WStep lossy w ((w.with (delIf w.store k c).1).set c (.unlocking keys got))
  /-- all released -/
  | released (w : World) (c : Nat) (keys : List String) (h : w.phase c = .unlocking keys []) :
      WStep lossy w (w.set c .done)
  /-- the lock was taken but the reply was lost: `acquiredCount` does not include it -/
  | lost (w : World) (c : Nat) (keys got todo : List String) (k : String) (due ttl : Nat) (hl : lossy = true)
      (h : w.phase c = .acquiring keys got (k :: todo) due) (hfree : w.store.live k = none) :
      WStep lossy w ((w.with (setNX w.store k c ttl).1).set c (.rollback keys got false))
  /-- an unlock of `rollback` did not reach Redis -/
  | undoLost (w : World) (c : Nat) (keys got : List String) (k : String) (again : Bool) (hl : lossy = true)
      (h : w.phase c = .rollback keys (got ++ [k]) again) :
      WStep lossy w (w.set c (.rollback keys got again))
  /-- an unlock of `Unlock` did not reach Redis -/
  | releaseLost (w : World) (c : Nat) (keys got : List String) (k : String) (hl : lossy = true)
      (h : w.phase c = .unlocking keys (got ++ [k])) :
      WStep lossy w (w.set c (.unlocking keys got))
  /-- the process dies at any point -/
  | crash (w : World) (c : Nat) : WStep lossy w (w.set c .crashed)
  /-- time passes -/
  | tick (w : World) (n : Nat) : WStep lossy w (w.with { w.store with now := w.store.now + n })

/-- Any number of steps. -/
inductive WRun (lossy : Bool) : World → World → Prop
  | refl (w : World) : WRun lossy w w
  | tail (a b c : World) (h : WRun lossy a b) (s : WStep lossy b c) : WRun lossy a c

/-- Nothing locked and nobody started. -/
def World.init : World := { store := { now := 0, ent := fun _ => none }, phase := fun _ => .idle }

end Blnk.Lock
