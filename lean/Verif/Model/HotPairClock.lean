import Verif.Model.HotPairs
/-
The keys of one hot pair together with the moments at which Redis forgets them
(`internal/hotpairs/hotpairs.go:81-194`, `internal/hotpairs/router.go:46-117`).

`Model/HotPairs.lean` lets any key vanish at any moment. Here there is a clock: a key set with a
time to live of `d` at moment `t` is there at every moment before `t + d`, and gone from then on.
Moments are natural numbers (a tick is whatever unit the clock has). Redis and the database answer
every request. One submission, or one contention, happens at one moment: the reads and writes it
makes are not interleaved with those of another (that interleaving is what C34 is about).
-/
namespace Blnk.Hot
open Blnk.Queue (PState Lane)

/-- `Manager` (`internal/hotpairs/hotpairs.go:33-39`). `NewManager` (`:41-64`) replaces values that
are not positive, so both are positive: `Cfg.Ok`. -/
structure Cfg where
  ttl : Nat := 300
  threshold : Nat := 3
deriving DecidableEq, Repr

/-- What `NewManager` (`internal/hotpairs/hotpairs.go:41-64`) makes of the configured values. -/
def newManager (ttl threshold : Int) : Cfg where
  ttl := if ttl ≤ 0 then 300 else ttl.toNat
  threshold := if threshold ≤ 0 then 3 else threshold.toNat

/-- The three keys of a pair (`stateKey`, `activityKey`, `contentionKey`,
`internal/hotpairs/hotpairs.go:180-190`), each with the first moment at which it is gone. -/
structure Keys where
  state : PState := .normal
  stateUntil : Nat := 0
  activeUntil : Nat := 0
  count : Nat := 0
  countUntil : Nat := 0
deriving DecidableEq, Repr

/-- `stateTTL` (`internal/hotpairs/hotpairs.go:192-194`). -/
def stateTTL (c : Cfg) : Nat := c.ttl * 4

/-- `GetState` (`internal/hotpairs/hotpairs.go:81-100`): a missing key reads as normal. -/
def getState (now : Nat) (k : Keys) : PState :=
  if now < k.stateUntil then k.state else .normal

/-- `setState` (`internal/hotpairs/hotpairs.go:176-178`). -/
def setState (c : Cfg) (now : Nat) (s : PState) (k : Keys) : Keys :=
  { k with state := s, stateUntil := now + stateTTL c }

/-- `HasRecentContention` (`internal/hotpairs/hotpairs.go:136-142`). -/
def hasRecent (now : Nat) (k : Keys) : Bool := now < k.activeUntil

/-- `ActivateHot` (`internal/hotpairs/hotpairs.go:144-154`). -/
def activateHot (c : Cfg) (now : Nat) (k : Keys) : Keys :=
  { setState c now .hot k with activeUntil := now + c.ttl }

/-- `SetNormal` (`internal/hotpairs/hotpairs.go:163-174`): the three keys are deleted. -/
def setNormal : Keys := {}

/-- The pipeline at the head of `RecordContention` (`internal/hotpairs/hotpairs.go:107-111`):
`INCR` makes a missing counter 1, and `EXPIRE` renews the life of the counter each time. -/
def bump (c : Cfg) (now : Nat) (k : Keys) : Keys :=
  { k with
    count := if now < k.countUntil then k.count + 1 else 1
    countUntil := now + c.ttl
    activeUntil := now + c.ttl }

/-- `RecordContention` (`internal/hotpairs/hotpairs.go:102-134`). -/
def contend (c : Cfg) (now : Nat) (k : Keys) : Keys :=
  let b := bump c now k
  if b.count < c.threshold then b
  else match getState now b with
    | .normal => setState c now .promoting b
    | _ => { b with stateUntil := now + stateTTL c }

/-- `ResolveQueueLane` (`internal/hotpairs/router.go:46-117`): `pn` and `ph` are what the database
counts as waiting for the pair in the normal and in the hot lane. -/
def resolve (c : Cfg) (now pn ph : Nat) (k : Keys) : Keys × Lane :=
  match getState now k with
  | .promoting => if pn = 0 then (activateHot c now k, .hot) else (k, .normal)
  | .hot =>
    if hasRecent now k then (k, .hot)
    else if 0 < ph then (setState c now .cooling k, .hot)
    else (setNormal, .normal)
  | .cooling => if 0 < ph then (k, .hot) else (setNormal, .normal)
  | .normal => (k, .normal)

/-- What can happen to a pair: a lock it needs is held by another (`RecordContention`,
`internal/hotpairs/router.go:137-163`, called at `transaction_execution.go:636` and
`transaction_coalescing.go:146`), or a transaction of the pair is queued (`AssignQueueLane`,
`internal/hotpairs/router.go:22-44`). -/
inductive Ev
  | contend
  | submit (pn ph : Nat)
deriving DecidableEq, Repr

def stepAt (c : Cfg) (now : Nat) : Ev → Keys → Keys
  | .contend, k => contend c now k
  | .submit pn ph, k => (resolve c now pn ph k).1

/-- The keys after a history, the newest event first, each with its moment. -/
def after (c : Cfg) : List (Nat × Ev) → Keys
  | [] => {}
  | (t, e) :: h => stepAt c t e (after c h)

/-- The lane a transaction queued at moment `now` takes. -/
def laneAt (c : Cfg) (h : List (Nat × Ev)) (now pn ph : Nat) : Lane :=
  (resolve c now pn ph (after c h)).2

end Blnk.Hot
