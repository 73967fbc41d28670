/-
Fund lineage: how a debit is allocated over the providers whose money a balance holds
(`lineage_allocation.go`, `lineage_debit.go`), and the outbox that drives that work
(`lineage_worker.go`, `database/lineage.go`).
-/
namespace Blnk.Lineage

/-- `LineageSource` (`lineage.go:42-46`), named by its provider. A balance has one mapping
per provider (`database/lineage.go:33-54`, `ON CONFLICT (balance_id, provider)`), so within
one balance provider and shadow balance name the same thing. Times are ticks. -/
structure Src where
  provider : String
  /-- `Balance`: what the shadow balance still holds, debit − credit (`lineage_allocation.go:53`) -/
  avail : Int
  /-- when the mapping was created -/
  created : Nat
deriving DecidableEq, Repr

/-- `AllocationStrategy` (`lineage.go:32-35`); anything unknown means FIFO
(`lineage_allocation.go:92`). -/
inductive Strategy
  | fifo | lifo | proportional
deriving DecidableEq, Repr

/-- What is taken from one provider (`Allocation`, `lineage.go:53-56`). -/
abbrev Alloc := String × Int

/-- `getLineageSources` (`lineage_allocation.go:29-67`): the sources that still hold money.
Simplified: a shadow balance that received money always has a positive debit column, so the
first test of `:52` follows from the second. -/
def live (l : List Src) : List Src := l.filter (fun s => 0 < s.avail)

/-- Comparison used for sorting: a source may stand before another. -/
def before : Strategy → Nat → Nat → Bool
  | .lifo, a, b => b ≤ a
  | _, a, b => a ≤ b

/-- Insert into a sorted list, ahead of equals. -/
def insertSrc (le : Nat → Nat → Bool) (x : Src) : List Src → List Src
  | [] => [x]
  | y :: ys => if le x.created y.created then x :: y :: ys else y :: insertSrc le x ys

/-- `sort.Slice` by creation time (`lineage_allocation.go:86-88`, `93-95`). Simplified:
sources created at the same instant keep their order, which `sort.Slice` does not promise. -/
def sortSrc (le : Nat → Nat → Bool) : List Src → List Src
  | [] => []
  | x :: xs => insertSrc le x (sortSrc le xs)

/-- Loop of `sequentialAllocation` (`lineage_allocation.go:118-141`). -/
def takeSeq : List Src → Int → List Alloc
  | [], _ => []
  | s :: ss, r =>
    if r ≤ 0 then []
    else
      let a := if s.avail ≥ r then r else s.avail
      if a ≤ 0 then takeSeq ss r
      else (s.provider, a) :: takeSeq ss (r - a)

/-- Sum of what the sources hold. -/
def held (l : List Src) : Int := (l.map Src.avail).sum

/-- Loop of `proportionalAllocation` (`lineage_allocation.go:188-213`): floor shares, the
last source gets what is left, every share capped at what the source holds. -/
def takeProp (eff total : Int) : List Src → Int → List Alloc
  | [], _ => []
  | s :: ss, r =>
    let a := if ss.isEmpty then r else eff * s.avail / total
    let a := if a > s.avail then s.avail else a
    if a ≤ 0 then takeProp eff total ss r
    else (s.provider, a) :: takeProp eff total ss (r - a)

/-- `sequentialAllocation` (`lineage_allocation.go:108-149`). -/
def sequential (l : List Src) (amt : Int) : List Alloc := if amt ≤ 0 then [] else takeSeq l amt

/-- `proportionalAllocation` (`lineage_allocation.go:159-216`). -/
def proportional (l : List Src) (amt : Int) : List Alloc :=
  if amt ≤ 0 then []
  else if held l = 0 then []
  else
    let eff := if amt > held l then held l else amt
    takeProp eff (held l) l eff

/-- `calculateAllocation` (`lineage_allocation.go:79-98`). -/
def calculate (st : Strategy) (l : List Src) (amt : Int) : List Alloc :=
  if l.isEmpty then []
  else match st with
    | .proportional => proportional l amt
    | s => sequential (sortSrc (before s) l) amt

/-! ### A debit with interruptions -/

/-- What the ledger holds for one debit: the source balance's providers, the release rows
and the receive rows stored so far for this debit. Rows are found again by reference
(`releaseReference`, `lineage_debit.go:116-122`). -/
structure LState where
  sources : List Src
  released : List Alloc := []
  received : List Alloc := []
deriving DecidableEq, Repr

/-- Total of a list of allocations. -/
def total (l : List Alloc) : Int := (l.map Prod.snd).sum

/-- One debit: `txn.PreciseAmount`, the source's strategy, whether the transaction is a hold,
and whether the destination tracks lineage too. -/
structure Debit where
  amount : Int
  strategy : Strategy
  inflight : Bool := false
  tracks : Bool := false
deriving DecidableEq, Repr

/-- `queueReleaseTransaction` (`lineage_debit.go:283-305`): aggregate → shadow. An applied
release raises the shadow's credit column and so lowers what the source holds; an inflight
release only touches the inflight columns, which `getLineageSources` does not read. -/
def LState.release (st : LState) (inflight : Bool) (p : String) (a : Int) : LState :=
  { st with released := st.released ++ [(p, a)]
            sources := if inflight then st.sources
              else st.sources.map fun s => if s.provider = p then { s with avail := s.avail - a } else s }

/-- `queueReceiveTransaction` (`lineage_debit.go:408-431`). -/
def LState.receive (st : LState) (p : String) (a : Int) : LState :=
  { st with received := st.received ++ [(p, a)] }

/-- A release for this provider is already stored. -/
def LState.hasRelease (st : LState) (p : String) : Bool := st.released.any (fun x => x.1 == p)

/-- `processAllocations` (`lineage_debit.go:240-268`) interrupted (crash or error) when
`n` rows have been written. `rec` says whether receive rows are written: the destination
tracks lineage and its balances were prepared. The second component says that the loop
ended. -/
def process (inflight rec : Bool) : List Alloc → Nat → LState → LState × Bool
  | [], _, st => (st, true)
  | (p, a) :: rest, n, st =>
    if st.hasRelease p then process inflight rec rest n st
    else match n with
      | 0 => (st, false)
      | n + 1 =>
        let st1 := st.release inflight p a
        if rec then
          match n with
          | 0 => (st1, false)
          | n + 1 => process inflight rec rest n (st1.receive p a)
        else process inflight rec rest n st1

/-- One attempt at a debit. -/
structure Attempt where
  /-- rows written before it is interrupted -/
  writes : Nat
  /-- `prepareDestinationLineageBalances` succeeded; a failure is only logged
  (`lineage_debit.go:66-68`) -/
  prepared : Bool := true
deriving DecidableEq, Repr

/-- `processLineageDebit` (`lineage_debit.go:31-111`) once the source has mappings, under the
lineage locks. The amount still to allocate is the debit minus the stored releases
(`remainingDebitAmount`, `:126-144`). Simplified: the release itself cannot be refused. -/
def attempt (d : Debit) (t : Attempt) (st : LState) : LState × Bool :=
  let remaining := d.amount - total st.released
  if remaining ≤ 0 then (st, true)
  else process d.inflight (d.tracks && t.prepared) (calculate d.strategy (live st.sources) remaining) t.writes st

/-- The outbox retries until an attempt ends without error (`lineage_worker.go:170-182`). -/
def attempts (d : Debit) : List Attempt → LState → LState × Bool
  | [], st => (st, false)
  | t :: ts, st =>
    let r := attempt d t st
    if r.2 then r else attempts d ts r.1

/-- New money from a provider arrives (`queueShadowCreditTransaction`,
`lineage_credit.go:146-174`) while the debit waits for its retry. -/
def LState.credit (st : LState) (p : String) (a : Int) : LState :=
  { st with sources := st.sources.map fun s => if s.provider = p then { s with avail := s.avail + a } else s }

/-! ### The outbox -/

/-- `OutboxStatus*` (`model/lineage.go`). -/
inductive OStatus
  | pending | processing | completed | failed
deriving DecidableEq, Repr

/-- A row of `blnk.lineage_outbox`; `lockedUntil` is `locked_until`. -/
structure Entry where
  status : OStatus := .pending
  attempts : Nat := 0
  maxAttempts : Nat := 5
  lockedUntil : Option Nat := none
deriving DecidableEq, Repr

/-- The selection of `ClaimPendingOutboxEntries` (`database/lineage.go:288-293`). -/
def Entry.claimable (e : Entry) (now : Nat) : Bool :=
  (e.status = .pending || e.status = .processing) &&
  (match e.lockedUntil with | none => true | some t => t < now) &&
  e.attempts < e.maxAttempts

/-- The update of the claim (`database/lineage.go:284-286`). -/
def Entry.claim (e : Entry) (now dur : Nat) : Entry :=
  { e with status := .processing, lockedUntil := some (now + dur) }

/-- `MarkOutboxCompleted` (`database/lineage.go:356-367`). -/
def Entry.complete (e : Entry) : Entry := { e with status := .completed, lockedUntil := none }

/-- `MarkOutboxFailed` (`database/lineage.go:370-383`). -/
def Entry.fail (e : Entry) : Entry :=
  { e with status := if e.attempts + 1 ≥ e.maxAttempts then .failed else .pending
           attempts := e.attempts + 1, lockedUntil := none }

/-- The entry, the clock, the workers that claimed it and have not yet answered, and counts
of what happened. -/
structure OSys where
  entry : Entry
  now : Nat := 0
  /-- workers between claim and answer (`lineage_worker.go:170-182`) -/
  working : Nat := 0
  claims : Nat := 0
  /-- claims whose answer was lost: the worker died or the marking statement failed -/
  lost : Nat := 0
deriving DecidableEq, Repr

/-- What can happen to an entry. -/
inductive OEv
  | tick (n : Nat)
  /-- a worker's poll finds it -/
  | claim (dur : Nat)
  /-- a worker that holds it reports success -/
  | complete
  /-- a worker that holds it reports an error -/
  | fail
  /-- a worker that holds it dies, or its answer is not stored -/
  | crash
deriving DecidableEq, Repr

/-- One step; events that cannot happen change nothing. -/
def ostep (s : OSys) : OEv → OSys
  | .tick n => { s with now := s.now + n }
  | .claim dur =>
    if s.entry.claimable s.now then
      { s with entry := s.entry.claim s.now dur, working := s.working + 1, claims := s.claims + 1 }
    else s
  | .complete => if 0 < s.working then { s with entry := s.entry.complete, working := s.working - 1 } else s
  | .fail => if 0 < s.working then { s with entry := s.entry.fail, working := s.working - 1 } else s
  | .crash => if 0 < s.working then { s with working := s.working - 1, lost := s.lost + 1 } else s

/-- A history. -/
def osteps (s : OSys) : List OEv → OSys
  | [] => s
  | e :: es => osteps (ostep s e) es

end Blnk.Lineage
