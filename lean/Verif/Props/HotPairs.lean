import Verif.Model.HotPairs
import Verif.Props.Queue
/-
C33 (one numbered queue per source) and C34 (the hot lane does not reorder).
-/
namespace Blnk.Queue
open Blnk

/-! ### C33 -/

/-- **C33, range.** The number of the queue lies between 1 and the configured number of queues. -/
theorem c33_number_in_range (c : QCfg) (hN : 0 < c.numberOfQueues) (source : String) :
    ∃ i, 1 ≤ i ∧ i ≤ c.numberOfQueues ∧ numberedQueue c source = c.transactionQueue ++ "_" ++ toString i :=
  ⟨hashBalanceID source % c.numberOfQueues + 1, by omega, by have := Nat.mod_lt (hashBalanceID source) hN; omega, rfl⟩

/-- **C33, every task is served.** Whatever lane its metadata names, the queue of a transaction is
one that the workers consume. -/
theorem c33_queue_is_served (c : QCfg) (hN : 0 < c.numberOfQueues) (lane : Lane) (source : String) :
    queueName c lane source ∈ servedQueues c := by
  unfold queueName servedQueues
  by_cases h : (c.enableHotLane && lane = .hot) = true
  · rw [if_pos h]
    simp only [Bool.and_eq_true] at h
    simp [h.1]
  · rw [if_neg h]
    apply List.mem_append_left
    exact List.mem_map.2 ⟨hashBalanceID source % c.numberOfQueues, List.mem_range.2 (Nat.mod_lt _ hN), rfl⟩

/-- The balance a task will debit, in a given database. -/
def debits (db : DB) (t : Txn) (b : Balance) : Prop := db.resolve t.source t.currency "" = .ok (db, b.id) ∧ b ∈ db.balances

/-- The full claim: two tasks that debit the same balance sit in the same numbered queue. -/
def C33Full : Prop := ∀ (cfg : Cfg) (c : QCfg) (s : Sys), 0 < c.numberOfQueues → Reach cfg s →
  ∀ k1 t1 k2 t2 b, (k1, t1) ∈ s.tasks → (k2, t2) ∈ s.tasks → debits s.db t1 b → debits s.db t2 b →
    numberedQueue c t1.source = numberedQueue c t2.source

/-- **C33, same source, same queue (partial).** Whenever a submission's row was stored, its task
names the source by the id of an existing balance; so two such tasks that debit the same balance go
to the same numbered queue.
Missing: a task enqueued because storing its row failed may still name an indicator
(`c33_full_fails`). -/
theorem c33_same_source_same_queue_partial (cfg : Cfg) (c : QCfg) (db1 db2 : DB) (t1 t2 : Txn) (n1 n2 m1 m2 i1 i2 : String)
    (h1 : (persistQueued cfg db1 t1 n1 n2).2.2 = true) (h2 : (persistQueued cfg db2 t2 m1 m2).2.2 = true) :
    let q1 := queueCopy (persistQueued cfg db1 t1 n1 n2).2.1 i1
    let q2 := queueCopy (persistQueued cfg db2 t2 m1 m2).2.1 i2
    (∃ b ∈ (persistQueued cfg db1 t1 n1 n2).1.balances, b.id = q1.source) ∧
    (∃ b ∈ (persistQueued cfg db2 t2 m1 m2).1.balances, b.id = q2.source) ∧
    ∀ b : Balance, b.id = q1.source → b.id = q2.source → numberedQueue c q1.source = numberedQueue c q2.source := by
  have key : ∀ (db : DB) (t : Txn) (n1 n2 i : String), (persistQueued cfg db t n1 n2).2.2 = true →
      ∃ b ∈ (persistQueued cfg db t n1 n2).1.balances, b.id = (queueCopy (persistQueued cfg db t n1 n2).2.1 i).source := by
    intro db t n1 n2 i h
    revert h
    unfold persistQueued
    split
    · simp
    · rename_i db1 sid _
      split
      · simp
      · rename_i db2 did _
        split
        · rename_i b _ hl _
          simp only
          split
          · rename_i db3 hi
            intro _
            obtain ⟨_, _, rfl⟩ := insertTxn_ok hi
            simp only [queueCopy]
            unfold DB.load at hl
            split at hl
            · cases hl
            · rename_i bb hb
              exact ⟨bb, find_mem hb⟩
          · simp
        · simp
  exact ⟨key _ _ _ _ _ h1, key _ _ _ _ _ h2, fun b e1 e2 => by rw [← e1, ← e2]⟩

/-- An account known as "@bank". -/
def laneDb : DB := act {} (act {} {} (.base (.create "bln" "@bank" "USD"))) (.base (.create "b" "" "USD"))

/-- Two payments from it: one to an existing account, one to an account that does not exist yet. -/
def laneTxn (i dst : String) : Txn := { id := i, source := "@bank", destination := dst, reference := i, amount := 1, allowOverdraft := true }

example : (persistQueued {} laneDb (submit (laneTxn "p" "b")) "x" "y").2.2 = true := by decide +kernel

/-- The hash agrees with Go's `hash/fnv` on the published test vectors. -/
example : hashBalanceID "" = 0x811c9dc5 ∧ hashBalanceID "a" = 0xe40c292c ∧ hashBalanceID "foobar" = 0xbf9cf968 := by decide +kernel

/-- **C33 fails in full.** A submission whose row could not be stored is enqueued as it came
(`transaction_queue.go:150-156`): its task still says "@bank", which hashes to another queue than
the id of the very same balance in the task of the next submission. -/
theorem c33_full_fails : ¬ C33Full := by
  intro h
  have r0 : Reach {} { db := laneDb, others := [.base (.create "b" "" "USD"), .base (.create "bln" "@bank" "USD")] } := (Reach.init.step (.other {} (.base (.create "bln" "@bank" "USD")))).step (.other _ (.base (.create "b" "" "USD")))
  have r1 := r0.step (.accept _ (laneTxn "p" "b") rfl)
  have r2 := r1.step (.accept _ (laneTxn "q" "ghost") rfl)
  let s2 : Sys := { db := laneDb, others := [.base (.create "b" "" "USD"), .base (.create "bln" "@bank" "USD")], accepted := [submit (laneTxn "q" "ghost"), submit (laneTxn "p" "b")] }
  let p := persistQueued {} laneDb (submit (laneTxn "p" "b")) "x" "y"
  let s3 : Sys := { s2 with db := p.1, tasks := [(⟨"p", "p"⟩, queueCopy p.2.1 "c")] }
  have r3 : Reach {} s3 := r2.step (.persist s2 (submit (laneTxn "p" "b")) "x" "y" "c" .copy (by simp [s2]) (fun _ => by decide +kernel))
  let q := persistQueued {} p.1 (submit (laneTxn "q" "ghost")) "x" "y"
  let s4 : Sys := { s3 with db := q.1, tasks := (⟨"q", "q"⟩, q.2.1) :: s3.tasks }
  have r4 : Reach {} s4 := r3.step (.persist s3 (submit (laneTxn "q" "ghost")) "x" "y" "c" .original (by simp [s3, s2]) (fun h => by cases h))
  have e1 : q.2.1.source = "@bank" := by decide +kernel
  have e2 : (queueCopy p.2.1 "c").source = "bln" := by decide +kernel
  have := h {} {} s4 (by decide) r4 ⟨"q", "q"⟩ q.2.1 ⟨"p", "p"⟩ (queueCopy p.2.1 "c") { id := "bln", indicator := "@bank" }
    (by simp [s4]) (by simp [s4, s3])
    ⟨by decide +kernel, by decide +kernel⟩ ⟨by decide +kernel, by decide +kernel⟩
  rw [e1, e2] at this
  revert this
  decide +kernel

/-! ### C34 -/

/-- Nothing pending in one of the two lanes. -/
def Pair.oneLane (p : Pair) : Prop := p.pendingNormal = 0 ∨ p.pendingHot = 0

/-- The full claim. -/
def C34Full : Prop := ∀ (threshold : Nat) (es : List PEv), (psteps threshold {} es).oneLane

/-- Events that keep the pair "routed consistently": lane decision and row go together, the state
key does not expire while hot work is pending, and an error sends work to the normal lane only
while the pair is not on the hot lane. -/
def Orderly (p : Pair) : PEv → Prop
  | .assign => False
  | .stateExpires => p.pendingHot = 0
  | .submitFailed => p.state = .normal ∨ p.state = .promoting
  | _ => True

/-- A history all of whose events are orderly when they happen. -/
def OrderlyAll (threshold : Nat) (p : Pair) : List PEv → Prop
  | [] => True
  | e :: es => Orderly p e ∧ OrderlyAll threshold (pstep threshold p e) es

structure PInv (p : Pair) : Prop where
  flight : p.flight = []
  cold : p.state = .normal ∨ p.state = .promoting → p.pendingHot = 0
  warm : p.state = .hot ∨ p.state = .cooling → p.pendingNormal = 0

theorem pstep_inv {threshold : Nat} {p : Pair} {e : PEv} (hi : PInv p) (ho : Orderly p e) : PInv (pstep threshold p e) := by
  obtain ⟨hf, hc, hw⟩ := hi
  cases p with
  | mk st ac ct pn ph fl =>
    simp only at hf hc hw
    subst hf
    cases e with
    | assign => exact ho.elim
    | submit =>
      cases st <;> simp only [pstep, resolveLane]
      · exact ⟨rfl, fun _ => hc (.inl rfl), by simp [addPending]⟩
      · split
        · exact ⟨rfl, by simp [addPending], fun _ => by assumption⟩
        · exact ⟨rfl, fun _ => hc (.inr rfl), by simp [addPending]⟩
      · split
        · exact ⟨rfl, by simp [addPending], fun _ => hw (.inl rfl)⟩
        · split
          · exact ⟨rfl, by simp [addPending], fun _ => hw (.inl rfl)⟩
          · exact ⟨rfl, fun _ => by simp [addPending]; omega, by simp [addPending]⟩
      · split
        · exact ⟨rfl, by simp [addPending], fun _ => hw (.inr rfl)⟩
        · exact ⟨rfl, fun _ => by simp [addPending]; omega, by simp [addPending]⟩
    | store l => simp only [pstep, List.not_mem_nil, if_false]; exact ⟨rfl, hc, hw⟩
    | submitFailed =>
      refine ⟨rfl, hc, ?_⟩
      rintro (h | h) <;> rcases ho with h' | h' <;> simp only [pstep, addPending] at h h' <;> rw [h] at h' <;> cases h'
    | finish l =>
      cases l
      · exact ⟨rfl, hc, fun h => by have := hw h; simp only [pstep]; omega⟩
      · exact ⟨rfl, fun h => by have := hc h; simp only [pstep]; omega, hw⟩
    | contend =>
      simp only [pstep, recordContention]
      split
      · exact ⟨rfl, hc, hw⟩
      · cases st
        · exact ⟨rfl, fun _ => hc (.inl rfl), by simp⟩
        · exact ⟨rfl, hc, hw⟩
        · exact ⟨rfl, hc, hw⟩
        · exact ⟨rfl, hc, hw⟩
    | activityExpires => exact ⟨rfl, hc, hw⟩
    | counterExpires => exact ⟨rfl, hc, hw⟩
    | stateExpires => exact ⟨rfl, fun _ => ho, by simp [pstep]⟩

theorem psteps_inv {threshold : Nat} (es : List PEv) : ∀ {p : Pair}, PInv p → OrderlyAll threshold p es → PInv (psteps threshold p es) := by
  induction es with
  | nil => intro p h _; exact h
  | cons e es ih => intro p h ⟨h1, h2⟩; exact ih (pstep_inv h h1) h2

/-- **C34, one lane at a time (partial).** Over any orderly history of submissions, outcomes,
contention and expiries, all pending transactions of a pair sit in a single lane.
Missing: the disorderly events, each of which breaks it (`c34_*_fails`). -/
theorem c34_single_lane_partial (threshold : Nat) (es : List PEv) (h : OrderlyAll threshold {} es) :
    (psteps threshold {} es).oneLane := by
  have := psteps_inv es (p := {}) ⟨rfl, by simp, by simp⟩ h
  cases hs : (psteps threshold {} es).state with
  | normal => exact .inr (this.cold (.inl hs))
  | promoting => exact .inr (this.cold (.inr hs))
  | hot => exact .inl (this.warm (.inl hs))
  | cooling => exact .inl (this.warm (.inr hs))

/-- **C34, when lanes change.** A decision moves a pair's work to the hot lane only when nothing is
pending in the normal lane, and back only when nothing is pending in the hot lane. -/
theorem c34_switch_only_when_drained (p : Pair) :
    ((p.state = .normal ∨ p.state = .promoting) → (resolveLane p).2 = .hot → p.pendingNormal = 0) ∧
    ((p.state = .hot ∨ p.state = .cooling) → (resolveLane p).2 = .normal → p.pendingHot = 0) := by
  cases p with
  | mk st ac ct pn ph fl =>
    cases st <;> simp only [resolveLane] <;> refine ⟨?_, ?_⟩ <;> simp <;> (repeat' split) <;> simp_all

/-- A history that goes hot, cools down and returns. -/
def laneHistory : List PEv :=
  [.submit, .contend, .contend, .contend, .submit, .finish .normal, .finish .normal, .submit, .activityExpires,
   .submit, .finish .hot, .submit, .finish .hot, .finish .hot, .submit]

example : OrderlyAll 3 {} laneHistory ∧ psteps 3 {} (laneHistory.take 10) = { state := .cooling, contention := 3, pendingHot := 2 } ∧
    psteps 3 {} laneHistory = { pendingNormal := 1 } := by
  refine ⟨?_, by decide +kernel, by decide +kernel⟩
  simp [laneHistory, OrderlyAll, Orderly]

/-- **C34 fails when the state key expires.** After four activity periods without contention the
state is forgotten although hot work is pending; the next submission goes to the normal lane. -/
theorem c34_full_fails : ¬ C34Full := by
  intro h
  have := h 1 [.contend, .submit, .stateExpires, .submit]
  revert this
  unfold Pair.oneLane
  decide +kernel

/-- **C34 fails when Redis or the database errs.** Work of a hot pair then goes to the normal lane. -/
theorem c34_error_fails : ¬ (psteps 1 {} [.contend, .submit, .submitFailed]).oneLane := by
  unfold Pair.oneLane
  decide +kernel

/-- **C34 fails on a race.** A submission whose lane is decided but whose row is not stored yet is
not counted; the pair is promoted past it, and the later submission overtakes on the hot lane. -/
theorem c34_race_fails : ¬ (psteps 1 {} [.assign, .contend, .submit, .store .normal]).oneLane := by
  unfold Pair.oneLane
  decide +kernel

/-- **C34 fails for split legs.** Two legs of one split with client metadata, the first decided for
the normal lane and the second for the hot lane: both tasks are put on the hot lane, while the
first row keeps counting as pending in the normal lane. -/
theorem c34_split_lanes_differ : splitTaskLanes true [.normal, .hot] = [.hot, .hot] := by decide

end Blnk.Queue
