import Verif.Model.Snapshot
import Verif.Props.Inflight
/-
C51 (historical balances), C69 (snapshot runs), C70 (snapshots are not altered).
-/
namespace Blnk.Snap

/-! ### Specification -/

/-- Paid by the rows of a list that satisfy a condition. -/
def paid (p : Txn → Bool) (l : List Txn) : Int := ((l.filter p).map pay).sum

/-- An applied row entering / leaving a balance. -/
def enters (id : String) (t : Txn) : Bool := t.status = .applied && t.destination = id
def leaves (id : String) (t : Txn) : Bool := t.status = .applied && t.source = id

/-- What the answer to a historical query should be: applied rows effective at or before the instant. -/
def Historical (eff : String → Nat) (db : DB) (id : String) (t : Nat) (a : Answer) : Prop :=
  a.credit = paid (fun r => enters id r && eff r.id ≤ t) db.txns ∧
  a.debit = paid (fun r => leaves id r && eff r.id ≤ t) db.txns ∧
  a.balance = a.credit - a.debit

/-- The ledger operations of an execution. -/
def ledger : List Ev → List Act
  | [] => []
  | .act a :: es => a :: ledger es
  | _ :: es => ledger es

/-! ### Sums -/

theorem paid_nil (p : Txn → Bool) : paid p [] = 0 := rfl

theorem paid_cons (p : Txn → Bool) (t : Txn) (l : List Txn) :
    paid p (t :: l) = (if p t then pay t else 0) + paid p l := by
  unfold paid
  by_cases h : p t = true
  · simp [h]
  · simp [h]

theorem paid_append (p : Txn → Bool) (l l' : List Txn) : paid p (l ++ l') = paid p l + paid p l' := by
  simp [paid]

theorem paid_split (p q : Txn → Bool) (l : List Txn) :
    paid p l = paid (fun t => p t && q t) l + paid (fun t => p t && !q t) l := by
  induction l with
  | nil => rfl
  | cons t l ih =>
    rw [paid_cons, paid_cons, paid_cons, ih]
    cases p t <;> cases q t <;> simp <;> omega

theorem paid_congr {p q : Txn → Bool} {l : List Txn} (h : ∀ t ∈ l, p t = q t) : paid p l = paid q l := by
  unfold paid
  rw [List.filter_congr h]

theorem paid_eq_zero {p : Txn → Bool} {l : List Txn} (h : ∀ t ∈ l, p t = false) : paid p l = 0 := by
  unfold paid
  rw [List.filter_eq_nil_iff.2 (fun t ht => by simp [h t ht])]
  rfl

theorem tally_eq (id : String) : ∀ (l : List Txn) (c d : Int), tally id l (c, d) =
    (c + paid (fun t => t.destination = id) l, d + paid (fun t => t.source = id) l) := by
  intro l
  induction l with
  | nil => intro c d; simp [tally, paid]
  | cons t l ih =>
    intro c d
    rw [tally, ih, paid_cons, paid_cons]
    by_cases h1 : t.destination = id <;> by_cases h2 : t.source = id <;> simp [h1, h2, pay] <;> omega

theorem paid_fetch (p : Txn → Bool) (eff : String → Nat) (db : DB) (id : String) (s t : Nat)
    (hp : ∀ r, p r = true → (r.source = id || r.destination = id) = true) :
    paid p (fetch eff db id s t) =
      paid (fun r => (r.status = .applied && p r) && (decide (s < eff r.id) && decide (eff r.id ≤ t))) db.txns := by
  unfold fetch
  induction db.txns with
  | nil => rfl
  | cons r l ih =>
    rw [List.filter_cons, paid_cons]
    have := hp r
    split
    · rename_i h
      rw [paid_cons, ih]
      congr 1
      simp only [Bool.and_eq_true, decide_eq_true_eq] at h
      obtain ⟨⟨⟨h1, h2⟩, h3⟩, h4⟩ := h
      simp [h2, h3, h4]
    · rename_i h
      rw [ih]
      by_cases hpr : p r = true
      · have hx := this hpr
        simp only [hx, Bool.true_and] at h
        have : ((decide (r.status = .applied) && p r) && (decide (s < eff r.id) && decide (eff r.id ≤ t))) = false := by
          by_cases a : r.status = .applied <;> by_cases b : s < eff r.id <;> by_cases c : eff r.id ≤ t <;> simp_all
        simp [this]
      · simp [hpr]

/-- The answer, as sums over the table. -/
theorem balanceAt_eq (eff : String → Nat) (st : State) (id : String) (t : Stamp) (src : Bool) :
    let p := if src then ((0 : Int), (0 : Int), 0) else match mostRecent id t.instant st.snaps with
      | some s => (s.credit, s.debit, s.time)
      | none => (0, 0, 0)
    let a := balanceAt eff st id t src
    a.credit = p.1 + paid (fun r => enters id r && (decide (p.2.2 < eff r.id) && decide (eff r.id ≤ t.reading))) st.db.txns ∧
    a.debit = p.2.1 + paid (fun r => leaves id r && (decide (p.2.2 < eff r.id) && decide (eff r.id ≤ t.reading))) st.db.txns ∧
    a.balance = a.credit - a.debit := by
  intro p a
  have hgen : ∀ c d s, tally id (fetch eff st.db id s t.reading) (c, d) =
      (c + paid (fun r => enters id r && (decide (s < eff r.id) && decide (eff r.id ≤ t.reading))) st.db.txns,
       d + paid (fun r => leaves id r && (decide (s < eff r.id) && decide (eff r.id ≤ t.reading))) st.db.txns) := by
    intro c d s
    rw [tally_eq, paid_fetch _ _ _ _ _ _ (by intro r h; simp at h; simp [h]),
      paid_fetch _ _ _ _ _ _ (by intro r h; simp at h; simp [h])]
    rfl
  show a.credit = _ ∧ a.debit = _ ∧ a.balance = _
  have ha : a = (let q := tally id (fetch eff st.db id p.2.2 t.reading) (p.1, p.2.1)
      { credit := q.1, debit := q.2, balance := q.1 - q.2 : Answer }) := rfl
  rw [ha, hgen]
  exact ⟨rfl, rfl, rfl⟩

/-! ### C51: from source -/

/-- **C51**, from source. The historical answer computed from the transactions is what it should be,
for every ledger, balance and instant, provided the timestamp is written in UTC and no row takes
effect at the zero time. Missing: `c51_source_zero_date_fails`, `c51_source_offset_fails`. -/
theorem c51_source_partial (eff : String → Nat) (st : State) (id : String) (t : Nat)
    (hpos : ∀ r ∈ st.db.txns, 0 < eff r.id) :
    Historical eff st.db id t (balanceAt eff st id (utc t) true) := by
  obtain ⟨h1, h2, h3⟩ := balanceAt_eq eff st id (utc t) true
  simp only [if_true, Int.zero_add] at h1 h2
  refine ⟨?_, ?_, h3⟩
  · rw [h1]; exact paid_congr fun r hr => by
      rw [decide_eq_true (hpos r hr), Bool.true_and]; rfl
  · rw [h2]; exact paid_congr fun r hr => by
      rw [decide_eq_true (hpos r hr), Bool.true_and]; rfl

/-- **C51**, from source. Asked for an instant no row lies after, the answer is the stored balance:
over every history of postings, batches, holds, commits and voids. -/
theorem c51_source_now (cfg : Cfg) (H : String → Prop) (as : List Act) (hr : ∀ a ∈ as, a.Respects H)
    (eff : String → Nat) (t : Nat) (snaps : List Snapshot) (runs : List Run)
    (hd : ∀ r ∈ (acts cfg {} as).txns, 0 < eff r.id ∧ eff r.id ≤ t) (b : Balance) (hb : b ∈ (acts cfg {} as).balances) :
    balanceAt eff ⟨acts cfg {} as, snaps, runs⟩ b.id (utc t) true = ⟨b.credit, b.debit, b.balance⟩ := by
  obtain ⟨h1, h2, h3⟩ := c51_source_partial eff ⟨acts cfg {} as, snaps, runs⟩ b.id t (fun r hr => (hd r hr).1)
  obtain ⟨g1, g2, g3⟩ := c60_balance_is_sum_of_applied_rows cfg H as hr b hb
  have e : ∀ (q : Txn → Bool), paid (fun r => (decide (r.status = .applied) && q r) && decide (eff r.id ≤ t)) (acts cfg {} as).txns =
      ((((acts cfg {} as).txns.filter (fun t => t.status = .applied)).filter q).map pay).sum := by
    intro q
    rw [List.filter_filter]
    unfold paid
    congr 2
    exact List.filter_congr fun r hr => by simp [(hd r hr).2, Bool.and_comm]
  have hc : (balanceAt eff ⟨acts cfg {} as, snaps, runs⟩ b.id (utc t) true).credit = b.credit := by
    rw [h1, g2]; exact e _
  have hdb : (balanceAt eff ⟨acts cfg {} as, snaps, runs⟩ b.id (utc t) true).debit = b.debit := by
    rw [h2, g1]; exact e _
  rw [hc, hdb] at h3
  cases h : balanceAt eff ⟨acts cfg {} as, snaps, runs⟩ b.id (utc t) true
  rw [h] at hc hdb h3
  simp only at hc hdb h3
  rw [hc, hdb, h3, g3]

/-! ### Reachable states -/

/-- The first `n` rows of the table. -/
def upto (n : Nat) (db : DB) : List Txn := db.txns.take n

/-- A snapshot recorded the sums over the rows stored when it was taken. -/
def Recorded (db : DB) (s : Snapshot) : Prop :=
  s.seen ≤ db.txns.length ∧ s.balanceId ∈ ids db.balances ∧
  s.credit = paid (enters s.balanceId) (upto s.seen db) ∧ s.debit = paid (leaves s.balanceId) (upto s.seen db) ∧
  s.balance = s.credit - s.debit

structure Reach (cfg : Cfg) (H : String → Prop) (st : State) : Prop where
  ledger : ∃ as, (∀ a ∈ as, a.Respects H) ∧ st.db = acts cfg {} as
  snaps : ∀ s ∈ st.snaps, Recorded st.db s
  rows : ∀ r ∈ st.runs, ∀ s ∈ r.rows, Recorded st.db s ∧ s.time = r.time

theorem acts_snoc {cfg : Cfg} {as : List Act} {a : Act} {db : DB} : acts cfg db (as ++ [a]) = act cfg (acts cfg db as) a := by
  rw [acts_append]; rfl

theorem recordSingle_ids_prefix {cfg : Cfg} {db : DB} {t : Txn} {n1 n2 : String} :
    ids db.balances <+: ids (recordSingle cfg db t n1 n2).1.balances := by
  have hres : ∀ {db db' : DB} {s cur n i : String}, db.resolve s cur n = .ok (db', i) → ids db.balances <+: ids db'.balances := by
    intro db db' s cur n i h
    rcases resolve_ok h with ⟨rfl, _, _⟩ | ⟨rfl, _, _⟩ | ⟨_, _, hc⟩
    · exact List.prefix_rfl
    · exact List.prefix_rfl
    · rw [createBalance_ids hc]; exact List.prefix_append _ _
  unfold recordSingle
  split
  · exact List.prefix_rfl
  · rename_i db1 sid h1
    split
    · exact hres h1
    · rename_i db2 did h2
      rw [postResolved_ids]
      exact (hres h1).trans (hres h2)

/-- Balance rows are never reordered or removed: new ones come last. -/
theorem act_ids_prefix {cfg : Cfg} {db : DB} {a : Act} : ids db.balances <+: ids (act cfg db a).balances := by
  cases a with
  | base op =>
    simp only [act, Blnk.step]
    split
    · split
      · rename_i h; simp only [createBalance_ids h]; exact List.prefix_append _ _
      · exact List.prefix_rfl
    · exact recordSingle_ids_prefix
    · rw [recordBatch_ids]; exact List.prefix_rfl
    · split
      · rename_i h
        unfold DB.insertTxn at h
        split at h
        · cases h
        · split at h
          · cases h
          · cases h; exact List.prefix_rfl
      · exact List.prefix_rfl
  | commit id amt newId ref n1 n2 =>
    simp only [act, commitInflight]
    split
    · exact List.prefix_rfl
    · split
      · exact List.prefix_rfl
      · exact recordSingle_ids_prefix
  | void id newId ref n1 n2 =>
    simp only [act, voidInflight]
    split
    · exact List.prefix_rfl
    · split
      · exact List.prefix_rfl
      · exact recordSingle_ids_prefix

theorem Recorded.grow {db db' : DB} {s : Snapshot} {new : List Txn} (h : Recorded db s)
    (e : db'.txns = db.txns ++ new) (hp : ids db.balances <+: ids db'.balances) : Recorded db' s := by
  obtain ⟨h1, h2, h3, h4, h5⟩ := h
  have : upto s.seen db' = upto s.seen db := by
    unfold upto
    rw [e, List.take_append_of_le_length h1]
  refine ⟨by rw [e, List.length_append]; omega, hp.subset h2, ?_, ?_, h5⟩
  · rw [this]; exact h3
  · rw [this]; exact h4

theorem numbered_mem {n : Nat} {bs : List Balance} {p : Nat × Balance} (h : p ∈ numbered n bs) : p.2 ∈ bs := by
  induction bs generalizing n with
  | nil => cases h
  | cons b bs ih =>
    rw [numbered, List.mem_cons] at h
    rcases h with rfl | h
    · simp
    · exact List.mem_cons_of_mem _ (ih h)

theorem batchOf_mem {db : DB} {v : List Snapshot} {r : Run} {b : Balance} (h : b ∈ batchOf db v r) : b ∈ db.balances := by
  obtain ⟨p, hp, rfl⟩ := List.mem_map.1 h
  exact numbered_mem (List.mem_filter.1 (List.mem_of_mem_take hp)).1

theorem shot_recorded {cfg : Cfg} {H : String → Prop} {as : List Act} (hr : ∀ a ∈ as, a.Respects H)
    {b : Balance} (hb : b ∈ (acts cfg {} as).balances) (time : Nat) :
    Recorded (acts cfg {} as) (shot (acts cfg {} as) time b) := by
  obtain ⟨g1, g2, g3⟩ := c60_balance_is_sum_of_applied_rows cfg H as hr b hb
  have e : ∀ (q : Txn → Bool), ((((acts cfg {} as).txns.filter (fun t => t.status = .applied)).filter q).map pay).sum =
      paid (fun r => decide (r.status = .applied) && q r) (acts cfg {} as).txns := by
    intro q
    rw [List.filter_filter]
    unfold paid
    congr 2
    exact List.filter_congr fun r _ => by simp [Bool.and_comm]
  refine ⟨Nat.le_refl _, List.mem_map.2 ⟨b, hb, rfl⟩, ?_, ?_, g3⟩
  · show b.credit = paid (enters b.id) ((acts cfg {} as).txns.take (acts cfg {} as).txns.length)
    rw [g2, List.take_length]; exact e _
  · show b.debit = paid (leaves b.id) ((acts cfg {} as).txns.take (acts cfg {} as).txns.length)
    rw [g1, List.take_length]; exact e _

theorem iterate_rows {cfg : Cfg} {H : String → Prop} {st : State} (h : Reach cfg H st) {r : Run} (hr : r ∈ st.runs) :
    ∀ s ∈ (iterate st.db st.snaps r).1.rows, Recorded st.db s ∧ s.time = r.time := by
  obtain ⟨as, ha, e⟩ := h.ledger
  intro s hs
  simp only [iterate, List.mem_append, List.mem_map] at hs
  rcases hs with hs | ⟨b, hb, rfl⟩
  · exact h.rows r hr s hs
  · have := batchOf_mem hb
    refine ⟨?_, rfl⟩
    rw [e] at this ⊢
    exact shot_recorded ha this _

theorem step_reach {cfg : Cfg} {H : String → Prop} {st : State} (h : Reach cfg H st) {e : Ev}
    (he : ∀ a, e = .act a → a.Respects H) : Reach cfg H (step cfg st e) := by
  cases e with
  | act a =>
    obtain ⟨as, ha, e⟩ := h.ledger
    have hra := he a rfl
    have hinv := acts_holdInv (cfg := cfg) (init_holdInv H) ha
    rw [← e] at hinv
    obtain ⟨new, hn⟩ := act_prefix (cfg := cfg) hinv hra
    refine ⟨⟨as ++ [a], ?_, ?_⟩, fun s hs => (h.snaps s hs).grow hn act_ids_prefix, fun r hr s hs =>
      ⟨(h.rows r hr s hs).1.grow hn act_ids_prefix, (h.rows r hr s hs).2⟩⟩
    · intro x hx
      rcases List.mem_append.1 hx with hx | hx
      · exact ha x hx
      · simp at hx; rw [hx]; exact hra
    · rw [acts_snoc, ← e]; rfl
  | start now size =>
    simp only [step]
    split
    · exact h
    · refine ⟨h.ledger, h.snaps, fun r hr s hs => ?_⟩
      simp only [List.mem_append, List.mem_singleton] at hr
      rcases hr with hr | rfl
      · exact h.rows r hr s hs
      · cases hs
  | batch k =>
    simp only [step]
    split
    · exact h
    · rename_i r hr
      have hm := List.mem_of_getElem? hr
      have hrows := iterate_rows h hm
      split
      · refine ⟨h.ledger, fun s hs => ?_, fun r' hr' => h.rows r' (List.mem_of_mem_eraseIdx hr')⟩
        simp only [List.mem_append] at hs
        rcases hs with hs | hs
        · exact h.snaps s hs
        · exact (hrows s hs).1
      · refine ⟨h.ledger, h.snaps, fun r' hr' s hs => ?_⟩
        rcases List.mem_or_eq_of_mem_set hr' with hr' | rfl
        · exact h.rows r' hr' s hs
        · exact hrows s hs
  | abort k =>
    exact ⟨h.ledger, h.snaps, fun r' hr' => h.rows r' (List.mem_of_mem_eraseIdx hr')⟩

theorem init_reach (cfg : Cfg) (H : String → Prop) : Reach cfg H {} :=
  ⟨⟨[], by simp, rfl⟩, by simp, by simp⟩

theorem exec_reach {cfg : Cfg} {H : String → Prop} {es : List Ev} : ∀ {st : State}, Reach cfg H st →
    (∀ a ∈ ledger es, a.Respects H) → Reach cfg H (exec cfg st es) := by
  induction es with
  | nil => intro st h _; exact h
  | cons e es ih =>
    intro st h hr
    refine ih (step_reach h ?_) ?_
    · rintro a rfl; exact hr a (by simp [ledger])
    · intro a ha
      apply hr
      cases e <;> simp [ledger, ha]

/-! ### C51: from a snapshot -/

theorem mostRecent_mem {id : String} {t : Nat} {s : Snapshot} : ∀ {l : List Snapshot}, mostRecent id t l = some s →
    s ∈ l ∧ s.balanceId = id ∧ s.time ≤ t := by
  intro l
  induction l with
  | nil => intro h; cases h
  | cons a l ih =>
    intro h
    rw [mostRecent] at h
    split at h
    · rename_i hc
      simp only [Bool.and_eq_true, decide_eq_true_eq] at hc
      split at h
      · cases h; exact ⟨by simp, hc⟩
      · rename_i s' hs'
        split at h
        · cases h
          have := ih hs'
          exact ⟨List.mem_cons_of_mem _ this.1, this.2⟩
        · cases h; exact ⟨by simp, hc⟩
    · have := ih h
      exact ⟨List.mem_cons_of_mem _ this.1, this.2⟩

/-- The snapshot used is the latest one not after the instant. -/
theorem mostRecent_latest {id : String} {t : Nat} {s : Snapshot} : ∀ {l : List Snapshot}, mostRecent id t l = some s →
    ∀ s' ∈ l, s'.balanceId = id → s'.time ≤ t → s'.time ≤ s.time := by
  intro l
  induction l generalizing s with
  | nil => intro h; cases h
  | cons a l ih =>
    intro h s' hs' hid ht
    have hnone : mostRecent id t l = none → ∀ s' ∈ l, s'.balanceId = id → s'.time ≤ t → False := by
      intro hn
      clear ih h hs'
      induction l with
      | nil => simp
      | cons x l ih2 =>
        intro s' hs' hid ht
        rw [mostRecent] at hn
        split at hn
        · split at hn
          · cases hn
          · split at hn <;> cases hn
        · rename_i hx
          rcases List.mem_cons.1 hs' with rfl | hs'
          · exact hx (by simp [hid, ht])
          · exact ih2 hn s' hs' hid ht
    rw [mostRecent] at h
    split at h
    · split at h
      · rename_i hn
        cases h
        rcases List.mem_cons.1 hs' with rfl | hs'
        · exact Nat.le_refl _
        · exact (hnone hn s' hs' hid ht).elim
      · rename_i m hm
        have hi := ih hm
        split at h
        · cases h
          rcases List.mem_cons.1 hs' with rfl | hs'
          · omega
          · exact hi s' hs' hid ht
        · cases h
          rcases List.mem_cons.1 hs' with rfl | hs'
          · exact Nat.le_refl _
          · have := hi s' hs' hid ht; omega
    · rename_i hx
      rcases List.mem_cons.1 hs' with rfl | hs'
      · exact (hx (by simp [hid, ht])).elim
      · exact ih h s' hs' hid ht

/-- Counted when the snapshot was taken but not effective by its time. -/
def early (eff : String → Nat) (s : Snapshot) (p : Txn → Bool) (db : DB) : Int :=
  paid (fun r => p r && !(decide (0 < eff r.id) && decide (eff r.id ≤ s.time))) (db.txns.take s.seen)

/-- Stored after the snapshot was taken but effective by its time. -/
def late (eff : String → Nat) (s : Snapshot) (p : Txn → Bool) (db : DB) : Int :=
  paid (fun r => p r && (decide (0 < eff r.id) && decide (eff r.id ≤ s.time))) (db.txns.drop s.seen)

theorem error_sum (eff : String → Nat) (s : Snapshot) (p : Txn → Bool) (db : DB) (t : Nat) (ht : s.time ≤ t) :
    paid p (db.txns.take s.seen) + paid (fun r => p r && (decide (s.time < eff r.id) && decide (eff r.id ≤ t))) db.txns =
      paid (fun r => p r && (decide (0 < eff r.id) && decide (eff r.id ≤ t))) db.txns +
        early eff s p db - late eff s p db := by
  have h1 := paid_split p (fun r => decide (0 < eff r.id) && decide (eff r.id ≤ s.time)) (db.txns.take s.seen)
  have h2 := paid_split (fun r => p r && (decide (0 < eff r.id) && decide (eff r.id ≤ t)))
    (fun r => decide (eff r.id ≤ s.time)) db.txns
  have h3 : paid (fun r => (p r && (decide (0 < eff r.id) && decide (eff r.id ≤ t))) && decide (eff r.id ≤ s.time)) db.txns =
      paid (fun r => p r && (decide (0 < eff r.id) && decide (eff r.id ≤ s.time))) db.txns :=
    paid_congr fun r _ => by
      by_cases a : eff r.id ≤ s.time
      · have : eff r.id ≤ t := by omega
        simp [a, this]
      · simp [a]
  have h4 : paid (fun r => (p r && (decide (0 < eff r.id) && decide (eff r.id ≤ t))) && !decide (eff r.id ≤ s.time)) db.txns =
      paid (fun r => p r && (decide (s.time < eff r.id) && decide (eff r.id ≤ t))) db.txns :=
    paid_congr fun r _ => by
      by_cases a : eff r.id ≤ s.time
      · have : ¬ s.time < eff r.id := by omega
        simp [a, this]
      · have b : s.time < eff r.id := by omega
        have c : 0 < eff r.id := by omega
        simp [b, c]
  have h5 := paid_append (fun r => p r && (decide (0 < eff r.id) && decide (eff r.id ≤ s.time)))
    (db.txns.take s.seen) (db.txns.drop s.seen)
  rw [List.take_append_drop] at h5
  unfold early late
  omega

/-- **C51**, from a snapshot. Over every execution - postings, holds, batches, and any number of
overlapping snapshot runs - the snapshot answer differs from the source answer by exactly the
amounts the snapshot had already counted though not effective by its time, less the amounts stored
after it though effective by its time. The error does not depend on the instant asked for. -/
theorem c51_error_exact (cfg : Cfg) (H : String → Prop) (es : List Ev) (hr : ∀ a ∈ ledger es, a.Respects H)
    (eff : String → Nat) (id : String) (t : Nat) (s : Snapshot)
    (hs : mostRecent id t (exec cfg {} es).snaps = some s) :
    let st := exec cfg {} es
    (balanceAt eff st id (utc t) false).credit =
      (balanceAt eff st id (utc t) true).credit + early eff s (enters id) st.db - late eff s (enters id) st.db ∧
    (balanceAt eff st id (utc t) false).debit =
      (balanceAt eff st id (utc t) true).debit + early eff s (leaves id) st.db - late eff s (leaves id) st.db := by
  intro st
  obtain ⟨hm, hid, ht⟩ := mostRecent_mem hs
  obtain ⟨_, _, hc, hd, _⟩ := (exec_reach (init_reach cfg H) hr).snaps s hm
  obtain ⟨a1, a2, _⟩ := balanceAt_eq eff st id (utc t) false
  obtain ⟨b1, b2, _⟩ := balanceAt_eq eff st id (utc t) true
  have hs' : mostRecent id (utc t).instant st.snaps = some s := hs
  simp only [hs', Bool.false_eq_true, if_false] at a1 a2
  simp only [if_true, Int.zero_add] at b1 b2
  rw [hid] at hc hd
  constructor
  · rw [a1, b1, hc]
    have := error_sum eff s (enters id) st.db t ht
    simp only [utc, upto]
    exact this
  · rw [a2, b2, hd]
    have := error_sum eff s (leaves id) st.db t ht
    simp only [utc, upto]
    exact this

/-- The rows of a balance lie on the right side of a snapshot: stored when it was taken exactly when
effective by its time. -/
def Aligned (eff : String → Nat) (db : DB) (s : Snapshot) : Prop :=
  ∀ i r, db.txns[i]? = some r → r.status = .applied → r.source = s.balanceId ∨ r.destination = s.balanceId →
    (i < s.seen ↔ eff r.id ≤ s.time)

/-- **C51**, from a snapshot. The snapshot answer equals the source answer when every row of the
balance lies on the right side of the snapshot used. Missing: `c51_full_fails`, where the cases that
break it are listed. -/
theorem c51_snapshot_partial (cfg : Cfg) (H : String → Prop) (es : List Ev) (hr : ∀ a ∈ ledger es, a.Respects H)
    (eff : String → Nat) (id : String) (t : Nat) (hpos : ∀ r ∈ (exec cfg {} es).db.txns, 0 < eff r.id)
    (hal : ∀ s, mostRecent id t (exec cfg {} es).snaps = some s → Aligned eff (exec cfg {} es).db s) :
    balanceAt eff (exec cfg {} es) id (utc t) false = balanceAt eff (exec cfg {} es) id (utc t) true := by
  obtain ⟨_, _, a3⟩ := balanceAt_eq eff (exec cfg {} es) id (utc t) false
  obtain ⟨_, _, b3⟩ := balanceAt_eq eff (exec cfg {} es) id (utc t) true
  have fin : ∀ x y : Answer, x.credit = y.credit → x.debit = y.debit → x.balance = x.credit - x.debit →
      y.balance = y.credit - y.debit → x = y := by
    intro x y h1 h2 h3 h4
    cases x; cases y
    simp only at h1 h2 h3 h4
    simp only [Answer.mk.injEq]
    exact ⟨h1, h2, by omega⟩
  cases hs : mostRecent id t (exec cfg {} es).snaps with
  | none =>
    have hs' : mostRecent id (utc t).instant (exec cfg {} es).snaps = none := hs
    simp only [balanceAt, hs', if_true, Bool.false_eq_true, if_false]
  | some s =>
    obtain ⟨hm, hid, ht⟩ := mostRecent_mem hs
    have ha := hal s hs
    obtain ⟨e1, e2⟩ := c51_error_exact cfg H es hr eff id t s hs
    have touch : ∀ (p : Txn → Bool), (∀ r, p r = true → r.status = .applied ∧ (r.source = id ∨ r.destination = id)) →
        early eff s p (exec cfg {} es).db = 0 ∧ late eff s p (exec cfg {} es).db = 0 := by
      intro p hp
      constructor
      · apply paid_eq_zero
        intro r hr
        obtain ⟨i, hi, e⟩ := List.mem_iff_getElem.1 hr
        rw [List.length_take] at hi
        rw [List.getElem_take] at e
        by_cases hpr : p r = true
        · have := hp r hpr
          have hget : (exec cfg {} es).db.txns[i]? = some r := by rw [List.getElem?_eq_getElem (by omega), e]
          have := (ha i r hget this.1 (by rw [hid]; exact this.2)).1 (by omega)
          have hpos' := hpos r (List.mem_of_mem_take hr)
          simp [this, hpos']
        · simp [hpr]
      · apply paid_eq_zero
        intro r hr
        obtain ⟨i, hi, e⟩ := List.mem_iff_getElem.1 hr
        rw [List.length_drop] at hi
        rw [List.getElem_drop] at e
        by_cases hpr : p r = true
        · have := hp r hpr
          have hget : (exec cfg {} es).db.txns[s.seen + i]? = some r := by
            rw [List.getElem?_eq_getElem (by omega), e]
          have hx := ha (s.seen + i) r hget this.1 (by rw [hid]; exact this.2)
          have : ¬ eff r.id ≤ s.time := fun h => by have := hx.2 h; omega
          simp [this]
        · simp [hpr]
    have t1 := touch (enters id) (by intro r h; simp [enters] at h; exact ⟨h.1, .inr h.2⟩)
    have t2 := touch (leaves id) (by intro r h; simp [leaves] at h; exact ⟨h.1, .inl h.2⟩)
    refine fin _ _ ?_ ?_ a3 b3
    · rw [e1, t1.1, t1.2]; omega
    · rw [e2, t2.1, t2.2]; omega

/-! ### C51: the cases that break it -/

/-- The full claim: whichever way it is computed and however the timestamp is written, the answer is
the sum of the rows effective at or before the instant. -/
def C51Full : Prop := ∀ (cfg : Cfg) (H : String → Prop) (es : List Ev), (∀ a ∈ ledger es, a.Respects H) →
  ∀ (eff : String → Nat) (id : String) (t : Stamp) (src : Bool), id ∈ ids (exec cfg {} es).db.balances →
    Historical eff (exec cfg {} es).db id t.instant (balanceAt eff (exec cfg {} es) id t src)

/-- A transfer of `p` from `a` to `b`. -/
def move (id ref : String) (p : Int) : Txn :=
  { id := id, reference := ref, source := "a", destination := "b", preciseAmount := some p, amount := p, precision := 1,
    status := .queued, allowOverdraft := true }

def accounts : List Ev := [.act (.base (.create "a" "" "USD")), .act (.base (.create "b" "" "USD"))]
def send (id ref : String) (p : Int) : Ev := .act (.base (.post (move id ref p) "x" "y"))

/-- Day 1 at noon. -/
def noon : Nat := dayLength + 43200000000

theorem noHolds {es : List Ev} (h : es.all (fun e => match e with
    | .act (.base (.create _ _ _)) => true
    | .act (.base (.post t _ _)) => t.status = .queued && !t.inflight
    | .act (.base (.store t)) => t.status = .queued && !t.inflight && t.metaInflight != some true && decide (0 ≤ pay t)
    | .act _ => false
    | _ => true) = true) : ∀ a ∈ ledger es, a.Respects (fun _ => False) := by
  induction es with
  | nil => simp [ledger]
  | cons e es ih =>
    rw [List.all_cons, Bool.and_eq_true] at h
    have ih := ih h.2
    have h1 := h.1
    cases e with
    | act a =>
      intro x hx
      rw [ledger, List.mem_cons] at hx
      rcases hx with rfl | hx
      · cases x with
        | base op =>
          cases op with
          | create => simp [Act.Respects, Op.Ordinary, Op.posts]
          | post t n1 n2 =>
            simp only [Bool.and_eq_true, decide_eq_true_eq, Bool.not_eq_true'] at h1
            simp [Act.Respects, Op.Ordinary, Op.posts, Txn.Live, Txn.Plain, h1.1, h1.2]
          | batch ts => simp at h1
          | store t =>
            simp only [Bool.and_eq_true, decide_eq_true_eq, Bool.not_eq_true', bne_iff_ne, ne_eq] at h1
            obtain ⟨⟨⟨a, b⟩, c⟩, d⟩ := h1
            simp [Act.Respects, Op.Ordinary, Op.posts, Txn.Holds, a, c, d]
        | commit => simp at h1
        | void => simp at h1
      · exact ih x hx
    | start => exact ih
    | batch => exact ih
    | abort => exact ih

/-- A posting, a snapshot, a second posting: rows on the right sides. -/
def orderly : List Ev := accounts ++ [send "t1" "r1" 10, .start noon 10, .batch 0, send "t2" "r2" 7]
def orderlyDates (i : String) : Nat := if i = "t1" then noon - 1 else noon + 1

/-- The hypotheses of `c51_snapshot_partial` are met by an execution whose snapshot is used. -/
example : (∀ a ∈ ledger orderly, a.Respects (fun _ => False)) ∧
    (mostRecent "a" (noon + 5) (exec {} {} orderly).snaps).isSome = true ∧
    (exec {} {} orderly).db.txns.all (fun r => 0 < orderlyDates r.id) = true ∧
    (exec {} {} orderly).snaps.map (·.seen) = [1, 1] ∧
    balanceAt orderlyDates (exec {} {} orderly) "b" (utc (noon + 5)) false = ⟨17, 0, 17⟩ ∧
    balanceAt orderlyDates (exec {} {} orderly) "b" (utc noon) false = ⟨10, 0, 10⟩ ∧
    balanceAt orderlyDates (exec {} {} orderly) "b" (utc (noon - 2)) false = ⟨0, 0, 0⟩ := by
  exact ⟨noHolds (by decide +kernel), by decide +kernel, by decide +kernel, by decide +kernel, by decide +kernel,
    by decide +kernel, by decide +kernel⟩

example : (mostRecent "a" (noon + 5) (exec {} {} orderly).snaps).all (fun s =>
    ((exec {} {} orderly).db.txns.zipIdx).all (fun p => decide (p.2 < s.seen) == decide (orderlyDates p.1.id ≤ s.time))) = true := by
  decide +kernel

/-- A posting given an effective date before the snapshot is missed by every later query. -/
def backdated : List Ev := accounts ++ [.start noon 10, .batch 0, send "t1" "r1" 10]
def backDates (_ : String) : Nat := noon - 1

theorem c51_full_fails : ¬ C51Full := by
  intro h
  have := (h {} (fun _ => False) backdated (noHolds (by decide +kernel)) backDates "b" (utc (noon + 5)) false
    (by decide +kernel)).1
  exact absurd this (by decide +kernel)

/-- The query without a snapshot answers 10, the one with a snapshot 0, and the stored balance is 10. -/
theorem c51_backdated_fails : (∀ a ∈ ledger backdated, a.Respects (fun _ => False)) ∧
    balanceAt backDates (exec {} {} backdated) "b" (utc (noon + 5)) true = ⟨10, 0, 10⟩ ∧
    balanceAt backDates (exec {} {} backdated) "b" (utc (noon + 5)) false = ⟨0, 0, 0⟩ ∧
    (exec {} {} backdated).db.balances.map (fun b => (b.id, b.balance)) = [("a", -10), ("b", 10)] := by
  exact ⟨noHolds (by decide +kernel), by decide +kernel, by decide +kernel, by decide +kernel⟩

/-- The row a queued request leaves before the worker posts it (`transaction_queue.go:136-163`). -/
def waiting : Txn := { move "q1" "r1" 10 with destination := "b" }
/-- What the worker posts: the queued copy (`transaction_queue.go:379-385`), with the date the request
was accepted at (`setTransactionMetadata`, `transaction_queue.go:341-345`). -/
def worked : Txn := { move "t1" "r1_q" 10 with parent := "q1" }
def queuedAcross : List Ev := accounts ++ [.act (.base (.store waiting)), .start noon 10, .batch 0,
  .act (.base (.post worked "x" "y"))]
/-- Both rows carry the time the request was accepted at. -/
def acceptedDates (_ : String) : Nat := noon - 1

/-- No client sets a date: a request accepted just before a snapshot and posted by the queue just
after it is missed by every later query. -/
theorem c51_queued_posting_fails : (∀ a ∈ ledger queuedAcross, a.Respects (fun _ => False)) ∧
    ((exec {} {} queuedAcross).db.txns.map (fun r => (r.id, r.status, r.parent))) =
      [("q1", .queued, ""), ("t1", .applied, "q1")] ∧
    acceptedDates "t1" = acceptedDates "q1" ∧
    balanceAt acceptedDates (exec {} {} queuedAcross) "b" (utc (noon + 5)) true = ⟨10, 0, 10⟩ ∧
    balanceAt acceptedDates (exec {} {} queuedAcross) "b" (utc (noon + 5)) false = ⟨0, 0, 0⟩ := by
  exact ⟨noHolds (by decide +kernel), by decide +kernel, by decide +kernel, by decide +kernel, by decide +kernel⟩

/-- A posting made while a run is under way, after `NOW()` and before its balance's batch. -/
def during : List Ev := accounts ++ [.start noon 1, send "t1" "r1" 10, .batch 0, .batch 0]
def duringDates (_ : String) : Nat := noon + 1

/-- No client sets a date: a posting made while a snapshot run is under way is counted twice by
every later query. -/
theorem c51_posting_during_run_counted_twice : (∀ a ∈ ledger during, a.Respects (fun _ => False)) ∧
    balanceAt duringDates (exec {} {} during) "b" (utc (noon + 5)) true = ⟨10, 0, 10⟩ ∧
    balanceAt duringDates (exec {} {} during) "b" (utc (noon + 5)) false = ⟨20, 0, 20⟩ ∧
    (exec {} {} during).db.balances.map (fun b => (b.id, b.balance)) = [("a", -10), ("b", 10)] := by
  exact ⟨noHolds (by decide +kernel), by decide +kernel, by decide +kernel, by decide +kernel⟩

def plain : List Ev := accounts ++ [send "t1" "r1" 10]

/-- A row given the zero time as effective date is never counted, even from source. -/
theorem c51_source_zero_date_fails : (∀ a ∈ ledger plain, a.Respects (fun _ => False)) ∧
    ∀ t, balanceAt (fun _ => 0) (exec {} {} plain) "b" t true = ⟨0, 0, 0⟩ := by
  refine ⟨noHolds (by decide +kernel), fun t => ?_⟩
  have : fetch (fun _ => 0) (exec {} {} plain).db "b" 0 t.reading = [] := by
    unfold fetch
    apply List.filter_eq_nil_iff.2
    intro r _; simp
  simp [balanceAt, this, tally]

/-- Two hours, in microseconds. -/
def twoHours : Nat := 7200000000

/-- The same instant written with offset `+02:00` and in UTC gets different answers: the posting took
effect an hour after the instant, and the first answer includes it. -/
theorem c51_source_offset_fails : (∀ a ∈ ledger plain, a.Respects (fun _ => False)) ∧
    balanceAt (fun _ => noon + 3600000000) (exec {} {} plain) "b" ⟨noon, noon + twoHours⟩ true = ⟨10, 0, 10⟩ ∧
    balanceAt (fun _ => noon + 3600000000) (exec {} {} plain) "b" (utc noon) true = ⟨0, 0, 0⟩ := by
  exact ⟨noHolds (by decide +kernel), by decide +kernel, by decide +kernel⟩

/-! ### C69: snapshot runs -/

theorem numbered_after (l : Nat) : ∀ (n : Nat) (bs : List Balance),
    (numbered n bs).filter (fun p => decide (l < p.1)) = numbered (n + (l + 1 - n)) (bs.drop (l + 1 - n)) := by
  intro n bs
  induction bs generalizing n with
  | nil => simp [numbered]
  | cons b bs ih =>
    rw [numbered, List.filter_cons]
    by_cases h : l < n
    · have e : l + 1 - n = 0 := by omega
      simp only [h, decide_true, if_true, e, Nat.add_zero, List.drop_zero, numbered]
      rw [ih (n + 1)]
      have e' : l + 1 - (n + 1) = 0 := by omega
      simp [e']
    · have e : l + 1 - n = (l + 1 - (n + 1)) + 1 := by omega
      simp only [h, decide_false, Bool.false_eq_true, if_false]
      rw [ih (n + 1), e, List.drop_succ_cons]
      congr 1
      omega

theorem numbered_take (k : Nat) : ∀ (n : Nat) (bs : List Balance), (numbered n bs).take k = numbered n (bs.take k) := by
  induction k with
  | zero => intro n bs; simp [numbered]
  | succ k ih =>
    intro n bs
    cases bs with
    | nil => simp [numbered]
    | cons b bs => simp [numbered, ih]

theorem numbered_last : ∀ (n : Nat) (bs : List Balance), (numbered n bs).getLast?.map (·.1) =
    if bs = [] then none else some (n + bs.length - 1) := by
  intro n bs
  induction bs generalizing n with
  | nil => simp [numbered]
  | cons b bs ih =>
    cases bs with
    | nil => simp [numbered]
    | cons c cs =>
      have := ih (n + 1)
      rw [numbered, show (numbered (n + 1) (c :: cs)) = (n + 1, c) :: numbered (n + 2) cs from rfl,
        List.getLast?_cons_cons, ← show (numbered (n + 1) (c :: cs)) = (n + 1, c) :: numbered (n + 2) cs from rfl, this]
      simp
      omega

theorem numbered_filter_map (q : String → Bool) : ∀ (n : Nat) (bs : List Balance),
    ((numbered n bs).filter (fun p => q p.2.id)).map (·.2) = bs.filter (fun b => q b.id) := by
  intro n bs
  induction bs generalizing n with
  | nil => rfl
  | cons b bs ih =>
    rw [numbered, List.filter_cons, List.filter_cons]
    split
    · rw [List.map_cons, ih]
    · exact ih _

theorem batchOf_eq {db : DB} {v : List Snapshot} {r : Run} {l : Nat} (h : r.last = some l) :
    batchOf db v r = ((db.balances.drop l).filter (fun b => !taken v r.time b.id)).take r.size := by
  unfold batchOf
  have e : (numbered 1 db.balances).filter (fun p => after r.last p.1 && !taken v r.time p.2.id) =
      ((numbered 1 db.balances).filter (fun p => decide (l < p.1))).filter (fun p => !taken v r.time p.2.id) := by
    rw [List.filter_filter]
    exact List.filter_congr fun p _ => by simp [h, after, Bool.and_comm]
  rw [e, numbered_after, List.map_take, numbered_filter_map (fun i => !taken v r.time i)]
  simp

theorem nextLast_eq {db : DB} {r : Run} {l : Nat} (h : r.last = some l) (hs : 0 < r.size) :
    nextLast db r = if db.balances.length ≤ l then none else some (l + min r.size (db.balances.length - l)) := by
  unfold nextLast
  have e : (numbered 1 db.balances).filter (fun p => after r.last p.1) =
      (numbered 1 db.balances).filter (fun p => decide (l < p.1)) :=
    List.filter_congr fun p _ => by simp [h, after]
  rw [e, numbered_after, numbered_take, numbered_last]
  have h1 : l + 1 - 1 = l := by omega
  rw [h1]
  by_cases hl : db.balances.length ≤ l
  · have : db.balances.drop l = [] := List.drop_eq_nil_of_le hl
    simp [this, hl]
  · have : ((db.balances.drop l).take r.size) ≠ [] := by
      intro hc
      have := congrArg List.length hc
      simp at this
      omega
    rw [if_neg this, if_neg hl, List.length_take, List.length_drop]
    congr 1
    omega

theorem mem_filter_take {α : Type} {q : α → Bool} {x : α} (hq : q x = true) : ∀ (l : List α) (n : Nat), x ∈ l.take n →
    x ∈ (l.filter q).take n := by
  intro l
  induction l with
  | nil => intro n h; simp at h
  | cons a l ih =>
    intro n h
    cases n with
    | zero => simp at h
    | succ n =>
      rw [List.take_succ_cons, List.mem_cons] at h
      rw [List.filter_cons]
      split
      · rw [List.take_succ_cons, List.mem_cons]
        rcases h with h | h
        · exact .inl h
        · exact .inr (ih n h)
      · rename_i ha
        rcases h with rfl | h
        · exact (ha hq).elim
        · exact (List.take_subset_take_left _ (Nat.le_succ n)) (ih n h)

/-- All balances before position `l` have a snapshot of the day among `v`. -/
def Covered (db : DB) (v : List Snapshot) (time l : Nat) : Prop :=
  ∀ i id, i < l → (ids db.balances)[i]? = some id → taken v time id = true

/-- A live run: where it stands, and that everything before is covered. -/
structure RunOk (db : DB) (snaps : List Snapshot) (r : Run) : Prop where
  size : 0 < r.size
  max : r.maxId ≤ db.balances.length
  stand : ∃ l, r.last = some l ∧ l ≤ db.balances.length ∧ Covered db (snaps ++ r.rows) r.time l

theorem taken_mono {v v' : List Snapshot} {t : Nat} {id : String} (h : ∀ s ∈ v, s ∈ v') (ht : taken v t id = true) :
    taken v' t id = true := by
  unfold taken at *
  rw [List.any_eq_true] at *
  obtain ⟨s, hs, he⟩ := ht
  exact ⟨s, h s hs, he⟩

theorem taken_shot {db : DB} {v : List Snapshot} {t : Nat} {b : Balance} (h : shot db t b ∈ v) : taken v t b.id = true := by
  unfold taken
  rw [List.any_eq_true]
  exact ⟨_, h, by simp [shot]⟩

theorem ids_get {bs : List Balance} {i : Nat} {id : String} (h : (ids bs)[i]? = some id) : ∃ b, bs[i]? = some b ∧ b.id = id := by
  unfold ids at h
  rw [List.getElem?_map] at h
  cases hb : bs[i]? with
  | none => rw [hb] at h; cases h
  | some b => rw [hb] at h; simp at h; exact ⟨b, rfl, h⟩

/-- One iteration: either the run goes on, further, or everything that existed at its start is covered. -/
theorem iterate_ok {db : DB} {snaps : List Snapshot} {r : Run} (h : RunOk db snaps r) :
    let p := iterate db snaps r
    p.1.time = r.time ∧ p.1.maxId = r.maxId ∧
    (if p.2 then Covered db (snaps ++ p.1.rows) r.time r.maxId
     else RunOk db snaps p.1 ∧ ∃ l l', r.last = some l ∧ p.1.last = some l' ∧ l < l' ∧ l' < r.maxId) := by
  intro p
  refine ⟨rfl, rfl, ?_⟩
  obtain ⟨l, hl, hlen, hcov⟩ := h.stand
  have hb := batchOf_eq (db := db) (v := snaps ++ r.rows) hl
  have hn := nextLast_eq (db := db) hl h.size
  have hrows : p.1.rows = r.rows ++ (batchOf db (snaps ++ r.rows) r).map (shot db r.time) := rfl
  have hlast : p.1.last = nextLast db r := rfl
  have hexit : p.2 = ((batchOf db (snaps ++ r.rows) r).isEmpty ||
      (match nextLast db r with | none => false | some l => decide (r.maxId ≤ l))) := rfl
  have hold : ∀ id, taken (snaps ++ r.rows) r.time id = true → taken (snaps ++ p.1.rows) r.time id = true := by
    intro id ht
    refine taken_mono (fun s hs => ?_) ht
    rw [hrows]
    rcases List.mem_append.1 hs with hs | hs
    · exact List.mem_append_left _ hs
    · exact List.mem_append_right _ (List.mem_append_left _ hs)
  -- everything in the window is covered afterwards
  have hwin : Covered db (snaps ++ p.1.rows) r.time (l + r.size) := by
    intro i id hi hid
    by_cases hil : i < l
    · exact hold id (hcov i id hil hid)
    · obtain ⟨b, hbi, rfl⟩ := ids_get hid
      by_cases ht : taken (snaps ++ r.rows) r.time b.id = true
      · exact hold _ ht
      · have hm : b ∈ (db.balances.drop l).take r.size := by
          rw [List.mem_iff_getElem?]
          refine ⟨i - l, ?_⟩
          rw [List.getElem?_take, if_pos (by omega), List.getElem?_drop]
          rw [show l + (i - l) = i by omega]; exact hbi
        have := mem_filter_take (q := fun b => !taken (snaps ++ r.rows) r.time b.id) (by simp [ht]) _ _ hm
        rw [← hb] at this
        apply taken_shot (db := db)
        rw [hrows]
        exact List.mem_append_right _ (List.mem_append_right _ (List.mem_map.2 ⟨b, this, rfl⟩))
  have hmaxcov : ∀ l', l' ≤ l + r.size ∨ db.balances.length ≤ l + r.size → Covered db (snaps ++ p.1.rows) r.time l' := by
    intro l' hor i id hi hid
    refine hwin i id ?_ hid
    rcases hor with h | h
    · omega
    · have := (List.getElem?_eq_some_iff.1 hid).1
      simp [ids] at this
      omega
  cases hx : p.2 with
  | true =>
    simp only [if_true]
    rw [hexit, Bool.or_eq_true] at hx
    rcases hx with hx | hx
    · -- nothing left to take
      have he : batchOf db (snaps ++ r.rows) r = [] := List.isEmpty_iff.1 hx
      intro i id hi hid
      by_cases hil : i < l
      · exact hold id (hcov i id hil hid)
      · obtain ⟨b, hbi, rfl⟩ := ids_get hid
        apply hold
        rw [hb] at he
        have hf : (db.balances.drop l).filter (fun b => !taken (snaps ++ r.rows) r.time b.id) = [] := by
          rcases List.take_eq_nil_iff.1 he with h0 | h0
          · have := h.size; omega
          · exact h0
        have := List.filter_eq_nil_iff.1 hf b (by
          rw [List.mem_iff_getElem?]
          exact ⟨i - l, by rw [List.getElem?_drop, show l + (i - l) = i by omega]; exact hbi⟩)
        simpa using this
    · rw [hn] at hx
      split at hx
      · cases hx
      · rename_i hle
        split at hle
        · cases hle
        · rename_i hlt
          cases hle
          simp only [decide_eq_true_eq] at hx
          exact hmaxcov _ (by omega)
  | false =>
    simp only [Bool.false_eq_true, if_false]
    rw [hexit, Bool.or_eq_false_iff] at hx
    obtain ⟨hne, hmx⟩ := hx
    have hlt : ¬ db.balances.length ≤ l := by
      intro hc
      rw [hb, List.drop_eq_nil_of_le hc] at hne
      simp at hne
    rw [hn, if_neg hlt] at hmx
    simp only [decide_eq_false_iff_not] at hmx
    have hsz := h.size
    refine ⟨⟨h.size, h.max, l + min r.size (db.balances.length - l), ?_, by omega, hmaxcov _ (by omega)⟩, l,
      l + min r.size (db.balances.length - l), hl, ?_, by omega, by omega⟩
    · rw [hlast, hn, if_neg hlt]
    · rw [hlast, hn, if_neg hlt]

theorem Covered.grow {db db' : DB} {v : List Snapshot} {t l : Nat} (h : Covered db v t l) (hl : l ≤ db.balances.length)
    (hp : ids db.balances <+: ids db'.balances) : Covered db' v t l := by
  intro i id hi hid
  refine h i id hi ?_
  obtain ⟨w, e⟩ := hp
  rw [← e, List.getElem?_append_left (by simp [ids]; omega)] at hid
  exact hid

theorem prefix_length {a b : List String} (h : a <+: b) : a.length ≤ b.length := h.length_le

theorem RunOk.grow {db db' : DB} {snaps snaps' : List Snapshot} {r : Run} (h : RunOk db snaps r)
    (hp : ids db.balances <+: ids db'.balances) (hs : ∀ s ∈ snaps, s ∈ snaps') : RunOk db' snaps' r := by
  have hlen : db.balances.length ≤ db'.balances.length := by
    have := prefix_length hp
    simpa [ids] using this
  obtain ⟨l, h1, h2, h3⟩ := h.stand
  refine ⟨h.size, by have := h.max; omega, l, h1, by omega, ?_⟩
  intro i id hi hid
  refine taken_mono (fun s hs' => ?_) (h3.grow h2 hp i id hi hid)
  rcases List.mem_append.1 hs' with h | h
  · exact List.mem_append_left _ (hs s h)
  · exact List.mem_append_right _ h

theorem step_runs {cfg : Cfg} {st : State} (h : ∀ r ∈ st.runs, RunOk st.db st.snaps r) (e : Ev) :
    ∀ r ∈ (step cfg st e).runs, RunOk (step cfg st e).db (step cfg st e).snaps r := by
  cases e with
  | act a =>
    intro r hr
    exact (h r hr).grow act_ids_prefix (fun s hs => hs)
  | start now size =>
    simp only [step]
    split
    · exact h
    · rename_i hsz
      intro r hr
      simp only [List.mem_append, List.mem_singleton] at hr
      rcases hr with hr | rfl
      · exact h r hr
      · exact ⟨by simp only; omega, Nat.le_refl _, 0, rfl, Nat.zero_le _, fun i id hi => by omega⟩
  | batch k =>
    simp only [step]
    split
    · exact h
    · rename_i r hr
      have hm := List.mem_of_getElem? hr
      obtain ⟨_, _, hit⟩ := iterate_ok (h r hm)
      split
      · intro r' hr'
        exact (h r' (List.mem_of_mem_eraseIdx hr')).grow List.prefix_rfl (fun s hs => List.mem_append_left _ hs)
      · rename_i hx
        rw [if_neg (by simpa using hx)] at hit
        intro r' hr'
        rcases List.mem_or_eq_of_mem_set hr' with hr' | rfl
        · exact h r' hr'
        · exact hit.1
  | abort k =>
    intro r hr
    exact h r (List.mem_of_mem_eraseIdx hr)

theorem exec_runs {cfg : Cfg} {es : List Ev} : ∀ {st : State}, (∀ r ∈ st.runs, RunOk st.db st.snaps r) →
    ∀ r ∈ (exec cfg st es).runs, RunOk (exec cfg st es).db (exec cfg st es).snaps r := by
  induction es with
  | nil => intro st h; exact h
  | cons e es ih => intro st h; exact ih (step_runs h e)

/-- **C69.** When a run commits, every balance that existed when it started (the first `maxId` rows)
has a snapshot of that day - for every batch size, and whatever postings, new balances and other runs
came in between. -/
theorem c69_commit_covers (cfg : Cfg) (es : List Ev) (k : Nat) (r : Run) (hk : (exec cfg {} es).runs[k]? = some r)
    (hx : (iterate (exec cfg {} es).db (exec cfg {} es).snaps r).2 = true) :
    ∀ b ∈ (exec cfg {} es).db.balances.take r.maxId,
      ∃ s ∈ (step cfg (exec cfg {} es) (.batch k)).snaps, s.balanceId = b.id ∧ day s.time = day r.time := by
  intro b hb
  have hok := exec_runs (cfg := cfg) (es := es) (st := {}) (by simp) r (List.mem_of_getElem? hk)
  obtain ⟨_, _, hit⟩ := iterate_ok hok
  rw [if_pos hx] at hit
  obtain ⟨i, hi, e⟩ := List.mem_iff_getElem.1 hb
  rw [List.length_take] at hi
  rw [List.getElem_take] at e
  have := hit i b.id (by omega) (by
    unfold ids
    rw [List.getElem?_map, List.getElem?_eq_getElem (by omega), e]; rfl)
  unfold taken at this
  rw [List.any_eq_true] at this
  obtain ⟨s, hs, he⟩ := this
  simp only [Bool.and_eq_true, decide_eq_true_eq] at he
  refine ⟨s, ?_, he⟩
  simp only [step, hk]
  rw [if_pos hx]
  exact hs

/-- Only ledger operations and iterations of the one run. -/
def Alone (e : Ev) : Prop := (∃ a, e = .act a) ∨ e = .batch 0

/-- How many iterations an execution makes. -/
def iterations : List Ev → Nat
  | [] => 0
  | .batch _ :: es => iterations es + 1
  | _ :: es => iterations es

theorem alone_inv {cfg : Cfg} {now n : Nat} {es : List Ev} : ∀ {st : State} {j : Nat}, (∀ e ∈ es, Alone e) →
    n ≤ st.db.balances.length →
    ((∃ r l, st.runs = [r] ∧ RunOk st.db st.snaps r ∧ r.time = now ∧ r.maxId = n ∧ r.last = some l ∧ j ≤ l ∧ (j = 0 ∨ l < n)) ∨
      st.runs = [] ∧ Covered st.db st.snaps now n) →
    let st' := exec cfg st es
    (∃ r l, st'.runs = [r] ∧ RunOk st'.db st'.snaps r ∧ r.time = now ∧ r.maxId = n ∧ r.last = some l ∧
        j + iterations es ≤ l ∧ (j + iterations es = 0 ∨ l < n)) ∨
      st'.runs = [] ∧ Covered st'.db st'.snaps now n := by
  induction es with
  | nil => intro st j _ _ h; exact h
  | cons e es ih =>
    intro st j ha hn h
    have ha' : ∀ e ∈ es, Alone e := fun x hx => ha x (List.mem_cons_of_mem _ hx)
    rcases ha e (by simp) with ⟨a, rfl⟩ | rfl
    · have hlen : st.db.balances.length ≤ (act cfg st.db a).balances.length := by
        have := prefix_length (act_ids_prefix (cfg := cfg) (db := st.db) (a := a))
        simpa [ids] using this
      refine ih (st := step cfg st (.act a)) (j := j) ha' (by show n ≤ (act cfg st.db a).balances.length; omega) ?_
      rcases h with ⟨r, l, h1, h2, h3⟩ | ⟨h1, h2⟩
      · exact .inl ⟨r, l, h1, h2.grow act_ids_prefix (fun s hs => hs), h3⟩
      · exact .inr ⟨h1, h2.grow hn act_ids_prefix⟩
    · rcases h with ⟨r, l, h1, h2, h3, h4, h5, h6, h7⟩ | ⟨h1, h2⟩
      · obtain ⟨_, _, hit⟩ := iterate_ok h2
        have hstep : step cfg st (.batch 0) = if (iterate st.db st.snaps r).2 then
            { st with snaps := st.snaps ++ (iterate st.db st.snaps r).1.rows, runs := [] }
            else { st with runs := [(iterate st.db st.snaps r).1] } := by
          simp only [step, h1]; rfl
        have hn' : n ≤ (step cfg st (.batch 0)).db.balances.length := by
          rw [hstep]; split <;> exact hn
        have key := ih (st := step cfg st (.batch 0)) (j := j + 1) ha' hn' (by
          rw [hstep]
          cases hx : (iterate st.db st.snaps r).2 with
          | true =>
            rw [hx] at hit
            simp only [if_true] at hit ⊢
            refine .inr ⟨trivial, ?_⟩
            rw [← h3, ← h4]; exact hit
          | false =>
            rw [hx] at hit
            simp only [Bool.false_eq_true, if_false] at hit ⊢
            obtain ⟨hok, l0, l', e1, e2, e3, e4⟩ := hit
            rw [h5] at e1; cases e1
            exact .inl ⟨_, l', rfl, hok, h3, h4, e2, by omega, .inr (by omega)⟩)
        have e : j + iterations (Ev.batch 0 :: es) = j + 1 + iterations es := by rw [iterations]; omega
        simp only [exec]
        rw [e]
        exact key
      · have hstep : step cfg st (.batch 0) = st := by simp only [step, h1]; rfl
        have key := ih (st := st) (j := j + 1) ha' hn (.inr ⟨h1, h2⟩)
        simp only [exec, hstep]
        have e : j + iterations (Ev.batch 0 :: es) = j + 1 + iterations es := by rw [iterations]; omega
        rw [e]
        exact key

/-- **C69.** A run that starts alone and is let finish covers every balance that existed at its start,
whatever is posted or created meanwhile; and it does finish, after at most one more iteration than
there were balances. -/
theorem c69_run_covers_and_ends (cfg : Cfg) (st : State) (hst : st.runs = []) (now size : Nat) (hsz : size ≠ 0)
    (es : List Ev) (ha : ∀ e ∈ es, Alone e) :
    let st' := exec cfg (step cfg st (.start now size)) es
    (st'.runs = [] → ∀ b ∈ st.db.balances, ∃ s ∈ st'.snaps, s.balanceId = b.id ∧ day s.time = day now) ∧
    (st.db.balances.length < iterations es → st'.runs = []) := by
  intro st'
  have hs : step cfg st (.start now size) =
      { st with runs := [{ time := now, size := size, maxId := st.db.balances.length }] } := by
    simp [step, hsz, hst]
  have hinit : ∀ r ∈ (step cfg st (.start now size)).runs, RunOk (step cfg st (.start now size)).db
      (step cfg st (.start now size)).snaps r := step_runs (by rw [hst]; simp) _
  have hpre : ∀ (es : List Ev) (st : State), ids st.db.balances <+: ids (exec cfg st es).db.balances := by
    intro es
    induction es with
    | nil => intro st; exact List.prefix_rfl
    | cons e es ih =>
      intro st
      refine List.IsPrefix.trans ?_ (ih (step cfg st e))
      cases e with
      | act a => exact act_ids_prefix
      | start => simp only [step]; split <;> exact List.prefix_rfl
      | batch k =>
        simp only [step]
        split
        · exact List.prefix_rfl
        · split <;> exact List.prefix_rfl
      | abort => exact List.prefix_rfl
  have key := alone_inv (cfg := cfg) (now := now) (n := st.db.balances.length) (es := es)
    (st := step cfg st (.start now size)) (j := 0) ha (by rw [hs]; exact Nat.le_refl _)
    (.inl ⟨{ time := now, size := size, maxId := st.db.balances.length }, 0, by rw [hs],
      hinit _ (by rw [hs]; simp), rfl, rfl, rfl, Nat.le_refl _, .inl rfl⟩)
  constructor
  · intro hend b hb
    rcases key with ⟨r, l, h1, _⟩ | ⟨_, hc⟩
    · rw [show (exec cfg (step cfg st (.start now size)) es).runs = [] from hend] at h1; cases h1
    · obtain ⟨i, hi, e⟩ := List.mem_iff_getElem.1 hb
      have hp := hpre es (step cfg st (.start now size))
      rw [hs] at hp
      obtain ⟨w, hw⟩ := hp
      have := hc i b.id hi (by
        rw [hs, ← hw, List.getElem?_append_left (by simp [ids]; omega)]
        unfold ids
        rw [List.getElem?_map, List.getElem?_eq_getElem (by omega), e]; rfl)
      unfold taken at this
      rw [List.any_eq_true] at this
      obtain ⟨s, hs', he⟩ := this
      simp only [Bool.and_eq_true, decide_eq_true_eq] at he
      exact ⟨s, hs', he⟩
  · intro hlt
    rcases key with ⟨r, l, h1, h2, h3, h4, h5, h6, h7⟩ | ⟨h, _⟩
    · omega
    · exact h

/-- A run with batches of one, a posting and a new balance arriving in between. -/
example : let st := exec {} {} (accounts ++ [send "t1" "r1" 10])
    let es : List Ev := [.batch 0, .act (.base (.create "c" "" "USD")), send "t2" "r2" 5, .batch 0]
    st.runs.isEmpty = true ∧ (exec {} (step {} st (.start noon 1)) es).runs.isEmpty = true ∧
    (exec {} (step {} st (.start noon 1)) es).snaps.map (fun s => (s.balanceId, s.balance)) = [("a", -10), ("b", 15)] := by
  decide +kernel

/-! At most one snapshot a day -/

/-- Runs start only when none is under way. -/
def Solo (cfg : Cfg) : State → List Ev → Prop
  | _, [] => True
  | st, e :: es => (∀ now size, e = .start now size → st.runs = []) ∧ Solo cfg (step cfg st e) es

def key (s : Snapshot) : String × Nat := (s.balanceId, day s.time)

/-- Every snapshot a run can see: committed, and its own. -/
def all (st : State) : List Snapshot := st.snaps ++ st.runs.flatMap (·.rows)

theorem taken_iff {v : List Snapshot} {t : Nat} {id : String} : taken v t id = true ↔ (id, day t) ∈ v.map key := by
  unfold taken key
  rw [List.any_eq_true, List.mem_map]
  constructor
  · rintro ⟨s, hs, h⟩
    simp only [Bool.and_eq_true, decide_eq_true_eq] at h
    exact ⟨s, hs, by simp [h.1, h.2]⟩
  · rintro ⟨s, hs, h⟩
    simp only [Prod.mk.injEq] at h
    exact ⟨s, hs, by simp [h.1, h.2]⟩

theorem batch_nodup {db : DB} {v : List Snapshot} {r : Run} (hn : (ids db.balances).Nodup) (hv : (v.map key).Nodup)
    {l : Nat} (hl : r.last = some l) : ((v ++ (batchOf db v r).map (shot db r.time)).map key).Nodup := by
  rw [List.map_append, List.map_map, List.nodup_append]
  refine ⟨hv, ?_, ?_⟩
  · rw [batchOf_eq hl]
    have hsub : ((db.balances.drop l).filter (fun b => !taken v r.time b.id)).take r.size |>.Sublist db.balances :=
      (List.take_sublist _ _).trans (List.filter_sublist.trans (List.drop_sublist _ _))
    have h1 : ((((db.balances.drop l).filter (fun b => !taken v r.time b.id)).take r.size).map (·.id)).Nodup :=
      (hsub.map _).nodup hn
    have e : (((db.balances.drop l).filter (fun b => !taken v r.time b.id)).take r.size).map (key ∘ shot db r.time) =
        ((((db.balances.drop l).filter (fun b => !taken v r.time b.id)).take r.size).map (·.id)).map (fun i => (i, day r.time)) := by
      rw [List.map_map]; rfl
    rw [e]
    exact List.Pairwise.map _ (fun a b hab h => hab (by simpa using h)) h1
  · rintro x hx y hy rfl
    obtain ⟨b, hb, e⟩ := List.mem_map.1 hy
    rw [batchOf_eq hl] at hb
    have := (List.mem_filter.1 (List.mem_of_mem_take hb)).2
    simp only [Bool.not_eq_true'] at this
    have hc : taken v r.time b.id = true := taken_iff.2 (by rw [← e] at hx; exact hx)
    rw [this] at hc
    cases hc

theorem flatMap_sublist {α β : Type} (f : α → List β) {a b : List α} (h : a.Sublist b) : (a.flatMap f).Sublist (b.flatMap f) := by
  induction h with
  | slnil => exact List.Sublist.refl _
  | cons x _ ih => rw [List.flatMap_cons]; exact ih.trans (List.sublist_append_right _ _)
  | cons_cons x _ ih => rw [List.flatMap_cons, List.flatMap_cons]; exact ih.append_left _

theorem solo_inv {cfg : Cfg} {H : String → Prop} {es : List Ev} : ∀ {st : State}, Reach cfg H st →
    (∀ r ∈ st.runs, RunOk st.db st.snaps r) → (∀ a ∈ ledger es, a.Respects H) → Solo cfg st es →
    st.runs.length ≤ 1 → ((all st).map key).Nodup →
    (exec cfg st es).runs.length ≤ 1 ∧ ((all (exec cfg st es)).map key).Nodup := by
  induction es with
  | nil => intro st _ _ _ _ h1 h2; exact ⟨h1, h2⟩
  | cons e es ih =>
    intro st hr hok hresp hsolo h1 h2
    have hr' : Reach cfg H (step cfg st e) := step_reach hr (by rintro a rfl; exact hresp a (by simp [ledger]))
    refine ih hr' (step_runs hok e) (fun a ha => hresp a (by cases e <;> simp [ledger, ha])) hsolo.2 ?_ ?_
    · cases e with
      | act a => exact h1
      | start now size =>
        simp only [step]
        split
        · exact h1
        · rw [hsolo.1 now size rfl]; simp
      | batch k =>
        simp only [step]
        split
        · exact h1
        · split
          · exact Nat.le_trans (List.length_eraseIdx_le _ _) h1
          · simpa using h1
      | abort k => exact Nat.le_trans (List.length_eraseIdx_le _ _) h1
    · cases e with
      | act a => exact h2
      | start now size =>
        simp only [step]
        split
        · exact h2
        · simpa [all] using h2
      | batch k =>
        simp only [step]
        split
        · exact h2
        · rename_i r hk
          have hm := List.mem_of_getElem? hk
          have hone : st.runs = [r] := by
            match hs : st.runs, h1, hk with
            | [x], _, hk => cases k with
              | zero => simp at hk ⊢; exact hk
              | succ k => simp at hk
            | x :: y :: l, h1, _ => simp at h1
            | [], _, hk => simp at hk
          have hk0 : k = 0 := by
            cases k with
            | zero => rfl
            | succ k => rw [hone] at hk; simp at hk
          subst hk0
          obtain ⟨l, hl, _⟩ := (hok r hm).stand
          obtain ⟨as, ha, e⟩ := hr.ledger
          have hnd : (ids st.db.balances).Nodup := by
            rw [e]; exact (acts_holdInv (cfg := cfg) (init_holdInv H) ha).inv.nodup
          have hv : ((st.snaps ++ r.rows).map key).Nodup := by
            simpa [all, hone] using h2
          have := batch_nodup hnd hv hl
          split
          · simp only [all, hone, List.eraseIdx_zero, List.tail_cons, List.flatMap_nil, List.append_nil]
            show ((st.snaps ++ (r.rows ++ (batchOf st.db (st.snaps ++ r.rows) r).map (shot st.db r.time))).map key).Nodup
            rw [← List.append_assoc]; exact this
          · simp only [all, hone, List.set_cons_zero, List.flatMap_cons, List.flatMap_nil, List.append_nil]
            show ((st.snaps ++ (r.rows ++ (batchOf st.db (st.snaps ++ r.rows) r).map (shot st.db r.time))).map key).Nodup
            rw [← List.append_assoc]; exact this
      | abort k =>
        have hsub : (all (step cfg st (.abort k))).Sublist (all st) := by
          simp only [all, step]
          exact List.Sublist.append_left (flatMap_sublist _ (List.eraseIdx_sublist _ _)) _
        exact (hsub.map key).nodup h2

/-- **C69.** As long as no two runs overlap, a balance has at most one snapshot a day, however often
runs are started, fail and are started again. Missing: `c69_overlapping_runs_fail`. -/
theorem c69_once_a_day_partial (cfg : Cfg) (H : String → Prop) (es : List Ev) (hr : ∀ a ∈ ledger es, a.Respects H)
    (hs : Solo cfg {} es) : ((exec cfg {} es).snaps.map (fun s => (s.balanceId, day s.time))).Nodup := by
  have := (solo_inv (init_reach cfg H) (by simp) hr hs (by simp) (by simp [all])).2
  simp only [all, List.map_append] at this
  exact (List.nodup_append.1 this).1

/-- Three runs on one day, the second rolled back after its first batch. -/
def repeated : List Ev := accounts ++ [.start noon 1, .batch 0, .batch 0, .act (.base (.create "c" "" "USD")),
  .start (noon + 1) 1, .batch 0, .abort 0, .start (noon + 2) 5, .batch 0]

example : Solo {} {} repeated ∧ (exec {} {} repeated).runs.isEmpty = true ∧
    (exec {} {} repeated).snaps.map (fun s => (s.balanceId, s.time - noon)) = [("a", 0), ("b", 0), ("c", 2)] := by
  refine ⟨?_, by decide +kernel, by decide +kernel⟩
  simp only [repeated, accounts, List.cons_append, List.nil_append, Solo]
  refine ⟨by simp, by simp, ?_, by simp, by simp, by simp, ?_, by simp, by simp, ?_, by simp, trivial⟩ <;>
    · intro _ _ _; exact List.isEmpty_iff.1 (by decide +kernel)

/-- The full claim. -/
def C69Full : Prop := ∀ (cfg : Cfg) (H : String → Prop) (es : List Ev), (∀ a ∈ ledger es, a.Respects H) →
  ((exec cfg {} es).snaps.map (fun s => (s.balanceId, day s.time))).Nodup

/-- Two overlapping runs store a balance's snapshot twice: neither sees what the other has not
committed, and the table has no unique index. -/
def overlapping : List Ev := accounts ++ [.start noon 1, .start noon 1, .batch 0, .batch 1, .batch 0, .batch 0]

theorem c69_overlapping_runs_fail : ¬ C69Full := by
  intro h
  have := h {} (fun _ => False) overlapping (noHolds (by decide +kernel))
  exact absurd this (by decide +kernel)

example : (exec {} {} overlapping).snaps.map (·.balanceId) = ["a", "b", "a"] := by decide +kernel

/-- Committed snapshots stay, unchanged and in place, over every execution. -/
theorem c69_snapshots_stay (cfg : Cfg) (es : List Ev) : ∀ st : State, st.snaps <+: (exec cfg st es).snaps := by
  induction es with
  | nil => intro st; exact List.prefix_rfl
  | cons e es ih =>
    intro st
    refine List.IsPrefix.trans ?_ (ih (step cfg st e))
    cases e with
    | act a => exact List.prefix_rfl
    | start => simp only [step]; split <;> exact List.prefix_rfl
    | batch k =>
      simp only [step]
      split
      · exact List.prefix_rfl
      · split
        · exact List.prefix_append _ _
        · exact List.prefix_rfl
    | abort => exact List.prefix_rfl

/-! ### C70: snapshots are not altered -/

theorem sqlEq_true {α : Type} [DecidableEq α] {a b : Option α} (h : sqlEq a b = true) : a = b ∧ b ≠ none := by
  cases a <;> cases b <;> simp [sqlEq] at h
  simp [h]

/-- **C70.** Whatever an update statement sets, if it goes through, every column but `meta_data` keeps
its value. -/
theorem c70_figures_kept (old new : Cols) (h : updateAllowed old new = true) :
    new = { old with metaData := new.metaData } := by
  unfold updateAllowed at h
  simp only [Bool.and_eq_true] at h
  obtain ⟨_, ⟨⟨⟨⟨⟨⟨⟨⟨⟨⟨⟨h1, h2⟩, h3⟩, h4⟩, h5⟩, h6⟩, h7⟩, h8⟩, h9⟩, h10⟩, h11⟩, h12⟩⟩ := h
  cases new; cases old
  simp only [Cols.mk.injEq]
  exact ⟨(sqlEq_true h1).1, (sqlEq_true h2).1, (sqlEq_true h3).1, (sqlEq_true h4).1, (sqlEq_true h5).1, (sqlEq_true h6).1,
    (sqlEq_true h7).1, (sqlEq_true h8).1, (sqlEq_true h9).1, (sqlEq_true h10).1, (sqlEq_true h11).1, (sqlEq_true h12).1, trivial⟩

/-- A stored snapshot: the columns declared NOT NULL (`sql/1740373196.sql:16-33`) have values. -/
def Stored (c : Cols) : Prop := c.balanceId ≠ none ∧ c.ledgerId ≠ none ∧ c.balance ≠ none ∧ c.credit ≠ none ∧
  c.debit ≠ none ∧ c.inflightBalance ≠ none ∧ c.inflightCredit ≠ none ∧ c.inflightDebit ≠ none ∧ c.currency ≠ none ∧
  c.time ≠ none ∧ c.createdAt ≠ none

theorem sqlEq_self {α : Type} [DecidableEq α] {a : Option α} (h : a ≠ none) : sqlEq a a = true := by
  cases a with
  | none => exact (h rfl).elim
  | some x => simp [sqlEq]

/-- **C70.** The metadata of a snapshot can be changed when the balance had a transaction by then.
Missing: `c70_full_fails`. -/
theorem c70_metadata_can_change_partial (old : Cols) (h : Stored old) (ht : old.lastTx ≠ none) (m : Option String)
    (hm : m ≠ old.metaData) : updateAllowed old { old with metaData := m } = true := by
  obtain ⟨h1, h2, h3, h4, h5, h6, h7, h8, h9, h10, h11⟩ := h
  simp [updateAllowed, sqlEq_self, *]

def exampleCols (tx : Option String) : Cols :=
  ⟨some "b", some "l", some 1, some 1, some 0, some 0, some 0, some 0, some "USD", some noon, some noon, tx, none⟩

example : Stored (exampleCols (some "t1")) ∧ updateAllowed (exampleCols (some "t1"))
    { exampleCols (some "t1") with metaData := some "{}" } = true := by
  refine ⟨?_, by decide +kernel⟩
  simp [Stored, exampleCols]

def C70Full : Prop := ∀ (old : Cols), Stored old → ∀ m, m ≠ old.metaData →
  updateAllowed old { old with metaData := m } = true

/-- The metadata of a snapshot of a balance without transactions can never be changed: its
`last_tx_id` is NULL, and NULL = NULL is not true. -/
theorem c70_full_fails : ¬ C70Full := by
  intro h
  have := h (exampleCols none) (by simp [Stored, exampleCols]) (some "{}") (by simp [exampleCols])
  exact absurd this (by decide +kernel)

end Blnk.Snap
