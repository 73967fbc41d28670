import Verif.Model.Queue
import Verif.Props.Refund
/-
C30: a queued submission has at most one outcome.
-/
namespace Blnk.Queue
open Blnk

/-- Statuses of a row that still waits for its outcome. -/
def waiting (t : Txn) : Prop := t.status = .queued ∨ t.status = .scheduled

theorem finalRow_settled (t : Txn) : ¬ waiting (finalRow t) := by
  unfold waiting
  rw [finalRow_status]
  unfold finalStatus
  split
  · simp
  · split <;> simp

/-- A batch that posts stores one settled row per member, under references that were free and are
pairwise different. -/
theorem recordBatch_posted_rows {cfg : Cfg} {db : DB} {ts rows : List Txn} (hi : Inv db)
    (h : (recordBatch cfg db ts).2 = .posted rows) :
    (ts.map (·.reference)).Nodup ∧ (∀ t ∈ ts, db.hasRef t.reference = false) ∧
    (recordBatch cfg db ts).1.txns = db.txns ++ rows ∧
    ∀ t ∈ ts, ∃ r ∈ rows, r.reference = t.reference ∧ ¬ waiting r := by
  obtain ⟨h1, h2, _⟩ := recordBatch_effect hi h
  have hrefs : rows.map (·.reference) = ts.map (·.reference) := by
    subst h1
    simp only [List.map_map]
    apply List.map_congr_left
    intro t _
    have := (finalRow_keeps (batchMember t)).1
    exact this
  have hinv : Inv (recordBatch cfg db ts).1 := step_inv hi (.batch ts)
  have hu := hinv.unique.refs
  rw [h2, List.map_append, List.nodup_append, hrefs] at hu
  refine ⟨hu.2.1, ?_, h2, ?_⟩
  · intro t ht
    cases hb : db.hasRef t.reference with
    | false => rfl
    | true =>
      obtain ⟨x, hx, e⟩ := hasRef_iff.1 hb
      exact absurd e (hu.2.2 _ (List.mem_map.2 ⟨x, hx, rfl⟩) _ (List.mem_map.2 ⟨t, ht, rfl⟩))
  · intro t ht
    refine ⟨finalRow (batchMember t), by rw [h1]; exact List.mem_map.2 ⟨_, List.mem_map.2 ⟨t, ht, rfl⟩, rfl⟩, ?_, finalRow_settled _⟩
    have := (finalRow_keeps (batchMember t)).1
    rw [this]; rfl

theorem recordSingle_posted_settled {cfg : Cfg} {db : DB} {t : Txn} {n1 n2 : String} {rows : List Txn}
    (h : (recordSingle cfg db t n1 n2).2 = .posted rows) :
    db.hasRef t.reference = false ∧
    ∃ r ∈ (recordSingle cfg db t n1 n2).1.txns, r.reference = t.reference ∧ ¬ waiting r := by
  unfold recordSingle at h ⊢
  split at h
  · cases h
  · rename_i db1 sid h1
    split at h
    · cases h
    · rename_i db2 did h2
      have e : db2.txns = db.txns := ((resolve_onlyOpened h1).trans (resolve_onlyOpened h2)).txns
      unfold postResolved at h ⊢
      split at h
      · cases h
      · cases h
      · rename_i w hw
        split at h
        · rename_i db' hp
          obtain ⟨_, _, _, rfl⟩ := persist_ok hp
          obtain ⟨hf, s, d, s', d', _, _, _, _, rfl⟩ := prepareSingle_some hw
          have k := finalRow_keeps { t with source := sid, destination := did }
          refine ⟨?_, finalRow { t with source := sid, destination := did }, by simp, k.1, finalRow_settled _⟩
          simp only [DB.hasRef, e] at hf; exact hf
        · cases h

/-- How the reference of a job relates to its submission. -/
def Traced (db : DB) (k : Key) (ref : String) : Prop :=
  ref = k.ref ∨ (ref = k.ref ++ "_q" ∧ ∃ q ∈ db.txns, q.reference = k.ref ∧ waiting q)

/-- What a logged outcome leaves behind. -/
def Landed (db : DB) (k : Key) : Prop :=
  (∃ r ∈ db.txns, r.reference = k.ref ∧ ¬ waiting r) ∨
  ((∃ r ∈ db.txns, r.reference = k.ref ++ "_q") ∧ ∃ q ∈ db.txns, q.reference = k.ref ∧ waiting q)

structure QInv (s : Sys) : Prop where
  inv : Inv s.db
  accepted : ∀ t ∈ s.accepted, waiting t
  tasks : ∀ k t, (k, t) ∈ s.tasks → Traced s.db k t.reference
  log : ∀ k v, (k, v) ∈ s.log → Landed s.db k
  once : (s.log.map (·.1)).Nodup

theorem Traced.mono {db db' : DB} {k : Key} {r : String} (h : ∀ t ∈ db.txns, t ∈ db'.txns) : Traced db k r → Traced db' k r
  | .inl e => .inl e
  | .inr ⟨e, q, hq, h2⟩ => .inr ⟨e, q, h q hq, h2⟩

theorem Landed.mono {db db' : DB} {k : Key} (h : ∀ t ∈ db.txns, t ∈ db'.txns) : Landed db k → Landed db' k
  | .inl ⟨r, hr, h2⟩ => .inl ⟨r, h r hr, h2⟩
  | .inr ⟨⟨r, hr, h2⟩, q, hq, h3⟩ => .inr ⟨⟨r, h r hr, h2⟩, q, h q hq, h3⟩

theorem Job.traced {s : Sys} (hi : QInv s) {k : Key} {t : Txn} : Job s k t → Traced s.db k t.reference
  | .task h => hi.tasks k t h
  | .copy newId hr hs => by
    rename_i row
    refine .inr ⟨?_, row, hr, rfl, .inl hs⟩
    have := (applyPrecision_keeps ({ row with allowOverdraft := false, overdraftLimit := 0, inflight := false, atomic := false, skipQueue := false, effectiveDate := 0 } : Txn)).2.2.2.2.1
    simp [queueCopy, restore, scan, keyOf, this]

/-- Rows are determined by their reference. -/
theorem row_unique {db : DB} (hu : UniqueRows db) {a b : Txn} (ha : a ∈ db.txns) (hb : b ∈ db.txns)
    (h : a.reference = b.reference) : a = b := by
  have := hu.refs
  generalize db.txns = l at *
  clear hu
  induction l with
  | nil => cases ha
  | cons x l ih =>
    simp only [List.map_cons, List.nodup_cons] at this
    rcases List.mem_cons.1 ha with ea | ha' <;> rcases List.mem_cons.1 hb with eb | hb'
    · rw [ea, eb]
    · exact absurd (List.mem_map.2 ⟨b, hb', by rw [← h, ea]⟩) this.1
    · exact absurd (List.mem_map.2 ⟨a, ha', by rw [h, eb]⟩) this.1
    · exact ih ha' hb' this.2

/-- Once a submission has its outcome, the reference of every further job for it is taken. -/
theorem landed_blocks {db : DB} (hu : UniqueRows db) {k : Key} {ref : String} (hl : Landed db k) (ht : Traced db k ref) :
    RefUsed db ref := by
  rcases ht with rfl | ⟨rfl, q, hq, e, hw⟩
  · rcases hl with ⟨r, hr, e, _⟩ | ⟨_, q, hq, e, _⟩
    · exact ⟨r, hr, e⟩
    · exact ⟨q, hq, e⟩
  · rcases hl with ⟨r, hr, e', hn⟩ | ⟨⟨r, hr, e'⟩, _⟩
    · exact absurd (row_unique hu hr hq (e'.trans e.symm) ▸ hw) hn
    · exact ⟨r, hr, e'⟩

theorem landed_of_row {db : DB} {k : Key} {ref : String} (ht : Traced db k ref) {db' : DB}
    (hm : ∀ t ∈ db.txns, t ∈ db'.txns) (hr : ∃ r ∈ db'.txns, r.reference = ref ∧ ¬ waiting r) : Landed db' k := by
  obtain ⟨r, hr, e, hn⟩ := hr
  rcases ht with rfl | ⟨rfl, q, hq, e', hw⟩
  · exact .inl ⟨r, hr, e, hn⟩
  · exact .inr ⟨⟨r, hr, e⟩, q, hm q hq, e', hw⟩

theorem persistQueued_spec (cfg : Cfg) (db : DB) (t : Txn) (n1 n2 : String) (hi : Inv db) :
    Inv (persistQueued cfg db t n1 n2).1 ∧
    (persistQueued cfg db t n1 n2).2.1.reference = t.reference ∧
    (persistQueued cfg db t n1 n2).2.1.status = t.status ∧
    (∀ x ∈ db.txns, x ∈ (persistQueued cfg db t n1 n2).1.txns) ∧
    ((persistQueued cfg db t n1 n2).2.2 = true →
      (persistQueued cfg db t n1 n2).2.1 ∈ (persistQueued cfg db t n1 n2).1.txns) := by
  unfold persistQueued
  split
  · exact ⟨hi, rfl, rfl, fun _ h => h, by simp⟩
  · rename_i db1 sid h1
    have i1 := resolve_inv hi h1
    have e1 := (resolve_onlyOpened h1).txns
    split
    · exact ⟨i1, rfl, rfl, fun x h => by rw [e1]; exact h, by simp⟩
    · rename_i db2 did h2
      have i2 := resolve_inv i1 h2
      have e2 : db2.txns = db.txns := by rw [(resolve_onlyOpened h2).txns, e1]
      split
      · simp only
        split
        · rename_i db3 h3
          have i3 : Inv db3 := by
            have := step_inv (cfg := cfg) i2 (.store { t with source := sid, destination := did, metaQueuedParent := t.id })
            simpa [step, h3] using this
          obtain ⟨_, _, rfl⟩ := insertTxn_ok h3
          exact ⟨i3, rfl, rfl, fun x h => by simp [e2, h], by simp⟩
        · exact ⟨i2, rfl, rfl, fun x h => by rw [e2]; exact h, by simp⟩
      · exact ⟨i2, rfl, rfl, fun x h => by rw [e2]; exact h, by simp⟩

theorem act_inv {cfg : Cfg} {db : DB} {a : Act} (hi : Inv db) : Inv (act cfg db a) := by
  cases a with
  | base op => exact step_inv hi op
  | commit id amt newId ref n1 n2 =>
    simp only [act, commitInflight]
    split
    · exact hi
    · split
      · exact hi
      · exact recordSingle_inv hi
  | void id newId ref n1 n2 =>
    simp only [act, voidInflight]
    split
    · exact hi
    · split
      · exact hi
      · exact recordSingle_inv hi

theorem grow {db db' : DB} (h : ∃ new, db'.txns = db.txns ++ new) : ∀ t ∈ db.txns, t ∈ db'.txns := by
  obtain ⟨new, e⟩ := h
  intro t ht; rw [e]; exact List.mem_append_left _ ht

theorem step_qinv {cfg : Cfg} {s s' : Sys} (hi : QInv s) (h : Step cfg s s') : QInv s' := by
  cases h with
  | other a =>
    have g := grow (act_txns cfg s.db a)
    exact ⟨act_inv hi.inv, hi.accepted, fun k t h => (hi.tasks k t h).mono g, fun k v h => (hi.log k v h).mono g, hi.once⟩
  | accept t ht =>
    refine ⟨hi.inv, ?_, hi.tasks, hi.log, hi.once⟩
    intro x hx
    rcases List.mem_cons.1 hx with rfl | hx
    · have := (applyPrecision_keeps t).2.2.1
      unfold waiting submit
      simp only [this, ht]
      split <;> simp
    · exact hi.accepted x hx
  | persist t n1 n2 newId e ht he =>
    obtain ⟨i, hr, hst, g, hin⟩ := persistQueued_spec cfg s.db t n1 n2 hi.inv
    refine ⟨i, hi.accepted, ?_, fun k v h => (hi.log k v h).mono g, hi.once⟩
    intro k x hx
    have old : (k, x) ∈ s.tasks → Traced (persistQueued cfg s.db t n1 n2).1 k x.reference :=
      fun h => (hi.tasks k x h).mono g
    cases e with
    | nothing => exact old hx
    | original =>
      rcases List.mem_cons.1 hx with h | h
      · simp only [Prod.mk.injEq] at h
        obtain ⟨rfl, rfl⟩ := h
        exact .inl hr
      · exact old h
    | copy =>
      rcases List.mem_cons.1 hx with h | h
      · simp only [Prod.mk.injEq] at h
        obtain ⟨rfl, rfl⟩ := h
        refine .inr ⟨by simp [queueCopy, hr, keyOf], _, hin (he rfl), hr, ?_⟩
        unfold waiting; rw [hst]; exact hi.accepted t ht
      · exact old h
  | single k t n1 n2 hj =>
    have g := grow (recordSingle_txns cfg s.db t n1 n2)
    have tr := hj.traced hi
    refine ⟨recordSingle_inv hi.inv, hi.accepted, fun k t h => (hi.tasks k t h).mono g, ?_, ?_⟩
    · intro k' v h
      rcases List.mem_append.1 h with h | h
      · exact (hi.log k' v h).mono g
      · cases ho : (recordSingle cfg s.db t n1 n2).2 with
        | posted rows =>
          simp only [ho, outcome, List.map_cons, List.map_nil, List.mem_singleton, Prod.mk.injEq] at h
          obtain ⟨rfl, rfl⟩ := h
          exact landed_of_row tr g (recordSingle_posted_settled ho).2
        | discarded => simp [ho, outcome] at h
        | refused e => simp [ho, outcome] at h
    · cases ho : (recordSingle cfg s.db t n1 n2).2 with
      | posted rows =>
        simp only [outcome, List.map_append, List.map_cons, List.map_nil]
        rw [List.nodup_append]
        refine ⟨hi.once, by simp, ?_⟩
        intro a ha b hb
        simp only [List.mem_singleton] at hb
        subst hb
        rintro rfl
        obtain ⟨⟨k', v⟩, hm, e⟩ := List.mem_map.1 ha
        simp only at e; subst e
        have := hasRef_iff.2 (landed_blocks hi.inv.unique (hi.log _ _ hm) tr)
        rw [(recordSingle_posted_settled ho).1] at this; cases this
      | discarded => simpa [ho, outcome] using hi.once
      | refused e => simpa [ho, outcome] using hi.once
  | batch js hj =>
    have g := grow (step_txns cfg s.db (.batch (js.map (·.2))))
    simp only [step] at g
    refine ⟨step_inv (cfg := cfg) hi.inv (.batch (js.map Prod.snd)), hi.accepted,
      fun k t h => (hi.tasks k t h).mono g, ?_, ?_⟩
    · intro k' v h
      rcases List.mem_append.1 h with h | h
      · exact (hi.log k' v h).mono g
      · cases ho : (recordBatch cfg s.db (js.map (·.2))).2 with
        | posted rows =>
          obtain ⟨_, _, h3, h4⟩ := recordBatch_posted_rows hi.inv ho
          simp only [ho, outcome, List.map_map, List.mem_map, Function.comp, Prod.mk.injEq] at h
          obtain ⟨j, hjm, rfl, rfl⟩ := h
          obtain ⟨r, hr, e, hn⟩ := h4 j.2 (List.mem_map.2 ⟨j, hjm, rfl⟩)
          exact landed_of_row ((hj j hjm).traced hi) g ⟨r, by rw [h3]; exact List.mem_append_right _ hr, e, hn⟩
        | discarded => simp [ho, outcome] at h
        | refused e => simp [ho, outcome] at h
    · cases ho : (recordBatch cfg s.db (js.map (·.2))).2 with
      | posted rows =>
        obtain ⟨h1, h2, _, _⟩ := recordBatch_posted_rows hi.inv ho
        simp only [outcome, List.map_append, List.map_map]
        have em : List.map ((fun x : Key × Verdict => x.1) ∘ (fun x : Key => (x, Verdict.applied)) ∘ fun x : Key × Txn => x.1) js
            = js.map (·.1) := rfl
        rw [List.nodup_append]
        refine ⟨hi.once, ?_, ?_⟩
        · rw [em]
          -- equal keys force equal references, which the batch refuses
          have key : ∀ a ∈ js, ∀ b ∈ js, a.1 = b.1 → a.2.reference = b.2.reference := by
            intro a ha b hb e
            have ta := (hj a ha).traced hi
            have tb := (hj b hb).traced hi
            have fa := h2 a.2 (List.mem_map.2 ⟨a, ha, rfl⟩)
            have fb := h2 b.2 (List.mem_map.2 ⟨b, hb, rfl⟩)
            rw [e] at ta
            rcases ta with ta | ⟨ta, q, hq, e1, _⟩ <;> rcases tb with tb | ⟨tb, q', hq', e2, _⟩
            · rw [ta, tb]
            · rw [ta, hasRef_iff.2 ⟨q', hq', e2⟩] at fa; cases fa
            · rw [tb, hasRef_iff.2 ⟨q, hq, e1⟩] at fb; cases fb
            · rw [ta, tb]
          have hp : js.Pairwise (fun a b => a.2.reference ≠ b.2.reference) := by
            rw [List.map_map] at h1
            exact List.pairwise_map.1 h1
          exact List.pairwise_map.2 (hp.imp_of_mem (fun ha hb hne e => hne (key _ ha _ hb e)))
        · intro a ha b hb
          rw [em] at hb
          rintro rfl
          obtain ⟨⟨k', v⟩, hm, e⟩ := List.mem_map.1 ha
          simp only at e; subst e
          obtain ⟨j, hjm, rfl⟩ := List.mem_map.1 hb
          have := hasRef_iff.2 (landed_blocks hi.inv.unique (hi.log _ _ hm) ((hj j hjm).traced hi))
          rw [h2 j.2 (List.mem_map.2 ⟨j, hjm, rfl⟩)] at this; cases this
      | discarded => simpa [ho, outcome] using hi.once
      | refused e => simpa [ho, outcome] using hi.once
  | reject k t hj =>
    have g := grow (step_txns cfg s.db (.store (rejectedRow t)))
    have tr := hj.traced hi
    refine ⟨step_inv hi.inv _, hi.accepted, fun k t h => (hi.tasks k t h).mono g, ?_, ?_⟩
    · intro k' v h
      rcases List.mem_append.1 h with h | h
      · exact (hi.log k' v h).mono g
      · cases hs : s.db.insertTxn (rejectedRow t) with
        | error e => simp [step, hs] at h
        | ok db' =>
          simp only [step, hs, List.mem_singleton, Prod.mk.injEq] at h ⊢
          obtain ⟨rfl, rfl⟩ := h
          simp only [step, hs] at g
          obtain ⟨_, _, rfl⟩ := insertTxn_ok hs
          exact landed_of_row tr g ⟨rejectedRow t, by simp, rfl, by simp [waiting, rejectedRow]⟩
    · cases hs : s.db.insertTxn (rejectedRow t) with
      | error e => simpa [step, hs] using hi.once
      | ok db' =>
        obtain ⟨_, hf, _⟩ := insertTxn_ok hs
        simp only [step, hs, List.map_append, List.map_cons, List.map_nil]
        rw [List.nodup_append]
        refine ⟨hi.once, by simp, ?_⟩
        intro a ha b hb
        simp only [List.mem_singleton] at hb
        subst hb
        rintro rfl
        obtain ⟨⟨k', v⟩, hm, e⟩ := List.mem_map.1 ha
        simp only at e; subst e
        have := hasRef_iff.2 (landed_blocks hi.inv.unique (hi.log _ _ hm) tr)
        have e2 : (rejectedRow t).reference = t.reference := rfl
        rw [e2, this] at hf; cases hf

theorem reach_qinv {cfg : Cfg} {s : Sys} (h : Reach cfg s) : QInv s := by
  induction h with
  | init => exact ⟨init_inv, by simp, by simp, by simp, by simp⟩
  | step _ hs ih => exact step_qinv ih hs

/-- **C30, one outcome.** However many times tasks are delivered, copies are made by coalescing
and recovery, workers stop half-way and enqueues fail or repeat, a submission is applied at most
once, rejected at most once, and never both. -/
theorem c30_at_most_one_outcome (cfg : Cfg) (s : Sys) (h : Reach cfg s) (k : Key) :
    (s.log.filter (fun e => e.1 = k)).length ≤ 1 := by
  have := (reach_qinv h).once
  generalize s.log = l at *
  induction l with
  | nil => simp
  | cons e l ih =>
    simp only [List.map_cons, List.nodup_cons] at this
    simp only [List.filter_cons]
    split
    · rename_i he
      simp only [decide_eq_true_eq] at he
      have : l.filter (fun e => e.1 = k) = [] := by
        rw [List.filter_eq_nil_iff]
        intro x hx e2
        simp only [decide_eq_true_eq] at e2
        exact this.1 (List.mem_map.2 ⟨x, hx, by rw [e2, he]⟩)
      simp [this]
    · exact ih this.2

/-- **C30, balances.** Every attempt for a submission that already has its outcome is refused and
changes no balance and no row, whether it is tried on its own, in a batch, or as a rejection. -/
theorem c30_later_attempts_change_nothing (cfg : Cfg) (s : Sys) (h : Reach cfg s) (k : Key) (v : Verdict)
    (hk : (k, v) ∈ s.log) (t : Txn) (hj : Job s k t) :
    (∀ n1 n2, OnlyOpened s.db (recordSingle cfg s.db t n1 n2).1 ∧
      ∀ rows, (recordSingle cfg s.db t n1 n2).2 ≠ .posted rows) ∧
    (∀ ts, t ∈ ts → (recordBatch cfg s.db ts).1 = s.db ∧ ∀ rows, (recordBatch cfg s.db ts).2 ≠ .posted rows) ∧
    (step cfg s.db (.store (rejectedRow t))).1 = s.db := by
  have hi := reach_qinv h
  have hb := hasRef_iff.2 (landed_blocks hi.inv.unique (hi.log _ _ hk) (hj.traced hi))
  refine ⟨?_, ?_, ?_⟩
  · intro n1 n2
    have hno : ∀ rows, (recordSingle cfg s.db t n1 n2).2 ≠ .posted rows := by
      intro rows ho
      rw [(recordSingle_posted_settled ho).1] at hb; cases hb
    exact ⟨c05_refused_changes_nothing cfg s.db (.post t n1 n2) hno, hno⟩
  · intro ts ht
    rcases recordBatch_cases (cfg := cfg) (ts := ts) hi.inv with h | ⟨h, _⟩
    · exact h
    · obtain ⟨_, h2, _⟩ := recordBatch_posted_rows hi.inv h
      rw [h2 t ht] at hb; cases hb
  · have e2 : (rejectedRow t).reference = t.reference := rfl
    cases hs : s.db.insertTxn (rejectedRow t) with
    | error e => simp [step, hs]
    | ok db' =>
      obtain ⟨_, hf, _⟩ := insertTxn_ok hs
      rw [e2, hb] at hf; cases hf

/-- What an attempt has in common with what was submitted. -/
structure Faithful (a t : Txn) : Prop where
  currency : t.currency = a.currency
  amount : ∀ p, a.preciseAmount = some p → 0 < p → t.preciseAmount = some p
  source : isIndicator a.source = false → t.source = a.source
  destination : isIndicator a.destination = false → t.destination = a.destination

theorem resolve_plain {db db' : DB} {i c n r : String} (h : db.resolve i c n = .ok (db', r)) (hi : isIndicator i = false) :
    r = i := by
  simp [DB.resolve, hi] at h
  exact h.2.symm

theorem persistQueued_faithful (cfg : Cfg) (db : DB) (t : Txn) (n1 n2 : String) :
    Faithful t (persistQueued cfg db t n1 n2).2.1 := by
  have same : Faithful t t := ⟨rfl, fun _ h _ => h, fun _ => rfl, fun _ => rfl⟩
  unfold persistQueued
  split
  · exact same
  · rename_i db1 sid h1
    split
    · exact same
    · rename_i db2 did h2
      split
      · simp only
        split <;> exact ⟨rfl, fun _ h _ => h, fun hi => resolve_plain h1 hi, fun hi => resolve_plain h2 hi⟩
      · exact same

theorem scan_faithful (row : Txn) (newId : String) : Faithful row (queueCopy (restore (scan row)) newId) := by
  have k := applyPrecision_keeps ({ row with allowOverdraft := false, overdraftLimit := 0, inflight := false, atomic := false, skipQueue := false, effectiveDate := 0 } : Txn)
  refine ⟨by simp [queueCopy, restore, scan, k], ?_, by simp [queueCopy, restore, scan, k], by simp [queueCopy, restore, scan, k]⟩
  intro p hp h0
  have := applyPrecision_precise (t := ({ row with allowOverdraft := false, overdraftLimit := 0, inflight := false, atomic := false, skipQueue := false, effectiveDate := 0 } : Txn)) hp h0
  simpa [queueCopy, restore, scan] using this

/-- The submission itself: accepted, or stored as a row that waits. -/
def Submitted (s : Sys) (k : Key) (a : Txn) : Prop :=
  keyOf a = k ∧ (a ∈ s.accepted ∨ (a ∈ s.db.txns ∧ a.status = .queued))

theorem reach_tasks_faithful {cfg : Cfg} {s : Sys} (h : Reach cfg s) : ∀ k t, (k, t) ∈ s.tasks →
    ∃ a, a ∈ s.accepted ∧ keyOf a = k ∧ Faithful a t := by
  induction h with
  | init => simp
  | step _ hs ih =>
    cases hs with
    | other a => exact ih
    | accept t ht =>
      intro k x hx
      obtain ⟨a, ha, e, f⟩ := ih k x hx
      exact ⟨a, List.mem_cons_of_mem _ ha, e, f⟩
    | persist t n1 n2 newId e ht he =>
      intro k x hx
      have f := fun db => persistQueued_faithful cfg db t n1 n2
      cases e with
      | nothing => exact ih k x hx
      | original =>
        rcases List.mem_cons.1 hx with h | h
        · simp only [Prod.mk.injEq] at h
          obtain ⟨rfl, rfl⟩ := h
          exact ⟨t, ht, rfl, f _⟩
        · exact ih k x h
      | copy =>
        rcases List.mem_cons.1 hx with h | h
        · simp only [Prod.mk.injEq] at h
          obtain ⟨rfl, rfl⟩ := h
          exact ⟨t, ht, rfl, ⟨(f _).currency, (f _).amount, (f _).source, (f _).destination⟩⟩
        · exact ih k x h
    | single k t n1 n2 hj => exact ih
    | batch js hj => exact ih
    | reject k t hj => exact ih

/-- **C30, what is applied.** Whatever is attempted for a submission, by whichever path, carries
the submitted amount and currency and the submitted parties (indicators aside, which are resolved
to their accounts). -/
theorem c30_attempts_carry_submission (cfg : Cfg) (s : Sys) (h : Reach cfg s) (k : Key) (t : Txn) (hj : Job s k t) :
    ∃ a, Submitted s k a ∧ Faithful a t := by
  cases hj with
  | task hm =>
    obtain ⟨a, ha, e, f⟩ := reach_tasks_faithful h k t hm
    exact ⟨a, ⟨e, .inl ha⟩, f⟩
  | copy newId hr hs => exact ⟨_, ⟨rfl, .inr ⟨hr, hs⟩⟩, scan_faithful _ _⟩

/-- A payment of 7.00 as the client sends it. -/
def demoSubmission : Txn :=
  { id := "p", source := "a", destination := "b", reference := "r", amount := 7, precision := 100, allowOverdraft := true }

def demoOpened : Sys := { db := act {} (act {} {} (.base (.create "a" "" "USD"))) (.base (.create "b" "" "USD"))
                          others := [.base (.create "b" "" "USD"), .base (.create "a" "" "USD")] }
def demoAccepted : Sys := { demoOpened with accepted := [submit demoSubmission] }
def demoStored : Sys := { demoAccepted with
  db := (persistQueued {} demoAccepted.db (submit demoSubmission) "x" "y").1
  tasks := [(⟨"p", "r"⟩, queueCopy (persistQueued {} demoAccepted.db (submit demoSubmission) "x" "y").2.1 "c")] }
def demoTask : Txn := queueCopy (persistQueued {} demoAccepted.db (submit demoSubmission) "x" "y").2.1 "c"
def demoApplied : Sys := { demoStored with
  db := (recordSingle {} demoStored.db demoTask "x" "y").1
  log := demoStored.log ++ outcome [⟨"p", "r"⟩] (recordSingle {} demoStored.db demoTask "x" "y").2 }

theorem demo_reach : Reach {} demoApplied := by
  have h1 : Reach {} demoOpened := (Reach.init.step (.other {} (.base (.create "a" "" "USD")))).step (.other _ (.base (.create "b" "" "USD")))
  have h2 : Reach {} demoAccepted := h1.step (.accept _ demoSubmission rfl)
  have h3 : Reach {} demoStored := h2.step
    (.persist demoAccepted (submit demoSubmission) "x" "y" "c" .copy (by simp [demoAccepted]) (fun _ => by decide +kernel))
  exact h3.step (.single demoStored ⟨"p", "r"⟩ demoTask "x" "y" (.task (by simp [demoStored, demoTask])))

/-- A delivery of the demo task, a second delivery, and a recovery copy of the same row. -/
example : demoApplied.log = [(⟨"p", "r"⟩, .applied)] ∧
    balancesOf demoApplied.db = [("a", -700, 0, 700), ("b", 700, 700, 0)] ∧
    balancesOf (recordSingle {} demoApplied.db demoTask "x" "y").1 = balancesOf demoApplied.db ∧
    (demoApplied.db.txns.map (fun t => (t.id, t.parent, t.status))) = [("p", "", .queued), ("c", "p", .applied)] := by
  decide +kernel

example : Job demoApplied ⟨"p", "r"⟩ demoTask := .task (by simp [demoApplied, demoStored, demoTask])

example : ∃ t, Job demoApplied ⟨"p", "r"⟩ t ∧ t.id = "fresh" ∧ t.reference = "r_q" := by
  have hm : (persistQueued {} demoAccepted.db (submit demoSubmission) "x" "y").2.1 ∈ demoApplied.db.txns := by decide +kernel
  exact ⟨_, .copy "fresh" hm (by decide +kernel), rfl, by decide +kernel⟩

end Blnk.Queue
