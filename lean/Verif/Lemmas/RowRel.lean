import Verif.Lemmas.Effects
/-
Helper lemmas: lifting a relation on one balance from the balance arithmetic to
whole postings, batches and runs.
-/
namespace Blnk

/-- A relation on balances that every application of an admissible transaction
respects, and that does not look at the version or the queued total. -/
structure RowRel (P : Txn → Prop) (R : Balance → Balance → Prop) : Prop where
  refl : ∀ b, R b b
  trans : ∀ a b c, b.id = a.id → R a b → R b c → R a c
  src : ∀ t s s', P t → s.Consistent → 0 ≤ s.queuedDebit.getD 0 → s.id = t.source →
    applySource t s = .ok s' → R s s'
  dst : ∀ t s s', P t → (t.Plain → t.applyPrecision.validate = .ok ()) → s.Consistent → s.id = t.destination →
    applyDestination t s = .ok s' → R s s'
  queued : ∀ (r : Balance) q b, R { r with queuedDebit := q } b → R r b
  write : ∀ r b : Balance, r.id = b.id → R r b → R r (r.writeBack b)

theorem source_validated {t : Txn} {s s' : Balance} (h : applySource t s = .ok s') :
    t.Plain → t.applyPrecision.validate = .ok () :=
  fun hp => ((applySource_plain hp.1 hp.2).1 h).1

/-- Stored queued rows never carry a negative amount. -/
def QueuedNonneg (db : DB) : Prop := ∀ t ∈ db.txns, t.status = .queued → 0 ≤ t.preciseAmount.getD 0

theorem sum_nonneg : ∀ {l : List Int}, (∀ x ∈ l, 0 ≤ x) → 0 ≤ l.sum
  | [], _ => by simp
  | x :: l, h => by
    have h1 := h x (by simp)
    have h2 := sum_nonneg (l := l) (fun y hy => h y (List.mem_cons_of_mem _ hy))
    simp; omega

theorem queuedDebit_nonneg {db : DB} (h : QueuedNonneg db) (i : String) : 0 ≤ db.queuedDebit i := by
  apply sum_nonneg
  intro x hx
  obtain ⟨t, ht, rfl⟩ := List.mem_map.1 hx
  rw [List.mem_filter] at ht
  simp only [Bool.and_eq_true, decide_eq_true_eq] at ht
  exact h t ht.1 ht.2.1.2

theorem load_queued {cfg : Cfg} {db : DB} {i : String} {b : Balance} (hq : QueuedNonneg db)
    (h : db.load cfg i = .ok b) : 0 ≤ b.queuedDebit.getD 0 := by
  obtain ⟨r, _, _, _, rfl⟩ := load_ok h
  simp only
  split
  · exact queuedDebit_nonneg hq i
  · simp

/-- Balances in memory related to the balances they were loaded as, id by id. -/
def MemRel (R : Balance → Balance → Prop) (bs bs' : List Balance) : Prop :=
  ∀ x ∈ bs', ∃ o ∈ bs, o.id = x.id ∧ R o x ∧ o.queuedDebit = x.queuedDebit

theorem MemRel.trans {P R} (hR : RowRel P R) {a b c : List Balance} (h1 : MemRel R a b) (h2 : MemRel R b c) : MemRel R a c := by
  intro x hx
  obtain ⟨y, hy, e1, r1, q1⟩ := h2 x hx
  obtain ⟨z, hz, e2, r2, q2⟩ := h1 y hy
  exact ⟨z, hz, e2.trans e1, hR.trans z y x e2.symm r2 r1, q2.trans q1⟩

theorem applyInMemory_rel {P R} (hR : RowRel P R) {t : Txn} {bs bs' : List Balance} (hP : P t)
    (hc : ∀ b ∈ bs, b.Consistent) (hq : ∀ b ∈ bs, 0 ≤ b.queuedDebit.getD 0)
    (h : applyInMemory t bs = .ok bs') : MemRel R bs bs' := by
  unfold applyInMemory at h
  split at h
  · rename_i s d hs hd
    obtain ⟨ms, is⟩ := find_mem hs
    obtain ⟨md, id'⟩ := find_mem hd
    split at h
    · rename_i he
      split at h
      · cases h
      · rename_i b hb
        cases h
        obtain ⟨m, a1, a2⟩ := applyToAliased_inv hb
        have e1 := applySource_effect a1
        have e2 := applyDestination_effect a2
        intro x hx
        rcases putBalance_mem hx with ⟨hx, _⟩ | rfl
        · exact ⟨x, hx, rfl, hR.refl x, rfl⟩
        · refine ⟨s, ms, (e2.id.trans e1.id).symm, ?_, (e2.queued.trans e1.queued).symm⟩
          exact hR.trans s m _ e1.id (hR.src t s m hP (hc s ms) (hq s ms) is a1)
            (hR.dst t m _ hP (source_validated a1) (applySource_consistent a1 (hc s ms)) (e1.id.trans (is.trans he)) a2)
    · split at h
      · cases h
      · rename_i s' d' ha
        cases h
        obtain ⟨a1, a2⟩ := applyToBalances_inv ha
        have e1 := applySource_effect a1
        have e2 := applyDestination_effect a2
        intro x hx
        rcases putBalance_mem hx with ⟨hx, _⟩ | rfl
        · rcases putBalance_mem hx with ⟨hx, _⟩ | rfl
          · exact ⟨x, hx, rfl, hR.refl x, rfl⟩
          · exact ⟨s, ms, e1.id.symm, hR.src t s _ hP (hc s ms) (hq s ms) is a1, e1.queued.symm⟩
        · exact ⟨d, md, e2.id.symm, hR.dst t d _ hP (source_validated a1) (hc d md) id' a2, e2.queued.symm⟩
  · cases h

theorem MemRel.consistentQ {R} {bs bs' : List Balance} (h : MemRel R bs bs')
    (hq : ∀ b ∈ bs, 0 ≤ b.queuedDebit.getD 0) : ∀ b ∈ bs', 0 ≤ b.queuedDebit.getD 0 := by
  intro b hb
  obtain ⟨o, ho, _, _, e⟩ := h b hb
  rw [← e]; exact hq o ho

theorem prepareMembers_rel {P R} (hR : RowRel P R) {db : DB} : ∀ {ts : List Txn} {refs : List String}
    {bs : List Balance} {rows : List Txn} {bs' : List Balance}, (ids bs).Nodup →
    (∀ t ∈ ts, P (batchMember t)) → (∀ b ∈ bs, b.Consistent) → (∀ b ∈ bs, 0 ≤ b.queuedDebit.getD 0) →
    prepareMembers db ts refs bs = .ok (rows, bs') → MemRel R bs bs' := by
  intro ts
  induction ts with
  | nil =>
    intro refs bs rows bs' _ _ _ _ h
    simp [prepareMembers] at h
    rw [← h.2]
    intro x hx
    exact ⟨x, hx, rfl, hR.refl x, rfl⟩
  | cons t ts ih =>
    intro refs bs rows bs' hn hP hc hq h
    obtain ⟨_, _, _, _, mid, rest, hm, hp, _⟩ := prepareMembers_cons h
    have s1 := applyInMemory_step hn hm
    have r1 := applyInMemory_rel hR (hP t (by simp)) hc hq hm
    have r2 := ih (by rw [s1.ids]; exact hn) (fun t ht => hP t (List.mem_cons_of_mem _ ht))
      (s1.consistent hc) (r1.consistentQ hq) hp
    exact MemRel.trans hR r1 r2

/-- Rows after an operation: related to an old row of the same id, or one of the
new zero rows. -/
def RowsRel (R : Balance → Balance → Prop) (new : Balance → Prop) (old' new' : List Balance) : Prop :=
  ∀ x ∈ new', (∃ o ∈ old', o.id = x.id ∧ o.indicator = x.indicator ∧ R o x) ∨ new x

theorem prepareBatch_rel {P R} (hR : RowRel P R) {cfg : Cfg} {db : DB} {ts : List Txn} {w : Work} (hi : Inv db)
    (hq : QueuedNonneg db) (hP : ∀ t ∈ ts, P (batchMember t)) (h : prepareBatch cfg db ts = .ok w) :
    ∀ b ∈ w.balances, ∃ r ∈ db.balances, r.id = b.id ∧ R r b := by
  obtain ⟨bs, hl, hp⟩ := prepareBatch_ok h
  obtain ⟨hids, hload⟩ := loadAll_ok hl
  have hn : (ids bs).Nodup := by rw [hids]; exact batchIds_nodup ts
  have := prepareMembers_rel hR hn hP (fun b hb => (load_readFrom (hload b hb)).1.consistent hi.consistent)
    (fun b hb => load_queued hq (hload b hb)) hp
  intro b hb
  obtain ⟨o, ho, e, r, _⟩ := this b hb
  obtain ⟨⟨rr, hrr, q, hoe⟩, _⟩ := load_readFrom (hload o ho)
  refine ⟨rr, hrr, ?_, ?_⟩
  · rw [← e, hoe]
  · rw [hoe] at r; exact hR.queued rr q b r

theorem prepareSingle_rel {P R} (hR : RowRel P R) {cfg : Cfg} {db : DB} {t : Txn} {w : Work} (hi : Inv db)
    (hq : QueuedNonneg db) (hP : P t) (h : prepareSingle cfg db t = .ok (some w)) :
    ∀ b ∈ w.balances, ∃ r ∈ db.balances, r.id = b.id ∧ R r b := by
  obtain ⟨_, s, d, s', d', hs, hd, ha, _, rfl⟩ := prepareSingle_some h
  obtain ⟨a1, a2⟩ := applyToBalances_inv ha
  have e1 := applySource_effect a1
  have e2 := applyDestination_effect a2
  intro b hb
  simp at hb
  rcases hb with rfl | rfl
  · obtain ⟨⟨r, hr, q, he⟩, is⟩ := load_readFrom hs
    have := hR.src t s _ hP ((load_readFrom hs).1.consistent hi.consistent) (load_queued hq hs) is a1
    refine ⟨r, hr, by rw [e1.id, he], ?_⟩
    rw [he] at this; exact hR.queued r q _ this
  · obtain ⟨⟨r, hr, q, he⟩, is⟩ := load_readFrom hd
    have := hR.dst t d _ hP (source_validated a1) ((load_readFrom hd).1.consistent hi.consistent) is a2
    refine ⟨r, hr, by rw [e2.id, he], ?_⟩
    rw [he] at this; exact hR.queued r q _ this

theorem persist_rel {P R} (hR : RowRel P R) {db db' : DB} {w : Work} (hi : Inv db) (hnb : (ids w.balances).Nodup)
    (hw : ∀ b ∈ w.balances, ∃ r ∈ db.balances, r.id = b.id ∧ R r b) (h : db.persist w = .ok db') (new) :
    RowsRel R new db.balances db'.balances := by
  obtain ⟨rows, h1, _, rfl⟩ := persist_ok h
  intro x hx
  left
  rcases updateRows_mem hi.nodup hnb h1 x hx with ⟨hx', _⟩ | ⟨b, hb, r, hr, e1, _, rfl⟩
  · exact ⟨x, hx', rfl, rfl, hR.refl x⟩
  · obtain ⟨r', hr', e', rel⟩ := hw b hb
    have : r' = r := eq_of_mem_ids hi.nodup hr' hr (e'.trans e1.symm)
    subst this
    exact ⟨r', hr', rfl, rfl, hR.write r' b e1 rel⟩

theorem RowsRel.refl {P R} (hR : RowRel P R) (new) (l : List Balance) : RowsRel R new l l :=
  fun x hx => .inl ⟨x, hx, rfl, rfl, hR.refl x⟩

theorem postResolved_rel {P R} (hR : RowRel P R) {cfg : Cfg} {db : DB} {t : Txn} (hi : Inv db)
    (hq : QueuedNonneg db) (hP : P t) (new) : RowsRel R new db.balances (postResolved cfg db t).1.balances := by
  unfold postResolved
  split
  · exact RowsRel.refl hR _ _
  · exact RowsRel.refl hR _ _
  · rename_i w hw
    by_cases he : t.source = t.destination
    · rw [persist_self_conflict hi.nodup hw he]; exact RowsRel.refl hR _ _
    · split
      · rename_i db' hp
        exact persist_rel hR hi (prepareSingle_balanced hi hw he).nodup (prepareSingle_rel hR hi hq hP hw) hp _
      · exact RowsRel.refl hR _ _

theorem recordBatch_rel {P R} (hR : RowRel P R) {cfg : Cfg} {db : DB} {ts : List Txn} (hi : Inv db)
    (hq : QueuedNonneg db) (hP : ∀ t ∈ ts, P (batchMember t)) (new) :
    RowsRel R new db.balances (recordBatch cfg db ts).1.balances := by
  unfold recordBatch
  split
  · exact RowsRel.refl hR _ _
  · rename_i w hw
    split
    · rename_i db' hp
      exact persist_rel hR hi (prepareBatch_balanced hi hw).nodup (prepareBatch_rel hR hi hq hP hw) hp _
    · exact RowsRel.refl hR _ _

/-! ### Resolution of identifiers -/

/-- How resolving one identifier changes the tables. -/
theorem resolve_ok {db db' : DB} {s cur n i : String} (h : db.resolve s cur n = .ok (db', i)) :
    (db' = db ∧ isIndicator s = false ∧ i = s) ∨
    (db' = db ∧ isIndicator s = true ∧ ∃ b ∈ db.balances, b.id = i ∧ b.indicator = s ∧ b.currency = cur) ∨
    (isIndicator s = true ∧ i = n ∧ db.createBalance n s cur = .ok db') := by
  unfold DB.resolve at h
  split at h
  · rename_i hs
    split at h
    · rename_i b hb
      cases h
      have h1 := List.mem_of_find?_eq_some hb
      have h2 := List.find?_some hb
      simp at h2
      exact .inr (.inl ⟨rfl, hs, b, h1, rfl, h2.1, h2.2⟩)
    · split at h
      · rename_i hc; cases h; exact .inr (.inr ⟨hs, rfl, hc⟩)
      · cases h
  · rename_i hs; cases h; exact .inl ⟨rfl, by simpa using hs, rfl⟩

theorem resolve_balances {db db' : DB} {s cur n i : String} (h : db.resolve s cur n = .ok (db', i)) :
    db'.txns = db.txns ∧ ∃ new, db'.balances = db.balances ++ new ∧
      ∀ b ∈ new, b = { id := n, indicator := s, currency := cur } ∧ isIndicator s = true := by
  rcases resolve_ok h with ⟨rfl, _, _⟩ | ⟨rfl, _, _⟩ | ⟨hs, _, hc⟩
  · exact ⟨rfl, [], by simp, by simp⟩
  · exact ⟨rfl, [], by simp, by simp⟩
  · obtain ⟨_, _, rfl⟩ := createBalance_ok hc
    exact ⟨rfl, _, rfl, by simp [hs]⟩

theorem finalStatus_ne_queued (t : Txn) : finalStatus t ≠ .queued := by
  unfold finalStatus
  split
  · simp
  · split <;> simp

theorem finalRow_status (t : Txn) : (finalRow t).status = finalStatus t := by
  unfold finalRow clearTerminalInflight
  split <;> rfl

theorem applyRecord_keeps (t : Txn) : (applyRecord t).reference = t.reference ∧ (applyRecord t).id = t.id ∧
    (applyRecord t).source = t.source ∧ (applyRecord t).destination = t.destination ∧
    (applyRecord t).currency = t.currency ∧ (applyRecord t).parent = t.parent := by
  unfold applyRecord
  have h := applyPrecision_keeps t
  split <;> simp_all

theorem finalRow_keeps (t : Txn) : (finalRow t).reference = t.reference ∧ (finalRow t).id = t.id ∧
    (finalRow t).source = t.source ∧ (finalRow t).destination = t.destination ∧
    (finalRow t).currency = t.currency ∧ (finalRow t).parent = t.parent := by
  have h := applyRecord_keeps t
  unfold finalRow clearTerminalInflight
  split <;> simp_all

/-- Rows added by a posting are never QUEUED rows. -/
theorem prepareMembers_rows {db : DB} : ∀ {ts : List Txn} {refs : List String} {bs : List Balance}
    {rows : List Txn} {bs' : List Balance}, prepareMembers db ts refs bs = .ok (rows, bs') →
    rows = ts.map (fun t => finalRow (batchMember t)) := by
  intro ts
  induction ts with
  | nil => intro refs bs rows bs' h; simp [prepareMembers] at h; simp [h.1]
  | cons t ts ih =>
    intro refs bs rows bs' h
    obtain ⟨_, _, _, _, mid, rest, hm, hp, rfl⟩ := prepareMembers_cons h
    simp [ih hp]

theorem persist_queuedNonneg {db db' : DB} {w : Work} (hq : QueuedNonneg db)
    (hw : ∀ t ∈ w.rows, t.status ≠ .queued) (h : db.persist w = .ok db') : QueuedNonneg db' := by
  obtain ⟨rows, _, _, rfl⟩ := persist_ok h
  intro t ht hs
  rcases List.mem_append.1 ht with ht | ht
  · exact hq t ht hs
  · exact absurd hs (hw t ht)

theorem postResolved_queuedNonneg {cfg : Cfg} {db : DB} {t : Txn} (hq : QueuedNonneg db) :
    QueuedNonneg (postResolved cfg db t).1 := by
  unfold postResolved
  split
  · exact hq
  · exact hq
  · rename_i w hw
    split
    · rename_i db' hp
      obtain ⟨_, s, d, s', d', hs, hd, ha, _, rfl⟩ := prepareSingle_some hw
      refine persist_queuedNonneg hq ?_ hp
      intro r hr
      simp at hr; subst hr
      rw [finalRow_status]; exact finalStatus_ne_queued t
    · exact hq

theorem recordBatch_queuedNonneg {cfg : Cfg} {db : DB} {ts : List Txn} (hq : QueuedNonneg db) :
    QueuedNonneg (recordBatch cfg db ts).1 := by
  unfold recordBatch
  split
  · exact hq
  · rename_i w hw
    split
    · rename_i db' hp
      obtain ⟨bs, hl, hp'⟩ := prepareBatch_ok hw
      refine persist_queuedNonneg hq ?_ hp
      rw [prepareMembers_rows hp']
      intro r hr
      obtain ⟨t, _, rfl⟩ := List.mem_map.1 hr
      rw [finalRow_status]; exact finalStatus_ne_queued _
    · exact hq

/-- A stored row may be QUEUED only with a nonnegative amount. -/
def Op.QueuedOK : Op → Prop
  | .store t => t.status = .queued → 0 ≤ t.preciseAmount.getD 0
  | _ => True

theorem step_queuedNonneg {cfg : Cfg} {db : DB} (hq : QueuedNonneg db) {op : Op} (ho : op.QueuedOK) :
    QueuedNonneg (step cfg db op).1 := by
  cases op with
  | create i ind cur =>
    simp only [step]
    split
    · rename_i db' h; obtain ⟨_, _, rfl⟩ := createBalance_ok h; exact hq
    · exact hq
  | post t n1 n2 =>
    simp only [step, recordSingle]
    split
    · exact hq
    · rename_i db1 sid h1
      have q1 : QueuedNonneg db1 := by unfold QueuedNonneg; rw [(resolve_balances h1).1]; exact hq
      split
      · exact q1
      · rename_i db2 did h2
        have q2 : QueuedNonneg db2 := by unfold QueuedNonneg; rw [(resolve_balances h2).1]; exact q1
        exact postResolved_queuedNonneg q2
  | batch ts => exact recordBatch_queuedNonneg hq
  | store t =>
    simp only [step]
    split
    · rename_i db' h
      obtain ⟨_, _, rfl⟩ := insertTxn_ok h
      intro x hx hs
      rcases List.mem_append.1 hx with hx | hx
      · exact hq x hx hs
      · simp at hx; subst hx; exact ho hs
    · exact hq

end Blnk
