import Verif.Model.Paging
import Verif.Props.Refund
/-
C57: walking the rows of a parent in pages.
-/
namespace Blnk.Paging

variable {α : Type}

/-! ### Any list -/

theorem page_drop (l : List α) (size off : Nat) : page l size off ++ l.drop (off + (page l size off).length) = l.drop off := by
  unfold page
  rw [List.length_take, List.length_drop]
  by_cases h : size ≤ l.length - off
  · rw [Nat.min_eq_left h, ← List.drop_drop]
    exact List.take_append_drop size (l.drop off)
  · have h' : l.length - off ≤ size := by omega
    rw [Nat.min_eq_right h', List.take_of_length_le (by simp; omega), List.drop_of_length_le (i := off + (l.length - off)) (by omega)]
    simp

theorem page_nil {l : List α} {size off : Nat} (hs : 0 < size) (h : page l size off = []) : l.drop off = [] := by
  unfold page at h
  rw [List.take_eq_nil_iff] at h
  rcases h with h | h
  · omega
  · exact h

theorem walk_fixed {size : Nat} (hs : 0 < size) {q : Nat → List α} {l : List α} (hq : ∀ k, q k = l) {k off : Nat} {out : List α}
    (h : Walk size q k off out) : out = l.drop off := by
  induction h with
  | stop h => rw [hq] at h; exact (page_nil hs h).symm
  | next _ _ ih => rw [ih, hq, page_drop]

theorem collect_fixed {size : Nat} {q : Nat → List α} {l : List α} (hq : ∀ k, q k = l) {k off : Nat} {out : List α}
    (h : Collect size q k off out) : out = l.drop off := by
  induction h with
  | @last k off h =>
    rw [hq] at h ⊢
    have := page_drop l size off
    unfold page at h this ⊢
    rw [List.length_take, List.length_drop] at h
    rw [List.take_of_length_le (by simp; omega)]
  | @next k off out h _ ih =>
    rw [ih, hq]
    rw [hq] at h
    have e : (page l size off).length = size := by
      have : (page l size off).length ≤ size := by unfold page; exact List.length_take_le ..
      omega
    have := page_drop l size off
    rw [e] at this
    exact this

theorem walk_exists {size : Nat} (l : List α) : ∀ (n k off : Nat), l.length - off ≤ n →
    ∃ out, Walk size (fun _ => l) k off out := by
  intro n
  induction n with
  | zero =>
    intro k off h
    exact ⟨_, .stop (by unfold page; rw [List.drop_of_length_le (by omega)]; simp)⟩
  | succ n ih =>
    intro k off h
    by_cases hp : page l size off = []
    · exact ⟨_, .stop hp⟩
    · have hlen : 0 < (page l size off).length := List.length_pos_iff.2 hp
      obtain ⟨out, ho⟩ := ih (k + 1) (off + (page l size off).length) (by omega)
      exact ⟨_, .next hp ho⟩

/-- Rows not handed out yet lie behind the offset, as long as rows are only added. -/
theorem walk_covers {size : Nat} (hs : 0 < size) {q : Nat → List α} (hq : ∀ k, (q k).Sublist (q (k + 1))) {k off : Nat} {out : List α}
    (h : Walk size q k off out) : ∀ x ∈ (q k).drop off, x ∈ out := by
  induction h with
  | stop h => intro x hx; rw [page_nil hs h] at hx; cases hx
  | @next k off out _ _ ih =>
    intro x hx
    rw [← page_drop (q k) size off] at hx
    rcases List.mem_append.1 hx with h | h
    · exact List.mem_append.2 (.inl h)
    · exact List.mem_append.2 (.inr (ih x (((hq k).drop _).subset h)))

theorem collect_covers {size : Nat} {q : Nat → List α} (hq : ∀ k, (q k).Sublist (q (k + 1))) {k off : Nat} {out : List α}
    (h : Collect size q k off out) : ∀ x ∈ (q k).drop off, x ∈ out := by
  induction h with
  | @last k off h =>
    intro x hx
    unfold page at h ⊢
    rw [List.length_take, List.length_drop] at h
    rw [List.take_of_length_le (by simp; omega)]
    exact hx
  | @next k off out h _ ih =>
    intro x hx
    have e : (page (q k) size off).length = size := by
      have : (page (q k) size off).length ≤ size := by unfold page; exact List.length_take_le ..
      omega
    rw [← page_drop (q k) size off, e] at hx
    rcases List.mem_append.1 hx with h | h
    · exact List.mem_append.2 (.inl h)
    · exact List.mem_append.2 (.inr (ih x (((hq k).drop _).subset h)))

/-! ### Ordered answers -/

/-- No two rows were created at the same time. -/
def Untied (rows : List Txn) : Prop := rows.Pairwise fun a b => a.createdAt ≠ b.createdAt

theorem answer_strict {rows l : List Txn} (h : Answer rows l) (hu : Untied rows) :
    l.Pairwise fun a b => b.createdAt < a.createdAt := by
  have h2 : l.Pairwise fun a b => a.createdAt ≠ b.createdAt := (h.perm.pairwise_iff (fun h => Ne.symm h)).2 hu
  refine (h.sorted.and h2).imp ?_
  intro a b hab
  have := hab.1
  have := hab.2
  omega

theorem strict_sublist : ∀ {l m : List Txn}, l.Pairwise (fun a b => b.createdAt < a.createdAt) →
    m.Pairwise (fun a b => b.createdAt < a.createdAt) → (∀ x ∈ l, x ∈ m) → l.Sublist m := by
  intro l m
  induction m generalizing l with
  | nil =>
    intro _ _ h
    cases l with
    | nil => exact .slnil
    | cons x l => exact absurd (h x (by simp)) (by simp)
  | cons y m ih =>
    intro hl hm h
    cases l with
    | nil => exact List.nil_sublist _
    | cons x l =>
      have hl' := List.pairwise_cons.1 hl
      have hm' := List.pairwise_cons.1 hm
      rcases List.mem_cons.1 (h x (by simp)) with rfl | hx
      · refine .cons_cons _ (ih hl'.2 hm'.2 ?_)
        intro z hz
        rcases List.mem_cons.1 (h z (List.mem_cons_of_mem _ hz)) with rfl | h
        · exact absurd (hl'.1 _ hz) (Nat.lt_irrefl _)
        · exact h
      · refine .cons _ (ih hl hm'.2 ?_)
        intro z hz
        rcases List.mem_cons.1 (h z hz) with rfl | h
        · exfalso
          have h1 := hm'.1 x hx
          rcases List.mem_cons.1 hz with rfl | h2
          · omega
          · have := hl'.1 _ h2; omega
        · exact h

theorem course_sublist {cfg : Cfg} {listing : DB → List Txn} {between : Nat → List RStep} {S : Nat → DB} {q : Nat → List Txn}
    (hc : Course cfg listing between S q) (hu : ∀ k, Untied (listing (S k)))
    (hg : ∀ k, ∀ x ∈ listing (S k), x ∈ listing (S (k + 1))) (k : Nat) : (q k).Sublist (q (k + 1)) :=
  strict_sublist (answer_strict (hc.answer k) (hu k)) (answer_strict (hc.answer (k + 1)) (hu (k + 1)))
    (fun x hx => (hc.answer (k + 1)).perm.mem_iff.2 (hg k x ((hc.answer k).perm.mem_iff.1 hx)))

/-- **C57, refunds: no row is skipped.** Whatever the workers and other requests do while the pages are read, a
walk over the refundable rows of a transaction that ends has handed every row that was refundable
at its start to the workers. Proved when no two listed rows were created at the same time (see
`c57_ties_fail`); a row may be handed out twice (`c57_refund_twice`). -/
theorem c57_refund_walk_covers_partial {cfg : Cfg} {id : String} {size : Nat} (hs : 0 < size) {between : Nat → List RStep} {S : Nat → DB}
    {q : Nat → List Txn} {out : List Txn} (hc : Course cfg (·.refundables id) between S q) (hu : ∀ k, Untied ((S k).refundables id))
    (h : Walk size q 0 0 out) : ∀ t ∈ (S 0).refundables id, t ∈ out := by
  intro t ht
  refine walk_covers hs (course_sublist hc hu ?_) h t ?_
  · intro k x hx
    obtain ⟨new, hn⟩ := rsteps_txns cfg (between k) (S k)
    rw [hc.next]
    simp only [DB.refundables] at hx ⊢
    rw [hn]
    rw [List.mem_reverse, List.mem_filter] at hx ⊢
    exact ⟨List.mem_append.2 (.inl hx.1), hx.2⟩
  · exact (hc.answer 0).perm.mem_iff.2 ht

/-- Some row under the id is INFLIGHT. -/
def OnBooks (db : DB) (id : String) : Prop :=
  ∃ t ∈ db.txns, (t.id = id ∨ t.parent = id ∨ t.metaQueuedParent = id) ∧ t.status = .inflight

theorem legs_mem {db : DB} {id : String} (hb : OnBooks db id) {x : Txn} :
    x ∈ Atomic.inflightLegs db id ↔ x ∈ db.txns ∧ (x.id = id ∨ x.parent = id ∨ x.metaQueuedParent = id) ∧ x.status = .inflight := by
  obtain ⟨t, ht, h1, h2⟩ := hb
  unfold Atomic.inflightLegs
  dsimp only
  rw [if_neg]
  · rw [List.mem_reverse, List.mem_filter]
    simp [or_assoc]
  · intro he
    have : t ∈ db.txns.filter (fun t => (t.id = id || t.parent = id || t.metaQueuedParent = id) && t.status = .inflight) := by
      rw [List.mem_filter]; exact ⟨ht, by simp [h2, or_assoc]; exact h1⟩
    rw [he] at this; cases this

theorem onBooks_grows {db db' : DB} {id : String} {new : List Txn} (hb : OnBooks db id) (h : db'.txns = db.txns ++ new) : OnBooks db' id := by
  obtain ⟨t, ht, h1, h2⟩ := hb
  exact ⟨t, by rw [h]; exact List.mem_append.2 (.inl ht), h1, h2⟩

theorem onBooks_course {cfg : Cfg} {listing : DB → List Txn} {id : String} {between : Nat → List RStep} {S : Nat → DB} {q : Nat → List Txn}
    (hc : Course cfg listing between S q) (hb : OnBooks (S 0) id) : ∀ k, OnBooks (S k) id := by
  intro k
  induction k with
  | zero => exact hb
  | succ k ih =>
    obtain ⟨new, hn⟩ := rsteps_txns cfg (between k) (S k)
    exact onBooks_grows ih (by rw [hc.next, hn])

theorem legs_grow {cfg : Cfg} {id : String} {between : Nat → List RStep} {S : Nat → DB} {q : Nat → List Txn}
    (hc : Course cfg (Atomic.inflightLegs · id) between S q) (hb : OnBooks (S 0) id) (k : Nat) :
    ∀ x ∈ Atomic.inflightLegs (S k) id, x ∈ Atomic.inflightLegs (S (k + 1)) id := by
  intro x hx
  rw [legs_mem (onBooks_course hc hb _)] at hx ⊢
  obtain ⟨new, hn⟩ := rsteps_txns cfg (between k) (S k)
  rw [hc.next, hn]
  exact ⟨List.mem_append.2 (.inl hx.1), hx.2⟩

/-- **C57, commits and voids of a parent: no leg is skipped**, by the synchronous endpoints and by the rollback of
a bulk request, whatever happens while the pages are read, once a leg is on the books. Same
restriction on creation times; queued legs see `c57_queued_leg_skipped`. -/
theorem c57_legs_walk_covers_partial {cfg : Cfg} {id : String} {size : Nat} (hs : 0 < size) {between : Nat → List RStep} {S : Nat → DB}
    {q : Nat → List Txn} {out : List Txn} (hc : Course cfg (Atomic.inflightLegs · id) between S q)
    (hu : ∀ k, Untied (Atomic.inflightLegs (S k) id)) (hb : OnBooks (S 0) id)
    (h : Walk size q 0 0 out) : ∀ t ∈ Atomic.inflightLegs (S 0) id, t ∈ out := fun t ht =>
  walk_covers hs (course_sublist hc hu (legs_grow hc hb)) h t ((hc.answer 0).perm.mem_iff.2 ht)

/-- **C57, queued commits and voids of a parent: no leg is skipped** by the snapshot the worker takes. -/
theorem c57_legs_collect_covers_partial {cfg : Cfg} {id : String} {size : Nat} {between : Nat → List RStep} {S : Nat → DB}
    {q : Nat → List Txn} {out : List Txn} (hc : Course cfg (Atomic.inflightLegs · id) between S q)
    (hu : ∀ k, Untied (Atomic.inflightLegs (S k) id)) (hb : OnBooks (S 0) id)
    (h : Collect size q 0 0 out) : ∀ t ∈ Atomic.inflightLegs (S 0) id, t ∈ out := fun t ht =>
  collect_covers (course_sublist hc hu (legs_grow hc hb)) h t ((hc.answer 0).perm.mem_iff.2 ht)

/-! ### Exactly once -/

/-- The row belongs to the parent. -/
def Under (id : String) (t : Txn) : Prop := t.id = id ∨ t.parent = id ∨ t.metaQueuedParent = id

/-- A step that creates no hold under the id: a commit or void of any hold, a posting that is no hold,
or anything belonging elsewhere. -/
def Elsewhere (id : String) : RStep → Prop
  | .act (.base op) => (∀ t ∈ op.posts, t.inflight = false ∨ ¬ Under id t) ∧ ∀ t, op = .store t → t.status ≠ .inflight ∨ ¬ Under id t
  | .act _ => True
  | .refund o _ newId _ _ => o.status ≠ .void ∨ ¬ (newId = id ∨ o.id = id ∨ o.metaQueuedParent = id)

theorem applyPrecision_mark (t : Txn) : (t.applyPrecision).metaQueuedParent = t.metaQueuedParent := by
  unfold Txn.applyPrecision
  split <;> dsimp only <;> (split <;> (try split)) <;> rfl

theorem finalRow_mark (t : Txn) : (finalRow t).metaQueuedParent = t.metaQueuedParent := by
  unfold finalRow clearTerminalInflight applyRecord
  have := applyPrecision_mark t
  split <;> split <;> simp_all

theorem finalRow_under (id : String) (t : Txn) : Under id (finalRow t) ↔ Under id t := by
  have h := finalRow_keeps t
  unfold Under
  rw [finalRow_mark, h.2.1, h.2.2.2.2.2]

theorem finalRow_hold (t : Txn) : (finalRow t).status = .inflight → t.inflight = true := by
  rw [finalRow_status]
  unfold finalStatus
  intro h
  by_cases hi : t.inflight = true
  · exact hi
  · rw [if_neg hi] at h
    split at h <;> cases h

/-- No hold under the id. -/
def Quiet (id : String) (r : Txn) : Prop := ¬ (Under id r ∧ r.status = .inflight)

theorem recordSingle_quiet {cfg : Cfg} {db : DB} {t : Txn} {n1 n2 id : String} (ht : t.inflight = false ∨ ¬ Under id t) :
    ∃ new, (recordSingle cfg db t n1 n2).1.txns = db.txns ++ new ∧ ∀ r ∈ new, Quiet id r := by
  unfold recordSingle
  split
  · exact ⟨[], by simp, by simp⟩
  · rename_i db1 sid h1
    split
    · exact ⟨[], by simp [(resolve_onlyOpened h1).txns], by simp⟩
    · rename_i db2 did h2
      have e : db2.txns = db.txns := ((resolve_onlyOpened h1).trans (resolve_onlyOpened h2)).txns
      unfold postResolved
      split
      · exact ⟨[], by simp [e], by simp⟩
      · exact ⟨[], by simp [e], by simp⟩
      · rename_i w hw
        split
        · rename_i db' hp
          obtain ⟨_, _, _, rfl⟩ := persist_ok hp
          obtain ⟨_, _, _, _, _, _, _, _, _, rfl⟩ := prepareSingle_some hw
          refine ⟨_, by simp [e]; rfl, ?_⟩
          intro r hr
          simp only [List.mem_singleton] at hr
          subst hr
          intro hq
          rcases ht with ht | ht
          · have := finalRow_hold _ hq.2
            simp [ht] at this
          · exact ht (by simpa [Under] using (finalRow_under id _).1 hq.1)
        · exact ⟨[], by simp [e], by simp⟩

theorem step_quiet {cfg : Cfg} {db : DB} {op : Op} {id : String} (h1 : ∀ t ∈ op.posts, t.inflight = false ∨ ¬ Under id t)
    (h2 : ∀ t, op = .store t → t.status ≠ .inflight ∨ ¬ Under id t) :
    ∃ new, (step cfg db op).1.txns = db.txns ++ new ∧ ∀ r ∈ new, Quiet id r := by
  cases op with
  | create i ind cur =>
    simp only [step]
    split
    · rename_i db' h; exact ⟨[], by simp [(createBalance_effect h).2], by simp⟩
    · exact ⟨[], by simp, by simp⟩
  | post t n1 n2 => exact recordSingle_quiet (h1 t (by simp [Op.posts]))
  | batch ts =>
    simp only [step, recordBatch]
    split
    · exact ⟨[], by simp, by simp⟩
    · rename_i w hw
      split
      · rename_i db' hp
        obtain ⟨_, _, _, rfl⟩ := persist_ok hp
        obtain ⟨bs, _, hm⟩ := prepareBatch_ok hw
        refine ⟨_, rfl, ?_⟩
        intro r hr
        rw [prepareMembers_rows hm] at hr
        obtain ⟨t, ht, rfl⟩ := List.mem_map.1 hr
        intro hq
        rcases h1 t ht with h | h
        · have := finalRow_hold _ hq.2
          simp [batchMember, h] at this
        · exact h (by simpa [Under, batchMember] using (finalRow_under id _).1 hq.1)
      · exact ⟨[], by simp, by simp⟩
  | store t =>
    simp only [step]
    split
    · rename_i db' h
      obtain ⟨_, _, rfl⟩ := insertTxn_ok h
      refine ⟨[t], rfl, ?_⟩
      intro r hr
      simp only [List.mem_singleton] at hr
      subst hr
      intro hq
      rcases h2 r rfl with h | h
      · exact h hq.2
      · exact h hq.1
    · exact ⟨[], by simp, by simp⟩

theorem submit_under (id : String) (t : Txn) : Under id (submit t) ↔ Under id t := by
  have h := submit_keeps t
  unfold Under
  rw [h.1, h.2.1]
  have : (submit t).metaQueuedParent = t.metaQueuedParent := applyPrecision_mark t
  rw [this]

theorem rstep_quiet {cfg : Cfg} {db : DB} {s : RStep} {id : String} (h : Elsewhere id s) :
    ∃ new, (rstep cfg db s).txns = db.txns ++ new ∧ ∀ r ∈ new, Quiet id r := by
  cases s with
  | act a =>
    cases a with
    | base op => exact step_quiet h.1 h.2
    | commit i amt newId ref n1 n2 =>
      simp only [rstep, act, commitInflight]
      split
      · exact ⟨[], by simp, by simp⟩
      · split
        · exact ⟨[], by simp, by simp⟩
        · exact recordSingle_quiet (.inl rfl)
    | void i newId ref n1 n2 =>
      simp only [rstep, act, voidInflight]
      split
      · exact ⟨[], by simp, by simp⟩
      · split
        · exact ⟨[], by simp, by simp⟩
        · refine recordSingle_quiet (.inl ?_)
          unfold voidTxn
          rw [(applyPrecision_keeps _).2.2.2.1]
  | refund o skip newId n1 n2 =>
    have hu : (refundTxn o skip newId).inflight = false ∨ ¬ Under id (refundTxn o skip newId) := by
      rcases h with h | h
      · exact .inl (by simp [refundTxn, h])
      · exact .inr h
    have hi : (submit (refundTxn o skip newId)).inflight = (refundTxn o skip newId).inflight := (applyPrecision_keeps _).2.2.2.1
    simp only [rstep, landRefund]
    split
    · rename_i hs
      subst hs
      refine recordSingle_quiet ?_
      rw [hi, submit_under]
      exact hu
    · refine step_quiet (by simp [Op.posts]) ?_
      intro t ht
      cases ht
      left
      have hst : (refundTxn o false newId).applyPrecision.status = .blank := by
        rw [(applyPrecision_keeps _).2.2.1]; rfl
      simp only [queuedRow, submit, hst]
      split <;> simp

theorem rsteps_quiet {cfg : Cfg} {id : String} : ∀ {ss : List RStep} {db : DB}, (∀ s ∈ ss, Elsewhere id s) →
    ∃ new, (rsteps cfg db ss).txns = db.txns ++ new ∧ ∀ r ∈ new, Quiet id r := by
  intro ss
  induction ss with
  | nil => intro db _; exact ⟨[], by simp [rsteps], by simp⟩
  | cons s ss ih =>
    intro db h
    obtain ⟨n1, e1, q1⟩ := rstep_quiet (cfg := cfg) (db := db) (h s (by simp))
    obtain ⟨n2, e2, q2⟩ := ih (db := rstep cfg db s) (fun x hx => h x (by simp [hx]))
    refine ⟨n1 ++ n2, by rw [rsteps, e2, e1, List.append_assoc], ?_⟩
    intro r hr
    rcases List.mem_append.1 hr with hr | hr
    · exact q1 r hr
    · exact q2 r hr

theorem strict_eq {l m : List Txn} (hl : l.Pairwise fun a b => b.createdAt < a.createdAt)
    (hm : m.Pairwise fun a b => b.createdAt < a.createdAt) (h : ∀ x, x ∈ l ↔ x ∈ m) : l = m := by
  have h1 := strict_sublist hl hm (fun x => (h x).1)
  have h2 := strict_sublist hm hl (fun x => (h x).2)
  exact h1.eq_of_length_le h2.length_le

/-- While no hold is added under the parent every query has the same answer. -/
theorem course_fixed {cfg : Cfg} {id : String} {between : Nat → List RStep} {S : Nat → DB} {q : Nat → List Txn}
    (hc : Course cfg (Atomic.inflightLegs · id) between S q) (hu : ∀ k, Untied (Atomic.inflightLegs (S k) id)) (hb : OnBooks (S 0) id)
    (he : ∀ k, ∀ s ∈ between k, Elsewhere id s) : ∀ k, q k = q 0 := by
  intro k
  induction k with
  | zero => rfl
  | succ k ih =>
    rw [← ih]
    refine strict_eq (answer_strict (hc.answer _) (hu _)) (answer_strict (hc.answer _) (hu _)) ?_
    intro x
    rw [(hc.answer _).perm.mem_iff, (hc.answer _).perm.mem_iff]
    refine ⟨?_, legs_grow hc hb k x⟩
    intro hx
    rw [legs_mem (onBooks_course hc hb _)] at hx ⊢
    obtain ⟨new, e, hq⟩ := rsteps_quiet (cfg := cfg) (db := S k) (he k)
    rw [hc.next, e] at hx
    rcases List.mem_append.1 hx.1 with h | h
    · exact ⟨h, hx.2⟩
    · exact absurd hx.2 (hq x h)

/-- **C57: each leg exactly once.** While the pages are read holds may be committed and voided and
everything else may happen, as long as nothing creates a further hold under this parent: then the
walk of the synchronous endpoints hands out every leg exactly once and nothing else. Missing: legs created at the
same time (`c57_ties_fail`), legs still queued (`c57_queued_leg_skipped`). -/
theorem c57_legs_walk_once_partial {cfg : Cfg} {id : String} {size : Nat} (hs : 0 < size) {between : Nat → List RStep} {S : Nat → DB}
    {q : Nat → List Txn} {out : List Txn} (hc : Course cfg (Atomic.inflightLegs · id) between S q)
    (hu : ∀ k, Untied (Atomic.inflightLegs (S k) id)) (hb : OnBooks (S 0) id) (he : ∀ k, ∀ s ∈ between k, Elsewhere id s)
    (h : Walk size q 0 0 out) : out.Perm (Atomic.inflightLegs (S 0) id) := by
  rw [walk_fixed hs (course_fixed hc hu hb he) h, List.drop_zero]
  exact (hc.answer 0).perm

/-- The same for the snapshot a queued commit or void takes. -/
theorem c57_legs_collect_once_partial {cfg : Cfg} {id : String} {size : Nat} {between : Nat → List RStep} {S : Nat → DB}
    {q : Nat → List Txn} {out : List Txn} (hc : Course cfg (Atomic.inflightLegs · id) between S q)
    (hu : ∀ k, Untied (Atomic.inflightLegs (S k) id)) (hb : OnBooks (S 0) id) (he : ∀ k, ∀ s ∈ between k, Elsewhere id s)
    (h : Collect size q 0 0 out) : out.Perm (Atomic.inflightLegs (S 0) id) := by
  rw [collect_fixed (course_fixed hc hu hb he) h, List.drop_zero]
  exact (hc.answer 0).perm

/-- **C57: the walk ends** under the same conditions, whatever the page size. -/
theorem c57_legs_walk_ends {cfg : Cfg} {id : String} (size : Nat) {between : Nat → List RStep} {S : Nat → DB}
    {q : Nat → List Txn} (hc : Course cfg (Atomic.inflightLegs · id) between S q)
    (hu : ∀ k, Untied (Atomic.inflightLegs (S k) id)) (hb : OnBooks (S 0) id) (he : ∀ k, ∀ s ∈ between k, Elsewhere id s) :
    ∃ out, Walk size q 0 0 out := by
  have e : q = fun _ => q 0 := funext (course_fixed hc hu hb he)
  rw [e]
  exact walk_exists (size := size) (q 0) _ 0 0 (Nat.le_refl _)

/-! ### Concrete courses -/

/-- A course in which something happens after the first query only. -/
def after (db : DB) (ss : List RStep) (cfg : Cfg) : Nat → DB
  | 0 => db
  | _ + 1 => rsteps cfg db ss

/-- Only after the first query. -/
def firstOnly (ss : List RStep) : Nat → List RStep
  | 0 => ss
  | _ + 1 => []

theorem after_next (db : DB) (ss : List RStep) (cfg : Cfg) (k : Nat) : after db ss cfg (k + 1) = rsteps cfg (after db ss cfg k) (firstOnly ss k) := by
  cases k <;> rfl

theorem after_all {P : DB → Prop} {db : DB} {ss : List RStep} {cfg : Cfg} (h0 : P db) (h1 : P (rsteps cfg db ss)) : ∀ k, P (after db ss cfg k)
  | 0 => h0
  | _ + 1 => h1

instance (rows l : List Txn) : Decidable (Answer rows l) :=
  decidable_of_iff (l.Perm rows ∧ l.Pairwise fun a b => b.createdAt ≤ a.createdAt) ⟨fun h => ⟨h.1, h.2⟩, fun h => ⟨h.perm, h.sorted⟩⟩

instance (rows : List Txn) : Decidable (Untied rows) := by unfold Untied; infer_instance

/-- Three accounts and two holds under "P", created at the given times. -/
def twoHolds (t1 t2 : Nat) : DB :=
  rsteps {} {} [.act (.base (.create "a" "" "USD")), .act (.base (.create "b" "" "USD")), .act (.base (.create "c" "" "USD")),
    .act (.base (.post { id := "h1", parent := "P", source := "a", destination := "b", reference := "r1", amount := 30, precision := 1
                         allowOverdraft := true, inflight := true, status := .queued, createdAt := t1 } "" "")),
    .act (.base (.post { id := "h2", parent := "P", source := "a", destination := "c", reference := "r2", amount := 70, precision := 1
                         allowOverdraft := true, inflight := true, status := .queued, createdAt := t2 } "" ""))]

/-- The legs as first read. -/
def legs1 (t1 t2 : Nat) : List Txn := Atomic.inflightLegs (twoHolds t1 t2) "P"

/-- The hypotheses of the walk theorems hold while the first leg handed out is committed and
another payment is made: pages of one leg, both handed out. -/
def busy : List RStep := [.act (.commit "h2" 0 "m1" "s1" "" ""),
  .act (.base (.post { id := "x", source := "b", destination := "c", reference := "r3", amount := 5, precision := 1, allowOverdraft := true
                       status := .queued, createdAt := 9 } "" ""))]

theorem busy_course : Course {} (Atomic.inflightLegs · "P") (firstOnly busy) (after (twoHolds 1 2) busy {}) (fun _ => legs1 1 2) where
  next := after_next _ _ _
  answer := after_all (P := fun db => Answer (Atomic.inflightLegs db "P") (legs1 1 2)) (by decide +kernel) (by decide +kernel)

example : (rsteps {} (twoHolds 1 2) busy).txns.length = 4 ∧ (legs1 1 2).map (·.id) = ["h2", "h1"] ∧
    (∃ out, Walk 1 (fun _ => legs1 1 2) 0 0 out ∧ out.map (·.id) = ["h2", "h1"]) ∧
    ∀ out, Walk 1 (fun _ => legs1 1 2) 0 0 out → out.Perm (Atomic.inflightLegs (twoHolds 1 2) "P") := by
  refine ⟨by decide +kernel, by decide +kernel, ?_, ?_⟩
  · exact ⟨_, .next (by decide +kernel) (.next (by decide +kernel) (.stop (by decide +kernel))), by decide +kernel⟩
  · intro out h
    refine c57_legs_walk_once_partial (by decide) busy_course ?_ ⟨_, List.mem_of_mem_head? (by decide +kernel : (twoHolds 1 2).txns.head? = some ((twoHolds 1 2).txns.head (by decide +kernel))), by decide +kernel⟩ ?_ h
    · exact after_all (P := fun db => Untied (Atomic.inflightLegs db "P")) (by decide +kernel) (by decide +kernel)
    · intro k s hs
      cases k with
      | zero =>
        simp only [firstOnly, busy, List.mem_cons, List.not_mem_nil, or_false] at hs
        rcases hs with rfl | rfl
        · exact True.intro
        · refine ⟨?_, by intro t ht; cases ht⟩
          intro t ht
          simp only [Op.posts, List.mem_singleton] at ht
          subst ht
          exact .inl rfl
      | succ k => cases hs

/-! ### What fails -/

/-- The full claim for the legs of a parent: whatever happens meanwhile, a walk that ends has handed
out every leg exactly once. -/
def C57Full : Prop := ∀ (cfg : Cfg) (id : String) (size : Nat) (before : List RStep) (between : Nat → List RStep) (S : Nat → DB)
    (q : Nat → List Txn) (out : List Txn), 0 < size → S 0 = rsteps cfg {} before →
    Course cfg (Atomic.inflightLegs · id) between S q → Walk size q 0 0 out → out.Perm (Atomic.inflightLegs (S 0) id)

/-- Legs created at the same time, as the legs of one split are: the database may order them
differently for the second page. One leg is handed out twice, the other never, and nothing reports it. -/
theorem c57_ties_fail : ∃ (S : Nat → DB) (q : Nat → List Txn) (out : List Txn),
    S 0 = twoHolds 1 1 ∧ Course {} (Atomic.inflightLegs · "P") (fun _ => []) S q ∧ Walk 1 q 0 0 out ∧
    out.map (·.id) = ["h2", "h2"] ∧ (Atomic.inflightLegs (S 0) "P").map (·.id) = ["h2", "h1"] := by
  refine ⟨fun _ => twoHolds 1 1, fun k => if k = 1 then (legs1 1 1).reverse else legs1 1 1, _, rfl,
    ⟨fun k => rfl, ?_⟩, .next ?_ (.next ?_ (.stop ?_)), ?_, ?_⟩
  · intro k
    by_cases hk : k = 1
    · subst hk; decide +kernel
    · rw [if_neg hk]; decide +kernel
  all_goals decide +kernel

theorem c57_full_fails : ¬ C57Full := by
  intro h
  obtain ⟨S, q, out, h0, hc, hw, e1, e2⟩ := c57_ties_fail
  have := h {} "P" 1 _ _ S q out (by decide) h0 hc hw
  have h1 := this.map (·.id)
  rw [e1, e2] at h1
  revert h1
  decide

/-- A bulk request of two holds, both still queued. -/
def twoQueued : DB :=
  rsteps {} {} [.act (.base (.create "a" "" "USD")), .act (.base (.create "b" "" "USD")), .act (.base (.create "c" "" "USD")),
    .act (.base (.store { id := "l1", parent := "bulk_1", source := "a", destination := "b", reference := "r1", amount := 30, precision := 1, preciseAmount := some 30
                          allowOverdraft := true, inflight := true, status := .queued, createdAt := 1, metaInflight := some true, metaQueuedParent := "bulk_1" })),
    .act (.base (.store { id := "l2", parent := "bulk_1", source := "a", destination := "c", reference := "r2", amount := 70, precision := 1, preciseAmount := some 70
                          allowOverdraft := true, inflight := true, status := .queued, createdAt := 2, metaInflight := some true, metaQueuedParent := "bulk_1" }))]

/-- The queue applies the newer leg. -/
def applyNewer : List RStep :=
  (twoQueued.txns.filter (·.id = "l2")).map fun t => .act (.base (.post (Queue.queueCopy t "c2") "" ""))

/-- Legs that reach the books while the pages are read: the first page is a queued leg; then the
listing switches to the legs on the books, the offset points behind them, and the walk ends. The
other leg is never handed out, with distinct creation times and no error. -/
theorem c57_queued_leg_skipped : ∃ (S : Nat → DB) (q : Nat → List Txn) (out : List Txn),
    S 0 = twoQueued ∧ (∀ k, Untied (Atomic.inflightLegs (S k) "bulk_1")) ∧
    Course {} (Atomic.inflightLegs · "bulk_1") (firstOnly applyNewer) S q ∧ Walk 1 q 0 0 out ∧
    out.map (·.id) = ["l2"] ∧ (Atomic.inflightLegs (S 0) "bulk_1").map (·.id) = ["l2", "l1"] ∧
    (Atomic.inflightLegs (S 1) "bulk_1").map (·.id) = ["c2"] := by
  refine ⟨after twoQueued applyNewer {}, fun k => Atomic.inflightLegs (after twoQueued applyNewer {} k) "bulk_1", _, rfl, ?_,
    ⟨after_next _ _ _, ?_⟩, .next ?_ (.stop ?_), ?_, ?_, ?_⟩
  · exact after_all (P := fun db => Untied (Atomic.inflightLegs db "bulk_1")) (by decide +kernel) (by decide +kernel)
  · exact after_all (P := fun db => Answer (Atomic.inflightLegs db "bulk_1") (Atomic.inflightLegs db "bulk_1")) (by decide +kernel) (by decide +kernel)
  all_goals decide +kernel

/-- An applied payment "p". -/
def onePaid : DB :=
  rsteps {} {} [.act (.base (.create "a" "" "USD")), .act (.base (.create "b" "" "USD")),
    .act (.base (.post { id := "p", source := "a", destination := "b", reference := "r1", amount := 30, precision := 1
                         allowOverdraft := true, status := .queued, createdAt := 1 } "" ""))]

/-- The worker refunds the payment while the next page is read. -/
def refundNow : List RStep := (onePaid.txns.filter (·.id = "p")).map fun t => .refund { t with createdAt := 5 } true "f1" "" ""

/-- A synchronous refund request hands the same payment to the workers twice: the refund just made
is listed in front of it. -/
theorem c57_refund_twice : ∃ (S : Nat → DB) (q : Nat → List Txn) (out : List Txn),
    S 0 = onePaid ∧ (∀ k, Untied ((S k).refundables "p")) ∧ Course {} (·.refundables "p") (firstOnly refundNow) S q ∧
    Walk 1 q 0 0 out ∧ out.map (·.id) = ["p", "p"] ∧ ((S 1).refundables "p").map (·.id) = ["f1", "p"] := by
  refine ⟨after onePaid refundNow {}, fun k => (after onePaid refundNow {} k).refundables "p", _, rfl, ?_,
    ⟨after_next _ _ _, ?_⟩, .next ?_ (.next ?_ (.stop ?_)), ?_, ?_⟩
  · exact after_all (P := fun db => Untied (DB.refundables db "p")) (by decide +kernel) (by decide +kernel)
  · exact after_all (P := fun db => Answer (DB.refundables db "p") (DB.refundables db "p")) (by decide +kernel) (by decide +kernel)
  all_goals decide +kernel

end Blnk.Paging
