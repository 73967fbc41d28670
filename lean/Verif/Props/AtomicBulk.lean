import Verif.Model.AtomicBulk
import Verif.Props.Refund
/-
C53: a failed atomic bulk request leaves no net effect.
-/
namespace Blnk.Atomic

/-! ### Rows keep their queued-parent mark -/

theorem applyPrecision_meta (t : Txn) : t.applyPrecision.metaQueuedParent = t.metaQueuedParent := by
  unfold Txn.applyPrecision
  simp only
  split
  · split <;> (split <;> rfl)
  · split <;> rfl

theorem finalRow_meta (t : Txn) : (finalRow t).metaQueuedParent = t.metaQueuedParent := by
  unfold finalRow clearTerminalInflight applyRecord
  split <;> (split <;> simp [applyPrecision_meta])

theorem step_meta (cfg : Cfg) (db : DB) (op : Op) : ∃ new, (step cfg db op).1.txns = db.txns ++ new ∧
    ∀ r ∈ new, (∃ t ∈ op.posts, r.metaQueuedParent = t.metaQueuedParent) ∨ op = .store r := by
  cases op with
  | create i ind cur =>
    refine ⟨[], ?_, by simp⟩
    simp only [step]
    split
    · rename_i db' h; simp [(createBalance_effect h).2]
    · simp
  | post t n1 n2 =>
    simp only [step]
    unfold recordSingle
    split
    · exact ⟨[], by simp, by simp⟩
    · rename_i db1 sid h1
      split
      · exact ⟨[], by simp [(resolve_onlyOpened h1).txns], by simp⟩
      · rename_i db2 did h2
        have e : db2.txns = db.txns := ((resolve_onlyOpened h1).trans (resolve_onlyOpened h2)).txns
        unfold postResolved
        split
        · exact ⟨[], by simp [e], by simp⟩
        · exact ⟨[], by simp [e], by simp⟩
        · rename_i w hw
          split
          · rename_i db' hp
            obtain ⟨_, _, _, rfl⟩ := persist_ok hp
            obtain ⟨_, s, d, s', d', _, _, _, _, rfl⟩ := prepareSingle_some hw
            refine ⟨[finalRow { t with source := sid, destination := did }], by simp [e], ?_⟩
            intro r hr
            simp at hr
            subst hr
            exact .inl ⟨t, by simp [Op.posts], finalRow_meta _⟩
          · exact ⟨[], by simp [e], by simp⟩
  | batch ts =>
    simp only [step, recordBatch]
    split
    · exact ⟨[], by simp, by simp⟩
    · rename_i w hw
      split
      · rename_i db' hp
        obtain ⟨_, _, _, rfl⟩ := persist_ok hp
        obtain ⟨bs, _, hm⟩ := prepareBatch_ok hw
        refine ⟨w.rows, rfl, ?_⟩
        rw [prepareMembers_rows hm]
        intro r hr
        obtain ⟨t, ht, rfl⟩ := List.mem_map.1 hr
        exact .inl ⟨t, ht, by rw [finalRow_meta]; rfl⟩
      · exact ⟨[], by simp, by simp⟩
  | store t =>
    simp only [step]
    split
    · rename_i db' h; obtain ⟨_, _, rfl⟩ := insertTxn_ok h; exact ⟨[t], rfl, by simp⟩
    · exact ⟨[], by simp, by simp⟩

/-! ### Who else acts -/

/-- A step of somebody else: it makes no row that names the batch, and settles no hold of the batch
(their ids are in `K`). -/
def Apart (batch : String) (K : String → Prop) : Act → Prop
  | .base op => (∀ t ∈ op.posts, t.id ≠ batch ∧ t.parent ≠ batch ∧ t.metaQueuedParent ≠ batch) ∧
      ∀ t, op = .store t → t.id ≠ batch ∧ t.parent ≠ batch ∧ t.metaQueuedParent ≠ batch
  | .commit id _ _ _ _ _ => ¬ K id
  | .void id _ _ _ _ => ¬ K id

theorem Apart.spares {batch : String} {K : String → Prop} {a : Act} (h : Apart batch K a) {k : String} (hk : K k) :
    a.Spares k := by
  cases a with
  | base => trivial
  | commit => intro e; exact h (e ▸ hk)
  | void => intro e; exact h (e ▸ hk)

/-- A row that a rollback of `batch` would find. -/
def Names (batch : String) (r : Txn) : Prop := r.id = batch ∨ r.parent = batch ∨ r.metaQueuedParent = batch

/-- Every waiting row that names the batch is one of its untouched holds. -/
def Mine (batch : String) (K : String → Prop) (db : DB) : Prop :=
  ∀ r ∈ db.txns, (r.status = .inflight ∨ r.status = .queued) → Names batch r →
    r.status = .inflight ∧ K r.id ∧ r.source ≠ r.destination ∧ committed db r.id = 0 ∧ db.parentVoid r.id = false ∧ 0 < pay r

theorem act_mine {cfg : Cfg} {H K : String → Prop} {batch : String} {db : DB} {a : Act} (hk : HoldInv H db)
    (hm : Mine batch K db) (hr : a.Respects H) (ha : Apart batch K a) : Mine batch K (act cfg db a) := by
  obtain ⟨new, e⟩ := act_prefix (cfg := cfg) hk hr
  intro r hrow hst hn
  rw [e] at hrow
  rcases List.mem_append.1 hrow with hrow | hrow
  · obtain ⟨h1, h2, h3, h4, h5, h6⟩ := hm r hrow hst hn
    obtain ⟨_, e2, e3⟩ := act_spares (cfg := cfg) hk hr (ha.spares h2) hrow rfl (.inl h1)
    exact ⟨h1, h2, h3, e2.trans h4, e3.trans h5, h6⟩
  · exfalso
    cases a with
    | base op =>
      obtain ⟨n1, g, h1⟩ := ordinary_grown (cfg := cfg) hk.inv hr.1
      obtain ⟨n2, g2, h2⟩ := step_meta cfg db op
      have e1 : n1 = new := List.append_cancel_left (g.txns.symm.trans e)
      have e2 : n2 = new := List.append_cancel_left (g2.symm.trans e)
      subst e1 e2
      rcases h2 r hrow with ⟨t, ht, hmeta⟩ | rfl
      · rcases h1 r hrow with ⟨u, hu, ⟨hid, _⟩, hp, _⟩ | rfl
        · rcases hn with h | h | h
          · exact (ha.1 u hu).1 (hid ▸ h)
          · exact (ha.1 u hu).2.1 (hp ▸ h)
          · exact (ha.1 t ht).2.2 (hmeta ▸ h)
        · simp [Op.posts] at ht
      · rcases hn with h | h | h
        · exact (ha.2 r rfl).1 h
        · exact (ha.2 r rfl).2.1 h
        · exact (ha.2 r rfl).2.2 h
    | commit id amt newId ref n1 n2 =>
      rcases commit_grown (cfg := cfg) (h := id) (newId := newId) (ref := ref) (n1 := n1) (n2 := n2) (amt := amt)
        hk.inv hk.remaining_nonneg with ⟨g, _⟩ | ⟨_, x, p, _, _, _, _, g, _, _, hs, _⟩
      · have : new = [] := (List.append_cancel_left (g.txns.symm.trans e)).symm
        subst this; simp at hrow
      · have : [x] = new := List.append_cancel_left (g.txns.symm.trans e)
        subst this; simp at hrow; subst hrow
        rw [hs.status] at hst; simp at hst
    | void id newId ref n1 n2 =>
      rcases void_grown (cfg := cfg) (h := id) (newId := newId) (ref := ref) (n1 := n1) (n2 := n2)
        hk.inv hk.remaining_nonneg with ⟨g, _⟩ | ⟨_, x, _, _, _, _, g, _, _, hs, _⟩
      · have : new = [] := (List.append_cancel_left (g.txns.symm.trans e)).symm
        subst this; simp at hrow
      · have : [x] = new := List.append_cancel_left (g.txns.symm.trans e)
        subst this; simp at hrow; subst hrow
        rw [hs.status] at hst; simp at hst

theorem acts_mine {cfg : Cfg} {H K : String → Prop} {batch : String} {as : List Act} : ∀ {db : DB}, HoldInv H db →
    Mine batch K db → (∀ a ∈ as, a.Respects H ∧ Apart batch K a) → Mine batch K (acts cfg db as) := by
  induction as with
  | nil => intro db _ h _; exact h
  | cons a as ih =>
    intro db hk hm ha
    have h := ha a (by simp)
    exact ih (act_holdInv (cfg := cfg) hk h.1) (act_mine hk hm h.1 h.2) (fun b hb => ha b (List.mem_cons_of_mem _ hb))

/-! ### Placing the items -/

theorem bulkTxn_live (batch : String) (inflight : Bool) (t : Txn) : (bulkTxn batch inflight t).Live ∧
    (bulkTxn batch inflight t).inflight = inflight ∧ (bulkTxn batch inflight t).id = t.id ∧
    (bulkTxn batch inflight t).parent = batch := by
  have k := submit_keeps { t with inflight := inflight, skipQueue := true, parent := batch, status := .blank }
  have hs : (bulkTxn batch inflight t).status = .scheduled ∨ (bulkTxn batch inflight t).status = .queued := by
    unfold bulkTxn submit
    simp only
    have k2 := applyPrecision_keeps { t with inflight := inflight, skipQueue := true, parent := batch, status := .blank }
    split
    · exact .inl rfl
    · rw [if_pos k2.2.2.1]; exact .inr rfl
  refine ⟨⟨⟨?_, ?_⟩, ?_⟩, k.2.2.2.2.2.2.2.2, k.1, k.2.1⟩
  · rcases hs with h | h <;> rw [h] <;> decide
  · rcases hs with h | h <;> rw [h] <;> decide
  · rcases hs with h | h
    · exact .inr (.inr (.inr h))
    · exact .inr (.inl h)

/-- An item with a new id, and others minding their own business. -/
structure SlotOk (H Q K : String → Prop) (batch : String) (s : Slot) : Prop where
  whole : s.legs = []
  others : ∀ a ∈ s.others, a.Respects H ∧ a.Direct Q ∧ Apart batch K a
  hold : H s.txn.id
  mine : K s.txn.id
  plain : isIndicator s.n1 = false ∧ isIndicator s.n2 = false

theorem post_mine {cfg : Cfg} {H K : String → Prop} {batch : String} {db : DB} {t : Txn} {n1 n2 : String}
    (hk : HoldInv H db) (hm : Mine batch K db) (hH : H t.id) (hK : K t.id) :
    Mine batch K (act cfg db (.base (.post (bulkTxn batch true t) n1 n2))) := by
  obtain ⟨hl, hf, hid, hp⟩ := bulkTxn_live batch true t
  have hr : (Act.base (.post (bulkTxn batch true t) n1 n2)).Respects H := by
    refine ⟨hl, ?_, ?_⟩
    · intro u hu
      simp [Op.posts] at hu; subst hu
      rw [hf, if_pos rfl, hid]; exact hH
    · intro u hu; cases hu
  have hk' := act_holdInv (cfg := cfg) hk hr
  have hll : ∀ s d, ({ bulkTxn batch true t with source := s, destination := d } : Txn).Live := fun s d => hl
  intro r hrow hst hn
  have old : r ∈ db.txns → r.status = .inflight ∧ K r.id ∧ r.source ≠ r.destination ∧
      committed (act cfg db (.base (.post (bulkTxn batch true t) n1 n2))) r.id = 0 ∧
      (act cfg db (.base (.post (bulkTxn batch true t) n1 n2))).parentVoid r.id = false ∧ 0 < pay r := by
    intro hrow
    obtain ⟨h1, h2, h3, h4, h5, h6⟩ := hm r hrow hst hn
    obtain ⟨_, e2, e3⟩ := act_spares (cfg := cfg) (h := r.id) hk hr trivial hrow rfl (.inl h1)
    exact ⟨h1, h2, h3, e2.trans h4, e3.trans h5, h6⟩
  rcases single_grown (cfg := cfg) (t := bulkTxn batch true t) (n1 := n1) (n2 := n2) (δ := rowInfl) hk.inv
    (fun s d b b' _ => ⟨reg_live (hll s d), infl_live (hll s d)⟩) with ⟨g, _⟩ | ⟨s, d, g, _, _, _, ⟨b, b', hb⟩, hne⟩
  · refine old ?_
    have := g.txns
    simp only [act, step] at hrow
    rw [this] at hrow; simpa using hrow
  · have et : (act cfg db (.base (.post (bulkTxn batch true t) n1 n2))).txns =
      db.txns ++ [finalRow { bulkTxn batch true t with source := s, destination := d }] := g.txns
    generalize hx : finalRow { bulkTxn batch true t with source := s, destination := d } = x at *
    have kp := finalRow_keeps { bulkTxn batch true t with source := s, destination := d }
    rw [hx] at kp
    have hxid : x.id = t.id := kp.2.1.trans hid
    have hxs : x.status = .inflight := by
      rw [← hx, finalRow_status, finalStatus_live (hll s d)]
      show (if (bulkTxn batch true t).inflight then _ else _) = _
      rw [hf]; rfl
    rw [et] at hrow
    rcases List.mem_append.1 hrow with hrow | hrow
    · exact old hrow
    · simp at hrow
      subst hrow
      have fresh : ∀ c ∈ db.txns, c.status = .applied ∨ c.status = .void → c.parent ≠ r.id := by
        intro c hc hcs he
        obtain ⟨_, q, hq, hqi, _⟩ := hk.kids c hc hcs (by rw [he, hxid]; exact hH)
        have hmem : q ∈ (act cfg db (.base (.post (bulkTxn batch true t) n1 n2))).txns := by
          rw [et]; exact List.mem_append_left _ hq
        have hmem' : r ∈ (act cfg db (.base (.post (bulkTxn batch true t) n1 n2))).txns := by
          rw [et]; simp
        exact new_id hk'.inv et hq (by simp) (hqi.trans he)
      refine ⟨hxs, by rw [hxid]; exact hK, ?_, ?_, ?_, ?_⟩
      · rw [kp.2.2.1, kp.2.2.2.1]; exact hne
      · refine kidSum_zero ?_
        intro c hc hcs
        rw [et] at hc
        rcases List.mem_append.1 hc with hc | hc
        · exact fresh c hc (.inl hcs)
        · simp at hc; subst hc; rw [hxs] at hcs; cases hcs
      · refine parentVoid_false.2 ?_
        intro c hc hcs
        rw [et] at hc
        rcases List.mem_append.1 hc with hc | hc
        · exact fresh c hc (.inr hcs)
        · simp at hc; subst hc; rw [hxs] at hcs; cases hcs
      · rw [← hx]; exact finalRow_live_pos (hll s d) hb

/-- Placing items is a history of ordinary steps that keeps `Mine`. -/
theorem place_acts {cfg : Cfg} {H Q K : String → Prop} {batch : String} {ss : List Slot} : ∀ {db : DB}, HoldInv H db →
    Mine batch K db → (∀ s ∈ ss, SlotOk H Q K batch s) →
    ∃ bs, (place cfg batch true db ss).1 = acts cfg db bs ∧ (∀ b ∈ bs, b.Respects H ∧ b.Direct Q) ∧
      Mine batch K (place cfg batch true db ss).1 := by
  induction ss with
  | nil => intro db _ hm _; exact ⟨[], rfl, by simp, hm⟩
  | cons s ss ih =>
    intro db hk hm hs
    have h := hs s (by simp)
    have hk1 := acts_holdInv (cfg := cfg) hk (fun a ha => (h.others a ha).1)
    have hm1 := acts_mine (cfg := cfg) hk hm (fun a ha => ⟨(h.others a ha).1, (h.others a ha).2.2⟩)
    obtain ⟨hl, hf, hid, hp⟩ := bulkTxn_live batch true s.txn
    have hr : (Act.base (.post (bulkTxn batch true s.txn) s.n1 s.n2)).Respects H := by
      refine ⟨hl, ?_, ?_⟩
      · intro u hu
        simp [Op.posts] at hu; subst hu
        rw [hf, if_pos rfl, hid]; exact h.hold
      · intro u hu; cases hu
    have hd : (Act.base (.post (bulkTxn batch true s.txn) s.n1 s.n2)).Direct Q := by
      refine ⟨?_, ?_⟩
      · intro u hu; cases hu
      · intro i hi
        simp [Op.gens] at hi
        rcases hi with rfl | rfl
        · exact h.plain.1
        · exact h.plain.2
    have hk2 := act_holdInv (cfg := cfg) hk1 hr
    have hm2 := post_mine (cfg := cfg) (n1 := s.n1) (n2 := s.n2) hk1 hm1 h.hold h.mine
    have both : ∀ b ∈ s.others ++ [Act.base (.post (bulkTxn batch true s.txn) s.n1 s.n2)], b.Respects H ∧ b.Direct Q := by
      intro b hb
      rcases List.mem_append.1 hb with hb | hb
      · exact ⟨(h.others b hb).1, (h.others b hb).2.1⟩
      · simp at hb; subst hb; exact ⟨hr, hd⟩
    have est : (recordSingle cfg (acts cfg db s.others) (bulkTxn batch true s.txn) s.n1 s.n2).1 =
        acts cfg db (s.others ++ [Act.base (.post (bulkTxn batch true s.txn) s.n1 s.n2)]) := by
      rw [acts_append]; rfl
    have hgo : ∃ bs, (place cfg batch true (recordSingle cfg (acts cfg db s.others) (bulkTxn batch true s.txn) s.n1 s.n2).1 ss).1 = acts cfg db bs ∧
        (∀ b ∈ bs, b.Respects H ∧ b.Direct Q) ∧
        Mine batch K (place cfg batch true (recordSingle cfg (acts cfg db s.others) (bulkTxn batch true s.txn) s.n1 s.n2).1 ss).1 := by
      obtain ⟨bs, e, hb, hm3⟩ := ih (db := (recordSingle cfg (acts cfg db s.others) (bulkTxn batch true s.txn) s.n1 s.n2).1)
        hk2 hm2 (fun x hx => hs x (List.mem_cons_of_mem _ hx))
      refine ⟨(s.others ++ [Act.base (.post (bulkTxn batch true s.txn) s.n1 s.n2)]) ++ bs, ?_, ?_, hm3⟩
      · rw [e, est, acts_append (bs := bs)]
      · intro b hb'
        rcases List.mem_append.1 hb' with hb' | hb'
        · exact both b hb'
        · exact hb b hb'
    simp only [place, h.whole, if_true]
    cases ho : (recordSingle cfg (acts cfg db s.others) (bulkTxn batch true s.txn) s.n1 s.n2).2 with
    | refused e => exact ⟨_, est, both, hm2⟩
    | posted rows => simpa using hgo
    | discarded => simpa using hgo

/-! ### Voiding what was placed -/

/-- Generated ids and references of the rollback are new when they are used. -/
def VoidsFresh (cfg : Cfg) : DB → List (Txn × VSlot) → Prop
  | _, [] => True
  | db, (r, v) :: rest =>
    (acts cfg db v.others).hasTxnId v.newId = false ∧ (acts cfg db v.others).hasRef v.ref = false ∧
    VoidsFresh cfg (voidInflight cfg (acts cfg db v.others) r.id v.newId v.ref v.n1 v.n2).1 rest

structure VSlotOk (H Q K : String → Prop) (batch : String) (v : VSlot) : Prop where
  others : ∀ a ∈ v.others, a.Respects H ∧ a.Direct Q ∧ Apart batch K a
  plain : isIndicator v.n1 = false ∧ isIndicator v.n2 = false

/-- An untouched hold of the batch. -/
structure Untouched (K : String → Prop) (db : DB) (r : Txn) : Prop where
  row : r ∈ db.txns
  status : r.status = .inflight
  mine : K r.id
  distinct : r.source ≠ r.destination
  committed : committed db r.id = 0
  notVoid : db.parentVoid r.id = false
  amount : 0 < pay r

theorem Untouched.open {K : String → Prop} {db : DB} {r : Txn} (h : Untouched K db r) : openAmount db r = pay r := by
  have : released db r.id = 0 := kidSum_zero (fun c hc hcs => parentVoid_false.1 h.notVoid c hc hcs)
  unfold openAmount
  rw [h.committed, this]; omega

theorem Untouched.acts {cfg : Cfg} {H K : String → Prop} {db : DB} {bs : List Act} {r : Txn} (hk : HoldInv H db)
    (h : Untouched K db r) (hb : ∀ b ∈ bs, b.Respects H ∧ b.Spares r.id) : Untouched K (acts cfg db bs) r := by
  obtain ⟨new, e⟩ := acts_prefix (cfg := cfg) hk (fun b hm => (hb b hm).1)
  obtain ⟨_, e2, e3⟩ := acts_spares (cfg := cfg) rfl (.inl h.status) hk hb h.row
  exact ⟨by rw [e]; exact List.mem_append_left _ h.row, h.status, h.mine, h.distinct, e2.trans h.committed,
    e3.trans h.notVoid, h.amount⟩

theorem voidAll_ok {cfg : Cfg} {H Q K : String → Prop} {batch : String} (hQ : ∀ k, K k → ¬ Q k) {ps : List (Txn × VSlot)} :
    ∀ {as : List Act}, (∀ a ∈ as, a.Respects H ∧ a.Direct Q) →
    (ps.map (fun p => p.1.id)).Nodup →
    (∀ p ∈ ps, Untouched K (acts cfg {} as) p.1 ∧ VSlotOk H Q K batch p.2) →
    VoidsFresh cfg (acts cfg {} as) ps →
    (∀ o ∈ (voidAll cfg (acts cfg {} as) ps).2, ∃ x, o = .ok (.posted [x])) ∧
    (voidAll cfg (acts cfg {} as) ps).2.length = ps.length ∧
    (∃ bs, (voidAll cfg (acts cfg {} as) ps).1 = acts cfg (acts cfg {} as) bs ∧
      (∀ b ∈ bs, b.Respects H ∧ b.Direct Q) ∧
      ∀ k, K k → k ∉ ps.map (fun p => p.1.id) → ∀ b ∈ bs, b.Spares k) ∧
    ∀ p ∈ ps, committed (voidAll cfg (acts cfg {} as) ps).1 p.1.id = 0 ∧
      (voidAll cfg (acts cfg {} as) ps).1.parentVoid p.1.id = true := by
  induction ps with
  | nil => intro as _ _ _ _; exact ⟨by simp [voidAll], rfl, ⟨[], rfl, by simp, by simp⟩, by simp⟩
  | cons p ps ih =>
    intro as has hnd hp hfr
    obtain ⟨r, v⟩ := p
    obtain ⟨hu, hv⟩ := hp (r, v) (by simp)
    obtain ⟨f1, f2, f3⟩ := hfr
    simp only [List.map_cons, List.nodup_cons] at hnd
    have hk0 := acts_holdInv (cfg := cfg) (init_holdInv H) (fun a ha => (has a ha).1)
    -- the state in which the void runs
    have e1 : acts cfg (acts cfg {} as) v.others = acts cfg {} (as ++ v.others) := (acts_append ..).symm
    have has1 : ∀ a ∈ as ++ v.others, a.Respects H ∧ a.Direct Q := by
      intro a ha
      rcases List.mem_append.1 ha with ha | ha
      · exact has a ha
      · exact ⟨(hv.others a ha).1, (hv.others a ha).2.1⟩
    have hu1 : Untouched K (acts cfg {} (as ++ v.others)) r := by
      rw [← e1]
      exact hu.acts hk0 (fun b hb => ⟨(hv.others b hb).1, (hv.others b hb).2.2.spares hu.mine⟩)
    rw [e1] at f1 f2 f3
    have hk1 := acts_holdInv (cfg := cfg) (init_holdInv H) (fun a ha => (has1 a ha).1)
    obtain ⟨x, hx⟩ := c26_void_succeeds_partial cfg H Q (as ++ v.others) has1 r hu1.row hu1.status hu1.distinct
      (by rw [hu1.open]; exact hu1.amount) v.newId v.ref v.n1 v.n2 f1 f2
    -- the state after it
    have hvr : (Act.void r.id v.newId v.ref v.n1 v.n2).Respects H := trivial
    have hvd : (Act.void r.id v.newId v.ref v.n1 v.n2).Direct Q := ⟨hQ _ hu.mine, hv.plain⟩
    have e2 : (voidInflight cfg (acts cfg {} (as ++ v.others)) r.id v.newId v.ref v.n1 v.n2).1 =
        acts cfg {} (as ++ v.others ++ [.void r.id v.newId v.ref v.n1 v.n2]) := by
      rw [acts_append (bs := [Act.void ..])]; rfl
    have has2 : ∀ a ∈ as ++ v.others ++ [Act.void r.id v.newId v.ref v.n1 v.n2], a.Respects H ∧ a.Direct Q := by
      intro a ha
      rcases List.mem_append.1 ha with ha | ha
      · exact has1 a ha
      · simp at ha; subst ha; exact ⟨hvr, hvd⟩
    have hk2 := acts_holdInv (cfg := cfg) (init_holdInv H) (fun a ha => (has2 a ha).1)
    have closed : committed (acts cfg {} (as ++ v.others ++ [.void r.id v.newId v.ref v.n1 v.n2])) r.id = 0 ∧
        (acts cfg {} (as ++ v.others ++ [.void r.id v.newId v.ref v.n1 v.n2])).parentVoid r.id = true ∧
        r ∈ (acts cfg {} (as ++ v.others ++ [.void r.id v.newId v.ref v.n1 v.n2])).txns := by
      rw [← e2]
      rcases void_grown (cfg := cfg) (h := r.id) (newId := v.newId) (ref := v.ref) (n1 := v.n1) (n2 := v.n2)
        hk1.inv hk1.remaining_nonneg with ⟨_, hno⟩ | ⟨_, y, _, _, _, _, g, _, _, hs, _⟩
      · exact absurd hx (hno _)
      · refine ⟨?_, ?_, by rw [g.txns]; exact List.mem_append_left _ hu1.row⟩
        · rw [← hu1.committed]
          refine kidSum_same g.txns ?_
          intro z hz hzs
          simp at hz; subst hz; rw [hs.status] at hzs; cases hzs
        · cases hpv : (voidInflight cfg (acts cfg {} (as ++ v.others)) r.id v.newId v.ref v.n1 v.n2).1.parentVoid r.id with
          | true => rfl
          | false => exact absurd hs.parent (parentVoid_false.1 hpv y (by rw [g.txns]; simp) hs.status)
    have hp2 : ∀ p ∈ ps, Untouched K (acts cfg {} (as ++ v.others ++ [.void r.id v.newId v.ref v.n1 v.n2])) p.1 ∧
        VSlotOk H Q K batch p.2 := by
      intro q hq
      obtain ⟨hqu, hqv⟩ := hp q (List.mem_cons_of_mem _ hq)
      refine ⟨?_, hqv⟩
      rw [List.append_assoc, acts_append]
      refine hqu.acts hk0 ?_
      intro b hb
      rcases List.mem_append.1 hb with hb | hb
      · exact ⟨(hv.others b hb).1, (hv.others b hb).2.2.spares hqu.mine⟩
      · simp at hb; subst hb
        exact ⟨hvr, fun e => hnd.1 (List.mem_map.2 ⟨q, hq, e.symm⟩)⟩
    rw [e2] at f3
    obtain ⟨g1, g2, ⟨bs, g3, g4, g5⟩, g6⟩ := ih has2 hnd.2 hp2 f3
    have efin : voidAll cfg (acts cfg {} as) ((r, v) :: ps) =
        ((voidAll cfg (acts cfg {} (as ++ v.others ++ [.void r.id v.newId v.ref v.n1 v.n2])) ps).1,
          .ok (.posted [x]) :: (voidAll cfg (acts cfg {} (as ++ v.others ++ [.void r.id v.newId v.ref v.n1 v.n2])) ps).2) := by
      simp only [voidAll, e1, hx, e2]
    rw [efin]
    refine ⟨?_, congrArg (· + 1) g2, ⟨v.others ++ [.void r.id v.newId v.ref v.n1 v.n2] ++ bs, ?_, ?_, ?_⟩, ?_⟩
    · intro o ho
      rcases List.mem_cons.1 ho with rfl | ho
      · exact ⟨x, rfl⟩
      · exact g1 o ho
    · show (voidAll cfg _ ps).1 = _
      rw [g3]
      simp only [acts_append]
    · intro b hb
      rcases List.mem_append.1 hb with hb | hb
      · rcases List.mem_append.1 hb with hb | hb
        · exact ⟨(hv.others b hb).1, (hv.others b hb).2.1⟩
        · simp at hb; subst hb; exact ⟨hvr, hvd⟩
      · exact g4 b hb
    · intro k hK hnot b hb
      simp only [List.map_cons, List.mem_cons, not_or] at hnot
      rcases List.mem_append.1 hb with hb | hb
      · rcases List.mem_append.1 hb with hb | hb
        · exact (hv.others b hb).2.2.spares hK
        · simp at hb; subst hb; exact fun e => hnot.1 e.symm
      · exact g5 k hK hnot.2 b hb
    · intro q hq
      rcases List.mem_cons.1 hq with rfl | hq
      · show committed (voidAll cfg _ ps).1 r.id = 0 ∧ _
        obtain ⟨_, e4, e5⟩ := acts_spares (cfg := cfg) (as := bs) rfl (.inl hu.status) hk2
          (fun b hb => ⟨(g4 b hb).1, g5 r.id hu.mine hnd.1 b hb⟩) closed.2.2
        rw [g3]
        exact ⟨e4.trans closed.1, e5.trans closed.2.1⟩
      · exact g6 q hq

/-! ### C53, inflight requests -/

/-- A row that belongs to the batch: one of the holds rolled back, or the VOID row of one. -/
def Own (legs : List Txn) (r : Txn) : Bool :=
  legs.any (fun l => l.id = r.id) || (r.status = .void && legs.any (fun l => l.id = r.parent))

theorem out_filter {f : Txn → Int} {i : String} {q : Txn → Bool} {l : List Txn} (h : ∀ t ∈ l, q t = true → f t = 0) :
    out f i l = out f i (l.filter (fun t => !q t)) := by
  induction l with
  | nil => rfl
  | cons t l ih =>
    have := ih (fun x hx => h x (List.mem_cons_of_mem _ hx))
    cases hq : q t with
    | true => simp [hq, out_cons, h t (by simp) hq, this]
    | false => simp [hq, out_cons, this]

theorem inn_filter {f : Txn → Int} {i : String} {q : Txn → Bool} {l : List Txn} (h : ∀ t ∈ l, q t = true → f t = 0) :
    inn f i l = inn f i (l.filter (fun t => !q t)) := by
  induction l with
  | nil => rfl
  | cons t l ih =>
    have := ih (fun x hx => h x (List.mem_cons_of_mem _ hx))
    cases hq : q t with
    | true => simp [hq, inn_cons, h t (by simp) hq, this]
    | false => simp [hq, inn_cons, this]

theorem inflightLegs_mine {K : String → Prop} {batch : String} {db : DB} (hm : Mine batch K db) :
    ∀ r ∈ inflightLegs db batch, Untouched K db r := by
  intro r hr
  unfold inflightLegs at hr
  simp only at hr
  have key : r ∈ db.txns → (r.status = .inflight ∨ r.status = .queued) → Names batch r → Untouched K db r := by
    intro h1 h2 h3
    obtain ⟨a, b, c, d, e, f⟩ := hm r h1 h2 h3
    exact ⟨h1, a, b, c, d, e, f⟩
  split at hr
  · simp only [List.mem_reverse, List.mem_filter] at hr
    obtain ⟨h1, h2⟩ := hr
    simp at h2
    obtain ⟨⟨⟨⟨ha, hb⟩, _⟩, _⟩, _⟩ := h2
    exact key h1 (.inr hb) (ha.elim .inl (fun h => .inr (.inl h)))
  · simp only [List.mem_reverse, List.mem_filter] at hr
    obtain ⟨h1, h2⟩ := hr
    simp at h2
    exact key h1 (.inl h2.2) (h2.1.elim (fun h => h.elim .inl (fun h => .inr (.inl h))) (fun h => .inr (.inr h)))

theorem inflightLegs_nodup {db : DB} (hi : Inv db) (batch : String) : ((inflightLegs db batch).map (·.id)).Nodup := by
  have hn := hi.unique.txnIds
  unfold inflightLegs
  simp only
  split
  · rw [List.map_reverse]
    exact (List.reverse_perm _).nodup_iff.2 (hn.sublist (List.filter_sublist.map _))
  · rw [List.map_reverse]
    exact (List.reverse_perm _).nodup_iff.2 (hn.sublist (List.filter_sublist.map _))

/-- C53 for inflight requests, while others work on the same accounts: every void of the rollback
succeeds, the holds of the batch are all found, and afterwards every column of every account is
the sum over the rows that are not the batch's. -/
theorem c53_inflight_rolled_back (cfg : Cfg) (H Q K : String → Prop) (hQ : ∀ k, K k → ¬ Q k) (batch : String)
    (as : List Act) (has : ∀ a ∈ as, a.Respects H ∧ a.Direct Q ∧ Apart batch K a)
    (ss : List Slot) (hss : ∀ s ∈ ss, SlotOk H Q K batch s) (ps : List (Txn × VSlot))
    (hps : ps.map (·.1) = inflightLegs (place cfg batch true (acts cfg {} as) ss).1 batch)
    (hv : ∀ p ∈ ps, VSlotOk H Q K batch p.2)
    (hfr : VoidsFresh cfg (place cfg batch true (acts cfg {} as) ss).1 ps) :
    let db2 := (voidAll cfg (place cfg batch true (acts cfg {} as) ss).1 ps).1
    let rest := db2.txns.filter (fun r => !Own (ps.map (·.1)) r)
    (∀ o ∈ (voidAll cfg (place cfg batch true (acts cfg {} as) ss).1 ps).2, ∃ x, o = .ok (.posted [x])) ∧
    (∀ r ∈ (place cfg batch true (acts cfg {} as) ss).1.txns, r.status = .inflight → r.parent = batch →
      r ∈ ps.map (·.1)) ∧
    ∀ i, col (·.debit) db2 i = out rowReg i rest ∧ col (·.credit) db2 i = inn rowReg i rest ∧
      col (·.inflightDebit) db2 i = out (heldOf db2) i rest ∧ col (·.inflightCredit) db2 i = inn (heldOf db2) i rest := by
  intro db2 rest
  have hk0 := acts_holdInv (cfg := cfg) (init_holdInv H) (fun a ha => (has a ha).1)
  have hm0 : Mine batch K (acts cfg {} as) :=
    acts_mine (cfg := cfg) (init_holdInv H) (by intro r hr; simp at hr) (fun a ha => ⟨(has a ha).1, (has a ha).2.2⟩)
  obtain ⟨bs, ep, hb, hm1⟩ := place_acts (cfg := cfg) hk0 hm0 hss
  have e1 : (place cfg batch true (acts cfg {} as) ss).1 = acts cfg {} (as ++ bs) := by rw [ep, acts_append]
  have has1 : ∀ a ∈ as ++ bs, a.Respects H ∧ a.Direct Q := by
    intro a ha
    rcases List.mem_append.1 ha with ha | ha
    · exact ⟨(has a ha).1, (has a ha).2.1⟩
    · exact hb a ha
  have hk1 := acts_holdInv (cfg := cfg) (init_holdInv H) (fun a ha => (has1 a ha).1)
  have hlegs := inflightLegs_mine hm1
  have hmap : ps.map (fun p => p.1.id) = (inflightLegs (place cfg batch true (acts cfg {} as) ss).1 batch).map (·.id) := by
    rw [← hps, List.map_map]; rfl
  have hnd : (ps.map (fun p => p.1.id)).Nodup := by
    rw [hmap]
    exact inflightLegs_nodup (by rw [e1]; exact hk1.inv) batch
  have hp : ∀ p ∈ ps, Untouched K (acts cfg {} (as ++ bs)) p.1 ∧ VSlotOk H Q K batch p.2 := by
    intro p hpm
    refine ⟨?_, hv p hpm⟩
    rw [← e1]
    exact hlegs _ (by rw [← hps]; exact List.mem_map.2 ⟨p, hpm, rfl⟩)
  have hall : ∀ r ∈ (place cfg batch true (acts cfg {} as) ss).1.txns, r.status = .inflight → r.parent = batch →
      r ∈ ps.map (·.1) := by
    intro r hr hs hpar
    rw [hps]
    unfold inflightLegs
    simp only
    have hmem : r ∈ (place cfg batch true (acts cfg {} as) ss).1.txns.filter
        (fun t => (t.id = batch || t.parent = batch || t.metaQueuedParent = batch) && t.status = .inflight) := by
      rw [List.mem_filter]; exact ⟨hr, by simp [hs, hpar]⟩
    split
    · rename_i h; rw [h] at hmem; simp at hmem
    · exact List.mem_reverse.2 hmem
  rw [e1] at hfr
  obtain ⟨g1, _, ⟨cs, g3, g4, _⟩, g6⟩ := voidAll_ok (cfg := cfg) hQ has1 hnd hp hfr
  have hall2 : ∀ a ∈ as ++ bs ++ cs, a.Respects H ∧ a.Direct Q := by
    intro a ha
    rcases List.mem_append.1 ha with ha | ha
    · exact has1 a ha
    · exact g4 a ha
  have e2 : db2 = acts cfg {} (as ++ bs ++ cs) := by
    show (voidAll cfg (place cfg batch true (acts cfg {} as) ss).1 ps).1 = _
    rw [e1, g3, ← acts_append]
  have hf := acts_fundInv (cfg := cfg) (init_fundInv H Q) hall2
  have hbk := acts_book (cfg := cfg) (init_holdInv H) (db := {}) ⟨fun i => rfl, fun i => rfl⟩ (fun a ha => (hall2 a ha).1)
  rw [← e2] at hf hbk
  obtain ⟨new, enew⟩ := acts_prefix (cfg := cfg) hk1 (fun b hb => (g4 b hb).1)
  have etx : db2.txns = (acts cfg {} (as ++ bs)).txns ++ new := by
    rw [e2, acts_append (bs := cs)]; exact enew
  have hleg : ∀ t ∈ db2.txns, Own (ps.map (·.1)) t = true →
      (t.status = .inflight ∧ heldOf db2 t = 0) ∨ t.status = .void := by
    intro t ht ho
    unfold Own at ho
    rw [Bool.or_eq_true] at ho
    rcases ho with ho | ho
    · rw [List.any_eq_true] at ho
      obtain ⟨l, hl, hid⟩ := ho
      obtain ⟨p, hpm, rfl⟩ := List.mem_map.1 hl
      have hu := (hp p hpm).1
      have : p.1 = t := row_unique hf.inv (by rw [etx]; exact List.mem_append_left _ hu.row) ht (by simpa using hid)
      subst this
      have hc := g6 p hpm
      rw [← e1] at hc
      refine .inl ⟨hu.status, ?_⟩
      have := hf.closed p.1 ht (.inl hu.status) hc.2
      rw [heldOf, if_pos hu.status, openAmount]
      omega
    · rw [Bool.and_eq_true] at ho
      exact .inr (by simpa using ho.1)
  have reg0 : ∀ t ∈ db2.txns, Own (ps.map (·.1)) t = true → rowReg t = 0 := by
    intro t ht ho
    rcases hleg t ht ho with ⟨h, _⟩ | h <;> simp [rowReg, h]
  have held0 : ∀ t ∈ db2.txns, Own (ps.map (·.1)) t = true → heldOf db2 t = 0 := by
    intro t ht ho
    rcases hleg t ht ho with ⟨_, h⟩ | h
    · exact h
    · simp [heldOf, h]
  refine ⟨by rw [e1]; exact g1, hall, fun i => ⟨?_, ?_, ?_, ?_⟩⟩
  · rw [hbk.debit]; exact out_filter reg0
  · rw [hbk.credit]; exact inn_filter reg0
  · rw [hf.debit]; exact out_filter held0
  · rw [hf.credit]; exact inn_filter held0

/-! ### C53, inflight requests with nothing else going on -/

theorem place_rows {cfg : Cfg} {H Q K : String → Prop} {batch : String} {ss : List Slot} : ∀ {db : DB}, HoldInv H db →
    (∀ s ∈ ss, SlotOk H Q K batch s ∧ s.others = []) →
    ∃ new, (place cfg batch true db ss).1.txns = db.txns ++ new ∧ ∀ r ∈ new, r.status = .inflight ∧ r.parent = batch := by
  induction ss with
  | nil => intro db _ _; exact ⟨[], by simp [place], by simp⟩
  | cons s ss ih =>
    intro db hk hs
    obtain ⟨h, hno⟩ := hs s (by simp)
    obtain ⟨hl, hf, hid, hp⟩ := bulkTxn_live batch true s.txn
    have hr : (Act.base (.post (bulkTxn batch true s.txn) s.n1 s.n2)).Respects H := by
      refine ⟨hl, ?_, ?_⟩
      · intro u hu
        simp [Op.posts] at hu; subst hu
        rw [hf, if_pos rfl, hid]; exact h.hold
      · intro u hu; cases hu
    have hll : ∀ a b, ({ bulkTxn batch true s.txn with source := a, destination := b } : Txn).Live := fun a b => hl
    have hk2 : HoldInv H (recordSingle cfg db (bulkTxn batch true s.txn) s.n1 s.n2).1 := act_holdInv (cfg := cfg) hk hr
    have h1 : ∃ new, (recordSingle cfg db (bulkTxn batch true s.txn) s.n1 s.n2).1.txns = db.txns ++ new ∧
        ∀ r ∈ new, r.status = .inflight ∧ r.parent = batch := by
      rcases single_grown (cfg := cfg) (t := bulkTxn batch true s.txn) (n1 := s.n1) (n2 := s.n2) (δ := rowInfl) hk.inv
        (fun a b _ _ _ => ⟨reg_live (hll a b), infl_live (hll a b)⟩) with ⟨g, _⟩ | ⟨a, b, g, _⟩
      · exact ⟨[], g.txns, by simp⟩
      · refine ⟨_, g.txns, ?_⟩
        intro r hr
        simp at hr; subst hr
        refine ⟨?_, ?_⟩
        · rw [finalRow_status, finalStatus_live (hll a b)]
          show (if (bulkTxn batch true s.txn).inflight then _ else _) = _
          rw [hf]; rfl
        · rw [(finalRow_keeps _).2.2.2.2.2]; exact hp
    obtain ⟨n1, e1, g1⟩ := h1
    have hgo : ∃ new, (place cfg batch true (recordSingle cfg db (bulkTxn batch true s.txn) s.n1 s.n2).1 ss).1.txns = db.txns ++ new ∧
        ∀ r ∈ new, r.status = .inflight ∧ r.parent = batch := by
      obtain ⟨n2, e2, g2⟩ := ih hk2 (fun x hx => hs x (List.mem_cons_of_mem _ hx))
      refine ⟨n1 ++ n2, by rw [e2, e1, List.append_assoc], ?_⟩
      intro r hr
      rcases List.mem_append.1 hr with hr | hr
      · exact g1 r hr
      · exact g2 r hr
    simp only [place, h.whole, hno, acts, if_true]
    cases ho : (recordSingle cfg db (bulkTxn batch true s.txn) s.n1 s.n2).2 with
    | refused e => exact ⟨n1, e1, g1⟩
    | posted rows => simpa using hgo
    | discarded => simpa using hgo

theorem voidAll_rows {cfg : Cfg} {H : String → Prop} {ps : List (Txn × VSlot)} : ∀ {db : DB}, HoldInv H db →
    (∀ p ∈ ps, p.2.others = []) →
    ∃ new, (voidAll cfg db ps).1.txns = db.txns ++ new ∧ ∀ r ∈ new, r.status = .void ∧ ∃ p ∈ ps, r.parent = p.1.id := by
  induction ps with
  | nil => intro db _ _; exact ⟨[], by simp [voidAll], by simp⟩
  | cons p ps ih =>
    intro db hk hs
    obtain ⟨r, v⟩ := p
    have hno : v.others = [] := hs (r, v) (by simp)
    have hk2 : HoldInv H (voidInflight cfg db r.id v.newId v.ref v.n1 v.n2).1 :=
      act_holdInv (cfg := cfg) (a := .void r.id v.newId v.ref v.n1 v.n2) hk trivial
    have h1 : ∃ new, (voidInflight cfg db r.id v.newId v.ref v.n1 v.n2).1.txns = db.txns ++ new ∧
        ∀ x ∈ new, x.status = .void ∧ x.parent = r.id := by
      rcases void_grown (cfg := cfg) (h := r.id) (newId := v.newId) (ref := v.ref) (n1 := v.n1) (n2 := v.n2)
        hk.inv hk.remaining_nonneg with ⟨g, _⟩ | ⟨_, y, _, _, _, _, g, _, _, hs, _⟩
      · exact ⟨[], g.txns, by simp⟩
      · refine ⟨[y], g.txns, ?_⟩
        intro x hx; simp at hx; subst hx; exact ⟨hs.status, hs.parent⟩
    obtain ⟨n1, e1, g1⟩ := h1
    obtain ⟨n2, e2, g2⟩ := ih hk2 (fun q hq => hs q (List.mem_cons_of_mem _ hq))
    refine ⟨n1 ++ n2, ?_, ?_⟩
    · simp only [voidAll, hno, acts]
      rw [e2, e1, List.append_assoc]
    · intro x hx
      rcases List.mem_append.1 hx with hx | hx
      · exact ⟨(g1 x hx).1, (r, v), by simp, (g1 x hx).2⟩
      · obtain ⟨a, q, hq, b⟩ := g2 x hx
        exact ⟨a, q, List.mem_cons_of_mem _ hq, b⟩

/-- C53 for inflight requests with nothing else going on: whatever item the request failed at, after
the rollback every column of every account is what it was before the request. -/
theorem c53_inflight_as_before (cfg : Cfg) (H Q K : String → Prop) (hQ : ∀ k, K k → ¬ Q k) (batch : String)
    (as : List Act) (has : ∀ a ∈ as, a.Respects H ∧ a.Direct Q ∧ Apart batch K a)
    (hnew : ∀ r ∈ (acts cfg {} as).txns, ¬ Names batch r)
    (ss : List Slot) (hss : ∀ s ∈ ss, SlotOk H Q K batch s ∧ s.others = []) (ps : List (Txn × VSlot))
    (hps : ps.map (·.1) = inflightLegs (place cfg batch true (acts cfg {} as) ss).1 batch)
    (hv : ∀ p ∈ ps, VSlotOk H Q K batch p.2 ∧ p.2.others = [])
    (hfr : VoidsFresh cfg (place cfg batch true (acts cfg {} as) ss).1 ps) :
    let db2 := (voidAll cfg (place cfg batch true (acts cfg {} as) ss).1 ps).1
    ∀ i, col (·.debit) db2 i = col (·.debit) (acts cfg {} as) i ∧ col (·.credit) db2 i = col (·.credit) (acts cfg {} as) i ∧
      col (·.inflightDebit) db2 i = col (·.inflightDebit) (acts cfg {} as) i ∧
      col (·.inflightCredit) db2 i = col (·.inflightCredit) (acts cfg {} as) i := by
  intro db2 i
  obtain ⟨_, hall, hcols⟩ := c53_inflight_rolled_back cfg H Q K hQ batch as has ss (fun s hs => (hss s hs).1) ps hps
    (fun p hp => (hv p hp).1) hfr
  obtain ⟨c1, c2, c3, c4⟩ := hcols i
  have hk0 := acts_holdInv (cfg := cfg) (init_holdInv H) (fun a ha => (has a ha).1)
  have hf0 := acts_fundInv (cfg := cfg) (init_fundInv H Q) (fun a ha => ⟨(has a ha).1, (has a ha).2.1⟩)
  have hb0 := acts_book (cfg := cfg) (init_holdInv H) (db := {}) ⟨fun i => rfl, fun i => rfl⟩ (fun a ha => (has a ha).1)
  have hm0 : Mine batch K (acts cfg {} as) :=
    acts_mine (cfg := cfg) (init_holdInv H) (by intro r hr; simp at hr) (fun a ha => ⟨(has a ha).1, (has a ha).2.2⟩)
  obtain ⟨bs, ep, hb, hm1⟩ := place_acts (cfg := cfg) hk0 hm0 (fun s hs => (hss s hs).1)
  have hk1 : HoldInv H (place cfg batch true (acts cfg {} as) ss).1 := by
    rw [ep]; exact acts_holdInv (cfg := cfg) hk0 (fun b hb' => (hb b hb').1)
  obtain ⟨n1, e1, g1⟩ := place_rows (cfg := cfg) hk0 hss
  obtain ⟨n2, e2, g2⟩ := voidAll_rows (cfg := cfg) (ps := ps) hk1 (fun p hp => (hv p hp).2)
  have etx : db2.txns = (acts cfg {} as).txns ++ (n1 ++ n2) := by
    show (voidAll cfg (place cfg batch true (acts cfg {} as) ss).1 ps).1.txns = _
    rw [e2, e1, List.append_assoc]
  have hun := inflightLegs_mine hm1
  rw [← hps] at hun
  -- the legs are rows the request placed
  have legNew : ∀ l ∈ ps.map (·.1), ∀ r ∈ (acts cfg {} as).txns, l.id ≠ r.id := by
    intro l hl r hr he
    have : l = r := row_unique hk1.inv (hun l hl).row (by rw [e1]; exact List.mem_append_left _ hr) he
    subst this
    refine hnew l hr ?_
    have hl' := hl
    rw [hps] at hl'
    unfold inflightLegs at hl'
    simp only at hl'
    split at hl'
    · simp only [List.mem_reverse, List.mem_filter] at hl'
      have h2 := hl'.2
      simp at h2
      exact h2.1.1.1.1.elim .inl (fun h => .inr (.inl h))
    · simp only [List.mem_reverse, List.mem_filter] at hl'
      have h2 := hl'.2
      simp at h2
      exact (h2.1.elim (fun h => h.elim .inl (fun h => .inr (.inl h))) (fun h => .inr (.inr h)))
  have own0 : ∀ r ∈ (acts cfg {} as).txns, Own (ps.map (·.1)) r = false := by
    intro r hr
    cases ho : Own (ps.map (·.1)) r with
    | false => rfl
    | true =>
      unfold Own at ho
      rw [Bool.or_eq_true, Bool.and_eq_true, List.any_eq_true, List.any_eq_true] at ho
      rcases ho with ⟨l, hl, he⟩ | ⟨hs, l, hl, he⟩
      · exact absurd (by simpa using he) (legNew l hl r hr)
      · have hpv := parentVoid_false.1 (hun l hl).notVoid r (by rw [e1]; exact List.mem_append_left _ hr) (by simpa using hs)
        exact absurd (of_decide_eq_true he).symm hpv
  have own1 : ∀ r ∈ n1 ++ n2, Own (ps.map (·.1)) r = true := by
    intro r hr
    unfold Own
    rw [Bool.or_eq_true, Bool.and_eq_true, List.any_eq_true, List.any_eq_true]
    rcases List.mem_append.1 hr with hr | hr
    · have hm := hall r (by rw [e1]; exact List.mem_append_right _ hr) (g1 r hr).1 (g1 r hr).2
      exact .inl ⟨r, hm, by simp⟩
    · obtain ⟨hs, p, hp, he⟩ := g2 r hr
      exact .inr ⟨by simp [hs], p.1, List.mem_map.2 ⟨p, hp, rfl⟩, by simp [he]⟩
  have erest : db2.txns.filter (fun r => !Own (ps.map (·.1)) r) = (acts cfg {} as).txns := by
    rw [etx, List.filter_append, List.filter_eq_self.2 (fun r hr => by rw [own0 r hr]; rfl),
      List.filter_eq_nil_iff.2 (fun r hr => by rw [own1 r hr]; simp), List.append_nil]
  have eheld : ∀ r ∈ (acts cfg {} as).txns, heldOf db2 r = heldOf (acts cfg {} as) r := by
    intro r hr
    have k1 : committed db2 r.id = committed (acts cfg {} as) r.id := by
      refine kidSum_same etx ?_
      intro x hx hs
      rcases List.mem_append.1 hx with hx | hx
      · rw [(g1 x hx).1] at hs; cases hs
      · rw [(g2 x hx).1] at hs; cases hs
    have k2 : released db2 r.id = released (acts cfg {} as) r.id := by
      refine kidSum_same etx ?_
      intro x hx hs
      rcases List.mem_append.1 hx with hx | hx
      · rw [(g1 x hx).1] at hs; cases hs
      · obtain ⟨_, p, hp, he⟩ := g2 x hx
        rw [he]; exact legNew p.1 (List.mem_map.2 ⟨p, hp, rfl⟩) r hr
    unfold heldOf openAmount
    rw [k1, k2]
  have c1' : col (·.debit) db2 i = out rowReg i (db2.txns.filter (fun r => !Own (ps.map (·.1)) r)) := c1
  have c2' : col (·.credit) db2 i = inn rowReg i (db2.txns.filter (fun r => !Own (ps.map (·.1)) r)) := c2
  have c3' : col (·.inflightDebit) db2 i = out (heldOf db2) i (db2.txns.filter (fun r => !Own (ps.map (·.1)) r)) := c3
  have c4' : col (·.inflightCredit) db2 i = inn (heldOf db2) i (db2.txns.filter (fun r => !Own (ps.map (·.1)) r)) := c4
  rw [erest] at c1' c2' c3' c4'
  exact ⟨c1'.trans (hb0.debit i).symm, c2'.trans (hb0.credit i).symm,
    (c3'.trans (out_congr eheld)).trans (hf0.debit i).symm, (c4'.trans (inn_congr eheld)).trans (hf0.credit i).symm⟩

/-! ### C53, ordinary requests: the refunds the rollback queues -/

/-- A row placed by an item of an ordinary request. -/
structure Item (r : Txn) : Prop where
  applied : r.status = .applied
  distinct : r.source ≠ r.destination
  precision : 0 < r.precision
  unmarked : r.metaInflight ≠ some true

theorem applyPrecision_meta2 (t : Txn) : t.applyPrecision.metaInflight = t.metaInflight ∧
    t.applyPrecision.precision = if t.precision = 0 then 1 else t.precision := by
  unfold Txn.applyPrecision
  simp only
  split
  · split <;> (split <;> simp_all)
  · split <;> simp_all

theorem finalRow_meta2 (t : Txn) (hv : t.status ≠ .void) (hs : (finalRow t).status ≠ .inflight) :
    (finalRow t).metaInflight = none ∧ (finalRow t).precision = if t.precision = 0 then 1 else t.precision := by
  revert hs
  unfold finalRow clearTerminalInflight applyRecord
  split
  · rename_i h; exact absurd h hv
  · split
    · rename_i h; intro hs; exact absurd h hs
    · intro _; exact ⟨rfl, (applyPrecision_meta2 t).2⟩

/-- An item of an ordinary request, and others going about their business. -/
structure ItemSlotOk (H Q : String → Prop) (s : Slot) : Prop where
  whole : s.legs = []
  others : ∀ a ∈ s.others, a.Respects H ∧ a.Direct Q
  precision : 0 ≤ s.txn.precision
  plain : isIndicator s.n1 = false ∧ isIndicator s.n2 = false

/-- Nobody else makes rows that name the batch while its items are placed. -/
def Quiet (cfg : Cfg) (batch : String) : DB → List Slot → Prop
  | _, [] => True
  | db, s :: ss => (∀ r ∈ (acts cfg db s.others).txns, Names batch r → r ∈ db.txns) ∧
    Quiet cfg batch (recordSingle cfg (acts cfg db s.others) (bulkTxn batch false s.txn) s.n1 s.n2).1 ss

theorem bulkTxn_precision (batch : String) (t : Txn) :
    (bulkTxn batch false t).precision = if t.precision = 0 then 1 else t.precision :=
  (applyPrecision_meta2 { t with inflight := false, skipQueue := true, parent := batch, status := .blank }).2

theorem place_items {cfg : Cfg} {H Q : String → Prop} {batch : String} (hB : ¬ H batch) {ss : List Slot} : ∀ {db : DB},
    HoldInv H db → (∀ s ∈ ss, ItemSlotOk H Q s) → Quiet cfg batch db ss →
    ∃ bs, (place cfg batch false db ss).1 = acts cfg db bs ∧ (∀ b ∈ bs, b.Respects H ∧ b.Direct Q) ∧
      ∀ r ∈ (place cfg batch false db ss).1.txns, Names batch r → r ∈ db.txns ∨ Item r := by
  induction ss with
  | nil => intro db _ _ _; exact ⟨[], rfl, by simp, fun r hr _ => .inl hr⟩
  | cons s ss ih =>
    intro db hk hs hq
    have h := hs s (by simp)
    have hk1 := acts_holdInv (cfg := cfg) hk (fun a ha => (h.others a ha).1)
    obtain ⟨hl, hf, hid, hp⟩ := bulkTxn_live batch false s.txn
    have hr : (Act.base (.post (bulkTxn batch false s.txn) s.n1 s.n2)).Respects H := by
      refine ⟨hl, ?_, ?_⟩
      · intro u hu
        simp [Op.posts] at hu; subst hu
        rw [hf, hp]; simpa using hB
      · intro u hu; cases hu
    have hd : (Act.base (.post (bulkTxn batch false s.txn) s.n1 s.n2)).Direct Q := by
      refine ⟨?_, ?_⟩
      · intro u hu; cases hu
      · intro i hi
        simp [Op.gens] at hi
        rcases hi with rfl | rfl
        · exact h.plain.1
        · exact h.plain.2
    have hk2 := act_holdInv (cfg := cfg) hk1 hr
    have hll : ∀ a b, ({ bulkTxn batch false s.txn with source := a, destination := b } : Txn).Live := fun a b => hl
    have hnew : ∀ r ∈ (recordSingle cfg (acts cfg db s.others) (bulkTxn batch false s.txn) s.n1 s.n2).1.txns, Names batch r →
        r ∈ db.txns ∨ Item r := by
      intro r hrow hn
      rcases single_grown (cfg := cfg) (t := bulkTxn batch false s.txn) (n1 := s.n1) (n2 := s.n2) (δ := rowInfl) hk1.inv
        (fun a b _ _ _ => ⟨reg_live (hll a b), infl_live (hll a b)⟩) with ⟨g, _⟩ | ⟨a, b, g, _, _, _, _, hne⟩
      · rw [g.txns] at hrow
        exact .inl (hq.1 r (by simpa using hrow) hn)
      · rw [g.txns] at hrow
        rcases List.mem_append.1 hrow with hrow | hrow
        · exact .inl (hq.1 r hrow hn)
        · simp at hrow
          subst hrow
          have hst : (finalRow { bulkTxn batch false s.txn with source := a, destination := b }).status = .applied := by
            rw [finalRow_status, finalStatus_live (hll a b)]
            show (if (bulkTxn batch false s.txn).inflight then _ else _) = _
            rw [hf]; rfl
          have m := finalRow_meta2 { bulkTxn batch false s.txn with source := a, destination := b } hl.1.2
            (by rw [hst]; decide)
          have b2 := bulkTxn_precision batch s.txn
          refine .inr ⟨hst, ?_, ?_, ?_⟩
          · rw [(finalRow_keeps _).2.2.1, (finalRow_keeps _).2.2.2.1]; exact hne
          · rw [m.2]
            show (0 : Rat) < if (bulkTxn batch false s.txn).precision = 0 then 1 else (bulkTxn batch false s.txn).precision
            rw [b2]
            have := h.precision
            grind
          · rw [m.1]; decide
    have both : ∀ b ∈ s.others ++ [Act.base (.post (bulkTxn batch false s.txn) s.n1 s.n2)], b.Respects H ∧ b.Direct Q := by
      intro b hb
      rcases List.mem_append.1 hb with hb | hb
      · exact h.others b hb
      · simp at hb; subst hb; exact ⟨hr, hd⟩
    have est : (recordSingle cfg (acts cfg db s.others) (bulkTxn batch false s.txn) s.n1 s.n2).1 =
        acts cfg db (s.others ++ [Act.base (.post (bulkTxn batch false s.txn) s.n1 s.n2)]) := by
      rw [acts_append]; rfl
    have hgo : ∃ bs, (place cfg batch false (recordSingle cfg (acts cfg db s.others) (bulkTxn batch false s.txn) s.n1 s.n2).1 ss).1 = acts cfg db bs ∧
        (∀ b ∈ bs, b.Respects H ∧ b.Direct Q) ∧
        ∀ r ∈ (place cfg batch false (recordSingle cfg (acts cfg db s.others) (bulkTxn batch false s.txn) s.n1 s.n2).1 ss).1.txns,
          Names batch r → r ∈ db.txns ∨ Item r := by
      obtain ⟨bs, e, hb, hm3⟩ := ih (db := (recordSingle cfg (acts cfg db s.others) (bulkTxn batch false s.txn) s.n1 s.n2).1)
        hk2 (fun x hx => hs x (List.mem_cons_of_mem _ hx)) hq.2
      refine ⟨(s.others ++ [Act.base (.post (bulkTxn batch false s.txn) s.n1 s.n2)]) ++ bs, ?_, ?_, ?_⟩
      · rw [e, est, acts_append (bs := bs)]
      · intro b hb'
        rcases List.mem_append.1 hb' with hb' | hb'
        · exact both b hb'
        · exact hb b hb'
      · intro r hrow hn
        rcases hm3 r hrow hn with h | h
        · exact hnew r h hn
        · exact .inr h
    simp only [place, h.whole, if_true]
    cases ho : (recordSingle cfg (acts cfg db s.others) (bulkTxn batch false s.txn) s.n1 s.n2).2 with
    | refused e => exact ⟨_, est, both, hnew⟩
    | posted rows => simpa using hgo
    | discarded => simpa using hgo

/-- An original as a refund reads it: flags and limit have no column. -/
def readBack (o : Txn) : Txn :=
  { o with allowOverdraft := false, overdraftLimit := 0, inflight := false, atomic := false, skipQueue := false }

/-- The QUEUED row a refund of `o` stores. -/
def refundRow (o : Txn) (newId : String) : Txn := queuedRow (submit (refundTxn (readBack o) false newId))

theorem readBack_get {db : DB} (hi : Inv db) {o : Txn} (ho : o ∈ db.txns) : db.getTxn o.id = some (readBack o) := by
  unfold DB.getTxn
  rw [Option.map_eq_some_iff]
  cases hf : db.txns.find? (fun t => t.id = o.id) with
  | none =>
    have := List.find?_eq_none.1 hf o ho
    simp at this
  | some x =>
    have hx := List.find?_some hf
    have : x = o := row_unique hi (List.mem_of_find?_eq_some hf) ho (by simpa using hx)
    exact ⟨x, rfl, by rw [this]; rfl⟩

/-- Facts about the row a refund stores. -/
theorem refundRow_facts {o : Txn} {newId : String} (ho : Item o) {p : Int} (hp : o.preciseAmount = some p) (h0 : 0 < p) :
    (refundRow o newId).id = newId ∧ (refundRow o newId).parent = o.id ∧ (refundRow o newId).reference = refundRef o.id ∧
    (refundRow o newId).source = o.destination ∧ (refundRow o newId).destination = o.source ∧
    (refundRow o newId).status = .queued ∧ (refundRow o newId).inflight = false ∧ (refundRow o newId).allowOverdraft = true ∧
    (refundRow o newId).overdraftLimit = 0 ∧ (refundRow o newId).preciseAmount = some p ∧
    (refundRow o newId).precision = o.precision ∧ (refundRow o newId).metaInflight ≠ some true := by
  have f := refund_isRefund (readBack o) false newId ho.applied
  have hid : (submit (refundTxn (readBack o) false newId)).id = newId := (submit_keeps _).1
  have k := applyPrecision_meta2 (refundTxn (readBack o) false newId)
  have k3 : (refundTxn (readBack o) false newId).applyPrecision.inflight = false := f.settled
  refine ⟨hid, f.parent, f.reference, f.source, f.destination, f.queued, f.settled, f.overdraft, f.limit,
    f.amount p hp h0, ?_, ?_⟩
  · show (refundTxn (readBack o) false newId).applyPrecision.precision = _
    rw [k.2]
    have hpr := ho.precision
    show (if o.precision = 0 then (1 : Rat) else o.precision) = _
    grind
  · show (if (refundTxn (readBack o) false newId).applyPrecision.inflight then some true
      else (refundTxn (readBack o) false newId).applyPrecision.metaInflight) ≠ some true
    rw [k3, k.1]
    exact ho.unmarked

/-- Generated ids are new, nobody used the refund's reference and nobody refunded the item before. -/
def RefundsReady (cfg : Cfg) : DB → List (Txn × RSlot) → Prop
  | _, [] => True
  | db, (r, v) :: rest =>
    (acts cfg db v.others).hasTxnId v.newId = false ∧ (acts cfg db v.others).hasRef (refundRef r.id) = false ∧
    (acts cfg db v.others).isRefunded r = false ∧
    RefundsReady cfg (refund cfg (acts cfg db v.others) r.id false v.newId "" "").1 rest

/-- Every refund of the rollback is stored. -/
theorem refundAll_ok {cfg : Cfg} {H Q : String → Prop} {ps : List (Txn × RSlot)} :
    ∀ {db : DB}, FundInv H Q db → AppliedInv db →
    (∀ p ∈ ps, p.1 ∈ db.txns ∧ Item p.1 ∧ ∀ a ∈ p.2.others, a.Respects H ∧ a.Direct Q) →
    RefundsReady cfg db ps →
    (refundAll cfg db ps).2 = ps.map (fun p => .ok (.posted [refundRow p.1 p.2.newId])) ∧
    ∃ bs, (refundAll cfg db ps).1 = acts cfg db bs ∧ ∀ b ∈ bs, b.Respects H ∧ b.Direct Q := by
  induction ps with
  | nil => intro db _ _ _ _; exact ⟨rfl, [], rfl, by simp⟩
  | cons p ps ih =>
    intro db hf hap hp hready
    obtain ⟨r, v⟩ := p
    obtain ⟨hr, hitem, hoth⟩ := hp (r, v) (by simp)
    simp only at hr hitem hoth
    obtain ⟨f1, f2, f3, f4⟩ := hready
    have hf1 := acts_fundInv (cfg := cfg) hf hoth
    have hap1 := acts_applied (cfg := cfg) hf.toHoldInv hap (fun a ha => (hoth a ha).1)
    obtain ⟨new, e⟩ := acts_prefix (cfg := cfg) hf.toHoldInv (fun a ha => (hoth a ha).1)
    have hr1 : r ∈ (acts cfg db v.others).txns := by rw [e]; exact List.mem_append_left _ hr
    have hget := readBack_get hf1.inv hr1
    have hpos := hap1.pos r hr1 hitem.applied
    obtain ⟨p, hpa⟩ : ∃ p, r.preciseAmount = some p := by
      cases hq : r.preciseAmount with
      | none => simp [pay, hq] at hpos
      | some p => exact ⟨p, rfl⟩
    have hp0 : 0 < p := by simpa [pay, hpa] using hpos
    obtain ⟨q1, q2, q3, q4, q5, q6, q7, q8, q9, q10, q11, q12⟩ := refundRow_facts (newId := v.newId) hitem hpa hp0
    have hnr : (acts cfg db v.others).isRefunded (readBack r) = false := f3
    have hst : (readBack r).status = .applied := hitem.applied
    have hdec : refund cfg (acts cfg db v.others) r.id false v.newId "" "" =
        ((step cfg (acts cfg db v.others) (.store (refundRow r v.newId))).1,
          .ok (step cfg (acts cfg db v.others) (.store (refundRow r v.newId))).2) := by
      simp [refund, decideRefund, hget, validateRefund, hst, hnr, refundRow]
    have hins : step cfg (acts cfg db v.others) (.store (refundRow r v.newId)) =
        ({ acts cfg db v.others with txns := (acts cfg db v.others).txns ++ [refundRow r v.newId] },
          .posted [refundRow r v.newId]) := by
      simp [step, DB.insertTxn, q1, q3, f1, f2]
    have hresp : (Act.base (.store (refundRow r v.newId))).Respects H := by
      refine ⟨⟨.inl q6, by simp only [pay, q10]; simp; omega⟩, by simp [Op.posts], ?_⟩
      intro t ht hh
      cases ht
      rcases hh with h | h
      · rw [q6] at h; cases h
      · exact absurd h.2 q12
    have hdir : (Act.base (.store (refundRow r v.newId))).Direct Q := by
      refine ⟨?_, by simp [Op.gens]⟩
      intro t ht hh
      cases ht
      rcases hh with h | h
      · rw [q6] at h; cases h
      · exact absurd h.2 q12
    have est : (refund cfg (acts cfg db v.others) r.id false v.newId "" "").1 =
        acts cfg db (v.others ++ [Act.base (.store (refundRow r v.newId))]) := by
      rw [acts_append, hdec]; rfl
    have both : ∀ b ∈ v.others ++ [Act.base (.store (refundRow r v.newId))], b.Respects H ∧ b.Direct Q := by
      intro b hb
      rcases List.mem_append.1 hb with hb | hb
      · exact hoth b hb
      · simp at hb; subst hb; exact ⟨hresp, hdir⟩
    have hf2 := acts_fundInv (cfg := cfg) hf both
    have hap2 := acts_applied (cfg := cfg) hf.toHoldInv hap (fun a ha => (both a ha).1)
    obtain ⟨new2, e2⟩ := acts_prefix (cfg := cfg) hf.toHoldInv (fun a ha => (both a ha).1)
    rw [← est] at hf2 hap2 e2
    obtain ⟨g1, bs, g2, g3⟩ := ih hf2 hap2 (fun q hq => by
      obtain ⟨a, b, c⟩ := hp q (List.mem_cons_of_mem _ hq)
      exact ⟨by rw [e2]; exact List.mem_append_left _ a, b, c⟩) f4
    refine ⟨?_, v.others ++ [Act.base (.store (refundRow r v.newId))] ++ bs, ?_, ?_⟩
    · simp only [refundAll, List.map_cons]
      rw [g1]
      congr 1
      rw [hdec, hins]
    · simp only [refundAll]
      rw [g2, est, acts_append (bs := bs)]
    · intro b hb
      rcases List.mem_append.1 hb with hb | hb
      · exact both b hb
      · exact g3 b hb

/-! ### C53, ordinary requests: the workers apply the refunds -/

/-- A queued refund between existing accounts. -/
structure Back (db : DB) (q : Txn) : Prop where
  queued : q.status = .queued
  settled : q.inflight = false
  overdraft : q.allowOverdraft = true
  limit : q.overdraftLimit = 0
  amount : ∃ p, q.preciseAmount = some p ∧ 0 < p
  precision : 0 < q.precision
  distinct : q.source ≠ q.destination
  parties : q.source ∈ ids db.balances ∧ q.destination ∈ ids db.balances

/-- What a row would move if applied. -/
def moves (i : String) (t : Txn) : Int := (if t.destination = i then pay t else 0) - (if t.source = i then pay t else 0)

/-- Nobody used the derived reference; generated ids are new. -/
def DeliversReady (cfg : Cfg) : DB → List (Txn × RSlot) → Prop
  | _, [] => True
  | db, (q, v) :: rest =>
    (acts cfg db v.others).hasTxnId v.newId = false ∧ (acts cfg db v.others).hasRef (q.reference ++ "_q") = false ∧
    DeliversReady cfg (recordSingle cfg (acts cfg db v.others) (Queue.queueCopy q v.newId) "" "").1 rest

/-- A queued refund is accepted in every state where its reference and id are free: it needs no funds. -/
theorem back_accepted {cfg : Cfg} {H Q : String → Prop} {db : DB} (hf : FundInv H Q db) {q : Txn} (hq : Back db q)
    {newId : String} (h1 : db.hasTxnId newId = false) (h2 : db.hasRef (q.reference ++ "_q") = false) :
    (recordSingle cfg db (Queue.queueCopy q newId) "" "").2 = .posted [finalRow (Queue.queueCopy q newId)] ∧
    (finalRow (Queue.queueCopy q newId)).id = newId ∧ ∀ i, signed i (finalRow (Queue.queueCopy q newId)) = moves i q := by
  obtain ⟨p, hp, hp0⟩ := hq.amount
  generalize ht : Queue.queueCopy q newId = t
  have t1 : t.status = .queued := by rw [← ht]; exact hq.queued
  have t2 : t.inflight = false := by rw [← ht]; exact hq.settled
  have t3 : t.allowOverdraft = true := by rw [← ht]; exact hq.overdraft
  have t4 : t.overdraftLimit = 0 := by rw [← ht]; exact hq.limit
  have t5 : t.preciseAmount = some p := by rw [← ht]; exact hp
  have t6 : 0 < t.precision := by rw [← ht]; exact hq.precision
  have t7 : t.source = q.source := by rw [← ht]; rfl
  have t8 : t.destination = q.destination := by rw [← ht]; rfl
  have t9 : t.id = newId := by rw [← ht]; rfl
  have t10 : t.reference = q.reference ++ "_q" := by rw [← ht]; rfl
  rw [recordSingle_ids (by rw [t7]; exact hf.plain _ hq.parties.1) (by rw [t8]; exact hf.plain _ hq.parties.2)]
  have happ := applyPrecision_precise t5 hp0
  have hpl : t.Plain := by constructor <;> rw [t1] <;> decide
  have hlv : t.Live := ⟨hpl, .inr (.inl t1)⟩
  obtain ⟨rs, f1⟩ := find_of_mem_ids hq.parties.1
  obtain ⟨rd, f2⟩ := find_of_mem_ids hq.parties.2
  have hk2 := applyPrecision_keeps t
  have hcan : canProcessTransaction t.applyPrecision (db.view cfg rs) = .ok () := by
    simp [canProcessTransaction, hk2.1, hk2.2.1, t3, t4]
  have hamt : 0 ≤ t.applyPrecision.amount := by
    have h0 : t.precision ≠ 0 := by grind
    have : t.applyPrecision.amount = (p : Rat) / t.precision := by
      simp [Txn.applyPrecision, h0, t5, hp0]
    rw [this]
    have : (0 : Rat) < p := by exact_mod_cast hp0
    rw [Rat.div_def]
    exact Rat.mul_nonneg (by grind) (Rat.le_of_lt (Rat.inv_pos.2 t6))
  have hval : t.applyPrecision.validate = .ok () := by
    simp only [Txn.validate, happ]
    rw [if_neg (by grind), if_neg (by omega)]
  obtain ⟨d', a2⟩ : ∃ d', applyDestination t (db.view cfg rd) = .ok d' := ⟨_, applyDestination_plain_ok hpl _⟩
  have a1 := (applySource_plain (b := db.view cfg rs) hpl.1 hpl.2).2 ⟨hval, hcan, rfl⟩
  have hpay : (finalRow t).preciseAmount = some p := by rw [finalRow_plain hpl, happ]
  refine ⟨?_, (finalRow_keeps t).2.1.trans t9, ?_⟩
  · rw [postResolved_complete (rs := rs) (rd := rd) ?_ ?_ ?_ ?_ ?_ a1 a2 ?_]
    · rw [t10]; exact h2
    · rw [t9]; exact h1
    · rw [t7, t8]; exact hq.distinct
    · rw [t7]; exact f1
    · rw [t8]; exact f2
    · rw [hpay]; simp; omega
  · intro i
    have hst : (finalRow t).status = .applied := by
      rw [finalRow_status, finalStatus_live hlv, t2]; rfl
    have e1 : pay (finalRow t) = p := by simp [pay, hpay]
    have e2 : pay q = p := by simp [pay, hp]
    have k := finalRow_keeps t
    simp only [signed, moves, hst, if_true, e1, e2, k.2.2.1, k.2.2.2.1, t7, t8]

theorem acts_accounts {cfg : Cfg} {H : String → Prop} {as : List Act} : ∀ {db : DB}, HoldInv H db →
    (∀ a ∈ as, a.Respects H) → ∀ i ∈ ids db.balances, i ∈ ids (acts cfg db as).balances := by
  induction as with
  | nil => intro db _ _ i hi; exact hi
  | cons a as ih =>
    intro db hk hr i hi
    have ha := hr a (by simp)
    refine ih (act_holdInv (cfg := cfg) hk ha) (fun b hb => hr b (List.mem_cons_of_mem _ hb)) i ?_
    cases a with
    | base op =>
      obtain ⟨_, g, _⟩ := ordinary_grown (cfg := cfg) hk.inv ha.1
      exact g.accounts i hi
    | commit id amt newId ref n1 n2 =>
      rcases commit_grown (cfg := cfg) (h := id) (newId := newId) (ref := ref) (n1 := n1) (n2 := n2) (amt := amt)
        hk.inv hk.remaining_nonneg with ⟨g, _⟩ | ⟨_, _, _, _, _, _, _, g, _⟩
      · exact g.accounts i hi
      · exact g.accounts i hi
    | void id newId ref n1 n2 =>
      rcases void_grown (cfg := cfg) (h := id) (newId := newId) (ref := ref) (n1 := n1) (n2 := n2)
        hk.inv hk.remaining_nonneg with ⟨g, _⟩ | ⟨_, _, _, _, _, _, g, _⟩
      · exact g.accounts i hi
      · exact g.accounts i hi

/-- All queued refunds are applied, in whatever order the workers take them and whatever happens
in between. -/
theorem deliverAll_ok {cfg : Cfg} {H Q : String → Prop} {ps : List (Txn × RSlot)} :
    ∀ {db : DB}, FundInv H Q db →
    (∀ p ∈ ps, Back db p.1 ∧ ¬ H p.1.id ∧ ∀ a ∈ p.2.others, a.Respects H ∧ a.Direct Q) →
    DeliversReady cfg db ps →
    ∃ (xs new : List Txn) (bs : List Act), (deliverAll cfg db ps).2 = xs.map (fun x => .posted [x]) ∧ (deliverAll cfg db ps).1.txns = db.txns ++ new ∧
      xs.Sublist new ∧ xs.map (·.id) = ps.map (fun p => p.2.newId) ∧
      (∀ i, (xs.map (signed i)).sum = (ps.map (fun p => moves i p.1)).sum) ∧
      (deliverAll cfg db ps).1 = acts cfg db bs ∧ ∀ b ∈ bs, b.Respects H ∧ b.Direct Q := by
  induction ps with
  | nil => intro db _ _ _; exact ⟨[], [], [], rfl, by simp [deliverAll], .refl _, rfl, fun _ => rfl, rfl, by simp⟩
  | cons p ps ih =>
    intro db hf hp hready
    obtain ⟨q, v⟩ := p
    obtain ⟨hq, hH, hoth⟩ := hp (q, v) (by simp)
    simp only at hq hH hoth
    obtain ⟨f1, f2, f3⟩ := hready
    have grow : ∀ {d : DB} {cs : List Act} {t : Txn}, FundInv H Q d → (∀ b ∈ cs, b.Respects H ∧ b.Direct Q) → Back d t →
        Back (acts cfg d cs) t := by
      intro d cs t hd hcs ht
      have := acts_accounts (cfg := cfg) hd.toHoldInv (fun b hb => (hcs b hb).1)
      exact ⟨ht.queued, ht.settled, ht.overdraft, ht.limit, ht.amount, ht.precision, ht.distinct,
        this _ ht.parties.1, this _ ht.parties.2⟩
    have hf1 := acts_fundInv (cfg := cfg) hf hoth
    obtain ⟨new1, e1⟩ := acts_prefix (cfg := cfg) hf.toHoldInv (fun a ha => (hoth a ha).1)
    obtain ⟨a1, a2, a3⟩ := back_accepted (cfg := cfg) hf1 (grow hf hoth hq) f1 f2
    have hlv : (Queue.queueCopy q v.newId).Live := by
      refine ⟨⟨?_, ?_⟩, .inr (.inl hq.queued)⟩ <;> (show q.status ≠ _; rw [hq.queued]; decide)
    have hresp : (Act.base (.post (Queue.queueCopy q v.newId) "" "")).Respects H := by
      refine ⟨hlv, ?_, ?_⟩
      · intro u hu
        simp [Op.posts] at hu; subst hu
        have : (Queue.queueCopy q v.newId).inflight = false := hq.settled
        rw [this]
        exact hH
      · intro u hu; cases hu
    have hdir : (Act.base (.post (Queue.queueCopy q v.newId) "" "")).Direct Q := by
      refine ⟨?_, ?_⟩
      · intro u hu; cases hu
      · intro i hi
        simp [Op.gens] at hi
        subst hi; decide +kernel
    have both : ∀ b ∈ v.others ++ [Act.base (.post (Queue.queueCopy q v.newId) "" "")], b.Respects H ∧ b.Direct Q := by
      intro b hb
      rcases List.mem_append.1 hb with hb | hb
      · exact hoth b hb
      · simp at hb; subst hb; exact ⟨hresp, hdir⟩
    have est : (recordSingle cfg (acts cfg db v.others) (Queue.queueCopy q v.newId) "" "").1 =
        acts cfg db (v.others ++ [Act.base (.post (Queue.queueCopy q v.newId) "" "")]) := by
      rw [acts_append]; rfl
    have e2 : (recordSingle cfg (acts cfg db v.others) (Queue.queueCopy q v.newId) "" "").1.txns =
        db.txns ++ (new1 ++ [finalRow (Queue.queueCopy q v.newId)]) := by
      rcases single_grown (cfg := cfg) (t := Queue.queueCopy q v.newId) (n1 := "") (n2 := "") (δ := rowInfl) hf1.inv
        (fun a b _ _ _ => ⟨reg_live (show ({ Queue.queueCopy q v.newId with source := a, destination := b } : Txn).Live from hlv),
          infl_live (show ({ Queue.queueCopy q v.newId with source := a, destination := b } : Txn).Live from hlv)⟩)
        with ⟨_, hno⟩ | ⟨a, b, g, ho, _⟩
      · exact absurd a1 (hno _)
      · rw [a1] at ho
        rw [g.txns, e1]
        simp only [Outcome.posted.injEq] at ho
        rw [← ho, List.append_assoc]
    have hf2 : FundInv H Q (recordSingle cfg (acts cfg db v.others) (Queue.queueCopy q v.newId) "" "").1 := by
      rw [est]; exact acts_fundInv (cfg := cfg) hf both
    obtain ⟨xs, new2, bs, g1, g2, g3, g4, g5, g6, g7⟩ := ih hf2 (fun p hpm => by
      obtain ⟨a, b, c⟩ := hp p (List.mem_cons_of_mem _ hpm)
      refine ⟨?_, b, c⟩
      rw [est]; exact grow hf both a) f3
    refine ⟨finalRow (Queue.queueCopy q v.newId) :: xs, new1 ++ [finalRow (Queue.queueCopy q v.newId)] ++ new2,
      v.others ++ [Act.base (.post (Queue.queueCopy q v.newId) "" "")] ++ bs, ?_, ?_, ?_, ?_, ?_, ?_, ?_⟩
    · simp only [deliverAll, List.map_cons, a1, g1]
    · simp only [deliverAll]
      rw [g2, e2]; simp
    · rw [List.append_assoc]
      exact (List.Sublist.cons_cons _ g3).trans (by simp)
    · simp [a2, g4]
    · intro i; simp [a3, g5]
    · simp only [deliverAll]
      rw [g6, est, acts_append (bs := bs)]
    · intro b hb
      rcases List.mem_append.1 hb with hb | hb
      · exact both b hb
      · exact g7 b hb

theorem perm_sum {l l' : List Int} (h : l.Perm l') : l.sum = l'.sum := by
  induction h with
  | nil => rfl
  | cons x _ ih => simp [ih]
  | swap x y l => simp; omega
  | trans _ _ i1 i2 => exact i1.trans i2

theorem sum_drop_many (f : Txn → Int) : ∀ {xs l : List Txn}, (l.map (·.id)).Nodup → (xs.map (·.id)).Nodup → (∀ x ∈ xs, x ∈ l) →
    (l.map f).sum = ((l.filter (fun t => !xs.any (fun x => x.id = t.id))).map f).sum + (xs.map f).sum := by
  intro xs
  induction xs with
  | nil =>
    intro l _ _ _
    have : l.filter (fun t => !([] : List Txn).any (fun x => x.id = t.id)) = l := List.filter_eq_self.2 (by simp)
    rw [this]; simp
  | cons x xs ih =>
    intro l hl hx hm
    simp only [List.map_cons, List.nodup_cons] at hx
    rw [sum_drop_one f hl (hm x (by simp))]
    have hl' : ((l.filter (fun t => t.id ≠ x.id)).map (·.id)).Nodup := hl.sublist (List.filter_sublist.map _)
    rw [ih hl' hx.2 (fun y hy => List.mem_filter.2 ⟨hm y (List.mem_cons_of_mem _ hy), by
      simp only [ne_eq, decide_eq_true_eq]
      exact fun e => hx.1 (List.mem_map.2 ⟨y, hy, e⟩)⟩), List.filter_filter]
    simp only [List.map_cons, List.sum_cons]
    have : l.filter (fun t => (!xs.any (fun y => y.id = t.id)) && decide (t.id ≠ x.id)) =
        l.filter (fun t => !(x :: xs).any (fun y => y.id = t.id)) := by
      congr 1
      funext t
      by_cases h : x.id = t.id
      · simp [h]
      · have : t.id ≠ x.id := fun e => h e.symm
        simp [h, this]
    rw [this]; omega

/-- The batch's own rows: the items rolled back and the applied refunds. -/
def Mine' (legs : List Txn) (refunds : List String) (r : Txn) : Bool :=
  legs.any (fun l => l.id = r.id) || refunds.contains r.id

theorem createdBy_map {α : Type} (f : α → Txn) (l : List α) :
    createdBy (l.map (fun p => .ok (.posted [f p]))) = l.map f := by
  induction l with
  | nil => rfl
  | cons p l ih =>
    simp only [createdBy, List.map_cons, List.flatMap_cons] at ih ⊢
    rw [ih]; rfl

theorem refundables_names {db : DB} {batch : String} : ∀ r ∈ db.refundables batch, r ∈ db.txns ∧ Names batch r := by
  intro r hr
  unfold DB.refundables at hr
  simp only [List.mem_reverse, List.mem_filter] at hr
  refine ⟨hr.1, ?_⟩
  have h2 := hr.2
  simp at h2
  rcases h2 with (h | h) | h
  · exact .inl h.1
  · exact .inr (.inl h.1)
  · exact .inr (.inr h.2)

/-- C53 for ordinary requests, while others work on the same accounts: the rollback finds every
item applied so far, stores a refund for each, and the workers can apply every one of them in any
order. From then on every balance is the sum over the rows that are not the batch's. -/
theorem c53_refunded_once_delivered_partial (cfg : Cfg) (H Q : String → Prop) (batch : String) (hB : ¬ H batch)
    (as : List Act) (has : ∀ a ∈ as, a.Respects H ∧ a.Direct Q)
    (hnew : ∀ r ∈ (acts cfg {} as).txns, ¬ Names batch r)
    (ss : List Slot) (hss : ∀ s ∈ ss, ItemSlotOk H Q s) (hqt : Quiet cfg batch (acts cfg {} as) ss)
    (ps : List (Txn × RSlot))
    (hps : ps.map (·.1) = (place cfg batch false (acts cfg {} as) ss).1.refundables batch)
    (hpo : ∀ p ∈ ps, ¬ H p.2.newId ∧ ∀ a ∈ p.2.others, a.Respects H ∧ a.Direct Q)
    (hready : RefundsReady cfg (place cfg batch false (acts cfg {} as) ss).1 ps)
    (ds : List (Txn × RSlot))
    (hds : (ds.map (·.1)).Perm (createdBy (refundAll cfg (place cfg batch false (acts cfg {} as) ss).1 ps).2))
    (hdo : ∀ p ∈ ds, ∀ a ∈ p.2.others, a.Respects H ∧ a.Direct Q)
    (hdr : DeliversReady cfg (refundAll cfg (place cfg batch false (acts cfg {} as) ss).1 ps).1 ds) :
    let db1 := (place cfg batch false (acts cfg {} as) ss).1
    let db3 := (deliverAll cfg (refundAll cfg db1 ps).1 ds).1
    (∀ r ∈ db1.txns, r.status = .applied → r.parent = batch → r ∈ ps.map (·.1)) ∧
    (∀ o ∈ (refundAll cfg db1 ps).2, ∃ q, o = .ok (.posted [q])) ∧
    (∀ o ∈ (deliverAll cfg (refundAll cfg db1 ps).1 ds).2, ∃ x, o = .posted [x]) ∧
    ∀ b ∈ db3.balances, b.balance =
      ((db3.txns.filter (fun r => !Mine' (ps.map (·.1)) (ds.map (fun p => p.2.newId)) r)).map (signed b.id)).sum := by
  intro db1 db3
  have hk0 := acts_holdInv (cfg := cfg) (init_holdInv H) (fun a ha => (has a ha).1)
  obtain ⟨bs, ep, hb, hit⟩ := place_items (cfg := cfg) hB hk0 hss hqt
  have e1 : db1 = acts cfg {} (as ++ bs) := by rw [acts_append]; exact ep
  have has1 : ∀ a ∈ as ++ bs, a.Respects H ∧ a.Direct Q := by
    intro a ha
    rcases List.mem_append.1 ha with ha | ha
    · exact has a ha
    · exact hb a ha
  have hf1 : FundInv H Q db1 := by rw [e1]; exact acts_fundInv (cfg := cfg) (init_fundInv H Q) has1
  have hap1 : AppliedInv db1 := by rw [e1]; exact acts_applied_init (cfg := cfg) (fun a ha => (has1 a ha).1)
  have hleg : ∀ r ∈ ps.map (·.1), r ∈ db1.txns ∧ Item r := by
    intro r hr
    rw [hps] at hr
    obtain ⟨h1, h2⟩ := refundables_names r hr
    refine ⟨h1, ?_⟩
    rcases hit r h1 h2 with h | h
    · exact absurd h2 (hnew r h)
    · exact h
  have hall : ∀ r ∈ db1.txns, r.status = .applied → r.parent = batch → r ∈ ps.map (·.1) := by
    intro r hr hs hpar
    rw [hps]
    unfold DB.refundables
    rw [List.mem_reverse, List.mem_filter]
    exact ⟨hr, by simp [hs, hpar]⟩
  obtain ⟨g1, cs, g2, g3⟩ := refundAll_ok (cfg := cfg) hf1 hap1 (fun p hp =>
    ⟨(hleg p.1 (List.mem_map.2 ⟨p, hp, rfl⟩)).1, (hleg p.1 (List.mem_map.2 ⟨p, hp, rfl⟩)).2, (hpo p hp).2⟩) hready
  have g1' : (refundAll cfg db1 ps).2 = ps.map (fun p => .ok (.posted [refundRow p.1 p.2.newId])) := g1
  have hds' : (ds.map (·.1)).Perm (ps.map (fun p => refundRow p.1 p.2.newId)) := by
    have h : (ds.map (·.1)).Perm (createdBy (refundAll cfg db1 ps).2) := hds
    rw [g1'] at h
    rwa [createdBy_map (fun p : Txn × RSlot => refundRow p.1 p.2.newId) ps] at h
  have hf2 : FundInv H Q (refundAll cfg db1 ps).1 := by
    show FundInv H Q (refundAll cfg (place cfg batch false (acts cfg {} as) ss).1 ps).1
    rw [g2]; exact acts_fundInv (cfg := cfg) hf1 g3
  have hacc : ∀ i ∈ ids db1.balances, i ∈ ids (refundAll cfg db1 ps).1.balances := by
    show ∀ i ∈ ids db1.balances, i ∈ ids (refundAll cfg (place cfg batch false (acts cfg {} as) ss).1 ps).1.balances
    rw [g2]; exact acts_accounts (cfg := cfg) hf1.toHoldInv (fun b hb => (g3 b hb).1)
  have facts : ∀ p ∈ ps, Back (refundAll cfg db1 ps).1 (refundRow p.1 p.2.newId) ∧ (refundRow p.1 p.2.newId).id = p.2.newId ∧
      ∀ i, moves i (refundRow p.1 p.2.newId) = - signed i p.1 := by
    intro p hp
    obtain ⟨hr, hi⟩ := hleg p.1 (List.mem_map.2 ⟨p, hp, rfl⟩)
    have hpos := hap1.pos p.1 hr hi.applied
    obtain ⟨a, hpa⟩ : ∃ a, p.1.preciseAmount = some a := by
      cases hq : p.1.preciseAmount with
      | none => simp [pay, hq] at hpos
      | some a => exact ⟨a, rfl⟩
    have ha0 : 0 < a := by simpa [pay, hpa] using hpos
    obtain ⟨q1, q2, q3, q4, q5, q6, q7, q8, q9, q10, q11, q12⟩ := refundRow_facts (newId := p.2.newId) hi hpa ha0
    obtain ⟨m1, m2⟩ := hap1.accounts p.1 hr hi.applied
    refine ⟨⟨q6, q7, q8, q9, ⟨a, q10, ha0⟩, by rw [q11]; exact hi.precision,
      by rw [q4, q5]; exact fun e => hi.distinct e.symm, by rw [q4]; exact hacc _ m2, by rw [q5]; exact hacc _ m1⟩, q1, ?_⟩
    intro i
    simp only [moves, signed, hi.applied, if_true, q4, q5, pay, q10, hpa]
    omega
  have hd : ∀ p ∈ ds, Back (refundAll cfg db1 ps).1 p.1 ∧ ¬ H p.1.id ∧ ∀ a ∈ p.2.others, a.Respects H ∧ a.Direct Q := by
    intro p hp
    have hm := hds'.mem_iff.1 (List.mem_map.2 ⟨p, hp, rfl⟩)
    obtain ⟨o, ho, e⟩ := List.mem_map.1 hm
    obtain ⟨f1, f2, _⟩ := facts o ho
    rw [e] at f1 f2
    exact ⟨f1, by rw [f2]; exact (hpo o ho).1, hdo p hp⟩
  obtain ⟨xs, new, es, k1, k2, k3, k4, k5, k6, k7⟩ := deliverAll_ok (cfg := cfg) hf2 hd hdr
  refine ⟨hall, ?_, ?_, ?_⟩
  · rw [g1']
    intro o ho
    obtain ⟨p, _, rfl⟩ := List.mem_map.1 ho
    exact ⟨_, rfl⟩
  · rw [k1]
    intro o ho
    obtain ⟨x, _, rfl⟩ := List.mem_map.1 ho
    exact ⟨x, rfl⟩
  · intro b hbm
    have e3 : db3 = acts cfg {} (as ++ bs ++ cs ++ es) := by
      show (deliverAll cfg (refundAll cfg (place cfg batch false (acts cfg {} as) ss).1 ps).1 ds).1 = _
      rw [acts_append (bs := es), acts_append (bs := cs), ← e1]
      rw [k6]
      show acts cfg (refundAll cfg (place cfg batch false (acts cfg {} as) ss).1 ps).1 es = _
      rw [g2]
    have hall3 : ∀ a ∈ as ++ bs ++ cs ++ es, a.Respects H := by
      intro a ha
      rcases List.mem_append.1 ha with ha | ha
      · rcases List.mem_append.1 ha with ha | ha
        · exact (has1 a ha).1
        · exact (g3 a ha).1
      · exact (k7 a ha).1
    have hk3 : HoldInv H db3 := by rw [e3]; exact acts_holdInv (cfg := cfg) (init_holdInv H) hall3
    have hc := c60_balance_is_sum_of_applied_rows cfg H _ hall3 b (by rw [← e3]; exact hbm)
    rw [← e3] at hc
    obtain ⟨c1, c2, c3⟩ := hc
    obtain ⟨pre, epre⟩ := acts_prefix (cfg := cfg) hf1.toHoldInv (fun b hb => (g3 b hb).1)
    have et : db3.txns = (db1.txns ++ pre) ++ new := by
      show (deliverAll cfg (refundAll cfg db1 ps).1 ds).1.txns = _
      rw [k2]
      show (refundAll cfg (place cfg batch false (acts cfg {} as) ss).1 ps).1.txns ++ new = _
      rw [g2, epre]
    have hn := hk3.inv.unique.txnIds
    have hlegnd : ((ps.map (·.1)).map (·.id)).Nodup := by
      rw [hps]
      unfold DB.refundables
      rw [List.map_reverse]
      exact (List.reverse_perm _).nodup_iff.2 (hf1.inv.unique.txnIds.sublist (List.filter_sublist.map _))
    have hn' := hn
    rw [et, List.map_append, List.nodup_append] at hn'
    have hxm : ∀ x ∈ xs, x ∈ new := fun x hx => k3.subset hx
    have hsum := sum_drop_many (signed b.id) (xs := ps.map (·.1) ++ xs) hn (by
      rw [List.map_append, List.nodup_append]
      refine ⟨hlegnd, hn'.2.1.sublist (k3.map _), ?_⟩
      intro i hi j hj
      refine hn'.2.2 i ?_ j ?_
      · obtain ⟨r, hr, rfl⟩ := List.mem_map.1 hi
        exact List.mem_map.2 ⟨r, List.mem_append_left _ (hleg r hr).1, rfl⟩
      · obtain ⟨r, hr, rfl⟩ := List.mem_map.1 hj
        exact List.mem_map.2 ⟨r, hxm r hr, rfl⟩) (by
      intro x hx
      rw [et]
      rcases List.mem_append.1 hx with hx | hx
      · exact List.mem_append_left _ (List.mem_append_left _ (hleg x hx).1)
      · exact List.mem_append_right _ (hxm x hx))
    have hzero : ((ps.map (·.1) ++ xs).map (signed b.id)).sum = 0 := by
      rw [List.map_append, List.sum_append, k5 b.id]
      have p1 : (ds.map (fun p => moves b.id p.1)).sum = ((ps.map (fun p => refundRow p.1 p.2.newId)).map (moves b.id)).sum := by
        have := perm_sum (hds'.map (moves b.id))
        rw [List.map_map] at this
        exact this
      rw [p1, List.map_map, List.map_map]
      have : ∀ l : List (Txn × RSlot), (∀ p ∈ l, p ∈ ps) →
          (l.map (signed b.id ∘ (·.1))).sum + (l.map (moves b.id ∘ fun p => refundRow p.1 p.2.newId)).sum = 0 := by
        intro l
        induction l with
        | nil => intro _; rfl
        | cons p l ih =>
          intro h
          have h1 := ih (fun q hq => h q (List.mem_cons_of_mem _ hq))
          have h2 := (facts p (h p (by simp))).2.2 b.id
          simp only [List.map_cons, List.sum_cons, Function.comp] at h1 ⊢
          omega
      exact this ps (fun p hp => hp)
    have hfil : db3.txns.filter (fun r => !Mine' (ps.map (·.1)) (ds.map (fun p => p.2.newId)) r) =
        db3.txns.filter (fun t => !(ps.map (·.1) ++ xs).any (fun x => x.id = t.id)) := by
      congr 1
      funext t
      unfold Mine'
      rw [List.any_append, ← k4]
      congr 2
      rw [Bool.eq_iff_iff]
      simp
    rw [hfil]
    have := signed_sum b.id db3.txns
    rw [c3, c1, c2]
    omega

/-! ### C53: the full claim fails -/

/-- Specification: the balance of every account as a list. -/
def balances (db : DB) : List (String × Int × Int) := db.balances.map (fun b => (b.id, b.balance, b.inflightBalance))

/-- The full claim: when the answer is a failure, every balance is what it was before the request. -/
def C53Full : Prop := ∀ (cfg : Cfg) (batch : String) (inflight : Bool) (fresh : Nat → String) (db : DB) (ss : List Slot),
  Reachable cfg db → (∀ s ∈ ss, s.others = []) → (bulkAtomic cfg batch inflight fresh db ss).2 = false →
  ∀ b ∈ db.balances, ∃ b' ∈ (bulkAtomic cfg batch inflight fresh db ss).1.balances,
    b'.id = b.id ∧ b'.balance = b.balance ∧ b'.inflightBalance = b.inflightBalance

/-- Two accounts, the first with 100. -/
def bulkDemo : DB := run {} {} [.create "a" "" "USD", .create "b" "" "USD", .create "w" "" "USD",
  .post { id := "p", source := "w", destination := "a", reference := "r0", amount := 100, precision := 1,
          allowOverdraft := true, status := .queued } "x" "y"]

def pay70 : Slot := { txn := { id := "i1", source := "a", destination := "b", reference := "r1", amount := 70, precision := 1 } }
def pay50 : Slot := { txn := { id := "i2", source := "a", destination := "b", reference := "r2", amount := 50, precision := 1 } }

/-- It is false: the answer says that all transactions have been refunded when the refunds are only
QUEUED rows; the payment of the first item still stands, and the money can be spent. -/
theorem c53_full_fails : ¬ C53Full := by
  intro h
  have := h {} "bulk_1" false (refIds "f") bulkDemo [pay70, pay50] ⟨_, rfl⟩ (by simp [pay70, pay50]) (by decide +kernel)
  have h2 : (bulkDemo.balances.all (fun b => (bulkAtomic {} "bulk_1" false (refIds "f") bulkDemo [pay70, pay50]).1.balances.any
      (fun b' => b'.id = b.id ∧ b'.balance = b.balance ∧ b'.inflightBalance = b.inflightBalance))) = false := by decide +kernel
  rw [List.all_eq_false] at h2
  obtain ⟨b, hb, hn⟩ := h2
  obtain ⟨b', hb', e⟩ := this b hb
  exact hn (List.any_eq_true.2 ⟨b', hb', by simpa using e⟩)

/-- What the failed request of `c53_full_fails` leaves: the payment of 70 stands. -/
theorem c53_answer_before_refund :
    (bulkAtomic {} "bulk_1" false (refIds "f") bulkDemo [pay70, pay50]).2 = false ∧
    balances bulkDemo = [("a", 100, 0), ("b", 0, 0), ("w", -100, 0)] ∧
    balances (bulkAtomic {} "bulk_1" false (refIds "f") bulkDemo [pay70, pay50]).1 = [("a", 30, 0), ("b", 70, 0), ("w", -100, 0)] := by
  decide +kernel

/-- A split item: its legs hang on the item, not on the batch. -/
def split40 : Slot :=
  { txn := { id := "i0", source := "a", destination := "", reference := "r9", amount := 40, precision := 1 }
    legs := [{ id := "l1", source := "a", destination := "b", reference := "r9-1", amount := 30, preciseAmount := some 30 },
             { id := "l2", source := "a", destination := "w", reference := "r9-2", amount := 10, preciseAmount := some 10 }] }

/-- Split items are never rolled back: neither as holds, nor once the queue has drained (nothing is
queued for them). -/
theorem c53_split_items_stay :
    (bulkAtomic {} "bulk_1" true (refIds "f") bulkDemo [split40, pay70]).2 = false ∧
    balances (bulkAtomic {} "bulk_1" true (refIds "f") bulkDemo [split40, pay70]).1 =
      [("a", 100, -40), ("b", 0, 30), ("w", -100, 10)] ∧
    (bulkAtomic {} "bulk_1" false (refIds "f") bulkDemo [split40, pay70]).2 = false ∧
    balances (bulkAtomic {} "bulk_1" false (refIds "f") bulkDemo [split40, pay70]).1 =
      [("a", 60, 0), ("b", 30, 0), ("w", -90, 0)] ∧
    ((bulkAtomic {} "bulk_1" false (refIds "f") bulkDemo [split40, pay70]).1.txns.all (fun r => r.status ≠ .queued)) = true := by
  decide +kernel

/-! ### C73: atomic requests through the queue -/

/-- The full claim for requests through the queue: when the answer is a failure, no item is ever
applied, whatever QUEUED rows the workers take afterwards. -/
def C73Full : Prop := ∀ (cfg : Cfg) (batch : String) (fresh : Nat → String) (db : DB) (items : List (Txn × Bool))
  (ds : List (Txn × RSlot)), Reachable cfg db → (bulkQueued cfg batch fresh db items).2 = false →
  (∀ p ∈ ds, p.1 ∈ (bulkQueued cfg batch fresh db items).1.txns ∧ p.1.status = .queued) →
  ∀ r ∈ (deliverAll cfg (bulkQueued cfg batch fresh db items).1 ds).1.txns,
    r ∉ db.txns → r.status = .applied → ¬ Names batch r

/-- The rollback of a queued request finds none of its items: none of them is APPLIED yet. -/
theorem c73_rollback_finds_nothing (cfg : Cfg) (batch : String) (db : DB) (items : List (Txn × Bool))
    (hnew : ∀ r ∈ db.txns, ¬ Names batch r) : (placeQueued cfg batch db items).1.refundables batch = [] := by
  have key : ∀ (items : List (Txn × Bool)) (db : DB), (∀ r ∈ db.txns, Names batch r → r.status = .queued ∨ r.status = .scheduled) →
      ∀ r ∈ (placeQueued cfg batch db items).1.txns, Names batch r → r.status = .queued ∨ r.status = .scheduled := by
    intro items
    induction items with
    | nil => intro db h; exact h
    | cons p items ih =>
      intro db h
      obtain ⟨t, bad⟩ := p
      simp only [placeQueued]
      split
      · exact h
      · refine ih _ ?_
        intro r hr hn
        simp only [step] at hr
        split at hr
        · rename_i db' hi
          obtain ⟨_, _, rfl⟩ := insertTxn_ok hi
          rcases List.mem_append.1 hr with hr | hr
          · exact h r hr hn
          · simp at hr
            subst hr
            have k2 := applyPrecision_keeps { t with inflight := false, parent := batch, status := .blank }
            simp only [submit, k2.2.2.1]
            split <;> simp
        · exact h r hr hn
  unfold DB.refundables
  rw [List.reverse_eq_nil_iff, List.filter_eq_nil_iff]
  intro r hr hc
  have hn : Names batch r := by
    simp at hc
    rcases hc with (h | h) | h
    · exact .inl h.1
    · exact .inr (.inl h.1)
    · exact .inr (.inr h.2)
  rcases key items db (fun r hr hn => absurd hn (hnew r hr)) r hr hn with h | h <;> simp [h] at hc

/-- So the items queued before the failing one are applied all the same. -/
theorem c73_full_fails : ¬ C73Full := by
  intro h
  let items : List (Txn × Bool) := [(pay70.txn, false), (pay50.txn, true)]
  let out := bulkQueued {} "bulk_1" (refIds "f") bulkDemo items
  have h1 : ((out.1.txns.filter (fun r => r.status = .queued)).any (fun q =>
      (deliverAll {} out.1 [(q, { newId := "n" })]).1.txns.any (fun r => r.id = "n" && r.status = .applied &&
        r.metaQueuedParent = "bulk_1" && bulkDemo.txns.all (fun s => s.id ≠ "n")))) = true := by decide +kernel
  obtain ⟨q, hq, h2⟩ := List.any_eq_true.1 h1
  obtain ⟨r, hr, h3⟩ := List.any_eq_true.1 h2
  simp only [Bool.and_eq_true, decide_eq_true_eq] at h3
  obtain ⟨⟨⟨i1, i2⟩, i3⟩, i4⟩ := h3
  refine h {} "bulk_1" (refIds "f") bulkDemo items [(q, { newId := "n" })] ⟨_, rfl⟩ (by decide +kernel) ?_ r hr ?_ i2 (.inr (.inr i3))
  · intro p hp
    simp at hp; subst hp
    rw [List.mem_filter] at hq
    exact ⟨hq.1, by simpa using hq.2⟩
  · intro hm
    have := List.all_eq_true.1 i4 r hm
    simp [i1] at this

/-! ### C53, ordinary requests with nothing else going on -/

theorem place_rows_applied {cfg : Cfg} {H Q : String → Prop} {batch : String} (hB : ¬ H batch) {ss : List Slot} : ∀ {db : DB},
    HoldInv H db → (∀ s ∈ ss, ItemSlotOk H Q s ∧ s.others = []) →
    ∃ new, (place cfg batch false db ss).1.txns = db.txns ++ new ∧ ∀ r ∈ new, r.status = .applied ∧ r.parent = batch := by
  induction ss with
  | nil => intro db _ _; exact ⟨[], by simp [place], by simp⟩
  | cons s ss ih =>
    intro db hk hs
    obtain ⟨h, hno⟩ := hs s (by simp)
    obtain ⟨hl, hf, hid, hp⟩ := bulkTxn_live batch false s.txn
    have hr : (Act.base (.post (bulkTxn batch false s.txn) s.n1 s.n2)).Respects H := by
      refine ⟨hl, ?_, ?_⟩
      · intro u hu
        simp [Op.posts] at hu; subst hu
        rw [hf, hp]; simpa using hB
      · intro u hu; cases hu
    have hll : ∀ a b, ({ bulkTxn batch false s.txn with source := a, destination := b } : Txn).Live := fun a b => hl
    have hk2 : HoldInv H (recordSingle cfg db (bulkTxn batch false s.txn) s.n1 s.n2).1 := act_holdInv (cfg := cfg) hk hr
    have h1 : ∃ new, (recordSingle cfg db (bulkTxn batch false s.txn) s.n1 s.n2).1.txns = db.txns ++ new ∧
        ∀ r ∈ new, r.status = .applied ∧ r.parent = batch := by
      rcases single_grown (cfg := cfg) (t := bulkTxn batch false s.txn) (n1 := s.n1) (n2 := s.n2) (δ := rowInfl) hk.inv
        (fun a b _ _ _ => ⟨reg_live (hll a b), infl_live (hll a b)⟩) with ⟨g, _⟩ | ⟨a, b, g, _⟩
      · exact ⟨[], g.txns, by simp⟩
      · refine ⟨_, g.txns, ?_⟩
        intro r hr
        simp at hr; subst hr
        refine ⟨?_, ?_⟩
        · rw [finalRow_status, finalStatus_live (hll a b)]
          show (if (bulkTxn batch false s.txn).inflight then _ else _) = _
          rw [hf]; rfl
        · rw [(finalRow_keeps _).2.2.2.2.2]; exact hp
    obtain ⟨n1, e1, g1⟩ := h1
    have hgo : ∃ new, (place cfg batch false (recordSingle cfg db (bulkTxn batch false s.txn) s.n1 s.n2).1 ss).1.txns = db.txns ++ new ∧
        ∀ r ∈ new, r.status = .applied ∧ r.parent = batch := by
      obtain ⟨n2, e2, g2⟩ := ih hk2 (fun x hx => hs x (List.mem_cons_of_mem _ hx))
      refine ⟨n1 ++ n2, by rw [e2, e1, List.append_assoc], ?_⟩
      intro r hr
      rcases List.mem_append.1 hr with hr | hr
      · exact g1 r hr
      · exact g2 r hr
    simp only [place, h.whole, hno, acts, if_true]
    cases ho : (recordSingle cfg db (bulkTxn batch false s.txn) s.n1 s.n2).2 with
    | refused e => exact ⟨n1, e1, g1⟩
    | posted rows => simpa using hgo
    | discarded => simpa using hgo

theorem refundAll_rows {cfg : Cfg} {ps : List (Txn × RSlot)} (hs : ∀ p ∈ ps, p.2.others = []) : ∀ {db : DB},
    ∃ new, (refundAll cfg db ps).1.txns = db.txns ++ new ∧ ∀ r ∈ new, r.status ≠ .applied := by
  induction ps with
  | nil => intro db; exact ⟨[], by simp [refundAll], by simp⟩
  | cons p ps ih =>
    intro db
    obtain ⟨r, v⟩ := p
    have hno : v.others = [] := hs (r, v) (by simp)
    have h1 : ∃ new, (refund cfg db r.id false v.newId "" "").1.txns = db.txns ++ new ∧ ∀ x ∈ new, x.status ≠ .applied := by
      unfold refund
      cases hd : decideRefund db r.id false v.newId with
      | error e => exact ⟨[], by simp, by simp⟩
      | ok t =>
        simp only [Bool.false_eq_true, if_false, step]
        split
        · rename_i db' hi
          obtain ⟨_, _, rfl⟩ := insertTxn_ok hi
          refine ⟨[queuedRow t], rfl, ?_⟩
          intro x hx
          simp at hx; subst hx
          unfold decideRefund at hd
          split at hd
          · cases hd
          · rename_i o _
            split at hd
            · cases hd
            · simp only [Except.ok.injEq] at hd
              subst hd
              have k2 := applyPrecision_keeps (refundTxn o false v.newId)
              show (submit (refundTxn o false v.newId)).status ≠ .applied
              simp only [submit, k2.2.2.1]
              split
              · decide
              · simp [refundTxn]
        · exact ⟨[], by simp, by simp⟩
    obtain ⟨n1, e1, g1⟩ := h1
    obtain ⟨n2, e2, g2⟩ := ih (fun q hq => hs q (List.mem_cons_of_mem _ hq)) (db := (refund cfg db r.id false v.newId "" "").1)
    refine ⟨n1 ++ n2, ?_, ?_⟩
    · simp only [refundAll, hno, acts]
      rw [e2, e1, List.append_assoc]
    · intro x hx
      rcases List.mem_append.1 hx with hx | hx
      · exact g1 x hx
      · exact g2 x hx

theorem deliverAll_rows {cfg : Cfg} {ps : List (Txn × RSlot)} (hs : ∀ p ∈ ps, p.2.others = []) : ∀ {db : DB},
    ∃ new, (deliverAll cfg db ps).1.txns = db.txns ++ new ∧ ∀ r ∈ new, r.id ∈ ps.map (fun p => p.2.newId) := by
  induction ps with
  | nil => intro db; exact ⟨[], by simp [deliverAll], by simp⟩
  | cons p ps ih =>
    intro db
    obtain ⟨q, v⟩ := p
    have hno : v.others = [] := hs (q, v) (by simp)
    have h1 : ∃ new, (recordSingle cfg db (Queue.queueCopy q v.newId) "" "").1.txns = db.txns ++ new ∧ ∀ x ∈ new, x.id = v.newId := by
      unfold recordSingle
      split
      · exact ⟨[], by simp, by simp⟩
      · rename_i db1 sid h1
        split
        · exact ⟨[], by simp [(resolve_onlyOpened h1).txns], by simp⟩
        · rename_i db2 did h2
          have e : db2.txns = db.txns := ((resolve_onlyOpened h1).trans (resolve_onlyOpened h2)).txns
          unfold postResolved
          split
          · exact ⟨[], by simp [e], by simp⟩
          · exact ⟨[], by simp [e], by simp⟩
          · rename_i w hw
            split
            · rename_i db' hp
              obtain ⟨_, _, _, rfl⟩ := persist_ok hp
              obtain ⟨_, s, d, s', d', _, _, _, _, rfl⟩ := prepareSingle_some hw
              refine ⟨[finalRow { Queue.queueCopy q v.newId with source := sid, destination := did }], by simp [e], ?_⟩
              intro x hx
              simp at hx; subst hx
              exact (finalRow_keeps _).2.1
            · exact ⟨[], by simp [e], by simp⟩
    obtain ⟨n1, e1, g1⟩ := h1
    obtain ⟨n2, e2, g2⟩ := ih (fun p hp => hs p (List.mem_cons_of_mem _ hp))
      (db := (recordSingle cfg db (Queue.queueCopy q v.newId) "" "").1)
    refine ⟨n1 ++ n2, ?_, ?_⟩
    · simp only [deliverAll, hno, acts]
      rw [e2, e1, List.append_assoc]
    · intro x hx
      rcases List.mem_append.1 hx with hx | hx
      · simp [g1 x hx]
      · exact List.mem_cons_of_mem _ (g2 x hx)

/-- C53 for ordinary requests with nothing else going on: whatever item the request failed at, once
the workers have applied the queued refunds every balance is what it was before the request. -/
theorem c53_refunded_as_before_partial (cfg : Cfg) (H Q : String → Prop) (batch : String) (hB : ¬ H batch)
    (as : List Act) (has : ∀ a ∈ as, a.Respects H ∧ a.Direct Q)
    (hnew : ∀ r ∈ (acts cfg {} as).txns, ¬ Names batch r)
    (ss : List Slot) (hss : ∀ s ∈ ss, ItemSlotOk H Q s ∧ s.others = [])
    (ps : List (Txn × RSlot))
    (hps : ps.map (·.1) = (place cfg batch false (acts cfg {} as) ss).1.refundables batch)
    (hpo : ∀ p ∈ ps, ¬ H p.2.newId ∧ p.2.others = [])
    (hready : RefundsReady cfg (place cfg batch false (acts cfg {} as) ss).1 ps)
    (ds : List (Txn × RSlot))
    (hds : (ds.map (·.1)).Perm (createdBy (refundAll cfg (place cfg batch false (acts cfg {} as) ss).1 ps).2))
    (hdo : ∀ p ∈ ds, p.2.others = [])
    (hdr : DeliversReady cfg (refundAll cfg (place cfg batch false (acts cfg {} as) ss).1 ps).1 ds)
    (b : Balance) (hb : b ∈ (acts cfg {} as).balances) :
    let db3 := (deliverAll cfg (refundAll cfg (place cfg batch false (acts cfg {} as) ss).1 ps).1 ds).1
    ∀ b' ∈ db3.balances, b'.id = b.id → b'.balance = b.balance := by
  intro db3 b' hb' hid
  have hk0 := acts_holdInv (cfg := cfg) (init_holdInv H) (fun a ha => (has a ha).1)
  have hq : ∀ (l : List Slot) (db : DB), (∀ s ∈ l, s.others = []) → Quiet cfg batch db l := by
    intro l
    induction l with
    | nil => intro _ _; trivial
    | cons s l ih =>
      intro db h
      refine ⟨?_, ih _ (fun x hx => h x (List.mem_cons_of_mem _ hx))⟩
      rw [h s (by simp)]
      exact fun r hr _ => hr
  obtain ⟨hall, hst, _, hsum⟩ := c53_refunded_once_delivered_partial cfg H Q batch hB as has hnew ss (fun s hs => (hss s hs).1)
    (hq ss _ (fun s hs => (hss s hs).2)) ps hps (fun p hp => ⟨(hpo p hp).1, by rw [(hpo p hp).2]; simp⟩) hready ds hds
    (fun p hp => by rw [hdo p hp]; simp) hdr
  have hbal := hsum b' hb'
  obtain ⟨n1, e1, g1⟩ := place_rows_applied (cfg := cfg) hB hk0 hss
  obtain ⟨n2, e2, g2⟩ := refundAll_rows (cfg := cfg) (ps := ps) (fun p hp => (hpo p hp).2)
    (db := (place cfg batch false (acts cfg {} as) ss).1)
  obtain ⟨n3, e3, g3⟩ := deliverAll_rows (cfg := cfg) (ps := ds) hdo
    (db := (refundAll cfg (place cfg batch false (acts cfg {} as) ss).1 ps).1)
  have et : db3.txns = (acts cfg {} as).txns ++ n1 ++ n2 ++ n3 := by
    show (deliverAll cfg (refundAll cfg (place cfg batch false (acts cfg {} as) ss).1 ps).1 ds).1.txns = _
    rw [e3, e2, e1]
  -- ids of the delivered rows are new
  have hfresh : ∀ (l : List (Txn × RSlot)) (d : DB), (∀ p ∈ l, p.2.others = []) → DeliversReady cfg d l →
      ∀ r ∈ d.txns, r.id ∉ l.map (fun p => p.2.newId) := by
    intro l
    induction l with
    | nil => intro _ _ _ _ _; simp
    | cons p l ih =>
      intro d h hr r hrm
      obtain ⟨q, v⟩ := p
      have hno : v.others = [] := h (q, v) (by simp)
      obtain ⟨f1, _, f3⟩ := hr
      rw [hno] at f1 f3
      obtain ⟨new, en⟩ := recordSingle_txns cfg d (Queue.queueCopy q v.newId) "" ""
      simp only [List.map_cons, List.mem_cons, not_or]
      refine ⟨?_, ih _ (fun x hx => h x (List.mem_cons_of_mem _ hx)) f3 r
        (by show r ∈ (recordSingle cfg d (Queue.queueCopy q v.newId) "" "").1.txns; rw [en]; exact List.mem_append_left _ hrm)⟩
      intro e
      have : d.hasTxnId v.newId = true := by
        unfold DB.hasTxnId
        exact List.any_eq_true.2 ⟨r, hrm, by simp [e]⟩
      rw [show (acts cfg d []) = d from rfl] at f1
      rw [f1] at this; cases this
  have hu1 : Inv (place cfg batch false (acts cfg {} as) ss).1 := by
    obtain ⟨bs, ep, hb, _⟩ := place_items (cfg := cfg) hB hk0 (fun s hs => (hss s hs).1) (hq ss _ (fun s hs => (hss s hs).2))
    rw [ep]; exact (acts_holdInv (cfg := cfg) hk0 (fun b hm => (hb b hm).1)).inv
  have keep0 : ∀ r ∈ (acts cfg {} as).txns, Mine' (ps.map (·.1)) (ds.map (fun p => p.2.newId)) r = false := by
    intro r hr
    unfold Mine'
    rw [Bool.or_eq_false_iff]
    constructor
    · cases hc : (ps.map (·.1)).any (fun l => l.id = r.id) with
      | false => rfl
      | true =>
        obtain ⟨l, hl, he⟩ := List.any_eq_true.1 hc
        rw [hps] at hl
        obtain ⟨h1, h2⟩ := refundables_names l hl
        have : l = r := row_unique hu1 h1 (by rw [e1]; exact List.mem_append_left _ hr) (by simpa using he)
        subst this
        exact absurd h2 (hnew l hr)
    · cases hc : (ds.map (fun p => p.2.newId)).contains r.id with
      | false => rfl
      | true =>
        refine absurd (List.contains_iff_mem.1 hc) (hfresh ds _ hdo hdr r ?_)
        rw [e2, e1]
        exact List.mem_append_left _ (List.mem_append_left _ hr)
  have drop1 : ∀ r ∈ n1, Mine' (ps.map (·.1)) (ds.map (fun p => p.2.newId)) r = true := by
    intro r hr
    have hm := hall r (by show r ∈ (place cfg batch false (acts cfg {} as) ss).1.txns; rw [e1]; exact List.mem_append_right _ hr)
      (g1 r hr).1 (g1 r hr).2
    unfold Mine'
    rw [Bool.or_eq_true]
    exact .inl (List.any_eq_true.2 ⟨r, hm, by simp⟩)
  have drop3 : ∀ r ∈ n3, Mine' (ps.map (·.1)) (ds.map (fun p => p.2.newId)) r = true := by
    intro r hr
    unfold Mine'
    rw [Bool.or_eq_true]
    exact .inr (List.contains_iff_mem.2 (g3 r hr))
  have zero2 : ∀ l : List Txn, (∀ r ∈ l, r.status ≠ .applied) → (l.map (signed b'.id)).sum = 0 := by
    intro l
    induction l with
    | nil => intro _; rfl
    | cons t l ih =>
      intro h
      have := ih (fun x hx => h x (List.mem_cons_of_mem _ hx))
      simp [signed, h t (by simp), this]
  have hc := c60_balance_is_sum_of_applied_rows cfg H as (fun a ha => (has a ha).1) b hb
  obtain ⟨c1, c2, c3⟩ := hc
  have hs0 := signed_sum b.id (acts cfg {} as).txns
  have etx : db3.txns.filter (fun r => !Mine' (ps.map (·.1)) (ds.map (fun p => p.2.newId)) r) =
      (acts cfg {} as).txns ++ n2.filter (fun r => !Mine' (ps.map (·.1)) (ds.map (fun p => p.2.newId)) r) := by
    rw [et, List.filter_append, List.filter_append, List.filter_append,
      List.filter_eq_self.2 (fun r hr => by rw [keep0 r hr]; rfl),
      List.filter_eq_nil_iff.2 (fun r hr => by rw [drop1 r hr]; simp : ∀ r ∈ n1, ¬ _),
      List.filter_eq_nil_iff.2 (fun r hr => by rw [drop3 r hr]; simp : ∀ r ∈ n3, ¬ _), List.append_nil, List.append_nil]
  have hbal' : b'.balance = ((db3.txns.filter (fun r => !Mine' (ps.map (·.1)) (ds.map (fun p => p.2.newId)) r)).map (signed b'.id)).sum := hbal
  rw [etx, List.map_append, List.sum_append, zero2 _ (fun r hr => g2 r (List.mem_filter.1 hr).1), hid] at hbal'
  rw [c3, c1, c2]
  omega

/-! ### The hypotheses are met -/

instance (cfg : Cfg) : ∀ (db : DB) (ps : List (Txn × VSlot)), Decidable (VoidsFresh cfg db ps)
  | _, [] => .isTrue trivial
  | db, (r, v) :: rest =>
    have := instDecidableVoidsFresh cfg (voidInflight cfg (acts cfg db v.others) r.id v.newId v.ref v.n1 v.n2).1 rest
    inferInstanceAs (Decidable (_ ∧ _ ∧ _))

instance (cfg : Cfg) : ∀ (db : DB) (ps : List (Txn × RSlot)), Decidable (RefundsReady cfg db ps)
  | _, [] => .isTrue trivial
  | db, (r, v) :: rest =>
    have := instDecidableRefundsReady cfg (refund cfg (acts cfg db v.others) r.id false v.newId "" "").1 rest
    inferInstanceAs (Decidable (_ ∧ _ ∧ _ ∧ _))

instance (cfg : Cfg) : ∀ (db : DB) (ps : List (Txn × RSlot)), Decidable (DeliversReady cfg db ps)
  | _, [] => .isTrue trivial
  | db, (q, v) :: rest =>
    have := instDecidableDeliversReady cfg (recordSingle cfg (acts cfg db v.others) (Queue.queueCopy q v.newId) "" "").1 rest
    inferInstanceAs (Decidable (_ ∧ _ ∧ _))

theorem numbered_mem {α : Type} {mk : Nat → α} {l : List Txn} : ∀ {k : Nat}, ∀ p ∈ numbered mk k l, ∃ j, p.2 = mk j := by
  induction l with
  | nil => intro k p hp; simp [numbered] at hp
  | cons t l ih =>
    intro k p hp
    rcases List.mem_cons.1 hp with rfl | hp
    · exact ⟨k, rfl⟩
    · exact ih p hp

theorem numbered_fst {α : Type} {mk : Nat → α} {l : List Txn} : ∀ {k : Nat}, (numbered mk k l).map (·.1) = l := by
  induction l with
  | nil => intro k; rfl
  | cons t l ih => intro k; simp [numbered, ih]

/-! ### C53 for the request as a whole -/

/-- The rows and ids of the voids a failed request makes. -/
def ownVoids (cfg : Cfg) (batch : String) (fresh : Nat → String) (db : DB) (ss : List Slot) : List (Txn × VSlot) :=
  numbered (fun k => { newId := fresh k, ref := fresh k ++ "_ref" }) 0 (inflightLegs (place cfg batch true db ss).1 batch)

/-- The rows and ids of the refunds a failed request makes. -/
def ownRefunds (cfg : Cfg) (batch : String) (fresh : Nat → String) (db : DB) (ss : List Slot) : List (Txn × RSlot) :=
  numbered (fun k => { newId := fresh k }) 0 ((place cfg batch false db ss).1.refundables batch)

/-- C53 for requests for holds: when the answer is a failure and nothing else went on, every column of
every account is as it was before the request. -/
theorem c53_failed_inflight_request (cfg : Cfg) (H Q K : String → Prop) (hQ : ∀ k, K k → ¬ Q k) (batch : String)
    (as : List Act) (has : ∀ a ∈ as, a.Respects H ∧ a.Direct Q ∧ Apart batch K a)
    (hnew : ∀ r ∈ (acts cfg {} as).txns, ¬ Names batch r)
    (ss : List Slot) (hss : ∀ s ∈ ss, SlotOk H Q K batch s ∧ s.others = []) (fresh : Nat → String)
    (hfr : VoidsFresh cfg (place cfg batch true (acts cfg {} as) ss).1 (ownVoids cfg batch fresh (acts cfg {} as) ss))
    (hfail : (bulkAtomic cfg batch true fresh (acts cfg {} as) ss).2 = false) :
    let db2 := (bulkAtomic cfg batch true fresh (acts cfg {} as) ss).1
    ∀ i, col (·.debit) db2 i = col (·.debit) (acts cfg {} as) i ∧ col (·.credit) db2 i = col (·.credit) (acts cfg {} as) i ∧
      col (·.inflightDebit) db2 i = col (·.inflightDebit) (acts cfg {} as) i ∧
      col (·.inflightCredit) db2 i = col (·.inflightCredit) (acts cfg {} as) i := by
  have e : (bulkAtomic cfg batch true fresh (acts cfg {} as) ss).1 =
      (voidAll cfg (place cfg batch true (acts cfg {} as) ss).1 (ownVoids cfg batch fresh (acts cfg {} as) ss)).1 := by
    revert hfail
    unfold bulkAtomic
    dsimp only
    cases hp : (place cfg batch true (acts cfg {} as) ss).2 with
    | true => rw [if_pos rfl, hp]; intro h; simp at h
    | false => intro _; simp [rollback, ownVoids]
  dsimp only
  rw [e]
  refine c53_inflight_as_before cfg H Q K hQ batch as has hnew ss hss _ numbered_fst ?_ hfr
  intro p hp
  obtain ⟨j, ej⟩ := numbered_mem p hp
  rw [ej]
  exact ⟨⟨by simp, (by decide +kernel : isIndicator "" = false ∧ isIndicator "" = false)⟩, rfl⟩

/-- C53 for ordinary requests (partial, as `c53_refunded_as_before_partial`): when the answer is a
failure, nothing else went on and the workers have applied the refunds, in whatever order, every
balance is as it was before the request. -/
theorem c53_failed_request_refunded_partial (cfg : Cfg) (H Q : String → Prop) (batch : String) (hB : ¬ H batch)
    (as : List Act) (has : ∀ a ∈ as, a.Respects H ∧ a.Direct Q)
    (hnew : ∀ r ∈ (acts cfg {} as).txns, ¬ Names batch r)
    (ss : List Slot) (hss : ∀ s ∈ ss, ItemSlotOk H Q s ∧ s.others = []) (fresh : Nat → String) (hH : ∀ k, ¬ H (fresh k))
    (hready : RefundsReady cfg (place cfg batch false (acts cfg {} as) ss).1 (ownRefunds cfg batch fresh (acts cfg {} as) ss))
    (hfail : (bulkAtomic cfg batch false fresh (acts cfg {} as) ss).2 = false)
    (ds : List (Txn × RSlot))
    (hds : (ds.map (·.1)).Perm (createdBy (refundAll cfg (place cfg batch false (acts cfg {} as) ss).1
      (ownRefunds cfg batch fresh (acts cfg {} as) ss)).2))
    (hdo : ∀ p ∈ ds, p.2.others = [])
    (hdr : DeliversReady cfg (bulkAtomic cfg batch false fresh (acts cfg {} as) ss).1 ds)
    (b : Balance) (hb : b ∈ (acts cfg {} as).balances) :
    let db3 := (deliverAll cfg (bulkAtomic cfg batch false fresh (acts cfg {} as) ss).1 ds).1
    ∀ b' ∈ db3.balances, b'.id = b.id → b'.balance = b.balance := by
  have e : (bulkAtomic cfg batch false fresh (acts cfg {} as) ss).1 =
      (refundAll cfg (place cfg batch false (acts cfg {} as) ss).1 (ownRefunds cfg batch fresh (acts cfg {} as) ss)).1 := by
    revert hfail
    unfold bulkAtomic
    dsimp only
    cases hp : (place cfg batch false (acts cfg {} as) ss).2 with
    | true => rw [if_pos rfl, hp]; intro h; simp at h
    | false => intro _; simp [rollback, ownRefunds]
  rw [e] at hdr
  dsimp only
  rw [e]
  refine c53_refunded_as_before_partial cfg H Q batch hB as has hnew ss hss _ numbered_fst ?_ hready ds hds hdo hdr b hb
  intro p hp
  obtain ⟨j, ej⟩ := numbered_mem p hp
  rw [ej]
  exact ⟨hH j, rfl⟩

/-- A history before the request: three accounts, the first with 100. -/
def before : List Act :=
  [.base (.create "a" "" "USD"), .base (.create "b" "" "USD"), .base (.create "w" "" "USD"),
   .base (.post { id := "p", source := "w", destination := "a", reference := "r0", amount := 100, precision := 1,
                  allowOverdraft := true, status := .queued } "x" "y")]

def itemIds (k : String) : Prop := k = "i1" ∨ k = "i2" ∨ k = "i3"

theorem before_ok : ∀ a ∈ before, a.Respects itemIds ∧ a.Direct (fun _ => False) ∧ Apart "bulk_1" itemIds a := by
  intro a ha
  simp only [before, List.mem_cons, List.not_mem_nil, or_false] at ha
  rcases ha with rfl | rfl | rfl | rfl <;>
    refine ⟨?_, ?_, ?_⟩ <;>
    simp [Act.Respects, Op.Ordinary, Op.posts, Txn.Live, Txn.Plain, Act.Direct, Op.gens, Apart, itemIds] <;> decide +kernel

/-- Three items; the third overdraws. -/
def three : List Slot :=
  [{ txn := { id := "i1", source := "a", destination := "b", reference := "r1", amount := 70, precision := 1 }, n1 := "x", n2 := "y" },
   { txn := { id := "i2", source := "a", destination := "w", reference := "r2", amount := 20, precision := 1 }, n1 := "x", n2 := "y" },
   { txn := { id := "i3", source := "a", destination := "b", reference := "r3", amount := 50, precision := 1 }, n1 := "x", n2 := "y" }]

/-- Two holds are placed, the third item fails, and the rollback releases both. -/
example :
    (place {} "bulk_1" true (acts {} {} before) three).2 = false ∧
    balances (place {} "bulk_1" true (acts {} {} before) three).1 = [("a", 100, -90), ("b", 0, 70), ("w", -100, 20)] ∧
    balances (rollback {} "bulk_1" true (refIds "f") (place {} "bulk_1" true (acts {} {} before) three).1) =
      [("a", 100, 0), ("b", 0, 0), ("w", -100, 0)] := by decide +kernel

/-- The hypotheses of `c53_failed_inflight_request` hold for that request. -/
example : ∀ i, col (·.inflightDebit) (bulkAtomic {} "bulk_1" true (refIds "f") (acts {} {} before) three).1 i =
    col (·.inflightDebit) (acts {} {} before) i := by
  intro i
  refine (c53_failed_inflight_request {} itemIds (fun _ => False) itemIds (fun _ _ h => h) "bulk_1" before before_ok ?_ three ?_
    (refIds "f") (by unfold ownVoids; decide +kernel) (by decide +kernel) i).2.2.1
  · have h : ((acts {} {} before).txns.all (fun r => r.id ≠ "bulk_1" ∧ r.parent ≠ "bulk_1" ∧ r.metaQueuedParent ≠ "bulk_1")) = true := by
      decide +kernel
    intro r hr hn
    have := List.all_eq_true.1 h r hr
    simp at this
    rcases hn with h | h | h
    · exact this.1 h
    · exact this.2.1 h
    · exact this.2.2 h
  · intro s hs
    simp only [three, List.mem_cons, List.not_mem_nil, or_false] at hs
    rcases hs with rfl | rfl | rfl <;>
      exact ⟨⟨rfl, by simp, by simp [itemIds], by simp [itemIds], by decide +kernel⟩, rfl⟩

/-- Two payments are made, the third item fails, two refunds are queued, and the workers apply them
in the other order. -/
def backwards (db : DB) : List (Txn × RSlot) :=
  numbered (fun k => { newId := refIds "g" k }) 0 ((db.txns.filter (fun r => r.status = .queued)).reverse)

example :
    (bulkAtomic {} "bulk_1" false (refIds "f") (acts {} {} before) three).2 = false ∧
    balances (bulkAtomic {} "bulk_1" false (refIds "f") (acts {} {} before) three).1 =
      [("a", 10, 0), ("b", 70, 0), ("w", -80, 0)] ∧
    (backwards (bulkAtomic {} "bulk_1" false (refIds "f") (acts {} {} before) three).1).length = 2 ∧
    balances (deliverAll {} (bulkAtomic {} "bulk_1" false (refIds "f") (acts {} {} before) three).1
      (backwards (bulkAtomic {} "bulk_1" false (refIds "f") (acts {} {} before) three).1)).1 =
      [("a", 100, 0), ("b", 0, 0), ("w", -100, 0)] := by decide +kernel

/-- The hypotheses of `c53_refunded_as_before_partial` hold for that request. -/
example (b : Balance) (hb : b ∈ (acts {} {} before).balances) :
    ∀ b' ∈ (deliverAll {} (bulkAtomic {} "bulk_1" false (refIds "f") (acts {} {} before) three).1
      (backwards (bulkAtomic {} "bulk_1" false (refIds "f") (acts {} {} before) three).1)).1.balances,
      b'.id = b.id → b'.balance = b.balance := by
  have e : (bulkAtomic {} "bulk_1" false (refIds "f") (acts {} {} before) three).1 =
      (refundAll {} (place {} "bulk_1" false (acts {} {} before) three).1 (numbered (fun k => { newId := refIds "f" k }) 0
        ((place {} "bulk_1" false (acts {} {} before) three).1.refundables "bulk_1"))).1 := by
    have h : (place {} "bulk_1" false (acts {} {} before) three).2 = false := by decide +kernel
    simp [bulkAtomic, h, rollback]
  rw [e]
  refine c53_refunded_as_before_partial {} (fun _ => False) (fun _ => False) "bulk_1" (fun h => h) before ?_ ?_ three ?_ _ numbered_fst
    ?_ (by decide +kernel) _ ?_ ?_ (by decide +kernel) b hb
  · intro a ha
    simp only [before, List.mem_cons, List.not_mem_nil, or_false] at ha
    rcases ha with rfl | rfl | rfl | rfl <;>
      refine ⟨?_, ?_⟩ <;>
      simp [Act.Respects, Op.Ordinary, Op.posts, Txn.Live, Txn.Plain, Act.Direct, Op.gens] <;> decide +kernel
  · have h : ((acts {} {} before).txns.all (fun r => r.id ≠ "bulk_1" ∧ r.parent ≠ "bulk_1" ∧ r.metaQueuedParent ≠ "bulk_1")) = true := by
      decide +kernel
    intro r hr hn
    have := List.all_eq_true.1 h r hr
    simp at this
    rcases hn with h | h | h
    · exact this.1 h
    · exact this.2.1 h
    · exact this.2.2 h
  · intro s hs
    simp only [three, List.mem_cons, List.not_mem_nil, or_false] at hs
    rcases hs with rfl | rfl | rfl <;>
      exact ⟨⟨rfl, by simp, by decide +kernel, by decide +kernel⟩, rfl⟩
  · intro p hp
    obtain ⟨j, e⟩ := numbered_mem p hp
    rw [e]
    exact ⟨fun h => h, rfl⟩
  · rw [backwards, numbered_fst]
    have : ((refundAll {} (place {} "bulk_1" false (acts {} {} before) three).1 (numbered (fun k => { newId := refIds "f" k }) 0
        ((place {} "bulk_1" false (acts {} {} before) three).1.refundables "bulk_1"))).1.txns.filter (fun r => r.status = .queued)) =
        createdBy (refundAll {} (place {} "bulk_1" false (acts {} {} before) three).1 (numbered (fun k => { newId := refIds "f" k }) 0
        ((place {} "bulk_1" false (acts {} {} before) three).1.refundables "bulk_1"))).2 := by decide +kernel
    rw [this]
    exact List.reverse_perm _
  · intro p hp
    obtain ⟨j, e⟩ := numbered_mem p hp
    rw [e]

end Blnk.Atomic
