import Verif.Lemmas.Complete
/-
Helper lemmas for C14: simulation between the in-memory balances of a batch and
the database of one-by-one processing.
-/
namespace Blnk

/-- A balance without its version and queued total: the stored money columns,
identity and currency. -/
def Balance.cols (b : Balance) : Balance := { b with version := 0, queuedDebit := none }

theorem canProcess_version (t : Txn) (b : Balance) (v : Nat) :
    canProcessTransaction t { b with version := v } = canProcessTransaction t b := rfl

theorem applySource_version (t : Txn) (b : Balance) (v : Nat) :
    applySource t { b with version := v } = (applySource t b).map (fun x => { x with version := v }) := by
  unfold applySource
  split
  · simp only [Balance.commitInflightDebit, Balance.computeBalance, if_true, Bool.false_eq_true, if_false]
    split <;> rfl
  · split
    · rfl
    · simp only [Balance.rollbackInflightDebit, Balance.computeBalance, if_true]
      split <;> rfl
  · simp only [bind, Except.bind, canProcess_version]
    cases t.applyPrecision.validate with
    | error e => rfl
    | ok _ =>
      simp only
      cases canProcessTransaction t.applyPrecision b with
      | error e => rfl
      | ok _ =>
        simp only [pure, Except.pure, Except.map, Except.ok.injEq, Balance.postDebit]
        cases t.inflight <;> rfl

theorem applyDestination_version (t : Txn) (b : Balance) (v : Nat) :
    applyDestination t { b with version := v } = (applyDestination t b).map (fun x => { x with version := v }) := by
  unfold applyDestination
  split
  · simp only [Balance.commitInflightCredit, Balance.computeBalance, if_true, Bool.false_eq_true, if_false]
    split <;> rfl
  · split
    · rfl
    · simp only [Balance.rollbackInflightCredit, Balance.computeBalance, if_true]
      split <;> rfl
  · simp only [Except.map, Except.ok.injEq, Balance.postCredit]
    cases t.inflight <;> rfl

/-- Equal up to version. -/
def EqV (a b : Balance) : Prop := a = { b with version := a.version }

theorem EqV.symm {a b : Balance} (h : EqV a b) : EqV b a := by
  unfold EqV at *; rw [h]

theorem applySource_eqV {t : Txn} {a b a' : Balance} (h : EqV a b) (ha : applySource t a = .ok a') :
    ∃ b', applySource t b = .ok b' ∧ EqV a' b' := by
  rw [h, applySource_version] at ha
  cases hb : applySource t b with
  | error e => rw [hb] at ha; cases ha
  | ok b' =>
    rw [hb] at ha
    simp only [Except.map, Except.ok.injEq] at ha
    exact ⟨b', rfl, by unfold EqV; rw [← ha]⟩

theorem applyDestination_eqV {t : Txn} {a b a' : Balance} (h : EqV a b) (ha : applyDestination t a = .ok a') :
    ∃ b', applyDestination t b = .ok b' ∧ EqV a' b' := by
  rw [h, applyDestination_version] at ha
  cases hb : applyDestination t b with
  | error e => rw [hb] at ha; cases ha
  | ok b' =>
    rw [hb] at ha
    simp only [Except.map, Except.ok.injEq] at ha
    exact ⟨b', rfl, by unfold EqV; rw [← ha]⟩

/-! ### A queued member and the transaction posted alone -/

theorem applyPrecision_status (t : Txn) (st : Status) :
    ({ t with status := st } : Txn).applyPrecision = { t.applyPrecision with status := st } := by
  unfold Txn.applyPrecision convertDecimalToPrecise
  by_cases h : t.precision = 0 <;> simp only [h, if_true, if_false] <;> cases t.preciseAmount <;> simp only <;>
    split <;> rfl

theorem batchMember_status {t : Txn} (h : t.status = .queued) :
    (batchMember t).status = .applied ∨ (batchMember t).status = .inflight := by
  simp only [batchMember, finalStatus, h]
  split <;> simp

theorem applySource_batchMember {t : Txn} (h : t.status = .queued) (b : Balance) :
    applySource (batchMember t) b = applySource t b := by
  have hb := batchMember_status h
  unfold applySource
  rw [h]
  have e : (batchMember t).applyPrecision = { t.applyPrecision with status := finalStatus t } := applyPrecision_status t _
  rcases hb with hb | hb <;> rw [hb] <;> simp only <;> rw [e] <;> rfl

theorem applyDestination_batchMember {t : Txn} (h : t.status = .queued) (b : Balance) :
    applyDestination (batchMember t) b = applyDestination t b := by
  have hb := batchMember_status h
  unfold applyDestination
  rw [h]
  have e : (batchMember t).applyPrecision = { t.applyPrecision with status := finalStatus t } := applyPrecision_status t _
  rcases hb with hb | hb <;> rw [hb] <;> simp only <;> rw [e] <;> rfl

theorem finalRow_batchMember {t : Txn} (h : t.status = .queued) : finalRow (batchMember t) = finalRow t := by
  have hb := batchMember_status h
  have e : (batchMember t).applyPrecision = { t.applyPrecision with status := finalStatus t } := applyPrecision_status t _
  have e2 : finalStatus (batchMember t) = finalStatus t := by
    simp only [batchMember, finalStatus, h]
    cases t.inflight <;> simp
  unfold finalRow
  rw [e2]
  have e3 : applyRecord (batchMember t) = { t.applyPrecision with status := finalStatus t } := by
    unfold applyRecord
    rcases hb with hb | hb <;> rw [hb] <;> simp only <;> rw [e]
  have e4 : applyRecord t = t.applyPrecision := by
    unfold applyRecord; rw [h]
  rw [e3, e4]

/-! ### In-memory lookups -/

theorem find_put_ne {bs : List Balance} {b : Balance} {i : String} (h : i ≠ b.id) :
    (putBalance bs b).find? (fun x => x.id = i) = bs.find? (fun x => x.id = i) := by
  induction bs with
  | nil => rfl
  | cons x bs ih =>
    simp only [putBalance, List.map_cons, List.find?_cons] at ih ⊢
    by_cases hx : x.id = b.id
    · rw [if_pos hx]
      have h1 : ¬ b.id = i := fun he => h he.symm
      have h2 : ¬ x.id = i := fun he => h (he.symm.trans hx)
      simp only [h1, h2, decide_false]; exact ih
    · rw [if_neg hx]
      by_cases hi : x.id = i
      · simp [hi]
      · simp only [hi, decide_false]; exact ih

theorem find_put_eq {bs : List Balance} {b o : Balance} (h : bs.find? (fun x => x.id = b.id) = some o) :
    (putBalance bs b).find? (fun x => x.id = b.id) = some b := by
  induction bs with
  | nil => cases h
  | cons x bs ih =>
    simp only [List.find?_cons, putBalance, List.map_cons] at ih h ⊢
    by_cases hx : x.id = b.id
    · simp [hx]
    · simp only [hx, decide_false] at h
      simp only [hx, if_false, decide_false]
      exact ih h

/-! ### The simulation -/

/-- Posting the members one after the other; `none` as soon as one is not posted. -/
def postAll (cfg : Cfg) : DB → List Txn → Option DB
  | db, [] => some db
  | db, t :: ts => match postResolved cfg db t with
    | (db', .posted _) => postAll cfg db' ts
    | _ => none

/-- The in-memory balances agree with the database of one-by-one processing; the
queued totals read at the start of the batch are at least the current ones. -/
structure Sim (cfg : Cfg) (sd : DB) (bs : List Balance) : Prop where
  inv : Inv sd
  queued : QueuedNonneg sd
  rows : ∀ i b, bs.find? (fun x => x.id = i) = some b →
    ∃ r, sd.find i = some r ∧ EqV b { r with queuedDebit := b.queuedDebit } ∧
      (cfg.queuedChecks = false → b.queuedDebit = none) ∧
      (cfg.queuedChecks = true → sd.queuedDebit i ≤ b.queuedDebit.getD 0)

theorem EqV.cols {a b : Balance} {q : Option Int} (h : EqV a { b with queuedDebit := q }) : a.cols = b.cols := by
  unfold EqV at h; unfold Balance.cols; rw [h]

/-! ### Queued totals only shrink -/

theorem sum_filter_le {l : List Txn} {f : Txn → Int} {p q : Txn → Bool} (h : ∀ t ∈ l, p t = true → q t = true)
    (hn : ∀ t ∈ l, q t = true → 0 ≤ f t) : ((l.filter p).map f).sum ≤ ((l.filter q).map f).sum := by
  induction l with
  | nil => simp
  | cons t l ih =>
    have := ih (fun x hx => h x (List.mem_cons_of_mem _ hx)) (fun x hx => hn x (List.mem_cons_of_mem _ hx))
    have h1 := h t (by simp)
    have h2 := hn t (by simp)
    cases hp : p t <;> cases hq : q t <;> simp_all <;> omega

theorem queuedDebit_append {db : DB} {row : Txn} {bal : List Balance} (hq : QueuedNonneg db) (hr : row.status ≠ .queued)
    (i : String) : ({ balances := bal, txns := db.txns ++ [row] } : DB).queuedDebit i ≤ db.queuedDebit i := by
  unfold DB.queuedDebit
  simp only [List.filter_append, List.map_append, List.sum_append]
  have h1 : ([row].filter (fun t => decide (t.source = i) && decide (t.status = .queued)
      && !(db.txns ++ [row]).any (fun c => closesQueued c t.id))) = [] := by
    simp [hr]
  rw [h1]
  simp only [List.map_nil, List.sum_nil, Int.add_zero]
  apply sum_filter_le
  · intro t _ ht
    simp only [List.any_append, Bool.not_or, Bool.and_eq_true] at ht ⊢
    exact ⟨ht.1, ht.2.1⟩
  · intro t ht hqt
    simp only [Bool.and_eq_true, decide_eq_true_eq] at hqt
    exact hq t ht hqt.1.2

/-! ### Less queued, still accepted -/

theorem applySource_queued {t : Txn} {b b' : Balance} {q : Option Int} (hle : q.getD 0 ≤ b.queuedDebit.getD 0)
    (h : applySource t b = .ok b') : applySource t { b with queuedDebit := q } = .ok { b' with queuedDebit := q } := by
  by_cases hc : t.status = .commit
  · simp only [applySource, hc, Balance.commitInflightDebit, Balance.computeBalance, if_true, Bool.false_eq_true, if_false] at h ⊢
    split at h
    · cases h
    · rename_i hn; cases h; rw [if_neg hn]
  by_cases hv : t.status = .void
  · simp only [applySource, hv] at h ⊢
    split at h
    · cases h
    · simp only [Balance.rollbackInflightDebit, Balance.computeBalance, if_true] at h ⊢
      split at h
      · cases h
      · rename_i hn; cases h; rw [if_neg hn]
  · obtain ⟨h1, h2, h3⟩ := (applySource_plain hc hv).1 h
    refine (applySource_plain hc hv).2 ⟨h1, ?_, ?_⟩
    · unfold canProcessTransaction at h2 ⊢
      split at h2
      · rename_i h0; rw [if_pos h0]
      · rename_i h0
        rw [if_neg h0]
        have ha : b.available ≤ ({ b with queuedDebit := q } : Balance).available := by
          unfold Balance.available; simp only; omega
        simp only at h2 ⊢
        split at h2
        · rw [if_pos (by omega)]
        · split at h2
          · rename_i hl
            split at h2
            · rename_i hlim
              simp only [hl, if_true]
              split
              · rfl
              · rw [if_pos (Int.le_trans hlim (Int.sub_le_sub_right ha _))]
            · cases h2
          · cases h2
    · rw [h3]
      cases t.inflight <;> rfl

theorem applyDestination_queued {t : Txn} {b b' : Balance} {q : Option Int} 
    (h : applyDestination t b = .ok b') : applyDestination t { b with queuedDebit := q } = .ok { b' with queuedDebit := q } := by
  by_cases hc : t.status = .commit
  · simp only [applyDestination, hc, Balance.commitInflightCredit, Balance.computeBalance, if_true, Bool.false_eq_true, if_false] at h ⊢
    split at h
    · cases h
    · rename_i hn; cases h; rw [if_neg hn]
  by_cases hv : t.status = .void
  · simp only [applyDestination, hv] at h ⊢
    split at h
    · cases h
    · simp only [Balance.rollbackInflightCredit, Balance.computeBalance, if_true] at h ⊢
      split at h
      · cases h
      · rename_i hn; cases h; rw [if_neg hn]
  · rw [applyDestination_plain ⟨hc, hv⟩ h, applyDestination_plain_ok ⟨hc, hv⟩]
    cases t.inflight <;> rfl

theorem eqV_writeBack {r b b' : Balance} (h : EqV b { b' with queuedDebit := b.queuedDebit }) (e1 : b'.id = r.id)
    (e2 : b'.indicator = r.indicator) : EqV b { r.writeBack b' with queuedDebit := b.queuedDebit } := by
  unfold EqV at *
  rw [h]
  unfold Balance.writeBack
  simp [e1, e2]

/-- The balance as the single path reads it, from the one held in memory. -/
theorem sim_view {cfg : Cfg} {sd : DB} {bs : List Balance} (h : Sim cfg sd bs) {i : String} {b : Balance}
    (hb : bs.find? (fun x => x.id = i) = some b) : ∃ r, sd.find i = some r ∧
      EqV { b with queuedDebit := (sd.view cfg r).queuedDebit } (sd.view cfg r) ∧
      (sd.view cfg r).queuedDebit.getD 0 ≤ b.queuedDebit.getD 0 := by
  obtain ⟨r, hr, hv, h1, h2⟩ := h.rows i b hb
  refine ⟨r, hr, ?_, ?_⟩
  · unfold EqV at *; rw [hv]; simp [DB.view]
  · have hid := (find_mem hr).2
    cases hc : cfg.queuedChecks
    · simp [DB.view, hc, h1 hc]
    · simp [DB.view, hc, hid]; exact h2 hc

/-- A member applied in memory would be posted one by one, with the same effect. -/
theorem sim_mem {cfg : Cfg} {sd : DB} {bs bs' : List Balance} {t : Txn} (h : Sim cfg sd bs)
    (hst : t.status = .queued) (hne : t.source ≠ t.destination)
    (ha : applyInMemory (batchMember t) bs = .ok bs') (hz : (finalRow t).preciseAmount ≠ some 0)
    (href : sd.hasRef t.reference = false) (hid : sd.hasTxnId t.id = false) :
    (postResolved cfg sd t).2 = .posted [finalRow t] ∧ Sim cfg (postResolved cfg sd t).1 bs' := by
  unfold applyInMemory at ha
  split at ha
  · rename_i b c hb hc
    rw [if_neg (by exact hne)] at ha
    split at ha
    · cases ha
    · rename_i b' c' hab
      cases ha
      obtain ⟨ab, ac⟩ := applyToBalances_inv hab
      rw [applySource_batchMember hst] at ab
      rw [applyDestination_batchMember hst] at ac
      obtain ⟨r1, g1, v1, q1⟩ := sim_view h hb
      obtain ⟨r2, g2, v2, q2⟩ := sim_view h hc
      obtain ⟨s', a1, w1⟩ := applySource_eqV v1 (applySource_queued q1 ab)
      obtain ⟨d', a2, w2⟩ := applyDestination_eqV v2 (applyDestination_queued ac)
      have hpost := postResolved_complete href hid hne g1 g2 a1 a2 hz
      refine ⟨hpost, postResolved_inv h.inv, postResolved_queuedNonneg h.queued, ?_⟩
      obtain ⟨_, hps⟩ := postResolved_posted h.inv hpost
      obtain ⟨rs, rd, s0, d0, s0', d0', f1, f2, l1, l2, es, ed, b1, b2, f3, f4⟩ := hps.exact
      have g1' : sd.find t.source = some r1 := g1
      have g2' : sd.find t.destination = some r2 := g2
      rw [g1'] at f1; cases f1
      rw [g2'] at f2; cases f2
      rw [load_view g1'] at l1; cases l1
      rw [load_view g2'] at l2; cases l2
      rw [a1] at b1; cases b1
      rw [a2] at b2; cases b2
      have k1 := applySource_effect a1
      have k2 := applyDestination_effect a2
      have kb := applySource_effect ab
      have kc := applyDestination_effect ac
      have ib : b'.id = t.source := by rw [kb.id]; exact (find_mem hb).2
      have ic : c'.id = t.destination := by rw [kc.id]; exact (find_mem hc).2
      have hqd : ∀ i, (postResolved cfg sd t).1.queuedDebit i ≤ sd.queuedDebit i := by
        intro i
        have := queuedDebit_append (row := finalRow t) (bal := (postResolved cfg sd t).1.balances) h.queued
          (by rw [finalRow_status]; exact finalStatus_ne_queued t) i
        rw [← hps.txns] at this
        exact this
      have fix : ∀ {x y y' : Balance} {q : Option Int}, EqV { x with queuedDebit := q } y →
          EqV x { y with queuedDebit := x.queuedDebit } := by
        intro x y y' q hx
        unfold EqV at *
        have : x = { ({ x with queuedDebit := q } : Balance) with queuedDebit := x.queuedDebit } := rfl
        rw [this, hx]
      intro i x hx
      by_cases hid : i = t.destination
      · subst hid
        rw [← ic] at hx ⊢
        have hfc : (putBalance bs b').find? (fun x => x.id = c'.id) = some c := by
          rw [find_put_ne (by rw [ib, ic]; exact hne.symm), ic]; exact hc
        rw [find_put_eq hfc] at hx
        cases hx
        obtain ⟨_, _, _, n1, n2⟩ := h.rows _ c hc
        refine ⟨r2.writeBack d', by rw [ic]; exact f4,
          eqV_writeBack (fix (y' := d') w2) (by rw [k2.id]; rfl) (by rw [k2.indicator]; rfl), ?_, ?_⟩
        · intro hh; rw [kc.queued]; exact n1 hh
        · intro hh; rw [kc.queued, ic]; exact Int.le_trans (hqd _) (n2 hh)
      · rw [find_put_ne (by rw [ic]; exact hid)] at hx
        by_cases his : i = t.source
        · subst his
          rw [← ib] at hx ⊢
          rw [find_put_eq (by rw [ib]; exact hb)] at hx
          cases hx
          obtain ⟨_, _, _, n1, n2⟩ := h.rows _ b hb
          refine ⟨r1.writeBack s', by rw [ib]; exact f3,
            eqV_writeBack (fix (y' := s') w1) (by rw [k1.id]; rfl) (by rw [k1.indicator]; rfl), ?_, ?_⟩
          · intro hh; rw [kb.queued]; exact n1 hh
          · intro hh; rw [kb.queued, ib]; exact Int.le_trans (hqd _) (n2 hh)
        · rw [find_put_ne (by rw [ib]; exact his)] at hx
          obtain ⟨r, hr, hv, n1, n2⟩ := h.rows i x hx
          exact ⟨r, by rw [hps.others i his hid]; exact hr, hv, n1, fun hh => Int.le_trans (hqd _) (n2 hh)⟩
  · cases ha

/-- Without queued checks, a member posted one by one is applied in memory too. -/
theorem sim_post {cfg : Cfg} {sd : DB} {bs : List Balance} {t : Txn} (hq : cfg.queuedChecks = false) (h : Sim cfg sd bs)
    (hst : t.status = .queued) (hne : t.source ≠ t.destination) {rows : List Txn}
    (hp : (postResolved cfg sd t).2 = .posted rows)
    (hs : ∃ b, bs.find? (fun x => x.id = t.source) = some b)
    (hd : ∃ b, bs.find? (fun x => x.id = t.destination) = some b) :
    ∃ bs', applyInMemory (batchMember t) bs = .ok bs' := by
  obtain ⟨_, hps⟩ := postResolved_posted h.inv hp
  obtain ⟨rs, rd, s, d, s', d', f1, f2, l1, l2, es, ed, a1, a2, f3, f4⟩ := hps.exact
  rw [load_view f1] at l1; cases l1
  rw [load_view f2] at l2; cases l2
  obtain ⟨b, hb⟩ := hs
  obtain ⟨c, hc⟩ := hd
  obtain ⟨r1, g1, v1, m1, _⟩ := h.rows _ b hb
  obtain ⟨r2, g2, v2, m2, _⟩ := h.rows _ c hc
  rw [f1] at g1; cases g1
  rw [f2] at g2; cases g2
  rw [m1 hq] at v1
  rw [m2 hq] at v2
  have e1 : sd.view cfg rs = { rs with queuedDebit := none } := by simp [DB.view, hq]
  have e2 : sd.view cfg rd = { rd with queuedDebit := none } := by simp [DB.view, hq]
  rw [e1] at a1
  rw [e2] at a2
  obtain ⟨b', ab, vb⟩ := applySource_eqV v1.symm a1
  obtain ⟨c', ac, vc⟩ := applyDestination_eqV v2.symm a2
  refine ⟨putBalance (putBalance bs b') c', ?_⟩
  unfold applyInMemory
  have k1 : (batchMember t).source = t.source := rfl
  have k2 : (batchMember t).destination = t.destination := rfl
  rw [k1, k2, hb, hc]
  simp only [if_neg hne, applyToBalances, applySource_batchMember hst, applyDestination_batchMember hst, ab, ac,
    bind, Except.bind, pure, Except.pure]

/-- A posted transaction's id was unused. -/
theorem posted_fresh_id {cfg : Cfg} {db : DB} {t : Txn} {rows : List Txn}
    (h : (postResolved cfg db t).2 = .posted rows) : db.hasTxnId t.id = false := by
  unfold postResolved at h
  split at h
  · cases h
  · cases h
  · rename_i w hw
    split at h
    · rename_i db' hp
      obtain ⟨_, s, d, s', d', _, _, _, _, rfl⟩ := prepareSingle_some hw
      obtain ⟨rows', _, hins, _⟩ := persist_ok hp
      simp only [DB.insertTxns] at hins
      split at hins
      · rename_i dd hdd
        have := (insertTxn_ok hdd).1
        rw [(finalRow_keeps t).2.1] at this
        exact this
      · cases hins
    · cases h

theorem putBalance_find_isSome {bs : List Balance} {b : Balance} {i : String} :
    ((putBalance bs b).find? (fun x => x.id = i)).isSome = (bs.find? (fun x => x.id = i)).isSome := by
  have h := putBalance_ids bs b
  have key : ∀ l : List Balance, (l.find? (fun x => x.id = i)).isSome = decide (i ∈ ids l) := by
    intro l
    induction l with
    | nil => rfl
    | cons x l ih =>
      simp only [List.find?_cons, ids, List.map_cons, List.mem_cons] at ih ⊢
      by_cases hx : x.id = i
      · simp [hx]
      · simp only [hx, decide_false, ih]
        simp [show ¬ i = x.id from fun he => hx he.symm]
  rw [key, key, h]

theorem applyInMemory_find_isSome {t : Txn} {bs bs' : List Balance} (h : applyInMemory t bs = .ok bs') (i : String) :
    (bs'.find? (fun x => x.id = i)).isSome = (bs.find? (fun x => x.id = i)).isSome := by
  unfold applyInMemory at h
  split at h
  · split at h
    · split at h
      · cases h
      · cases h; exact putBalance_find_isSome
    · split at h
      · cases h
      · cases h; rw [putBalance_find_isSome, putBalance_find_isSome]
  · cases h

/-- Without queued checks, one-by-one success gives batch preparation success. -/
theorem prepareMembers_of_postAll {cfg : Cfg} {db : DB} (hq : cfg.queuedChecks = false) : ∀ {ts : List Txn}
    {sd sd' : DB} {bs : List Balance} {refs : List String}, Sim cfg sd bs →
    (∀ t ∈ ts, t.status = .queued ∧ t.source ≠ t.destination ∧ t.reference ≠ "" ∧
      (∃ b, bs.find? (fun x => x.id = t.source) = some b) ∧ ∃ b, bs.find? (fun x => x.id = t.destination) = some b) →
    (∀ r, refs.contains r = true ∨ db.hasRef r = true → sd.hasRef r = true) →
    postAll cfg sd ts = some sd' →
    ∃ bs', prepareMembers db ts refs bs = .ok (ts.map finalRow, bs') ∧
      ∀ rows : List Balance, ({ sd with balances := rows } : DB).insertTxns (ts.map finalRow)
        = .ok { balances := rows, txns := sd'.txns } := by
  intro ts
  induction ts with
  | nil =>
    intro sd sd' bs refs h _ _ hp
    simp [postAll] at hp
    subst hp
    exact ⟨bs, by simp [prepareMembers], fun rows => by simp [DB.insertTxns]⟩
  | cons t ts ih =>
    intro sd sd' bs refs h hts hrefs hp
    obtain ⟨hst, hne, hre, ⟨b, hb⟩, ⟨c, hc⟩⟩ := hts t (by simp)
    simp only [postAll] at hp
    split at hp
    · rename_i sd1 rows hpost
      have hp2 : (postResolved cfg sd t).2 = .posted rows := by rw [hpost]
      have hp1 : (postResolved cfg sd t).1 = sd1 := by rw [hpost]
      obtain ⟨bs1, hm⟩ := sim_post hq h hst hne hp2 ⟨b, hb⟩ ⟨c, hc⟩
      obtain ⟨_, hps⟩ := postResolved_posted h.inv hp2
      have hfresh := hps.fresh
      have hidf := posted_fresh_id hp2
      have hsim := (sim_mem h hst hne hm hps.nonzero hfresh hidf).2
      rw [hp1] at hsim hps
      obtain ⟨bs', e1, e4⟩ := ih (refs := t.reference :: refs) hsim (by
          intro u hu
          obtain ⟨u1, u2, u3, ⟨x, hx⟩, ⟨y, hy⟩⟩ := hts u (List.mem_cons_of_mem _ hu)
          refine ⟨u1, u2, u3, ?_, ?_⟩
          · rw [← Option.isSome_iff_exists, applyInMemory_find_isSome hm, hx]; rfl
          · rw [← Option.isSome_iff_exists, applyInMemory_find_isSome hm, hy]; rfl) (by
          intro r hr
          have e : sd1.hasRef r = (sd.hasRef r || decide (t.reference = r)) := by
            simp [DB.hasRef, hps.txns, (finalRow_keeps t).1]
          rw [e]
          rcases hr with hr | hr
          · simp only [List.contains_cons, Bool.or_eq_true, beq_iff_eq] at hr
            rcases hr with hr | hr
            · simp [hr]
            · simp [hrefs r (.inl hr)]
          · simp [hrefs r (.inr hr)]) hp
      have hnc : ¬ ((refs.contains t.reference || db.hasRef t.reference) = true) := by
        rw [Bool.or_eq_true]
        intro hh
        rw [hrefs _ hh] at hfresh; cases hfresh
      refine ⟨bs', ?_, ?_⟩
      · unfold prepareMembers
        have hsome : ¬ (((bs.find? (fun b => b.id = t.source)).isNone || (bs.find? (fun b => b.id = t.destination)).isNone) = true) := by
          simp [hb, hc]
        rw [if_neg hsome, if_neg hre, if_neg hnc, hm]
        simp only [finalRow_batchMember hst]
        rw [if_neg hps.nonzero, e1]
        rfl
      · intro rs
        have hok : ({ sd with balances := rs } : DB).insertTxn (finalRow t)
            = .ok { balances := rs, txns := sd.txns ++ [finalRow t] } := by
          have k := finalRow_keeps t
          have i1' : ({ sd with balances := rs } : DB).hasTxnId (finalRow t).id = false := by rw [k.2.1]; exact hidf
          have i2' : ({ sd with balances := rs } : DB).hasRef (finalRow t).reference = false := by rw [k.1]; exact hfresh
          simp [DB.insertTxn, i1', i2']
        simp only [List.map_cons, DB.insertTxns, hok]
        have := e4 rs
        rw [hps.txns] at this
        exact this
    · cases hp

/-- Batch preparation success plus insertable rows gives one-by-one success, with
the same columns and the same rows. -/
theorem postAll_of_prepareMembers {cfg : Cfg} {db : DB} : ∀ {ts : List Txn}
    {sd ins : DB} {bs bs' : List Balance} {refs : List String} {rows : List Txn} {rs : List Balance}, Sim cfg sd bs →
    (∀ t ∈ ts, t.status = .queued ∧ t.source ≠ t.destination) →
    prepareMembers db ts refs bs = .ok (rows, bs') → ({ sd with balances := rs } : DB).insertTxns rows = .ok ins →
    ∃ sd', postAll cfg sd ts = some sd' ∧ Sim cfg sd' bs' ∧ sd'.txns = sd.txns ++ rows ∧
      ∀ i, (∀ t ∈ ts, i ≠ t.source ∧ i ≠ t.destination) → sd'.find i = sd.find i := by
  intro ts
  induction ts with
  | nil =>
    intro sd ins bs bs' refs rows rs h _ hp _
    simp [prepareMembers] at hp
    exact ⟨sd, rfl, by rw [← hp.2]; exact h, by simp [hp.1], fun _ _ => rfl⟩
  | cons t ts ih =>
    intro sd ins bs bs' refs rows rs h hts hp hins
    obtain ⟨hst, hne⟩ := hts t (by simp)
    obtain ⟨_, _, _, hz, mid, rest, hm, hp', rfl⟩ := prepareMembers_cons hp
    rw [finalRow_batchMember hst] at hz hins
    simp only [DB.insertTxns] at hins
    split at hins
    · rename_i d1 hd1
      obtain ⟨i1, i2, rfl⟩ := insertTxn_ok hd1
      have i1' : sd.hasTxnId t.id = false := by rw [← (finalRow_keeps t).2.1]; exact i1
      have i2' : sd.hasRef t.reference = false := by rw [← (finalRow_keeps t).1]; exact i2
      obtain ⟨hpost, hsim⟩ := sim_mem h hst hne hm hz i2' i1'
      have hps := (postResolved_posted h.inv hpost).2
      have htx := hps.txns
      obtain ⟨sd', hs, hsim', htx', hoth⟩ := ih (rs := rs) hsim (fun u hu => hts u (List.mem_cons_of_mem _ hu)) hp'
        (by rw [htx]; exact hins)
      refine ⟨sd', ?_, hsim', ?_, ?_⟩
      · simp only [postAll]
        split
        · rename_i db' rows' hh
          rw [hh] at hs; exact hs
        · rename_i x hh
          exact (hh (postResolved cfg sd t).1 [finalRow t] (by rw [← hpost])).elim
      · rw [htx', htx, finalRow_batchMember hst]; simp
      · intro i hi
        rw [hoth i (fun u hu => hi u (List.mem_cons_of_mem _ hu)),
          hps.others i (hi t (by simp)).1 (hi t (by simp)).2]
    · cases hins

end Blnk
