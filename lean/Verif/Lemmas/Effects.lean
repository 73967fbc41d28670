import Verif.Lemmas.Posting
/-
Helper lemmas: the exact state after a successful posting, row by row.
-/
namespace Blnk

theorem find_updateRow_eq {rows rows' : List Balance} {b r : Balance} (hn : (ids rows).Nodup)
    (h : updateRow rows b = .ok rows') (hr : r ∈ rows) (hid : r.id = b.id) :
    r.version = b.version ∧ rows'.find? (fun x => x.id = b.id) = some (r.writeBack b) := by
  have h' := h
  obtain ⟨r', hr', e1, e2, rfl⟩ := updateRow_ok h
  have : r' = r := eq_of_mem_ids hn hr' hr (e1.trans hid.symm)
  subst this
  refine ⟨e2, ?_⟩
  have hn' : (ids (rows.map (fun x => if x.id = b.id && x.version = b.version then x.writeBack b else x))).Nodup := by
    rw [updateRow_ids h']; exact hn
  have hm : r'.writeBack b ∈ rows.map (fun x => if x.id = b.id && x.version = b.version then x.writeBack b else x) :=
    List.mem_map.2 ⟨r', hr, by simp [e1, e2]⟩
  have := find_of_mem hn' hm
  have e : (r'.writeBack b).id = b.id := e1
  rw [e] at this
  exact this

theorem find_mem {rows : List Balance} {i : String} {r : Balance}
    (h : rows.find? (fun x => x.id = i) = some r) : r ∈ rows ∧ r.id = i :=
  ⟨List.mem_of_find?_eq_some h, by simpa using List.find?_some h⟩

theorem find_updateRows_other {bs : List Balance} : ∀ {rows rows' : List Balance}, updateRows rows bs = .ok rows' →
    ∀ {i : String}, i ∉ ids bs → rows'.find? (fun x => x.id = i) = rows.find? (fun x => x.id = i) := by
  induction bs with
  | nil => intro rows rows' h i _; simp [updateRows] at h; subst h; rfl
  | cons b bs ih =>
    intro rows rows' h i hi
    simp only [ids, List.map_cons, List.mem_cons, not_or] at hi
    obtain ⟨mid, h1, h2⟩ := updateRows_cons h
    rw [ih h2 hi.2, find_updateRow_ne h1 hi.1]

/-- The row written for each in-memory balance of a successful update. -/
theorem find_updateRows {bs : List Balance} : ∀ {rows rows' : List Balance}, (ids rows).Nodup → (ids bs).Nodup →
    updateRows rows bs = .ok rows' → ∀ b ∈ bs, ∀ r, rows.find? (fun x => x.id = b.id) = some r →
    r.version = b.version ∧ rows'.find? (fun x => x.id = b.id) = some (r.writeBack b) := by
  induction bs with
  | nil => intro _ _ _ _ _ b hb; cases hb
  | cons c bs ih =>
    intro rows rows' hn hnb h b hb r hr
    obtain ⟨mid, h1, h2⟩ := updateRows_cons h
    simp only [ids, List.map_cons, List.nodup_cons] at hnb
    rcases List.mem_cons.1 hb with rfl | hb'
    · obtain ⟨m, e⟩ := find_mem hr
      obtain ⟨v, hf⟩ := find_updateRow_eq hn h1 m e
      exact ⟨v, by rw [find_updateRows_other h2 hnb.1]; exact hf⟩
    · have hne : b.id ≠ c.id := fun he => hnb.1 (List.mem_map.2 ⟨b, hb', he⟩)
      have hmid : (ids mid).Nodup := by rw [updateRow_ids h1]; exact hn
      exact ih hmid hnb.2 h2 b hb' r (by rw [find_updateRow_ne h1 hne]; exact hr)

/-- The full description of one successful posting on the single path. -/
structure PostedSingle (cfg : Cfg) (db db' : DB) (t : Txn) : Prop where
  distinct : t.source ≠ t.destination
  fresh : db.hasRef t.reference = false
  nonzero : (finalRow t).preciseAmount ≠ some 0
  txns : db'.txns = db.txns ++ [finalRow t]
  others : ∀ i, i ≠ t.source → i ≠ t.destination → db'.find i = db.find i
  exact : ∃ rs rd s d s' d', db.find t.source = some rs ∧ db.find t.destination = some rd ∧
    db.load cfg t.source = .ok s ∧ db.load cfg t.destination = .ok d ∧
    s = { rs with queuedDebit := s.queuedDebit } ∧ d = { rd with queuedDebit := d.queuedDebit } ∧
    applySource t s = .ok s' ∧ applyDestination t d = .ok d' ∧
    db'.find t.source = some (rs.writeBack s') ∧ db'.find t.destination = some (rd.writeBack d')

theorem postResolved_posted {cfg : Cfg} {db : DB} {t : Txn} {rows : List Txn} (hi : Inv db)
    (h : (postResolved cfg db t).2 = .posted rows) :
    rows = [finalRow t] ∧ PostedSingle cfg db (postResolved cfg db t).1 t := by
  unfold postResolved at h ⊢
  split at h
  · cases h
  · cases h
  · rename_i w hw
    split at h
    · rename_i db' hp
      simp only [Outcome.posted.injEq] at h
      subst h
      by_cases he : t.source = t.destination
      · rw [persist_self_conflict hi.nodup hw he] at hp; cases hp
      · obtain ⟨hfresh, s, d, s', d', hs, hd, ha, hz, rfl⟩ := prepareSingle_some hw
        obtain ⟨a1, a2⟩ := applyToBalances_inv ha
        have e1 := applySource_effect a1
        have e2 := applyDestination_effect a2
        obtain ⟨rs, mrs, frs, irs, es⟩ := load_ok hs
        obtain ⟨rd, mrd, frd, ird, ed⟩ := load_ok hd
        obtain ⟨rows, h1, h2, rfl⟩ := persist_ok hp
        have is : s'.id = t.source := by rw [e1.id, es]; exact irs
        have id' : d'.id = t.destination := by rw [e2.id, ed]; exact ird
        have hnb : (ids [s', d']).Nodup := by simp [ids, is, id', he]
        refine ⟨rfl, ?_⟩
        refine ⟨he, hfresh, hz, rfl, ?_, ?_⟩
        · intro i h3 h4
          exact find_updateRows_other h1 (by simp [ids, is, id', h3, h4])
        · refine ⟨rs, rd, s, d, s', d', frs, frd, hs, hd, by rw [es], by rw [ed], a1, a2, ?_, ?_⟩
          · have := (find_updateRows hi.nodup hnb h1 s' (by simp) rs (by rw [is]; exact frs)).2
            rw [is] at this; exact this
          · have := (find_updateRows hi.nodup hnb h1 d' (by simp) rd (by rw [id']; exact frd)).2
            rw [id'] at this; exact this
    · cases h

/-- A plain posting (neither a commit nor a void of a hold). -/
def Txn.Plain (t : Txn) : Prop := t.status ≠ .commit ∧ t.status ≠ .void

theorem validate_ok {t : Txn} (h : t.validate = .ok ()) : 0 ≤ t.amount ∧ (∀ p, t.preciseAmount = some p → 0 < p) := by
  unfold Txn.validate at h
  split at h
  · cases h
  · rename_i ha
    refine ⟨by grind, ?_⟩
    intro p hp
    rw [hp] at h
    simp only at h
    split at h
    · cases h
    · omega

theorem applyPrecision_some (t : Txn) : ∃ p, t.applyPrecision.preciseAmount = some p := by
  unfold Txn.applyPrecision
  simp only
  split
  · split
    · rename_i p hp _; exact ⟨p, by simpa using hp⟩
    · exact ⟨_, rfl⟩
  · exact ⟨_, rfl⟩

theorem applyPrecision_keeps (t : Txn) : t.applyPrecision.allowOverdraft = t.allowOverdraft ∧
    t.applyPrecision.overdraftLimit = t.overdraftLimit ∧ t.applyPrecision.status = t.status ∧
    t.applyPrecision.inflight = t.inflight ∧ t.applyPrecision.reference = t.reference ∧
    t.applyPrecision.id = t.id ∧ t.applyPrecision.parent = t.parent ∧
    t.applyPrecision.source = t.source ∧ t.applyPrecision.destination = t.destination ∧
    t.applyPrecision.currency = t.currency := by
  unfold Txn.applyPrecision
  simp only
  split
  · split <;> (split <;> simp)
  · split <;> simp

theorem finalRow_plain {t : Txn} (h : t.Plain) : (finalRow t).preciseAmount = t.applyPrecision.preciseAmount := by
  unfold finalRow applyRecord clearTerminalInflight
  have := h.2
  simp only
  split <;> simp_all

/-- Every accepted plain posting moves a strictly positive amount. -/
theorem applySource_pos {t : Txn} {b b' : Balance} (hp : t.Plain) (h : applySource t b = .ok b') :
    ∃ p, 0 < p ∧ t.applyPrecision.preciseAmount = some p ∧ canProcessTransaction t.applyPrecision b = .ok () ∧
      b' = b.postDebit p t.inflight := by
  obtain ⟨h1, h2, h3⟩ := (applySource_plain hp.1 hp.2).1 h
  obtain ⟨p, hp'⟩ := applyPrecision_some t
  exact ⟨p, (validate_ok h1).2 p hp', hp', h2, by rw [h3, hp']; rfl⟩

theorem applyDestination_plain {t : Txn} {b b' : Balance} (hp : t.Plain) (h : applyDestination t b = .ok b') :
    b' = b.postCredit (t.applyPrecision.preciseAmount.getD 0) t.inflight := by
  unfold applyDestination at h
  split at h
  · exact absurd ‹_› hp.1
  · exact absurd ‹_› hp.2
  · simpa using h.symm

end Blnk
