import Verif.Lemmas.RowRel
/-
Helper lemmas: when a posting is certain to be accepted.
-/
namespace Blnk

theorem updateRow_of_mem {rows : List Balance} {r b : Balance} (hr : r ∈ rows) (h1 : r.id = b.id)
    (h2 : r.version = b.version) : ∃ rows', updateRow rows b = .ok rows' := by
  unfold updateRow
  rw [if_pos]
  · exact ⟨_, rfl⟩
  · rw [List.any_eq_true]; exact ⟨r, hr, by simp [h1, h2]⟩

theorem updateRows_of_mem {bs : List Balance} : ∀ {rows : List Balance}, (ids bs).Nodup →
    (∀ b ∈ bs, ∃ r ∈ rows, r.id = b.id ∧ r.version = b.version) → ∃ rows', updateRows rows bs = .ok rows' := by
  induction bs with
  | nil => intro rows _ _; exact ⟨rows, rfl⟩
  | cons b bs ih =>
    intro rows hnb h
    obtain ⟨r, hr, e1, e2⟩ := h b (by simp)
    obtain ⟨mid, hm⟩ := updateRow_of_mem hr e1 e2
    simp only [ids, List.map_cons, List.nodup_cons] at hnb
    obtain ⟨rows', hf⟩ := ih (rows := mid) hnb.2 (by
      intro c hc
      obtain ⟨r', hr', e1', e2'⟩ := h c (List.mem_cons_of_mem _ hc)
      have hne : r'.id ≠ b.id := by
        intro he; exact hnb.1 (List.mem_map.2 ⟨c, hc, by rw [← e1', he]⟩)
      exact ⟨r', updateRow_other hm hr' hne, e1', e2'⟩)
    exact ⟨rows', by simp only [updateRows, hm]; exact hf⟩

theorem load_of_find {cfg : Cfg} {db : DB} {i : String} {r : Balance} (h : db.find i = some r) :
    db.load cfg i = .ok { r with queuedDebit := if cfg.queuedChecks then some (db.queuedDebit i) else none } := by
  simp [DB.load, h]

/-- What the service reads for a stored row. -/
def DB.view (cfg : Cfg) (db : DB) (r : Balance) : Balance :=
  { r with queuedDebit := if cfg.queuedChecks then some (db.queuedDebit r.id) else none }

theorem load_view {cfg : Cfg} {db : DB} {i : String} {r : Balance} (h : db.find i = some r) :
    db.load cfg i = .ok (db.view cfg r) := by
  rw [load_of_find h, DB.view, (find_mem h).2]

/-- A posting whose checks pass is stored. -/
theorem postResolved_complete {cfg : Cfg} {db : DB} {t : Txn} {rs rd s' d' : Balance}
    (href : db.hasRef t.reference = false) (hid : db.hasTxnId t.id = false) (hne : t.source ≠ t.destination)
    (fs : db.find t.source = some rs) (fd : db.find t.destination = some rd)
    (a1 : applySource t (db.view cfg rs) = .ok s') (a2 : applyDestination t (db.view cfg rd) = .ok d')
    (hz : (finalRow t).preciseAmount ≠ some 0) :
    (postResolved cfg db t).2 = .posted [finalRow t] := by
  have hp : prepareSingle cfg db t = .ok (some { rows := [finalRow t], balances := [s', d'] }) := by
    simp [prepareSingle, href, load_view fs, load_view fd, applyToBalances, a1, a2, bind, Except.bind, pure, Except.pure, hz]
  have e1 := applySource_effect a1
  have e2 := applyDestination_effect a2
  have is : s'.id = rs.id := e1.id
  have id' : d'.id = rd.id := e2.id
  have i1 := (find_mem fs).2
  have i2 := (find_mem fd).2
  obtain ⟨rows', hu⟩ := updateRows_of_mem (rows := db.balances) (bs := [s', d'])
    (by simp [ids, is, id', i1, i2, hne])
    (by
      intro b hb
      simp at hb
      rcases hb with rfl | rfl
      · exact ⟨rs, (find_mem fs).1, is.symm, e1.version.symm⟩
      · exact ⟨rd, (find_mem fd).1, id'.symm, e2.version.symm⟩)
  have hins : ({ db with balances := rows' } : DB).insertTxns [finalRow t]
      = .ok { balances := rows', txns := db.txns ++ [finalRow t] } := by
    have k := finalRow_keeps t
    have r1 : ({ db with balances := rows' } : DB).hasRef (finalRow t).reference = false := by rw [k.1]; exact href
    have r2 : ({ db with balances := rows' } : DB).hasTxnId (finalRow t).id = false := by rw [k.2.1]; exact hid
    simp [DB.insertTxns, DB.insertTxn, r1, r2]
  simp [postResolved, hp, DB.persist, hu, hins]

theorem mem_addId {x i : String} {l : List String} (h : x ∈ addId i l) : x = i ∨ x ∈ l := by
  unfold addId at h
  split at h
  · exact .inr h
  · simpa using h

theorem applyDestination_plain_ok {t : Txn} (hp : t.Plain) (b : Balance) :
    applyDestination t b = .ok (b.postCredit (t.applyPrecision.preciseAmount.getD 0) t.inflight) := by
  unfold applyDestination
  split
  · exact absurd ‹_› hp.1
  · exact absurd ‹_› hp.2
  · rfl

end Blnk
