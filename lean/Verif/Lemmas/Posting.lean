import Verif.Lemmas.Ledger
/-
Helper lemmas: several row updates in one SQL transaction, inserts, and the
accounting invariant of the ledger state machine.
-/
namespace Blnk

theorem find_updateRow_ne {rows rows' : List Balance} {b : Balance} (h : updateRow rows b = .ok rows')
    {i : String} (hi : i ≠ b.id) : rows'.find? (fun x => x.id = i) = rows.find? (fun x => x.id = i) := by
  obtain ⟨r, hr, h1, h2, rfl⟩ := updateRow_ok h
  clear hr h
  induction rows with
  | nil => rfl
  | cons x l ih =>
    simp only [List.map_cons, List.find?_cons]
    by_cases hx : (x.id = b.id && x.version = b.version) = true
    · have hxb : x.id = b.id := by simp at hx; exact hx.1
      have e : (x.writeBack b).id = b.id := hxb
      rw [if_pos hx]
      simp only [e, hxb, Ne.symm hi, decide_false]
      exact ih
    · simp only [hx]
      by_cases hxi : x.id = i
      · simp [hxi]
      · simp only [hxi, decide_false, Bool.false_eq_true, if_false]; exact ih

/-- Column value of the stored row with the same id (0 if there is none). -/
def old (f : Balance → Int) (rows : List Balance) (b : Balance) : Int :=
  match rows.find? (fun x => x.id = b.id) with
  | some r => f r
  | none => 0

theorem old_of_mem (f : Balance → Int) {rows : List Balance} (hn : (ids rows).Nodup) {r b : Balance}
    (hr : r ∈ rows) (h : r.id = b.id) : old f rows b = f r := by
  have := find_of_mem hn hr
  rw [h] at this
  simp [old, this]

theorem total_congr {f g : Balance → Int} {l : List Balance} (h : ∀ b ∈ l, f b = g b) : total f l = total g l := by
  unfold total; rw [List.map_congr_left h]

/-- Inversion of `updateRows` on a nonempty list. -/
theorem updateRows_cons {rows rows' : List Balance} {b : Balance} {bs : List Balance}
    (h : updateRows rows (b :: bs) = .ok rows') :
    ∃ mid, updateRow rows b = .ok mid ∧ updateRows mid bs = .ok rows' := by
  simp only [updateRows] at h
  split at h
  · rename_i mid hm; exact ⟨mid, hm, h⟩
  · cases h

theorem updateRows_ids {rows rows' : List Balance} : ∀ {bs : List Balance},
    updateRows rows bs = .ok rows' → ids rows' = ids rows := by
  intro bs
  induction bs generalizing rows with
  | nil => intro h; simp [updateRows] at h; rw [h]
  | cons b bs ih =>
    intro h
    obtain ⟨mid, h1, h2⟩ := updateRows_cons h
    rw [ih h2, updateRow_ids h1]

/-- Rows after a multi-row update: untouched, or written back from a matching row. -/
theorem updateRows_mem {bs : List Balance} : ∀ {rows rows' : List Balance}, (ids rows).Nodup → (ids bs).Nodup →
    updateRows rows bs = .ok rows' → ∀ x ∈ rows', (x ∈ rows ∧ x.id ∉ ids bs) ∨
      ∃ b ∈ bs, ∃ r ∈ rows, r.id = b.id ∧ r.version = b.version ∧ x = r.writeBack b := by
  induction bs with
  | nil => intro rows rows' _ _ h x hx; simp [updateRows] at h; subst h; exact .inl ⟨hx, by simp⟩
  | cons b bs ih =>
    intro rows rows' hn hnb h x hx
    obtain ⟨mid, h1, h2⟩ := updateRows_cons h
    have hmid : (ids mid).Nodup := by rw [updateRow_ids h1]; exact hn
    simp only [ids, List.map_cons, List.nodup_cons] at hnb
    rcases ih hmid hnb.2 h2 x hx with ⟨hxm, hxb⟩ | ⟨c, hc, r, hr, e1, e2, e3⟩
    · rcases updateRow_mem hn h1 hxm with ⟨hxr, hne⟩ | ⟨r, hr, e1, e2, e3⟩
      · exact .inl ⟨hxr, by simp only [ids, List.map_cons, List.mem_cons, not_or]; exact ⟨hne, hxb⟩⟩
      · exact .inr ⟨b, List.mem_cons_self, r, hr, e1, e2, e3⟩
    · have hne : r.id ≠ b.id := by
        intro he
        exact hnb.1 (List.mem_map.2 ⟨c, hc, by rw [← e1, he]⟩)
      exact .inr ⟨c, List.mem_cons_of_mem _ hc, r, updateRow_other' h1 hr hne, e1, e2, e3⟩

/-- Every in-memory balance of a successful update met a row with its id and version. -/
theorem updateRows_matched {bs : List Balance} : ∀ {rows rows' : List Balance}, (ids bs).Nodup →
    updateRows rows bs = .ok rows' → ∀ b ∈ bs, ∃ r ∈ rows, r.id = b.id ∧ r.version = b.version := by
  induction bs with
  | nil => intro _ _ _ _ b hb; cases hb
  | cons c bs ih =>
    intro rows rows' hnb h b hb
    obtain ⟨mid, h1, h2⟩ := updateRows_cons h
    simp only [ids, List.map_cons, List.nodup_cons] at hnb
    rcases List.mem_cons.1 hb with rfl | hb'
    · obtain ⟨r, hr, e1, e2, _⟩ := updateRow_ok h1
      exact ⟨r, hr, e1, e2⟩
    · obtain ⟨r, hr, e1, e2⟩ := ih hnb.2 h2 b hb'
      have hne : r.id ≠ c.id := by
        intro he
        exact hnb.1 (List.mem_map.2 ⟨b, hb', by rw [← e1, he]⟩)
      exact ⟨r, updateRow_other' h1 hr hne, e1, e2⟩

/-- Column totals after a multi-row update. -/
theorem updateRows_total (f : Balance → Int) (hf : ∀ r b : Balance, f (r.writeBack b) = f b) {bs : List Balance} :
    ∀ {rows rows' : List Balance}, (ids rows).Nodup → (ids bs).Nodup → updateRows rows bs = .ok rows' →
      total f rows' = total f rows + total f bs - total (old f rows) bs := by
  induction bs with
  | nil => intro rows rows' _ _ h; simp [updateRows] at h; subst h; simp
  | cons b bs ih =>
    intro rows rows' hn hnb h
    obtain ⟨mid, h1, h2⟩ := updateRows_cons h
    have hmid : (ids mid).Nodup := by rw [updateRow_ids h1]; exact hn
    simp only [ids, List.map_cons, List.nodup_cons] at hnb
    have hold : total (old f mid) bs = total (old f rows) bs := by
      apply total_congr
      intro c hc
      have hne : c.id ≠ b.id := fun he => hnb.1 (List.mem_map.2 ⟨c, hc, he⟩)
      simp only [old, find_updateRow_ne h1 hne]
    obtain ⟨r, hr, e1, e2, et⟩ := updateRow_total f hn h1
    rw [ih hmid hnb.2 h2, hold, et, hf]
    simp only [total_cons, old_of_mem f hn hr e1]
    omega

/-- Writing a second stale copy of the same row conflicts: the first write has
moved the version. -/
theorem updateRow_stale {rows mid : List Balance} {b c : Balance} (hn : (ids rows).Nodup)
    (h : updateRow rows b = .ok mid) (hid : c.id = b.id) (hv : c.version = b.version) :
    updateRow mid c = .error .conflict := by
  unfold updateRow
  split
  · rename_i hany
    rw [List.any_eq_true] at hany
    obtain ⟨x, hx, hxc⟩ := hany
    simp at hxc
    rcases updateRow_mem hn h hx with ⟨_, hne⟩ | ⟨r, _, e1, e2, rfl⟩
    · exact absurd (hxc.1.trans hid) hne
    · simp [Balance.writeBack] at hxc
      omega
  · rfl

/-! ### Inserts -/

theorem insertTxn_ok {db db' : DB} {t : Txn} (h : db.insertTxn t = .ok db') :
    db.hasTxnId t.id = false ∧ db.hasRef t.reference = false ∧ db' = { db with txns := db.txns ++ [t] } := by
  unfold DB.insertTxn at h
  split at h
  · cases h
  · split at h
    · cases h
    · rename_i h1 h2
      exact ⟨by simpa using h1, by simpa using h2, (Except.ok.inj h).symm⟩

theorem insertTxns_ok {ts : List Txn} : ∀ {db db' : DB}, db.insertTxns ts = .ok db' →
    db' = { db with txns := db.txns ++ ts } := by
  induction ts with
  | nil => intro db db' h; simp [DB.insertTxns] at h; subst h; simp
  | cons t ts ih =>
    intro db db' h
    simp only [DB.insertTxns] at h
    split at h
    · rename_i mid hm
      rw [ih h, (insertTxn_ok hm).2.2]; simp
    · cases h

/-- Unique keys of the stored rows. -/
structure UniqueRows (db : DB) : Prop where
  refs : (db.txns.map (·.reference)).Nodup
  txnIds : (db.txns.map (·.id)).Nodup

theorem insertTxn_unique {db db' : DB} {t : Txn} (hu : UniqueRows db) (h : db.insertTxn t = .ok db') : UniqueRows db' := by
  obtain ⟨h1, h2, rfl⟩ := insertTxn_ok h
  simp only [DB.hasTxnId, DB.hasRef, List.any_eq_false, decide_eq_true_eq] at h1 h2
  constructor
  · simp only [List.map_append, List.map_cons, List.map_nil]
    rw [List.nodup_append]
    refine ⟨hu.refs, by simp, ?_⟩
    intro a ha b hb
    simp at hb; subst hb
    obtain ⟨x, hx, rfl⟩ := List.mem_map.1 ha
    exact h2 x hx
  · simp only [List.map_append, List.map_cons, List.map_nil]
    rw [List.nodup_append]
    refine ⟨hu.txnIds, by simp, ?_⟩
    intro a ha b hb
    simp at hb; subst hb
    obtain ⟨x, hx, rfl⟩ := List.mem_map.1 ha
    exact h1 x hx

theorem insertTxns_unique {ts : List Txn} : ∀ {db db' : DB}, UniqueRows db → db.insertTxns ts = .ok db' → UniqueRows db' := by
  induction ts with
  | nil => intro db db' hu h; simp [DB.insertTxns] at h; subst h; exact hu
  | cons t ts ih =>
    intro db db' hu h
    simp only [DB.insertTxns] at h
    split at h
    · rename_i mid hm; exact ih (insertTxn_unique hu hm) h
    · cases h

theorem insertTxn_balances {db : DB} {rows : List Balance} {t : Txn} :
    ({ db with balances := rows } : DB).hasRef t.reference = db.hasRef t.reference := rfl

/-! ### Persisted work -/

/-- Inversion of a successful persist. -/
theorem persist_ok {db db' : DB} {w : Work} (h : db.persist w = .ok db') :
    ∃ rows, updateRows db.balances w.balances = .ok rows ∧
      ({ db with balances := rows } : DB).insertTxns w.rows = .ok db' ∧
      db' = { balances := rows, txns := db.txns ++ w.rows } := by
  unfold DB.persist at h
  split at h
  · cases h
  · rename_i rows hr
    exact ⟨rows, hr, h, insertTxns_ok h⟩

theorem persist_unique {db db' : DB} {w : Work} (hu : UniqueRows db) (h : db.persist w = .ok db') : UniqueRows db' := by
  obtain ⟨rows, _, h2, _⟩ := persist_ok h
  exact insertTxns_unique (db := { db with balances := rows }) ⟨hu.refs, hu.txnIds⟩ h2

/-- The accounting invariant. -/
structure Inv (db : DB) : Prop where
  nodup : (ids db.balances).Nodup
  consistent : ∀ b ∈ db.balances, b.Consistent
  settled : total (·.credit) db.balances = total (·.debit) db.balances
  inflight : total (·.inflightCredit) db.balances = total (·.inflightDebit) db.balances
  unique : UniqueRows db

/-- What prepared work must satisfy for its persist to keep the invariant:
its balances are distinct, agree on both derived columns, and as a set move as
much into credit as into debit. -/
structure Balanced (rows : List Balance) (w : Work) : Prop where
  nodup : (ids w.balances).Nodup
  consistent : ∀ b ∈ w.balances, b.Consistent
  settled : total (·.credit) w.balances - total (old (·.credit) rows) w.balances
    = total (·.debit) w.balances - total (old (·.debit) rows) w.balances
  inflight : total (·.inflightCredit) w.balances - total (old (·.inflightCredit) rows) w.balances
    = total (·.inflightDebit) w.balances - total (old (·.inflightDebit) rows) w.balances

theorem persist_inv {db db' : DB} {w : Work} (hi : Inv db) (hw : Balanced db.balances w)
    (h : db.persist w = .ok db') : Inv db' := by
  have hu := persist_unique hi.unique h
  obtain ⟨rows, h1, h2, rfl⟩ := persist_ok h
  have t1 := updateRows_total (·.credit) (fun _ _ => rfl) hi.nodup hw.nodup h1
  have t2 := updateRows_total (·.debit) (fun _ _ => rfl) hi.nodup hw.nodup h1
  have t3 := updateRows_total (·.inflightCredit) (fun _ _ => rfl) hi.nodup hw.nodup h1
  have t4 := updateRows_total (·.inflightDebit) (fun _ _ => rfl) hi.nodup hw.nodup h1
  have := hi.settled; have := hi.inflight; have := hw.settled; have := hw.inflight
  refine ⟨?_, ?_, ?_, ?_, hu⟩
  · rw [updateRows_ids h1]; exact hi.nodup
  · intro b hb
    rcases updateRows_mem hi.nodup hw.nodup h1 b hb with ⟨hb', _⟩ | ⟨c, hc, r, _, _, _, rfl⟩
    · exact hi.consistent b hb'
    · exact hw.consistent c hc
  · simp only; omega
  · simp only; omega

/-! ### Loading -/

theorem load_ok {cfg : Cfg} {db : DB} {i : String} {b : Balance} (h : db.load cfg i = .ok b) :
    ∃ r ∈ db.balances, db.find i = some r ∧ r.id = i ∧
      b = { r with queuedDebit := if cfg.queuedChecks then some (db.queuedDebit i) else none } := by
  unfold DB.load at h
  split at h
  · cases h
  · rename_i r hr
    refine ⟨r, List.mem_of_find?_eq_some hr, hr, ?_, (Except.ok.inj h).symm⟩
    have := List.find?_some hr
    simpa using this

/-- A balance read from the table: a stored row up to the queued total. -/
def ReadFrom (rows : List Balance) (b : Balance) : Prop :=
  ∃ r ∈ rows, ∃ q, b = { r with queuedDebit := q }

theorem load_readFrom {cfg : Cfg} {db : DB} {i : String} {b : Balance} (h : db.load cfg i = .ok b) :
    ReadFrom db.balances b ∧ b.id = i := by
  obtain ⟨r, hr, _, hid, rfl⟩ := load_ok h
  exact ⟨⟨r, hr, _, rfl⟩, hid⟩

theorem ReadFrom.consistent {rows : List Balance} {b : Balance} (h : ReadFrom rows b)
    (hc : ∀ r ∈ rows, r.Consistent) : b.Consistent := by
  obtain ⟨r, hr, q, rfl⟩ := h
  exact hc r hr

/-- Stored column values of a balance read from the table. -/
theorem ReadFrom.old {rows : List Balance} {b c : Balance} (h : ReadFrom rows b) (hn : (ids rows).Nodup)
    (f : Balance → Int) (hf : ∀ (r : Balance) q, f { r with queuedDebit := q } = f r) (hc : c.id = b.id) :
    old f rows c = f b := by
  obtain ⟨r, hr, q, rfl⟩ := h
  rw [old_of_mem f hn hr hc.symm]; exact (hf r q).symm

/-! ### Single path -/

theorem prepareSingle_some {cfg : Cfg} {db : DB} {t : Txn} {w : Work} (h : prepareSingle cfg db t = .ok (some w)) :
    db.hasRef t.reference = false ∧ ∃ s d s' d', db.load cfg t.source = .ok s ∧ db.load cfg t.destination = .ok d ∧
      applyToBalances t s d = .ok (s', d') ∧ (finalRow t).preciseAmount ≠ some 0 ∧
      w = { rows := [finalRow t], balances := [s', d'] } := by
  unfold prepareSingle at h
  split at h
  · cases h
  rename_i hr
  refine ⟨by simpa using hr, ?_⟩
  split at h
  · rename_i s d hs hd
    split at h
    · cases h
    · rename_i s' d' ha
      split at h
      · cases h
      · rename_i hz
        exact ⟨s, d, s', d', hs, hd, ha, hz, by simpa using h.symm⟩
  · cases h

theorem prepareSingle_balanced {cfg : Cfg} {db : DB} {t : Txn} {w : Work} (hi : Inv db)
    (h : prepareSingle cfg db t = .ok (some w)) (hne : t.source ≠ t.destination) : Balanced db.balances w := by
  obtain ⟨_, s, d, s', d', hs, hd, ha, _, rfl⟩ := prepareSingle_some h
  obtain ⟨a1, a2⟩ := applyToBalances_inv ha
  obtain ⟨rs, is⟩ := load_readFrom hs
  obtain ⟨rd, id⟩ := load_readFrom hd
  have e1 := applySource_effect a1
  have e2 := applyDestination_effect a2
  constructor
  · simp [ids, e1.id, e2.id, is, id, hne]
  · intro b hb
    simp at hb
    rcases hb with rfl | rfl
    · exact applySource_consistent a1 (rs.consistent hi.consistent)
    · exact applyDestination_consistent a2 (rd.consistent hi.consistent)
  · simp only [total_cons, total_nil]
    rw [rs.old hi.nodup (·.credit) (fun _ _ => rfl) e1.id, rd.old hi.nodup (·.credit) (fun _ _ => rfl) e2.id,
      rs.old hi.nodup (·.debit) (fun _ _ => rfl) e1.id, rd.old hi.nodup (·.debit) (fun _ _ => rfl) e2.id,
      e1.credit, e1.debit, e2.credit, e2.debit]
    omega
  · simp only [total_cons, total_nil]
    rw [rs.old hi.nodup (·.inflightCredit) (fun _ _ => rfl) e1.id, rd.old hi.nodup (·.inflightCredit) (fun _ _ => rfl) e2.id,
      rs.old hi.nodup (·.inflightDebit) (fun _ _ => rfl) e1.id, rd.old hi.nodup (·.inflightDebit) (fun _ _ => rfl) e2.id,
      e1.inflightCredit, e1.inflightDebit, e2.inflightCredit, e2.inflightDebit]
    omega

/-- On the single path a self-transfer never gets through its persist. -/
theorem persist_self_conflict {cfg : Cfg} {db : DB} {t : Txn} {w : Work} (hn : (ids db.balances).Nodup)
    (h : prepareSingle cfg db t = .ok (some w)) (he : t.source = t.destination) :
    db.persist w = .error .conflict := by
  obtain ⟨_, s, d, s', d', hs, hd, ha, _, rfl⟩ := prepareSingle_some h
  obtain ⟨a1, a2⟩ := applyToBalances_inv ha
  have e1 := applySource_effect a1
  have e2 := applyDestination_effect a2
  rw [he, hd] at hs
  cases hs
  unfold DB.persist
  simp only [updateRows]
  cases hu : updateRow db.balances s' with
  | error e =>
    have : e = .conflict := by
      unfold updateRow at hu
      split at hu
      · cases hu
      · cases hu; rfl
    simp [this]
  | ok mid =>
    simp only [updateRow_stale hn hu (e2.id.trans e1.id.symm) (e2.version.trans e1.version.symm)]

theorem createBalance_ok {db db' : DB} {i ind cur : String} (h : db.createBalance i ind cur = .ok db') :
    (∀ b ∈ db.balances, b.id ≠ i) ∧
    (ind ≠ "" → ∀ b ∈ db.balances, ¬ (b.indicator = ind ∧ b.currency = cur)) ∧
    db' = { db with balances := db.balances ++ [{ id := i, indicator := ind, currency := cur }] } := by
  unfold DB.createBalance at h
  split at h
  · cases h
  · rename_i h1
    split at h
    · cases h
    · rename_i h2
      refine ⟨?_, ?_, (Except.ok.inj h).symm⟩
      · intro b hb he
        exact h1 (List.any_eq_true.2 ⟨b, hb, by simpa using he⟩)
      · intro hne b hb hc
        apply h2
        simp only [Bool.and_eq_true, List.any_eq_true, decide_eq_true_eq]
        exact ⟨hne, b, hb, hc⟩

theorem createBalance_inv {db db' : DB} {i ind cur : String} (hi : Inv db)
    (h : db.createBalance i ind cur = .ok db') : Inv db' := by
  obtain ⟨h1, _, rfl⟩ := createBalance_ok h
  constructor
  · simp only [ids, List.map_append, List.map_cons, List.map_nil]
    rw [List.nodup_append]
    refine ⟨hi.nodup, by simp, ?_⟩
    intro a ha b hb
    simp at hb; subst hb
    obtain ⟨x, hx, rfl⟩ := List.mem_map.1 ha
    exact h1 x hx
  · intro b hb
    rcases List.mem_append.1 hb with hb | hb
    · exact hi.consistent b hb
    · simp at hb; subst hb; simp [Balance.Consistent]
  · simp [hi.settled]
  · simp [hi.inflight]
  · exact ⟨hi.unique.refs, hi.unique.txnIds⟩

theorem resolve_inv {db db' : DB} {s cur n i : String} (hi : Inv db) (h : db.resolve s cur n = .ok (db', i)) : Inv db' := by
  unfold DB.resolve at h
  split at h
  · split at h
    · cases h; exact hi
    · split at h
      · rename_i hc; cases h; exact createBalance_inv hi hc
      · cases h
  · cases h; exact hi

theorem postResolved_inv {cfg : Cfg} {db : DB} {t : Txn} (hi : Inv db) : Inv (postResolved cfg db t).1 := by
  unfold postResolved
  split
  · exact hi
  · exact hi
  · rename_i w hw
    by_cases he : t.source = t.destination
    · rw [persist_self_conflict hi.nodup hw he]; exact hi
    · split
      · rename_i db' hp; exact persist_inv hi (prepareSingle_balanced hi hw he) hp
      · exact hi

theorem recordSingle_inv {cfg : Cfg} {db : DB} {t : Txn} {n1 n2 : String} (hi : Inv db) :
    Inv (recordSingle cfg db t n1 n2).1 := by
  unfold recordSingle
  split
  · exact hi
  · rename_i db1 sid h1
    have i1 := resolve_inv hi h1
    split
    · exact i1
    · rename_i db2 did h2
      exact postResolved_inv (resolve_inv i1 h2)

/-! ### Batch path -/

theorem addId_nodup {i : String} {l : List String} (h : l.Nodup) : (addId i l).Nodup := by
  unfold addId
  split
  · exact h
  · rename_i hc
    simp at hc
    exact List.nodup_cons.2 ⟨hc.2, h⟩

theorem batchIds_nodup (ts : List Txn) : (batchIds ts).Nodup := by
  induction ts with
  | nil => simp [batchIds]
  | cons t ts ih => exact addId_nodup (addId_nodup ih)

theorem loadAll_ok {cfg : Cfg} {db : DB} : ∀ {is : List String} {bs : List Balance}, loadAll cfg db is = .ok bs →
    ids bs = is ∧ ∀ b ∈ bs, db.load cfg b.id = .ok b := by
  intro is
  induction is with
  | nil => intro bs h; simp [loadAll] at h; subst h; simp
  | cons i is ih =>
    intro bs h
    simp only [loadAll] at h
    split at h
    · cases h
    · rename_i b hb
      split at h
      · cases h
      · rename_i bs' hbs
        cases h
        obtain ⟨e, hall⟩ := ih hbs
        have hid := (load_readFrom hb).2
        refine ⟨by simp [ids] at e ⊢; exact ⟨hid, e⟩, ?_⟩
        intro c hc
        rcases List.mem_cons.1 hc with rfl | hc
        · rw [hid]; exact hb
        · exact hall c hc

theorem putBalance_ids (bs : List Balance) (b : Balance) : ids (putBalance bs b) = ids bs := by
  simp only [ids, putBalance, List.map_map]
  apply List.map_congr_left
  intro a _
  simp only [Function.comp]
  split
  · rename_i h; exact h.symm
  · rfl

theorem putBalance_mem {bs : List Balance} {b x : Balance} (h : x ∈ putBalance bs b) :
    (x ∈ bs ∧ x.id ≠ b.id) ∨ x = b := by
  obtain ⟨y, hy, rfl⟩ := List.mem_map.1 h
  split
  · exact .inr rfl
  · rename_i hne; exact .inl ⟨hy, hne⟩

theorem putBalance_total (f : Balance → Int) {bs : List Balance} (hn : (ids bs).Nodup) {o b : Balance}
    (ho : o ∈ bs) (hid : b.id = o.id) : total f (putBalance bs b) = total f bs - f o + f b := by
  have := total_replace f hn ho (fun _ => b) (fun x => decide (x.id = b.id)) (by
    intro x hx
    simp only [decide_eq_true_eq]
    constructor
    · intro h; exact eq_of_mem_ids hn hx ho (h.trans hid)
    · rintro rfl; exact hid.symm)
  simpa [putBalance] using this

theorem putBalance_mem_other {bs : List Balance} {b x : Balance} (hx : x ∈ bs) (hne : x.id ≠ b.id) :
    x ∈ putBalance bs b := List.mem_map.2 ⟨x, hx, by simp [hne]⟩

/-- In-memory balances after one batch member. -/
structure MemStep (bs bs' : List Balance) : Prop where
  ids : ids bs' = ids bs
  consistent : (∀ b ∈ bs, b.Consistent) → ∀ b ∈ bs', b.Consistent
  settled : total (·.credit) bs' - total (·.debit) bs' = total (·.credit) bs - total (·.debit) bs
  inflight : total (·.inflightCredit) bs' - total (·.inflightDebit) bs'
    = total (·.inflightCredit) bs - total (·.inflightDebit) bs

theorem MemStep.trans {a b c : List Balance} (h1 : MemStep a b) (h2 : MemStep b c) : MemStep a c :=
  ⟨h2.ids.trans h1.ids, fun h => h2.consistent (h1.consistent h), h2.settled.trans h1.settled,
    h2.inflight.trans h1.inflight⟩

theorem applyInMemory_step {t : Txn} {bs bs' : List Balance} (hn : (ids bs).Nodup)
    (h : applyInMemory t bs = .ok bs') : MemStep bs bs' := by
  unfold applyInMemory at h
  split at h
  · rename_i s d hs hd
    have ms := List.mem_of_find?_eq_some hs
    have md := List.mem_of_find?_eq_some hd
    have is : s.id = t.source := by simpa using List.find?_some hs
    have id' : d.id = t.destination := by simpa using List.find?_some hd
    split at h
    · rename_i he
      split at h
      · cases h
      · rename_i b hb
        cases h
        obtain ⟨m, a1, a2⟩ := applyToAliased_inv hb
        have e1 := applySource_effect a1
        have e2 := applyDestination_effect a2
        have hid : b.id = s.id := e2.id.trans e1.id
        constructor
        · exact putBalance_ids _ _
        · intro hc x hx
          rcases putBalance_mem hx with ⟨hx, _⟩ | rfl
          · exact hc x hx
          · exact applyDestination_consistent a2 (applySource_consistent a1 (hc s ms))
        · rw [putBalance_total _ hn ms hid, putBalance_total _ hn ms hid]
          have := e1.credit; have := e1.debit; have := e2.credit; have := e2.debit
          omega
        · rw [putBalance_total _ hn ms hid, putBalance_total _ hn ms hid]
          have := e1.inflightCredit; have := e1.inflightDebit; have := e2.inflightCredit; have := e2.inflightDebit
          omega
    · rename_i hne
      split at h
      · cases h
      · rename_i s' d' ha
        cases h
        obtain ⟨a1, a2⟩ := applyToBalances_inv ha
        have e1 := applySource_effect a1
        have e2 := applyDestination_effect a2
        have hn1 : (Blnk.ids (putBalance bs s')).Nodup := by rw [putBalance_ids]; exact hn
        have hds : d.id ≠ s'.id := by rw [e1.id, is, id']; exact fun h => hne h.symm
        have md1 : d ∈ putBalance bs s' := putBalance_mem_other md hds
        constructor
        · rw [putBalance_ids, putBalance_ids]
        · intro hc x hx
          rcases putBalance_mem hx with ⟨hx, _⟩ | rfl
          · rcases putBalance_mem hx with ⟨hx, _⟩ | rfl
            · exact hc x hx
            · exact applySource_consistent a1 (hc s ms)
          · exact applyDestination_consistent a2 (hc d md)
        · rw [putBalance_total _ hn1 md1 e2.id, putBalance_total _ hn1 md1 e2.id,
            putBalance_total _ hn ms e1.id, putBalance_total _ hn ms e1.id]
          have := e1.credit; have := e1.debit; have := e2.credit; have := e2.debit
          omega
        · rw [putBalance_total _ hn1 md1 e2.id, putBalance_total _ hn1 md1 e2.id,
            putBalance_total _ hn ms e1.id, putBalance_total _ hn ms e1.id]
          have := e1.inflightCredit; have := e1.inflightDebit; have := e2.inflightCredit; have := e2.inflightDebit
          omega
  · cases h

/-- Inversion of `prepareMembers` on a nonempty list. -/
theorem prepareMembers_cons {db : DB} {t : Txn} {ts : List Txn} {refs : List String} {bs : List Balance}
    {rows : List Txn} {bs' : List Balance} (h : prepareMembers db (t :: ts) refs bs = .ok (rows, bs')) :
    t.reference ≠ "" ∧ t.reference ∉ refs ∧ db.hasRef t.reference = false ∧
    (finalRow (batchMember t)).preciseAmount ≠ some 0 ∧
    ∃ mid rest, applyInMemory (batchMember t) bs = .ok mid ∧
      prepareMembers db ts (t.reference :: refs) mid = .ok (rest, bs') ∧ rows = finalRow (batchMember t) :: rest := by
  simp only [prepareMembers] at h
  split at h
  · cases h
  split at h
  · cases h
  rename_i hr
  split at h
  · cases h
  rename_i hd
  simp only [Bool.or_eq_true, List.contains_iff_mem, not_or, Bool.not_eq_true] at hd
  split at h
  · cases h
  rename_i mid hm
  split at h
  · cases h
  rename_i hz
  split at h
  · cases h
  rename_i rest bs'' hp
  cases h
  exact ⟨hr, hd.1, hd.2, hz, mid, rest, hm, hp, rfl⟩

theorem prepareMembers_step {db : DB} : ∀ {ts : List Txn} {refs : List String} {bs : List Balance}
    {rows : List Txn} {bs' : List Balance}, (ids bs).Nodup → prepareMembers db ts refs bs = .ok (rows, bs') →
    MemStep bs bs' := by
  intro ts
  induction ts with
  | nil => intro refs bs rows bs' _ h; simp [prepareMembers] at h; rw [h.2]; exact ⟨rfl, id, rfl, rfl⟩
  | cons t ts ih =>
    intro refs bs rows bs' hn h
    obtain ⟨_, _, _, _, mid, rest, hm, hp, _⟩ := prepareMembers_cons h
    have s1 := applyInMemory_step hn hm
    exact s1.trans (ih (by rw [s1.ids]; exact hn) hp)

theorem prepareBatch_ok {cfg : Cfg} {db : DB} {ts : List Txn} {w : Work} (h : prepareBatch cfg db ts = .ok w) :
    ∃ bs, loadAll cfg db (batchIds ts) = .ok bs ∧ prepareMembers db ts [] bs = .ok (w.rows, w.balances) := by
  unfold prepareBatch at h
  split at h
  · cases h
  split at h
  · cases h
  rename_i bs hl
  split at h
  · cases h
  rename_i rows bs' hp
  cases h
  exact ⟨bs, hl, hp⟩

/-- Totals of stored columns depend on ids only. -/
theorem total_old_of_ids (f : Balance → Int) (rows : List Balance) : ∀ {l m : List Balance}, ids l = ids m →
    total (old f rows) l = total (old f rows) m := by
  intro l
  induction l with
  | nil => intro m h; cases m with
    | nil => rfl
    | cons _ _ => simp [ids] at h
  | cons a l ih => intro m h; cases m with
    | nil => simp [ids] at h
    | cons b m =>
      simp only [ids, List.map_cons, List.cons.injEq] at h
      simp only [total_cons, ih h.2]
      congr 1
      simp [old, h.1]

theorem prepareBatch_balanced {cfg : Cfg} {db : DB} {ts : List Txn} {w : Work} (hi : Inv db)
    (h : prepareBatch cfg db ts = .ok w) : Balanced db.balances w := by
  obtain ⟨bs, hl, hp⟩ := prepareBatch_ok h
  obtain ⟨hids, hload⟩ := loadAll_ok hl
  have hn : (ids bs).Nodup := by rw [hids]; exact batchIds_nodup ts
  have s := prepareMembers_step hn hp
  have hold : ∀ f : Balance → Int, (∀ (r : Balance) q, f { r with queuedDebit := q } = f r) →
      total (old f db.balances) w.balances = total f bs := by
    intro f hf
    rw [total_old_of_ids f db.balances s.ids]
    apply total_congr
    intro b hb
    exact (load_readFrom (hload b hb)).1.old hi.nodup f hf rfl
  constructor
  · rw [s.ids]; exact hn
  · exact s.consistent (fun b hb => (load_readFrom (hload b hb)).1.consistent hi.consistent)
  · rw [hold _ (fun _ _ => rfl), hold _ (fun _ _ => rfl)]
    have := s.settled; omega
  · rw [hold _ (fun _ _ => rfl), hold _ (fun _ _ => rfl)]
    have := s.inflight; omega

theorem recordBatch_inv {cfg : Cfg} {db : DB} {ts : List Txn} (hi : Inv db) : Inv (recordBatch cfg db ts).1 := by
  unfold recordBatch
  split
  · exact hi
  · rename_i w hw
    split
    · rename_i db' hp; exact persist_inv hi (prepareBatch_balanced hi hw) hp
    · exact hi

/-! ### The state machine -/

theorem step_inv {cfg : Cfg} {db : DB} (hi : Inv db) (op : Op) : Inv (step cfg db op).1 := by
  cases op with
  | create i ind cur =>
    simp only [step]
    split
    · rename_i db' h; exact createBalance_inv hi h
    · exact hi
  | post t n1 n2 => exact recordSingle_inv hi
  | batch ts => exact recordBatch_inv hi
  | store t =>
    simp only [step]
    split
    · rename_i db' h
      have hu := insertTxn_unique hi.unique h
      obtain ⟨_, _, rfl⟩ := insertTxn_ok h
      exact ⟨hi.nodup, hi.consistent, hi.settled, hi.inflight, hu⟩
    · exact hi

theorem run_inv {cfg : Cfg} {ops : List Op} : ∀ {db : DB}, Inv db → Inv (run cfg db ops) := by
  induction ops with
  | nil => exact fun hi => hi
  | cons op ops ih => exact fun hi => ih (step_inv hi op)

theorem init_inv : Inv {} := by
  refine ⟨by simp, by simp, by simp, by simp, ⟨by simp, by simp⟩⟩

end Blnk
