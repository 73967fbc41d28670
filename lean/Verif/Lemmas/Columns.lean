import Verif.Lemmas.RowRel
/-
What every operation does to every balance column, as a sum over the transactions it applied.
-/
namespace Blnk

/-- Sum of `f` over the transactions leaving account `i`. -/
def out (f : Txn → Int) (i : String) (ts : List Txn) : Int := ((ts.filter (fun t => t.source = i)).map f).sum

/-- Sum of `f` over the transactions entering account `i`. -/
def inn (f : Txn → Int) (i : String) (ts : List Txn) : Int := ((ts.filter (fun t => t.destination = i)).map f).sum

@[simp] theorem out_nil (f : Txn → Int) (i : String) : out f i [] = 0 := rfl
@[simp] theorem inn_nil (f : Txn → Int) (i : String) : inn f i [] = 0 := rfl

theorem out_cons (f : Txn → Int) (i : String) (t : Txn) (ts : List Txn) :
    out f i (t :: ts) = (if t.source = i then f t else 0) + out f i ts := by
  unfold out
  by_cases h : t.source = i <;> simp [h]

theorem inn_cons (f : Txn → Int) (i : String) (t : Txn) (ts : List Txn) :
    inn f i (t :: ts) = (if t.destination = i then f t else 0) + inn f i ts := by
  unfold inn
  by_cases h : t.destination = i <;> simp [h]

theorem out_append (f : Txn → Int) (i : String) (a b : List Txn) : out f i (a ++ b) = out f i a + out f i b := by
  simp [out]

theorem inn_append (f : Txn → Int) (i : String) (a b : List Txn) : inn f i (a ++ b) = inn f i a + inn f i b := by
  simp [inn]

theorem out_zero {f : Txn → Int} {i : String} {ts : List Txn} (h : ∀ t ∈ ts, t.source ≠ i) : out f i ts = 0 := by
  unfold out
  rw [List.filter_eq_nil_iff.2 (by intro t ht; simpa using h t ht)]; rfl

theorem inn_zero {f : Txn → Int} {i : String} {ts : List Txn} (h : ∀ t ∈ ts, t.destination ≠ i) : inn f i ts = 0 := by
  unfold inn
  rw [List.filter_eq_nil_iff.2 (by intro t ht; simpa using h t ht)]; rfl

/-- The four raw columns after applying `ts`. -/
structure Cols (ts : List Txn) (b b' : Balance) : Prop where
  id : b'.id = b.id
  debit : b'.debit = b.debit + out regAmt b.id ts
  credit : b'.credit = b.credit + inn regAmt b.id ts
  inflightDebit : b'.inflightDebit = b.inflightDebit + out inflAmt b.id ts
  inflightCredit : b'.inflightCredit = b.inflightCredit + inn inflAmt b.id ts

theorem Cols.refl (b : Balance) : Cols [] b b := ⟨rfl, by simp, by simp, by simp, by simp⟩

theorem Cols.append {ts us : List Txn} {a b c : Balance} (h1 : Cols ts a b) (h2 : Cols us b c) : Cols (ts ++ us) a c := by
  have e := h1.id
  refine ⟨h2.id.trans e, ?_, ?_, ?_, ?_⟩
  · rw [h2.debit, h1.debit, out_append, e]; omega
  · rw [h2.credit, h1.credit, inn_append, e]; omega
  · rw [h2.inflightDebit, h1.inflightDebit, out_append, e]; omega
  · rw [h2.inflightCredit, h1.inflightCredit, inn_append, e]; omega

theorem find_putBalance (bs : List Balance) (b : Balance) (i : String) :
    (putBalance bs b).find? (fun x => x.id = i) =
      if i = b.id then (bs.find? (fun x => x.id = i)).map (fun _ => b) else bs.find? (fun x => x.id = i) := by
  unfold putBalance
  induction bs with
  | nil => simp
  | cons x bs ih =>
    simp only [List.map_cons, List.find?_cons]
    by_cases hx : x.id = b.id
    · by_cases hi : i = b.id
      · subst hi; simp [hx]
      · have h1 : ¬ b.id = i := fun h => hi h.symm
        have h2 : ¬ x.id = i := fun h => hi (h.symm.trans hx)
        rw [if_neg hi] at ih ⊢
        simp [hx, h1, ih]
    · by_cases hi : x.id = i
      · have : ¬ i = b.id := fun h => hx (hi.trans h)
        simp [hi, this]
      · simp only [if_neg hx, decide_eq_false hi]
        exact ih

theorem applyInMemory_cols {t : Txn} {bs bs' : List Balance} (h : applyInMemory t bs = .ok bs') :
    (∀ i b, bs.find? (fun x => x.id = i) = some b → ∃ b', bs'.find? (fun x => x.id = i) = some b' ∧ Cols [t] b b') ∧
    t.source ∈ ids bs ∧ t.destination ∈ ids bs := by
  unfold applyInMemory at h
  split at h
  · rename_i s d hs hd
    obtain ⟨ms, is⟩ := find_mem hs
    obtain ⟨md, id'⟩ := find_mem hd
    have k1 : t.source ∈ ids bs := List.mem_map.2 ⟨s, ms, is⟩
    have k2 : t.destination ∈ ids bs := List.mem_map.2 ⟨d, md, id'⟩
    refine ⟨?_, k1, k2⟩
    intro i b hb
    have ib := (find_mem hb).2
    split at h
    · rename_i he
      split at h
      · cases h
      · rename_i c hc
        cases h
        obtain ⟨m, a1, a2⟩ := applyToAliased_inv hc
        have e1 := applySource_effect a1
        have e2 := applyDestination_effect a2
        have hid : c.id = t.source := (e2.id.trans e1.id).trans is
        rw [find_putBalance, hid]
        by_cases hi : i = t.source
        · rw [if_pos hi, hb]
          refine ⟨c, rfl, ?_⟩
          rw [hi] at hb
          have : b = s := by rw [hs] at hb; exact (Option.some.inj hb).symm
          subst this
          have j1 : t.source = b.id := is.symm
          have j2 : t.destination = b.id := he.symm.trans j1
          refine ⟨by rw [hid, is], ?_, ?_, ?_, ?_⟩ <;> simp only [out_cons, inn_cons, out_nil, inn_nil, j1, j2, if_true]
          · rw [e2.debit, e1.debit]; omega
          · rw [e2.credit, e1.credit]; omega
          · rw [e2.inflightDebit, e1.inflightDebit]; omega
          · rw [e2.inflightCredit, e1.inflightCredit]; omega
        · rw [if_neg hi]
          refine ⟨b, hb, ?_⟩
          have n1 : ¬ t.source = b.id := fun h => hi (ib.symm.trans h.symm)
          have n2 : ¬ t.destination = b.id := fun h => n1 (he.trans h)
          refine ⟨rfl, ?_, ?_, ?_, ?_⟩ <;> simp [out_cons, inn_cons, n1, n2]
    · rename_i hne
      split at h
      · cases h
      · rename_i s' d' ha
        cases h
        obtain ⟨a1, a2⟩ := applyToBalances_inv ha
        have e1 := applySource_effect a1
        have e2 := applyDestination_effect a2
        have i1 : s'.id = t.source := e1.id.trans is
        have i2 : d'.id = t.destination := e2.id.trans id'
        rw [find_putBalance, find_putBalance, i1, i2]
        by_cases h1 : i = t.source
        · have h2 : ¬ i = t.destination := fun h => hne (h1.symm.trans h)
          rw [if_neg h2, if_pos h1, hb]
          refine ⟨s', rfl, ?_⟩
          rw [h1] at hb
          have : b = s := by rw [hs] at hb; exact (Option.some.inj hb).symm
          subst this
          have j1 : t.source = b.id := is.symm
          have j2 : ¬ t.destination = b.id := fun h => hne (j1.trans h.symm)
          refine ⟨e1.id, ?_, ?_, ?_, ?_⟩ <;> simp [out_cons, inn_cons, j1, j2]
          · exact e1.debit
          · exact e1.credit
          · exact e1.inflightDebit
          · exact e1.inflightCredit
        · rw [if_neg h1]
          by_cases h2 : i = t.destination
          · rw [if_pos h2, hb]
            refine ⟨d', rfl, ?_⟩
            rw [h2] at hb
            have : b = d := by rw [hd] at hb; exact (Option.some.inj hb).symm
            subst this
            have j1 : t.destination = b.id := id'.symm
            have j2 : ¬ t.source = b.id := fun h => hne (h.trans j1.symm)
            refine ⟨e2.id, ?_, ?_, ?_, ?_⟩ <;> simp [out_cons, inn_cons, j1, j2]
            · exact e2.debit
            · exact e2.credit
            · exact e2.inflightDebit
            · exact e2.inflightCredit
          · rw [if_neg h2]
            refine ⟨b, hb, ?_⟩
            have n1 : ¬ t.source = b.id := fun h => h1 (ib.symm.trans h.symm)
            have n2 : ¬ t.destination = b.id := fun h => h2 (ib.symm.trans h.symm)
            refine ⟨rfl, ?_, ?_, ?_, ?_⟩ <;> simp [out_cons, inn_cons, n1, n2]
  · cases h

theorem prepareMembers_cols {db : DB} : ∀ {ts : List Txn} {refs : List String} {bs : List Balance}
    {rows : List Txn} {bs' : List Balance}, (ids bs).Nodup → prepareMembers db ts refs bs = .ok (rows, bs') →
    (∀ i b, bs.find? (fun x => x.id = i) = some b →
      ∃ b', bs'.find? (fun x => x.id = i) = some b' ∧ Cols (ts.map batchMember) b b') ∧
    ∀ t ∈ ts, t.source ∈ ids bs ∧ t.destination ∈ ids bs := by
  intro ts
  induction ts with
  | nil =>
    intro refs bs rows bs' _ h
    simp [prepareMembers] at h
    rw [h.2]
    exact ⟨fun i b hb => ⟨b, hb, Cols.refl b⟩, by simp⟩
  | cons t ts ih =>
    intro refs bs rows bs' hn h
    obtain ⟨_, _, _, _, mid, rest, hm, hp, _⟩ := prepareMembers_cons h
    obtain ⟨c1, c2, c3⟩ := applyInMemory_cols hm
    have s1 := applyInMemory_step hn hm
    obtain ⟨d1, d2⟩ := ih (by rw [s1.ids]; exact hn) hp
    constructor
    · intro i b hb
      obtain ⟨m, hm', k1⟩ := c1 i b hb
      obtain ⟨b', hb', k2⟩ := d1 i m hm'
      exact ⟨b', hb', k1.append k2⟩
    · intro u hu
      rcases List.mem_cons.1 hu with rfl | hu
      · exact ⟨c2, c3⟩
      · rw [← s1.ids]; exact d2 u hu

/-- A column of an account, zero when it does not exist. -/
def col (f : Balance → Int) (db : DB) (i : String) : Int := (db.find i).elim 0 f

/-- The change of every column between two states, as sums over the applied transactions. -/
structure Effect (db db' : DB) (ts : List Txn) : Prop where
  debit : ∀ i, col (·.debit) db' i = col (·.debit) db i + out regAmt i ts
  credit : ∀ i, col (·.credit) db' i = col (·.credit) db i + inn regAmt i ts
  inflightDebit : ∀ i, col (·.inflightDebit) db' i = col (·.inflightDebit) db i + out inflAmt i ts
  inflightCredit : ∀ i, col (·.inflightCredit) db' i = col (·.inflightCredit) db i + inn inflAmt i ts

theorem Effect.refl (db : DB) : Effect db db [] := ⟨by simp, by simp, by simp, by simp⟩

theorem Effect.of_find {db db' : DB} (h : ∀ i, db'.find i = db.find i) : Effect db db' [] := by
  constructor <;> intro i <;> simp [col, h]

theorem Effect.append {a b c : DB} {ts us : List Txn} (h1 : Effect a b ts) (h2 : Effect b c us) : Effect a c (ts ++ us) := by
  constructor <;> intro i
  · rw [h2.debit, h1.debit, out_append]; omega
  · rw [h2.credit, h1.credit, inn_append]; omega
  · rw [h2.inflightDebit, h1.inflightDebit, out_append]; omega
  · rw [h2.inflightCredit, h1.inflightCredit, inn_append]; omega

theorem createBalance_effect {db db' : DB} {i ind cur : String} (h : db.createBalance i ind cur = .ok db') :
    Effect db db' [] ∧ db'.txns = db.txns := by
  obtain ⟨hn, _, rfl⟩ := createBalance_ok h
  refine ⟨?_, rfl⟩
  have key : ∀ (f : Balance → Int), f { id := i, indicator := ind, currency := cur } = 0 → ∀ j,
      col f ⟨db.balances ++ [{ id := i, indicator := ind, currency := cur }], db.txns⟩ j = col f db j := by
    intro f hf j
    unfold col DB.find
    simp only [List.find?_append]
    cases hj : db.balances.find? (fun b => b.id = j) with
    | some b => simp
    | none =>
      simp only [Option.none_or, List.find?_cons, List.find?_nil]
      by_cases hij : i = j
      · simp [hij]; rw [hij] at hf; exact hf
      · simp [hij]
  constructor <;> intro j <;> simp only [out_nil, inn_nil, Int.add_zero] <;> exact key _ rfl j

theorem resolve_effect {db db' : DB} {s cur n i : String} (h : db.resolve s cur n = .ok (db', i)) :
    Effect db db' [] ∧ db'.txns = db.txns := by
  rcases resolve_ok h with ⟨rfl, _, _⟩ | ⟨rfl, _, _⟩ | ⟨_, _, hc⟩
  · exact ⟨.refl _, rfl⟩
  · exact ⟨.refl _, rfl⟩
  · exact createBalance_effect hc

theorem posted_effect {cfg : Cfg} {db db' : DB} {t : Txn} (h : PostedSingle cfg db db' t) : Effect db db' [t] := by
  obtain ⟨rs, rd, s, d, s', d', f1, f2, _, _, es, ed, a1, a2, f3, f4⟩ := h.exact
  have e1 := applySource_effect a1
  have e2 := applyDestination_effect a2
  have q1 : s.debit = rs.debit := by rw [es]
  have q2 : s.credit = rs.credit := by rw [es]
  have q3 : s.inflightDebit = rs.inflightDebit := by rw [es]
  have q4 : s.inflightCredit = rs.inflightCredit := by rw [es]
  have q5 : d.debit = rd.debit := by rw [ed]
  have q6 : d.credit = rd.credit := by rw [ed]
  have q7 : d.inflightDebit = rd.inflightDebit := by rw [ed]
  have q8 : d.inflightCredit = rd.inflightCredit := by rw [ed]
  have := e1.debit; have := e1.credit; have := e1.inflightDebit; have := e1.inflightCredit
  have := e2.debit; have := e2.credit; have := e2.inflightDebit; have := e2.inflightCredit
  have hne := h.distinct
  constructor <;> intro i <;> simp only [out_cons, inn_cons, out_nil, inn_nil] <;>
    (by_cases h1 : i = t.source
     · have h2 : ¬ t.destination = t.source := fun h => hne h.symm
       subst h1
       simp only [col, f1, f3, Option.elim_some, Balance.writeBack, if_true, if_neg h2]
       omega
     · have h1' : ¬ t.source = i := fun h => h1 h.symm
       by_cases h2 : i = t.destination
       · subst h2
         simp only [col, f2, f4, Option.elim_some, Balance.writeBack, if_true, if_neg h1']
         omega
       · have h2' : ¬ t.destination = i := fun h => h2 h.symm
         simp only [col, h.others i h1 h2, if_neg h1', if_neg h2']
         omega)

theorem recordBatch_effect {cfg : Cfg} {db : DB} {ts rows : List Txn} (hi : Inv db)
    (h : (recordBatch cfg db ts).2 = .posted rows) :
    rows = (ts.map batchMember).map finalRow ∧ (recordBatch cfg db ts).1.txns = db.txns ++ rows ∧
    Effect db (recordBatch cfg db ts).1 (ts.map batchMember) := by
  unfold recordBatch at h ⊢
  split at h
  · cases h
  · rename_i w hw
    split at h
    · rename_i db' hp
      simp only [Outcome.posted.injEq] at h
      subst h
      obtain ⟨bs, hl, hm⟩ := prepareBatch_ok hw
      obtain ⟨rows, h1, h2, rfl⟩ := persist_ok hp
      have hrows := prepareMembers_rows hm
      refine ⟨by rw [hrows, List.map_map]; rfl, rfl, ?_⟩
      obtain ⟨hids, hread⟩ := loadAll_ok hl
      have hnb : (ids bs).Nodup := by rw [hids]; exact batchIds_nodup ts
      have hids' := (prepareMembers_step hnb hm).ids
      obtain ⟨hc, hmem⟩ := prepareMembers_cols hnb hm
      have key : ∀ i, (i ∉ ids bs → rows.find? (fun x => x.id = i) = db.find i ∧
            (∀ u ∈ ts.map batchMember, u.source ≠ i) ∧ ∀ u ∈ ts.map batchMember, u.destination ≠ i) ∧
          (i ∈ ids bs → ∃ r b b', db.find i = some r ∧ rows.find? (fun x => x.id = i) = some (r.writeBack b') ∧
            Cols (ts.map batchMember) b b' ∧ b.id = i ∧ b.debit = r.debit ∧ b.credit = r.credit ∧
            b.inflightDebit = r.inflightDebit ∧ b.inflightCredit = r.inflightCredit) := by
        intro i
        constructor
        · intro hni
          refine ⟨find_updateRows_other h1 (by rw [hids']; exact hni), ?_, ?_⟩
          · intro u hu
            obtain ⟨t, ht, rfl⟩ := List.mem_map.1 hu
            intro he; exact hni (he ▸ (hmem t ht).1)
          · intro u hu
            obtain ⟨t, ht, rfl⟩ := List.mem_map.1 hu
            intro he; exact hni (he ▸ (hmem t ht).2)
        · intro hin
          obtain ⟨b, hb, hbi⟩ := List.mem_map.1 hin
          have hf : bs.find? (fun x => x.id = i) = some b := by rw [← hbi]; exact find_of_mem hnb hb
          obtain ⟨b', hb', hcol⟩ := hc i b hf
          obtain ⟨r, hr, _, hri, hrq⟩ := load_ok (hread b hb)
          rw [hbi] at hri
          have hfr : db.find i = some r := by rw [← hri]; exact find_of_mem hi.nodup hr
          obtain ⟨mb', ib'⟩ := find_mem hb'
          have hupd := (find_updateRows hi.nodup (by rw [hids']; exact hnb) h1 b' mb' r (by rw [ib']; exact hfr)).2
          rw [ib'] at hupd
          exact ⟨r, b, b', hfr, hupd, hcol, hbi, by rw [hrq], by rw [hrq], by rw [hrq], by rw [hrq]⟩
      constructor <;> intro i <;> obtain ⟨k1, k2⟩ := key i <;>
        (by_cases hin : i ∈ ids bs
         · obtain ⟨r, b, b', c1, c2, c3, c4, c5, c6, c7, c8⟩ := k2 hin
           have g1 := c3.debit; have g2 := c3.credit; have g3 := c3.inflightDebit; have g4 := c3.inflightCredit
           rw [c4] at g1 g2 g3 g4
           simp only [col, c1, Option.elim_some]
           show (List.find? _ rows).elim 0 _ = _
           rw [c2]
           simp only [Option.elim_some, Balance.writeBack]
           omega
         · obtain ⟨c1, c2, c3⟩ := k1 hin
           simp only [out_zero c2, inn_zero c3, Int.add_zero, col]
           show (List.find? _ rows).elim 0 _ = _
           rw [c1])
    · cases h

/-- A posting by resolved or unresolved identifiers. -/
theorem recordSingle_effect {cfg : Cfg} {db : DB} {t : Txn} {n1 n2 : String} (hi : Inv db) :
    (∃ sid did db2, Inv db2 ∧ db2.txns = db.txns ∧ Effect db db2 [] ∧
      (recordSingle cfg db t n1 n2) = postResolved cfg db2 { t with source := sid, destination := did } ∧
      (isIndicator t.source = false → sid = t.source) ∧ (isIndicator t.destination = false → did = t.destination) ∧
      (isIndicator t.source = false → isIndicator t.destination = false → db2 = db)) ∨
    (∃ e, (recordSingle cfg db t n1 n2).2 = .refused e ∧ (recordSingle cfg db t n1 n2).1.txns = db.txns ∧
      Effect db (recordSingle cfg db t n1 n2).1 []) := by
  unfold recordSingle
  split
  · rename_i e he
    exact .inr ⟨e, rfl, rfl, .refl _⟩
  · rename_i db1 sid h1
    obtain ⟨a1, a2⟩ := resolve_effect h1
    split
    · rename_i e he
      exact .inr ⟨e, rfl, a2, a1⟩
    · rename_i db2 did h2
      obtain ⟨b1, b2⟩ := resolve_effect h2
      refine .inl ⟨sid, did, db2, resolve_inv (resolve_inv hi h1) h2, b2.trans a2, a1.append b1, rfl, ?_, ?_, ?_⟩
      · intro hs; simp [DB.resolve, hs] at h1; exact h1.2.symm
      · intro hs; simp [DB.resolve, hs] at h2; exact h2.2.symm
      · intro hs hd
        simp [DB.resolve, hs] at h1; simp [DB.resolve, hd] at h2
        rw [← h2.1, ← h1.1]

theorem postResolved_cases {cfg : Cfg} {db : DB} {t : Txn} (hi : Inv db) :
    ((postResolved cfg db t).1 = db ∧ ∀ rows, (postResolved cfg db t).2 ≠ .posted rows) ∨
    ((postResolved cfg db t).2 = .posted [finalRow t] ∧ PostedSingle cfg db (postResolved cfg db t).1 t) := by
  cases ho : (postResolved cfg db t).2 with
  | posted rows =>
    obtain ⟨rfl, hp⟩ := postResolved_posted hi ho
    exact .inr ⟨rfl, hp⟩
  | discarded =>
    refine .inl ⟨?_, by simp⟩
    unfold postResolved at ho ⊢
    split
    · rfl
    · rfl
    · rename_i w hw
      rw [hw] at ho
      simp only at ho
      split
      · rename_i db' hp; rw [hp] at ho; simp at ho
      · rfl
  | refused e =>
    refine .inl ⟨?_, by simp⟩
    unfold postResolved at ho ⊢
    split
    · rfl
    · rfl
    · rename_i w hw
      rw [hw] at ho
      simp only at ho
      split
      · rename_i db' hp; rw [hp] at ho; simp at ho
      · rfl

theorem recordBatch_cases {cfg : Cfg} {db : DB} {ts : List Txn} (hi : Inv db) :
    ((recordBatch cfg db ts).1 = db ∧ ∀ rows, (recordBatch cfg db ts).2 ≠ .posted rows) ∨
    ((recordBatch cfg db ts).2 = .posted ((ts.map batchMember).map finalRow) ∧
      (recordBatch cfg db ts).1.txns = db.txns ++ (ts.map batchMember).map finalRow ∧
      Effect db (recordBatch cfg db ts).1 (ts.map batchMember)) := by
  cases ho : (recordBatch cfg db ts).2 with
  | posted rows =>
    obtain ⟨h1, h2, h3⟩ := recordBatch_effect hi ho
    subst h1
    exact .inr ⟨rfl, h2, h3⟩
  | discarded =>
    refine .inl ⟨?_, by simp⟩
    unfold recordBatch at ho ⊢
    split
    · rfl
    · rename_i w hw
      rw [hw] at ho
      simp only at ho
      split
      · rename_i db' hp; rw [hp] at ho; simp at ho
      · rfl
  | refused e =>
    refine .inl ⟨?_, by simp⟩
    unfold recordBatch at ho ⊢
    split
    · rfl
    · rename_i w hw
      rw [hw] at ho
      simp only at ho
      split
      · rename_i db' hp; rw [hp] at ho; simp at ho
      · rfl

end Blnk
