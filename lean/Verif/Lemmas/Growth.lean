import Verif.Lemmas.Columns
import Verif.Lemmas.Complete
import Verif.Model.Inflight
/-
What each operation adds to the transaction table and, row by row, to the balance columns.
-/
namespace Blnk

/-- Minor units of a row. -/
def pay (t : Txn) : Int := t.preciseAmount.getD 0

/-- Settled amount of a stored row. -/
def rowReg (r : Txn) : Int := if r.status = .applied then pay r else 0

/-- Held amount of a stored row. -/
def rowInfl (r : Txn) : Int := if r.status = .inflight then pay r else 0

/-- An ordinary posting: not itself a settlement, and with a status the service assigns
(`setTransactionStatus`, `transaction_queue.go:328-334`, or a hold). -/
def Txn.Live (t : Txn) : Prop :=
  t.Plain ∧ (t.inflight = true ∨ t.status = .queued ∨ t.status = .applied ∨ t.status = .scheduled)

/-- Operations other than settling holds. -/
def Op.Ordinary : Op → Prop
  | .create _ _ _ => True
  | .post t _ _ => t.Live
  | .batch ts => ∀ t ∈ ts, t.Live
  | .store t => (t.status = .queued ∨ t.status = .scheduled ∨ t.status = .rejected) ∧ 0 ≤ pay t

/-- Transactions an operation tries to apply. -/
def Op.posts : Op → List Txn
  | .post t _ _ => [t]
  | .batch ts => ts
  | _ => []

/-- Account ids an operation may generate. -/
def Op.gens : Op → List String
  | .create i _ _ => [i]
  | .post _ a b => [a, b]
  | _ => []

/-- One step seen through the rows it adds; `δ` is what each new row does to the inflight
columns. -/
structure Grown (δ : Txn → Int) (gens : List String) (db db' : DB) (new : List Txn) : Prop where
  inv : Inv db'
  txns : db'.txns = db.txns ++ new
  debit : ∀ i, col (·.debit) db' i = col (·.debit) db i + out rowReg i new
  credit : ∀ i, col (·.credit) db' i = col (·.credit) db i + inn rowReg i new
  inflightDebit : ∀ i, col (·.inflightDebit) db' i = col (·.inflightDebit) db i + out δ i new
  inflightCredit : ∀ i, col (·.inflightCredit) db' i = col (·.inflightCredit) db i + inn δ i new
  accounts : ∀ i ∈ ids db.balances, i ∈ ids db'.balances
  made : ∀ i ∈ ids db'.balances, i ∈ ids db.balances ∨ i ∈ gens
  parties : ∀ r ∈ new, r.status = .applied ∨ r.status = .inflight ∨ r.status = .void →
    r.source ∈ ids db'.balances ∧ r.destination ∈ ids db'.balances

theorem grown_of_effect {δ : Txn → Int} {gens : List String} {db db' : DB} (hi : Inv db') (ht : db'.txns = db.txns)
    (he : Effect db db' []) (h1 : ∀ i ∈ ids db.balances, i ∈ ids db'.balances)
    (h2 : ∀ i ∈ ids db'.balances, i ∈ ids db.balances ∨ i ∈ gens) : Grown δ gens db db' [] := by
  refine ⟨hi, by simp [ht], ?_, ?_, ?_, ?_, h1, h2, by simp⟩ <;> intro i
  · rw [he.debit]; simp
  · rw [he.credit]; simp
  · rw [he.inflightDebit]; simp
  · rw [he.inflightCredit]; simp

theorem grown_refl {δ : Txn → Int} {gens : List String} {db : DB} (hi : Inv db) : Grown δ gens db db [] :=
  grown_of_effect hi rfl (.refl _) (fun _ h => h) (fun _ h => .inl h)

theorem out_map {f g : Txn → Int} {φ : Txn → Txn} {i : String} : ∀ {ts : List Txn},
    (∀ t ∈ ts, (φ t).source = t.source ∧ f (φ t) = g t) → out f i (ts.map φ) = out g i ts := by
  intro ts
  induction ts with
  | nil => intro _; rfl
  | cons t ts ih =>
    intro h
    have h1 := h t (by simp)
    rw [List.map_cons, out_cons, out_cons, h1.1, h1.2, ih (fun u hu => h u (List.mem_cons_of_mem _ hu))]

theorem inn_map {f g : Txn → Int} {φ : Txn → Txn} {i : String} : ∀ {ts : List Txn},
    (∀ t ∈ ts, (φ t).destination = t.destination ∧ f (φ t) = g t) → inn f i (ts.map φ) = inn g i ts := by
  intro ts
  induction ts with
  | nil => intro _; rfl
  | cons t ts ih =>
    intro h
    have h1 := h t (by simp)
    rw [List.map_cons, inn_cons, inn_cons, h1.1, h1.2, ih (fun u hu => h u (List.mem_cons_of_mem _ hu))]

theorem finalStatus_live {t : Txn} (h : t.Live) : finalStatus t = if t.inflight then .inflight else .applied := by
  unfold finalStatus
  rcases h.2 with h | h | h | h <;> simp [h]

theorem pay_finalRow_live {t : Txn} (h : t.Live) : pay (finalRow t) = t.applyPrecision.preciseAmount.getD 0 := by
  unfold pay; rw [finalRow_plain h.1]

theorem reg_live {t : Txn} (h : t.Live) : rowReg (finalRow t) = regAmt t := by
  unfold rowReg
  rw [finalRow_status, finalStatus_live h, pay_finalRow_live h]
  cases hs : t.status <;> cases hf : t.inflight <;> simp [regAmt, hs, hf]
  all_goals first | exact absurd hs h.1.1 | exact absurd hs h.1.2

theorem infl_live {t : Txn} (h : t.Live) : rowInfl (finalRow t) = inflAmt t := by
  unfold rowInfl
  rw [finalRow_status, finalStatus_live h, pay_finalRow_live h]
  cases hs : t.status <;> cases hf : t.inflight <;> simp [inflAmt, hs, hf]
  all_goals first | exact absurd hs h.1.1 | exact absurd hs h.1.2

theorem batchMember_live {t : Txn} (h : t.Live) : (batchMember t).Live ∧ (batchMember t).inflight = t.inflight := by
  refine ⟨?_, rfl⟩
  unfold Txn.Live Txn.Plain batchMember
  simp only
  rw [finalStatus_live h]
  cases t.inflight <;> simp

theorem finalRow_live_pos {t : Txn} (h : t.Live) {b b' : Balance} (ha : applySource t b = .ok b') : 0 < pay (finalRow t) := by
  obtain ⟨p, hp, e, _⟩ := applySource_pos h.1 ha
  rw [pay_finalRow_live h, e]; exact hp

theorem createBalance_ids {db db' : DB} {i ind cur : String} (h : db.createBalance i ind cur = .ok db') :
    ids db'.balances = ids db.balances ++ [i] := by
  obtain ⟨_, _, rfl⟩ := createBalance_ok h
  simp [ids]

theorem resolve_ids {db db' : DB} {s cur n i : String} (h : db.resolve s cur n = .ok (db', i)) :
    (∀ j ∈ ids db.balances, j ∈ ids db'.balances) ∧ ∀ j ∈ ids db'.balances, j ∈ ids db.balances ∨ j = n := by
  rcases resolve_ok h with ⟨rfl, _, _⟩ | ⟨rfl, _, _⟩ | ⟨_, _, hc⟩
  · exact ⟨fun _ h => h, fun _ h => .inl h⟩
  · exact ⟨fun _ h => h, fun _ h => .inl h⟩
  · rw [createBalance_ids hc]
    refine ⟨fun j hj => by simp [hj], fun j hj => ?_⟩
    simpa using hj

theorem mem_ids_of_find {db : DB} {i : String} {b : Balance} (h : db.find i = some b) : i ∈ ids db.balances :=
  List.mem_map.2 ⟨b, (find_mem h).1, (find_mem h).2⟩

theorem find_of_mem_ids {db : DB} {i : String} (h : i ∈ ids db.balances) : ∃ b, db.find i = some b := by
  obtain ⟨b, hb, e⟩ := List.mem_map.1 h
  cases hf : db.find i with
  | some c => exact ⟨c, rfl⟩
  | none =>
    unfold DB.find at hf
    rw [List.find?_eq_none] at hf
    exact absurd e (by simpa using hf b hb)

theorem postResolved_ids {cfg : Cfg} {db : DB} {t : Txn} : ids (postResolved cfg db t).1.balances = ids db.balances := by
  unfold postResolved
  split
  · rfl
  · rfl
  · split
    · rename_i w _ db' hp
      obtain ⟨rows, h1, _, rfl⟩ := persist_ok hp
      exact updateRows_ids h1
    · rfl

theorem recordBatch_ids {cfg : Cfg} {db : DB} {ts : List Txn} : ids (recordBatch cfg db ts).1.balances = ids db.balances := by
  unfold recordBatch
  split
  · rfl
  · split
    · rename_i w _ db' hp
      obtain ⟨rows, h1, _, rfl⟩ := persist_ok hp
      exact updateRows_ids h1
    · rfl

/-- A posting, settled or not, seen through the row it adds. -/
theorem single_grown {cfg : Cfg} {db : DB} {t : Txn} {n1 n2 : String} {δ : Txn → Int} (hi : Inv db)
    (hδ : ∀ s d, let u := { t with source := s, destination := d }; ∀ b b', applySource u b = .ok b' →
      rowReg (finalRow u) = regAmt u ∧ δ (finalRow u) = inflAmt u) :
    (Grown δ [n1, n2] db (recordSingle cfg db t n1 n2).1 [] ∧ ∀ rows, (recordSingle cfg db t n1 n2).2 ≠ .posted rows) ∨
    ∃ s d, let u := { t with source := s, destination := d }
      Grown δ [n1, n2] db (recordSingle cfg db t n1 n2).1 [finalRow u] ∧
      (recordSingle cfg db t n1 n2).2 = .posted [finalRow u] ∧
      (isIndicator t.source = false → s = t.source) ∧ (isIndicator t.destination = false → d = t.destination) ∧
      (∃ b b', applySource u b = .ok b') ∧ s ≠ d := by
  have hinv := recordSingle_inv (cfg := cfg) (t := t) (n1 := n1) (n2 := n2) hi
  have hids : (∀ j ∈ ids db.balances, j ∈ ids (recordSingle cfg db t n1 n2).1.balances) ∧
      ∀ j ∈ ids (recordSingle cfg db t n1 n2).1.balances, j ∈ ids db.balances ∨ j ∈ [n1, n2] := by
    unfold recordSingle
    split
    · exact ⟨fun _ h => h, fun _ h => .inl h⟩
    · rename_i db1 sid h1
      have i1 := resolve_ids h1
      split
      · exact ⟨i1.1, fun j hj => (i1.2 j hj).imp id (by simp +contextual)⟩
      · rename_i db2 did h2
        have i2 := resolve_ids h2
        rw [postResolved_ids]
        refine ⟨fun j hj => i2.1 j (i1.1 j hj), fun j hj => ?_⟩
        rcases i2.2 j hj with h | h
        · exact (i1.2 j h).imp id (by simp +contextual)
        · simp [h]
  rcases recordSingle_effect (cfg := cfg) (t := t) (n1 := n1) (n2 := n2) hi with
    ⟨s, d, db2, hi2, e1, e2, e3, e4, e5, _⟩ | ⟨e, e1, e2, e3⟩
  · rcases postResolved_cases (cfg := cfg) (t := { t with source := s, destination := d }) hi2 with ⟨h1, h2⟩ | ⟨h1, h2⟩
    · left
      refine ⟨grown_of_effect hinv ?_ ?_ hids.1 hids.2, ?_⟩
      · rw [e3, h1, e1]
      · rw [e3, h1]; exact e2
      · rw [e3]; exact h2
    · right
      refine ⟨s, d, ?_, ?_, e4, e5, ?_, h2.distinct⟩
      · obtain ⟨rs, rd, s0, d0, s', d', f1, f2, _, _, _, _, a1, a2, f3, f4⟩ := h2.exact
        obtain ⟨k1, k2⟩ := hδ s d s0 s' a1
        have eff := e2.append (posted_effect h2)
        have kp := finalRow_keeps { t with source := s, destination := d }
        rw [← e3] at eff
        refine ⟨hinv, ?_, ?_, ?_, ?_, ?_, hids.1, hids.2, ?_⟩
        · rw [e3, h2.txns, e1]
        · intro i; rw [eff.debit]; simp [out_cons, kp, k1]
        · intro i; rw [eff.credit]; simp [inn_cons, kp, k1]
        · intro i; rw [eff.inflightDebit]; simp [out_cons, kp, k2]
        · intro i; rw [eff.inflightCredit]; simp [inn_cons, kp, k2]
        · intro r hr _
          simp at hr; subst hr
          rw [kp.2.2.1, kp.2.2.2.1, e3]
          exact ⟨mem_ids_of_find f3, mem_ids_of_find f4⟩
      · rw [e3]; exact h1
      · obtain ⟨rs, rd, s0, d0, s', d', f1, f2, _, _, _, _, a1, _⟩ := h2.exact
        exact ⟨s0, s', a1⟩
  · exact .inl ⟨grown_of_effect hinv e2 e3 hids.1 hids.2, by rw [e1]; simp⟩

theorem prepareMembers_applied {db : DB} : ∀ {ts : List Txn} {refs : List String} {bs : List Balance}
    {rows : List Txn} {bs' : List Balance}, prepareMembers db ts refs bs = .ok (rows, bs') →
    ∀ t ∈ ts, ∃ b b', applySource (batchMember t) b = .ok b' := by
  intro ts
  induction ts with
  | nil => intro _ _ _ _ _ t ht; simp at ht
  | cons t ts ih =>
    intro refs bs rows bs' h u hu
    obtain ⟨_, _, _, _, mid, rest, hm, hp, _⟩ := prepareMembers_cons h
    rcases List.mem_cons.1 hu with rfl | hu
    · unfold applyInMemory at hm
      split at hm
      · split at hm
        · split at hm
          · cases hm
          · rename_i c hc
            obtain ⟨m, a1, _⟩ := applyToAliased_inv hc
            exact ⟨_, _, a1⟩
        · split at hm
          · cases hm
          · rename_i s' d' ha
            obtain ⟨a1, _⟩ := applyToBalances_inv ha
            exact ⟨_, _, a1⟩
      · cases hm
    · exact ih hp u hu

theorem recordBatch_applied {cfg : Cfg} {db : DB} {ts rows : List Txn} (h : (recordBatch cfg db ts).2 = .posted rows) :
    ∀ t ∈ ts, (∃ b b', applySource (batchMember t) b = .ok b') ∧ t.source ∈ ids db.balances ∧ t.destination ∈ ids db.balances := by
  unfold recordBatch at h
  split at h
  · cases h
  · rename_i w hw
    obtain ⟨bs, hl, hm⟩ := prepareBatch_ok hw
    obtain ⟨hids, hread⟩ := loadAll_ok hl
    have hnb : (ids bs).Nodup := by rw [hids]; exact batchIds_nodup ts
    obtain ⟨_, hmem⟩ := prepareMembers_cols hnb hm
    have key : ∀ i ∈ ids bs, i ∈ ids db.balances := by
      intro i hi
      obtain ⟨b, hb, rfl⟩ := List.mem_map.1 hi
      obtain ⟨r, hr, _, hri, _⟩ := load_ok (hread b hb)
      exact List.mem_map.2 ⟨r, hr, hri⟩
    intro t ht
    exact ⟨prepareMembers_applied hm t ht, key _ (hmem t ht).1, key _ (hmem t ht).2⟩

/-- An ordinary operation adds rows whose amounts are exactly what the columns moved by. -/
theorem ordinary_grown {cfg : Cfg} {db : DB} {op : Op} (hi : Inv db) (ho : op.Ordinary) :
    ∃ new, Grown rowInfl op.gens db (step cfg db op).1 new ∧ ∀ r ∈ new,
      (∃ t ∈ op.posts, (r.id = t.id ∧ r.reference = t.reference) ∧ r.parent = t.parent ∧ 0 < pay r ∧
        r.status = if t.inflight then .inflight else .applied) ∨ op = .store r := by
  cases op with
  | create i ind cur =>
    refine ⟨[], ?_, by simp⟩
    simp only [step]
    split
    · rename_i db' h
      obtain ⟨e1, e2⟩ := createBalance_effect h
      have e3 := createBalance_ids h
      refine grown_of_effect (createBalance_inv hi h) e2 e1 ?_ ?_
      · intro j hj; rw [e3]; simp [hj]
      · intro j hj; rw [e3] at hj; simpa [Op.gens] using hj
    · exact grown_refl hi
  | post t n1 n2 =>
    have hl : ∀ s d, ({ t with source := s, destination := d } : Txn).Live := fun s d => ho
    rcases single_grown (cfg := cfg) (t := t) (n1 := n1) (n2 := n2) (δ := rowInfl) hi
      (fun s d b b' _ => ⟨reg_live (hl s d), infl_live (hl s d)⟩) with ⟨h, _⟩ | ⟨s, d, h, _, _, _, ⟨b, b', hb⟩, _⟩
    · exact ⟨[], h, by simp⟩
    · refine ⟨_, h, ?_⟩
      intro r hr
      simp at hr; subst hr
      have kp := finalRow_keeps { t with source := s, destination := d }
      refine .inl ⟨t, by simp [Op.posts], ⟨kp.2.1, kp.1⟩, kp.2.2.2.2.2, finalRow_live_pos (hl s d) hb, ?_⟩
      rw [finalRow_status, finalStatus_live (hl s d)]
  | batch ts =>
    simp only [step]
    rcases recordBatch_cases (cfg := cfg) (ts := ts) hi with ⟨h1, _⟩ | ⟨h1, h2, h3⟩
    · rw [h1]; exact ⟨[], grown_refl hi, by simp⟩
    · have ha := recordBatch_applied h1
      have hl : ∀ u ∈ ts.map batchMember, u.Live := by
        intro u hu
        obtain ⟨t, ht, rfl⟩ := List.mem_map.1 hu
        exact (batchMember_live (ho t ht)).1
      refine ⟨_, ⟨recordBatch_inv hi, h2, ?_, ?_, ?_, ?_, ?_, ?_, ?_⟩, ?_⟩
      · intro i; rw [h3.debit, out_map (g := regAmt) (φ := finalRow)]
        intro u hu; exact ⟨(finalRow_keeps u).2.2.1, reg_live (hl u hu)⟩
      · intro i; rw [h3.credit, inn_map (g := regAmt) (φ := finalRow)]
        intro u hu; exact ⟨(finalRow_keeps u).2.2.2.1, reg_live (hl u hu)⟩
      · intro i; rw [h3.inflightDebit, out_map (g := inflAmt) (φ := finalRow)]
        intro u hu; exact ⟨(finalRow_keeps u).2.2.1, infl_live (hl u hu)⟩
      · intro i; rw [h3.inflightCredit, inn_map (g := inflAmt) (φ := finalRow)]
        intro u hu; exact ⟨(finalRow_keeps u).2.2.2.1, infl_live (hl u hu)⟩
      · intro i hi; rw [recordBatch_ids]; exact hi
      · intro i hi; rw [recordBatch_ids] at hi; exact .inl hi
      · intro r hr _
        rw [recordBatch_ids]
        obtain ⟨u, hu, rfl⟩ := List.mem_map.1 hr
        obtain ⟨t, ht, rfl⟩ := List.mem_map.1 hu
        rw [(finalRow_keeps _).2.2.1, (finalRow_keeps _).2.2.2.1]
        exact (ha t ht).2
      · intro r hr
        obtain ⟨u, hu, rfl⟩ := List.mem_map.1 hr
        obtain ⟨t, ht, rfl⟩ := List.mem_map.1 hu
        obtain ⟨⟨b, b', hb⟩, _⟩ := ha t ht
        refine .inl ⟨t, ht, ⟨(finalRow_keeps _).2.1, (finalRow_keeps _).1⟩, (finalRow_keeps _).2.2.2.2.2,
          finalRow_live_pos (hl _ (List.mem_map.2 ⟨t, ht, rfl⟩)) hb, ?_⟩
        rw [finalRow_status, finalStatus_live (hl _ (List.mem_map.2 ⟨t, ht, rfl⟩))]; rfl
  | store t =>
    simp only [step]
    split
    · rename_i db' h
      have hi' : Inv db' := by
        have := step_inv (cfg := cfg) hi (.store t)
        simpa [step, h] using this
      obtain ⟨_, _, rfl⟩ := insertTxn_ok h
      have z1 : rowReg t = 0 := by
        unfold rowReg; rcases ho.1 with h | h | h <;> simp [h]
      have z2 : rowInfl t = 0 := by
        unfold rowInfl; rcases ho.1 with h | h | h <;> simp [h]
      refine ⟨[t], ⟨hi', rfl, ?_, ?_, ?_, ?_, fun _ h => h, fun _ h => .inl h, ?_⟩, ?_⟩
      · intro i; simp [out_cons, z1, col, DB.find]
      · intro i; simp [inn_cons, z1, col, DB.find]
      · intro i; simp [out_cons, z2, col, DB.find]
      · intro i; simp [inn_cons, z2, col, DB.find]
      · intro r hr hs
        simp at hr; subst hr
        rcases ho.1 with h | h | h <;> simp [h] at hs
      · intro r hr
        simp at hr; subst hr
        exact .inr rfl
    · exact ⟨[], grown_refl hi, by simp⟩

/-! ### Settlements -/

theorem applyPrecision_pos {t : Txn} {p : Int} (h : t.preciseAmount = some p) (hp : 0 < p) :
    t.applyPrecision.preciseAmount = some p := by
  unfold Txn.applyPrecision
  simp only
  by_cases h0 : t.precision = 0 <;> simp [h0, h, hp]

theorem settle_commit {t : Txn} {p : Int} (hs : t.status = .commit) (hf : t.inflight = false)
    (h : t.preciseAmount = some p) (hp : 0 < p) :
    (finalRow t).status = .applied ∧ (finalRow t).preciseAmount = some p ∧
    rowReg (finalRow t) = regAmt t ∧ - pay (finalRow t) = inflAmt t := by
  have e := applyPrecision_pos h hp
  have st : (finalRow t).status = .applied := by rw [finalRow_status]; simp [finalStatus, hf, hs]
  have e2 : (finalRow t).preciseAmount = some p := by
    unfold finalRow clearTerminalInflight
    rw [← e]
    simp [applyRecord, finalStatus, hs, hf]
  refine ⟨st, e2, ?_, ?_⟩
  · simp [rowReg, st, pay, e2, regAmt, hs, e]
  · simp [pay, e2, inflAmt, hs, e]

theorem settle_void {t : Txn} {p : Int} (hs : t.status = .void) (hf : t.inflight = false)
    (h : t.preciseAmount = some p) :
    (finalRow t).status = .void ∧ (finalRow t).preciseAmount = some p ∧
    rowReg (finalRow t) = regAmt t ∧ - pay (finalRow t) = inflAmt t := by
  have st : (finalRow t).status = .void := by rw [finalRow_status]; simp [finalStatus, hf, hs]
  have e2 : (finalRow t).preciseAmount = some p := by
    unfold finalRow clearTerminalInflight
    rw [← h]
    simp [applyRecord, finalStatus, hs, hf]
  refine ⟨st, e2, ?_, ?_⟩
  · simp [rowReg, st, regAmt, hs]
  · simp [pay, e2, inflAmt, hs, h]

/-- The settlement row a commit or void adds. -/
structure Settled (st : Status) (h ref : String) (p : Int) (row x : Txn) : Prop where
  status : x.status = st
  parent : x.parent = h
  reference : x.reference = ref
  amount : x.preciseAmount = some p
  source : isIndicator row.source = false → x.source = row.source
  destination : isIndicator row.destination = false → x.destination = row.destination
  distinct : x.source ≠ x.destination

theorem getTxn_some {db : DB} {h : String} {t : Txn} (e : db.getTxn h = some t) :
    ∃ r ∈ db.txns, r.id = h ∧ t = { r with allowOverdraft := false, overdraftLimit := 0, inflight := false, atomic := false, skipQueue := false } := by
  unfold DB.getTxn at e
  rw [Option.map_eq_some_iff] at e
  obtain ⟨r, hr, rfl⟩ := e
  exact ⟨r, List.mem_of_find?_eq_some hr, by simpa using List.find?_some hr, rfl⟩

theorem fetchInflight_ok {db : DB} {h : String} {t : Txn} (e : fetchInflight db h = .ok t) :
    ∃ r ∈ db.txns, r.id = h ∧ isInflightTxn r = true ∧ db.parentVoid h = false ∧
      t = { r with allowOverdraft := false, overdraftLimit := 0, inflight := false, atomic := false, skipQueue := false } := by
  unfold fetchInflight at e
  split at e
  · cases e
  · rename_i u hu
    split at e
    · rename_i hin
      split at e
      · cases e
      · rename_i hv
        cases e
        obtain ⟨r, hr, hid, rfl⟩ := getTxn_some hu
        exact ⟨r, hr, hid, hin, by simpa using hv, rfl⟩
    · cases e

theorem settleAmount_ok {t : Txn} {amt left p : Int} (h : settleAmount t amt left = .ok p) :
    left ≠ 0 ∧ ((amt = 0 ∧ p = left) ∨ (0 < amt ∧ p = amt ∧ p ≤ left)) := by
  unfold settleAmount at h
  split at h
  · cases h
  · rename_i h0
    refine ⟨h0, ?_⟩
    split at h
    · cases h
    · split at h
      · rename_i h1; cases h; exact .inl ⟨h1, rfl⟩
      · split at h
        · cases h
        · split at h
          · cases h
          · cases h; right; omega

/-- A commit either adds nothing or adds one settlement row. -/
theorem commit_grown {cfg : Cfg} {db : DB} {h newId ref n1 n2 : String} {amt : Int} (hi : Inv db)
    (hpos : ∀ r ∈ db.txns, r.id = h → isInflightTxn r = true → db.parentVoid h = false →
      0 ≤ pay r - db.totalCommitted h) :
    (Grown (fun r => - pay r) [n1, n2] db (commitInflight cfg db h amt newId ref n1 n2).1 [] ∧
      ∀ rows, (commitInflight cfg db h amt newId ref n1 n2).2 ≠ .ok (.posted rows)) ∨
    ∃ row x p, row ∈ db.txns ∧ row.id = h ∧ isInflightTxn row = true ∧ db.parentVoid h = false ∧
      Grown (fun r => - pay r) [n1, n2] db (commitInflight cfg db h amt newId ref n1 n2).1 [x] ∧
      (commitInflight cfg db h amt newId ref n1 n2).2 = .ok (.posted [x]) ∧ x.id = newId ∧
      Settled .applied h ref p row x ∧ 0 < p ∧ p ≤ pay row - db.totalCommitted h ∧
      ((amt = 0 ∧ p = pay row - db.totalCommitted h) ∨ p = amt) := by
  unfold commitInflight
  cases hf : fetchInflight db h with
  | error e => exact .inl ⟨grown_refl hi, by simp⟩
  | ok t =>
    obtain ⟨row, hr, hid, hin, hv, et⟩ := fetchInflight_ok hf
    simp only
    cases ha : settleAmount t amt (remaining db t) with
    | error e => exact .inl ⟨grown_refl hi, by simp⟩
    | ok p =>
      obtain ⟨hl, hp⟩ := settleAmount_ok ha
      have hrem : remaining db t = pay row - db.totalCommitted h := by
        rw [et]; simp [remaining, pay, hid]
      have hpos' := hpos row hr hid hin hv
      rw [← hrem] at hpos'
      have hp0 : 0 < p := by rcases hp with ⟨_, rfl⟩ | ⟨_, rfl, _⟩ <;> omega
      simp only
      rcases single_grown (cfg := cfg) (t := commitTxn t p (if amt = 0 then (p : Rat) / t.precision else t.amount) newId ref)
        (n1 := n1) (n2 := n2) (δ := fun r => - pay r) hi (by
          intro s d u b b' _
          have := settle_commit (t := u) (p := p) rfl rfl rfl hp0
          exact this.2.2) with ⟨g, hn⟩ | ⟨s, d, g, ho, k1, k2, _, hne⟩
      · left; exact ⟨g, by intro rows; simpa using hn rows⟩
      · right
        have st := settle_commit
          (t := { commitTxn t p (if amt = 0 then (p : Rat) / t.precision else t.amount) newId ref with source := s, destination := d })
          (p := p) rfl rfl rfl hp0
        have kp := finalRow_keeps
          { commitTxn t p (if amt = 0 then (p : Rat) / t.precision else t.amount) newId ref with source := s, destination := d }
        refine ⟨row, _, p, hr, hid, hin, hv, g, by rw [ho], kp.2.1, ⟨st.1, ?_, kp.1, st.2.1, ?_, ?_, ?_⟩, hp0, ?_, ?_⟩
        · rw [kp.2.2.2.2.2]; show t.id = h; rw [et]; exact hid
        · intro hs; rw [kp.2.2.1]; show s = row.source
          have : (commitTxn t p (if amt = 0 then (p : Rat) / t.precision else t.amount) newId ref).source = row.source := by
            rw [et]; rfl
          rw [← this]; exact k1 (by rw [this]; exact hs)
        · intro hs; rw [kp.2.2.2.1]; show d = row.destination
          have : (commitTxn t p (if amt = 0 then (p : Rat) / t.precision else t.amount) newId ref).destination = row.destination := by
            rw [et]; rfl
          rw [← this]; exact k2 (by rw [this]; exact hs)
        · rw [kp.2.2.1, kp.2.2.2.1]; exact hne
        · rw [← hrem]; rcases hp with ⟨_, rfl⟩ | ⟨_, rfl, _⟩ <;> omega
        · rw [← hrem]; rcases hp with ⟨h1, h2⟩ | ⟨_, h2, _⟩
          · exact .inl ⟨h1, h2⟩
          · exact .inr h2

/-- A void either adds nothing or adds one settlement row for the whole remainder. -/
theorem void_grown {cfg : Cfg} {db : DB} {h newId ref n1 n2 : String} (hi : Inv db)
    (hpos : ∀ r ∈ db.txns, r.id = h → isInflightTxn r = true → db.parentVoid h = false →
      0 ≤ pay r - db.totalCommitted h) :
    (Grown (fun r => - pay r) [n1, n2] db (voidInflight cfg db h newId ref n1 n2).1 [] ∧
      ∀ rows, (voidInflight cfg db h newId ref n1 n2).2 ≠ .ok (.posted rows)) ∨
    ∃ row x, row ∈ db.txns ∧ row.id = h ∧ isInflightTxn row = true ∧ db.parentVoid h = false ∧
      Grown (fun r => - pay r) [n1, n2] db (voidInflight cfg db h newId ref n1 n2).1 [x] ∧
      (voidInflight cfg db h newId ref n1 n2).2 = .ok (.posted [x]) ∧ x.id = newId ∧
      Settled .void h ref (pay row - db.totalCommitted h) row x ∧ 0 < pay row - db.totalCommitted h := by
  unfold voidInflight
  cases hf : fetchInflight db h with
  | error e => exact .inl ⟨grown_refl hi, by simp⟩
  | ok t =>
    obtain ⟨row, hr, hid, hin, hv, et⟩ := fetchInflight_ok hf
    simp only
    by_cases h0 : remaining db t = 0
    · rw [if_pos h0]; exact .inl ⟨grown_refl hi, by simp⟩
    · rw [if_neg h0]
      have hrem : remaining db t = pay row - db.totalCommitted h := by
        rw [et]; simp [remaining, pay, hid]
      have hpos' := hpos row hr hid hin hv
      rw [← hrem] at hpos'
      have hp0 : 0 < remaining db t := by omega
      have base := applyPrecision_keeps ({ t with status := .void, inflight := false, parent := t.id, id := newId, reference := ref, preciseAmount := some (remaining db t) } : Txn)
      have hpa : (voidTxn t (remaining db t) newId ref).preciseAmount = some (remaining db t) :=
        applyPrecision_pos rfl hp0
      have hst : (voidTxn t (remaining db t) newId ref).status = .void := base.2.2.1
      have hfl : (voidTxn t (remaining db t) newId ref).inflight = false := base.2.2.2.1
      rcases single_grown (cfg := cfg) (t := voidTxn t (remaining db t) newId ref)
        (n1 := n1) (n2 := n2) (δ := fun r => - pay r) hi (by
          intro s d u b b' _
          exact (settle_void (t := u) (p := remaining db t) hst hfl hpa).2.2) with ⟨g, hn⟩ | ⟨s, d, g, ho, k1, k2, _, hne⟩
      · left; exact ⟨g, by intro rows; simpa using hn rows⟩
      · right
        have st := settle_void (t := { voidTxn t (remaining db t) newId ref with source := s, destination := d })
          (p := remaining db t) hst hfl hpa
        have kp := finalRow_keeps { voidTxn t (remaining db t) newId ref with source := s, destination := d }
        have es : (voidTxn t (remaining db t) newId ref).source = row.source := by
          show Txn.source (Txn.applyPrecision _) = _
          rw [base.2.2.2.2.2.2.2.1, et]
        have ed : (voidTxn t (remaining db t) newId ref).destination = row.destination := by
          show Txn.destination (Txn.applyPrecision _) = _
          rw [base.2.2.2.2.2.2.2.2.1, et]
        refine ⟨row, _, hr, hid, hin, hv, g, by rw [ho], ?_, ⟨st.1, ?_, ?_, ?_, ?_, ?_, ?_⟩, ?_⟩
        · rw [kp.2.1]; exact base.2.2.2.2.2.1
        · rw [kp.2.2.2.2.2]; show (voidTxn t (remaining db t) newId ref).parent = h
          rw [show (voidTxn t (remaining db t) newId ref).parent = t.id from base.2.2.2.2.2.2.1, et]; exact hid
        · rw [kp.1]; exact base.2.2.2.2.1
        · rw [st.2.1, hrem]
        · intro hs; rw [kp.2.2.1]; show s = row.source
          rw [← es]; exact k1 (by rw [es]; exact hs)
        · intro hs; rw [kp.2.2.2.1]; show d = row.destination
          rw [← ed]; exact k2 (by rw [ed]; exact hs)
        · rw [kp.2.2.1, kp.2.2.2.1]; exact hne
        · rw [← hrem]; exact hp0

end Blnk
