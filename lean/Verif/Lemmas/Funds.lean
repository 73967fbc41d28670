import Verif.Lemmas.Holds
/-
The inflight columns of every account are the open remainders of its holds.
-/
namespace Blnk

/-- What is still open of a hold. -/
def openAmount (db : DB) (r : Txn) : Int := pay r - committed db r.id - released db r.id

/-- The open remainder of a row, zero unless it is an INFLIGHT row. -/
def heldOf (db : DB) (r : Txn) : Int := if r.status = .inflight then openAmount db r else 0

/-- A step whose settlements name no QUEUED stand-in (ids in `Q`), and whose generated
account ids do not look like indicators. -/
def Act.Direct (Q : String → Prop) : Act → Prop
  | .base op => (∀ t, op = .store t → t.Holds → Q t.id) ∧ ∀ i ∈ op.gens, isIndicator i = false
  | .commit id _ _ _ n1 n2 => ¬ Q id ∧ isIndicator n1 = false ∧ isIndicator n2 = false
  | .void id _ _ n1 n2 => ¬ Q id ∧ isIndicator n1 = false ∧ isIndicator n2 = false

/-- Invariant of the inflight columns. -/
structure FundInv (H Q : String → Prop) (db : DB) : Prop extends HoldInv H db where
  queued : ∀ r ∈ db.txns, r.status = .queued → r.Holds → Q r.id
  debit : ∀ i, col (·.inflightDebit) db i = out (heldOf db) i db.txns
  credit : ∀ i, col (·.inflightCredit) db i = inn (heldOf db) i db.txns
  accounts : ∀ r ∈ db.txns, r.status = .inflight → r.source ∈ ids db.balances ∧ r.destination ∈ ids db.balances
  plain : ∀ i ∈ ids db.balances, isIndicator i = false

theorem out_congr {f g : Txn → Int} {i : String} {ts : List Txn} (h : ∀ t ∈ ts, f t = g t) : out f i ts = out g i ts := by
  unfold out
  congr 1
  exact List.map_congr_left (fun t ht => h t (List.mem_filter.1 ht).1)

theorem inn_congr {f g : Txn → Int} {i : String} {ts : List Txn} (h : ∀ t ∈ ts, f t = g t) : inn f i ts = inn g i ts := by
  unfold inn
  congr 1
  exact List.map_congr_left (fun t ht => h t (List.mem_filter.1 ht).1)

theorem out_update {f g : Txn → Int} {δ : Int} {row : Txn} (i : String) : ∀ {l : List Txn}, (l.map (·.id)).Nodup → row ∈ l →
    (∀ r ∈ l, g r = f r + if r.id = row.id then δ else 0) →
    out g i l = out f i l + if row.source = i then δ else 0 := by
  intro l
  induction l with
  | nil => intro _ h; simp at h
  | cons x l ih =>
    intro hn hm hg
    simp only [List.map_cons, List.nodup_cons] at hn
    rw [out_cons, out_cons]
    rcases List.mem_cons.1 hm with rfl | hm
    · have h1 := hg row (by simp)
      rw [if_pos rfl] at h1
      have h2 : out g i l = out f i l := by
        apply out_congr
        intro t ht
        have := hg t (List.mem_cons_of_mem _ ht)
        rw [if_neg (fun he => hn.1 (List.mem_map.2 ⟨t, ht, he⟩))] at this
        omega
      rw [h1, h2]
      by_cases hs : row.source = i <;> simp [hs] <;> omega
    · have h1 := hg x (by simp)
      rw [if_neg (fun he => hn.1 (List.mem_map.2 ⟨row, hm, he.symm⟩))] at h1
      rw [ih hn.2 hm (fun r hr => hg r (List.mem_cons_of_mem _ hr)), h1]
      by_cases hs : x.source = i <;> simp [hs] <;> omega

theorem inn_update {f g : Txn → Int} {δ : Int} {row : Txn} (i : String) : ∀ {l : List Txn}, (l.map (·.id)).Nodup → row ∈ l →
    (∀ r ∈ l, g r = f r + if r.id = row.id then δ else 0) →
    inn g i l = inn f i l + if row.destination = i then δ else 0 := by
  intro l
  induction l with
  | nil => intro _ h; simp at h
  | cons x l ih =>
    intro hn hm hg
    simp only [List.map_cons, List.nodup_cons] at hn
    rw [inn_cons, inn_cons]
    rcases List.mem_cons.1 hm with rfl | hm
    · have h1 := hg row (by simp)
      rw [if_pos rfl] at h1
      have h2 : inn g i l = inn f i l := by
        apply inn_congr
        intro t ht
        have := hg t (List.mem_cons_of_mem _ ht)
        rw [if_neg (fun he => hn.1 (List.mem_map.2 ⟨t, ht, he⟩))] at this
        omega
      rw [h1, h2]
      by_cases hs : row.destination = i <;> simp [hs] <;> omega
    · have h1 := hg x (by simp)
      rw [if_neg (fun he => hn.1 (List.mem_map.2 ⟨row, hm, he.symm⟩))] at h1
      rw [ih hn.2 hm (fun r hr => hg r (List.mem_cons_of_mem _ hr)), h1]
      by_cases hs : x.destination = i <;> simp [hs] <;> omega

theorem inflight_holds {r : Txn} (h : r.status = .inflight) : r.Holds := .inl h

/-- Rows that settle no member of `H` add their own amounts to the open remainders. -/
theorem fundInv_ordinary {H Q : String → Prop} {db db' : DB} {new : List Txn} {gens : List String} (hk : FundInv H Q db)
    (g : Grown rowInfl gens db db' new)
    (h1 : ∀ x ∈ new, x.status = .applied ∨ x.status = .void → ¬ H x.parent)
    (h2 : ∀ x ∈ new, x.Holds → H x.id ∧ 0 ≤ pay x)
    (h3 : ∀ x ∈ new, x.status = .queued → x.Holds → Q x.id) (h4 : ∀ i ∈ gens, isIndicator i = false) :
    FundInv H Q db' := by
  have hh := holdInv_ordinary hk.toHoldInv g.inv g.txns h1 h2
  have hold : ∀ r ∈ db.txns, heldOf db' r = heldOf db r := by
    intro r hr
    unfold heldOf
    split
    · rename_i hs
      have hH := hk.known r hr (inflight_holds hs)
      unfold openAmount
      rw [show committed db' r.id = committed db r.id from
          kidSum_same g.txns (fun x hx hs he => h1 x hx (.inl hs) (he ▸ hH)),
        show released db' r.id = released db r.id from
          kidSum_same g.txns (fun x hx hs he => h1 x hx (.inr hs) (he ▸ hH))]
    · rfl
  have hnew : ∀ x ∈ new, heldOf db' x = rowInfl x := by
    intro x hx
    unfold heldOf rowInfl
    split
    · rename_i hs
      have hxh := inflight_holds hs
      have hH := (h2 x hx hxh).1
      have key : ∀ c ∈ db'.txns, c.status = .applied ∨ c.status = .void → c.parent ≠ x.id := by
        intro c hc hcs he
        rw [g.txns] at hc
        rcases List.mem_append.1 hc with hc | hc
        · obtain ⟨_, r, hr, hid, _⟩ := hk.kids c hc hcs (he ▸ hH)
          exact new_id g.inv g.txns hr hx (hid.trans he)
        · exact h1 c hc hcs (he ▸ hH)
      unfold openAmount
      rw [show committed db' x.id = 0 from kidSum_zero (fun c hc hs => key c hc (.inl hs)),
        show released db' x.id = 0 from kidSum_zero (fun c hc hs => key c hc (.inr hs))]
      omega
    · rfl
  refine ⟨hh, ?_, ?_, ?_, ?_, ?_⟩
  · intro r hr hs hrh
    rw [g.txns] at hr
    rcases List.mem_append.1 hr with hr | hr
    · exact hk.queued r hr hs hrh
    · exact h3 r hr hs hrh
  · intro i
    rw [g.inflightDebit, hk.debit, g.txns, out_append, out_congr hold, out_congr hnew]
  · intro i
    rw [g.inflightCredit, hk.credit, g.txns, inn_append, inn_congr hold, inn_congr hnew]
  · intro r hr hs
    rw [g.txns] at hr
    rcases List.mem_append.1 hr with hr | hr
    · exact ⟨g.accounts _ (hk.accounts r hr hs).1, g.accounts _ (hk.accounts r hr hs).2⟩
    · exact g.parties r hr (.inr (.inl hs))
  · intro i hi
    rcases g.made i hi with h | h
    · exact hk.plain i h
    · exact h4 i h

/-- A settlement takes its amount off the remainder of the hold it names. -/
theorem fundInv_settle {H Q : String → Prop} {db db' : DB} {row x : Txn} {p : Int} {gens : List String} {st : Status} {ref : String}
    (hk : FundInv H Q db) (g : Grown (fun r => - pay r) gens db db' [x]) (hh' : HoldInv H db')
    (hrow : row ∈ db.txns) (hin : row.status = .inflight) (hst : st = .applied ∨ st = .void)
    (hs : Settled st row.id ref p row x) (h4 : ∀ i ∈ gens, isIndicator i = false) : FundInv H Q db' := by
  have hacc := hk.accounts row hrow hin
  have esrc := hs.source (hk.plain _ hacc.1)
  have edst := hs.destination (hk.plain _ hacc.2)
  have hx : x.status ≠ .inflight ∧ x.status ≠ .queued := by rw [hs.status]; rcases hst with h | h <;> simp [h]
  have hpay : pay x = p := by simp [pay, hs.amount]
  have hold : ∀ r ∈ db.txns, heldOf db' r = heldOf db r + if r.id = row.id then - p else 0 := by
    intro r hr
    by_cases he : r.id = row.id
    · have : r = row := row_unique hk.inv hr hrow he
      subst this
      simp only [heldOf, if_pos hin, if_true, openAmount]
      rcases hst with h | h
      · have e1 : committed db' x.parent = committed db x.parent + pay x := kidSum_one g.txns (hs.status.trans h)
        have e2 : released db' r.id = released db r.id := kidSum_same g.txns (by simp [hs.status, h])
        rw [hs.parent] at e1; omega
      · have e1 : released db' x.parent = released db x.parent + pay x := kidSum_one g.txns (hs.status.trans h)
        have e2 : committed db' r.id = committed db r.id := kidSum_same g.txns (by simp [hs.status, h])
        rw [hs.parent] at e1; omega
    · have hne : ¬ row.id = r.id := fun h => he h.symm
      have e1 : committed db' r.id = committed db r.id := kidSum_same g.txns (by simp [hs.parent, hne])
      have e2 : released db' r.id = released db r.id := kidSum_same g.txns (by simp [hs.parent, hne])
      simp [heldOf, openAmount, e1, e2, he]
  have hx0 : heldOf db' x = 0 := by simp [heldOf, hx.1]
  refine ⟨hh', ?_, ?_, ?_, ?_, ?_⟩
  · intro r hr hsq hrh
    rw [g.txns] at hr
    rcases List.mem_append.1 hr with hr | hr
    · exact hk.queued r hr hsq hrh
    · simp at hr; subst hr; exact absurd hsq hx.2
  · intro i
    rw [g.inflightDebit, hk.debit, g.txns, out_append, out_update i hk.inv.unique.txnIds hrow hold]
    simp only [out_cons, out_nil, hx0, esrc, hpay]
    split <;> omega
  · intro i
    rw [g.inflightCredit, hk.credit, g.txns, inn_append, inn_update i hk.inv.unique.txnIds hrow hold]
    simp only [inn_cons, inn_nil, hx0, edst, hpay]
    split <;> omega
  · intro r hr hsq
    rw [g.txns] at hr
    rcases List.mem_append.1 hr with hr | hr
    · exact ⟨g.accounts _ (hk.accounts r hr hsq).1, g.accounts _ (hk.accounts r hr hsq).2⟩
    · simp at hr; subst hr; exact absurd hsq hx.1
  · intro i hi
    rcases g.made i hi with h | h
    · exact hk.plain i h
    · exact h4 i h

theorem grown_nil {δ δ' : Txn → Int} {gens : List String} {db db' : DB} (g : Grown δ gens db db' []) : Grown δ' gens db db' [] := by
  refine ⟨g.inv, g.txns, g.debit, g.credit, ?_, ?_, g.accounts, g.made, g.parties⟩
  · intro i; rw [g.inflightDebit]; simp
  · intro i; rw [g.inflightCredit]; simp

theorem act_fundInv {cfg : Cfg} {H Q : String → Prop} {db : DB} {a : Act} (hk : FundInv H Q db) (hr : a.Respects H)
    (hd : a.Direct Q) : FundInv H Q (act cfg db a) := by
  cases a with
  | base op =>
    obtain ⟨ho, hpost, hstore⟩ := hr
    obtain ⟨new, g, hnew⟩ := ordinary_grown (cfg := cfg) hk.inv ho
    refine fundInv_ordinary hk g ?_ ?_ ?_ hd.2
    · intro x hx hs
      rcases hnew x hx with ⟨t, ht, _, hp, _, hst⟩ | rfl
      · have := hpost t ht
        cases hf : t.inflight <;> rw [hf] at this hst <;> simp at this hst
        · rw [hp]; exact this
        · rw [hst] at hs; simp at hs
      · rcases ho.1 with h | h | h <;> simp [h] at hs
    · intro x hx hh
      rcases hnew x hx with ⟨t, ht, hid, _, hp, hst⟩ | rfl
      · have := hpost t ht
        cases hf : t.inflight <;> rw [hf] at this hst <;> simp at this hst
        · unfold Txn.Holds at hh; simp [hst] at hh
        · rw [hid.1]; exact ⟨this, by omega⟩
      · exact ⟨hstore x rfl hh, ho.2⟩
    · intro x hx hq hh
      rcases hnew x hx with ⟨t, ht, hid, _, hp, hst⟩ | rfl
      · rw [hq] at hst
        cases hf : t.inflight <;> rw [hf] at hst <;> simp at hst
      · exact hd.1 x rfl hh
  | commit id amt newId ref n1 n2 =>
    have hinv := act_holdInv (cfg := cfg) hk.toHoldInv hr
    simp only [act] at hinv ⊢
    have hg : ∀ i ∈ [n1, n2], isIndicator i = false := by simp [hd.2]
    rcases commit_grown (cfg := cfg) (newId := newId) (ref := ref) (n1 := n1) (n2 := n2) (amt := amt) hk.inv
      hk.toHoldInv.remaining_nonneg with ⟨g, _⟩ | ⟨row, x, p, hrow, hid, hin, hv, g, _, _, hs, h0, hle, _⟩
    · exact fundInv_ordinary hk (grown_nil g) (by simp) (by simp) (by simp) hg
    · subst hid
      have : row.status = .inflight := by
        rcases (holds_iff _).1 hin with h | h
        · exact h
        · exact absurd (hk.queued row hrow h.1 (.inr h)) hd.1
      exact fundInv_settle hk g hinv hrow this (.inl rfl) hs hg
  | void id newId ref n1 n2 =>
    have hinv := act_holdInv (cfg := cfg) hk.toHoldInv hr
    simp only [act] at hinv ⊢
    have hg : ∀ i ∈ [n1, n2], isIndicator i = false := by simp [hd.2]
    rcases void_grown (cfg := cfg) (newId := newId) (ref := ref) (n1 := n1) (n2 := n2) hk.inv
      hk.toHoldInv.remaining_nonneg with ⟨g, _⟩ | ⟨row, x, hrow, hid, hin, hv, g, _, _, hs, h0⟩
    · exact fundInv_ordinary hk (grown_nil g) (by simp) (by simp) (by simp) hg
    · subst hid
      have : row.status = .inflight := by
        rcases (holds_iff _).1 hin with h | h
        · exact h
        · exact absurd (hk.queued row hrow h.1 (.inr h)) hd.1
      exact fundInv_settle hk g hinv hrow this (.inr rfl) hs hg

theorem acts_fundInv {cfg : Cfg} {H Q : String → Prop} {as : List Act} : ∀ {db : DB}, FundInv H Q db →
    (∀ a ∈ as, a.Respects H ∧ a.Direct Q) → FundInv H Q (acts cfg db as) := by
  induction as with
  | nil => intro db h _; exact h
  | cons a as ih =>
    intro db h hr
    exact ih (act_fundInv h (hr a (by simp)).1 (hr a (by simp)).2) (fun b hb => hr b (List.mem_cons_of_mem _ hb))

theorem init_fundInv (H Q : String → Prop) : FundInv H Q {} := by
  refine ⟨init_holdInv H, by simp, ?_, ?_, by simp, by simp [ids]⟩ <;> intro i <;> rfl

theorem le_out_of_mem {f : Txn → Int} {i : String} {r : Txn} : ∀ {l : List Txn}, (∀ t ∈ l, 0 ≤ f t) → r ∈ l → r.source = i →
    f r ≤ out f i l := by
  intro l
  induction l with
  | nil => intro _ h; simp at h
  | cons x l ih =>
    intro hf hm hs
    rw [out_cons]
    have nn : 0 ≤ out f i l := by
      apply sum_nonneg
      intro y hy
      obtain ⟨t, ht, rfl⟩ := List.mem_map.1 hy
      exact hf t (List.mem_cons_of_mem _ (List.mem_filter.1 ht).1)
    rcases List.mem_cons.1 hm with rfl | hm
    · simp [hs]; omega
    · have := ih (fun t ht => hf t (List.mem_cons_of_mem _ ht)) hm hs
      have := hf x (by simp)
      split <;> omega

theorem le_inn_of_mem {f : Txn → Int} {i : String} {r : Txn} : ∀ {l : List Txn}, (∀ t ∈ l, 0 ≤ f t) → r ∈ l → r.destination = i →
    f r ≤ inn f i l := by
  intro l
  induction l with
  | nil => intro _ h; simp at h
  | cons x l ih =>
    intro hf hm hs
    rw [inn_cons]
    have nn : 0 ≤ inn f i l := by
      apply sum_nonneg
      intro y hy
      obtain ⟨t, ht, rfl⟩ := List.mem_map.1 hy
      exact hf t (List.mem_cons_of_mem _ (List.mem_filter.1 ht).1)
    rcases List.mem_cons.1 hm with rfl | hm
    · simp [hs]; omega
    · have := ih (fun t ht => hf t (List.mem_cons_of_mem _ ht)) hm hs
      have := hf x (by simp)
      split <;> omega

theorem HoldInv.open_nonneg {H : String → Prop} {db : DB} (hk : HoldInv H db) {r : Txn} (hr : r ∈ db.txns) (hh : r.Holds) :
    0 ≤ openAmount db r := by
  have := hk.bound r hr hh
  unfold openAmount; omega

/-- The inflight columns cover every open hold. -/
theorem FundInv.covers {H Q : String → Prop} {db : DB} (hk : FundInv H Q db) {r : Txn} (hr : r ∈ db.txns)
    (hs : r.status = .inflight) :
    ∃ s d, db.find r.source = some s ∧ db.find r.destination = some d ∧
      openAmount db r ≤ s.inflightDebit ∧ openAmount db r ≤ d.inflightCredit := by
  have hacc := hk.accounts r hr hs
  obtain ⟨s, es⟩ := find_of_mem_ids hacc.1
  obtain ⟨d, ed⟩ := find_of_mem_ids hacc.2
  have nn : ∀ t ∈ db.txns, 0 ≤ heldOf db t := by
    intro t ht
    unfold heldOf
    split
    · exact hk.toHoldInv.open_nonneg ht (inflight_holds ‹_›)
    · omega
  have e : heldOf db r = openAmount db r := by simp [heldOf, hs]
  refine ⟨s, d, es, ed, ?_, ?_⟩
  · have h1 := hk.debit r.source
    have h2 := le_out_of_mem nn hr rfl
    simp only [col, es, Option.elim_some] at h1
    omega
  · have h1 := hk.credit r.destination
    have h2 := le_inn_of_mem nn hr rfl
    simp only [col, ed, Option.elim_some] at h1
    omega

theorem getTxn_of_mem {db : DB} (hi : Inv db) {r : Txn} (hr : r ∈ db.txns) :
    db.getTxn r.id = some { r with allowOverdraft := false, overdraftLimit := 0, inflight := false, atomic := false, skipQueue := false } := by
  unfold DB.getTxn
  cases hf : db.txns.find? (fun t => t.id = r.id) with
  | none =>
    rw [List.find?_eq_none] at hf
    exact absurd (by simp) (hf r hr)
  | some x =>
    have h1 := List.mem_of_find?_eq_some hf
    have h2 : x.id = r.id := by simpa using List.find?_some hf
    rw [row_unique hi h1 hr h2]; rfl

theorem resolve_plain {db : DB} {s cur n : String} (h : isIndicator s = false) : db.resolve s cur n = .ok (db, s) := by
  simp [DB.resolve, h]

end Blnk
