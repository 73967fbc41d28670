import Verif.Lemmas.Growth
/-
Invariants of holds: what was committed and released of a hold never exceeds it.
-/
namespace Blnk

/-- Sum over the stored rows with this parent and status. -/
def kidSum (st : Status) (db : DB) (h : String) : Int :=
  ((db.txns.filter (fun t => t.parent = h && t.status = st)).map pay).sum

/-- Amount of a hold committed so far: applied rows whose parent it is. -/
def committed (db : DB) (h : String) : Int := kidSum .applied db h

/-- Amount of a hold released so far: void rows whose parent it is. -/
def released (db : DB) (h : String) : Int := kidSum .void db h

/-- A row the service treats as a hold. -/
def Txn.Holds (r : Txn) : Prop := r.status = .inflight ∨ (r.status = .queued ∧ r.metaInflight = some true)

theorem holds_iff (r : Txn) : isInflightTxn r = true ↔ r.Holds := by
  simp [isInflightTxn, Txn.Holds]

/-- A step that respects the set `H` of hold ids: every hold has its id in `H`, and only
holds and settlements name a member of `H` as parent. -/
def Act.Respects (H : String → Prop) : Act → Prop
  | .base op => op.Ordinary ∧ (∀ t ∈ op.posts, if t.inflight then H t.id else ¬ H t.parent) ∧
      ∀ t, op = .store t → t.Holds → H t.id
  | _ => True

/-- Invariant of a ledger with holds. -/
structure HoldInv (H : String → Prop) (db : DB) : Prop where
  inv : Inv db
  known : ∀ r ∈ db.txns, r.Holds → H r.id
  kids : ∀ c ∈ db.txns, c.status = .applied ∨ c.status = .void → H c.parent →
    0 < pay c ∧ ∃ r ∈ db.txns, r.id = c.parent ∧ r.Holds
  bound : ∀ r ∈ db.txns, r.Holds → committed db r.id + released db r.id ≤ pay r
  closed : ∀ r ∈ db.txns, r.Holds → db.parentVoid r.id = true → committed db r.id + released db r.id = pay r

theorem kidSum_append {st : Status} {db db' : DB} {new : List Txn} (h : db'.txns = db.txns ++ new) (i : String) :
    kidSum st db' i = kidSum st db i + ((new.filter (fun t => t.parent = i && t.status = st)).map pay).sum := by
  unfold kidSum; rw [h]; simp

theorem kidSum_same {st : Status} {db db' : DB} {new : List Txn} (h : db'.txns = db.txns ++ new) {i : String}
    (hn : ∀ x ∈ new, x.status = st → x.parent ≠ i) : kidSum st db' i = kidSum st db i := by
  rw [kidSum_append h, List.filter_eq_nil_iff.2]
  · simp
  · intro x hx; simp only [Bool.and_eq_true, decide_eq_true_eq, not_and]
    intro h1 h2; exact hn x hx h2 h1

theorem kidSum_zero {st : Status} {db : DB} {i : String} (h : ∀ x ∈ db.txns, x.status = st → x.parent ≠ i) :
    kidSum st db i = 0 := by
  unfold kidSum
  rw [List.filter_eq_nil_iff.2]
  · rfl
  · intro x hx; simp only [Bool.and_eq_true, decide_eq_true_eq, not_and]
    intro h1 h2; exact h x hx h2 h1

theorem kidSum_one {st : Status} {db db' : DB} {x : Txn} (h : db'.txns = db.txns ++ [x]) (hs : x.status = st) :
    kidSum st db' x.parent = kidSum st db x.parent + pay x := by
  rw [kidSum_append h]; simp [hs]

theorem kidSum_nonneg {H : String → Prop} {db : DB} (hk : HoldInv H db) {st : Status} (hst : st = .applied ∨ st = .void)
    {i : String} (hi : H i) : 0 ≤ kidSum st db i := by
  unfold kidSum
  apply sum_nonneg
  intro y hy
  obtain ⟨c, hc, rfl⟩ := List.mem_map.1 hy
  rw [List.mem_filter] at hc
  simp only [Bool.and_eq_true, decide_eq_true_eq] at hc
  have := (hk.kids c hc.1 (by rw [hc.2.2]; exact hst) (by rw [hc.2.1]; exact hi)).1
  omega

theorem parentVoid_false {db : DB} {i : String} : db.parentVoid i = false ↔ ∀ x ∈ db.txns, x.status = .void → x.parent ≠ i := by
  unfold DB.parentVoid
  rw [List.any_eq_false]
  simp only [Bool.and_eq_true, decide_eq_true_eq, not_and]
  exact ⟨fun h x hx h1 h2 => h x hx h2 h1, fun h x hx h1 h2 => h x hx h2 h1⟩

theorem totalCommitted_eq (db : DB) (i : String) : db.totalCommitted i = committed db i := rfl

theorem row_unique {db : DB} (hi : Inv db) {a b : Txn} (ha : a ∈ db.txns) (hb : b ∈ db.txns) (h : a.id = b.id) : a = b := by
  have hn := hi.unique.txnIds
  revert ha hb hn
  generalize db.txns = l
  induction l with
  | nil => intro ha; simp at ha
  | cons x l ih =>
    intro ha hb hn
    simp only [List.map_cons, List.nodup_cons] at hn
    rcases List.mem_cons.1 ha with e1 | h1 <;> rcases List.mem_cons.1 hb with e2 | h2
    · rw [e1, e2]
    · exact absurd (List.mem_map.2 ⟨b, h2, by rw [← h, e1]⟩) hn.1
    · exact absurd (List.mem_map.2 ⟨a, h1, by rw [h, e2]⟩) hn.1
    · exact ih h1 h2 hn.2

theorem new_id {db db' : DB} {new : List Txn} (hi' : Inv db') (h : db'.txns = db.txns ++ new) {r x : Txn}
    (hr : r ∈ db.txns) (hx : x ∈ new) : r.id ≠ x.id := by
  have hn := hi'.unique.txnIds
  rw [h, List.map_append, List.nodup_append] at hn
  exact hn.2.2 _ (List.mem_map.2 ⟨r, hr, rfl⟩) _ (List.mem_map.2 ⟨x, hx, rfl⟩)

/-- Rows other than settlements of members of `H` keep the invariant. -/
theorem holdInv_ordinary {H : String → Prop} {db db' : DB} {new : List Txn} (hk : HoldInv H db) (hi' : Inv db')
    (ht : db'.txns = db.txns ++ new)
    (h1 : ∀ x ∈ new, x.status = .applied ∨ x.status = .void → ¬ H x.parent)
    (h2 : ∀ x ∈ new, x.Holds → H x.id ∧ 0 ≤ pay x) : HoldInv H db' := by
  have hsame : ∀ i, H i → committed db' i = committed db i ∧ released db' i = released db i := by
    intro i hi
    constructor
    · exact kidSum_same ht (fun x hx hs he => h1 x hx (.inl hs) (he ▸ hi))
    · exact kidSum_same ht (fun x hx hs he => h1 x hx (.inr hs) (he ▸ hi))
  have hvoid : ∀ i, H i → db'.parentVoid i = db.parentVoid i := by
    intro i hi
    unfold DB.parentVoid
    rw [ht, List.any_append]
    have : new.any (fun t => t.parent = i && t.status = .void) = false := by
      rw [List.any_eq_false]
      intro x hx
      simp only [Bool.and_eq_true, decide_eq_true_eq, not_and]
      intro he hs; exact h1 x hx (.inr hs) (he ▸ hi)
    rw [this]; simp
  have hfresh : ∀ x ∈ new, x.Holds → committed db x.id = 0 ∧ released db x.id = 0 ∧ db.parentVoid x.id = false := by
    intro x hx hh
    have hH := (h2 x hx hh).1
    have key : ∀ c ∈ db.txns, c.status = .applied ∨ c.status = .void → c.parent ≠ x.id := by
      intro c hc hs he
      obtain ⟨_, r, hr, hid, _⟩ := hk.kids c hc hs (he ▸ hH)
      exact new_id hi' ht hr hx (hid.trans he)
    exact ⟨kidSum_zero (fun c hc hs => key c hc (.inl hs)), kidSum_zero (fun c hc hs => key c hc (.inr hs)),
      parentVoid_false.2 (fun c hc hs => key c hc (.inr hs))⟩
  refine ⟨hi', ?_, ?_, ?_, ?_⟩
  · intro r hr hh
    rw [ht] at hr
    rcases List.mem_append.1 hr with hr | hr
    · exact hk.known r hr hh
    · exact (h2 r hr hh).1
  · intro c hc hs hp
    rw [ht] at hc
    rcases List.mem_append.1 hc with hc | hc
    · obtain ⟨p, r, hr, e⟩ := hk.kids c hc hs hp
      exact ⟨p, r, by rw [ht]; exact List.mem_append_left _ hr, e⟩
    · exact absurd hp (h1 c hc hs)
  · intro r hr hh
    rw [ht] at hr
    rcases List.mem_append.1 hr with hr | hr
    · have := hsame r.id (hk.known r hr hh)
      rw [this.1, this.2]; exact hk.bound r hr hh
    · have := hsame r.id (h2 r hr hh).1
      obtain ⟨z1, z2, _⟩ := hfresh r hr hh
      rw [this.1, this.2, z1, z2]
      have := (h2 r hr hh).2; omega
  · intro r hr hh hv
    rw [ht] at hr
    rcases List.mem_append.1 hr with hr | hr
    · have := hsame r.id (hk.known r hr hh)
      rw [this.1, this.2]
      rw [hvoid _ (hk.known r hr hh)] at hv
      exact hk.closed r hr hh hv
    · rw [hvoid _ (h2 r hr hh).1, (hfresh r hr hh).2.2] at hv
      cases hv

/-- A settlement row within the remainder keeps the invariant. -/
theorem holdInv_settle {H : String → Prop} {db db' : DB} {row x : Txn} {p : Int} (hk : HoldInv H db) (hi' : Inv db')
    (ht : db'.txns = db.txns ++ [x]) (hrow : row ∈ db.txns) (hh : row.Holds) (hv : db.parentVoid row.id = false)
    (hs : x.status = .applied ∨ x.status = .void) (hpar : x.parent = row.id) (hp : pay x = p) (h0 : 0 < p)
    (hle : p ≤ pay row - committed db row.id) (hvo : x.status = .void → p = pay row - committed db row.id) :
    HoldInv H db' := by
  have hnx : ¬ x.Holds := by
    unfold Txn.Holds; rcases hs with h | h <;> simp [h]
  have hrel0 : released db row.id = 0 := kidSum_zero (fun c hc hcs => parentVoid_false.1 hv c hc hcs)
  have hmem : ∀ r ∈ db'.txns, r.Holds → r ∈ db.txns := by
    intro r hr hrh
    rw [ht] at hr
    rcases List.mem_append.1 hr with hr | hr
    · exact hr
    · simp at hr; subst hr; exact absurd hrh hnx
  have hother : ∀ i, i ≠ row.id → committed db' i = committed db i ∧ released db' i = released db i ∧
      db'.parentVoid i = db.parentVoid i := by
    intro i hi
    refine ⟨kidSum_same ht (by simp [hpar]; intro _ he; exact hi he.symm),
      kidSum_same ht (by simp [hpar]; intro _ he; exact hi he.symm), ?_⟩
    unfold DB.parentVoid
    rw [ht, List.any_append]
    have : ¬ x.parent = i := by rw [hpar]; exact fun h => hi h.symm
    simp [this]
  have hsum : committed db' row.id + released db' row.id = committed db row.id + p := by
    rcases hs with h | h
    · have e1 : committed db' x.parent = committed db x.parent + pay x := kidSum_one ht h
      have e2 : released db' row.id = released db row.id := kidSum_same ht (by simp [h])
      rw [hpar] at e1; omega
    · have e1 : released db' x.parent = released db x.parent + pay x := kidSum_one ht h
      have e2 : committed db' row.id = committed db row.id := kidSum_same ht (by simp [h])
      rw [hpar] at e1; omega
  refine ⟨hi', fun r hr hrh => hk.known r (hmem r hr hrh) hrh, ?_, ?_, ?_⟩
  · intro c hc hcs hp'
    rw [ht] at hc ⊢
    rcases List.mem_append.1 hc with hc | hc
    · obtain ⟨q, r, hr, e⟩ := hk.kids c hc hcs hp'
      exact ⟨q, r, List.mem_append_left _ hr, e⟩
    · simp at hc; subst hc
      exact ⟨by omega, row, List.mem_append_left _ hrow, hpar.symm, hh⟩
  · intro r hr hrh
    have hr' := hmem r hr hrh
    by_cases he : r.id = row.id
    · have : r = row := row_unique hk.inv hr' hrow he
      subst this; omega
    · have := hother r.id he
      rw [this.1, this.2.1]; exact hk.bound r hr' hrh
  · intro r hr hrh hpv
    have hr' := hmem r hr hrh
    by_cases he : r.id = row.id
    · have : r = row := row_unique hk.inv hr' hrow he
      subst this
      have hxv : x.status = .void := by
        rcases hs with h | h
        · exfalso
          have : db'.parentVoid r.id = false := by
            rw [parentVoid_false, ht]
            intro c hc hcs
            rcases List.mem_append.1 hc with hc | hc
            · exact parentVoid_false.1 hv c hc hcs
            · simp at hc; subst hc; rw [h] at hcs; cases hcs
          rw [this] at hpv; cases hpv
        · exact h
      have := hvo hxv
      omega
    · have := hother r.id he
      rw [this.2.2] at hpv
      rw [this.1, this.2.1]; exact hk.closed r hr' hrh hpv

theorem HoldInv.remaining_nonneg {H : String → Prop} {db : DB} (hk : HoldInv H db) {h : String} :
    ∀ r ∈ db.txns, r.id = h → isInflightTxn r = true → db.parentVoid h = false → 0 ≤ pay r - db.totalCommitted h := by
  intro r hr hid hin _
  have hh := (holds_iff r).1 hin
  have b := hk.bound r hr hh
  have n := kidSum_nonneg hk (st := .void) (.inr rfl) (hk.known r hr hh)
  rw [totalCommitted_eq, ← hid]
  have : released db r.id = kidSum .void db r.id := rfl
  omega

theorem ordinary_holdInv {cfg : Cfg} {H : String → Prop} {db : DB} {op : Op} (hk : HoldInv H db)
    (hr : (Act.base op).Respects H) : HoldInv H (step cfg db op).1 := by
  obtain ⟨ho, hpost, hstore⟩ := hr
  obtain ⟨new, g, hnew⟩ := ordinary_grown (cfg := cfg) hk.inv ho
  refine holdInv_ordinary hk g.inv g.txns ?_ ?_
  · intro x hx hs
    rcases hnew x hx with ⟨t, ht, _, hp, _, hst⟩ | rfl
    · have := hpost t ht
      cases hf : t.inflight <;> rw [hf] at this hst <;> simp at this hst
      · rw [hp]; exact this
      · rw [hst] at hs; simp at hs
    · rcases ho.1 with h | h | h <;> simp [h] at hs
  · intro x hx hh
    rcases hnew x hx with ⟨t, ht, hid, _, hp, hst⟩ | rfl
    · have := hpost t ht
      cases hf : t.inflight <;> rw [hf] at this hst <;> simp at this hst
      · unfold Txn.Holds at hh; simp [hst] at hh
      · rw [hid.1]; exact ⟨this, by omega⟩
    · exact ⟨hstore x rfl hh, ho.2⟩

theorem act_holdInv {cfg : Cfg} {H : String → Prop} {db : DB} {a : Act} (hk : HoldInv H db) (hr : a.Respects H) :
    HoldInv H (act cfg db a) := by
  cases a with
  | base op => exact ordinary_holdInv hk hr
  | commit id amt newId ref n1 n2 =>
    simp only [act]
    rcases commit_grown (cfg := cfg) (newId := newId) (ref := ref) (n1 := n1) (n2 := n2) (amt := amt) hk.inv hk.remaining_nonneg with
      ⟨g, _⟩ | ⟨row, x, p, hrow, hid, hin, hv, g, _, _, hs, h0, hle, _⟩
    · exact holdInv_ordinary hk g.inv g.txns (by simp) (by simp)
    · subst hid
      refine holdInv_settle hk g.inv g.txns hrow ((holds_iff _).1 hin) hv (.inl hs.status) hs.parent (p := p) ?_ h0 hle ?_
      · simp [pay, hs.amount]
      · rw [hs.status]; simp
  | void id newId ref n1 n2 =>
    simp only [act]
    rcases void_grown (cfg := cfg) (newId := newId) (ref := ref) (n1 := n1) (n2 := n2) hk.inv hk.remaining_nonneg with
      ⟨g, _⟩ | ⟨row, x, hrow, hid, hin, hv, g, _, _, hs, h0⟩
    · exact holdInv_ordinary hk g.inv g.txns (by simp) (by simp)
    · subst hid
      refine holdInv_settle hk g.inv g.txns hrow ((holds_iff _).1 hin) hv (.inr hs.status) hs.parent
        (p := pay row - db.totalCommitted row.id) ?_ h0 (by rw [totalCommitted_eq]; omega) ?_
      · simp [pay, hs.amount]
      · intro _; rfl

theorem acts_holdInv {cfg : Cfg} {H : String → Prop} {as : List Act} : ∀ {db : DB}, HoldInv H db →
    (∀ a ∈ as, a.Respects H) → HoldInv H (acts cfg db as) := by
  induction as with
  | nil => intro db h _; exact h
  | cons a as ih =>
    intro db h hr
    exact ih (act_holdInv h (hr a (by simp))) (fun b hb => hr b (List.mem_cons_of_mem _ hb))

theorem init_holdInv (H : String → Prop) : HoldInv H {} :=
  ⟨init_inv, by simp, by simp, by simp, by simp⟩

/-- Stored rows are never changed or removed. -/
theorem act_prefix {cfg : Cfg} {H : String → Prop} {db : DB} {a : Act} (hk : HoldInv H db) (hr : a.Respects H) :
    ∃ new, (act cfg db a).txns = db.txns ++ new := by
  cases a with
  | base op =>
    obtain ⟨new, g, _⟩ := ordinary_grown (cfg := cfg) hk.inv hr.1
    exact ⟨new, g.txns⟩
  | commit id amt newId ref n1 n2 =>
    rcases commit_grown (cfg := cfg) (newId := newId) (ref := ref) (n1 := n1) (n2 := n2) (amt := amt) hk.inv hk.remaining_nonneg with
      ⟨g, _⟩ | ⟨row, x, p, _, _, _, _, g, _⟩
    · exact ⟨_, g.txns⟩
    · exact ⟨_, g.txns⟩
  | void id newId ref n1 n2 =>
    rcases void_grown (cfg := cfg) (newId := newId) (ref := ref) (n1 := n1) (n2 := n2) hk.inv hk.remaining_nonneg with
      ⟨g, _⟩ | ⟨row, x, _, _, _, _, g, _⟩
    · exact ⟨_, g.txns⟩
    · exact ⟨_, g.txns⟩

theorem acts_prefix {cfg : Cfg} {H : String → Prop} {as : List Act} : ∀ {db : DB}, HoldInv H db →
    (∀ a ∈ as, a.Respects H) → ∃ new, (acts cfg db as).txns = db.txns ++ new := by
  induction as with
  | nil => intro db _ _; exact ⟨[], by simp [acts]⟩
  | cons a as ih =>
    intro db h hr
    obtain ⟨n1, e1⟩ := act_prefix (cfg := cfg) h (hr a (by simp))
    obtain ⟨n2, e2⟩ := ih (act_holdInv (cfg := cfg) h (hr a (by simp))) (fun b hb => hr b (List.mem_cons_of_mem _ hb))
    exact ⟨n1 ++ n2, by rw [acts, e2, e1, List.append_assoc]⟩

theorem acts_append {cfg : Cfg} {as bs : List Act} : ∀ {db : DB}, acts cfg db (as ++ bs) = acts cfg (acts cfg db as) bs := by
  induction as with
  | nil => intro db; rfl
  | cons a as ih => intro db; exact ih

end Blnk
