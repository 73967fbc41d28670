import Verif.Model.Ledger
/-
Helper lemmas about the posting paths: what one posting does to the columns of
the balances it touches, and what a row update does to column totals.
-/
namespace Blnk

/-- Sum of a column over a list of balances. -/
def total (f : Balance → Int) (l : List Balance) : Int := (l.map f).sum

@[simp] theorem total_nil (f) : total f [] = 0 := rfl
@[simp] theorem total_cons (f) (b : Balance) (l) : total f (b :: l) = f b + total f l := by
  simp [total]
@[simp] theorem total_append (f) (l m : List Balance) : total f (l ++ m) = total f l + total f m := by
  induction l with
  | nil => simp
  | cons b l ih => simp [ih]; omega

/-- Amount a transaction moves between the settled columns. -/
def regAmt (t : Txn) : Int :=
  match t.status with
  | .commit => t.applyPrecision.preciseAmount.getD 0
  | .void => 0
  | _ => if t.inflight then 0 else t.applyPrecision.preciseAmount.getD 0

/-- Amount a transaction moves between the inflight columns. -/
def inflAmt (t : Txn) : Int :=
  match t.status with
  | .commit => - t.applyPrecision.preciseAmount.getD 0
  | .void => - t.preciseAmount.getD 0
  | _ => if t.inflight then t.applyPrecision.preciseAmount.getD 0 else 0

/-- A balance whose two derived columns agree with its four movement columns. -/
def Balance.Consistent (b : Balance) : Prop :=
  b.balance = b.credit - b.debit ∧ b.inflightBalance = b.inflightCredit - b.inflightDebit

/-- Everything a posting can do to its source balance. -/
structure SrcEffect (t : Txn) (s s' : Balance) : Prop where
  id : s'.id = s.id
  version : s'.version = s.version
  currency : s'.currency = s.currency
  indicator : s'.indicator = s.indicator
  queued : s'.queuedDebit = s.queuedDebit
  credit : s'.credit = s.credit
  inflightCredit : s'.inflightCredit = s.inflightCredit
  debit : s'.debit = s.debit + regAmt t
  inflightDebit : s'.inflightDebit = s.inflightDebit + inflAmt t

/-- Everything a posting can do to its destination balance. -/
structure DstEffect (t : Txn) (d d' : Balance) : Prop where
  id : d'.id = d.id
  version : d'.version = d.version
  currency : d'.currency = d.currency
  indicator : d'.indicator = d.indicator
  queued : d'.queuedDebit = d.queuedDebit
  debit : d'.debit = d.debit
  inflightDebit : d'.inflightDebit = d.inflightDebit
  credit : d'.credit = d.credit + regAmt t
  inflightCredit : d'.inflightCredit = d.inflightCredit + inflAmt t

theorem bind_ok {ε α β : Type} {x : Except ε α} {f : α → Except ε β} {b : β} :
    (x >>= f) = .ok b ↔ ∃ a, x = .ok a ∧ f a = .ok b := by
  cases x <;> simp [bind, Except.bind]

/-- Inversion of the plain (neither commit nor void) source branch. -/
theorem applySource_plain {t : Txn} {b b' : Balance} (hc : t.status ≠ .commit) (hv : t.status ≠ .void) :
    applySource t b = .ok b' ↔
      t.applyPrecision.validate = .ok () ∧ canProcessTransaction t.applyPrecision b = .ok () ∧
      b' = b.postDebit (t.applyPrecision.preciseAmount.getD 0) t.inflight := by
  unfold applySource
  split
  · contradiction
  · contradiction
  · simp only [bind_ok, pure, Except.pure, Except.ok.injEq]
    constructor
    · rintro ⟨_, h1, _, h2, h3⟩; exact ⟨h1, h2, h3.symm⟩
    · rintro ⟨h1, h2, h3⟩; exact ⟨(), h1, (), h2, h3.symm⟩

theorem applySource_effect {t : Txn} {s s' : Balance} (h : applySource t s = .ok s') : SrcEffect t s s' := by
  by_cases hc : t.status = .commit
  · simp only [applySource, hc, Balance.commitInflightDebit] at h
    split at h
    · cases h
    · cases h
      constructor <;> simp [Balance.computeBalance, regAmt, inflAmt, hc] <;> omega
  by_cases hv : t.status = .void
  · simp only [applySource, hv] at h
    split at h
    · cases h
    · rename_i p hp
      simp only [Balance.rollbackInflightDebit] at h
      split at h
      · cases h
      · cases h
        constructor <;> simp [Balance.computeBalance, regAmt, inflAmt, hv, hp] <;> omega
  · obtain ⟨_, _, rfl⟩ := (applySource_plain hc hv).1 h
    have e1 : regAmt t = if t.inflight then 0 else t.applyPrecision.preciseAmount.getD 0 := by
      unfold regAmt; split <;> simp_all
    have e2 : inflAmt t = if t.inflight then t.applyPrecision.preciseAmount.getD 0 else 0 := by
      unfold inflAmt; split <;> simp_all
    cases hi : t.inflight <;>
      constructor <;> simp [Balance.postDebit, Balance.addDebit, Balance.computeBalance, e1, e2, hi]

theorem applyDestination_effect {t : Txn} {d d' : Balance} (h : applyDestination t d = .ok d') : DstEffect t d d' := by
  by_cases hc : t.status = .commit
  · simp only [applyDestination, hc, Balance.commitInflightCredit] at h
    split at h
    · cases h
    · cases h
      constructor <;> simp [Balance.computeBalance, regAmt, inflAmt, hc] <;> omega
  by_cases hv : t.status = .void
  · simp only [applyDestination, hv] at h
    split at h
    · cases h
    · rename_i p hp
      simp only [Balance.rollbackInflightCredit] at h
      split at h
      · cases h
      · cases h
        constructor <;> simp [Balance.computeBalance, regAmt, inflAmt, hv, hp] <;> omega
  · have h' : d' = d.postCredit (t.applyPrecision.preciseAmount.getD 0) t.inflight := by
      unfold applyDestination at h
      split at h
      · contradiction
      · contradiction
      · simpa using h.symm
    subst h'
    have e1 : regAmt t = if t.inflight then 0 else t.applyPrecision.preciseAmount.getD 0 := by
      unfold regAmt; split <;> simp_all
    have e2 : inflAmt t = if t.inflight then t.applyPrecision.preciseAmount.getD 0 else 0 := by
      unfold inflAmt; split <;> simp_all
    cases hi : t.inflight <;>
      constructor <;> simp [Balance.postCredit, Balance.addCredit, Balance.computeBalance, e1, e2, hi]

theorem applySource_consistent {t : Txn} {s s' : Balance} (h : applySource t s = .ok s')
    (hs : s.Consistent) : s'.Consistent := by
  obtain ⟨h1, h2⟩ := hs
  by_cases hc : t.status = .commit
  · simp only [applySource, hc, Balance.commitInflightDebit] at h
    split at h
    · cases h
    · cases h; simp [Balance.Consistent, Balance.computeBalance]
  by_cases hv : t.status = .void
  · simp only [applySource, hv] at h
    split at h
    · cases h
    · simp only [Balance.rollbackInflightDebit] at h
      split at h
      · cases h
      · cases h; simp [Balance.Consistent, Balance.computeBalance, h1]
  · obtain ⟨_, _, rfl⟩ := (applySource_plain hc hv).1 h
    cases hi : t.inflight <;>
      simp [Balance.Consistent, Balance.postDebit, Balance.addDebit, Balance.computeBalance, h1, h2]

theorem applyDestination_consistent {t : Txn} {s s' : Balance} (h : applyDestination t s = .ok s')
    (hs : s.Consistent) : s'.Consistent := by
  obtain ⟨h1, h2⟩ := hs
  by_cases hc : t.status = .commit
  · simp only [applyDestination, hc, Balance.commitInflightCredit] at h
    split at h
    · cases h
    · cases h; simp [Balance.Consistent, Balance.computeBalance]
  by_cases hv : t.status = .void
  · simp only [applyDestination, hv] at h
    split at h
    · cases h
    · simp only [Balance.rollbackInflightCredit] at h
      split at h
      · cases h
      · cases h; simp [Balance.Consistent, Balance.computeBalance, h1]
  · have h' : s' = s.postCredit (t.applyPrecision.preciseAmount.getD 0) t.inflight := by
      unfold applyDestination at h
      split at h
      · contradiction
      · contradiction
      · simpa using h.symm
    subst h'
    cases hi : t.inflight <;>
      simp [Balance.Consistent, Balance.postCredit, Balance.addCredit, Balance.computeBalance, h1, h2]

theorem applyToBalances_inv {t : Txn} {s d s' d' : Balance} (h : applyToBalances t s d = .ok (s', d')) :
    applySource t s = .ok s' ∧ applyDestination t d = .ok d' := by
  simp only [applyToBalances, bind_ok, pure, Except.pure, Except.ok.injEq, Prod.mk.injEq] at h
  obtain ⟨a, ha, b, hb, rfl, rfl⟩ := h
  exact ⟨ha, hb⟩

theorem applyToAliased_inv {t : Txn} {b b' : Balance} (h : applyToAliased t b = .ok b') :
    ∃ m, applySource t b = .ok m ∧ applyDestination t m = .ok b' := by
  simpa only [applyToAliased, bind_ok] using h

/-! ### Row updates -/

/-- Ids of a list of balances. -/
abbrev ids (l : List Balance) : List String := l.map (·.id)

/-- Column functions an update can change. -/
def Balance.writeBack (r b : Balance) : Balance :=
  { r with balance := b.balance, credit := b.credit, debit := b.debit,
           inflightBalance := b.inflightBalance, inflightCredit := b.inflightCredit,
           inflightDebit := b.inflightDebit, currency := b.currency,
           version := r.version + 1 }

theorem eq_of_mem_ids {l : List Balance} (hn : (ids l).Nodup) {a b : Balance}
    (ha : a ∈ l) (hb : b ∈ l) (h : a.id = b.id) : a = b := by
  induction l with
  | nil => cases ha
  | cons x l ih =>
    simp only [ids, List.map_cons, List.nodup_cons, List.mem_map, not_exists, not_and] at hn
    rcases List.mem_cons.1 ha with rfl | ha' <;> rcases List.mem_cons.1 hb with rfl | hb'
    · rfl
    · exact absurd h.symm (hn.1 b hb')
    · exact absurd h (hn.1 a ha')
    · exact ih hn.2 ha' hb'

theorem find_of_mem {l : List Balance} (hn : (ids l).Nodup) {a : Balance} (ha : a ∈ l) :
    l.find? (fun b => b.id = a.id) = some a := by
  cases h : l.find? (fun b => b.id = a.id) with
  | none => simp at h; exact absurd rfl (h a ha)
  | some x =>
    have h1 := List.mem_of_find?_eq_some h
    have h2 := List.find?_some h
    simp at h2
    rw [eq_of_mem_ids hn h1 ha h2]

theorem total_replace (f : Balance → Int) {l : List Balance} (hn : (ids l).Nodup)
    {r : Balance} (hr : r ∈ l) (g : Balance → Balance) (p : Balance → Bool)
    (hp : ∀ x ∈ l, p x = true ↔ x = r) :
    total f (l.map fun x => if p x then g x else x) = total f l - f r + f (g r) := by
  induction l with
  | nil => cases hr
  | cons x l ih =>
    simp only [ids, List.map_cons, List.nodup_cons] at hn
    simp only [List.map_cons, total_cons]
    rcases List.mem_cons.1 hr with rfl | hr'
    · have hx : p r = true := (hp r (List.mem_cons_self)).2 rfl
      have hrest : (l.map fun x => if p x then g x else x) = l := by
        rw [List.map_congr_left (g := id)]
        · simp
        · intro a ha
          have : ¬ p a = true := by
            intro hpa
            have := (hp a (List.mem_cons_of_mem _ ha)).1 hpa
            subst this
            exact hn.1 (List.mem_map.2 ⟨_, ha, rfl⟩)
          simp [this]
      rw [hrest, hx]; simp only [if_true]; omega
    · have hx : ¬ p x = true := by
        intro hpx
        have := (hp x (List.mem_cons_self)).1 hpx
        subst this
        exact hn.1 (List.mem_map.2 ⟨_, hr', rfl⟩)
      rw [ih hn.2 hr' (fun a ha => hp a (List.mem_cons_of_mem _ ha))]
      simp [hx]; omega

/-- Inversion of a successful `updateRow`. -/
theorem updateRow_ok {rows rows' : List Balance} {b : Balance} (h : updateRow rows b = .ok rows') :
    ∃ r ∈ rows, r.id = b.id ∧ r.version = b.version ∧
      rows' = rows.map (fun x => if x.id = b.id && x.version = b.version then x.writeBack b else x) := by
  unfold updateRow at h
  split at h
  · rename_i hany
    rw [List.any_eq_true] at hany
    obtain ⟨r, hr, hrb⟩ := hany
    simp at hrb
    refine ⟨r, hr, hrb.1, hrb.2, ?_⟩
    simpa [Balance.writeBack] using (Except.ok.inj h).symm
  · cases h

theorem updateRow_ids {rows rows' : List Balance} {b : Balance} (h : updateRow rows b = .ok rows') :
    ids rows' = ids rows := by
  obtain ⟨r, hr, h1, h2, rfl⟩ := updateRow_ok h
  simp only [ids, List.map_map]
  apply List.map_congr_left
  intro a _
  simp only [Function.comp]
  split <;> rfl

theorem updateRow_total (f : Balance → Int) {rows rows' : List Balance} {b : Balance}
    (hn : (ids rows).Nodup) (h : updateRow rows b = .ok rows') :
    ∃ r ∈ rows, r.id = b.id ∧ r.version = b.version ∧
      total f rows' = total f rows - f r + f (r.writeBack b) := by
  obtain ⟨r, hr, h1, h2, rfl⟩ := updateRow_ok h
  refine ⟨r, hr, h1, h2, ?_⟩
  apply total_replace f hn hr
  intro x hx
  constructor
  · intro hp
    simp at hp
    exact eq_of_mem_ids hn hx hr (hp.1.trans h1.symm)
  · rintro rfl; simp [h1, h2]

theorem updateRow_other {rows rows' : List Balance} {b : Balance}
    (h : updateRow rows b = .ok rows') {x : Balance} (hx : x ∈ rows) (hid : x.id ≠ b.id) : x ∈ rows' := by
  obtain ⟨r, hr, h1, h2, rfl⟩ := updateRow_ok h
  refine List.mem_map.2 ⟨x, hx, ?_⟩
  simp [hid]

theorem updateRow_other' {rows rows' : List Balance} {b : Balance}
    (h : updateRow rows b = .ok rows') {x : Balance} (hx : x ∈ rows') (hid : x.id ≠ b.id) : x ∈ rows := by
  obtain ⟨r, hr, h1, h2, rfl⟩ := updateRow_ok h
  obtain ⟨y, hy, rfl⟩ := List.mem_map.1 hx
  split at hid
  · rename_i hc; simp at hc; simp [Balance.writeBack, hc.1] at hid
  · split
    · rename_i h1 h2; exact absurd h2 h1
    · exact hy

/-- Membership after an update: each new row is an untouched old row or the
written-back one. -/
theorem updateRow_mem {rows rows' : List Balance} {b : Balance}
    (hn : (ids rows).Nodup) (h : updateRow rows b = .ok rows') {x : Balance} (hx : x ∈ rows') :
    (x ∈ rows ∧ x.id ≠ b.id) ∨ ∃ r ∈ rows, r.id = b.id ∧ r.version = b.version ∧ x = r.writeBack b := by
  obtain ⟨r, hr, h1, h2, rfl⟩ := updateRow_ok h
  obtain ⟨y, hy, rfl⟩ := List.mem_map.1 hx
  by_cases hc : (y.id = b.id && y.version = b.version) = true
  · simp only [hc, if_true]
    simp at hc
    exact .inr ⟨y, hy, hc.1, hc.2, rfl⟩
  · simp only [hc]
    refine .inl ⟨hy, ?_⟩
    intro hid
    have := eq_of_mem_ids hn hy hr (hid.trans h1.symm)
    subst this
    simp [h1, h2] at hc

end Blnk
