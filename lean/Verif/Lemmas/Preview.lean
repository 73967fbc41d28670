import Verif.Model.Preview
import Verif.Lemmas.Complete
import Verif.Lemmas.Growth
/-
Helper lemmas for dry runs: what a posting reads of a transaction and of its balances, and how
identifiers keep naming the same balances while a sequence of postings runs.
-/
namespace Blnk.Preview

/-! ### The figures of a balance -/

/-- Specification: the six amounts of a balance. -/
structure Figures where
  balance : Int
  credit : Int
  debit : Int
  inflightBalance : Int
  inflightCredit : Int
  inflightDebit : Int
deriving DecidableEq, Repr

def figures (b : Balance) : Figures :=
  ⟨b.balance, b.credit, b.debit, b.inflightBalance, b.inflightCredit, b.inflightDebit⟩

/-- Everything but the figures and the queued total of `c`, those of `b`. -/
def dress (c b : Balance) : Balance :=
  { b with id := c.id, currency := c.currency, indicator := c.indicator, version := c.version }

theorem dress_of {a b : Balance} (h : figures a = figures b) (q : a.queuedDebit = b.queuedDebit) : a = dress a b := by
  cases a; cases b; simp_all [figures, dress]

theorem figures_dress (c b : Balance) : figures (dress c b) = figures b := rfl

theorem available_dress (c b : Balance) : (dress c b).available = b.available := rfl

theorem postDebit_dress (c b : Balance) (a : Int) (i : Bool) : (dress c b).postDebit a i = dress c (b.postDebit a i) := by
  cases i <;> rfl

theorem postCredit_dress (c b : Balance) (a : Int) (i : Bool) : (dress c b).postCredit a i = dress c (b.postCredit a i) := by
  cases i <;> rfl

theorem can_dress (t : Txn) (c b : Balance) : canProcessTransaction t (dress c b) = canProcessTransaction t b := rfl

theorem commitInflightDebit_dress (c b : Balance) (a : Int) : (dress c b).commitInflightDebit a = (b.commitInflightDebit a).map (dress c) := by
  unfold Balance.commitInflightDebit
  by_cases h : b.inflightDebit < a
  · rw [if_pos (c := (dress c b).inflightDebit < a) h, if_pos h]; rfl
  · rw [if_neg (c := (dress c b).inflightDebit < a) h, if_neg h]; rfl

theorem commitInflightDebit_queued (b : Balance) (a : Int) (q : Option Int) :
    ({ b with queuedDebit := q } : Balance).commitInflightDebit a = (b.commitInflightDebit a).map (fun x => { x with queuedDebit := q }) := by
  unfold Balance.commitInflightDebit
  by_cases h : b.inflightDebit < a
  · rw [if_pos (c := ({ b with queuedDebit := q } : Balance).inflightDebit < a) h, if_pos h]; rfl
  · rw [if_neg (c := ({ b with queuedDebit := q } : Balance).inflightDebit < a) h, if_neg h]; rfl

theorem commitInflightCredit_dress (c b : Balance) (a : Int) : (dress c b).commitInflightCredit a = (b.commitInflightCredit a).map (dress c) := by
  unfold Balance.commitInflightCredit
  by_cases h : b.inflightCredit < a
  · rw [if_pos (c := (dress c b).inflightCredit < a) h, if_pos h]; rfl
  · rw [if_neg (c := (dress c b).inflightCredit < a) h, if_neg h]; rfl

theorem commitInflightCredit_queued (b : Balance) (a : Int) (q : Option Int) :
    ({ b with queuedDebit := q } : Balance).commitInflightCredit a = (b.commitInflightCredit a).map (fun x => { x with queuedDebit := q }) := by
  unfold Balance.commitInflightCredit
  by_cases h : b.inflightCredit < a
  · rw [if_pos (c := ({ b with queuedDebit := q } : Balance).inflightCredit < a) h, if_pos h]; rfl
  · rw [if_neg (c := ({ b with queuedDebit := q } : Balance).inflightCredit < a) h, if_neg h]; rfl

theorem rollbackInflightDebit_dress (c b : Balance) (a : Int) : (dress c b).rollbackInflightDebit a = (b.rollbackInflightDebit a).map (dress c) := by
  unfold Balance.rollbackInflightDebit
  by_cases h : b.inflightDebit < a
  · rw [if_pos (c := (dress c b).inflightDebit < a) h, if_pos h]; rfl
  · rw [if_neg (c := (dress c b).inflightDebit < a) h, if_neg h]; rfl

theorem rollbackInflightDebit_queued (b : Balance) (a : Int) (q : Option Int) :
    ({ b with queuedDebit := q } : Balance).rollbackInflightDebit a = (b.rollbackInflightDebit a).map (fun x => { x with queuedDebit := q }) := by
  unfold Balance.rollbackInflightDebit
  by_cases h : b.inflightDebit < a
  · rw [if_pos (c := ({ b with queuedDebit := q } : Balance).inflightDebit < a) h, if_pos h]; rfl
  · rw [if_neg (c := ({ b with queuedDebit := q } : Balance).inflightDebit < a) h, if_neg h]; rfl

theorem rollbackInflightCredit_dress (c b : Balance) (a : Int) : (dress c b).rollbackInflightCredit a = (b.rollbackInflightCredit a).map (dress c) := by
  unfold Balance.rollbackInflightCredit
  by_cases h : b.inflightCredit < a
  · rw [if_pos (c := (dress c b).inflightCredit < a) h, if_pos h]; rfl
  · rw [if_neg (c := (dress c b).inflightCredit < a) h, if_neg h]; rfl

theorem rollbackInflightCredit_queued (b : Balance) (a : Int) (q : Option Int) :
    ({ b with queuedDebit := q } : Balance).rollbackInflightCredit a = (b.rollbackInflightCredit a).map (fun x => { x with queuedDebit := q }) := by
  unfold Balance.rollbackInflightCredit
  by_cases h : b.inflightCredit < a
  · rw [if_pos (c := ({ b with queuedDebit := q } : Balance).inflightCredit < a) h, if_pos h]; rfl
  · rw [if_neg (c := ({ b with queuedDebit := q } : Balance).inflightCredit < a) h, if_neg h]; rfl

/-- The source side looks at the figures and the queued total only. -/
theorem applySource_dress (t : Txn) (c b : Balance) :
    applySource t (dress c b) = (applySource t b).map (dress c) := by
  unfold applySource
  split
  · exact commitInflightDebit_dress _ _ _
  · split
    · rfl
    · exact rollbackInflightDebit_dress _ _ _
  · simp only [can_dress, postDebit_dress]
    cases t.applyPrecision.validate with
    | error e => rfl
    | ok u =>
      cases canProcessTransaction t.applyPrecision b with
      | error e => rfl
      | ok u => rfl

theorem applyDestination_dress (t : Txn) (c b : Balance) :
    applyDestination t (dress c b) = (applyDestination t b).map (dress c) := by
  unfold applyDestination
  split
  · exact commitInflightCredit_dress _ _ _
  · split
    · rfl
    · exact rollbackInflightCredit_dress _ _ _
  · simp only [postCredit_dress]; rfl

/-- The destination side does not even look at the queued total. -/
theorem applyDestination_queued (t : Txn) (b : Balance) (q : Option Int) :
    applyDestination t { b with queuedDebit := q } = (applyDestination t b).map (fun x => { x with queuedDebit := q }) := by
  unfold applyDestination
  split
  · exact commitInflightCredit_queued _ _ _
  · split
    · rfl
    · exact rollbackInflightCredit_queued _ _ _
  · cases t.inflight <;> rfl

/-- Settling a hold does not look at the queued total. -/
theorem applySource_queued {t : Txn} (h : t.status = .commit ∨ t.status = .void) (b : Balance) (q : Option Int) :
    applySource t { b with queuedDebit := q } = (applySource t b).map (fun x => { x with queuedDebit := q }) := by
  unfold applySource
  split
  · exact commitInflightDebit_queued _ _ _
  · split
    · rfl
    · exact rollbackInflightDebit_queued _ _ _
  · rename_i a b; rcases h with h | h
    · exact absurd h a
    · exact absurd h b

theorem source_same {t : Txn} {a b : Balance} (h : figures a = figures b) (q : a.queuedDebit = b.queuedDebit) :
    (applySource t a).map figures = (applySource t b).map figures := by
  rw [dress_of h q, applySource_dress]
  cases applySource t b <;> rfl

theorem destination_same {t : Txn} {a b : Balance} (h : figures a = figures b) :
    (applyDestination t a).map figures = (applyDestination t b).map figures := by
  have e : a = dress a { b with queuedDebit := a.queuedDebit } := dress_of h rfl
  rw [e, applyDestination_dress, applyDestination_queued]
  cases applyDestination t b <;> rfl

theorem settle_source_same {t : Txn} (ht : t.status = .commit ∨ t.status = .void) {a b : Balance} (h : figures a = figures b) :
    (applySource t a).map figures = (applySource t b).map figures := by
  have e : a = dress a { b with queuedDebit := a.queuedDebit } := dress_of h rfl
  rw [e, applySource_dress, applySource_queued ht]
  cases applySource t b <;> rfl

/-! ### The transaction -/

theorem roundHalfAway_pos {q : Rat} (h : 0 < roundHalfAway q) : 0 < q := by
  unfold roundHalfAway at h
  split at h
  · rename_i hq
    have h1 : (1 : Int) ≤ (q + 1/2).floor := by omega
    have h2 : ((1 : Int) : Rat) ≤ q + 1/2 := Rat.le_floor_iff.1 h1
    have : ((1 : Int) : Rat) = 1 := rfl
    grind
  · rename_i hq
    have h1 : (-q + 1/2).floor ≤ -1 := by omega
    have h2 : (0 : Int) ≤ (-q + 1/2).floor := Rat.le_floor_iff.2 (by
      have : ((0 : Int) : Rat) = 0 := rfl
      grind)
    omega

theorem roundHalfEven_sign {q : Rat} (h : 0 < q) : 0 ≤ roundHalfEven q := by
  have h1 : (0 : Int) ≤ q.floor := Rat.le_floor_iff.2 (by
    have : ((0 : Int) : Rat) = 0 := rfl
    grind)
  unfold roundHalfEven
  dsimp only
  split
  · exact h1
  · split
    · split <;> omega
    · omega

theorem roundHalfEven_neg {q : Rat} (h : q < 0) : roundHalfEven q ≤ 0 := by
  have h1 : q.floor < 0 := by
    by_cases hf : (0 : Int) ≤ q.floor
    · have : ((0 : Int) : Rat) ≤ q := Rat.le_floor_iff.1 hf
      have e : ((0 : Int) : Rat) = 0 := rfl
      grind
    · omega
  unfold roundHalfEven
  dsimp only
  split
  · omega
  · split
    · split <;> omega
    · omega

/-- The amount recomputed from a positive minor amount has the sign the request's had. -/
theorem convert_sign {a m : Rat} (hm : m ≠ 0) (h : 0 < roundHalfAway (a * (roundHalfEven m : Rat))) :
    ((roundHalfAway (a * (roundHalfEven m : Rat)) : Rat) / m < 0 ↔ a < 0) := by
  have h1 := roundHalfAway_pos h
  generalize roundHalfAway (a * (roundHalfEven m : Rat)) = p at h
  have hp : (0 : Rat) < (p : Rat) := by
    have := Rat.intCast_lt_intCast.2 h
    simpa using this
  have hcase : m < 0 ∨ 0 < m := by grind
  rcases hcase with hneg | hpos
  · have h2 : (roundHalfEven m : Rat) ≤ 0 := by
      have := Rat.intCast_le_intCast.2 (roundHalfEven_neg hneg); simpa using this
    have ha : a < 0 := by
      rcases Classical.em (a < 0) with h | h
      · exact h
      · exfalso
        have : a * (roundHalfEven m : Rat) ≤ 0 := by
          have h3 : 0 ≤ a := Rat.not_lt.1 h
          have h4 : 0 ≤ a * (-(roundHalfEven m : Rat)) := Rat.mul_nonneg h3 (by grind)
          grind
        grind
    constructor
    · intro _; exact ha
    · intro _
      rw [Rat.div_def]
      have : m⁻¹ < 0 := by
        rcases Classical.em (m⁻¹ < 0) with h | h
        · exact h
        · exfalso
          have h6 : 0 ≤ m⁻¹ * (-m) := Rat.mul_nonneg (Rat.not_lt.1 h) (by grind)
          have h7 : m⁻¹ * m = 1 := Rat.inv_mul_cancel _ hm
          grind
      have h5 : 0 < (p : Rat) * (-(m⁻¹)) := Rat.mul_pos hp (by grind)
      grind
  · have h2 : 0 ≤ (roundHalfEven m : Rat) := by
      have := Rat.intCast_le_intCast.2 (roundHalfEven_sign hpos); simpa using this
    have ha : ¬ a < 0 := by
      intro h
      have h4 : 0 ≤ (-a) * (roundHalfEven m : Rat) := Rat.mul_nonneg (by grind) h2
      grind
    constructor
    · intro hq
      rw [Rat.div_def] at hq
      have h5 : 0 < (p : Rat) * m⁻¹ := Rat.mul_pos hp (Rat.inv_pos.2 hpos)
      grind
    · intro h; exact absurd h ha

theorem applyPrecision_precision (t : Txn) : t.applyPrecision.precision ≠ 0 := by
  unfold Txn.applyPrecision
  dsimp only
  split <;> split <;> (try split) <;> simp_all

/-- Applying the precision twice changes nothing the checks look at. -/
theorem validate_twice (t : Txn) : t.applyPrecision.applyPrecision.validate = t.applyPrecision.validate ∧
    t.applyPrecision.applyPrecision.preciseAmount = t.applyPrecision.preciseAmount := by
  obtain ⟨p, hp⟩ := applyPrecision_some t
  have hm := applyPrecision_precision t
  generalize hu : t.applyPrecision = u at hp hm
  by_cases hpos : 0 < p
  · have e : u.applyPrecision = { u with amount := (p : Rat) / u.precision } := by
      simp [Txn.applyPrecision, hm, hp, hpos]
    refine ⟨?_, by rw [e]⟩
    rw [e]
    have key : ((p : Rat) / u.precision < 0 ↔ u.amount < 0) := by
      -- either the amount was computed from `p`, or `p` was computed from the amount
      unfold Txn.applyPrecision at hu
      dsimp only at hu
      generalize ht : (if t.precision = 0 then { t with precision := 1 } else t) = v at hu
      split at hu
      · rename_i q hq
        split at hu
        · subst hu
          rw [hq] at hp; cases hp
          exact Iff.rfl
        · subst hu
          simp only [Option.some.injEq] at hp
          subst hp
          exact convert_sign hm hpos
      · subst hu
        simp only [Option.some.injEq] at hp
        subst hp
        exact convert_sign hm hpos
    simp only [Txn.validate, hp]
    by_cases ha : u.amount < 0
    · rw [if_pos (key.2 ha), if_pos ha]
    · rw [if_neg (fun h => ha (key.1 h)), if_neg ha]
  · have e : u.applyPrecision = { u with preciseAmount := some (convertDecimalToPrecise u) } := by
      simp [Txn.applyPrecision, hm, hp, hpos]
    have c : convertDecimalToPrecise u = p := by
      unfold Txn.applyPrecision at hu
      dsimp only at hu
      generalize ht : (if t.precision = 0 then { t with precision := 1 } else t) = v at hu
      split at hu
      · rename_i q hq
        split at hu
        · rename_i hq'
          subst hu
          rw [hq] at hp; cases hp
          exact absurd hq' hpos
        · subst hu
          simp only [Option.some.injEq] at hp
          exact hp
      · subst hu
        simp only [Option.some.injEq] at hp
        exact hp
    have e2 : u.applyPrecision = u := by rw [e, c, ← hp]
    rw [e2]; exact ⟨rfl, rfl⟩

/-- What a posting looks at in a plain transaction. -/
structure SameMove (t u : Txn) : Prop where
  plain : t.Plain
  plain' : u.Plain
  validate : t.applyPrecision.validate = u.applyPrecision.validate
  amount : t.applyPrecision.preciseAmount = u.applyPrecision.preciseAmount
  allow : t.allowOverdraft = u.allowOverdraft
  limit : t.overdraftLimit = u.overdraftLimit
  precision : t.applyPrecision.precision = u.applyPrecision.precision
  inflight : t.inflight = u.inflight

theorem SameMove.symm {t u : Txn} (h : SameMove t u) : SameMove u t :=
  ⟨h.plain', h.plain, h.validate.symm, h.amount.symm, h.allow.symm, h.limit.symm, h.precision.symm, h.inflight.symm⟩

theorem SameMove.trans {t u v : Txn} (h : SameMove t u) (k : SameMove u v) : SameMove t v :=
  ⟨h.plain, k.plain', h.validate.trans k.validate, h.amount.trans k.amount, h.allow.trans k.allow, h.limit.trans k.limit,
   h.precision.trans k.precision, h.inflight.trans k.inflight⟩

theorem SameMove.source {t u : Txn} (h : SameMove t u) (b : Balance) : applySource t b = applySource u b := by
  have hc : canProcessTransaction t.applyPrecision b = canProcessTransaction u.applyPrecision b := by
    have k1 := applyPrecision_keeps t
    have k2 := applyPrecision_keeps u
    simp only [canProcessTransaction, overdraftLimitPrecise, h.amount, h.precision, k1.1, k2.1, k1.2.1, k2.2.1, h.allow, h.limit]
  have e : ∀ v : Txn, v.Plain → applySource v b = (do
      v.applyPrecision.validate
      canProcessTransaction v.applyPrecision b
      return b.postDebit (v.applyPrecision.preciseAmount.getD 0) v.inflight) := by
    intro v hv
    unfold applySource
    split
    · exact absurd ‹_› hv.1
    · exact absurd ‹_› hv.2
    · rfl
  rw [e t h.plain, e u h.plain', h.validate, hc, h.amount, h.inflight]

theorem SameMove.destination {t u : Txn} (h : SameMove t u) (b : Balance) : applyDestination t b = applyDestination u b := by
  rw [applyDestination_plain_ok h.plain, applyDestination_plain_ok h.plain', h.amount, h.inflight]

theorem sameMove_status {t u : Txn} (ht : t.Plain) (hu : u.Plain) (ha : t.amount = u.amount) (hp : t.preciseAmount = u.preciseAmount)
    (hm : t.precision = u.precision) (h1 : t.allowOverdraft = u.allowOverdraft) (h2 : t.overdraftLimit = u.overdraftLimit)
    (h3 : t.inflight = u.inflight) : SameMove t u := by
  have : t.applyPrecision.amount = u.applyPrecision.amount ∧ t.applyPrecision.preciseAmount = u.applyPrecision.preciseAmount ∧
      t.applyPrecision.precision = u.applyPrecision.precision := by
    by_cases h0 : u.precision = 0
    · cases hq : u.preciseAmount with
      | none => simp [Txn.applyPrecision, convertDecimalToPrecise, ha, hp, hm, h0, hq]
      | some q => by_cases hpos : 0 < q <;> simp [Txn.applyPrecision, convertDecimalToPrecise, ha, hp, hm, h0, hq, hpos]
    · cases hq : u.preciseAmount with
      | none => simp [Txn.applyPrecision, convertDecimalToPrecise, ha, hp, hm, h0, hq]
      | some q => by_cases hpos : 0 < q <;> simp [Txn.applyPrecision, convertDecimalToPrecise, ha, hp, hm, h0, hq, hpos]
  exact ⟨ht, hu, by simp only [Txn.validate, this.1, this.2.1], this.2.1, h1, h2, this.2.2, h3⟩

theorem sameMove_twice {t : Txn} (ht : t.Plain) : SameMove t.applyPrecision t := by
  have k := applyPrecision_keeps t
  have hs : t.applyPrecision.status = t.status ∧ t.applyPrecision.inflight = t.inflight := ⟨k.2.2.1, k.2.2.2.1⟩
  refine ⟨⟨by rw [hs.1]; exact ht.1, by rw [hs.1]; exact ht.2⟩, ht, (validate_twice t).1, (validate_twice t).2, k.1, k.2.1, ?_, hs.2⟩
  have hm := applyPrecision_precision t
  generalize t.applyPrecision = u at hm
  unfold Txn.applyPrecision
  simp only [hm, if_false]
  split
  · split <;> rfl
  · rfl

theorem normalize_plain {t : Txn} (ht : t.Plain) :
    normalize t = { t with status := if t.inflight then .inflight else .applied } := by
  unfold normalize
  split
  · exact absurd ‹_› ht.1
  · exact absurd ‹_› ht.2
  · rfl

/-- A preview applies the movement the posting applies. -/
theorem projected_same {t : Txn} (ht : t.Plain) : SameMove (projected t) t := by
  have hp : (normalize t).Plain := by
    rw [normalize_plain ht]; unfold Txn.Plain; dsimp only; split <;> simp
  refine SameMove.trans (sameMove_twice hp) ?_
  refine sameMove_status hp ht ?_ ?_ ?_ ?_ ?_ ?_ <;> rw [normalize_plain ht]

theorem submit_same {t : Txn} (ht : t.Plain) : SameMove (submit t) t := by
  have k := sameMove_twice ht
  have hs : t.applyPrecision.status = t.status := (applyPrecision_keeps t).2.2.1
  have hp : (submit t).Plain := by
    unfold submit Txn.Plain
    dsimp only
    rw [hs]
    have := ht.1; have := ht.2
    split
    · simp
    · split
      · simp
      · exact ht
  refine SameMove.trans ?_ k
  exact sameMove_status hp k.plain rfl rfl rfl rfl rfl rfl

end Blnk.Preview
