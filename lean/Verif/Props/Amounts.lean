import Verif.Props.Refusal
/-
Properties C07 and C08: decimal amounts and minor units.
-/
namespace Blnk

/-! ### C07 — decimal to minor units -/

/-- **C07, exact amounts.** At an integer precision `n`, an amount worth exactly
`m` minor units is converted to `m`, and converting `m` back gives the amount. -/
theorem c07_exact_amounts_convert_exactly (t : Txn) (n m : Int) (hn : n ≠ 0) (hp : t.precision = n)
    (ha : t.amount * n = m) (hnone : t.preciseAmount = none) :
    t.applyPrecision.preciseAmount = some m ∧
    (0 < m → ({ t with preciseAmount := some m } : Txn).applyPrecision.amount = t.amount) := by
  have hnr : (n : Rat) ≠ 0 := by
    intro h
    exact hn (Rat.intCast_inj.1 (by rw [h]; rfl))
  have h0 : t.precision ≠ 0 := by rw [hp]; exact hnr
  constructor
  · simp only [Txn.applyPrecision, h0, if_false, hnone, convertDecimalToPrecise]
    rw [hp, roundHalfEven_int, ha, roundHalfAway_int]
  · intro hm
    simp only [Txn.applyPrecision, h0, if_false, hm, if_true]
    rw [hp, ← ha, Rat.mul_div_cancel hnr]

/-- **C07, rounding.** At an integer precision `n` the minor-unit amount is within
one half of the exact value, and a value half-way between `k` and `k+1` goes to
the one further from zero. -/
theorem c07_rounds_to_nearest (t : Txn) (n : Int) (hn : n ≠ 0) (hp : t.precision = n)
    (hnone : t.preciseAmount = none) :
    ∃ m : Int, t.applyPrecision.preciseAmount = some m ∧
      (m : Rat) - t.amount * n ≤ 1/2 ∧ t.amount * n - (m : Rat) ≤ 1/2 ∧
      ∀ k : Int, t.amount * n = (k : Rat) + 1/2 → m = if 0 ≤ k then k + 1 else k := by
  have hnr : (n : Rat) ≠ 0 := by
    intro h
    exact hn (Rat.intCast_inj.1 (by rw [h]; rfl))
  have h0 : t.precision ≠ 0 := by rw [hp]; exact hnr
  refine ⟨roundHalfAway (t.amount * n), ?_, (roundHalfAway_near _).1, (roundHalfAway_near _).2, ?_⟩
  · simp only [Txn.applyPrecision, h0, if_false, hnone, convertDecimalToPrecise]
    rw [hp, roundHalfEven_int]
  · intro k hk; rw [hk, roundHalfAway_tie]

/-- A missing precision means whole units. -/
theorem c07_missing_precision (t : Txn) (hp : t.precision = 0) :
    t.applyPrecision = ({ t with precision := 1 } : Txn).applyPrecision := by
  have : ¬ ((1 : Rat) = 0) := by decide +kernel
  simp [Txn.applyPrecision, hp, this]

def amt (a : Rat) (p : Rat) : Txn := { id := "t", amount := a, precision := p }

example : (amt (1234567/100) 100).applyPrecision.preciseAmount = some 1234567 ∧
    (amt (1005/1000) 100).applyPrecision.preciseAmount = some 101 ∧
    (amt (-1005/1000) 100).applyPrecision.preciseAmount = some (-101) := by
  refine ⟨?_, ?_, ?_⟩ <;> decide +kernel

/-- Integer precision is needed: a fractional precision is itself rounded first,
so at precision 2.5 an amount of 2 becomes 4, not 5, minor units. -/
def C07_any_precision : Prop := ∀ (t : Txn) (m : Int), 0 < t.precision → t.preciseAmount = none →
  t.amount * t.precision = m → t.applyPrecision.preciseAmount = some m

theorem c07_any_precision_fails : ¬ C07_any_precision := by
  intro h
  have := h (amt 2 (5/2)) 5 (by decide +kernel) rfl (by decide +kernel)
  revert this; decide +kernel

/-! ### C08 — the minor-unit amount is authoritative -/

/-- **C08.** When a positive minor-unit amount `p` is supplied, an accepted
posting records and moves exactly `p`, whatever the decimal amount says; the
decimal amount is recomputed as `p / precision`. -/
theorem c08_precise_amount_authoritative (cfg : Cfg) (db : DB) (t : Txn) (rows : List Txn) (p : Int)
    (hr : Reachable cfg db) (hp : t.Plain) (hpp : t.preciseAmount = some p) (hpos : 0 < p)
    (h : (postResolved cfg db t).2 = .posted rows) :
    rows.map (·.preciseAmount) = [some p] ∧
    rows.map (·.amount) = [(p : Rat) / t.effPrecision] ∧
    ∃ s d s' d', db.find t.source = some s ∧ db.find t.destination = some d ∧
      (postResolved cfg db t).1.find t.source = some s' ∧ (postResolved cfg db t).1.find t.destination = some d' ∧
      (t.inflight = false → Moved p 0 s s' d d') ∧ (t.inflight = true → Moved 0 p s s' d d') := by
  have e : t.applyPrecision.preciseAmount = some p := by
    unfold Txn.applyPrecision
    by_cases h0 : t.precision = 0 <;> simp [h0, hpp, hpos]
  have e2 : t.applyPrecision.amount = (p : Rat) / t.effPrecision := by
    unfold Txn.applyPrecision Txn.effPrecision
    by_cases h0 : t.precision = 0 <;> simp [h0, hpp, hpos]
  obtain ⟨q, _, rfl, hq, _, hm, _⟩ := c01_posting_two_sided cfg db t rows hr hp h
  have : q = p := by
    rw [finalRow_plain hp, e] at hq; simpa using hq.symm
  subst this
  refine ⟨by simp [hq], ?_, hm⟩
  have : (finalRow t).amount = t.applyPrecision.amount := by
    unfold finalRow applyRecord clearTerminalInflight
    have := hp.2
    simp only
    split <;> simp_all
  simp [this, e2]

theorem applyPrecision_of_pos {t : Txn} {p : Int} (h : t.preciseAmount = some p) (hp : 0 < p) :
    t.applyPrecision = { t with precision := t.effPrecision, amount := (p : Rat) / t.effPrecision } := by
  unfold Txn.applyPrecision Txn.effPrecision
  by_cases h0 : t.precision = 0 <;> simp [h0, h, hp]

theorem applyPrecision_of_not {t : Txn} (h : ∀ p, t.preciseAmount = some p → ¬ 0 < p) :
    t.applyPrecision = { t with precision := t.effPrecision,
                                preciseAmount := some (roundHalfAway (t.amount * (roundHalfEven t.effPrecision : Rat))) } := by
  unfold Txn.applyPrecision Txn.effPrecision convertDecimalToPrecise
  cases hp : t.preciseAmount with
  | none => by_cases h0 : t.precision = 0 <;> simp [h0, hp]
  | some p =>
    have := h p hp
    by_cases h0 : t.precision = 0 <;> simp [h0, hp, this]

theorem effPrecision_set (t : Txn) (a : Rat) (q : Option Int) :
    ({ t with precision := t.effPrecision, amount := a, preciseAmount := q } : Txn).effPrecision = t.effPrecision := by
  have h1 : ¬ ((1 : Rat) = 0) := by decide +kernel
  unfold Txn.effPrecision
  by_cases h0 : t.precision = 0 <;> simp [h0, h1]

/-- **C08, twice is once.** Converting again changes nothing when the minor-unit
amount was supplied, and never changes the minor-unit amount. -/
theorem c08_conversion_idempotent (t : Txn) :
    (∀ p, t.preciseAmount = some p → 0 < p → t.applyPrecision.applyPrecision = t.applyPrecision) ∧
    t.applyPrecision.applyPrecision.preciseAmount = t.applyPrecision.preciseAmount := by
  constructor
  · intro p hp hpos
    rw [applyPrecision_of_pos hp hpos]
    rw [applyPrecision_of_pos (p := p) (by exact hp) hpos]
    simp [effPrecision_set]
  · by_cases h : ∀ p, t.preciseAmount = some p → ¬ 0 < p
    · rw [applyPrecision_of_not h]
      by_cases h2 : 0 < roundHalfAway (t.amount * (roundHalfEven t.effPrecision : Rat))
      · rw [applyPrecision_of_pos rfl h2]
      · rw [applyPrecision_of_not (by simpa using h2)]
        simp [effPrecision_set]
    · simp only [Classical.not_forall, Classical.not_not] at h
      obtain ⟨p, hp, hpos⟩ := h
      rw [applyPrecision_of_pos hp hpos, applyPrecision_of_pos (p := p) (by exact hp) hpos]

/-- A payment that says both 3.00 and 450 minor units moves 450. -/
def demoBoth : Txn := { demoPay with preciseAmount := some 450 }

example : (postResolved {} demo demoBoth).2 = .posted [finalRow demoBoth] ∧
    ((postResolved {} demo demoBoth).1.balances.map (·.balance)) = [550, 450, -1000] := by
  constructor <;> decide +kernel

end Blnk
