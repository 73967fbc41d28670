import Verif.Model.Balance
/-
Helper lemmas about the two rounding rules and the `int64` truncation.
-/
namespace Blnk

theorem floor_eq_of {x : Int} {q : Rat} (h1 : (x : Rat) ≤ q) (h2 : q < (x : Rat) + 1) : q.floor = x := by
  have a := Rat.le_floor_iff.2 h1
  have b := Rat.floor_le q
  have c : ((q.floor : Int) : Rat) < ((x + 1 : Int) : Rat) := by
    have : ((x + 1 : Int) : Rat) = (x : Rat) + 1 := by simp [Rat.intCast_add]
    grind
  have d := Rat.intCast_lt_intCast.1 c
  omega

theorem lt_floor_one (q : Rat) : q < (q.floor : Rat) + 1 := by
  have := Rat.lt_floor_add_one q
  have e : ((q.floor + 1 : Int) : Rat) = (q.floor : Rat) + 1 := by simp [Rat.intCast_add]
  grind

/-- Nearest integer, both directions. -/
theorem roundHalfAway_near (q : Rat) : (roundHalfAway q : Rat) - q ≤ 1/2 ∧ q - (roundHalfAway q : Rat) ≤ 1/2 := by
  unfold roundHalfAway
  split
  · have h1 := Rat.floor_le (q + 1/2)
    have h2 := lt_floor_one (q + 1/2)
    constructor <;> grind
  · have h1 := Rat.floor_le (-q + 1/2)
    have h2 := lt_floor_one (-q + 1/2)
    have e : ((-(-q + 1/2).floor : Int) : Rat) = -(((-q + 1/2).floor : Int) : Rat) := by simp [Rat.intCast_neg]
    constructor <;> grind

/-- An exact integer is left alone. -/
theorem roundHalfAway_int (n : Int) : roundHalfAway (n : Rat) = n := by
  unfold roundHalfAway
  split
  · exact floor_eq_of (by grind) (by grind)
  · have e : ((-n : Int) : Rat) = -(n : Rat) := by simp [Rat.intCast_neg]
    have : (-(n : Rat) + 1/2).floor = -n := floor_eq_of (by grind) (by grind)
    rw [this]; omega

/-- A tie goes away from zero. -/
theorem roundHalfAway_tie (n : Int) : roundHalfAway ((n : Rat) + 1/2) = if 0 ≤ n then n + 1 else n := by
  unfold roundHalfAway
  have e1 : ((n + 1 : Int) : Rat) = (n : Rat) + 1 := by simp [Rat.intCast_add]
  split
  · rename_i h
    have hn : 0 ≤ n := by
      rcases Int.lt_or_le n 0 with h' | h'
      · have : ((n : Int) : Rat) ≤ ((-1 : Int) : Rat) := Rat.intCast_le_intCast.2 (by omega)
        have : ((-1 : Int) : Rat) = -1 := by rfl
        grind
      · exact h'
    simp only [hn, if_true]
    exact floor_eq_of (by grind) (by grind)
  · rename_i h
    have hn : ¬ 0 ≤ n := by
      intro h'
      have : ((0 : Int) : Rat) ≤ (n : Rat) := Rat.intCast_le_intCast.2 h'
      have : ((0 : Int) : Rat) = 0 := by rfl
      grind
    simp only [hn, if_false]
    have e : ((-n : Int) : Rat) = -(n : Rat) := by simp [Rat.intCast_neg]
    have : (-((n : Rat) + 1/2) + 1/2).floor = -n := floor_eq_of (by grind) (by grind)
    rw [this]; omega

theorem roundHalfAway_mono_pos {q : Rat} (h : 0 < roundHalfAway q) : 0 < q := by
  by_cases hq : 0 < q
  · exact hq
  · exfalso
    have h1 := (roundHalfAway_near q).1
    have h3 : ((1 : Int) : Rat) ≤ (roundHalfAway q : Rat) := Rat.intCast_le_intCast.2 (by omega)
    have : ((1 : Int) : Rat) = 1 := by rfl
    grind

theorem roundHalfAway_nonneg {q : Rat} (h : 0 ≤ q) : 0 ≤ roundHalfAway q := by
  unfold roundHalfAway
  rw [if_pos h]
  rw [Rat.le_floor_iff]
  have : ((0 : Int) : Rat) = 0 := by rfl
  grind

theorem roundHalfEven_int (n : Int) : roundHalfEven (n : Rat) = n := by
  unfold roundHalfEven
  have : (n : Rat).floor = n := floor_eq_of (by grind) (by grind)
  simp only [this]
  rw [if_pos (by grind)]

theorem roundHalfEven_pos {q : Rat} (h : 0 < roundHalfEven q) : 0 < q := by
  by_cases hq : 0 < q
  · exact hq
  · exfalso
    have h1 := Rat.floor_le q
    have h0 : ((0 : Int) : Rat) = 0 := by rfl
    have hf : q.floor ≤ 0 := by
      have : (q.floor : Rat) ≤ ((0 : Int) : Rat) := by grind
      exact Rat.intCast_le_intCast.1 this
    unfold roundHalfEven at h
    simp only at h
    split at h
    · omega
    · rename_i h2
      have hne : q.floor ≠ 0 := by
        intro he
        rw [he] at h2 h1
        grind
      split at h
      · split at h <;> omega
      · omega

theorem rat_mul_nonpos {a b : Rat} (ha : 0 ≤ a) (hb : b ≤ 0) : a * b ≤ 0 := by
  have h := Rat.mul_nonneg ha (show 0 ≤ -b by grind)
  rw [Rat.mul_neg] at h
  grind

theorem rat_div_neg {a b : Rat} (ha : 0 < a) (hb : b < 0) : a / b < 0 := by
  by_cases h : a / b < 0
  · exact h
  · exfalso
    have h1 : 0 ≤ a / b := by grind
    have h2 := rat_mul_nonpos h1 (show b ≤ 0 by grind)
    rw [Rat.div_mul_cancel (by grind)] at h2
    grind

theorem int64Wrap_le {n : Int} (h : 0 ≤ n) : int64Wrap n ≤ n := by
  unfold int64Wrap Int.bmod
  simp only
  have : ((2 ^ 64 : Nat) : Int) = 18446744073709551616 := by decide
  rw [this]
  split <;> omega

theorem int64Wrap_of_lt {n : Int} (h1 : -(2 ^ 63) ≤ n) (h2 : n < 2 ^ 63) : int64Wrap n = n := by
  unfold int64Wrap Int.bmod
  simp only
  have : ((2 ^ 64 : Nat) : Int) = 18446744073709551616 := by decide
  rw [this]
  have e : (2 : Int) ^ 63 = 9223372036854775808 := by decide
  rw [e] at h1 h2
  split <;> omega

end Blnk
