import Verif.Props.RequestSpec
import Verif.Lemmas.Round
import Mathlib.Algebra.Order.Field.Power
import Mathlib.Data.Rat.Cast.Order
import Mathlib.Tactic.Linarith
import Mathlib.Tactic.NormNum
import Mathlib.Tactic.Ring
import Mathlib.Tactic.FieldSimp
import Mathlib.Tactic.Positivity
import Mathlib.Data.Nat.Prime.Basic
import Mathlib.Data.Nat.Factorization.Basic
/-
Facts about doubles: how far the nearest double is from a number, and that two short decimals
never share one.
-/
namespace Blnk.Request
open Blnk

theorem pow2_eq (k : Int) : pow2 k = (2 : ℚ) ^ k := by
  unfold pow2
  split
  · rename_i h
    obtain ⟨n, rfl⟩ := Int.eq_ofNat_of_zero_le h
    simp
  · rename_i h
    obtain ⟨n, hn⟩ := Int.eq_ofNat_of_zero_le (show 0 ≤ -k by omega)
    have : k = -(n : Int) := by omega
    subst this
    simp

set_option exponentiation.threshold 1200 in
/-- Half the smallest positive double. -/
def half : ℚ := 1 / 2 ^ 1075

set_option exponentiation.threshold 1200 in
theorem half_pos : 0 < half := by unfold half; positivity

set_option exponentiation.threshold 1200 in
theorem least_pos : 0 < least := by unfold least; positivity

set_option exponentiation.threshold 1200 in
theorem half_small : half * 10 ^ 17 < least := by unfold half least; decide +kernel

set_option exponentiation.threshold 1200 in
theorem half_eq : pow2 (-1074) / 2 = half := by unfold half; decide +kernel

theorem pow2_pos (k : Int) : 0 < pow2 k := by rw [pow2_eq]; positivity

theorem ilog2_spec {q : ℚ} (h : 0 < q) : pow2 (ilog2 q) ≤ q ∧ q < pow2 (ilog2 q + 1) := by
  have hn : 0 < q.num := Rat.num_pos.2 h
  obtain ⟨n, hn'⟩ := Int.eq_ofNat_of_zero_le hn.le
  have hd : 0 < q.den := q.den_pos
  have hn0 : n ≠ 0 := by omega
  have e : q = (n : ℚ) / (q.den : ℚ) := by
    have := Rat.num_div_den q
    rw [hn'] at this
    exact this.symm
  have a1 : 2 ^ n.log2 ≤ n := Nat.log2_self_le hn0
  have a2 : n < 2 ^ (n.log2 + 1) := Nat.lt_log2_self
  have b1 : 2 ^ q.den.log2 ≤ q.den := Nat.log2_self_le (by omega)
  have b2 : q.den < 2 ^ (q.den.log2 + 1) := Nat.lt_log2_self
  have a1' : (2 : ℚ) ^ n.log2 ≤ n := by exact_mod_cast a1
  have a2' : (n : ℚ) < 2 ^ (n.log2 + 1) := by exact_mod_cast a2
  have b1' : (2 : ℚ) ^ q.den.log2 ≤ q.den := by exact_mod_cast b1
  have b2' : (q.den : ℚ) < 2 ^ (q.den.log2 + 1) := by exact_mod_cast b2
  have dpos : (0 : ℚ) < q.den := by exact_mod_cast hd
  have key : ∀ (x y : Nat), (2 : ℚ) ^ ((x : Int) - (y : Int)) = 2 ^ x / 2 ^ y := by
    intro x y
    rw [zpow_sub₀ (by norm_num)]
    simp
  have hi : q < pow2 ((n.log2 : Int) - (q.den.log2 : Int) + 1) := by
    rw [pow2_eq]
    have : (n.log2 : Int) - (q.den.log2 : Int) + 1 = ((n.log2 + 1 : Nat) : Int) - (q.den.log2 : Int) := by push_cast; ring
    rw [this, key]
    conv_lhs => rw [e]
    rw [div_lt_div_iff₀ dpos (by positivity)]
    calc (n : ℚ) * 2 ^ q.den.log2 < 2 ^ (n.log2 + 1) * 2 ^ q.den.log2 := by
          apply mul_lt_mul_of_pos_right a2' (by positivity)
      _ ≤ 2 ^ (n.log2 + 1) * q.den := by
          apply mul_le_mul_of_nonneg_left b1' (by positivity)
  have lo : pow2 ((n.log2 : Int) - (q.den.log2 : Int) - 1) ≤ q := by
    rw [pow2_eq]
    have : (n.log2 : Int) - (q.den.log2 : Int) - 1 = ((n.log2 : Nat) : Int) - ((q.den.log2 + 1 : Nat) : Int) := by push_cast; ring
    rw [this, key]
    conv_rhs => rw [e]
    rw [div_le_div_iff₀ (by positivity) dpos]
    calc (2 : ℚ) ^ n.log2 * q.den ≤ n * q.den := mul_le_mul_of_nonneg_right a1' dpos.le
      _ ≤ n * 2 ^ (q.den.log2 + 1) := mul_le_mul_of_nonneg_left b2'.le (by positivity)
  have hk : ilog2 q = if pow2 ((n.log2 : Int) - (q.den.log2 : Int)) ≤ q then (n.log2 : Int) - (q.den.log2 : Int)
      else (n.log2 : Int) - (q.den.log2 : Int) - 1 := by
    unfold ilog2
    simp only [hn']
    rfl
  rw [hk]
  split
  · rename_i hc; exact ⟨hc, hi⟩
  · rename_i hc
    refine ⟨lo, ?_⟩
    have : (n.log2 : Int) - (q.den.log2 : Int) - 1 + 1 = (n.log2 : Int) - (q.den.log2 : Int) := by ring
    rw [this]
    exact lt_of_not_ge hc

theorem roundHalfEven_near (x : ℚ) : |(roundHalfEven x : ℚ) - x| ≤ 1 / 2 := by
  have h1 := Rat.floor_le x
  have h2 := lt_floor_one x
  unfold roundHalfEven
  dsimp only
  rw [abs_le]
  split
  · constructor <;> linarith
  · split
    · split
      · constructor <;> linarith
      · push_cast; constructor <;> linarith
    · push_cast; constructor <;> linarith

/-- The nearest double is within half a unit of the last place. -/
theorem f64pos_near {q : ℚ} (h : 0 ≤ q) : |f64pos q - q| ≤ q / 2 ^ 53 + half := by
  unfold f64pos
  split
  · rename_i h0; subst h0; simp [half_pos.le]
  · rename_i h0
    have hq : 0 < q := lt_of_le_of_ne h (Ne.symm h0)
    obtain ⟨l1, l2⟩ := ilog2_spec hq
    dsimp only
    set e := max (ilog2 q - 52) (-1074) with he
    have hp := pow2_pos e
    have hr := roundHalfEven_near (q / pow2 e)
    have hb : |(roundHalfEven (q / pow2 e) : ℚ) * pow2 e - q| ≤ pow2 e / 2 := by
      have : (roundHalfEven (q / pow2 e) : ℚ) * pow2 e - q = ((roundHalfEven (q / pow2 e) : ℚ) - q / pow2 e) * pow2 e := by
        field_simp
      rw [this, abs_mul, abs_of_pos hp]
      nlinarith
    refine hb.trans ?_
    rcases le_total (-1074) (ilog2 q - 52) with hc | hc
    · have : e = ilog2 q - 52 := by rw [he]; exact max_eq_left hc
      rw [this, pow2_eq, zpow_sub₀ (by norm_num)]
      rw [pow2_eq] at l1
      have : (2 : ℚ) ^ ilog2 q / 2 ^ (52 : Int) / 2 = 2 ^ ilog2 q / 2 ^ 53 := by
        rw [div_div]; norm_num
      rw [this]
      have h3 : (2 : ℚ) ^ ilog2 q / 2 ^ 53 ≤ q / 2 ^ 53 := by
        apply div_le_div_of_nonneg_right l1 (by positivity)
      have h4 := half_pos
      linarith
    · have : e = -1074 := by rw [he]; exact max_eq_right hc
      have h3 : pow2 e / 2 = half := by rw [this]; exact half_eq
      rw [h3]
      have : 0 ≤ q / 2 ^ 53 := by positivity
      linarith

theorem f64_pos {q : ℚ} (h : 0 ≤ q) : f64 q = f64pos q := by
  unfold f64; rw [if_neg (not_lt.2 h)]

theorem f64pos_nonneg (q : ℚ) (h : 0 ≤ q) : 0 ≤ f64pos q := by
  unfold f64pos
  split
  · rfl
  · have h2 : 0 ≤ q / pow2 (max (ilog2 q - 52) (-1074)) := div_nonneg h (pow2_pos _).le
    have : 0 ≤ roundHalfEven (q / pow2 (max (ilog2 q - 52) (-1074))) := by
      have hf : 0 ≤ (q / pow2 (max (ilog2 q - 52) (-1074))).floor := by
        rw [Rat.le_floor_iff]; exact_mod_cast h2
      unfold roundHalfEven
      dsimp only
      split
      · exact hf
      · split
        · split <;> omega
        · omega
    exact mul_nonneg (by exact_mod_cast this) (pow2_pos _).le

/-- Numbers below `2^53` that are whole are doubles. -/
theorem f64_whole {n : Nat} (h : n < 2 ^ 53) : f64 (n : ℚ) = n := by
  rw [f64_pos (by positivity)]
  unfold f64pos
  split
  · rename_i h0; exact h0.symm
  · rename_i h0
    have hq : (0 : ℚ) < n := by
      have : (0 : ℚ) ≤ n := by positivity
      exact lt_of_le_of_ne this (Ne.symm h0)
    obtain ⟨l1, l2⟩ := ilog2_spec hq
    have hl : ilog2 (n : ℚ) < 53 := by
      by_contra hc
      have : (53 : Int) ≤ ilog2 (n : ℚ) := by omega
      have h3 : (2 : ℚ) ^ (53 : Int) ≤ 2 ^ ilog2 (n : ℚ) := zpow_le_zpow_right₀ (by norm_num) this
      rw [pow2_eq] at l1
      have h4 : (n : ℚ) < 2 ^ 53 := by exact_mod_cast h
      have h5 : (2 : ℚ) ^ (53 : Int) = 2 ^ 53 := by norm_num
      linarith
    dsimp only
    set e := max (ilog2 (n : ℚ) - 52) (-1074) with he
    have hle : e ≤ 0 := by omega
    obtain ⟨m, hm⟩ := Int.eq_ofNat_of_zero_le (show 0 ≤ -e by omega)
    have hpe : pow2 e = 1 / 2 ^ m := by
      rw [pow2_eq, show e = -(m : Int) by omega]; simp
    have : (n : ℚ) / pow2 e = (((n * 2 ^ m : Nat) : Int) : ℚ) := by rw [hpe]; push_cast; field_simp
    rw [this, roundHalfEven_int, hpe]
    push_cast
    field_simp

/-! ### Short decimals -/

theorem Fits.mono {n m : Nat} {d : ℚ} (h : Fits n d) (hm : n ≤ m) : Fits m d := by
  obtain ⟨a, k, h1, h2⟩ := h
  exact ⟨a, k, lt_of_lt_of_le h1 (Nat.pow_le_pow_right (by norm_num) hm), h2⟩

theorem gap_int {m a : ℚ} (h1 : a + 1 ≤ m) (h2 : a ≤ 10 ^ 15 - 1) : m / 10 ^ 15 ≤ m - a := by
  rw [div_le_iff₀ (by norm_num)]
  nlinarith

/-- Two different numbers of at most fifteen digits are at least `10^-15` of the larger apart. -/
theorem short_gap {d d' : ℚ} (h : Fits 15 d) (h' : Fits 15 d') (h0 : 0 ≤ d) (hlt : d < d') : d' / 10 ^ 15 ≤ d' - d := by
  obtain ⟨a, i, ha, rfl⟩ := h
  obtain ⟨b, j, hb, rfl⟩ := h'
  have pi : (0 : ℚ) < 10 ^ i := by positivity
  have pj : (0 : ℚ) < 10 ^ j := by positivity
  have a0 : 0 ≤ a := by
    by_contra hc
    have : (a : ℚ) < 0 := by exact_mod_cast (not_le.1 hc)
    nlinarith
  have b0 : 0 < b := by
    by_contra hc
    have : (b : ℚ) ≤ 0 := by exact_mod_cast (not_lt.1 hc)
    nlinarith
  have ha' : a ≤ 10 ^ 15 - 1 := by omega
  have hb' : b ≤ 10 ^ 15 - 1 := by omega
  rcases le_total j i with hji | hij
  · obtain ⟨t, ht⟩ := Int.eq_ofNat_of_zero_le (show 0 ≤ i - j by omega)
    have hi : (10 : ℚ) ^ i = 10 ^ t * 10 ^ j := by
      rw [show i = (t : Int) + j by omega, zpow_add₀ (by norm_num)]; simp
    rw [hi] at hlt ⊢
    have h1 : (((a * 10 ^ t : Int)) : ℚ) < b := by
      push_cast
      have : (a : ℚ) * 10 ^ t * 10 ^ j < b * 10 ^ j := by linarith [hlt, mul_assoc (a : ℚ) (10 ^ t) (10 ^ j)]
      exact lt_of_mul_lt_mul_right this pj.le
    have h2 : a * 10 ^ t < b := by exact_mod_cast h1
    have h3 : ((a * 10 ^ t : Int) : ℚ) + 1 ≤ b := by exact_mod_cast h2
    have h4 : ((a * 10 ^ t : Int) : ℚ) ≤ 10 ^ 15 - 1 := by
      have : a * 10 ^ t ≤ 10 ^ 15 - 1 := by omega
      exact_mod_cast this
    have h5 : (0 : ℚ) ≤ ((a * 10 ^ t : Int) : ℚ) := by
      have : 0 ≤ a * 10 ^ t := by positivity
      exact_mod_cast this
    have := gap_int h3 h4
    push_cast at this
    calc (b : ℚ) * (10 : ℚ) ^ j / 10 ^ 15 = (b : ℚ) / 10 ^ 15 * (10 : ℚ) ^ j := by ring
      _ ≤ ((b : ℚ) - a * 10 ^ t) * (10 : ℚ) ^ j := mul_le_mul_of_nonneg_right this pj.le
      _ = _ := by ring
  · obtain ⟨t, ht⟩ := Int.eq_ofNat_of_zero_le (show 0 ≤ j - i by omega)
    have hj : (10 : ℚ) ^ j = 10 ^ t * 10 ^ i := by
      rw [show j = (t : Int) + i by omega, zpow_add₀ (by norm_num)]; simp
    rw [hj] at hlt ⊢
    have h1 : (a : ℚ) < ((b * 10 ^ t : Int) : ℚ) := by
      push_cast
      have : (a : ℚ) * 10 ^ i < b * 10 ^ t * 10 ^ i := by linarith [hlt, mul_assoc (b : ℚ) (10 ^ t) (10 ^ i)]
      exact lt_of_mul_lt_mul_right this pi.le
    have h2 : a < b * 10 ^ t := by exact_mod_cast h1
    have h3 : (a : ℚ) + 1 ≤ ((b * 10 ^ t : Int) : ℚ) := by exact_mod_cast h2
    have h4 : (a : ℚ) ≤ 10 ^ 15 - 1 := by exact_mod_cast ha'
    have h5 : (0 : ℚ) ≤ a := by exact_mod_cast a0
    have := gap_int h3 h4
    push_cast at this
    calc (b : ℚ) * (10 ^ t * (10 : ℚ) ^ i) / 10 ^ 15 = (b : ℚ) * 10 ^ t / 10 ^ 15 * (10 : ℚ) ^ i := by ring
      _ ≤ ((b : ℚ) * 10 ^ t - a) * (10 : ℚ) ^ i := mul_le_mul_of_nonneg_right this pi.le
      _ = _ := by ring

/-- Numbers with the same double are close. -/
theorem same_double_close {d d' : ℚ} (h0 : 0 ≤ d) (h0' : 0 ≤ d') (h : f64 d = f64 d') :
    d' - d ≤ d / 2 ^ 53 + d' / 2 ^ 53 + 2 * half := by
  rw [f64_pos h0, f64_pos h0'] at h
  have a := abs_le.1 (f64pos_near h0)
  have b := abs_le.1 (f64pos_near h0')
  linarith [a.1, a.2, b.1, b.2]

theorem short_unique_lt {d d' : ℚ} (h : Fits 15 d) (h' : Fits 15 d') (h0 : 0 ≤ d) (hlt : d < d')
    (hm : least ≤ d') : f64 d ≠ f64 d' := by
  intro he
  have h0' : 0 ≤ d' := le_trans h0 hlt.le
  have g := short_gap h h' h0 hlt
  have c := same_double_close h0 h0' he
  have t := half_small
  have e1 : d / 2 ^ 53 ≤ d' / 2 ^ 53 := by apply div_le_div_of_nonneg_right hlt.le (by positivity)
  have : d' / 10 ^ 15 ≤ d' / 2 ^ 53 + d' / 2 ^ 53 + 2 * half := by linarith
  norm_num at this t
  linarith

/-- Two numbers of at most fifteen digits, not both tiny, never read as the same double. -/
theorem short_unique {d d' : ℚ} (h : Fits 15 d) (h' : Fits 15 d') (h0 : 0 ≤ d) (h0' : 0 ≤ d')
    (hm : least ≤ d) (he : f64 d = f64 d') : d' = d := by
  rcases lt_trichotomy d d' with hlt | heq | hgt
  · exact absurd he (short_unique_lt h h' h0 hlt (hm.trans hlt.le))
  · exact heq.symm
  · exact absurd he.symm (short_unique_lt h' h h0' hgt hm)

theorem f64_positive {d : ℚ} (hm : least ≤ d) : 0 < f64 d := by
  have h0 : 0 < d := lt_of_lt_of_le least_pos hm
  rw [f64_pos h0.le]
  have a := abs_le.1 (f64pos_near h0.le)
  have t := half_small
  have := a.1
  norm_num at this t
  linarith

theorem f64_neg_nonpos {d : ℚ} (h : d < 0) : f64 d ≤ 0 := by
  unfold f64
  rw [if_pos h]
  have := f64pos_nonneg (-d) (by linarith)
  linarith

/-! ### Printing -/

/-- A printer with the promised properties exists, so nothing below is empty. -/
theorem shortest_exists : ∃ P, Shortest P := by
  classical
  let good (f : ℚ) (n : Nat) : Prop := ∃ d, Fits n d ∧ f64 d = f
  let P (f : ℚ) : ℚ := if h : ∃ n, good f n then Classical.choose (Nat.find_spec h) else 0
  have key : ∀ d n, Fits n d → Fits n (P (f64 d)) ∧ f64 (P (f64 d)) = f64 d := by
    intro d n hd
    have h : ∃ n, good (f64 d) n := ⟨n, d, hd, rfl⟩
    have hs := Classical.choose_spec (Nat.find_spec h)
    have hP : P (f64 d) = Classical.choose (Nat.find_spec h) := by
      show (if h : ∃ n, good (f64 d) n then Classical.choose (Nat.find_spec h) else 0) = _
      rw [dif_pos h]
    rw [hP]
    refine ⟨hs.1.mono ?_, hs.2⟩
    exact Nat.find_min' h ⟨d, hd, rfl⟩
  exact ⟨P, fun d n h => (key d n h).2, fun d n h => (key d n h).1⟩

variable {P : ℚ → ℚ}

/-- A number of at most fifteen digits is printed as it was read. -/
theorem print_short (hP : Shortest P) {d : ℚ} (h : Fits 15 d) (hm : least ≤ d) : P (f64 d) = d := by
  have h0 : 0 ≤ d := le_trans least_pos.le hm
  have hr := hP.reads d 15 h
  have hs := hP.short d 15 h
  have hn : 0 ≤ P (f64 d) := by
    by_contra hc
    have h1 := f64_neg_nonpos (not_le.1 hc)
    have h2 := f64_positive hm
    linarith
  exact short_unique h hs h0 hn hm hr.symm

theorem fits_zero : Fits 0 0 := ⟨0, 0, by norm_num, by norm_num⟩

theorem f64_zero : f64 0 = 0 := by decide +kernel

theorem print_zero (hP : Shortest P) : P 0 = 0 := by
  have := hP.short 0 0 fits_zero
  rw [f64_zero] at this
  obtain ⟨a, k, h1, h2⟩ := this
  have : a = 0 := by
    have : a.natAbs < 1 := by simpa using h1
    omega
  subst this
  simpa using h2

theorem f64_neg (d : ℚ) : f64 (-d) = - f64 d := by
  rcases lt_trichotomy d 0 with h | h | h
  · have h1 : ¬ -d < 0 := by linarith
    unfold f64
    rw [if_neg h1, if_pos h]; ring
  · subst h; rw [neg_zero, f64_zero, neg_zero]
  · have h1 : -d < 0 := by linarith
    unfold f64
    rw [if_pos h1, if_neg (by linarith), neg_neg]

theorem Fits.neg {n : Nat} {d : ℚ} (h : Fits n d) : Fits n (-d) := by
  obtain ⟨a, k, h1, h2⟩ := h
  exact ⟨-a, k, by simpa using h1, by rw [h2]; push_cast; ring⟩

/-- The printed number has the sign of the double. -/
theorem print_nonneg (hP : Shortest P) {d : ℚ} {n : Nat} (h : Fits n d) (h0 : 0 < f64 d) : 0 < P (f64 d) := by
  by_contra hc
  have hr := hP.reads d n h
  rcases lt_or_eq_of_le (not_lt.1 hc) with h1 | h1
  · have := f64_neg_nonpos h1
    linarith
  · rw [h1, f64_zero] at hr
    linarith

theorem f64_sign {d : ℚ} (h : 0 < f64 d) : 0 < d := by
  by_contra hc
  rcases lt_or_eq_of_le (not_lt.1 hc) with h1 | h1
  · have := f64_neg_nonpos h1
    linarith
  · rw [h1, f64_zero] at h
    exact lt_irrefl _ h

/-- Whatever was written, the printed double is within `2^-51` of it. -/
theorem print_close (hP : Shortest P) {d : ℚ} {n : Nat} (h : Fits n d) (h0 : 0 < f64 d) :
    |P (f64 d) - d| ≤ d / 2 ^ 51 + 3 * half := by
  have hd := f64_sign h0
  have hv := print_nonneg hP h h0
  have hr := hP.reads d n h
  have c1 := same_double_close hd.le hv.le hr.symm
  have c2 := same_double_close hv.le hd.le hr
  have hh := half_pos
  generalize P (f64 d) = v at *
  norm_num at c1 c2 ⊢
  rw [abs_le]
  constructor <;> linarith

/-! ### Digits -/

/-- The number written with all its decimals, as a whole number. -/
theorem scaled_eq {v : ℚ} {s : Nat} (hv : v.den ∣ 10 ^ s) :
    ((v.num * ((10 ^ s / v.den : Nat) : Int) : Int) : ℚ) = v * 10 ^ s := by
  obtain ⟨c, hc⟩ := hv
  have hd : v.den ≠ 0 := v.den_nz
  have : 10 ^ s / v.den = c := by rw [hc]; exact Nat.mul_div_cancel_left c (Nat.pos_of_ne_zero hd)
  rw [this]
  have e2 : ((10 : ℚ) ^ s) = (v.den : ℚ) * c := by exact_mod_cast hc
  have e : v * v.den = v.num := Rat.mul_den_eq_num v
  rw [e2, ← mul_assoc, e]
  push_cast
  ring

theorem pow_log_bound {n s : Nat} (h : n ∣ 10 ^ s) : n ∣ 10 ^ n.log2 := by
  have h0 : 10 ^ s ≠ 0 := by positivity
  have hn : n ≠ 0 := by rintro rfl; exact h0 (Nat.eq_zero_of_zero_dvd h)
  rcases Nat.lt_or_ge n.log2 s with hlt | hge
  swap
  · exact h.trans (Nat.pow_dvd_pow _ hge)
  -- a prime power dividing `n` has exponent at most `log2 n`
  have key : ∀ p k, Nat.Prime p → p ^ k ∣ n → k ≤ n.log2 := by
    intro p k hp hk
    have h1 : 2 ^ k ≤ n := le_trans (Nat.pow_le_pow_left hp.two_le k) (Nat.le_of_dvd (Nat.pos_of_ne_zero hn) hk)
    exact (Nat.le_log2 hn).2 h1
  have e10 : 10 ^ s = 2 ^ s * 5 ^ s := by rw [← Nat.mul_pow]
  rw [e10] at h
  obtain ⟨a, b, ha, hb, rfl⟩ := Nat.dvd_mul.1 h
  obtain ⟨i, hi, rfl⟩ := (Nat.dvd_prime_pow Nat.prime_two).1 ha
  obtain ⟨j, hj, rfl⟩ := (Nat.dvd_prime_pow Nat.prime_five).1 hb
  have i1 := key 2 i Nat.prime_two (Dvd.intro _ rfl)
  have j1 := key 5 j Nat.prime_five (Dvd.intro_left _ rfl)
  generalize (2 ^ i * 5 ^ j).log2 = L at *
  have : 10 ^ L = 2 ^ L * 5 ^ L := by rw [← Nat.mul_pow]
  rw [this]
  exact Nat.mul_dvd_mul (Nat.pow_dvd_pow _ i1) (Nat.pow_dvd_pow _ j1)

/-- `places` finds the shortest scale. -/
theorem places_spec {v : ℚ} {s : Nat} (h : v.den ∣ 10 ^ s) : v.den ∣ 10 ^ places v ∧ places v ≤ s := by
  have hex : ∃ x ∈ List.range (v.den.log2 + 1), decide (10 ^ x % v.den = 0) = true :=
    ⟨v.den.log2, by simp, by simpa using Nat.mod_eq_zero_of_dvd (pow_log_bound h)⟩
  have hs : ((List.range (v.den.log2 + 1)).find? (fun s => decide (10 ^ s % v.den = 0))).isSome := by
    rw [List.find?_isSome]; exact hex
  obtain ⟨x, hx⟩ := Option.isSome_iff_exists.1 hs
  have hp : places v = x := by unfold places; rw [hx]; rfl
  have h1 := List.find?_some hx
  refine ⟨?_, ?_⟩
  · rw [hp]; exact Nat.dvd_of_mod_eq_zero (by simpa using h1)
  · rw [hp]
    by_contra hc
    have hlt : s < x := by omega
    have hmem := List.mem_of_find?_eq_some hx
    have := List.find?_range_eq_some.1 hx
    have h3 := this.2.2 s hlt
    simp at h3
    exact h3 (Nat.mod_eq_zero_of_dvd h)

end Blnk.Request
