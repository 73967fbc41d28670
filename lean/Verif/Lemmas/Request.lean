import Verif.Lemmas.Float
import Verif.Model.Refund
/-
Acceptance of a request taken apart, and the digit count.
-/
namespace Blnk.Request
open Blnk

variable {P : ℚ → ℚ}

/-! ### Digits -/

theorem fits_den {n : Nat} {v : ℚ} (h : Fits n v) : ∃ s : Nat, v.den ∣ 10 ^ s := by
  obtain ⟨a, k, _, rfl⟩ := h
  rcases le_total 0 k with hk | hk
  · obtain ⟨m, rfl⟩ := Int.eq_ofNat_of_zero_le hk
    refine ⟨0, ?_⟩
    have : (a : ℚ) * (10 : ℚ) ^ ((m : Nat) : Int) = ((a * 10 ^ m : Int) : ℚ) := by push_cast; simp
    rw [this, Rat.den_intCast]; simp
  · obtain ⟨m, hm⟩ := Int.eq_ofNat_of_zero_le (show 0 ≤ -k by omega)
    refine ⟨m, ?_⟩
    have : (a : ℚ) * (10 : ℚ) ^ k = (a : ℚ) / ((10 ^ m : Int) : ℚ) := by
      rw [show k = -(m : Int) by omega, zpow_neg]; push_cast; simp [div_eq_mul_inv]
    rw [this]
    have h2 := Rat.den_dvd a (10 ^ m)
    rw [Rat.divInt_eq_div] at h2
    exact_mod_cast h2

theorem significant_iff {v : ℚ} {s : Nat} (h : v.den ∣ 10 ^ s) (h0 : 0 ≤ v) :
    significant v ≤ 15 ↔ v * 10 ^ places v < 10 ^ 15 := by
  obtain ⟨h1, _⟩ := places_spec h
  unfold significant
  rw [Nat.length_toDigits_le_iff (by norm_num) (by norm_num)]
  have hn : 0 ≤ v.num := Rat.num_nonneg.2 h0
  have e := scaled_eq h1
  have e2 : ((v.num.natAbs * (10 ^ places v / v.den) : Nat) : ℚ) = v * 10 ^ places v := by
    rw [← e]
    have : ((v.num.natAbs * (10 ^ places v / v.den) : Nat) : Int) = v.num * ((10 ^ places v / v.den : Nat) : Int) := by
      push_cast
      rw [abs_of_nonneg hn]
    rw [← this]
    exact (Int.cast_natCast _).symm
  rw [← e2]
  constructor
  · intro hh; exact_mod_cast hh
  · intro hh; exact_mod_cast hh

/-- Few digits before and after the point pass the check. -/
theorem significant_le {a s : Nat} (ha : a < 10 ^ 15) : significant ((a : ℚ) / 10 ^ s) ≤ 15 := by
  have hd : ((a : ℚ) / 10 ^ s).den ∣ 10 ^ s := by
    have h2 := Rat.den_dvd (a : Int) (10 ^ s)
    rw [Rat.divInt_eq_div] at h2
    have : ((a : Int) : ℚ) / ((10 ^ s : Int) : ℚ) = (a : ℚ) / 10 ^ s := by push_cast; rfl
    rw [this] at h2
    exact_mod_cast h2
  have h0 : (0 : ℚ) ≤ (a : ℚ) / 10 ^ s := by positivity
  rw [significant_iff hd h0]
  have hp := (places_spec hd).2
  have h3 : (10 : ℚ) ^ places ((a : ℚ) / 10 ^ s) ≤ 10 ^ s := pow_le_pow_right₀ (by norm_num) hp
  calc (a : ℚ) / 10 ^ s * 10 ^ places ((a : ℚ) / 10 ^ s) ≤ (a : ℚ) / 10 ^ s * 10 ^ s :=
        mul_le_mul_of_nonneg_left h3 h0
    _ = a := by field_simp
    _ < 10 ^ 15 := by exact_mod_cast ha

/-- What passes the check has at most fifteen digits and is below `10^15`. -/
theorem significant_fits {v : ℚ} {n : Nat} (h : Fits n v) (h0 : 0 ≤ v) (hs : significant v ≤ 15) :
    Fits 15 v ∧ v < 10 ^ 15 := by
  obtain ⟨s, hd⟩ := fits_den h
  have hl := (significant_iff hd h0).1 hs
  obtain ⟨h1, _⟩ := places_spec hd
  have e := scaled_eq h1
  have hp : (1 : ℚ) ≤ 10 ^ places v := one_le_pow₀ (by norm_num)
  refine ⟨⟨v.num * ((10 ^ places v / v.den : Nat) : Int), -(places v : Int), ?_, ?_⟩, ?_⟩
  · have hn : 0 ≤ v.num * ((10 ^ places v / v.den : Nat) : Int) := mul_nonneg (Rat.num_nonneg.2 h0) (by positivity)
    rw [← e] at hl
    have : v.num * ((10 ^ places v / v.den : Nat) : Int) < 10 ^ 15 := by exact_mod_cast hl
    omega
  · rw [e, zpow_neg]
    simp
  · calc v ≤ v * 10 ^ places v := le_mul_of_one_le_right h0 hp
      _ < 10 ^ 15 := hl

/-! ### Reading -/

set_option exponentiation.threshold 1200 in
theorem big : (10 : ℚ) ^ 31 ≤ 2 ^ 1024 := by decide +kernel

theorem half_le_one : half ≤ 1 := by
  have h1 := half_small
  have h2 : least ≤ 1 := by unfold least; decide +kernel
  norm_num at h1
  linarith [half_pos]

theorem f64pos_lt {q : ℚ} (h0 : 0 ≤ q) (h : q < 10 ^ 30) : f64pos q < 10 ^ 31 := by
  have a := abs_le.1 (f64pos_near h0)
  have b := half_le_one
  have c := a.2
  norm_num at c h ⊢
  linarith

theorem read_ok {q : ℚ} (h0 : 0 ≤ q) (h : q < 10 ^ 30) : readF64 q = some (f64 q) := by
  unfold readF64
  rw [if_neg (not_lt.2 h0)]
  have := f64pos_lt h0 h
  have hb := big
  rw [if_neg]
  intro hc
  exact absurd (lt_of_lt_of_le this hb) (not_lt.2 hc)

theorem read_eq {q f : ℚ} (h : readF64 q = some f) : f = f64 q := by
  unfold readF64 at h
  by_cases hc : (2 : ℚ) ^ 1024 ≤ f64pos (if q < 0 then -q else q)
  · rw [if_pos hc] at h; cases h
  · rw [if_neg hc] at h; exact (Option.some.inj h).symm

theorem decode_eq {r d : Raw} (h : decode r = some d) :
    d = { r with amount := f64 r.amount, precision := f64 r.precision, overdraftLimit := f64 r.overdraftLimit } := by
  unfold decode at h
  split at h
  · rename_i a p o h1 h2 h3
    have e := Option.some.inj h
    rw [← e, read_eq h1, read_eq h2, read_eq h3]
  · cases h

/-! ### Acceptance -/

theorem problems_nil {r : Raw} : problems P r = [] ↔
    amountProblem P r = none ∧ precisionProblem r = none ∧ required r.currency = none ∧ required r.reference = none ∧
    required r.description = none ∧ sourceProblem r = none ∧ destinationProblem r = none ∧
    dateProblem r.scheduledFor = none ∧ dateProblem r.expiryDate = none ∧ dateProblem r.commitDate = none := by
  unfold problems fields
  simp [List.filterMap_eq_nil_iff]

theorem accept_ok {newId : String} {r : Raw} {t : Txn} (h : accept P newId r = .ok t) :
    ∃ d, decode r = some d ∧ problems P d = [] ∧ t = toTxn P newId d := by
  unfold accept at h
  split at h
  · cases h
  · rename_i d hd
    split at h
    · rename_i hp
      exact ⟨d, hd, hp, by cases h; rfl⟩
    · cases h

theorem required_none {s : String} : required s = none ↔ s ≠ "" := by
  unfold required; split <;> simp_all

theorem precision_ok {r : Raw} (h : precisionProblem r = none) : ∃ p : Nat, r.precision = p := by
  unfold precisionProblem at h
  split at h
  · cases h
  · rename_i h1
    split at h
    · cases h
    · rename_i h2
      have h1 : ((Split.trunc r.precision : Int) : ℚ) = r.precision := by simpa using h1
      have h3 : (0 : ℚ) ≤ r.precision := not_lt.1 h2
      rw [← h1] at h3
      have h4 : 0 ≤ Split.trunc r.precision := by exact_mod_cast h3
      obtain ⟨n, hn⟩ := Int.eq_ofNat_of_zero_le h4
      exact ⟨n, by rw [← h1, hn]; simp⟩

theorem trunc_nat (p : Nat) : Split.trunc (p : ℚ) = p := by
  unfold Split.trunc
  rw [if_pos (by positivity)]
  exact_mod_cast Rat.floor_intCast (p : Int)

theorem precision_fine {r : Raw} {p : Nat} (h : r.precision = p) : precisionProblem r = none := by
  unfold precisionProblem
  rw [h, trunc_nat]
  have : ¬ ((p : ℚ) < 0) := not_lt.2 (by positivity)
  simp [this]

/-- What an accepted decimal amount is. -/
theorem amount_ok {r : Raw} (h : amountProblem P r = none) (hp : r.preciseAmount = none) :
    0 < r.amount ∧ significant (P r.amount) ≤ 15 := by
  unfold amountProblem at h
  rw [hp] at h
  simp only [Option.isSome_none, Bool.false_eq_true, and_false, if_false, Option.isNone_none, and_true] at h
  split at h
  · cases h
  · rename_i h1
    split at h
    · cases h
    · rename_i h2
      split at h
      · cases h
      · rename_i h3
        refine ⟨lt_of_le_of_ne (not_lt.1 h3) (Ne.symm h1), ?_⟩
        by_contra hc
        exact h2 ⟨h1, by omega⟩

theorem amount_fine {r : Raw} (hp : r.preciseAmount = none) (h0 : 0 < r.amount) (hs : significant (P r.amount) ≤ 15) :
    amountProblem P r = none := by
  unfold amountProblem
  rw [hp]
  have h1 : r.amount ≠ 0 := ne_of_gt h0
  have h2 : ¬ r.amount < 0 := not_lt.2 h0.le
  have h3 : ¬ (significant (P r.amount) > 15) := by omega
  simp [h1, h2, h3]

/-- A request with everything else in order is accepted if its amount passes the digit check. -/
theorem accept_plain {newId : String} {r : Raw} (hr : Plain r) (h0 : 0 < f64 r.amount) (hb : r.amount < 10 ^ 30)
    (hs : significant (P (f64 r.amount)) ≤ 15) :
    accept P newId r = .ok (toTxn P newId { r with amount := f64 r.amount }) := by
  obtain ⟨p, hp, hpb, hpf⟩ := hr.precision
  have ha := f64_sign h0
  have h1 : readF64 r.amount = some (f64 r.amount) := read_ok ha.le hb
  have h2 : readF64 r.precision = some r.precision := by
    rw [hp, read_ok (by positivity) (by exact_mod_cast hpb), hpf]
  have h3 : readF64 r.overdraftLimit = some r.overdraftLimit := by
    rw [hr.noLimit, read_ok le_rfl (by norm_num), f64_zero]
  have hd : decode r = some { r with amount := f64 r.amount } := by
    unfold decode; rw [h1, h2, h3]
  have hn : problems P { r with amount := f64 r.amount } = [] := by
    rw [problems_nil]
    refine ⟨amount_fine hr.noPrecise h0 hs, precision_fine (p := p) hp, ?_, ?_, ?_, ?_, ?_, ?_, ?_, ?_⟩
    · exact required_none.2 hr.texts.1
    · exact required_none.2 hr.texts.2.1
    · exact required_none.2 hr.texts.2.2
    · unfold sourceProblem; simp [hr.source.1, hr.source.2]
    · unfold destinationProblem; simp [hr.destination.1, hr.destination.2, hr.source.1, hr.source.2, hr.differ]
    · rw [hr.dates.1]; rfl
    · rw [hr.dates.2.1]; rfl
    · rw [hr.dates.2.2]; rfl
  unfold accept
  rw [hd]
  dsimp only
  rw [hn]

/-- The minor units of a submitted decimal amount. -/
theorem submit_amount {t : Txn} (h : t.preciseAmount = none) :
    (submit t).preciseAmount = some (roundHalfAway (t.amount * (roundHalfEven (orOne t.precision) : ℚ))) := by
  have e : (submit t).preciseAmount = t.applyPrecision.preciseAmount := rfl
  rw [e]
  unfold Txn.applyPrecision orOne convertDecimalToPrecise
  by_cases hp : t.precision = 0
  · simp only [if_pos hp, h]
  · simp only [if_neg hp, h]

theorem submit_precise {t : Txn} {n : Int} (h : t.preciseAmount = some n) (hn : 0 < n) :
    (submit t).preciseAmount = some n := by
  have e : (submit t).preciseAmount = t.applyPrecision.preciseAmount := rfl
  rw [e]
  unfold Txn.applyPrecision
  by_cases hp : t.precision = 0
  · simp only [if_pos hp, h, if_pos hn]
  · simp only [if_neg hp, h, if_pos hn]

theorem orOne_nat (p : Nat) : ∃ m : Nat, orOne (p : ℚ) = m ∧ 0 < m ∧ asked (p : ℚ) = m := by
  unfold orOne asked
  by_cases h : p = 0
  · subst h; exact ⟨1, by simp, by norm_num, by simp⟩
  · have : (p : ℚ) ≠ 0 := by exact_mod_cast h
    exact ⟨p, by simp [this], Nat.pos_of_ne_zero h, by simp [this]⟩

theorem rhe_nat (m : Nat) : roundHalfEven (m : ℚ) = m := by
  exact_mod_cast roundHalfEven_int (m : Int)

theorem nearest_round {x : ℚ} (h0 : 0 ≤ x) : Nearest (roundHalfAway x) x := by
  have h := roundHalfAway_near x
  refine ⟨abs_le.2 ⟨by linarith [h.2], by linarith [h.1]⟩, ?_⟩
  intro m hm
  rw [hm, roundHalfAway_tie]
  have : 0 ≤ m := by
    by_contra hc
    have : m ≤ -1 := by omega
    have : (m : ℚ) ≤ -1 := by exact_mod_cast this
    linarith
  rw [if_pos this]

/-- There is only one nearest number. -/
theorem Nearest.unique {n m : Int} {x : ℚ} (h : Nearest n x) (h' : Nearest m x) : n = m := by
  have a := abs_le.1 h.1
  have b := abs_le.1 h'.1
  by_contra hne
  rcases lt_or_gt_of_ne hne with hlt | hlt
  · have : (n : ℚ) + 1 ≤ m := by exact_mod_cast hlt
    have e : x = n + 1 / 2 := by linarith [a.1, a.2, b.1, b.2]
    have := h.2 n e
    omega
  · have : (m : ℚ) + 1 ≤ n := by exact_mod_cast hlt
    have e : x = m + 1 / 2 := by linarith [a.1, a.2, b.1, b.2]
    have := h'.2 m e
    omega

end Blnk.Request
