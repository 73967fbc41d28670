import Verif.Lemmas.Request
/-
C122–C124: what becomes of the amount a client writes.
-/
namespace Blnk.Request
open Blnk

variable {P : ℚ → ℚ}

/-! ### C122: the amount recorded is the amount written -/

/-- C122 in full: an accepted request with a decimal amount moves that amount, to the nearest
minor unit. -/
def C122Full : Prop :=
  ∀ P, Shortest P → ∀ newId r t, Decimal r.amount → Decimal r.precision → r.preciseAmount = none →
    accept P newId r = .ok t → ∃ n, (submit t).preciseAmount = some n ∧ Nearest n (r.amount * asked r.precision)

/-- A request used in the examples. -/
def sample : Raw :=
  { amount := 1 / 10, precision := 100, source := "@a", destination := "@b", reference := "r", description := "d", currency := "USD" }

theorem sample_plain : Plain sample :=
  ⟨rfl, ⟨100, rfl, by norm_num, f64_whole (n := 100) (by norm_num)⟩, rfl, ⟨by decide, rfl⟩, ⟨by decide, rfl⟩, by decide,
    ⟨by decide, by decide, by decide⟩, rfl, rfl, rfl⟩

theorem sample_at {a : ℚ} {p : Nat} (hp : p < 10 ^ 30) (hf : f64 p = p) : Plain { sample with amount := a, precision := p } :=
  { sample_plain with precision := ⟨p, rfl, hp, hf⟩ }

theorem fits_tenth : Fits 15 (1 / 10) := ⟨1, -1, by norm_num, by norm_num⟩

theorem least_le_tenth : least ≤ 1 / 10 := by decide +kernel

/-- `0.1` followed by fifteen zeros and `55`: accepted, and taken for `0.1`. -/
theorem c122_full_fails : ¬ C122Full := by
  intro hfull
  obtain ⟨P, hP⟩ := shortest_exists
  have hf : f64 (1000000000000000055 / 10 ^ 19) = f64 (1 / 10) := by decide +kernel
  have hv : P (f64 (1000000000000000055 / 10 ^ 19)) = 1 / 10 := by
    rw [hf]; exact print_short hP fits_tenth least_le_tenth
  have hp20 : f64 ((10 ^ 20 : Nat) : ℚ) = ((10 ^ 20 : Nat) : ℚ) := by decide +kernel
  have hpl : Plain { sample with amount := 1000000000000000055 / 10 ^ 19, precision := ((10 ^ 20 : Nat) : ℚ) } :=
    sample_at (by norm_num) hp20
  have hacc := accept_plain (P := P) (newId := "t") hpl (by dsimp only; decide +kernel) (by dsimp only [sample]; norm_num)
    (by dsimp only; rw [hv]; decide +kernel)
  obtain ⟨n, h1, h2⟩ := hfull P hP "t" _ _ ⟨20, 1000000000000000055, -19, by norm_num, by dsimp only; norm_num⟩
    ⟨21, 10 ^ 20, 0, by norm_num, by dsimp only; norm_num⟩ rfl hacc
  rw [submit_amount rfl] at h1
  have e : (toTxn P "t" { ({ sample with amount := 1000000000000000055 / 10 ^ 19, precision := ((10 ^ 20 : Nat) : ℚ) } : Raw)
      with amount := f64 (1000000000000000055 / 10 ^ 19) }).amount = 1 / 10 := hv
  have e2 : (toTxn P "t" { ({ sample with amount := 1000000000000000055 / 10 ^ 19, precision := ((10 ^ 20 : Nat) : ℚ) } : Raw)
      with amount := f64 (1000000000000000055 / 10 ^ 19) }).precision = ((10 ^ 20 : Nat) : ℚ) := rfl
  dsimp only at h1
  rw [e, e2] at h1
  have hn : n = 10 ^ 19 := by
    have := Option.some.inj h1
    rw [← this]; decide +kernel
  subst hn
  have := h2.1
  dsimp only [asked] at this
  norm_num at this

/-- The precision is a double too: `10^24` is none, and one unit at that precision is short of
`10^24` minor units by more than sixteen million. -/
theorem c122_precision_fails : ∀ P, Shortest P → ∀ newId, ∃ t,
    accept P newId { sample with amount := 1, precision := 10 ^ 24 } = .ok t ∧
    (submit t).preciseAmount = some 999999999999999983222784 := by
  intro P hP newId
  have h1 : f64 1 = 1 := by decide +kernel
  have hv : P (f64 1) = 1 := print_short hP ⟨1, 0, by norm_num, by norm_num⟩ (by decide +kernel)
  have hp : f64 ((10 : ℚ) ^ 24) = 999999999999999983222784 := by decide +kernel
  have hd : decode { sample with amount := 1, precision := 10 ^ 24 } =
      some { sample with amount := 1, precision := 999999999999999983222784 } := by
    unfold decode
    dsimp only
    rw [read_ok (by norm_num) (by norm_num), read_ok (by norm_num) (by norm_num), h1, hp]
    have : readF64 sample.overdraftLimit = some 0 := by
      have : sample.overdraftLimit = 0 := rfl
      rw [this, read_ok le_rfl (by norm_num), f64_zero]
    rw [this]
    rfl
  rw [h1] at hv
  have hnp : problems P { sample with amount := 1, precision := 999999999999999983222784 } = [] := by
    rw [problems_nil]
    refine ⟨amount_fine rfl (by dsimp only; norm_num) (by dsimp only; rw [hv]; decide +kernel),
      precision_fine (p := 999999999999999983222784) (by dsimp only; norm_num), ?_⟩
    decide +kernel
  refine ⟨_, by unfold accept; rw [hd]; dsimp only; rw [hnp], ?_⟩
  rw [submit_amount rfl]
  have e : (toTxn P newId { sample with amount := 1, precision := 999999999999999983222784 }).amount = 1 := hv
  have e2 : (toTxn P newId { sample with amount := 1, precision := 999999999999999983222784 }).precision = 999999999999999983222784 := rfl
  rw [e, e2]
  decide +kernel

/-- An accepted decimal amount, taken apart. -/
theorem accepted_amount {newId : String} {r : Raw} {t : Txn} (hpa : r.preciseAmount = none) (h : accept P newId r = .ok t) :
    0 < f64 r.amount ∧ significant (P (f64 r.amount)) ≤ 15 ∧ ∃ m : Nat, 0 < m ∧ asked (f64 r.precision) = m ∧
      (submit t).preciseAmount = some (roundHalfAway (P (f64 r.amount) * m)) := by
  obtain ⟨d, hd, hn, ht⟩ := accept_ok h
  have e := decode_eq hd
  obtain ⟨h1, h2, _⟩ := problems_nil.1 hn
  have hdp : d.preciseAmount = none := by rw [e]; exact hpa
  obtain ⟨a1, a2⟩ := amount_ok h1 hdp
  obtain ⟨p, hp⟩ := precision_ok h2
  obtain ⟨m, m1, m2, m3⟩ := orOne_nat p
  have ea : d.amount = f64 r.amount := by rw [e]
  have ep : d.precision = f64 r.precision := by rw [e]
  rw [ea] at a1 a2
  refine ⟨a1, a2, m, m2, by rw [← ep, hp]; exact m3, ?_⟩
  rw [ht, submit_amount (by show d.preciseAmount = none; exact hdp)]
  have e1 : (toTxn P newId d).amount = P (f64 r.amount) := by show P d.amount = _; rw [ea]
  have e2 : (toTxn P newId d).precision = d.precision := rfl
  rw [e1, e2, hp, m1, rhe_nat]
  rfl

/-- C122 for amounts of at most fifteen digits and precisions a double holds: the amount
recorded is the nearest number of minor units to the amount written, exact when that is
whole.  Missing from the full statement: longer amounts and other precisions, for which it
is false. -/
theorem c122_recorded_partial (hP : Shortest P) {newId : String} {r : Raw} {t : Txn} (hf : Fits 15 r.amount) (hl : least ≤ r.amount)
    (hp : f64 r.precision = r.precision) (hpa : r.preciseAmount = none) (h : accept P newId r = .ok t) :
    ∃ n, (submit t).preciseAmount = some n ∧ Nearest n (r.amount * asked r.precision) ∧
      ∀ m : Int, r.amount * asked r.precision = m → n = m := by
  obtain ⟨_, _, m, hm, hq, hs⟩ := accepted_amount hpa h
  rw [print_short hP hf hl] at hs
  rw [hp] at hq
  rw [hq]
  refine ⟨_, hs, nearest_round (mul_nonneg (le_trans least_pos.le hl) (by positivity)), ?_⟩
  intro k hk
  rw [hk, roundHalfAway_int]

/-- Every accepted amount, however many digits were written: the amount recorded is off by at
most half a minor unit and one part in `2^51`. -/
theorem c122_close_partial (hP : Shortest P) {newId : String} {r : Raw} {t : Txn} (hd : Decimal r.amount)
    (hp : f64 r.precision = r.precision) (hpa : r.preciseAmount = none) (h : accept P newId r = .ok t) :
    ∃ n : Int, (submit t).preciseAmount = some n ∧
      |(n : ℚ) - r.amount * asked r.precision| ≤ 1 / 2 + (r.amount / 2 ^ 51 + least) * asked r.precision := by
  obtain ⟨k, hd⟩ := hd
  obtain ⟨h0, _, m, hm, hq, hs⟩ := accepted_amount hpa h
  rw [hp] at hq
  rw [hq]
  refine ⟨_, hs, ?_⟩
  have c := abs_le.1 (print_close hP hd h0)
  have hv := (print_nonneg hP hd h0).le
  have nr := abs_le.1 (nearest_round (mul_nonneg hv (show (0 : ℚ) ≤ m by positivity))).1
  have hm' : (0 : ℚ) < m := by exact_mod_cast hm
  have hh : 3 * half ≤ least := by
    have := half_small
    have := half_pos
    norm_num at *
    linarith
  generalize P (f64 r.amount) = v at *
  have c1 : (v - r.amount) * m ≤ (r.amount / 2 ^ 51 + least) * m := mul_le_mul_of_nonneg_right (by linarith [c.2]) hm'.le
  have c2 : (r.amount - v) * m ≤ (r.amount / 2 ^ 51 + least) * m := mul_le_mul_of_nonneg_right (by linarith [c.1]) hm'.le
  rw [abs_le]
  constructor
  · have := nr.1
    nlinarith
  · have := nr.2
    nlinarith

/-- A `precise_amount` is recorded as it is. -/
theorem c122_precise_partial {newId : String} {r : Raw} {t : Txn} {n : Int} (hn : r.preciseAmount = some n) (h0 : 0 < n)
    (h : accept P newId r = .ok t) : (submit t).preciseAmount = some n := by
  obtain ⟨d, hd, _, ht⟩ := accept_ok h
  have e := decode_eq hd
  rw [ht]
  exact submit_precise (by show d.preciseAmount = some n; rw [e]; exact hn) h0

/-- The hypotheses hold of `0.1` at precision 100, which moves ten cents. -/
example : ∃ P, Shortest P ∧ ∃ t, accept P "t" sample = .ok t ∧ (submit t).preciseAmount = some 10 := by
  obtain ⟨P, hP⟩ := shortest_exists
  have hv : P (f64 (1 / 10)) = 1 / 10 := print_short hP fits_tenth least_le_tenth
  have hacc := accept_plain (P := P) (newId := "t") sample_plain (by dsimp only [sample]; decide +kernel) (by dsimp only [sample]; norm_num)
    (by dsimp only [sample]; rw [hv]; decide +kernel)
  refine ⟨P, hP, _, hacc, ?_⟩
  obtain ⟨n, h1, _, h3⟩ := c122_recorded_partial hP fits_tenth least_le_tenth
    (show f64 (100 : ℚ) = 100 by decide +kernel) rfl hacc
  have := h3 10 (by dsimp only [sample, asked]; norm_num)
  rw [← this]; exact h1

/-! ### C123: amounts that can be kept are accepted, others are not -/

/-- C123 in full: a proper request whose amount has at most fifteen digits is accepted. -/
def C123Full : Prop :=
  ∀ P, Shortest P → ∀ newId r, Plain r → Fits 15 r.amount → least ≤ r.amount → r.amount ≤ 10 ^ 20 → ∃ t, accept P newId r = .ok t

/-- One followed by fifteen zeros has one significant digit and is refused: the zeros are
counted. -/
theorem c123_full_fails : ¬ C123Full := by
  intro hfull
  obtain ⟨P, hP⟩ := shortest_exists
  have hfit : Fits 15 ((10 : ℚ) ^ 15) := ⟨1, 15, by norm_num, by norm_num⟩
  have hl : least ≤ (10 : ℚ) ^ 15 := by decide +kernel
  have hpl : Plain { sample with amount := (10 : ℚ) ^ 15 } := { sample_plain with }
  obtain ⟨t, ht⟩ := hfull P hP "t" _ hpl hfit hl (by dsimp only; norm_num)
  obtain ⟨_, hs, _⟩ := accepted_amount rfl ht
  dsimp only at hs
  rw [print_short hP hfit hl] at hs
  revert hs
  decide +kernel

/-- C123 for amounts with at most fifteen digits before and after the point together: they are
accepted.  Missing: amounts of `10^15` and more, which are refused. -/
theorem c123_accepted_partial (hP : Shortest P) {newId : String} {r : Raw} (hr : Plain r) {a s : Nat} (ha : a < 10 ^ 15)
    (he : r.amount = a / 10 ^ s) (hl : least ≤ r.amount) : ∃ t, accept P newId r = .ok t := by
  have hfit : Fits 15 r.amount := by
    refine ⟨a, -(s : Int), ?_, ?_⟩
    · simpa using ha
    · rw [he, zpow_neg]; push_cast; simp [div_eq_mul_inv]
  have hle : r.amount ≤ a := by
    rw [he]
    apply div_le_self (by positivity)
    exact one_le_pow₀ (by norm_num)
  have hb : r.amount < 10 ^ 30 := by
    have h1 : (a : ℚ) < 10 ^ 15 := by exact_mod_cast ha
    have h2 : (10 : ℚ) ^ 15 < 10 ^ 30 := by norm_num
    exact lt_of_le_of_lt hle (h1.trans h2)
  refine ⟨_, accept_plain hr (f64_positive hl) hb ?_⟩
  rw [print_short hP hfit hl, he]
  exact significant_le ha

/-- The other direction: what is accepted is kept with at most fifteen digits and is below
`10^15`; so is the amount the ledger goes on with. -/
theorem c123_kept_partial (hP : Shortest P) {newId : String} {r : Raw} {t : Txn} (hd : Decimal r.amount)
    (hpa : r.preciseAmount = none) (h : accept P newId r = .ok t) : Fits 15 t.amount ∧ 0 < t.amount ∧ t.amount < 10 ^ 15 := by
  obtain ⟨k, hd⟩ := hd
  obtain ⟨h0, hs, _⟩ := accepted_amount hpa h
  obtain ⟨d, hdec, _, ht⟩ := accept_ok h
  have e := decode_eq hdec
  have ea : t.amount = P (f64 r.amount) := by rw [ht]; show P d.amount = _; rw [e]
  rw [ea]
  have hv := print_nonneg hP hd h0
  obtain ⟨f1, f2⟩ := significant_fits (hP.short _ _ hd) hv.le hs
  exact ⟨f1, hv, f2⟩

/-- A price with two decimals is such an amount. -/
example : ∀ P, Shortest P → ∃ t, accept P "t" { sample with amount := 1234567890123 / 100 } = .ok t := fun P hP =>
  c123_accepted_partial hP { sample_plain with } (a := 1234567890123) (s := 2) (by norm_num) (by dsimp only; norm_num)
    (by dsimp only; decide +kernel)

/-! ### C124: the amount shown is the amount recorded -/

/-- C124 in full: the decimal amount kept with a transaction is its minor units over its
precision. -/
def C124Full : Prop :=
  ∀ P, Shortest P → ∀ (n : Int) (p : Nat), 0 < n → 0 < p → f64 p = p → shownAmount P n p = n / p

/-- One minor unit at precision `10^18` (a wei) is kept as zero. -/
theorem c124_full_fails : ¬ C124Full := by
  intro hfull
  obtain ⟨P, hP⟩ := shortest_exists
  have hp : f64 ((10 ^ 18 : Nat) : ℚ) = ((10 ^ 18 : Nat) : ℚ) := by decide +kernel
  have hv : P ((10 ^ 18 : Nat) : ℚ) = ((10 ^ 18 : Nat) : ℚ) := by
    have := print_short hP (d := ((10 ^ 18 : Nat) : ℚ)) ⟨1, 18, by norm_num, by norm_num⟩ (by decide +kernel)
    rwa [hp] at this
  have h := hfull P hP 1 (10 ^ 18) (by norm_num) (by norm_num) hp
  unfold shownAmount at h
  have ho : orOne ((10 ^ 18 : Nat) : ℚ) = ((10 ^ 18 : Nat) : ℚ) := by decide +kernel
  rw [ho, hv] at h
  revert h
  decide +kernel

theorem orOne_pos {p : Nat} (h : 0 < p) : orOne (p : ℚ) = p := by
  unfold orOne
  rw [if_neg (by exact_mod_cast h.ne')]

theorem least_le_nat {p : Nat} (h : 0 < p) : least ≤ p := by
  have h1 : least ≤ 1 := by decide +kernel
  have h2 : (1 : ℚ) ≤ p := by exact_mod_cast h
  linarith

theorem print_precision (hP : Shortest P) {p : Nat} (h0 : 0 < p) (hfit : Fits 15 p) (hf : f64 p = p) : P (orOne p) = p := by
  rw [orOne_pos h0]
  have := print_short hP hfit (least_le_nat h0)
  rwa [hf] at this

/-- C124 for precisions that divide `10^16`: exact.  Missing: finer precisions, for which it is
false. -/
theorem c124_exact_partial (hP : Shortest P) (n : Int) {p : Nat} (h0 : 0 < p) (hfit : Fits 15 p) (hf : f64 p = p)
    (hdvd : p ∣ 10 ^ 16) : shownAmount P n p = n / p := by
  unfold shownAmount div16
  rw [print_precision hP h0 hfit hf]
  obtain ⟨c, hc⟩ := hdvd
  have hp' : (p : ℚ) ≠ 0 := by exact_mod_cast h0.ne'
  have hc' : (10 : ℚ) ^ 16 = p * c := by exact_mod_cast hc
  have hc0 : (c : ℚ) ≠ 0 := by
    intro hz
    rw [hz, mul_zero] at hc'
    norm_num at hc'
  have : (n : ℚ) / p * 10 ^ 16 = ((n * c : Int) : ℚ) := by
    rw [hc']; push_cast; field_simp
  rw [this, roundHalfAway_int, hc']
  push_cast
  field_simp

/-- For every precision the amount shown is within half a unit of the sixteenth decimal. -/
theorem c124_close_partial (hP : Shortest P) (n : Int) {p : Nat} (h0 : 0 < p) (hfit : Fits 15 p) (hf : f64 p = p) :
    |shownAmount P n p - n / p| ≤ 1 / (2 * 10 ^ 16) := by
  unfold shownAmount div16
  rw [print_precision hP h0 hfit hf]
  have h := roundHalfAway_near ((n : ℚ) / p * 10 ^ 16)
  generalize (n : ℚ) / p = x at *
  rw [abs_le]
  constructor
  · rw [le_sub_iff_add_le, le_div_iff₀ (by norm_num)]
    linarith [h.2]
  · rw [sub_le_iff_le_add, div_le_iff₀ (by norm_num)]
    linarith [h.1]

/-- Round trip: an amount of at most fifteen digits that is a whole number of minor units at a
precision dividing `10^16` is stored and answered digit for digit as it was sent. -/
theorem c124_roundtrip_partial (hP : Shortest P) {newId : String} {r : Raw} {t : Txn} {p : Nat} {n : Int} (h0 : 0 < p)
    (hfit : Fits 15 p) (hf : f64 p = p) (hdvd : p ∣ 10 ^ 16) (hp : r.precision = p) (ha : Fits 15 r.amount)
    (hl : least ≤ r.amount) (hn : r.amount * p = n) (hpa : r.preciseAmount = none) (h : accept P newId r = .ok t) :
    (submit t).preciseAmount = some n ∧ shownAmount P n t.precision = r.amount ∧ answeredAmount P n t.precision = r.amount := by
  have hask : asked r.precision = p := by
    unfold asked; rw [hp, if_neg (by exact_mod_cast h0.ne')]
  obtain ⟨m, h1, _, h3⟩ := c122_recorded_partial hP ha hl (by rw [hp]; exact hf) hpa h
  have hm := h3 n (by rw [hask]; exact hn)
  obtain ⟨d, hdec, _, ht⟩ := accept_ok h
  have e := decode_eq hdec
  have ep : t.precision = p := by rw [ht]; show d.precision = _; rw [e]; show f64 r.precision = _; rw [hp]; exact hf
  have hs : shownAmount P n t.precision = r.amount := by
    rw [ep, c124_exact_partial hP n h0 hfit hf hdvd, ← hn]
    have : (p : ℚ) ≠ 0 := by exact_mod_cast h0.ne'
    field_simp
  refine ⟨by rw [← hm]; exact h1, hs, ?_⟩
  unfold answeredAmount
  rw [hs, print_short hP ha hl]

/-- 19.99 at precision 100 is such an amount. -/
example : Fits 15 ((100 : Nat) : ℚ) ∧ f64 ((100 : Nat) : ℚ) = ((100 : Nat) : ℚ) ∧ 100 ∣ 10 ^ 16 ∧ Fits 15 (1999 / 100 : ℚ) ∧
    least ≤ 1999 / 100 ∧ (1999 / 100 : ℚ) * (100 : Nat) = (1999 : Int) :=
  ⟨⟨100, 0, by norm_num, by norm_num⟩, by decide +kernel, by norm_num, ⟨1999, -2, by norm_num, by norm_num⟩, by decide +kernel, by norm_num⟩

end Blnk.Request
