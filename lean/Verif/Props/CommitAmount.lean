import Verif.Lemmas.Request
/-
C125 and C129: the amount a commit request settles.
-/
namespace Blnk.Request
open Blnk

variable {P : ℚ → ℚ}

/-- What a decided commit settles. -/
theorem decided {db : DB} {id newId ref : String} {n : Int} {x : Txn} (h : decideCommit db id n newId ref = .ok x) :
    ∃ t, fetchInflight db id = .ok t ∧ 0 ≤ n ∧ x.parent = t.id ∧
      ((n = 0 ∧ x.preciseAmount = some (remaining db t)) ∨ (0 < n ∧ x.preciseAmount = some n ∧ n ≤ remaining db t)) := by
  unfold decideCommit at h
  cases hf : fetchInflight db id with
  | error e => rw [hf] at h; cases h
  | ok t =>
    rw [hf] at h
    dsimp only at h
    cases hs : settleAmount t n (remaining db t) with
    | error e => rw [hs] at h; cases h
    | ok p =>
      rw [hs] at h
      dsimp only at h
      have hx := Except.ok.inj h
      refine ⟨t, rfl, ?_⟩
      unfold settleAmount at hs
      split at hs
      · cases hs
      · split at hs
        · cases hs
        · split at hs
          · rename_i h1 h2 h3
            have := Except.ok.inj hs
            refine ⟨by omega, by rw [← hx]; rfl, .inl ⟨h3, ?_⟩⟩
            rw [← hx, this]; rfl
          · split at hs
            · cases hs
            · split at hs
              · cases hs
              · rename_i h1 h2 h3 h4 h5
                have := Except.ok.inj hs
                refine ⟨by omega, by rw [← hx]; rfl, .inr ⟨by omega, ?_, by omega⟩⟩
                rw [← hx, ← this]; rfl

theorem commitRequest_some {k : Look} {db : DB} {id newId ref : String} {r : CommitReq} {x : Txn}
    (h : commitRequest P k db id r newId ref = some x) :
    ∃ n, commitAmount P k r = .ok n ∧ decideCommit db id n newId ref = .ok x := by
  unfold commitRequest at h
  cases hc : commitAmount P k r with
  | error e => rw [hc] at h; cases h
  | ok n =>
    rw [hc] at h
    dsimp only at h
    refine ⟨n, rfl, ?_⟩
    cases hd : decideCommit db id n newId ref with
    | error e => rw [hd] at h; cases h
    | ok y =>
      rw [hd] at h
      have : y = x := Option.some.inj h
      rw [this]

theorem commitAmount_decimal {k : Look} {r : CommitReq} {n : Int} (hp : r.preciseAmount = none) (h : commitAmount P k r = .ok n) :
    n = minorUnits P (f64 r.amount) (lookedUp k) := by
  unfold commitAmount at h
  cases hr : readF64 r.amount with
  | none => rw [hr] at h; cases h
  | some fa =>
    rw [hr, hp] at h
    dsimp only at h
    rw [← read_eq hr]
    exact (Except.ok.inj h).symm

/-! ### C125 -/

/-- C125 in full: committing a decimal amount of a hold settles that amount. -/
def C125Full : Prop :=
  ∀ P, Shortest P → ∀ (db : DB) (id newId ref : String) (k : Look) (r : CommitReq) (t x : Txn) (p : Nat), Answers db id k →
    t ∈ db.txns → t.id = id → t.precision = p → 0 < p → Decimal r.amount → 0 < r.amount → r.preciseAmount = none →
    commitRequest P k db id r newId ref = some x → ∃ n, x.preciseAmount = some n ∧ Nearest n (r.amount * p)

/-- A hold of five dollars. -/
def hold : Txn :=
  { id := "h", source := "a", destination := "b", reference := "r", amount := 5, preciseAmount := some 500, precision := 100, status := .inflight }

def heldDB : DB := { txns := [hold] }

theorem hold_decide (n : Int) (h0 : 0 ≤ n) (h1 : n ≤ 500) :
    ∃ x, decideCommit heldDB "h" n "c" "s" = .ok x ∧ x.preciseAmount = some (if n = 0 then 500 else n) := by
  have hf : fetchInflight heldDB "h" = .ok hold := by decide +kernel
  have hr : remaining heldDB hold = 500 := by decide +kernel
  unfold decideCommit
  rw [hf]
  dsimp only
  rw [hr]
  have hh : hold.preciseAmount.getD 0 = 500 := rfl
  have hs : settleAmount hold n 500 = .ok (if n = 0 then 500 else n) := by
    unfold settleAmount
    rw [hh]
    by_cases hz : n = 0
    · simp [hz]
    · have e1 : ¬ n < 0 := by omega
      have e2 : ¬ (n > 500) := by omega
      rw [if_neg (by decide), if_neg e1, if_neg hz, if_neg e2, if_neg e2, if_neg hz]
  rw [hs]
  exact ⟨_, rfl, rfl⟩

theorem request_held {r : CommitReq} {k : Look} {n : Int} (hc : commitAmount P k r = .ok n) (h0 : 0 ≤ n) (h1 : n ≤ 500) :
    ∃ x, commitRequest P k heldDB "h" r "c" "s" = some x ∧ x.preciseAmount = some (if n = 0 then 500 else n) := by
  obtain ⟨x, hx, hp⟩ := hold_decide n h0 h1
  refine ⟨x, ?_, hp⟩
  unfold commitRequest
  rw [hc]
  dsimp only
  rw [hx]
  rfl

theorem commit_decimal {a : ℚ} {k : Look} (h0 : 0 ≤ a) (hb : a < 10 ^ 30) :
    commitAmount P k { amount := a } = .ok (minorUnits P (f64 a) (lookedUp k)) := by
  unfold commitAmount
  dsimp only
  rw [read_ok h0 hb]

theorem answers_held : Answers heldDB "h" (.found 100) := ⟨hold, by simp [heldDB], .inl rfl, rfl, by norm_num⟩

theorem minor_at {a : ℚ} {p : Nat} (hP : Shortest P) (hf : Fits 15 a) (hl : least ≤ a) (hp : 0 < p) :
    minorUnits P (f64 a) p = roundHalfAway (a * p) := by
  unfold minorUnits
  have ho : orOne (p : ℚ) = p := by unfold orOne; rw [if_neg (by exact_mod_cast hp.ne')]
  rw [print_short hP hf hl, ho, rhe_nat]
  rfl

/-- A tenth of a cent of a five dollar hold settles all five dollars: an amount that rounds to
nothing means "everything". -/
theorem c125_full_fails : ¬ C125Full := by
  intro hfull
  obtain ⟨P, hP⟩ := shortest_exists
  have hfit : Fits 15 (1 / 1000 : ℚ) := ⟨1, -3, by norm_num, by norm_num⟩
  have hl : least ≤ 1 / 1000 := by decide +kernel
  have hc : commitAmount P (.found 100) { amount := 1 / 1000 } = .ok 0 := by
    rw [commit_decimal (by norm_num) (by norm_num)]
    have h1 : lookedUp (.found 100) = ((100 : Nat) : ℚ) := by decide +kernel
    rw [h1, minor_at hP hfit hl (by norm_num)]
    decide +kernel
  obtain ⟨x, hx, hp⟩ := request_held hc le_rfl (by norm_num)
  obtain ⟨n, hn, hne⟩ := hfull P hP heldDB "h" "c" "s" (.found 100) { amount := 1 / 1000 } hold x 100 answers_held
    (by simp [heldDB]) rfl rfl (by norm_num) ⟨15, hfit⟩ (by norm_num) rfl hx
  rw [hp] at hn
  have : n = 500 := (Option.some.inj hn).symm
  subst this
  have := hne.1
  norm_num [abs_le] at this

/-- So does a tenth of a cent below zero. -/
theorem c125_negative_fails : ∀ P, Shortest P → ∃ x, commitRequest P (.found 100) heldDB "h" { amount := -(1 / 1000) } "c" "s" = some x ∧
    x.preciseAmount = some 500 := by
  intro P hP
  have hfit : Fits 15 (1 / 1000 : ℚ) := ⟨1, -3, by norm_num, by norm_num⟩
  have hr : readF64 (-(1 / 1000)) = some (f64 (-(1 / 1000))) := by
    have e : (if (-(1 / 1000) : ℚ) < 0 then -(-(1 / 1000)) else -(1 / 1000)) = (1 / 1000 : ℚ) := by norm_num
    have := f64pos_lt (q := 1 / 1000) (by norm_num) (by norm_num)
    unfold readF64
    rw [e, if_neg (fun hc => absurd (lt_of_lt_of_le this big) (not_lt.2 hc))]
  -- the printed number is minus a thousandth, whatever printer is used
  have hv : P (f64 (-(1 / 1000))) = -(1 / 1000) := by
    have h1 := hP.reads _ _ hfit.neg
    have h2 := (hP.short _ _ hfit.neg).neg
    have hneg : f64 (-(1 / 1000)) < 0 := by decide +kernel
    have hn : 0 ≤ -P (f64 (-(1 / 1000))) := by
      by_contra hc
      have hpos : 0 < P (f64 (-(1 / 1000))) := by linarith
      have := f64pos_nonneg _ hpos.le
      rw [← f64_pos hpos.le, h1] at this
      linarith
    have h3 : f64 (1 / 1000) = f64 (-P (f64 (-(1 / 1000)))) := by
      rw [f64_neg (P _), h1, f64_neg]; ring
    have := short_unique hfit h2 (by norm_num) hn (by decide +kernel) h3
    linarith
  have hc : commitAmount P (.found 100) { amount := -(1 / 1000) } = .ok 0 := by
    unfold commitAmount
    dsimp only
    rw [hr]
    dsimp only
    unfold minorUnits
    rw [hv]
    decide +kernel
  obtain ⟨x, hx, hp⟩ := request_held hc le_rfl (by norm_num)
  exact ⟨x, hx, hp⟩

/-- If the precision cannot be looked up, five dollars become five cents. -/
theorem c125_lookup_fails : ∀ P, Shortest P → Answers heldDB "h" .failed ∧
    ∃ x, commitRequest P .failed heldDB "h" { amount := 5 } "c" "s" = some x ∧ x.preciseAmount = some 5 := by
  intro P hP
  have hc : commitAmount P .failed { amount := 5 } = .ok 5 := by
    rw [commit_decimal (by norm_num) (by norm_num)]
    have h1 : lookedUp .failed = ((1 : Nat) : ℚ) := by decide +kernel
    rw [h1, minor_at hP ⟨5, 0, by norm_num, by norm_num⟩ (by decide +kernel) (by norm_num)]
    decide +kernel
  obtain ⟨x, hx, hp⟩ := request_held hc (by norm_num) (by norm_num)
  exact ⟨trivial, x, hx, hp⟩

/-- C125 when the precision is found, the rows under the id agree on it, the amount has at most
fifteen digits and is at least half a minor unit: exactly that amount is settled, to the nearest
minor unit, and no more than is left.  Missing: smaller amounts, failed lookups and ids shared by
holds of different precisions, for which it is false. -/
theorem c125_settles_partial (hP : Shortest P) {db : DB} {id newId ref : String} {q : ℚ} {r : CommitReq} {x : Txn} {p : Nat}
    (ha : Answers db id (.found q)) (hsame : ∀ t ∈ db.txns, (t.id = id ∨ t.parent = id) → t.precision = p) (hp : 0 < p)
    (hf : Fits 15 r.amount) (hl : least ≤ r.amount) (hhalf : 1 / 2 ≤ r.amount * p) (hpa : r.preciseAmount = none)
    (h : commitRequest P (.found q) db id r newId ref = some x) :
    ∃ t n, fetchInflight db id = .ok t ∧ x.parent = t.id ∧ x.preciseAmount = some n ∧ Nearest n (r.amount * p) ∧
      (∀ m : Int, r.amount * p = m → n = m) ∧ n ≤ remaining db t := by
  obtain ⟨u, hu, hid, hup, hq⟩ := ha
  have hqp : q = p := by rw [← hup]; exact hsame u hu hid
  obtain ⟨n, hc, hd⟩ := commitRequest_some h
  have hn := commitAmount_decimal hpa hc
  have hlook : lookedUp (.found q) = p := by unfold lookedUp; dsimp only; rw [if_pos hq, hqp]
  rw [hlook, minor_at hP hf hl hp] at hn
  have h0 : 0 ≤ r.amount * p := by linarith
  have hnear : Nearest n (r.amount * p) := by rw [hn]; exact nearest_round h0
  obtain ⟨t, ht, _, hpar, hset⟩ := decided hd
  refine ⟨t, n, ht, hpar, ?_, hnear, ?_, ?_⟩
  · rcases hset with ⟨hz, _⟩ | ⟨_, he, _⟩
    · exfalso
      subst hz
      have hb := abs_le.1 hnear.1
      have he : r.amount * p = ((0 : Int) : ℚ) + 1 / 2 := by
        have := hb.1
        push_cast at this ⊢
        linarith
      have := hnear.2 0 he
      omega
    · exact he
  · intro m hm
    rw [hn, hm, roundHalfAway_int]
  · rcases hset with ⟨hz, _⟩ | ⟨_, _, hle⟩
    · exfalso
      subst hz
      have hb := abs_le.1 hnear.1
      have he : r.amount * p = ((0 : Int) : ℚ) + 1 / 2 := by
        have := hb.1
        push_cast at this ⊢
        linarith
      have := hnear.2 0 he
      omega
    · exact hle

/-- A precise amount is settled as it is, never more than is left; zero and negative ones are
refused. -/
theorem c125_precise_partial {k : Look} {db : DB} {id newId ref : String} {r : CommitReq} {x : Txn} {n : Int}
    (hpa : r.preciseAmount = some n) (h : commitRequest P k db id r newId ref = some x) :
    0 < n ∧ x.preciseAmount = some n ∧ ∃ t, fetchInflight db id = .ok t ∧ n ≤ remaining db t := by
  obtain ⟨m, hc, hd⟩ := commitRequest_some h
  unfold commitAmount at hc
  split at hc
  · cases hc
  · rw [hpa] at hc
    dsimp only at hc
    split at hc
    · cases hc
    · have hm := Except.ok.inj hc
      subst hm
      obtain ⟨t, ht, _, _, hset⟩ := decided hd
      rcases hset with ⟨hz, _⟩ | ⟨h1, h2, h3⟩
      · omega
      · exact ⟨h1, h2, t, ht, h3⟩

/-- Two dollars of the five: two hundred cents. -/
example : ∀ P, Shortest P → ∃ x, commitRequest P (.found 100) heldDB "h" { amount := 2 } "c" "s" = some x ∧ x.preciseAmount = some 200 := by
  intro P hP
  have hc : commitAmount P (.found 100) { amount := 2 } = .ok 200 := by
    rw [commit_decimal (by norm_num) (by norm_num)]
    have h1 : lookedUp (.found 100) = ((100 : Nat) : ℚ) := by decide +kernel
    rw [h1, minor_at hP ⟨2, 0, by norm_num, by norm_num⟩ (by decide +kernel) (by norm_num)]
    decide +kernel
  obtain ⟨x, hx, hp⟩ := request_held hc (by norm_num) (by norm_num)
  exact ⟨x, hx, hp⟩

/-! ### C129: one commit or many -/

/-- C129 in full: an item of the bulk commit settles what the same request settles alone. -/
def C129Full : Prop :=
  ∀ (P : ℚ → ℚ) k db id r newId ref, bulkCommitRequest P k db id r newId ref = commitRequest P k db id r newId ref

/-- `precise_amount: 0` is refused alone; in a bulk commit it settles the whole hold. -/
theorem c129_full_fails : ¬ C129Full := by
  intro hfull
  have h := hfull (fun x => x) .missing heldDB "h" { preciseAmount := some 0 } "c" "s"
  have hz : readF64 0 = some 0 := by rw [read_ok le_rfl (by norm_num), f64_zero]
  obtain ⟨x, hx, _⟩ := hold_decide 0 le_rfl (by norm_num)
  unfold bulkCommitRequest commitRequest bulkCommitAmount commitAmount at h
  dsimp only at h
  rw [hz] at h
  dsimp only at h
  rw [hx, if_pos le_rfl] at h
  cases h

/-- C129 for every request whose precise amount is not zero. -/
theorem c129_same_partial (k : Look) (db : DB) (id newId ref : String) (r : CommitReq) (h : r.preciseAmount ≠ some 0) :
    bulkCommitRequest P k db id r newId ref = commitRequest P k db id r newId ref := by
  unfold bulkCommitRequest commitRequest bulkCommitAmount commitAmount
  cases hr : readF64 r.amount with
  | none => rfl
  | some fa =>
    dsimp only
    cases hp : r.preciseAmount with
    | none => rfl
    | some n =>
      dsimp only
      by_cases hn : n ≤ 0
      · rw [if_pos hn]
        have hneg : n < 0 := by
          have : n ≠ 0 := fun hz => h (by rw [hp, hz])
          omega
        dsimp only
        cases hd : decideCommit db id n newId ref with
        | error e => rfl
        | ok x =>
          obtain ⟨_, _, h0, _⟩ := decided hd
          omega
      · rw [if_neg hn]

example : ({ amount := 2 } : CommitReq).preciseAmount ≠ some 0 := by decide

end Blnk.Request
