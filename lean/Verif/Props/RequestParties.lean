import Verif.Lemmas.Request
import Verif.Props.Split
/-
C126–C128: lists of requests, refusals, and who an accepted request moves money between.
-/
namespace Blnk.Request
open Blnk

variable {P : ℚ → ℚ}

/-! ### C126: a batch is its items -/

theorem decodeAll_map (rs : List Raw) : ∀ ds : List (Option Raw), decodeAll (rs.map some) = some ds →
    ∃ es : List Raw, ds = es.map some ∧ es.length = rs.length ∧ ∀ i (h : i < rs.length) (h' : i < es.length), decode rs[i] = some es[i] := by
  induction rs with
  | nil =>
    intro ds h
    refine ⟨[], ?_, rfl, fun i h => absurd h (by simp)⟩
    have : some [] = some ds := h
    exact (Option.some.inj this).symm
  | cons r rs ih =>
    intro ds h
    rw [List.map_cons, decodeAll] at h
    cases hd : decode r with
    | none => rw [hd] at h; cases h
    | some d =>
      cases hr : decodeAll (rs.map some) with
      | none => rw [hd, hr] at h; cases h
      | some es =>
        rw [hd, hr] at h
        obtain ⟨fs, e1, e2, e3⟩ := ih es hr
        refine ⟨d :: fs, ?_, by simp [e2], ?_⟩
        · have := Option.some.inj h
          rw [← this, e1]; rfl
        · intro i h1 h2
          cases i with
          | zero => exact hd
          | succ i => exact e3 i (by simpa using h1) (by simpa using h2)

theorem decodeAll_of (rs : List Raw) : ∀ es : List Raw, es.length = rs.length →
    (∀ i (h : i < rs.length) (h' : i < es.length), decode rs[i] = some es[i]) → decodeAll (rs.map some) = some (es.map some) := by
  induction rs with
  | nil =>
    intro es hl _
    have : es = [] := List.eq_nil_of_length_eq_zero hl
    subst this; rfl
  | cons r rs ih =>
    intro es hl h
    cases es with
    | nil => simp at hl
    | cons e es =>
      rw [List.map_cons, decodeAll]
      have h0 : decode r = some e := h 0 (by simp) (by simp)
      rw [h0, ih es (by simpa using hl) (fun i h1 h2 => h (i + 1) (by simpa using h1) (by simpa using h2))]
      rfl

theorem accept_iff {newId : String} {r : Raw} {t : Txn} :
    accept P newId r = .ok t ↔ ∃ d, decode r = some d ∧ problems P d = [] ∧ t = toTxn P newId d := by
  constructor
  · exact accept_ok
  · rintro ⟨d, h1, h2, rfl⟩
    unfold accept
    rw [h1]
    dsimp only
    rw [h2]

theorem bulkItems_iff {newId : Nat → String} : ∀ (n : Nat) (es : List Raw) (ts : List Txn),
    bulkItems P newId n (es.map some) = .ok ts ↔
      ts.length = es.length ∧ ∀ i (h : i < es.length) (h' : i < ts.length), problems P es[i] = [] ∧ ts[i] = toTxn P (newId (n + i)) es[i]
  | n, [], ts => by
    simp only [List.map_nil, bulkItems]
    constructor
    · intro h; cases h; exact ⟨rfl, fun i h => absurd h (by simp)⟩
    · rintro ⟨h, _⟩
      have : ts = [] := List.eq_nil_of_length_eq_zero h
      rw [this]
  | n, e :: es, ts => by
    simp only [List.map_cons, bulkItems]
    cases hp : problems P e with
    | cons p ps =>
      simp only
      constructor
      · intro h; cases h
      · rintro ⟨hl, h⟩
        have := (h 0 (by simp) (by rw [hl]; simp)).1
        simp only [List.getElem_cons_zero] at this
        rw [this] at hp; cases hp
    | nil =>
      simp only
      cases hb : bulkItems P newId (n + 1) (es.map some) with
      | error x =>
        simp only
        constructor
        · intro h; cases h
        · rintro ⟨hl, h⟩
          cases ts with
          | nil => simp at hl
          | cons t ts =>
            have := (bulkItems_iff (n + 1) es ts).2 ⟨by simpa using hl, fun i h1 h2 => by
              have := h (i + 1) (by simpa using h1) (by simpa using h2)
              simp only [List.getElem_cons_succ] at this
              refine ⟨this.1, ?_⟩
              rw [this.2]; congr 2; omega⟩
            rw [this] at hb; cases hb
      | ok us =>
        simp only
        have ih := (bulkItems_iff (n + 1) es us).1 hb
        constructor
        · intro h
          cases h
          refine ⟨by simp [ih.1], ?_⟩
          intro i h1 h2
          cases i with
          | zero => exact ⟨hp, rfl⟩
          | succ i =>
            have := ih.2 i (by simpa using h1) (by simpa using h2)
            simp only [List.getElem_cons_succ]
            refine ⟨this.1, ?_⟩
            rw [this.2]; congr 2; omega
        · rintro ⟨hl, h⟩
          cases ts with
          | nil => simp at hl
          | cons t ts =>
            have h0 := (h 0 (by simp) (by simp)).2
            simp only [List.getElem_cons_zero, Nat.add_zero] at h0
            have h2 := (bulkItems_iff (n + 1) es ts).2 ⟨by simpa using hl, fun i h1 h2 => by
              have := h (i + 1) (by simpa using h1) (by simpa using h2)
              simp only [List.getElem_cons_succ] at this
              refine ⟨this.1, ?_⟩
              rw [this.2]; congr 2; omega⟩
            rw [hb] at h2
            have := Except.ok.inj h2
            rw [this, h0]

/-- The batch endpoint accepts a list exactly when the single endpoint accepts every item, and
hands on the same transactions. -/
theorem c126_accepts_partial {newId : Nat → String} {rs : List Raw} (hne : rs ≠ []) (hmax : rs.length ≤ 10000) {ts : List Txn} :
    acceptBulk P newId (rs.map some) = .ok ts ↔
      ts.length = rs.length ∧ ∀ i (h : i < rs.length) (h' : i < ts.length), accept P (newId i) rs[i] = .ok ts[i] := by
  constructor
  · intro h
    unfold acceptBulk at h
    cases hd : decodeAll (rs.map some) with
    | none => rw [hd] at h; cases h
    | some ds =>
      rw [hd] at h
      dsimp only at h
      split at h
      · cases h
      · split at h
        · cases h
        · obtain ⟨es, e1, e2, e3⟩ := decodeAll_map rs ds hd
          rw [e1] at h
          obtain ⟨h1, h2⟩ := (bulkItems_iff 0 es ts).1 h
          refine ⟨h1.trans e2, fun i hi hi' => ?_⟩
          have := h2 i (by omega) hi'
          rw [Nat.zero_add] at this
          exact accept_iff.2 ⟨es[i]'(by omega), e3 i hi (by omega), this.1, this.2⟩
  · rintro ⟨hl, h⟩
    have hdec : ∀ i (hi : i < rs.length), ∃ d, decode rs[i] = some d ∧ problems P d = [] ∧ ts[i]'(by omega) = toTxn P (newId i) d :=
      fun i hi => accept_iff.1 (h i hi (by omega))
    let es : List Raw := rs.pmap (fun r (hr : (decode r).isSome) => (decode r).get hr)
      (fun r hr => by
        obtain ⟨i, hi, rfl⟩ := List.getElem_of_mem hr
        obtain ⟨d, hd, _⟩ := hdec i hi
        rw [hd]; rfl)
    have hel : es.length = rs.length := by simp [es]
    have hei : ∀ i (hi : i < rs.length) (hi' : i < es.length), decode rs[i] = some es[i] := by
      intro i hi hi'
      simp [es]
    have hd := decodeAll_of rs es hel hei
    unfold acceptBulk
    rw [hd]
    dsimp only
    rw [if_neg, if_neg]
    · refine (bulkItems_iff 0 es ts).2 ⟨by omega, fun i hi hi' => ?_⟩
      obtain ⟨d, hd1, hd2, hd3⟩ := hdec i (by omega)
      have := hei i (by omega) hi
      rw [hd1] at this
      have := Option.some.inj this
      rw [Nat.zero_add, ← this]
      exact ⟨hd2, hd3⟩
    · simp [hel, maxItems]; exact hmax
    · intro hc
      apply hne
      have : es = [] := by simpa using hc
      rw [this] at hel
      exact List.eq_nil_of_length_eq_zero hel.symm

theorem find_precision (r : Raw) : (problems P r).find? (fun e => e.1 = "Precision") = none := by
  rw [List.find?_eq_none]
  intro y hy
  unfold problems at hy
  obtain ⟨z, hz, hz'⟩ := List.mem_filterMap.1 hy
  have he : z.1 = y.1 := by
    cases hzz : z.2 with
    | none => rw [hzz] at hz'; cases hz'
    | some w => rw [hzz] at hz'; cases hz'; rfl
  unfold fields at hz
  simp only [List.mem_cons, List.not_mem_nil, or_false] at hz
  rw [← he]
  rcases hz with rfl | rfl | rfl | rfl | rfl | rfl | rfl | rfl | rfl | rfl <;> simp

theorem refusal_validation (r : Raw) : refusalCode (problems P r) = .validation := by
  unfold refusalCode
  rw [find_precision]
  simp

/-- C126 in full: a refused batch is answered with the code the single endpoint gives the first
item it refuses. -/
def C126Full : Prop :=
  ∀ P, Shortest P → ∀ (newId : Nat → String) (rs : List Raw) (i : Nat) (h : i < rs.length) (c : Code), rs.length ≤ 10000 →
    (∀ j (hj : j < rs.length), j < i → ∃ t, accept P (newId j) rs[j] = .ok t) → accept P (newId i) rs[i] = .error c →
    ∃ k, acceptBulk P newId (rs.map some) = .error (c, k)

/-- A filled-in request moving ten minor units. -/
def fine : Raw :=
  { preciseAmount := some 10, precision := 100, source := "@a", destination := "@b", reference := "r", description := "d", currency := "USD" }

theorem read_whole {n : Nat} (h : n < 2 ^ 53) : readF64 (n : ℚ) = some (n : ℚ) := by
  have hb : (n : ℚ) < 10 ^ 30 := by
    have : n < 10 ^ 30 := by omega
    exact_mod_cast this
  rw [read_ok (by positivity) hb, f64_whole h]

theorem read_zero : readF64 0 = some 0 := by
  have := read_whole (n := 0) (by norm_num)
  simpa using this

theorem decode_simple {r : Raw} {p : Nat} (h1 : r.amount = 0) (h2 : r.precision = p) (h3 : r.overdraftLimit = 0) (hp : p < 2 ^ 53) :
    decode r = some r := by
  unfold decode
  rw [h1, h2, h3, read_whole hp, read_zero]
  dsimp only
  rw [← h1, ← h2]
  have : r.overdraftLimit = 0 := h3
  cases r
  simp_all

set_option exponentiation.threshold 1300 in
/-- An item without a currency followed by one with an amount no double can hold: the batch is
malformed, though its first bad item is merely incomplete. -/
theorem c126_full_fails : ¬ C126Full := by
  intro hfull
  obtain ⟨P, hP⟩ := shortest_exists
  have hd : decode { fine with currency := "" } = some { fine with currency := "" } :=
    decode_simple (p := 100) rfl (by dsimp only [fine]; norm_num) rfl (by norm_num)
  have hbad : decode { fine with amount := 2 ^ 1025 } = none := by
    have hr : readF64 ((2 : ℚ) ^ 1025) = none := by decide +kernel
    have he : ({ fine with amount := 2 ^ 1025 } : Raw).amount = 2 ^ 1025 := rfl
    unfold decode
    rw [he, hr]
  have hacc : accept P "t" { fine with currency := "" } = .error .validation := by
    have hp : ("currency", Problem.missing) ∈ problems P { fine with currency := "" } := by
      unfold problems fields
      simp [required, fine]
    unfold accept
    rw [hd]
    dsimp only
    cases hpp : problems P { fine with currency := "" } with
    | nil => rw [hpp] at hp; cases hp
    | cons x xs =>
      dsimp only
      rw [← hpp, refusal_validation]
  obtain ⟨k, hk⟩ := hfull P hP (fun _ => "t") [{ fine with currency := "" }, { fine with amount := 2 ^ 1025 }] 0 (by decide)
    .validation (by decide) (fun j _ hj => absurd hj (by omega)) hacc
  unfold acceptBulk at hk
  have hda : decodeAll (List.map some [{ fine with currency := "" }, { fine with amount := 2 ^ 1025 }]) = none := by
    rw [List.map_cons, List.map_cons, decodeAll, decodeAll, hd, hbad]
    rfl
  rw [hda] at hk
  cases hk

theorem bulkItems_first {newId : Nat → String} (es : List Raw) : ∀ (i : Nat) (h : i < es.length),
    (∀ j (hj : j < es.length), j < i → problems P es[j] = []) → problems P es[i] ≠ [] →
    ∀ n, bulkItems P newId n (es.map some) = .error (.validation, n + i) := by
  induction es with
  | nil => intro i h; exact absurd h (by simp)
  | cons e es ih =>
    intro i h hall hbad n
    rw [List.map_cons, bulkItems]
    cases i with
    | zero =>
      simp only [List.getElem_cons_zero] at hbad
      cases hp : problems P e with
      | nil => exact absurd hp hbad
      | cons x xs => rfl
    | succ i =>
      have h0 := hall 0 (by simp) (by omega)
      simp only [List.getElem_cons_zero] at h0
      rw [h0]
      have := ih i (by simpa using h) (fun j hj hji => by
        have := hall (j + 1) (by simpa using hj) (by omega)
        simpa using this) (by simpa using hbad) (n + 1)
      dsimp only
      rw [this]
      dsimp only
      rw [show n + 1 + i = n + (i + 1) by omega]

/-- C126 when every number can be read: a refused batch gets the code the single endpoint gives
the first item it refuses, and that item's place in the list.  Missing: batches with a number
no double can hold, refused as a whole. -/
theorem c126_refused_partial {newId : Nat → String} {rs : List Raw} (hmax : rs.length ≤ 10000) {i : Nat} (h : i < rs.length) {c : Code}
    (hread : ∀ r ∈ rs, (decode r).isSome) (hall : ∀ j (hj : j < rs.length), j < i → ∃ t, accept P (newId j) rs[j] = .ok t)
    (hbad : accept P (newId i) rs[i] = .error c) : acceptBulk P newId (rs.map some) = .error (c, i) := by
  let es : List Raw := rs.pmap (fun r (hr : (decode r).isSome) => (decode r).get hr) hread
  have hel : es.length = rs.length := by simp [es]
  have hei : ∀ i (hi : i < rs.length) (hi' : i < es.length), decode rs[i] = some es[i] := by
    intro i hi hi'
    simp [es]
  have hd := decodeAll_of rs es hel hei
  have hprob : problems P (es[i]'(by omega)) ≠ [] := by
    intro hc
    have := (accept_iff (P := P) (newId := newId i)).2 ⟨_, hei i h (by omega), hc, rfl⟩
    rw [this] at hbad; cases hbad
  have hcode : c = .validation := by
    unfold accept at hbad
    rw [hei i h (by omega)] at hbad
    dsimp only at hbad
    cases hp : problems P (es[i]'(by omega)) with
    | nil => exact absurd hp hprob
    | cons x xs =>
      rw [hp] at hbad
      dsimp only at hbad
      rw [← hp, refusal_validation] at hbad
      exact (Except.error.inj hbad).symm
  unfold acceptBulk
  rw [hd]
  dsimp only
  rw [if_neg, if_neg]
  · have := bulkItems_first (P := P) (newId := newId) es i (by omega) (fun j hj hji => by
      obtain ⟨t, ht⟩ := hall j (by omega) hji
      obtain ⟨d, h1, h2, _⟩ := accept_iff.1 ht
      rw [hei j (by omega) hj] at h1
      rw [Option.some.inj h1]; exact h2) hprob 0
    rw [this, hcode, Nat.zero_add]
  · simp [hel, maxItems]; exact hmax
  · intro hc
    have : es = [] := by simpa using hc
    rw [this] at hel
    simp at hel
    omega

/-! ### C128: a fractional precision has its own code -/

/-- C128 in full: a fractional precision is refused with TXN_PRECISION_NOT_INTEGER. -/
def C128Full : Prop :=
  ∀ P, Shortest P → ∀ newId r, (∃ p, readF64 r.precision = some p ∧ ¬ ∃ n : Int, p = n) → (decode r).isSome →
    accept P newId r = .error .precisionNotInteger

/-- No request at all is ever answered with that code: the errors are filed under `precision`
and looked up under `Precision`. -/
theorem c128_never (newId : String) (r : Raw) : accept P newId r ≠ .error .precisionNotInteger := by
  unfold accept
  split
  · intro h; cases h
  · rename_i d hd
    split
    · intro h; cases h
    · rw [refusal_validation]
      intro h; cases h

theorem c128_full_fails : ¬ C128Full := by
  intro hfull
  obtain ⟨P, hP⟩ := shortest_exists
  have hr : readF64 (3 / 2 : ℚ) = some (3 / 2) := by
    rw [read_ok (by norm_num) (by norm_num)]
    have : f64 (3 / 2) = 3 / 2 := by decide +kernel
    rw [this]
  refine c128_never (P := P) "t" { fine with precision := 3 / 2 } (hfull P hP "t" _ ⟨3 / 2, hr, ?_⟩ ?_)
  · rintro ⟨n, hn⟩
    have h2 : (3 : ℚ) = ((2 * n : Int) : ℚ) := by push_cast; linarith
    have h3 : (3 : Int) = 2 * n := by exact_mod_cast h2
    omega
  · have e1 : ({ fine with precision := 3 / 2 } : Raw).amount = 0 := rfl
    have e2 : ({ fine with precision := 3 / 2 } : Raw).precision = 3 / 2 := rfl
    have e3 : ({ fine with precision := 3 / 2 } : Raw).overdraftLimit = 0 := rfl
    unfold decode
    rw [e1, e2, e3, hr, read_zero]
    rfl

/-- Every refusal is one of two: the body cannot be read, or it is not valid; and a fractional or
negative precision is always refused. -/
theorem c128_refusals_partial (newId : String) (r : Raw) :
    accept P newId r = .error .malformed ∨ accept P newId r = .error .validation ∨
    ∃ t, accept P newId r = .ok t ∧ ∃ n : Nat, f64 r.precision = n := by
  unfold accept
  split
  · exact .inl rfl
  · rename_i d hd
    split
    · rename_i hp
      refine .inr (.inr ⟨_, rfl, ?_⟩)
      obtain ⟨p, hp⟩ := precision_ok (problems_nil.1 hp).2.1
      have := decode_eq hd
      exact ⟨p, by rw [← hp, this]⟩
    · right; left
      rw [refusal_validation]

/-! ### C127: who the money moves between -/

/-- C127 in full: every movement of an accepted request has a source and a destination, and they
differ. -/
def C127Full : Prop :=
  ∀ P, Shortest P → ∀ ord, Split.Order ord → ∀ newId r t ids ts, accept P newId r = .ok t → movements ord r t ids = .ok ts →
    ∀ x ∈ ts, x.source ≠ "" ∧ x.destination ≠ "" ∧ x.source ≠ x.destination

theorem order_id : Split.Order id := fun _ => List.Perm.refl _

theorem fine_amount {r : Raw} (h1 : r.amount = 0) (h2 : r.preciseAmount = some 10) : amountProblem P r = none := by
  unfold amountProblem
  rw [h1, h2]
  simp

theorem accept_fine {newId : String} {r : Raw} (h1 : r.amount = 0) (h2 : r.preciseAmount = some 10) (h3 : r.precision = (100 : Nat))
    (h4 : r.overdraftLimit = 0) (h5 : sourceProblem r = none) (h6 : destinationProblem r = none)
    (h7 : r.currency ≠ "" ∧ r.reference ≠ "" ∧ r.description ≠ "")
    (h8 : r.scheduledFor = none ∧ r.expiryDate = none ∧ r.commitDate = none) : accept P newId r = .ok (toTxn P newId r) := by
  refine accept_iff.2 ⟨r, decode_simple h1 h3 h4 (by norm_num), ?_, rfl⟩
  rw [problems_nil]
  refine ⟨fine_amount h1 h2, precision_fine h3, required_none.2 h7.1, required_none.2 h7.2.1, required_none.2 h7.2.2, h5, h6, ?_, ?_, ?_⟩
  · rw [h8.1]; rfl
  · rw [h8.2.1]; rfl
  · rw [h8.2.2]; rfl

/-- Lists on both sides are accepted; the legs then have no destination. -/
def bothLists : Raw :=
  { fine with source := "", destination := "", sources := [⟨"@a", .percent 100, .blank⟩], destinations := [⟨"@b", .percent 100, .blank⟩] }

theorem movements_both (P : ℚ → ℚ) :
    ∃ x, movements id bothLists (toTxn P "t" bothLists) (fun _ => "l") = .ok [x] ∧ x.source = "@a" ∧ x.destination = "" ∧ x.preciseAmount = some 10 := by
  have hs : (submit (toTxn P "t" bothLists)).preciseAmount = some 10 := submit_precise rfl (by norm_num)
  have hp : (submit (toTxn P "t" bothLists)).precision = 100 := by
    have e : (submit (toTxn P "t" bothLists)).precision = (toTxn P "t" bothLists).applyPrecision.precision := rfl
    have e2 : (toTxn P "t" bothLists).precision = 100 := rfl
    have e3 : (toTxn P "t" bothLists).preciseAmount = some 10 := rfl
    rw [e]
    unfold Txn.applyPrecision
    simp [e2, e3]
  unfold movements
  rw [if_neg (by decide), hs]
  unfold Split.split
  rw [hp]
  have hd : Split.distribute id (Option.getD (some 10) 0)
      (if (!bothLists.sources.isEmpty) = true then bothLists.sources else bothLists.destinations) (100 : ℚ).floor = .ok [("@a", 10)] := by
    decide +kernel
  dsimp only
  rw [hd]
  exact ⟨_, rfl, rfl, rfl, rfl⟩

theorem c127_full_fails : ¬ C127Full := by
  intro hfull
  obtain ⟨P, hP⟩ := shortest_exists
  obtain ⟨x, hx, _, hd, _⟩ := movements_both P
  have := hfull P hP id order_id "t" bothLists _ _ _
    (accept_fine rfl rfl (by dsimp only [bothLists, fine]; norm_num) rfl (by decide) (by decide) (by decide) ⟨rfl, rfl, rfl⟩) hx x (by simp)
  exact this.2.1 hd

/-- An identifier in a list may be empty. -/
theorem c127_blank_identifier_fails : ∀ (P : ℚ → ℚ), ∃ t, accept P "t" { fine with destination := "", destinations := [⟨"", .percent 100, .blank⟩] } = .ok t := by
  intro P
  exact ⟨_, accept_fine rfl rfl (by dsimp only [fine]; norm_num) rfl (by decide) (by decide) (by decide) ⟨rfl, rfl, rfl⟩⟩

theorem submit_parties (t : Txn) : (submit t).source = t.source ∧ (submit t).destination = t.destination := by
  have e1 : (submit t).source = t.applyPrecision.source := rfl
  have e2 : (submit t).destination = t.applyPrecision.destination := rfl
  rw [e1, e2]
  unfold Txn.applyPrecision
  by_cases hp : t.precision = 0
  · simp only [if_pos hp]
    split
    · split <;> exact ⟨rfl, rfl⟩
    · exact ⟨rfl, rfl⟩
  · simp only [if_neg hp]
    split
    · split <;> exact ⟨rfl, rfl⟩
    · exact ⟨rfl, rfl⟩

/-- C127 for requests that do not list both sides and whose lists name somebody in each place:
every movement has two different, named ends.  Missing: the other requests, which are accepted
too. -/
theorem c127_ends_partial {ord : List String → List String} (ho : Split.Order ord) {newId : String} {r : Raw} {t : Txn}
    {ids : Nat → String} {ts : List Txn} (h : accept P newId r = .ok t) (hm : movements ord r t ids = .ok ts)
    (hone : r.sources = [] ∨ r.destinations = []) (hnamed : ∀ d ∈ r.sources ++ r.destinations, d.id ≠ "") :
    ∀ x ∈ ts, x.source ≠ "" ∧ x.destination ≠ "" ∧ x.source ≠ x.destination := by
  obtain ⟨d, hd, hp, ht⟩ := accept_ok h
  have e := decode_eq hd
  obtain ⟨_, _, _, _, _, hs, hdst, _⟩ := problems_nil.1 hp
  have es : d.source = r.source := by rw [e]
  have ed : d.destination = r.destination := by rw [e]
  have ess : d.sources = r.sources := by rw [e]
  have eds : d.destinations = r.destinations := by rw [e]
  have ets : t.source = r.source := by rw [ht]; exact es
  have etd : t.destination = r.destination := by rw [ht]; exact ed
  obtain ⟨s1, s2⟩ := submit_parties t
  rw [ets] at s1
  rw [etd] at s2
  unfold sourceProblem at hs
  rw [es, ess] at hs
  have hs' : ¬ ((r.source = "" ∧ r.sources = []) ∨ (r.source ≠ "" ∧ r.sources ≠ [])) := by
    intro hc; rw [if_pos hc] at hs; cases hs
  unfold destinationProblem at hdst
  rw [es, ess, ed, eds] at hdst
  have hd' : ¬ ((r.destination = "" ∧ r.destinations = []) ∨ (r.destination ≠ "" ∧ r.destinations ≠ [])) := by
    intro hc; rw [if_pos hc] at hdst; cases hdst
  rw [if_neg hd'] at hdst
  have hsame : ¬ (r.source ≠ "" ∧ r.destination ≠ "" ∧ r.source = r.destination) := by
    intro hc; rw [if_pos hc] at hdst; cases hdst
  rw [if_neg hsame] at hdst
  have hsd : ¬ (r.source ≠ "" ∧ (r.destinations.any (fun d => decide (d.id = r.source))) = true) := by
    intro hc; rw [if_pos hc] at hdst; cases hdst
  rw [if_neg hsd] at hdst
  have hds : ¬ (r.destination ≠ "" ∧ (r.sources.any (fun s => decide (s.id = r.destination))) = true) := by
    intro hc; rw [if_pos hc] at hdst; cases hdst
  unfold movements at hm
  by_cases hboth : r.sources = [] ∧ r.destinations = []
  · rw [if_pos hboth] at hm
    have := Except.ok.inj hm
    subst this
    intro x hx
    have : x = submit t := by simpa using hx
    subst this
    have h1 : r.source ≠ "" := fun hc => hs' (.inl ⟨hc, hboth.1⟩)
    have h2 : r.destination ≠ "" := fun hc => hd' (.inl ⟨hc, hboth.2⟩)
    rw [s1, s2]
    exact ⟨h1, h2, fun hc => hsame ⟨h1, h2, hc⟩⟩
  · rw [if_neg hboth] at hm
    obtain ⟨_, hpar, hkeep, _⟩ := Split.c21_legs_distinct_and_traceable_partial ord ho _ _ _ _ _ _ hm
    intro x hx
    obtain ⟨y, hy, hyx⟩ := hpar x hx
    have hk := (hkeep x hx).2.2.2.2.2.2.2.2.2.2
    rcases hone with h0 | h0
    · -- several destinations
      have hne : r.destinations ≠ [] := fun hc => hboth ⟨h0, hc⟩
      have hsrc : r.source ≠ "" := fun hc => hs' (.inl ⟨hc, h0⟩)
      rw [h0] at hk hy hyx
      simp only [List.isEmpty_nil, if_true] at hk
      simp only [Split.party, Split.parties, List.isEmpty_nil, if_true] at hy hyx
      rw [s1] at hk
      rw [hk, ← hyx]
      refine ⟨hsrc, hnamed y (by simp [hy]), fun hc => hsd ⟨hsrc, ?_⟩⟩
      rw [List.any_eq_true]
      exact ⟨y, hy, by simp [hc]⟩
    · -- several sources
      have hne : r.sources ≠ [] := fun hc => hboth ⟨hc, h0⟩
      have hdn : r.destination ≠ "" := fun hc => hd' (.inl ⟨hc, h0⟩)
      have hie : r.sources.isEmpty = false := by simpa using hne
      simp only [hie, Bool.false_eq_true, if_false] at hk
      simp only [Split.party, Split.parties, hie, Bool.false_eq_true, if_false] at hy hyx
      rw [s2] at hk
      rw [hk, ← hyx]
      refine ⟨hnamed y (by simp [hy]), hdn, fun hc => hds ⟨hdn, ?_⟩⟩
      rw [List.any_eq_true]
      exact ⟨y, hy, by simp [hc]⟩

/-- What is recorded is never negative. -/
theorem c127_nonneg_partial (hP : Shortest P) {newId : String} {r : Raw} {t : Txn} (hd : Decimal r.amount)
    (h : accept P newId r = .ok t) : ∃ n, (submit t).preciseAmount = some n ∧ 0 ≤ n := by
  obtain ⟨d, hdec, hp, ht⟩ := accept_ok h
  have e := decode_eq hdec
  obtain ⟨ha, hpr, _⟩ := problems_nil.1 hp
  obtain ⟨p, hp'⟩ := precision_ok hpr
  obtain ⟨m, m1, m2, _⟩ := orOne_nat p
  have ea : d.amount = f64 r.amount := by rw [e]
  have zero : d.amount = 0 ∨ 0 < d.amount → 0 ≤ roundHalfAway ((toTxn P newId d).amount * (roundHalfEven (orOne (toTxn P newId d).precision) : ℚ)) := by
    intro hz
    have e1 : (toTxn P newId d).amount = P d.amount := rfl
    have e2 : (toTxn P newId d).precision = d.precision := rfl
    rw [e1, e2, hp', m1, rhe_nat]
    apply roundHalfAway_nonneg
    apply mul_nonneg
    · rcases hz with hz | hz
      · rw [hz, print_zero hP]
      · rw [ea] at hz ⊢
        obtain ⟨k, hd⟩ := hd
        exact (print_nonneg hP hd hz).le
    · positivity
  have hsign : d.amount = 0 ∨ 0 < d.amount := by
    unfold amountProblem at ha
    split at ha
    · cases ha
    · split at ha
      · cases ha
      · split at ha
        · cases ha
        · split at ha
          · cases ha
          · rename_i hneg
            exact (lt_or_eq_of_le (not_lt.1 hneg)).symm.imp Eq.symm id
  rw [ht]
  cases hpa : d.preciseAmount with
  | none =>
    exact ⟨_, submit_amount (by exact hpa), zero hsign⟩
  | some n =>
    by_cases hn : 0 < n
    · exact ⟨n, submit_precise (by exact hpa) hn, hn.le⟩
    · refine ⟨_, ?_, zero hsign⟩
      have e3 : (submit (toTxn P newId d)).preciseAmount = (toTxn P newId d).applyPrecision.preciseAmount := rfl
      rw [e3]
      have hpa' : (toTxn P newId d).preciseAmount = some n := hpa
      unfold Txn.applyPrecision orOne convertDecimalToPrecise
      by_cases hz : (toTxn P newId d).precision = 0
      · simp only [if_pos hz, hpa', if_neg hn]
      · simp only [if_neg hz, hpa', if_neg hn]

/-- A split between two destinations meets the hypotheses. -/
def twoWays : Raw :=
  { fine with destination := "", destinations := [⟨"@b", .percent 50, .blank⟩, ⟨"@c", .left, .blank⟩] }

example (P : ℚ → ℚ) : accept P "t" twoWays = .ok (toTxn P "t" twoWays) ∧ (twoWays.sources = [] ∨ twoWays.destinations = []) ∧
    (∀ d ∈ twoWays.sources ++ twoWays.destinations, d.id ≠ "") :=
  ⟨accept_fine rfl rfl (by dsimp only [twoWays, fine]; norm_num) rfl (by decide) (by decide) (by decide) ⟨rfl, rfl, rfl⟩, .inl rfl, by decide⟩

end Blnk.Request
