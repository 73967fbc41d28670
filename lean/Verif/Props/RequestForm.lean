import Verif.Props.RequestParties
import Verif.Props.RequestAmount
/-
C181: which requests are accepted, said of what the client wrote, one by one and in a batch.
-/
namespace Blnk.Request
open Blnk

variable {P : ℚ → ℚ}

/-- A number written with at most fifteen digits before and after the point together. -/
def Written15 (v : ℚ) : Prop := ∃ a s : Nat, a < 10 ^ 15 ∧ v = a / 10 ^ s

/-- A request filled in properly.  Amount and precision are meant as a double holds them; an
amount that a double cannot tell from nothing counts as not given. -/
structure Proper (P : ℚ → ℚ) (r : Raw) : Prop where
  /-- a whole number of minor units, or a decimal amount: not both, neither negative -/
  amount : (f64 r.amount = 0 ∧ ∃ n : Nat, r.preciseAmount = some (n : Int)) ∨
    (r.preciseAmount = none ∧ 0 < f64 r.amount ∧ Written15 (P (f64 r.amount)))
  precision : ∃ n : Nat, f64 r.precision = n
  texts : r.currency ≠ "" ∧ r.reference ≠ "" ∧ r.description ≠ ""
  /-- one source or a list of them -/
  source : r.source ≠ "" ∧ r.sources = [] ∨ r.source = "" ∧ r.sources ≠ []
  /-- one destination or a list of them -/
  destination : r.destination ≠ "" ∧ r.destinations = [] ∨ r.destination = "" ∧ r.destinations ≠ []
  /-- a single source is not the destination nor one of them -/
  fromOne : r.source ≠ "" → r.source ≠ r.destination ∧ ∀ d ∈ r.destinations, d.id ≠ r.source
  /-- a single destination is not one of the sources -/
  toOne : r.destination ≠ "" → ∀ s ∈ r.sources, s.id ≠ r.destination
  /-- every date that is given can be read -/
  dates : ∀ d ∈ [r.scheduledFor, r.expiryDate, r.commitDate], d ≠ none → ∃ when, d = some (some when)

theorem significant_written {v : ℚ} (h : Decimal v) (h0 : 0 ≤ v) : significant v ≤ 15 ↔ Written15 v := by
  constructor
  · intro hs
    obtain ⟨n, h⟩ := h
    obtain ⟨s, hd⟩ := fits_den h
    have hl := (significant_iff hd h0).1 hs
    obtain ⟨h1, _⟩ := places_spec hd
    have e := scaled_eq h1
    have hn : 0 ≤ v.num * ((10 ^ places v / v.den : Nat) : Int) := mul_nonneg (Rat.num_nonneg.2 h0) (by positivity)
    obtain ⟨a, ha⟩ := Int.eq_ofNat_of_zero_le hn
    rw [ha] at e
    refine ⟨a, places v, ?_, ?_⟩
    · rw [← e] at hl
      exact_mod_cast hl
    · have : (a : ℚ) = v * 10 ^ places v := by rw [← e]; simp
      rw [this]
      field_simp
  · rintro ⟨a, s, ha, rfl⟩
    exact significant_le ha

theorem amount_iff {r : Raw} (hd : Decimal (P r.amount)) (h0 : 0 < r.amount → 0 ≤ P r.amount) : amountProblem P r = none ↔
    (r.amount = 0 ∧ ∃ n : Nat, r.preciseAmount = some (n : Int)) ∨
    (r.preciseAmount = none ∧ 0 < r.amount ∧ Written15 (P r.amount)) := by
  cases hp : r.preciseAmount with
  | none =>
    constructor
    · intro h
      obtain ⟨h1, h2⟩ := amount_ok h hp
      exact .inr ⟨rfl, h1, (significant_written hd (h0 h1)).1 h2⟩
    · rintro (⟨_, n, hn⟩ | ⟨_, h1, h2⟩)
      · cases hn
      · exact amount_fine hp h1 ((significant_written hd (h0 h1)).2 h2)
  | some n =>
    unfold amountProblem
    rw [hp]
    by_cases hz : r.amount = 0
    · rw [hz]
      by_cases hn : n < 0
      · simp only [hn]
        constructor
        · intro h; simp at h
        · rintro (⟨_, m, hm⟩ | ⟨hm, _⟩)
          · have := Option.some.inj hm; omega
          · cases hm
      · constructor
        · intro _
          exact .inl ⟨rfl, n.toNat, by congr 1; omega⟩
        · intro _; simp [hn]
    · simp only [ne_eq, hz, not_false_eq_true, Option.isSome_some, and_self, if_true]
      constructor
      · intro h; cases h
      · rintro (⟨h, _⟩ | ⟨h, _⟩)
        · exact absurd h (by simp)
        · cases h

theorem source_iff {r : Raw} : sourceProblem r = none ↔ (r.source ≠ "" ∧ r.sources = [] ∨ r.source = "" ∧ r.sources ≠ []) := by
  unfold sourceProblem
  by_cases h1 : r.source = "" <;> by_cases h2 : r.sources = [] <;> simp [h1, h2]

theorem destination_iff {r : Raw} : destinationProblem r = none ↔
    (r.destination ≠ "" ∧ r.destinations = [] ∨ r.destination = "" ∧ r.destinations ≠ []) ∧
    (r.source ≠ "" → r.source ≠ r.destination ∧ ∀ d ∈ r.destinations, d.id ≠ r.source) ∧
    (r.destination ≠ "" → ∀ s ∈ r.sources, s.id ≠ r.destination) := by
  unfold destinationProblem
  by_cases h1 : r.destination = "" <;> by_cases h2 : r.destinations = [] <;> by_cases h3 : r.source = "" <;>
    by_cases h4 : r.source = r.destination <;> by_cases h5 : (r.destinations.any fun d => d.id = r.source) = true <;>
    by_cases h6 : (r.sources.any fun s => s.id = r.destination) = true <;>
    simp_all [List.any_eq_true]

theorem date_iff {d : Option (Option Nat)} : dateProblem d = none ↔ (d ≠ none → ∃ when, d = some (some when)) := by
  rcases d with _ | _ | n <;> simp [dateProblem]

theorem precision_iff {r : Raw} : precisionProblem r = none ↔ ∃ p : Nat, r.precision = p :=
  ⟨precision_ok, fun ⟨_, h⟩ => precision_fine h⟩

theorem proper_iff (hP : Shortest P) {r d : Raw} (hd : Decimal r.amount) (h : decode r = some d) : problems P d = [] ↔ Proper P r := by
  have e := decode_eq h
  obtain ⟨k, hk⟩ := hd
  have ea : d.amount = f64 r.amount := by rw [e]
  have ep : d.precision = f64 r.precision := by rw [e]
  have e1 : d.preciseAmount = r.preciseAmount := by rw [e]
  have e2 : d.source = r.source := by rw [e]
  have e3 : d.sources = r.sources := by rw [e]
  have e4 : d.destination = r.destination := by rw [e]
  have e5 : d.destinations = r.destinations := by rw [e]
  have e6 : d.currency = r.currency ∧ d.reference = r.reference ∧ d.description = r.description := by rw [e]; exact ⟨rfl, rfl, rfl⟩
  have e7 : d.scheduledFor = r.scheduledFor ∧ d.expiryDate = r.expiryDate ∧ d.commitDate = r.commitDate := by rw [e]; exact ⟨rfl, rfl, rfl⟩
  rw [problems_nil, amount_iff (by rw [ea]; exact ⟨k, hP.short _ _ hk⟩) (by rw [ea]; exact fun h0 => (print_nonneg hP hk h0).le),
    precision_iff, required_none, required_none, required_none, source_iff, destination_iff, date_iff, date_iff, date_iff,
    ea, ep, e1, e2, e3, e4, e5, e6.1, e6.2.1, e6.2.2, e7.1, e7.2.1, e7.2.2]
  constructor
  · rintro ⟨h1, h2, h3, h4, h5, h6, ⟨h7, h8, h9⟩, h10, h11, h12⟩
    refine ⟨h1, h2, ⟨h3, h4, h5⟩, h6, h7, h8, h9, ?_⟩
    intro x hx
    simp only [List.mem_cons, List.not_mem_nil, or_false] at hx
    rcases hx with rfl | rfl | rfl
    · exact h10
    · exact h11
    · exact h12
  · rintro ⟨h1, h2, ⟨h3, h4, h5⟩, h6, h7, h8, h9, h10⟩
    exact ⟨h1, h2, h3, h4, h5, h6, ⟨h7, h8, h9⟩, h10 _ (by simp), h10 _ (by simp), h10 _ (by simp)⟩

/-- C181: a request whose numbers can be read is accepted exactly when it is properly filled in. -/
theorem c181_accepted_iff (hP : Shortest P) {newId : String} {r : Raw} (hd : Decimal r.amount) (hr : (decode r).isSome) :
    (∃ t, accept P newId r = .ok t) ↔ Proper P r := by
  obtain ⟨d, h⟩ := Option.isSome_iff_exists.1 hr
  rw [← proper_iff hP hd h]
  constructor
  · rintro ⟨t, ht⟩
    obtain ⟨d', h', hp, _⟩ := accept_iff.1 ht
    rw [h] at h'
    rw [Option.some.inj h']
    exact hp
  · intro hp
    exact ⟨_, accept_iff.2 ⟨d, h, hp, rfl⟩⟩

/-- And one that is not is told so; nothing else is answered to it. -/
theorem c181_refused_iff (hP : Shortest P) {newId : String} {r : Raw} (hd : Decimal r.amount) (hr : (decode r).isSome) :
    accept P newId r = .error .validation ↔ ¬ Proper P r := by
  rw [← c181_accepted_iff hP (newId := newId) hd hr]
  constructor
  · rintro h ⟨t, ht⟩
    rw [h] at ht
    cases ht
  · intro h
    rcases c128_refusals_partial (P := P) newId r with h1 | h1 | ⟨t, h1, _⟩
    · obtain ⟨d, h2⟩ := Option.isSome_iff_exists.1 hr
      unfold accept at h1
      rw [h2] at h1
      dsimp only at h1
      split at h1
      · cases h1
      · rw [refusal_validation] at h1; cases h1
    · exact h1
    · exact absurd ⟨t, h1⟩ h

/-- What the transaction of an accepted request says is what the request said. -/
theorem c181_carried {newId : String} {r : Raw} {t : Txn} (h : accept P newId r = .ok t) :
    t.id = newId ∧ t.source = r.source ∧ t.destination = r.destination ∧ t.reference = r.reference ∧ t.currency = r.currency ∧
    t.preciseAmount = r.preciseAmount ∧ t.precision = f64 r.precision ∧ t.allowOverdraft = r.allowOverdraft ∧
    t.inflight = r.inflight ∧ t.atomic = r.atomic ∧ t.skipQueue = r.skipQueue ∧
    (∀ when, r.scheduledFor = some (some when) ↔ t.scheduledFor = some when) := by
  obtain ⟨d, h1, h2, rfl⟩ := accept_iff.1 h
  have e := decode_eq h1
  have h3 := (date_iff.1 (problems_nil.1 h2).2.2.2.2.2.2.2.1)
  subst e
  refine ⟨rfl, rfl, rfl, rfl, rfl, rfl, rfl, rfl, rfl, rfl, rfl, ?_⟩
  intro when
  show _ ↔ r.scheduledFor.getD none = some when
  rcases hs : r.scheduledFor with _ | _ | n <;> simp

/-! ### Batches -/

theorem bulkItems_null {newId : Nat → String} : ∀ (ds : List (Option Raw)) (n : Nat), none ∈ ds →
    ∃ i, bulkItems P newId n ds = .error (.validation, i)
  | [], _, h => by cases h
  | none :: _, n, _ => ⟨n, rfl⟩
  | some r :: rest, n, h => by
    obtain ⟨i, hi⟩ := bulkItems_null (newId := newId) rest (n + 1) (by simpa using h)
    simp only [bulkItems]
    split
    · rw [hi]; exact ⟨i, rfl⟩
    · exact ⟨n, rfl⟩

theorem decodeAll_null : ∀ (rs ds : List (Option Raw)), decodeAll rs = some ds → (none ∈ rs ↔ none ∈ ds)
  | [], ds, h => by cases h; simp
  | none :: rs, ds, h => by
    simp only [decodeAll, Option.map_eq_some_iff] at h
    obtain ⟨a, _, rfl⟩ := h
    simp
  | some r :: rs, ds, h => by
    simp only [decodeAll, Option.bind_eq_some_iff, Option.map_eq_some_iff] at h
    obtain ⟨d, _, a, ha, rfl⟩ := h
    simpa using decodeAll_null rs a ha

/-- An empty item is never left out: the batch it is in is refused. -/
theorem c181_no_item_skipped {newId : Nat → String} {rs : List (Option Raw)} (h : none ∈ rs) (ts : List Txn) :
    acceptBulk P newId rs ≠ .ok ts := by
  intro hc
  unfold acceptBulk at hc
  cases hd : decodeAll rs with
  | none => rw [hd] at hc; cases hc
  | some ds =>
    rw [hd] at hc
    dsimp only at hc
    split at hc
    · cases hc
    · split at hc
      · cases hc
      · obtain ⟨i, hi⟩ := bulkItems_null (P := P) (newId := newId) ds 0 ((decodeAll_null rs ds hd).1 h)
        rw [hi] at hc
        cases hc

/-- A batch is accepted exactly when it has between one and ten thousand items and each is a
request accepted by itself; the transactions handed on are those, in their order. -/
theorem c181_batch_iff {newId : Nat → String} {rs : List (Option Raw)} {ts : List Txn} :
    acceptBulk P newId rs = .ok ts ↔
      rs ≠ [] ∧ rs.length ≤ 10000 ∧ ts.length = rs.length ∧
      ∀ i (h : i < rs.length) (h' : i < ts.length), ∃ r, rs[i] = some r ∧ accept P (newId i) r = .ok ts[i] := by
  by_cases hn : none ∈ rs
  · constructor
    · intro h; exact absurd h (c181_no_item_skipped hn ts)
    · rintro ⟨_, _, hl, h⟩
      obtain ⟨i, hi, e⟩ := List.mem_iff_getElem.1 hn
      obtain ⟨r, h1, _⟩ := h i hi (by omega)
      rw [e] at h1
      cases h1
  · obtain ⟨qs, rfl⟩ : ∃ qs : List Raw, rs = qs.map some := by
      clear ts
      induction rs with
      | nil => exact ⟨[], rfl⟩
      | cons a rs ih =>
        obtain ⟨qs, e⟩ := ih (fun h => hn (List.mem_cons_of_mem _ h))
        cases a with
        | none => exact absurd (List.mem_cons_self ..) hn
        | some a => exact ⟨a :: qs, by rw [e]; rfl⟩
    by_cases hq : qs = []
    · subst hq
      constructor
      · intro h; cases h
      · intro h; exact absurd rfl h.1
    · by_cases hm : qs.length ≤ 10000
      · rw [c126_accepts_partial hq hm]
        simp only [List.length_map, List.getElem_map, Option.some.injEq, exists_eq_left']
        constructor
        · intro h; exact ⟨by simpa using hq, hm, h.1, h.2⟩
        · intro h; exact ⟨h.2.2.1, h.2.2.2⟩
      · constructor
        · intro h
          unfold acceptBulk at h
          cases hd : decodeAll (qs.map some) with
          | none => rw [hd] at h; cases h
          | some ds =>
            rw [hd] at h
            dsimp only at h
            have hl : ds.length = qs.length := by
              have : ∀ (rs ds : List (Option Raw)), decodeAll rs = some ds → ds.length = rs.length := by
                intro rs
                induction rs with
                | nil => intro ds h; cases h; rfl
                | cons a rs ih =>
                  intro ds h
                  cases a with
                  | none =>
                    simp only [decodeAll, Option.map_eq_some_iff] at h
                    obtain ⟨b, hb, rfl⟩ := h
                    simp [ih b hb]
                  | some a =>
                    simp only [decodeAll, Option.bind_eq_some_iff, Option.map_eq_some_iff] at h
                    obtain ⟨d, _, b, hb, rfl⟩ := h
                    simp [ih b hb]
              simpa using this _ _ hd
            split at h
            · cases h
            · rw [if_pos (by show ds.length > 10000; omega)] at h
              cases h
        · rintro ⟨_, h, _⟩
          exact absurd (by simpa using h) hm

/-! Cases: the sample request is proper; with a negative precise amount, an unreadable date or
the source among the destinations it is not; nor is an empty item skipped in a batch. -/

theorem fine_read {r : Raw} (h1 : r.amount = 0) (h2 : r.precision = (100 : Nat)) (h3 : r.overdraftLimit = 0) : (decode r).isSome := by
  rw [decode_simple h1 h2 h3 (by norm_num)]; rfl

theorem zero_decimal : Decimal 0 := ⟨1, 0, 0, by norm_num, by norm_num⟩

example : ∀ P, Shortest P → Proper P fine := by
  intro P hP
  have h := (c181_accepted_iff hP (newId := "t") (r := fine) zero_decimal (fine_read rfl (by dsimp only [fine]; norm_num) rfl)).1
  exact h ⟨_, accept_fine rfl rfl (by dsimp only [fine]; norm_num) rfl rfl rfl ⟨by decide, by decide, by decide⟩ ⟨rfl, rfl, rfl⟩⟩

example : ∀ P, Shortest P → accept P "t" { fine with preciseAmount := some (-5) } = .error .validation := by
  intro P hP
  refine (c181_refused_iff hP zero_decimal (fine_read rfl (by dsimp only [fine]; norm_num) rfl)).2 ?_
  rintro ⟨⟨_, n, hn⟩ | ⟨hn, _⟩, _⟩
  · have := Option.some.inj hn; omega
  · cases hn

example : ∀ P, Shortest P → accept P "t" { fine with expiryDate := some none } = .error .validation := by
  intro P hP
  refine (c181_refused_iff hP zero_decimal (fine_read rfl (by dsimp only [fine]; norm_num) rfl)).2 ?_
  intro h
  obtain ⟨w, hw⟩ := h.dates (some none) (by simp) (by simp)
  cases hw

example : ∀ P ts, acceptBulk P (fun _ => "t") [some fine, none, some fine] ≠ .ok ts := fun _ ts =>
  c181_no_item_skipped (by simp) ts

end Blnk.Request
