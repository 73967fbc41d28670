import Verif.Model.Rules
import Verif.Props.RecordAnswers
/-
C171, C172, C174, C178, C179: matching rules, what they can match, how requests for them and for
reconciliations are answered.
-/
namespace Blnk.Rules
open Errs

/-! ### What a rule has to be (specification) -/

/-- A criterion as the API describes it: one of five fields, one of four operators, and for equality of
amounts a drift between 0 and 1, of dates a drift that is not negative. -/
def Crit.Valid (c : Crit) : Prop :=
  c.field ∈ [t! "amount", t! "date", t! "description", t! "reference", t! "currency"] ∧
  c.operator ∈ [t! "equals", t! "greater_than", t! "less_than", t! "contains"] ∧
  (c.operator = t! "equals" → c.field = t! "amount" → 0 ≤ c.drift ∧ c.drift ≤ 1) ∧
  (c.operator = t! "equals" → c.field = t! "date" → 0 ≤ c.drift)

/-- A rule as the API describes it. -/
def Body.Valid (b : Body) : Prop := b.name ≠ [] ∧ b.criteria ≠ [] ∧ ∀ c ∈ b.criteria, c.Valid

theorem parseField_some {t : Text} {f : Recon.Field} : parseField t = some f ↔
    (t = t! "amount" ∧ f = .amount) ∨ (t = t! "date" ∧ f = .date) ∨ (t = t! "description" ∧ f = .description) ∨
    (t = t! "reference" ∧ f = .reference) ∨ (t = t! "currency" ∧ f = .currency) := by
  unfold parseField
  constructor
  · intro h
    split at h
    · next e => cases h; exact Or.inl ⟨e, rfl⟩
    split at h
    · next e => cases h; exact Or.inr (Or.inl ⟨e, rfl⟩)
    split at h
    · next e => cases h; exact Or.inr (Or.inr (Or.inl ⟨e, rfl⟩))
    split at h
    · next e => cases h; exact Or.inr (Or.inr (Or.inr (Or.inl ⟨e, rfl⟩)))
    split at h
    · next e => cases h; exact Or.inr (Or.inr (Or.inr (Or.inr ⟨e, rfl⟩)))
    · exact absurd h (by simp)
  · rintro (⟨rfl, rfl⟩ | ⟨rfl, rfl⟩ | ⟨rfl, rfl⟩ | ⟨rfl, rfl⟩ | ⟨rfl, rfl⟩) <;> decide +kernel

theorem parseOperator_some {t : Text} {o : Recon.Operator} : parseOperator t = some o ↔
    (t = t! "equals" ∧ o = .equals) ∨ (t = t! "greater_than" ∧ o = .greaterThan) ∨ (t = t! "less_than" ∧ o = .lessThan) ∨
    (t = t! "contains" ∧ o = .contains) := by
  unfold parseOperator
  constructor
  · intro h
    split at h
    · next e => cases h; exact Or.inl ⟨e, rfl⟩
    split at h
    · next e => cases h; exact Or.inr (Or.inl ⟨e, rfl⟩)
    split at h
    · next e => cases h; exact Or.inr (Or.inr (Or.inl ⟨e, rfl⟩))
    split at h
    · next e => cases h; exact Or.inr (Or.inr (Or.inr ⟨e, rfl⟩))
    · exact absurd h (by simp)
  · rintro (⟨rfl, rfl⟩ | ⟨rfl, rfl⟩ | ⟨rfl, rfl⟩ | ⟨rfl, rfl⟩) <;> decide +kernel

theorem critErr_none {c : Crit} : critErr c = none ↔ c.Valid := by
  unfold critErr Crit.Valid
  constructor
  · intro h
    split at h
    · exact absurd h (by simp)
    · cases ho : parseOperator c.operator with
      | none => simp [ho] at h
      | some o =>
        cases hf : parseField c.field with
        | none => simp [ho, hf] at h
        | some f =>
          simp only [ho, hf] at h
          rw [parseOperator_some] at ho
          rw [parseField_some] at hf
          refine ⟨?_, ?_, ?_, ?_⟩
          · rcases hf with ⟨e, -⟩ | ⟨e, -⟩ | ⟨e, -⟩ | ⟨e, -⟩ | ⟨e, -⟩ <;> rw [e] <;> decide +kernel
          · rcases ho with ⟨e, -⟩ | ⟨e, -⟩ | ⟨e, -⟩ | ⟨e, -⟩ <;> rw [e] <;> decide +kernel
          · intro h1 h2
            have eo : o = .equals := by
              rcases ho with ⟨e, h'⟩ | ⟨e, -⟩ | ⟨e, -⟩ | ⟨e, -⟩
              · exact h'
              all_goals (rw [h1] at e; exact absurd e (by decide +kernel))
            have ef : f = .amount := by
              rcases hf with ⟨e, h'⟩ | ⟨e, -⟩ | ⟨e, -⟩ | ⟨e, -⟩ | ⟨e, -⟩
              · exact h'
              all_goals (rw [h2] at e; exact absurd e (by decide +kernel))
            subst eo ef
            simp only [driftErr] at h
            split at h
            · split at h
              · exact absurd h (by simp)
              · next hn => exact ⟨by grind, by grind⟩
            · next hn => exact absurd trivial hn
          · intro h1 h2
            have eo : o = .equals := by
              rcases ho with ⟨e, h'⟩ | ⟨e, -⟩ | ⟨e, -⟩ | ⟨e, -⟩
              · exact h'
              all_goals (rw [h1] at e; exact absurd e (by decide +kernel))
            have ef : f = .date := by
              rcases hf with ⟨e, -⟩ | ⟨e, h'⟩ | ⟨e, -⟩ | ⟨e, -⟩ | ⟨e, -⟩
              · rw [h2] at e; exact absurd e (by decide +kernel)
              · exact h'
              all_goals (rw [h2] at e; exact absurd e (by decide +kernel))
            subst eo ef
            simp only [driftErr] at h
            split at h
            · split at h
              · exact absurd h (by simp)
              · next hn => grind
            · next hn => exact absurd trivial hn
  · rintro ⟨hf, ho, h1, h2⟩
    have hne : ¬ (c.field = [] ∨ c.operator = []) := by
      rintro (e | e)
      · rw [e] at hf; revert hf; decide +kernel
      · rw [e] at ho; revert ho; decide +kernel
    rw [if_neg hne]
    simp only [List.mem_cons, List.not_mem_nil, or_false] at hf ho
    have po : ∃ o, parseOperator c.operator = some o := by
      rcases ho with e | e | e | e <;> rw [e]
      · exact ⟨.equals, by decide +kernel⟩
      · exact ⟨.greaterThan, by decide +kernel⟩
      · exact ⟨.lessThan, by decide +kernel⟩
      · exact ⟨.contains, by decide +kernel⟩
    have pf : ∃ f, parseField c.field = some f := by
      rcases hf with e | e | e | e | e <;> rw [e]
      · exact ⟨.amount, by decide +kernel⟩
      · exact ⟨.date, by decide +kernel⟩
      · exact ⟨.description, by decide +kernel⟩
      · exact ⟨.reference, by decide +kernel⟩
      · exact ⟨.currency, by decide +kernel⟩
    obtain ⟨o, po⟩ := po
    obtain ⟨f, pf⟩ := pf
    simp only [po, pf]
    rw [parseOperator_some] at po
    rw [parseField_some] at pf
    unfold driftErr
    split
    · next eo =>
      have eo' : c.operator = t! "equals" := by
        rcases po with ⟨e, -⟩ | ⟨-, h'⟩ | ⟨-, h'⟩ | ⟨-, h'⟩
        · exact e
        all_goals (rw [eo] at h'; exact absurd h' (by decide))
      split
      · have ef : c.field = t! "amount" := by
          rcases pf with ⟨e, -⟩ | ⟨-, h'⟩ | ⟨-, h'⟩ | ⟨-, h'⟩ | ⟨-, h'⟩
          · exact e
          all_goals exact absurd h' (by decide)
        have := h1 eo' ef
        rw [if_neg (by grind)]
      · have ef : c.field = t! "date" := by
          rcases pf with ⟨-, h'⟩ | ⟨e, -⟩ | ⟨-, h'⟩ | ⟨-, h'⟩ | ⟨-, h'⟩
          · exact absurd h' (by decide)
          · exact e
          all_goals exact absurd h' (by decide)
        have := h2 eo' ef
        rw [if_neg (by grind)]
      · rfl
    · rfl

theorem ruleErr_none {b : Body} : ruleErr b = none ↔ b.Valid := by
  unfold ruleErr Body.Valid
  by_cases h1 : b.name = []
  · simp [h1]
  · by_cases h2 : b.criteria = []
    · simp [h1, h2]
    · rw [if_neg h1, if_neg h2, List.findSome?_eq_none_iff]
      constructor
      · exact fun h => ⟨h1, h2, fun c hc => critErr_none.1 (h c hc)⟩
      · exact fun h c hc => critErr_none.2 (h.2.2 c hc)

/-- The messages the validation has. -/
def ruleMessages : List Text :=
  [t! "rule name is required", t! "at least one matching criteria is required", t! "field and operator are required for each criteria",
   t! "invalid operator", t! "invalid field", t! "drift for amount must be between 0 and 1 (fraction, e.g. 0.01 = 1%)",
   t! "drift for date must be non-negative (seconds)"]

theorem driftErr_message {f : Recon.Field} {o : Recon.Operator} {d : Rat} {m : Text} (h : driftErr f o d = some m) : m ∈ ruleMessages := by
  unfold driftErr at h
  split at h
  · split at h
    · split at h
      · cases h; decide +kernel
      · exact absurd h (by simp)
    · split at h
      · cases h; decide +kernel
      · exact absurd h (by simp)
    · exact absurd h (by simp)
  · exact absurd h (by simp)

theorem critErr_message {c : Crit} {m : Text} (h : critErr c = some m) : m ∈ ruleMessages := by
  unfold critErr at h
  split at h
  · cases h; decide +kernel
  · split at h
    · cases h; decide +kernel
    · split at h
      · cases h; decide +kernel
      · exact driftErr_message h

theorem ruleErr_message {b : Body} {m : Text} (h : ruleErr b = some m) : m ∈ ruleMessages := by
  unfold ruleErr at h
  split at h
  · cases h; decide +kernel
  · split at h
    · cases h; decide +kernel
    · obtain ⟨c, -, hc⟩ := List.exists_of_findSome?_eq_some h
      exact critErr_message hc

theorem invalid_answer : ∀ o ∈ [createOpts, updateOpts], ∀ m ∈ ruleMessages,
    (respondError o (plain m)).status = 400 ∧ (respondError o (plain m)).code = "RECON_RULE_INVALID" := by
  decide +kernel

/-! ### C172 -/

/-- **C172 in full**: a rule as the API describes it is stored and shown, any other is refused as an
invalid rule and nothing is stored. -/
def C172Full : Prop := ∀ (s : Sys) (b : Body) (id : Text) (now : Nat),
  (b.Valid → ∃ r, (createRule s b id now).2 = .ok r ∧ r.name = b.name ∧ r.criteria = b.criteria ∧ r ∈ (createRule s b id now).1.rules) ∧
  (¬ b.Valid → Book.refused 400 "RECON_RULE_INVALID" (createRule s b id now).2 ∧ (createRule s b id now).1 = s)

/-- C172: what is not a rule is refused, and nothing is stored. -/
theorem c172_invalid (s : Sys) (b : Body) (id : Text) (now : Nat) (h : ¬ b.Valid) :
    Book.refused 400 "RECON_RULE_INVALID" (createRule s b id now).2 ∧ (createRule s b id now).1 = s := by
  cases hr : ruleErr b with
  | none => exact absurd (ruleErr_none.1 hr) h
  | some m =>
    have := invalid_answer createOpts (by decide +kernel) m (ruleErr_message hr)
    have e : createRule s b id now = (s, .error (respondError createOpts (plain m))) := by unfold createRule; rw [hr]
    rw [e]
    exact ⟨⟨_, rfl, this.1, this.2⟩, rfl⟩

/-- C172: an invalid update of a rule that is there is refused and changes nothing; an update and a
removal of one that is not there are answered by 404. -/
theorem c172_update (s : Sys) (b : Body) (id : Text) (now : Nat) :
    (id ∈ s.rules.map RuleRow.id → ¬ b.Valid →
      Book.refused 400 "RECON_RULE_INVALID" (updateRule s id b now).2 ∧ (updateRule s id b now).1 = s) ∧
    (id ∉ s.rules.map RuleRow.id →
      Book.refused 404 "RECON_RULE_NOT_FOUND" (updateRule s id b now).2 ∧ (updateRule s id b now).1 = s ∧
      Book.refused 404 "RECON_RULE_NOT_FOUND" (deleteRule s id).2 ∧ (deleteRule s id).1 = s) := by
  constructor
  · intro hm h
    obtain ⟨r, hr⟩ : ∃ r, findRule s id = some r := by
      cases hf : findRule s id with
      | some r => exact ⟨r, rfl⟩
      | none =>
        unfold findRule at hf
        rw [List.find?_eq_none] at hf
        obtain ⟨x, hx, e⟩ := List.mem_map.1 hm
        exact absurd (by simpa using e) (hf x hx)
    cases hv : ruleErr b with
    | none => exact absurd (ruleErr_none.1 hv) h
    | some m =>
      have := invalid_answer updateOpts (by decide +kernel) m (ruleErr_message hv)
      have e : updateRule s id b now = (s, .error (respondError updateOpts (plain m))) := by unfold updateRule; rw [hr, hv]
      rw [e]
      exact ⟨⟨_, rfl, this.1, this.2⟩, rfl⟩
  · intro hm
    have hf : findRule s id = none := by
      unfold findRule
      rw [List.find?_eq_none]
      intro x hx
      simp only [decide_eq_true_eq]
      exact fun e => hm (List.mem_map.2 ⟨x, hx, e⟩)
    have e1 : updateRule s id b now = (s, .error (respondError updateOpts (noRule id))) := by unfold updateRule; rw [hf]
    have e2 : deleteRule s id = (s, .error (respondError deleteOpts (noRule id))) := by unfold deleteRule; rw [hf]
    rw [e1, e2]
    refine ⟨⟨_, rfl, ?_, ?_⟩, rfl, ⟨_, rfl, ?_, ?_⟩, rfl⟩
    · show (writeError _ _ _ none).status = _
      rw [Book.write_status]; decide +kernel
    · show (writeError _ _ _ none).code = _
      rw [Book.write_code]; decide +kernel
    · show (writeError _ _ _ none).status = _
      rw [Book.write_status]; decide +kernel
    · show (writeError _ _ _ none).code = _
      rw [Book.write_code]; decide +kernel

/-- C172, partially: a rule that fits its columns is stored, and an update of it replaces name,
description and criteria of this rule and nothing else; what does not fit is an internal error. -/
theorem c172_partial (s : Sys) (b : Body) (id : Text) (now : Nat) (h : b.Valid) :
    (b.fits → (createRule s b id now).2 = .ok ⟨id, b.name, b.description, b.criteria, now, now⟩ ∧
      (createRule s b id now).1 = { s with rules := s.rules ++ [⟨id, b.name, b.description, b.criteria, now, now⟩] }) ∧
    (b.fits → id ∈ s.rules.map RuleRow.id →
      (∃ r, (updateRule s id b now).2 = .ok r ∧ r.id = id ∧ r.name = b.name ∧ r.description = b.description ∧ r.criteria = b.criteria) ∧
      (updateRule s id b now).1.rules.map RuleRow.id = s.rules.map RuleRow.id ∧
      (∀ r ∈ (updateRule s id b now).1.rules, r.id = id → r.name = b.name ∧ r.description = b.description ∧ r.criteria = b.criteria) ∧
      (∀ i, i ≠ id → findRule (updateRule s id b now).1 i = findRule s i)) ∧
    (¬ b.fits → Book.refused 500 "GEN_INTERNAL" (createRule s b id now).2 ∧ (createRule s b id now).1 = s) := by
  have hv := ruleErr_none.2 h
  refine ⟨?_, ?_, ?_⟩
  · intro hf
    unfold createRule
    rw [hv]
    simp only [hf, if_true, and_self]
  · intro hf hm
    obtain ⟨r, hr⟩ : ∃ r, findRule s id = some r := by
      cases hf' : findRule s id with
      | some r => exact ⟨r, rfl⟩
      | none =>
        unfold findRule at hf'
        rw [List.find?_eq_none] at hf'
        obtain ⟨x, hx, e⟩ := List.mem_map.1 hm
        exact absurd (by simpa using e) (hf' x hx)
    have hid : r.id = id := by
      have := List.find?_some hr
      simpa using this
    have e : updateRule s id b now =
        ({ s with rules := s.rules.map fun x => if x.id = id then setRule b x else x }, .ok { setRule b r with updated := now }) := by
      unfold updateRule
      rw [hr, hv]
      simp only [hf, if_true]
    rw [e]
    refine ⟨⟨_, rfl, hid, rfl, rfl, rfl⟩, ?_, ?_, ?_⟩
    · simp only [List.map_map]
      apply List.map_congr_left
      intro x _
      simp only [Function.comp]
      split <;> rfl
    · intro x hx hxi
      obtain ⟨y, -, rfl⟩ := List.mem_map.1 hx
      split at hxi
      · next h' => rw [if_pos h']; exact ⟨rfl, rfl, rfl⟩
      · next h' => exact absurd hxi h'
    · intro i hi
      unfold findRule
      show (s.rules.map fun x => if x.id = id then setRule b x else x).find? _ = _
      induction s.rules with
      | nil => rfl
      | cons x xs ih =>
        rw [List.map_cons, List.find?_cons, List.find?_cons, ih]
        by_cases hx : x.id = id
        · rw [if_pos hx]
          have h1 : ¬ (setRule b x).id = i := by show ¬ x.id = i; rw [hx]; exact fun h => hi h.symm
          have h2 : ¬ x.id = i := h1
          simp only [h1, h2, decide_false]
        · rw [if_neg hx]
  · intro hf
    have e : createRule s b id now =
        (s, .error (respondError createOpts (api "INTERNAL_SERVER_ERROR" (t! "Failed to record matching rule") none))) := by
      unfold createRule
      rw [hv]
      simp only [hf]
      rfl
    rw [e]
    exact ⟨⟨_, rfl, by decide +kernel, by decide +kernel⟩, rfl⟩

/-- By reference, exactly. -/
def byReference : Body := { name := t! "by reference", criteria := [{ field := t! "reference", operator := t! "equals" }] }

theorem byReference_valid : byReference.Valid := ruleErr_none.1 (by decide +kernel)

/-- The same with a long name. -/
def longName : Body := { byReference with name := List.replicate 256 'x' }

theorem longName_valid : longName.Valid := ruleErr_none.1 (by decide +kernel)

/-- C172 fails: a rule with a name of 256 letters passes the validation and is answered by an internal
error. -/
theorem c172_full_fails : ¬ C172Full := by
  intro h
  obtain ⟨r, hr, -⟩ := (h {} longName (t! "rule_1") 0).1 longName_valid
  obtain ⟨e, he, -⟩ := ((c172_partial {} longName (t! "rule_1") 0 longName_valid).2.2 (by decide +kernel)).1
  rw [hr] at he
  cases he

example : byReference.Valid ∧ byReference.fits = true := ⟨byReference_valid, by decide +kernel⟩

example : ¬ (⟨t! "x", [], [{ field := t! "amount", operator := t! "equals", drift := 2 }]⟩ : Body).Valid :=
  fun h => absurd (ruleErr_none.2 h) (by decide +kernel)

/-! ### C171 -/

/-- Some external record and some internal transaction satisfy all criteria of a rule. -/
def CanMatch (cs : List Crit) : Prop :=
  ∃ e t : Recon.Rec, Recon.matchesRules Recon.ascii [⟨"", parsed cs⟩] e t = true

/-- **C171 in full**: a rule that is accepted can match something. -/
def C171Full : Prop := ∀ (s : Sys) (b : Body) (id : Text) (now : Nat) (r : RuleRow),
  (createRule s b id now).2 = .ok r → CanMatch r.criteria

/-- What a list of criteria has to be like for something to satisfy them. -/
def Sensible (cs : List Crit) : Prop :=
  (∀ c ∈ cs, (c.field = t! "description" ∨ c.field = t! "reference") → c.operator = t! "equals" ∨ c.operator = t! "contains") ∧
  ∀ f, f = t! "amount" ∨ f = t! "date" →
    (∀ c ∈ cs, c.field = f → c.operator ≠ t! "contains") ∧
    (∀ c ∈ cs, ∀ d ∈ cs, c.field = f → d.field = f → c.operator = t! "greater_than" → d.operator ≠ t! "less_than") ∧
    (∀ c ∈ cs, ∀ d ∈ cs, c.field = f → d.field = f → c.operator = t! "greater_than" ∨ c.operator = t! "less_than" →
      d.operator = t! "equals" → d.drift ≠ 0)

theorem parse_of_valid {c : Crit} (h : c.Valid) : ∃ f o, parseField c.field = some f ∧ parseOperator c.operator = some o ∧
    c.parse = some ⟨f, o, c.drift⟩ := by
  have := critErr_none.2 h
  unfold critErr at this
  split at this
  · exact absurd this (by simp)
  · cases ho : parseOperator c.operator with
    | none => simp [ho] at this
    | some o =>
      cases hf : parseField c.field with
      | none => simp [ho, hf] at this
      | some f => exact ⟨f, o, rfl, rfl, by unfold Crit.parse; rw [hf, ho]⟩

theorem matches_iff {cs : List Crit} {e t : Recon.Rec} : Recon.matchesRules Recon.ascii [⟨"", parsed cs⟩] e t = true ↔
    ∀ c ∈ cs, ∀ p, c.parse = some p → Recon.meets Recon.ascii p e t = true := by
  unfold Recon.matchesRules parsed
  simp only [List.any_cons, List.any_nil, Bool.or_false, List.all_eq_true, List.mem_filterMap]
  constructor
  · intro h c hc p hp
    exact h p ⟨c, hc, hp⟩
  · rintro h p ⟨c, hc, hp⟩
    exact h c hc p hp

theorem positive_bound (cs : List Crit) (P : Crit → Prop) (h : ∀ c ∈ cs, P c → 0 < c.drift) :
    ∃ m : Rat, 0 < m ∧ ∀ c ∈ cs, P c → m ≤ c.drift := by
  induction cs with
  | nil => exact ⟨1, by decide +kernel, by simp⟩
  | cons c cs ih =>
    obtain ⟨m, hm, h'⟩ := ih fun c hc => h c (List.mem_cons_of_mem _ hc)
    by_cases hp : P c
    · have hc := h c List.mem_cons_self hp
      by_cases hle : m ≤ c.drift
      · refine ⟨m, hm, fun d hd pd => ?_⟩
        rcases List.mem_cons.1 hd with rfl | hd
        · exact hle
        · exact h' d hd pd
      · refine ⟨c.drift, hc, fun d hd pd => ?_⟩
        rcases List.mem_cons.1 hd with rfl | hd
        · exact Rat.le_refl
        · have := h' d hd pd
          grind
    · refine ⟨m, hm, fun d hd pd => ?_⟩
      rcases List.mem_cons.1 hd with rfl | hd
      · exact absurd pd hp
      · exact h' d hd pd

/-- A number that satisfies all comparisons with 1 that the criteria of a field ask for. -/
theorem number_for {cs : List Crit} {f : Text} (hf : f = t! "amount" ∨ f = t! "date") (hv : ∀ c ∈ cs, c.Valid)
    (h : (∀ c ∈ cs, c.field = f → c.operator ≠ t! "contains") ∧
      (∀ c ∈ cs, ∀ d ∈ cs, c.field = f → d.field = f → c.operator = t! "greater_than" → d.operator ≠ t! "less_than") ∧
      (∀ c ∈ cs, ∀ d ∈ cs, c.field = f → d.field = f → c.operator = t! "greater_than" ∨ c.operator = t! "less_than" →
        d.operator = t! "equals" → d.drift ≠ 0)) :
    ∃ v : Rat, ∀ c ∈ cs, c.field = f →
      (c.operator = t! "equals" ∧ v - 1 ≤ c.drift ∧ 1 - v ≤ c.drift) ∨ (c.operator = t! "greater_than" ∧ 1 < v) ∨
      (c.operator = t! "less_than" ∧ v < 1) := by
  obtain ⟨h1, h2, h3⟩ := h
  have nonneg : ∀ c ∈ cs, c.field = f → c.operator = t! "equals" → 0 ≤ c.drift := by
    intro c hc e1 e2
    rcases hf with rfl | rfl
    · exact ((hv c hc).2.2.1 e2 e1).1
    · exact (hv c hc).2.2.2 e2 e1
  have ops : ∀ c ∈ cs, c.field = f → c.operator = t! "equals" ∨ c.operator = t! "greater_than" ∨ c.operator = t! "less_than" := by
    intro c hc e
    have := (hv c hc).2.1
    simp only [List.mem_cons, List.not_mem_nil, or_false] at this
    rcases this with h | h | h | h
    · exact Or.inl h
    · exact Or.inr (Or.inl h)
    · exact Or.inr (Or.inr h)
    · exact absurd h (h1 c hc e)
  by_cases hg : ∃ c ∈ cs, c.field = f ∧ c.operator = t! "greater_than"
  · obtain ⟨g, hg, gf, go⟩ := hg
    obtain ⟨m, hm, hb⟩ := positive_bound cs (fun c => c.field = f ∧ c.operator = t! "equals") (by
      rintro c hc ⟨e1, e2⟩
      have := nonneg c hc e1 e2
      have := h3 g hg c hc gf e1 (Or.inl go) e2
      grind)
    refine ⟨1 + m, fun c hc e => ?_⟩
    rcases ops c hc e with h | h | h
    · have := hb c hc ⟨e, h⟩
      exact Or.inl ⟨h, by grind, by grind⟩
    · exact Or.inr (Or.inl ⟨h, by grind⟩)
    · exact absurd h (h2 g hg c hc gf e go)
  · by_cases hl : ∃ c ∈ cs, c.field = f ∧ c.operator = t! "less_than"
    · obtain ⟨g, hg', gf, go⟩ := hl
      obtain ⟨m, hm, hb⟩ := positive_bound cs (fun c => c.field = f ∧ c.operator = t! "equals") (by
        rintro c hc ⟨e1, e2⟩
        have := nonneg c hc e1 e2
        have := h3 g hg' c hc gf e1 (Or.inr go) e2
        grind)
      refine ⟨1 - m, fun c hc e => ?_⟩
      rcases ops c hc e with h | h | h
      · have := hb c hc ⟨e, h⟩
        exact Or.inl ⟨h, by grind, by grind⟩
      · exact absurd ⟨c, hc, e, h⟩ hg
      · exact Or.inr (Or.inr ⟨h, by grind⟩)
    · refine ⟨1, fun c hc e => ?_⟩
      rcases ops c hc e with h | h | h
      · have := nonneg c hc e h
        exact Or.inl ⟨h, by grind, by grind⟩
      · exact absurd ⟨c, hc, e, h⟩ hg
      · exact absurd ⟨c, hc, e, h⟩ hl

theorem op_equals {t : Text} {o : Recon.Operator} (h : parseOperator t = some o) (e : t = t! "equals") : o = .equals := by
  rw [e] at h; cases h.symm.trans (show parseOperator (t! "equals") = some .equals by decide +kernel); rfl
theorem op_greater {t : Text} {o : Recon.Operator} (h : parseOperator t = some o) (e : t = t! "greater_than") : o = .greaterThan := by
  rw [e] at h; cases h.symm.trans (show parseOperator (t! "greater_than") = some .greaterThan by decide +kernel); rfl
theorem op_less {t : Text} {o : Recon.Operator} (h : parseOperator t = some o) (e : t = t! "less_than") : o = .lessThan := by
  rw [e] at h; cases h.symm.trans (show parseOperator (t! "less_than") = some .lessThan by decide +kernel); rfl
theorem op_contains {t : Text} {o : Recon.Operator} (h : parseOperator t = some o) (e : t = t! "contains") : o = .contains := by
  rw [e] at h; cases h.symm.trans (show parseOperator (t! "contains") = some .contains by decide +kernel); rfl

theorem empty_parts : Recon.ascii.parts "" = [""] := by decide +kernel
theorem empty_same : Recon.ascii.same "" "" = true := by decide +kernel
theorem empty_near (d : Rat) : Recon.ascii.near d "" "" = true := by
  have e : ("" : String).toList = [] := rfl
  unfold Recon.ascii
  dsimp only
  rw [e]
  simp [Recon.infixOf]

/-- C171, partially: of the rules that are accepted exactly those can match something that ask texts
only to be equal or to contain, and that do not ask numbers to contain, to be both greater and
smaller, or to be greater or smaller and yet equal. -/
theorem c171_partial (s : Sys) (b : Body) (id : Text) (now : Nat) (r : RuleRow) (h : (createRule s b id now).2 = .ok r) :
    CanMatch r.criteria ↔ Sensible r.criteria := by
  have hv : ∀ c ∈ r.criteria, c.Valid := by
    unfold createRule at h
    cases hr : ruleErr b with
    | some m => rw [hr] at h; cases h
    | none =>
      rw [hr] at h
      dsimp only at h
      split at h
      · cases h
        exact (ruleErr_none.1 hr).2.2
      · cases h
  generalize r.criteria = cs at hv
  unfold CanMatch
  constructor
  · rintro ⟨e, t, hm⟩
    rw [matches_iff] at hm
    have get : ∀ c ∈ cs, ∃ f o, parseField c.field = some f ∧ parseOperator c.operator = some o ∧
        Recon.meets Recon.ascii ⟨f, o, c.drift⟩ e t = true := by
      intro c hc
      obtain ⟨f, o, h1, h2, h3⟩ := parse_of_valid (hv c hc)
      exact ⟨f, o, h1, h2, hm c hc _ h3⟩
    -- what the criteria on one number say
    have num : ∀ f, f = t! "amount" ∨ f = t! "date" → ∃ x y : Rat, ∀ c ∈ cs, c.field = f →
        c.operator ≠ t! "contains" ∧ (c.operator = t! "greater_than" → y < x) ∧ (c.operator = t! "less_than" → x < y) ∧
        (c.operator = t! "equals" → c.drift = 0 → x = y) := by
      intro f hf
      refine ⟨if f = t! "amount" then e.amount else e.date, if f = t! "amount" then t.amount else t.date, fun c hc hcf => ?_⟩
      obtain ⟨pf, po, h1, h2, h3⟩ := get c hc
      rcases hf with rfl | rfl
      · rw [if_pos rfl, if_pos rfl]
        have : pf = .amount := by
          rw [hcf] at h1; cases h1.symm.trans (show parseField (t! "amount") = some .amount by decide +kernel); rfl
        subst this
        refine ⟨fun h => ?_, fun h => ?_, fun h => ?_, fun h hd => ?_⟩
        · rw [op_contains h2 h] at h3; exact absurd h3 (by simp [Recon.meets, Recon.matchesAmount])
        · rw [op_greater h2 h] at h3; simpa [Recon.meets, Recon.matchesAmount] using h3
        · rw [op_less h2 h] at h3; simpa [Recon.meets, Recon.matchesAmount] using h3
        · rw [op_equals h2 h, hd] at h3
          simp only [Recon.meets, Recon.matchesAmount, Rat.mul_zero, decide_eq_true_eq, Recon.Rat.dist] at h3
          split at h3 <;> grind
      · rw [if_neg (by decide +kernel), if_neg (by decide +kernel)]
        have : pf = .date := by
          rw [hcf] at h1; cases h1.symm.trans (show parseField (t! "date") = some .date by decide +kernel); rfl
        subst this
        refine ⟨fun h => ?_, fun h => ?_, fun h => ?_, fun h hd => ?_⟩
        · rw [op_contains h2 h] at h3; exact absurd h3 (by simp [Recon.meets, Recon.matchesDate])
        · rw [op_greater h2 h] at h3; simpa [Recon.meets, Recon.matchesDate] using h3
        · rw [op_less h2 h] at h3; simpa [Recon.meets, Recon.matchesDate] using h3
        · rw [op_equals h2 h, hd] at h3
          simp only [Recon.meets, Recon.matchesDate, Recon.Rat.dist] at h3
          split at h3 <;> grind
    refine ⟨?_, ?_⟩
    · intro c hc hf
      obtain ⟨pf, po, h1, h2, h3⟩ := get c hc
      have ho := (hv c hc).2.1
      simp only [List.mem_cons, List.not_mem_nil, or_false] at ho
      have hs : pf = .description ∨ pf = .reference := by
        rcases hf with e | e <;> rw [e] at h1
        · cases h1.symm.trans (show parseField (t! "description") = some .description by decide +kernel); exact Or.inl rfl
        · cases h1.symm.trans (show parseField (t! "reference") = some .reference by decide +kernel); exact Or.inr rfl
      rcases ho with h | h | h | h
      · exact Or.inl h
      · exfalso
        rw [op_greater h2 h] at h3
        rcases hs with rfl | rfl <;> exact absurd h3 (by simp [Recon.meets, Recon.matchesString])
      · exfalso
        rw [op_less h2 h] at h3
        rcases hs with rfl | rfl <;> exact absurd h3 (by simp [Recon.meets, Recon.matchesString])
      · exact Or.inr h
    · intro f hf
      obtain ⟨x, y, hxy⟩ := num f hf
      refine ⟨fun c hc e => (hxy c hc e).1, ?_, ?_⟩
      · intro c hc d hd e1 e2 e3 e4
        have a := (hxy c hc e1).2.1 e3
        have b := (hxy d hd e2).2.2.1 e4
        grind
      · intro c hc d hd e1 e2 e3 e4 e5
        have b := (hxy d hd e2).2.2.2 e4 e5
        rcases e3 with e3 | e3
        · have a := (hxy c hc e1).2.1 e3
          grind
        · have a := (hxy c hc e1).2.2.1 e3
          grind
  · rintro ⟨h1, h2⟩
    obtain ⟨a, ha⟩ := number_for (Or.inl rfl) hv (h2 _ (Or.inl rfl))
    obtain ⟨d, hd⟩ := number_for (Or.inr rfl) hv (h2 _ (Or.inr rfl))
    refine ⟨{ id := "e", amount := a, date := d }, { id := "t", amount := 1, date := 1, currency := "MIXED" }, ?_⟩
    rw [matches_iff]
    intro c hc p hp
    obtain ⟨f, o, hf, ho, hp'⟩ := parse_of_valid (hv c hc)
    rw [hp'] at hp
    cases hp
    have hf' := hf
    rw [parseField_some] at hf
    rcases hf with ⟨e, rfl⟩ | ⟨e, rfl⟩ | ⟨e, rfl⟩ | ⟨e, rfl⟩ | ⟨e, rfl⟩
    · rcases ha c hc e with ⟨h, l1, l2⟩ | ⟨h, l⟩ | ⟨h, l⟩
      · rw [op_equals ho h]
        simp only [Recon.meets, Recon.matchesAmount, decide_eq_true_eq, Recon.Rat.dist, Recon.Rat.size]
        rw [if_pos (by decide +kernel : (0 : Rat) ≤ 1)]
        split <;> grind
      · rw [op_greater ho h]
        simpa [Recon.meets, Recon.matchesAmount] using l
      · rw [op_less ho h]
        simpa [Recon.meets, Recon.matchesAmount] using l
    · rcases hd c hc e with ⟨h, l1, l2⟩ | ⟨h, l⟩ | ⟨h, l⟩
      · rw [op_equals ho h]
        simp only [Recon.meets, Recon.matchesDate, decide_eq_true_eq, Recon.Rat.dist]
        split <;> grind
      · rw [op_greater ho h]
        simpa [Recon.meets, Recon.matchesDate] using l
      · rw [op_less ho h]
        simpa [Recon.meets, Recon.matchesDate] using l
    · rcases h1 c hc (Or.inl e) with h | h
      · rw [op_equals ho h]
        simp only [Recon.meets, Recon.matchesString, empty_parts, List.any_cons, empty_same, Bool.true_or]
      · rw [op_contains ho h]
        simp only [Recon.meets, Recon.matchesString, empty_parts, List.any_cons, empty_near, Bool.true_or]
    · rcases h1 c hc (Or.inr e) with h | h
      · rw [op_equals ho h]
        simp only [Recon.meets, Recon.matchesString, empty_parts, List.any_cons, empty_same, Bool.true_or]
      · rw [op_contains ho h]
        simp only [Recon.meets, Recon.matchesString, empty_parts, List.any_cons, empty_near, Bool.true_or]
    · simp only [Recon.meets, Recon.matchesCurrency, if_true]

/-- An amount that is to contain something. -/
def amountContains : Body := { name := t! "x", criteria := [{ field := t! "amount", operator := t! "contains" }] }

/-- C171 fails: a rule that asks an amount to contain something is accepted and never matches. -/
theorem c171_full_fails : ¬ C171Full := by
  intro h
  have e : (createRule {} amountContains (t! "rule_1") 0).2 = .ok ⟨t! "rule_1", t! "x", [], amountContains.criteria, 0, 0⟩ := by
    decide +kernel
  have := (c171_partial _ _ _ _ _ e).1 (h _ _ _ _ _ e)
  exact (this.2 (t! "amount") (Or.inl rfl)).1 { field := t! "amount", operator := t! "contains" } (by decide +kernel) rfl rfl

/-- More than the reference, and within a hundredth. -/
def above : Body :=
  { name := t! "above"
    criteria := [{ field := t! "amount", operator := t! "greater_than" }, { field := t! "amount", operator := t! "equals", drift := 1 / 100 },
      { field := t! "reference", operator := t! "contains" }] }

example : CanMatch above.criteria := by
  have e : (createRule {} above (t! "rule_1") 0).2 = .ok ⟨t! "rule_1", t! "above", [], above.criteria, 0, 0⟩ := by decide +kernel
  refine (c171_partial _ _ _ _ _ e).2 ⟨by decide +kernel, fun f hf => ?_⟩
  rcases hf with rfl | rfl <;> exact ⟨by decide +kernel, by decide +kernel, by decide +kernel⟩

/-! ### C179 -/

/-- The value of a field of a record is the same in both. -/
def SameField (f : Recon.Field) (e t : Recon.Rec) : Prop :=
  match f with
  | .amount => e.amount = t.amount
  | .date => e.date = t.date
  | .description => e.description = t.description
  | .reference => e.reference = t.reference
  | .currency => e.currency = t.currency

/-- **C179 in full**: values that are equal satisfy a criterion that asks them to be equal. -/
def C179Full : Prop := ∀ (c : Crit) (p : Recon.Criterion) (e t : Recon.Rec),
  c.Valid → c.parse = some p → p.operator = .equals → SameField p.field e t → Recon.meets Recon.ascii p e t = true

/-- The texts of a record the rules compare. -/
def textOf (f : Recon.Field) (t : Recon.Rec) : String :=
  match f with
  | .description => t.description
  | .reference => t.reference
  | .currency => t.currency
  | _ => ""

theorem splitBar_whole (cs : List Char) : ∀ acc, ¬ (t! " | ") <:+: cs → Recon.splitBar acc cs = [acc.reverse ++ cs] := by
  induction cs with
  | nil => intro acc _; simp [Recon.splitBar]
  | cons c cs ih =>
    intro acc h
    have h' : ¬ (t! " | ") <:+: cs := fun k => h (List.infix_cons k)
    unfold Recon.splitBar
    split
    · next rest heq =>
      exfalso
      apply h
      rw [heq]
      exact (List.prefix_append (t! " | ") _).isInfix
    · next c' cs' _ heq =>
      cases heq
      rw [ih _ h']
      simp
    · next heq => cases heq

/-- C179, partially: texts without a bar between blanks. -/
theorem c179_partial (c : Crit) (p : Recon.Criterion) (e t : Recon.Rec) (hv : c.Valid) (hp : c.parse = some p) (ho : p.operator = .equals)
    (hs : SameField p.field e t) (hb : ¬ (t! " | ") <:+: (textOf p.field t).toList) : Recon.meets Recon.ascii p e t = true := by
  have whole : ∀ s : String, ¬ (t! " | ") <:+: s.toList → Recon.matchesString Recon.ascii p s s = true := by
    intro s h
    unfold Recon.matchesString
    rw [ho]
    show ((Recon.splitBar [] s.toList).map String.ofList).any _ = true
    rw [splitBar_whole _ _ h]
    simp [Recon.ascii]
  obtain ⟨f, o, h1, h2, h3⟩ := parse_of_valid hv
  rw [h3] at hp
  cases hp
  dsimp only at ho hs hb
  subst ho
  have ho' : c.operator = t! "equals" := by
    rw [parseOperator_some] at h2
    rcases h2 with ⟨e, -⟩ | ⟨-, h'⟩ | ⟨-, h'⟩ | ⟨-, h'⟩
    · exact e
    all_goals exact absurd h' (by decide)
  have dist0 : ∀ x : Rat, Recon.Rat.dist x x = 0 := by
    intro x
    unfold Recon.Rat.dist
    split <;> grind
  cases f with
  | amount =>
    have ef : c.field = t! "amount" := by
      rw [parseField_some] at h1
      rcases h1 with ⟨e, -⟩ | ⟨-, h'⟩ | ⟨-, h'⟩ | ⟨-, h'⟩ | ⟨-, h'⟩
      · exact e
      all_goals exact absurd h' (by decide)
    have hd := (hv.2.2.1 ho' ef).1
    have hs' : e.amount = t.amount := hs
    simp only [Recon.meets, Recon.matchesAmount, decide_eq_true_eq]
    rw [hs', dist0]
    apply Rat.mul_nonneg _ hd
    unfold Recon.Rat.size
    split <;> grind
  | date =>
    have ef : c.field = t! "date" := by
      rw [parseField_some] at h1
      rcases h1 with ⟨-, h'⟩ | ⟨e, -⟩ | ⟨-, h'⟩ | ⟨-, h'⟩ | ⟨-, h'⟩
      · exact absurd h' (by decide)
      · exact e
      all_goals exact absurd h' (by decide)
    have hd := hv.2.2.2 ho' ef
    have hs' : e.date = t.date := hs
    simp only [Recon.meets, Recon.matchesDate, decide_eq_true_eq]
    rw [hs', dist0]
    exact hd
  | description =>
    have hs' : e.description = t.description := hs
    simp only [Recon.meets]
    rw [hs']
    exact whole _ hb
  | reference =>
    have hs' : e.reference = t.reference := hs
    simp only [Recon.meets]
    rw [hs']
    exact whole _ hb
  | currency =>
    have hs' : e.currency = t.currency := hs
    simp only [Recon.meets, Recon.matchesCurrency]
    rw [hs']
    split
    · rfl
    · exact whole _ hb

/-- C179 fails: a reference with a bar in it does not equal itself. -/
theorem c179_full_fails : ¬ C179Full := by
  intro h
  have := h { field := t! "reference", operator := t! "equals" } ⟨.reference, .equals, 0⟩
    { id := "e", amount := 1, reference := "a | b" } { id := "t", amount := 1, reference := "a | b" }
    (critErr_none.1 (by decide +kernel)) (by decide +kernel) rfl rfl
  revert this
  decide +kernel

example : Recon.meets Recon.ascii ⟨.reference, .equals, 0⟩ { id := "e", amount := 1, reference := "a|b" } { id := "t", amount := 2, reference := "a|b" } = true :=
  c179_partial { field := t! "reference", operator := t! "equals" } _ _ _ (critErr_none.1 (by decide +kernel)) (by decide +kernel) rfl rfl
    ((has_false_iff _ _).1 (by decide +kernel))

/-! ### C174 -/

/-- **C174 in full**: a reconciliation shows whether it was asked for as a dry run. -/
def C174Full : Prop := ∀ (s : Sys) (q : StartReq) (id : Text) (now : Nat),
  id ∉ s.recons.map ReconRow.id → (start s q id now).2 = .ok id →
  ∃ v, get (start s q id now).1 id = .ok v ∧ v.dry = q.dry

/-- A dry run. -/
def dryRun : StartReq := { upload := t! "u", strategy := t! "one_to_one", rules := [t! "rule_1"], dry := true }

/-- No reconciliation is ever shown as a dry run. -/
theorem c174_never (s : Sys) (id : Text) (v : ReconView) (h : get s id = .ok v) : v.dry = false := by
  unfold get at h
  split at h
  · cases h; rfl
  · split at h
    · split at h <;> cases h
    · cases h

/-- C174 fails: a dry run is shown as one that is not. -/
theorem c174_full_fails : ¬ C174Full := by
  intro h
  obtain ⟨v, hv, hd⟩ := h {} dryRun (t! "recon_1") 0 (by decide +kernel) (by decide +kernel)
  have := c174_never _ _ _ hv
  rw [this] at hd
  exact absurd hd (by decide)

/-- C174, partially: everything else a reconciliation was asked for with is shown. -/
theorem c174_partial (s : Sys) (q : StartReq) (id : Text) (now : Nat) (hn : id ∉ s.recons.map ReconRow.id)
    (h : (start s q id now).2 = .ok id) :
    get (start s q id now).1 id = .ok ⟨id, q.upload, .started, 0, 0, false, now, none⟩ := by
  unfold start at h ⊢
  split at h
  · cases h
  · next h1 =>
    rw [if_neg h1]
    split at h
    · next h2 =>
      rw [if_pos h2]
      unfold get
      dsimp only
      have : s.recons.find? (fun r => decide (r.id = id)) = none := by
        rw [List.find?_eq_none]
        intro r hr
        simp only [decide_eq_true_eq]
        exact fun e => hn (List.mem_map.2 ⟨r, hr, e⟩)
      rw [List.find?_append, this, Option.none_or, List.find?_cons_of_pos (by simp)]
      rfl
    · cases h

example : get (start {} dryRun (t! "recon_1") 7).1 (t! "recon_1") = .ok ⟨t! "recon_1", t! "u", .started, 0, 0, false, 7, none⟩ :=
  c174_partial {} dryRun (t! "recon_1") 7 (by decide +kernel) (by decide +kernel)

/-! ### C178 -/

/-- **C178 in full**: a reconciliation that is not there is answered by 404. -/
def C178Full : Prop := ∀ (s : Sys) (id : Text), id ∉ s.recons.map ReconRow.id → Book.refused 404 "RECON_NOT_FOUND" (get s id)

theorem noRecon_text (id : Text) :
    (noRecon id).text = t! "failed to retrieve reconciliation: NOT_FOUND: Reconciliation with ID '" ++ id ++ t! "' not found" := by
  have : ("NOT_FOUND" : String).toList = t! "NOT_FOUND" := by decide +kernel
  unfold noRecon wrap api Err.text Leaf.text
  dsimp only
  rw [this]
  simp

theorem has_noRecon {p id : Text} (h : '\'' ∉ p) (hp : p ≠ []) : has p (noRecon id).text =
    (has p (t! "failed to retrieve reconciliation: NOT_FOUND: Reconciliation with ID ") || (has p id || has p (t! " not found"))) := by
  have e : (noRecon id).text = t! "failed to retrieve reconciliation: NOT_FOUND: Reconciliation with ID " ++ '\'' :: (id ++ '\'' :: t! " not found") := by
    rw [noRecon_text]; simp
  rw [e, has_append_of_notin h, Book.has_cons_notin h hp, has_append_of_notin h, Book.has_cons_notin h hp]

theorem get_missing {s : Sys} {id : Text} (h : id ∉ s.recons.map ReconRow.id) {c : String} (hc : classifyMessage (noRecon id).text = some c) :
    get s id = .error (if statusForCode c = 404 then respondCode "RECON_NOT_FOUND" (t! "Reconciliation not found")
      else respondCode "GEN_INTERNAL" (t! "Failed to retrieve reconciliation")) := by
  have : s.recons.find? (fun r => decide (r.id = id)) = none := by
    rw [List.find?_eq_none]
    intro r hr
    simp only [decide_eq_true_eq]
    exact fun e => h (List.mem_map.2 ⟨r, hr, e⟩)
  unfold get
  rw [this]
  dsimp only
  rw [hc]
  dsimp only
  split <;> rfl

/-- Whatever else is in an id without blanks, it is the word `field` that decides whether a
reconciliation that is not there is answered by 404 or as an internal error. -/
theorem c178_partial (s : Sys) (id : Text) (h : id ∉ s.recons.map ReconRow.id) (hb : ' ' ∉ id) :
    if (t! "field") <:+: id ∧ ¬ (t! "transaction") <:+: id then Book.refused 500 "GEN_INTERNAL" (get s id)
    else Book.refused 404 "RECON_NOT_FOUND" (get s id) := by
  have key : ∀ m : Text, (∀ p ∈ Book.allPhrases, has p m =
      (has p (t! "failed to retrieve reconciliation: NOT_FOUND: Reconciliation with ID ") || (has p id || has p (t! " not found")))) →
      classifyMessage (noRecon id).text = classifyMessage m := by
    intro m hm
    apply Book.classifyIn_congr
    intro p hp
    rw [hm p hp]
    exact has_noRecon (Book.phrases_plain p hp).1 (Book.phrases_plain p hp).2.1
  have word : ∀ m : Text, has (t! "transaction") m = has (t! "transaction") id → has (t! "field") m = has (t! "field") id →
      (∀ p ∈ Book.allPhrases, ' ' ∈ p → has p m =
        (has p (t! "failed to retrieve reconciliation: NOT_FOUND: Reconciliation with ID ") || has p (t! " not found"))) →
      ∀ p ∈ Book.allPhrases, has p m =
        (has p (t! "failed to retrieve reconciliation: NOT_FOUND: Reconciliation with ID ") || (has p id || has p (t! " not found"))) := by
    intro m h1 h2 h3 p hp
    rcases (Book.phrases_plain p hp).2.2 with hs | rfl | rfl
    · rw [h3 p hp hs, has_false_of_noBlank hs hb, Bool.false_or]
    · rw [h1, show has (t! "transaction") (t! "failed to retrieve reconciliation: NOT_FOUND: Reconciliation with ID ") = false by decide +kernel,
        show has (t! "transaction") (t! " not found") = false by decide +kernel]
      simp
    · rw [h2, show has (t! "field") (t! "failed to retrieve reconciliation: NOT_FOUND: Reconciliation with ID ") = false by decide +kernel,
        show has (t! "field") (t! " not found") = false by decide +kernel]
      simp
  have notFound : Book.refused 404 "RECON_NOT_FOUND" (.error (respondCode "RECON_NOT_FOUND" (t! "Reconciliation not found")) : Except Resp ReconView) :=
    ⟨_, rfl, by decide +kernel, by decide +kernel⟩
  have internal : Book.refused 500 "GEN_INTERNAL" (.error (respondCode "GEN_INTERNAL" (t! "Failed to retrieve reconciliation")) : Except Resp ReconView) :=
    ⟨_, rfl, by decide +kernel, by decide +kernel⟩
  by_cases ht : (t! "transaction") <:+: id
  · rw [if_neg (fun h => h.2 ht)]
    have hc : classifyMessage (noRecon id).text = some "TXN_NOT_FOUND" := by
      have h1 : has (t! "transaction") (noRecon id).text = true := by
        rw [has_noRecon (by decide +kernel) (by decide), (has_iff _ _).2 ht]
        simp
      have h2 : has (t! "not found") (noRecon id).text = true := by
        rw [has_noRecon (by decide +kernel) (by decide), show has (t! "not found") (t! " not found") = true by decide +kernel]
        simp
      unfold classifyMessage messagePatterns classifyIn
      rw [if_pos]
      simp only [List.all_cons, List.all_nil, Bool.and_true, h1, h2]
    rw [get_missing h hc, if_pos (by decide +kernel)]
    exact notFound
  · have ht' := (has_false_iff _ _).2 ht
    by_cases hf : (t! "field") <:+: id
    · rw [if_pos ⟨hf, ht⟩]
      have hf' := (has_iff _ _).2 hf
      have hc := key (t! "failed to retrieve reconciliation: NOT_FOUND: Reconciliation with ID field not found")
        (word _ (by rw [ht']; decide +kernel) (by rw [hf']; decide +kernel) (by decide +kernel))
      rw [show classifyMessage (t! "failed to retrieve reconciliation: NOT_FOUND: Reconciliation with ID field not found") =
        some "IDT_FIELD_NOT_FOUND" by decide +kernel] at hc
      rw [get_missing h hc, if_neg (by decide +kernel)]
      exact internal
    · rw [if_neg (fun h => hf h.1)]
      have hf' := (has_false_iff _ _).2 hf
      have hc := key (t! "failed to retrieve reconciliation: NOT_FOUND: Reconciliation with ID  not found")
        (word _ (by rw [ht']; decide +kernel) (by rw [hf']; decide +kernel) (by decide +kernel))
      rw [show classifyMessage (t! "failed to retrieve reconciliation: NOT_FOUND: Reconciliation with ID  not found") =
        some "GEN_NOT_FOUND" by decide +kernel] at hc
      rw [get_missing h hc, if_pos (by decide +kernel)]
      exact notFound

/-- C178 fails: the reconciliation `field` is not there, and the answer is an internal error. -/
theorem c178_full_fails : ¬ C178Full := by
  intro h
  obtain ⟨r, hr, hs, -⟩ := h {} (t! "field") (by decide +kernel)
  have := c178_partial {} (t! "field") (by decide +kernel) (by decide +kernel)
  rw [if_pos ⟨(has_iff _ _).1 (by decide +kernel), (has_false_iff _ _).1 (by decide +kernel)⟩] at this
  obtain ⟨r', hr', hs', -⟩ := this
  rw [hr] at hr'
  cases hr'
  rw [hs] at hs'
  exact absurd hs' (by decide)

example : Book.refused 404 "RECON_NOT_FOUND" (get {} (t! "recon_1")) := by
  have := c178_partial {} (t! "recon_1") (by decide +kernel) (by decide +kernel)
  rwa [if_neg (fun h => (has_false_iff _ _).1 (by decide +kernel : has (t! "field") (t! "recon_1") = false) h.1)] at this

end Blnk.Rules
