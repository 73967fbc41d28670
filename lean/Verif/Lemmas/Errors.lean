import Verif.Model.Errors

/-
Finding a fixed phrase in a text built from fixed parts and unknown parts: when no phrase can
straddle a fixed part, it occurs in the whole exactly when it occurs in one of the parts.
-/

namespace Blnk.Errs

/-- `has` is the infix relation. -/
theorem has_iff (p s : Text) : has p s = true ↔ p <:+: s := by
  induction s with
  | nil => simp [has]
  | cons c t ih =>
    simp only [has, Bool.or_eq_true, ih, List.isPrefixOf_iff_prefix]
    exact List.infix_cons_iff.symm

theorem has_false_iff (p s : Text) : has p s = false ↔ ¬ p <:+: s := by
  rw [← has_iff]; simp

/-- A phrase with a blank is not in a text without one. -/
theorem has_false_of_noBlank {p s : Text} (hp : ' ' ∈ p) (hs : ' ' ∉ s) : has p s = false := by
  rw [has_false_iff]
  intro h
  exact hs (h.subset hp)

/-- Containing a longer phrase implies containing a shorter one. -/
theorem has_false_mono {p q s : Text} (h : has q p = true) (hs : has q s = false) : has p s = false := by
  rw [has_false_iff] at hs ⊢
  rw [has_iff] at h
  exact fun h' => hs (h.trans h')

/-- No nonempty end of `b` begins `p`, except `p` itself. -/
def headOK : Text → Text → Bool
  | [], _ => true
  | c :: t, p => (!(c :: t).isPrefixOf p || c :: t == p) && headOK t p

theorem headOK_spec {b p l : Text} (h : headOK b p = true) (hs : l <:+ b) (hp : l <+: p) (h0 : l ≠ []) : l = p := by
  induction b with
  | nil => exact absurd (List.suffix_nil.1 hs) h0
  | cons c t ih =>
    simp only [headOK, Bool.and_eq_true, Bool.or_eq_true, Bool.not_eq_true', beq_iff_eq] at h
    rcases List.suffix_cons_iff.1 hs with e | e
    · subst e
      rcases h.1 with h1 | h1
      · rw [List.isPrefixOf_iff_prefix.2 hp] at h1
        cases h1
      · exact h1
    · exact ih h.2 e

/-- No nonempty end of `p` begins `b`; when something follows `b`, neither does `b` begin it. -/
def endsOK (last : Bool) : Text → Text → Bool
  | [], _ => true
  | c :: t, b => !(c :: t).isPrefixOf b && (last || !b.isPrefixOf (c :: t)) && endsOK last t b

theorem endsOK_spec {last : Bool} {p b l : Text} (h : endsOK last p b = true) (hs : l <:+ p) (h0 : l ≠ []) :
    ¬ l <+: b ∧ (last = true ∨ ¬ b <+: l) := by
  induction p with
  | nil => exact absurd (List.suffix_nil.1 hs) h0
  | cons c t ih =>
    simp only [endsOK, Bool.and_eq_true, Bool.or_eq_true, Bool.not_eq_true',
      ← Bool.not_eq_true (List.isPrefixOf _ _), List.isPrefixOf_iff_prefix] at h
    rcases List.suffix_cons_iff.1 hs with e | e
    · subst e
      exact h.1
    · exact ih h.2 e

/-- The same for the proper ends of `p`. -/
def tailOK (last : Bool) (p b : Text) : Bool := endsOK last p.tail b

theorem has_append_of_head {p b s : Text} (h : headOK b p = true) :
    has p (b ++ s) = (has p b || has p s) := by
  rw [Bool.eq_iff_iff, Bool.or_eq_true, has_iff, has_iff, has_iff, List.infix_append_iff]
  constructor
  · rintro (h' | h' | ⟨l₁, l₂, hp, hs, hr⟩)
    · exact .inl h'
    · exact .inr h'
    · by_cases h1 : l₁ = []
      · subst h1; rw [hp]; exact .inr hr.isInfix
      · have := headOK_spec h hs (hp ▸ List.prefix_append l₁ l₂) h1
        rw [← this]
        exact .inl hs.isInfix
  · rintro (h' | h')
    · exact .inl h'
    · exact .inr (.inl h')

theorem has_append_of_tail {last : Bool} {p v b s : Text} (h : tailOK last p b = true)
    (hl : last = true → s = []) : has p (v ++ (b ++ s)) = (has p v || has p (b ++ s)) := by
  rw [Bool.eq_iff_iff, Bool.or_eq_true, has_iff, has_iff, has_iff, List.infix_append_iff (xs := v)]
  constructor
  · rintro (h' | h' | ⟨l₁, l₂, hp, hs, hr⟩)
    · exact .inl h'
    · exact .inr h'
    · by_cases h1 : l₁ = []
      · subst h1; rw [hp]; exact .inr hr.isInfix
      · by_cases h2 : l₂ = []
        · subst h2; rw [hp, List.append_nil]; exact .inl hs.isInfix
        · have hsuf : l₂ <:+ p.tail := by
            cases l₁ with
            | nil => exact absurd rfl h1
            | cons c l => subst hp; exact ⟨l, rfl⟩
          obtain ⟨a, c⟩ := endsOK_spec h hsuf h2
          rcases List.prefix_or_prefix_of_prefix hr (List.prefix_append b s) with q | q
          · exact absurd q a
          · rcases c with hL | hL
            · rw [hl hL, List.append_nil] at hr
              exact absurd hr a
            · exact absurd q hL
  · rintro (h' | h')
    · exact .inl h'
    · exact .inr (.inl h')

/-- A text made of fixed parts with unknown parts between them. -/
def render : Text → List (Text × Text) → Text
  | b, [] => b
  | b, (v, b') :: r => b ++ (v ++ render b' r)

/-- No phrase of `p` straddles a fixed part. -/
def fits (p : Text) : Text → List Text → Bool
  | _, [] => true
  | b, b' :: r => headOK b p && tailOK r.isEmpty p b' && fits p b' r

theorem has_render {p : Text} : ∀ (b : Text) (r : List (Text × Text)), fits p b (r.map (·.2)) = true →
    has p (render b r) = ((b :: r.map (·.2)).any (has p) || (r.map (·.1)).any (has p))
  | b, [], _ => by simp [render]
  | b, (v, b') :: r, h => by
    simp only [List.map_cons, fits, Bool.and_eq_true] at h
    have ih := has_render b' r h.2
    have e : has p (v ++ render b' r) = (has p v || has p (render b' r)) := by
      cases r with
      | nil =>
        have := has_append_of_tail (v := v) (s := []) h.1.2 (fun _ => rfl)
        simpa [render] using this
      | cons x r =>
        exact has_append_of_tail (v := v) h.1.2 (fun hl => by simp at hl)
    rw [render, has_append_of_head h.1.1, e, ih]
    simp only [List.map_cons, List.any_cons]
    cases has p b <;> cases has p v <;> cases has p b' <;> simp

/-- The phrases of the classifier that consist of more than one word. -/
def phrases : List Text := (messagePatterns.flatMap (·.1)).filter fun s => s.contains ' '

/-- The text contains none of the classifier's phrases. -/
def Quiet (t : Text) : Prop := ∀ s ∈ phrases, has s t = false

instance (t : Text) : Decidable (Quiet t) := by unfold Quiet; infer_instance

theorem phrases_blank : ∀ s ∈ phrases, ' ' ∈ s := by
  intro s hs
  have := (List.mem_filter.1 hs).2
  simpa using this

/-- A text without a blank is quiet: identifiers, numbers, most references. -/
theorem quiet_of_noBlank {t : Text} (h : ' ' ∉ t) : Quiet t :=
  fun s hs => has_false_of_noBlank (phrases_blank s hs) h

/-- The classifier on fixed parts alone. -/
def classifyLit : List (List Text × String) → List Text → Option String
  | [], _ => none
  | (subs, c) :: ps, ls =>
    if subs.all (fun s => ls.any (has s)) then some c else classifyLit ps ls

/-- Up to the pattern that matches, a missing pattern misses a phrase that passes `F`, which unknown
parts cannot supply. -/
def decided (F : Text → Bool) : List (List Text × String) → List Text → Bool
  | [], _ => true
  | (subs, _) :: ps, ls =>
    subs.all (fun s => ls.any (has s)) ||
      (subs.any (fun s => s.contains ' ' && !ls.any (has s) && F s) && decided F ps ls)

theorem has_render_lit {p : Text} {b : Text} {r : List (Text × Text)}
    (h : (b :: r.map (·.2)).any (has p) = true) : has p (render b r) = true := by
  induction r generalizing b with
  | nil => simpa [render] using h
  | cons x r ih =>
    obtain ⟨v, b'⟩ := x
    rw [has_iff]
    simp only [List.map_cons, List.any_cons, Bool.or_eq_true] at h
    rcases h with h | h
    · exact ((has_iff _ _).1 h).trans (List.prefix_append _ _).isInfix
    · have := ih (b := b') (by simpa using h)
      exact ((has_iff _ _).1 this).trans ⟨b ++ v, [], by simp [render]⟩

theorem classifyIn_of {F : Text → Bool} {ps : List (List Text × String)} {m : Text} {ls : List Text}
    (hps : ∀ x ∈ ps, ∀ s ∈ x.1, s.contains ' ' = true → s ∈ phrases)
    (h1 : ∀ p, ls.any (has p) = true → has p m = true)
    (h2 : ∀ s ∈ phrases, F s = true → ls.any (has s) = false → has s m = false)
    (hd : decided F ps ls = true) : classifyIn ps m = classifyLit ps ls := by
  induction ps with
  | nil => rfl
  | cons x ps ih =>
    obtain ⟨subs, c⟩ := x
    simp only [classifyIn, classifyLit]
    by_cases ha : subs.all (fun s => ls.any (has s)) = true
    · have : subs.all (fun s => has s m) = true := by
        rw [List.all_eq_true] at ha ⊢
        exact fun s hs => h1 _ (ha s hs)
      rw [if_pos ha, if_pos this]
    · simp only [decided, Bool.or_eq_true, ha, false_or, Bool.and_eq_true, Bool.false_eq_true] at hd
      obtain ⟨s, hs, hm⟩ := List.any_eq_true.1 hd.1
      simp only [Bool.and_eq_true] at hm
      have hp := hps (subs, c) (by simp) s hs hm.1.1
      have hr := h2 s hp hm.2 (by simpa using hm.1.2)
      have : ¬ subs.all (fun s => has s m) = true := by
        intro h
        have := List.all_eq_true.1 h s hs
        rw [hr] at this
        exact absurd this (by simp)
      rw [if_neg ha, if_neg this]
      exact ih (fun y hy => hps y (List.mem_cons_of_mem _ hy)) hd.2

theorem patterns_phrases : ∀ x ∈ messagePatterns, ∀ s ∈ x.1, s.contains ' ' = true → s ∈ phrases := by
  intro x hx s hs hb
  exact List.mem_filter.2 ⟨List.mem_flatMap.2 ⟨x, hx, hs⟩, hb⟩

/-- Everything there is to check about the fixed parts of a text. -/
def clear (b : Text) (bs : List Text) : Bool :=
  decided (fun p => fits p b bs) messagePatterns (b :: bs)

theorem has_render_quiet {p b : Text} {r : List (Text × Text)} (hf : fits p b (r.map (·.2)) = true)
    (hq : ∀ x ∈ r, has p x.1 = false) : has p (render b r) = (b :: r.map (·.2)).any (has p) := by
  have hr := has_render b r hf
  have hv : (r.map (·.1)).any (has p) = false := by
    rw [List.any_eq_false]
    intro t ht
    obtain ⟨y, hy, rfl⟩ := List.mem_map.1 ht
    simp [hq y hy]
  rw [hr, hv, Bool.or_false]

/-- With quiet unknown parts the fixed parts decide. -/
theorem classify_render {b : Text} {r : List (Text × Text)} (hc : clear b (r.map (·.2)) = true)
    (hq : ∀ x ∈ r, Quiet x.1) : classifyMessage (render b r) = classifyLit messagePatterns (b :: r.map (·.2)) :=
  classifyIn_of patterns_phrases (fun _ h => has_render_lit h)
    (fun s hs hf hl => by rw [has_render_quiet hf (fun x hx => hq x hx s hs), hl]) hc

/-- No phrase has a digit. -/
theorem phrases_noDigit : ∀ s ∈ phrases, ∀ c ∈ s, c.isDigit = false := by decide +kernel

/-- A phrase cannot straddle the place where a character it does not have follows. -/
theorem has_append_of_notin {p b s : Text} {c : Char} (h : c ∉ p) :
    has p (b ++ c :: s) = (has p b || has p (c :: s)) := by
  rw [Bool.eq_iff_iff, Bool.or_eq_true, has_iff, has_iff, has_iff, List.infix_append_iff]
  constructor
  · rintro (h' | h' | ⟨l₁, l₂, hp, hs, hr⟩)
    · exact .inl h'
    · exact .inr h'
    · cases l₂ with
      | nil => rw [hp, List.append_nil]; exact .inl hs.isInfix
      | cons d l =>
        have := (List.cons_prefix_cons.1 hr).1
        subst this
        exact absurd (by rw [hp]; simp) h
  · rintro (h' | h')
    · exact .inl h'
    · exact .inr (.inl h')

/-- The text begins with a digit. -/
def Numeral : Text → Prop
  | [] => False
  | c :: _ => c.isDigit = true

/-- What follows a number cannot complete a phrase begun before it. -/
theorem has_append_numeral {s : Text} {b v t : Text} (hs : s ∈ phrases) (hn : Numeral v) :
    has s (b ++ (v ++ t)) = (has s b || has s (v ++ t)) := by
  cases v with
  | nil => exact hn.elim
  | cons c v =>
    have hnot : c ∉ s := fun h => by
      have := phrases_noDigit s hs c h
      rw [show c.isDigit = true from hn] at this
      cases this
    exact has_append_of_notin hnot

end Blnk.Errs
