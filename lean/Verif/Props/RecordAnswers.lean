import Verif.Props.Records
/-
C151–C157: what requests for identities, accounts, ledgers and the owners of balances change, show and answer.
-/
namespace Blnk.Book
open Errs

theorem find_map_id {α : Type} (f : α → Text) (g : α → α) (h : ∀ a, f (g a) = f a) (l : List α) (x : Text) :
    (l.map g).find? (fun a => f a == x) = (l.find? (fun a => f a == x)).map g := by
  rw [List.find?_map]
  congr 2
  funext a
  simp [h]

/-! ### C151: an update of an identity -/

/-- **C151 in full**: an update that is accepted takes effect as sent: each text that was sent is there
afterwards, each other is as before. -/
def C151Full : Prop :=
  ∀ (es : List Ev) (i : Identity) (p : Patch), i ∈ (run DB.fresh es).idents →
    (updateIdentity (run DB.fresh es) i.id (p.bind i.id)).2 = none →
    ∃ j, getIdentity (updateIdentity (run DB.fresh es) i.id (p.bind i.id)).1 i.id = .ok j ∧
      ∀ f, j.get f = (p.get f).getD (i.get f)

/-- Another first name, and no last name any more. -/
def clearing : Patch := { get := fun | .firstName => some (t! "Eve") | .lastName => some [] | _ => none }

/-- The first identity of `start`. -/
def ada : Identity := { person (t! "Ada") (t! "Bell") with id := t! "idt_1", dob := Dob.zero.stored }

theorem ada_mem : ada ∈ (run DB.fresh start).idents := by
  show _ ∈ [_, _]
  exact List.mem_cons_self

/-- An empty text does not clear a value: the answer says "updated" and the value stays. -/
theorem c151_full_fails : ¬ C151Full := by
  intro h
  obtain ⟨j, hj, hf⟩ := h start ada clearing ada_mem (by decide +kernel)
  have h1 : (match getIdentity (updateIdentity (run DB.fresh start) ada.id (clearing.bind ada.id)).1 ada.id with
    | .ok j => some (j.get .lastName)
    | .error _ => none) = some (t! "Bell") := by decide +kernel
  rw [hj] at h1
  have h2 := hf .lastName
  simp only [Option.some.injEq] at h1
  rw [h1] at h2
  revert h2
  decide +kernel

theorem mem_allFields (f : Field) : f ∈ allFields := by cases f <;> decide

theorem bind_not_empty {id : Text} {p : Patch} (hne : ∀ f, p.get f ≠ some []) (hd : ∀ d, p.dob = some d → d.isZero = false)
    (hs : (∃ f v, p.get f = some v) ∨ (∃ d, p.dob = some d) ∨ ∃ v, p.info = some v) : emptyUpdate (p.bind id) = false := by
  cases h : emptyUpdate (p.bind id) with
  | false => rfl
  | true =>
    simp only [emptyUpdate, Bool.and_eq_true, List.all_eq_true, Option.isNone_iff_eq_none, List.isEmpty_iff] at h
    rcases hs with ⟨f, v, e⟩ | ⟨d, e⟩ | ⟨v, e⟩
    · have := h.1.1 f (mem_allFields f)
      simp only [Patch.bind, e, Option.getD_some] at this
      exact absurd (this ▸ e) (hne f)
    · have := h.1.2
      simp only [Patch.bind, e, Option.getD_some] at this
      rw [hd d e] at this
      cases this
    · have := h.2
      simp only [Patch.bind, e] at this
      cases this

/-- An update of values none of which is empty is accepted and changes these and nothing else; of a date of
birth the day is kept. -/
theorem c151_partial (es : List Ev) (i : Identity) (p : Patch) (hi : i ∈ (run DB.fresh es).idents)
    (hne : ∀ f, p.get f ≠ some []) (hd : ∀ d, p.dob = some d → d.isZero = false)
    (hs : (∃ f v, p.get f = some v) ∨ (∃ d, p.dob = some d) ∨ ∃ v, p.info = some v) :
    (updateIdentity (run DB.fresh es) i.id (p.bind i.id)).2 = none ∧
    (∃ j, getIdentity (updateIdentity (run DB.fresh es) i.id (p.bind i.id)).1 i.id = .ok j ∧ j.id = i.id ∧
      (∀ f, j.get f = (p.get f).getD (i.get f)) ∧
      j.dob = (match p.dob with | some d => ⟨d.day, 0, 0⟩ | none => i.dob) ∧ j.info = p.info.or i.info) ∧
    (∀ x, x ≠ i.id → getIdentity (updateIdentity (run DB.fresh es) i.id (p.bind i.id)).1 x = getIdentity (run DB.fresh es) x) ∧
    (updateIdentity (run DB.fresh es) i.id (p.bind i.id)).1 =
      { run DB.fresh es with idents := (updateIdentity (run DB.fresh es) i.id (p.bind i.id)).1.idents } := by
  have g := good es
  generalize run DB.fresh es = db at *
  have e : updateIdentity db i.id (p.bind i.id) =
      ({ db with idents := db.idents.map fun x => if x.id = i.id then applyUpdate (p.bind i.id) x else x }, none) := by
    unfold updateIdentity
    rw [if_neg (by rw [bind_not_empty hne hd hs]; simp), if_pos ((any_id Identity.id _ _).2 (List.mem_map_of_mem hi))]
  rw [e]
  have hf : ∀ x, getIdentity { db with idents := db.idents.map fun x => if x.id = i.id then applyUpdate (p.bind i.id) x else x } x =
      match (db.ident? x).map (fun x => if x.id = i.id then applyUpdate (p.bind i.id) x else x) with
      | none => .error (respondError identOpts (noIdentity x))
      | some j => .ok j := by
    intro x
    unfold getIdentity DB.ident?
    dsimp only
    rw [find_map_id Identity.id _ (by intro a; split <;> rfl)]
    rfl
  refine ⟨rfl, ⟨applyUpdate (p.bind i.id) i, ?_, rfl, ?_, ?_, ?_⟩, ?_, rfl⟩
  · rw [hf, ident?_mem g hi]
    simp
  · intro f
    simp only [applyUpdate, Patch.bind]
    have := hne f
    obtain ⟨o, hp⟩ : ∃ o, p.get f = o := ⟨_, rfl⟩
    cases o with
    | none => simp [hp]
    | some v =>
      rw [hp] at this
      have : v ≠ [] := fun h => this (by rw [h])
      simp [hp, this]
  · simp only [applyUpdate, Patch.bind]
    obtain ⟨o, hp⟩ : ∃ o, p.dob = o := ⟨_, rfl⟩
    cases o with
    | none => simp [hp, show Dob.zero.isZero = true by decide +kernel]
    | some d => simp [hp, hd d hp, Dob.stored]
  · simp only [applyUpdate, Patch.bind]
    cases hp : p.info <;> simp
  · intro x hx
    rw [hf]
    unfold getIdentity
    cases hc : db.ident? x with
    | none => rfl
    | some j =>
      have := (find_id Identity.id hc).2
      simp only [Option.map_some]
      rw [if_neg (by rw [this]; exact hx)]

/-- An update without values is refused, as one for nobody; nothing changes. -/
theorem c151_refused (db : DB) (id : Text) (p : Patch) :
    ((∀ f, p.get f = none ∨ p.get f = some []) ∧ p.dob = none ∧ p.info = none →
      (updateIdentity db id (p.bind id)).1 = db ∧
      ∃ r, (updateIdentity db id (p.bind id)).2 = some r ∧ r.status = 400 ∧ r.code = "GEN_BAD_REQUEST") ∧
    (id ∉ db.idents.map (·.id) → emptyUpdate (p.bind id) = false →
      (updateIdentity db id (p.bind id)).1 = db ∧
      ∃ r, (updateIdentity db id (p.bind id)).2 = some r ∧ r.status = 404 ∧ r.code = "IDT_NOT_FOUND") := by
  constructor
  · rintro ⟨h1, h2, h3⟩
    have : emptyUpdate (p.bind id) = true := by
      simp only [emptyUpdate, Patch.bind, h2, h3, Bool.and_eq_true, List.all_eq_true, List.isEmpty_iff, Option.isNone_none,
        and_true, Option.getD_none]
      refine ⟨fun f _ => ?_, by decide +kernel⟩
      rcases h1 f with h | h <;> rw [h] <;> rfl
    unfold updateIdentity
    rw [if_pos this]
    exact ⟨rfl, _, rfl, by decide +kernel, by decide +kernel⟩
  · intro h1 h2
    unfold updateIdentity
    rw [if_neg (by rw [h2]; simp), if_neg fun h => h1 ((any_id Identity.id _ _).1 h)]
    exact ⟨rfl, _, rfl, missing_status, missing_code⟩
where
  missing_status : (respondError identOpts (noIdentity id)).status = 404 := by
    show statusForCode (match identOpts.upgrades.lookup (normalize "NOT_FOUND") with | some c => c | none => normalize "NOT_FOUND") = 404
    decide +kernel
  missing_code : (respondError identOpts (noIdentity id)).code = "IDT_NOT_FOUND" := by
    show (match identOpts.upgrades.lookup (normalize "NOT_FOUND") with | some c => c | none => normalize "NOT_FOUND") = "IDT_NOT_FOUND"
    decide +kernel

/-- An update as in `c151_partial`. -/
example : (∀ f, ({ get := fun | .firstName => some (t! "Eve") | _ => none } : Patch).get f ≠ some []) ∧
    ∃ f v, ({ get := fun | .firstName => some (t! "Eve") | _ => none } : Patch).get f = some v :=
  ⟨fun f => by cases f <;> decide, .firstName, t! "Eve", rfl⟩

/-! ### C152: ids that clients choose for identities -/

/-- The id names a UUID. -/
def names (id : Text) (v : List Nat) : Prop := (t! "idt_") <+: id ∧ parseUuid (id.drop 4) = some v

/-- **C152 in full**: a UUID that is taken is not given out again: the request is answered with a conflict
and changes nothing. -/
def C152Full : Prop :=
  ∀ (es : List Ev) (u : Text) (i j : Identity) (v : List Nat), j ∈ (run DB.fresh es).idents → names j.id v → names i.id v →
    (createIdentity (run DB.fresh es) u i).1 = run DB.fresh es ∧
    ∃ r, (createIdentity (run DB.fresh es) u i).2 = .error r ∧ r.status = 409

def small : Text := t! "idt_123e4567-e89b-12d3-a456-426614174000"
def large : Text := t! "idt_123E4567-E89B-12D3-A456-426614174000"

/-- The same UUID in capitals makes a second identity. -/
theorem c152_two :
    let es : List Ev := [.createIdentity [] { person (t! "Ada") (t! "Bell") with id := small },
      .createIdentity [] { person (t! "Cy") (t! "Dunn") with id := large }]
    (run DB.fresh es).idents.map (·.id) = [small, large] ∧
      parseUuid (small.drop 4) = parseUuid (large.drop 4) ∧ (parseUuid (small.drop 4)).isSome := by
  decide +kernel

theorem chosen_status {g u : Text} {e : Err} (h : chosenId g u = .error e) :
    (respondError createIdentOpts e).status = 400 ∧ (respondError createIdentOpts e).code = "IDT_VALIDATION_ERROR" := by
  unfold chosenId at h
  split at h
  · cases h
  · split at h
    · split at h
      · cases h
      · injection h with h
        subst h
        exact ⟨by decide +kernel, by decide +kernel⟩
    · injection h with h
      subst h
      exact ⟨by decide +kernel, by decide +kernel⟩

theorem taken_status (id : Text) :
    (respondError createIdentOpts (api "CONFLICT" (t! "Identity already exists: " ++ id) none)).status = 400 ∧
    (respondError createIdentOpts (api "CONFLICT" (t! "Identity already exists: " ++ id) none)).code = "IDT_VALIDATION_ERROR" := by
  constructor
  · show statusForCode (match createIdentOpts.upgrades.lookup (normalize "CONFLICT") with | some c => c | none => normalize "CONFLICT") = 400
    decide +kernel
  · show (match createIdentOpts.upgrades.lookup (normalize "CONFLICT") with | some c => c | none => normalize "CONFLICT") = _
    decide +kernel

/-- A refusal to create an identity is always the same: never a conflict, always an invalid request. -/
theorem c152_never_conflict (db : DB) (u : Text) (i : Identity) (r : Resp) (h : (createIdentity db u i).2 = .error r) :
    (createIdentity db u i).1 = db ∧ r.status = 400 ∧ r.code = "IDT_VALIDATION_ERROR" := by
  unfold createIdentity at h ⊢
  cases hc : chosenId i.id u with
  | error e =>
    rw [hc] at h
    simp only at h ⊢
    injection h with h
    subst h
    exact ⟨trivial, chosen_status hc⟩
  | ok id =>
    rw [hc] at h
    simp only at h ⊢
    split at h
    · rename_i ha
      rw [if_pos ha]
      simp only at h
      injection h with h
      subst h
      exact ⟨rfl, taken_status id⟩
    · cases h

theorem c152_full_fails : ¬ C152Full := by
  intro h
  obtain ⟨_, r, hr, hs⟩ := h [.createIdentity [] { person (t! "Ada") (t! "Bell") with id := small }] []
    { person (t! "Ada") (t! "Bell") with id := small }
    { person (t! "Ada") (t! "Bell") with id := small, dob := Dob.zero.stored }
    ((parseUuid (small.drop 4)).getD []) (by show _ ∈ [_]; exact List.mem_cons_self)
    ⟨by decide +kernel, by decide +kernel⟩ ⟨by decide +kernel, by decide +kernel⟩
  have := (c152_never_conflict _ _ _ r hr).2.1
  omega

/-- An id that names a UUID and is not taken, letter by letter, is kept as sent and leads to the identity;
one that is taken, or names none, is refused. -/
theorem c152_partial (es : List Ev) (u : Text) (i : Identity) (h0 : i.id ≠ []) :
    ((∃ v, names i.id v) → i.id ∉ (run DB.fresh es).idents.map (·.id) →
      ∃ j, (createIdentity (run DB.fresh es) u i).2 = .ok j ∧ j.id = i.id ∧
        ∃ k, getIdentity (createIdentity (run DB.fresh es) u i).1 i.id = .ok k ∧ k.id = i.id ∧ k.get = i.get ∧ k.info = i.info ∧
          k.dob = ⟨i.dob.day, 0, 0⟩) ∧
    (((¬ ∃ v, names i.id v) ∨ i.id ∈ (run DB.fresh es).idents.map (·.id)) →
      (createIdentity (run DB.fresh es) u i).1 = run DB.fresh es ∧
      refused 400 "IDT_VALIDATION_ERROR" (createIdentity (run DB.fresh es) u i).2) := by
  generalize run DB.fresh es = db
  have hok : (∃ v, names i.id v) → chosenId i.id u = .ok i.id := by
    rintro ⟨v, h1, h2⟩
    unfold chosenId
    rw [if_neg h0, if_pos (List.isPrefixOf_iff_prefix.2 h1), h2]
  have hno : (¬ ∃ v, names i.id v) → ∃ e, chosenId i.id u = .error e := by
    intro h
    unfold chosenId
    rw [if_neg h0]
    split
    · rename_i h1
      cases h2 : parseUuid (i.id.drop 4) with
      | none => exact ⟨_, rfl⟩
      | some v => exact absurd ⟨v, List.isPrefixOf_iff_prefix.1 h1, h2⟩ h
    · exact ⟨_, rfl⟩
  constructor
  · intro hv hn
    have e : createIdentity db u i = ({ db with idents := db.idents ++ [{ i with dob := i.dob.stored }] }, .ok i) := by
      unfold createIdentity
      rw [hok hv]
      dsimp only
      rw [if_neg fun h => hn ((any_id Identity.id _ _).1 h)]
    rw [e]
    refine ⟨i, rfl, rfl, { i with dob := i.dob.stored }, ?_, rfl, rfl, rfl, rfl⟩
    unfold getIdentity DB.ident?
    rw [List.find?_append, List.find?_eq_none.2]
    · simp
    · intro x hx h
      exact hn (List.mem_map.2 ⟨x, hx, by simpa using h⟩)
  · intro h
    have key : ∃ r, (createIdentity db u i).2 = .error r := by
      by_cases hv : ∃ v, names i.id v
      · have hm := h.resolve_left (fun hn => hn hv)
        unfold createIdentity
        rw [hok hv]
        dsimp only
        rw [if_pos ((any_id Identity.id _ _).2 hm)]
        exact ⟨_, rfl⟩
      · obtain ⟨e, he⟩ := hno hv
        unfold createIdentity
        rw [he]
        exact ⟨_, rfl⟩
    obtain ⟨r, hr⟩ := key
    obtain ⟨h1, h2, h3⟩ := c152_never_conflict db u i r hr
    exact ⟨h1, r, hr, h2, h3⟩

/-- The usual spelling: 36 characters, no capitals. -/
def Usual (id : Text) : Prop := id.length = 40 ∧ ∀ c ∈ id, ¬ ('A' ≤ c ∧ c ≤ 'F')

theorem hexVal_inj {c d : Char} {v : Nat} (hc : hexVal c = some v) (hd : hexVal d = some v)
    (uc : ¬ ('A' ≤ c ∧ c ≤ 'F')) (ud : ¬ ('A' ≤ d ∧ d ≤ 'F')) : c = d := by
  have le : ∀ a b : Char, a ≤ b ↔ a.toNat ≤ b.toNat := fun a b => Iff.rfl
  unfold hexVal at hc hd
  simp only [le] at hc hd uc ud
  have h0 : '0'.toNat = 48 := rfl
  have h9 : '9'.toNat = 57 := rfl
  have ha : 'a'.toNat = 97 := rfl
  have hf : 'f'.toNat = 102 := rfl
  have hA : 'A'.toNat = 65 := rfl
  have hF : 'F'.toNat = 70 := rfl
  rw [h0, h9, ha, hf, hA, hF] at hc hd
  rw [hA, hF] at uc ud
  have : c.toNat = d.toNat := by
    split at hc
    · injection hc with hc
      split at hd
      · injection hd with hd; omega
      · split at hd
        · injection hd with hd; omega
        · cases hd
    · split at hc
      · injection hc with hc
        split at hd
        · injection hd with hd; omega
        · split at hd
          · injection hd with hd; omega
          · cases hd
      · cases hc
  exact Char.toNat_inj.1 this

theorem hexAll_inj {s t : Text} {v : List Nat} (hs : hexAll s = some v) (ht : hexAll t = some v)
    (us : ∀ c ∈ s, ¬ ('A' ≤ c ∧ c ≤ 'F')) (ut : ∀ c ∈ t, ¬ ('A' ≤ c ∧ c ≤ 'F')) : s = t := by
  induction s generalizing t v with
  | nil =>
    simp only [hexAll, Option.some.injEq] at hs
    subst hs
    cases t with
    | nil => rfl
    | cons d t =>
      simp only [hexAll] at ht
      split at ht <;> simp at ht
  | cons c s ih =>
    simp only [hexAll] at hs
    split at hs
    · rename_i x xs hx hxs
      injection hs with hs
      subst hs
      cases t with
      | nil => simp [hexAll] at ht
      | cons d t =>
        simp only [hexAll] at ht
        split at ht
        · rename_i y ys hy hys
          injection ht with ht
          injection ht with h1 h2
          subst h1 h2
          rw [hexVal_inj hx hy (us c List.mem_cons_self) (ut d List.mem_cons_self),
            ih hxs hys (fun c hc => us c (List.mem_cons_of_mem _ hc)) (fun c hc => ut c (List.mem_cons_of_mem _ hc))]
        · cases ht
    · cases hs

theorem cut {s : Text} {n : Nat} {c : Char} (h : s[n]? = some c) : s = s.take n ++ c :: s.drop (n + 1) := by
  obtain ⟨hn, e⟩ := List.getElem?_eq_some_iff.1 h
  rw [← e, ← List.drop_eq_getElem_cons hn, List.take_append_drop]

theorem dashed_parts {s : Text} {v : List Nat} (hl : s.length = 36) (h : dashed s = some v) :
    ∃ a b c d e : Text, a.length = 8 ∧ b.length = 4 ∧ c.length = 4 ∧ d.length = 4 ∧ e.length = 12 ∧
      s = a ++ '-' :: (b ++ '-' :: (c ++ '-' :: (d ++ '-' :: e))) ∧ hexAll (a ++ b ++ c ++ d ++ e) = some v := by
  unfold dashed at h
  split at h
  · rename_i hc
    obtain ⟨h1, h2, h3, h4⟩ := hc
    refine ⟨s.take 8, (s.drop 9).take 4, (s.drop 14).take 4, (s.drop 19).take 4, (s.drop 24).take 12,
      by simp [hl], by simp [hl], by simp [hl], by simp [hl], by simp [hl], ?_, h⟩
    have e1 := cut h1
    have e2 : s.drop 9 = (s.drop 9).take 4 ++ '-' :: s.drop 14 := by
      have := cut (s := s.drop 9) (n := 4) (c := '-') (by simpa using h2)
      simpa using this
    have e3 : s.drop 14 = (s.drop 14).take 4 ++ '-' :: s.drop 19 := by
      have := cut (s := s.drop 14) (n := 4) (c := '-') (by simpa using h3)
      simpa using this
    have e4 : s.drop 19 = (s.drop 19).take 4 ++ '-' :: s.drop 24 := by
      have := cut (s := s.drop 19) (n := 4) (c := '-') (by simpa using h4)
      simpa using this
    have e5 : (s.drop 24).take 12 = s.drop 24 := List.take_of_length_le (by simp [hl])
    rw [e5, ← e4, ← e3, ← e2]
    exact e1
  · cases h

theorem usual_inj {s t : Text} {v : List Nat} (hs : names s v) (ht : names t v) (us : Usual s) (ut : Usual t) : s = t := by
  have split4 : ∀ {x : Text}, (t! "idt_") <+: x → x = t! "idt_" ++ x.drop 4 := by
    rintro x ⟨y, rfl⟩
    rfl
  have key : ∀ {x : Text}, names x v → Usual x → (x.drop 4).length = 36 ∧ dashed (x.drop 4) = some v := by
    intro x hx ux
    have hl : (x.drop 4).length = 36 := by rw [List.length_drop, ux.1]
    have := hx.2
    unfold parseUuid at this
    rw [if_pos hl] at this
    exact ⟨hl, this⟩
  obtain ⟨ls, ds⟩ := key hs us
  obtain ⟨lt, dt⟩ := key ht ut
  rw [split4 hs.1, split4 ht.1]
  congr 1
  obtain ⟨a, b, c, d, e, la, lb, lc, ld, le, hse, hv⟩ := dashed_parts ls ds
  obtain ⟨a', b', c', d', e', la', lb', lc', ld', le', hte, hv'⟩ := dashed_parts lt dt
  have memS : ∀ x ∈ a ++ b ++ c ++ d ++ e, x ∈ s := by
    intro x hx
    apply List.mem_of_mem_drop (i := 4)
    rw [hse]
    simp only [List.mem_append, List.mem_cons] at hx ⊢
    rcases hx with (((hx | hx) | hx) | hx) | hx <;> simp [hx]
  have memT : ∀ x ∈ a' ++ b' ++ c' ++ d' ++ e', x ∈ t := by
    intro x hx
    apply List.mem_of_mem_drop (i := 4)
    rw [hte]
    simp only [List.mem_append, List.mem_cons] at hx ⊢
    rcases hx with (((hx | hx) | hx) | hx) | hx <;> simp [hx]
  have := hexAll_inj hv hv' (fun x hx => us.2 x (memS x hx)) (fun x hx => ut.2 x (memT x hx))
  obtain ⟨h1, h5⟩ := List.append_inj this (by simp [la, lb, lc, ld, la', lb', lc', ld'])
  obtain ⟨h1, h4⟩ := List.append_inj h1 (by simp [la, lb, lc, la', lb', lc'])
  obtain ⟨h1, h3⟩ := List.append_inj h1 (by simp [la, lb, la', lb'])
  obtain ⟨h1, h2⟩ := List.append_inj h1 (by simp [la, la'])
  rw [hse, hte, h1, h2, h3, h4, h5]

/-- Among ids in the usual spelling no UUID is given out twice. -/
theorem c152_usual_partial (es : List Ev) (i j : Identity) (v : List Nat) (hi : i ∈ (run DB.fresh es).idents)
    (hj : j ∈ (run DB.fresh es).idents) (ui : Usual i.id) (uj : Usual j.id) (ni : names i.id v) (nj : names j.id v) : i = j := by
  have g := good es
  have e1 := ident?_mem g hi
  have e2 := ident?_mem g hj
  rw [usual_inj ni nj ui uj, e2] at e1
  injection e1 with e1
  exact e1.symm

example : Usual small ∧ ∃ v, names small v :=
  ⟨by unfold Usual; decide +kernel, (parseUuid (small.drop 4)).getD [], by decide +kernel, by decide +kernel⟩

/-! ### C153: the codes of refusals for accounts -/

/-- **C153 in full**, first half: a number that is in use is refused as a duplicate. -/
def C153Taken : Prop :=
  ∀ (es : List Ev) (u : Text) (q : AccountReq),
    q.number ∈ (run DB.fresh es).accounts.map (·.number) → validAccount q = true →
    (∃ b ∈ (run DB.fresh es).balances, b.id = q.balance ∧ b.identity ≠ none) →
    newId (t! "acc") u ∉ (run DB.fresh es).accounts.map (·.id) →
    refused 409 "ACC_DUPLICATE" (createAccount (run DB.fresh es) u .off q).2

/-- **C153 in full**, second half: an account that is not there is answered as such. -/
def C153Missing : Prop :=
  ∀ (es : List Ev) (id : Text), id ∉ (run DB.fresh es).accounts.map (·.id) →
    refused 404 "ACC_NOT_FOUND" (getAccount (run DB.fresh es) id)

/-- A number that is in use is always answered with an internal error, and nothing changes. -/
theorem c153_taken_never (es : List Ev) (u : Text) (n : Numbers) (q : AccountReq) (b : Balance) (i : Identity)
    (hn : ∀ e, n ≠ .fails e) (hv : validAccount q = true)
    (hb : b ∈ (run DB.fresh es).balances) (hq : q.balance = b.id) (hi : i ∈ (run DB.fresh es).idents)
    (ho : OwnerIs b q.identity i.id) (hid : newId (t! "acc") u ∉ (run DB.fresh es).accounts.map (·.id))
    (hnum : (numberOf n q).1 ∈ (run DB.fresh es).accounts.map (·.number)) :
    (createAccount (run DB.fresh es) u n q).1 = run DB.fresh es ∧
    refused 500 "GEN_INTERNAL" (createAccount (run DB.fresh es) u n q).2 := by
  have g := good es
  generalize run DB.fresh es = db at *
  have e := openAccount_eq (db := db) (u := u) (n := n) (q := q) (b := b) (i := i)
    (by rw [hq]; exact balance?_mem g hb) (by rw [ownerOf_of g hb ho]; exact ident?_mem g hi) hn
  have e2 := e.trans (insertAccount_dup hid hnum)
  unfold createAccount
  rw [if_pos hv, e2]
  exact ⟨rfl, _, rfl, by decide +kernel, by decide +kernel⟩

theorem c153_taken_fails : ¬ C153Taken := by
  intro h
  obtain ⟨r, hr, hs, _⟩ := h withAccount (t! "2") { number := t! "001", balance := t! "bln_1" } (by decide +kernel)
    (by decide +kernel) ⟨⟨t! "bln_1", t! "ldg_1", some (t! "idt_1"), t! "USD", none⟩, by decide +kernel, rfl, by decide⟩
    (by decide +kernel)
  have : (match (createAccount (run DB.fresh withAccount) (t! "2") .off { number := t! "001", balance := t! "bln_1" }).2 with
    | .ok _ => 200
    | .error r => r.status) = 500 := by decide +kernel
  rw [hr] at this
  simp only at this
  omega

/-- No two accounts have one number. -/
theorem c153_numbers (es : List Ev) (a b : Account) (ha : a ∈ (run DB.fresh es).accounts)
    (hb : b ∈ (run DB.fresh es).accounts) (h : a.number = b.number) : a = b := by
  have e1 := find_mem Account.number (good es).numbers ha
  have e2 := find_mem Account.number (good es).numbers hb
  rw [h, e2] at e1
  injection e1 with e1
  exact e1.symm

def allPhrases : List Text := messagePatterns.flatMap (·.1)

theorem classifyIn_congr {ps : List (List Text × String)} {m m' : Text}
    (h : ∀ p ∈ ps.flatMap (·.1), has p m = has p m') : classifyIn ps m = classifyIn ps m' := by
  induction ps with
  | nil => rfl
  | cons x ps ih =>
    obtain ⟨subs, c⟩ := x
    simp only [classifyIn]
    have h1 : subs.all (fun s => has s m) = subs.all (fun s => has s m') := by
      rw [Bool.eq_iff_iff, List.all_eq_true, List.all_eq_true]
      constructor
      · intro hh s hs
        rw [← h s (List.mem_flatMap.2 ⟨(subs, c), List.mem_cons_self, hs⟩)]
        exact hh s hs
      · intro hh s hs
        rw [h s (List.mem_flatMap.2 ⟨(subs, c), List.mem_cons_self, hs⟩)]
        exact hh s hs
    rw [h1, ih fun p hp => h p (by rw [List.flatMap_cons]; exact List.mem_append_right _ hp)]

theorem has_cons_notin {p s : Text} {c : Char} (h : c ∉ p) (hp : p ≠ []) : has p (c :: s) = has p s := by
  rw [Bool.eq_iff_iff, has_iff, has_iff, List.infix_cons_iff]
  constructor
  · rintro (h' | h')
    · cases p with
      | nil => exact absurd rfl hp
      | cons d p =>
        have := (List.cons_prefix_cons.1 h').1
        subst this
        exact absurd List.mem_cons_self h
    · exact h'
  · exact .inr

/-- What is looked for in "account with ID '…' not found" is in the fixed words or in the id. -/
theorem has_missing {p id : Text} (h : '\'' ∉ p) (hp : p ≠ []) :
    has p (t! "account with ID '" ++ id ++ t! "' not found") =
      (has p (t! "account with ID ") || (has p id || has p (t! " not found"))) := by
  have e : t! "account with ID '" ++ id ++ t! "' not found" =
      t! "account with ID " ++ '\'' :: (id ++ '\'' :: t! " not found") := by simp
  rw [e, has_append_of_notin h, has_cons_notin h hp, has_append_of_notin h, has_cons_notin h hp]

theorem phrases_plain : ∀ p ∈ allPhrases, '\'' ∉ p ∧ p ≠ [] ∧ (' ' ∈ p ∨ p = t! "transaction" ∨ p = t! "field") := by
  decide +kernel

theorem write_status (o : Opts) (c : String) (m : Text) : (writeError o c m none).status = (writeError o c [] none).status := rfl
theorem write_code (o : Opts) (c : String) (m : Text) : (writeError o c m none).code = (writeError o c [] none).code := rfl

/-- Which code the answer for an unknown account has, for ids without blanks: a word in the id decides. -/
theorem c153_missing (db : DB) (id : Text) (h : id ∉ db.accounts.map (·.id)) (hb : ' ' ∉ id) :
    if (t! "transaction") <:+: id then refused 404 "TXN_NOT_FOUND" (getAccount db id)
    else if (t! "field") <:+: id then refused 400 "IDT_FIELD_NOT_FOUND" (getAccount db id)
    else refused 404 "ACC_NOT_FOUND" (getAccount db id) := by
  have hg : db.account? id = none := by
    cases e : db.account? id with
    | none => rfl
    | some a =>
      have := find_id Account.id e
      exact absurd (List.mem_map.2 ⟨a, this⟩) h
  unfold getAccount
  rw [hg]
  dsimp only
  have key : ∀ m : Text, (∀ p ∈ allPhrases, has p m = (has p (t! "account with ID ") || (has p id || has p (t! " not found")))) →
      classifyMessage (t! "account with ID '" ++ id ++ t! "' not found") = classifyMessage m := by
    intro m hm
    apply classifyIn_congr
    intro p hp
    rw [hm p hp]
    exact has_missing (phrases_plain p hp).1 (phrases_plain p hp).2.1
  have resp : ∀ c, classifyMessage (t! "account with ID '" ++ id ++ t! "' not found") = some c →
      respondError { upgrades := [("GEN_NOT_FOUND", "ACC_NOT_FOUND")] } (plain (t! "account with ID '" ++ id ++ t! "' not found")) =
      writeError { upgrades := [("GEN_NOT_FOUND", "ACC_NOT_FOUND")] } c (t! "account with ID '" ++ id ++ t! "' not found") none := by
    intro c hc
    show (match classifyMessage _ with | some c => _ | none => _) = _
    have : classifyMessage (plain (t! "account with ID '" ++ id ++ t! "' not found")).text = some c := hc
    rw [this]
    rfl
  have word : ∀ m : Text, has (t! "transaction") m = has (t! "transaction") id →
      has (t! "field") m = has (t! "field") id →
      (∀ p ∈ allPhrases, ' ' ∈ p → has p m = (has p (t! "account with ID ") || has p (t! " not found"))) →
      ∀ p ∈ allPhrases, has p m = (has p (t! "account with ID ") || (has p id || has p (t! " not found"))) := by
    intro m h1 h2 h3 p hp
    rcases (phrases_plain p hp).2.2 with hs | rfl | rfl
    · rw [h3 p hp hs, has_false_of_noBlank hs hb, Bool.false_or]
    · rw [h1, show has (t! "transaction") (t! "account with ID ") = false by decide +kernel,
        show has (t! "transaction") (t! " not found") = false by decide +kernel]
      simp
    · rw [h2, show has (t! "field") (t! "account with ID ") = false by decide +kernel,
        show has (t! "field") (t! " not found") = false by decide +kernel]
      simp
  by_cases ht : (t! "transaction") <:+: id
  · rw [if_pos ht]
    have hc : classifyMessage (t! "account with ID '" ++ id ++ t! "' not found") = some "TXN_NOT_FOUND" := by
      have h1 : has (t! "transaction") (t! "account with ID '" ++ id ++ t! "' not found") = true := by
        rw [has_missing (by decide +kernel) (by decide), (has_iff _ _).2 ht]
        simp
      have h2 : has (t! "not found") (t! "account with ID '" ++ id ++ t! "' not found") = true := by
        rw [has_missing (by decide +kernel) (by decide), show has (t! "not found") (t! " not found") = true by decide +kernel]
        simp
      unfold classifyMessage messagePatterns classifyIn
      rw [if_pos]
      simp only [List.all_cons, List.all_nil, Bool.and_true, h1, h2]
    rw [resp _ hc]
    exact ⟨_, rfl, by rw [write_status]; decide +kernel, by rw [write_code]; decide +kernel⟩
  · rw [if_neg ht]
    have ht' := (has_false_iff _ _).2 ht
    by_cases hf : (t! "field") <:+: id
    · rw [if_pos hf]
      have hf' := (has_iff _ _).2 hf
      have hc := key (t! "account with ID field not found")
        (word _ (by rw [ht']; decide +kernel) (by rw [hf']; decide +kernel) (by decide +kernel))
      rw [show classifyMessage (t! "account with ID field not found") = some "IDT_FIELD_NOT_FOUND" by decide +kernel] at hc
      rw [resp _ hc]
      exact ⟨_, rfl, by rw [write_status]; decide +kernel, by rw [write_code]; decide +kernel⟩
    · rw [if_neg hf]
      have hf' := (has_false_iff _ _).2 hf
      have hc := key (t! "account with ID  not found")
        (word _ (by rw [ht']; decide +kernel) (by rw [hf']; decide +kernel) (by decide +kernel))
      rw [show classifyMessage (t! "account with ID  not found") = some "GEN_NOT_FOUND" by decide +kernel] at hc
      rw [resp _ hc]
      exact ⟨_, rfl, by rw [write_status]; decide +kernel, by rw [write_code]; decide +kernel⟩

theorem c153_missing_fails : ¬ C153Missing := by
  intro h
  obtain ⟨r, hr, _, hc⟩ := h [] (t! "acc_transactions") (by decide +kernel)
  have : (match getAccount (run DB.fresh []) (t! "acc_transactions") with
    | .ok _ => ""
    | .error r => r.code) = "TXN_NOT_FOUND" := by decide +kernel
  rw [hr] at this
  simp only at this
  rw [hc] at this
  revert this
  decide +kernel

/-- An id without blanks and without these words is answered as it should be. -/
theorem c153_missing_partial (es : List Ev) (id : Text) (h : id ∉ (run DB.fresh es).accounts.map (·.id)) (hb : ' ' ∉ id)
    (ht : ¬ (t! "transaction") <:+: id) (hf : ¬ (t! "field") <:+: id) :
    refused 404 "ACC_NOT_FOUND" (getAccount (run DB.fresh es) id) := by
  have := c153_missing _ id h hb
  rwa [if_neg ht, if_neg hf] at this

example : t! "acc_2" ∉ (run DB.fresh withAccount).accounts.map (·.id) ∧ ' ' ∉ t! "acc_2" ∧
    has (t! "transaction") (t! "acc_2") = false ∧ has (t! "field") (t! "acc_2") = false := by decide +kernel

/-! ### C154: how accounts are shown -/

/-- **C154 in full**: the list of accounts shows each as it is. -/
def C154Full : Prop := ∀ es : List Ev, listAccounts (run DB.fresh es) = (run DB.fresh es).accounts

theorem c154_full_fails : ¬ C154Full := by
  intro h
  have := h withAccount
  revert this
  decide +kernel

theorem accounts_step (db : DB) (e : Ev) : ∃ l, (step db e).accounts = db.accounts ++ l := by
  have same : ∀ db' : DB, db'.accounts = db.accounts → ∃ l, db'.accounts = db.accounts ++ l :=
    fun db' h => ⟨[], by simpa using h⟩
  have ins : ∀ b : Balance, (insertBalance db b).1.accounts = db.accounts := by
    intro b
    rcases insertBalance_cases db b with e | ⟨_, _, _, e⟩ <;> rw [e]
  cases e with
  | createLedger u name info =>
    apply same
    rcases createLedger_cases db u name info with e | ⟨_, e⟩ <;> (have h := congrArg DB.accounts e; exact h)
  | updateLedger id name =>
    apply same
    rcases updateLedger_cases db id name with e | e <;> (have h := congrArg DB.accounts e; exact h)
  | createIdentity u i =>
    apply same
    rcases createIdentity_cases db u i with ⟨e, _⟩ | ⟨_, _, _, _, e⟩ <;> (have h := congrArg DB.accounts e; exact h)
  | updateIdentity id q =>
    apply same
    rcases updateIdentity_cases db id q with e | e <;> (have h := congrArg DB.accounts e; exact h)
  | deleteIdentity id =>
    apply same
    rcases deleteIdentity_cases db id with ⟨e, _⟩ | ⟨_, _, _, e⟩
    · (have h := congrArg DB.accounts e; exact h)
    · (have h := congrArg (fun r => DB.accounts r.1) e; exact h)
  | createBalance u q =>
    apply same
    show (createBalance db u q).1.accounts = _
    rcases createBalance_cases db u q with e | ⟨b, _, e⟩
    · rw [e]
    · rw [← e]; exact ins b
  | ensureBalance u ind cur => exact same _ (ins _)
  | moveBalance id owner =>
    apply same
    rcases moveBalance_cases db id owner with e | ⟨_, e⟩ <;> (have h := congrArg DB.accounts e; exact h)
  | track id p sh ag =>
    apply same
    rcases track_cases db id p sh ag with e | ⟨_, _, _, i, _, _, e⟩ <;> (have h := congrArg DB.accounts e; exact h)
  | createAccount u n q =>
    rcases createAccount_cases db u n q with ⟨e, _⟩ | ⟨_, b, _, _, i, _, _, _, _, _, e⟩
    · exact same _ (by have h := congrArg DB.accounts e; exact h)
    · exact ⟨_, by have h := congrArg (fun r => DB.accounts r.1) e; exact h⟩

theorem accounts_run (db : DB) (es : List Ev) : ∃ l, (run db es).accounts = db.accounts ++ l := by
  induction es generalizing db with
  | nil => exact ⟨[], by simp [run]⟩
  | cons e es ih =>
    obtain ⟨l, hl⟩ := accounts_step db e
    obtain ⟨m, hm⟩ := ih (step db e)
    exact ⟨l ++ m, by rw [run, hm, hl, List.append_assoc]⟩

/-- An account reads as it was answered when it was created, whatever happens afterwards; lists and filters
show every account once, filters in full and lists all but the ledger, the owner and the balance. -/
theorem c154_partial (es es' : List Ev) (u : Text) (n : Numbers) (q : AccountReq) (a : Account)
    (h : (createAccount (run DB.fresh es) u n q).2 = .ok a) :
    getAccount (run DB.fresh (es ++ .createAccount u n q :: es')) a.id = .ok a ∧
    (∀ p, a ∈ filterAccounts (run DB.fresh (es ++ .createAccount u n q :: es')) p ↔ p a = true) ∧
    ∃ x ∈ listAccounts (run DB.fresh (es ++ .createAccount u n q :: es')), x.id = a.id ∧ x.name = a.name ∧ x.number = a.number ∧
      x.bank = a.bank ∧ x.currency = a.currency ∧ x.info = a.info := by
  have g := good (es ++ .createAccount u n q :: es')
  have hm : a ∈ (run DB.fresh (es ++ .createAccount u n q :: es')).accounts := by
    rw [run_append]
    show a ∈ (run (createAccount (run DB.fresh es) u n q).1 es').accounts
    obtain ⟨l, hl⟩ := accounts_run (createAccount (run DB.fresh es) u n q).1 es'
    rw [hl]
    apply List.mem_append_left
    rcases createAccount_cases (run DB.fresh es) u n q with ⟨_, e, he⟩ | ⟨_, b, _, _, i, _, _, _, _, _, e⟩
    · rw [h] at he; cases he
    · rw [e] at h ⊢
      injection h with h
      rw [h]
      exact List.mem_append_right _ List.mem_cons_self
  refine ⟨?_, ?_, _, List.mem_map_of_mem hm, rfl, rfl, rfl, rfl, rfl, rfl⟩
  · unfold getAccount
    rw [account?_mem g hm]
  · intro p
    simp [filterAccounts, hm]

/-- Lists have one row for each account, and filters one for each that meets the condition. -/
theorem c154_rows (es : List Ev) (p : Account → Bool) :
    ((listAccounts (run DB.fresh es)).map (·.id)).Nodup ∧
    (listAccounts (run DB.fresh es)).map (·.id) = (run DB.fresh es).accounts.map (·.id) ∧
    ((filterAccounts (run DB.fresh es) p).map (·.id)).Nodup := by
  have g := good es
  have e : (listAccounts (run DB.fresh es)).map (·.id) = (run DB.fresh es).accounts.map (·.id) := by
    unfold listAccounts
    rw [List.map_map]
    rfl
  exact ⟨e ▸ g.accountIds, e, (List.filter_sublist.map _).nodup g.accountIds⟩

example : (match (createAccount (run DB.fresh start) (t! "1") .off
    { bank := t! "First", number := t! "001", balance := t! "bln_1" }).2 with
    | .ok a => a.name
    | .error _ => []) = t! "Ada Bell" := by decide +kernel

/-! ### C155: creation times -/

/-- **C155 in full**: the creation time that is read is the one that was answered, up to a microsecond. -/
def C155Full : Prop :=
  ∀ (k : Kind) (offset clock dbClock : Int),
    (createdRead k offset clock dbClock - createdAnswer clock).natAbs < 1000

/-- Where the server is not in UTC, the time that is read is off by the offset, for every record but ledgers. -/
theorem c155_shifted (k : Kind) (hk : k ≠ .ledger) (offset clock dbClock : Int) :
    (createdRead k offset clock dbClock - (createdAnswer clock + offset * 1000000000)).natAbs < 1000 := by
  cases k with
  | ledger => exact absurd rfl hk
  | _ =>
    simp only [createdRead, createdAnswer, throughTimestamp]
    omega

theorem c155_full_fails : ¬ C155Full := by
  intro h
  have := h .balance 3600 0 0
  revert this
  decide +kernel

/-- In UTC identities, balances and accounts read back within half a microsecond. -/
theorem c155_partial (k : Kind) (hk : k ≠ .ledger) (clock dbClock : Int) :
    (createdRead k 0 clock dbClock - createdAnswer clock).natAbs ≤ 500 := by
  cases k with
  | ledger => exact absurd rfl hk
  | _ =>
    simp only [createdRead, createdAnswer, throughTimestamp]
    omega

/-! ### C156: renaming a ledger -/

theorem getLedger_ok {db : DB} {id : Text} {l : Ledger} : getLedger db id = .ok l ↔ db.ledger? id = some l := by
  unfold getLedger
  cases db.ledger? id <;> simp

/-- **C156**: a ledger that is there takes any name that is not empty; the answer is what is read afterwards,
which is the ledger as it was, with the new name. Every other ledger and every other record is as before. -/
theorem c156 (es : List Ev) (id name : Text) (l : Ledger) (hl : getLedger (run DB.fresh es) id = .ok l) (hn : name ≠ []) :
    ∃ l', (updateLedger (run DB.fresh es) id name).2 = .ok l' ∧
      getLedger (updateLedger (run DB.fresh es) id name).1 id = .ok l' ∧
      l'.id = id ∧ l'.name = name ∧ l'.info = l.info ∧
      (∀ x, x ≠ id → getLedger (updateLedger (run DB.fresh es) id name).1 x = getLedger (run DB.fresh es) x) ∧
      (updateLedger (run DB.fresh es) id name).1 =
        { run DB.fresh es with ledgers := (updateLedger (run DB.fresh es) id name).1.ledgers } := by
  generalize run DB.fresh es = db at *
  have e : updateLedger db id name =
      ({ db with ledgers := db.ledgers.map fun x => if x.id = id then { x with name } else x }, .ok { l with name }) := by
    unfold updateLedger
    rw [if_neg hn, hl]
  rw [e]
  have hid : l.id = id := (find_id Ledger.id (getLedger_ok.1 hl)).2
  have hf : ∀ x, getLedger { db with ledgers := db.ledgers.map fun x => if x.id = id then { x with name } else x } x =
      match (db.ledger? x).map (fun x => if x.id = id then { x with name } else x) with
      | none => .error (respondError ledgerOpts (api "NOT_FOUND" (t! "Ledger not found") none))
      | some j => .ok j := by
    intro x
    unfold getLedger DB.ledger?
    dsimp only
    rw [find_map_id Ledger.id _ (by intro a; split <;> rfl)]
    rfl
  refine ⟨{ l with name }, rfl, ?_, hid, rfl, rfl, ?_, rfl⟩
  · rw [hf, getLedger_ok.1 hl]
    simp [hid]
  · intro x hx
    rw [hf]
    unfold getLedger
    cases hc : db.ledger? x with
    | none => rfl
    | some j =>
      have := (find_id Ledger.id hc).2
      simp only [Option.map_some]
      rw [if_neg (by rw [this]; exact hx)]

/-- An empty name, and a ledger that is not there, are refused without any change. -/
theorem c156_refused (db : DB) (id name : Text) :
    (name = [] → (updateLedger db id name).1 = db ∧ refused 400 "GEN_VALIDATION_ERROR" (updateLedger db id name).2) ∧
    (name ≠ [] → id ∉ db.ledgers.map (·.id) →
      (updateLedger db id name).1 = db ∧ refused 404 "LGR_NOT_FOUND" (updateLedger db id name).2) := by
  constructor
  · intro h
    unfold updateLedger
    rw [if_pos h]
    exact ⟨rfl, _, rfl, by decide +kernel, by decide +kernel⟩
  · intro h hid
    have : getLedger db id = .error (respondError ledgerOpts (api "NOT_FOUND" (t! "Ledger not found") none)) := by
      unfold getLedger
      cases e : db.ledger? id with
      | none => rfl
      | some l =>
        have := find_id Ledger.id e
        exact absurd (List.mem_map.2 ⟨l, this⟩) hid
    unfold updateLedger
    rw [if_neg h, this]
    exact ⟨rfl, _, rfl, by decide +kernel, by decide +kernel⟩

example : getLedger (run DB.fresh start) (t! "ldg_1") = .ok ⟨t! "ldg_1", t! "Main", none⟩ := rfl

/-! ### C157: another owner for a balance -/

/-- **C157 in full**: a request to give a balance another owner that fails because of the owner says so. -/
def C157Full : Prop :=
  ∀ (es : List Ev) (id owner : Text), owner ≠ [] → id ∈ (run DB.fresh es).balances.map (·.id) →
    owner ∉ (run DB.fresh es).idents.map (·.id) →
    ∃ r, (moveBalance (run DB.fresh es) id owner).2 = some r ∧ r.status = 404 ∧ r.code = "IDT_NOT_FOUND"

/-- An owner that is not there is always answered with the code for a balance that is not there. -/
theorem c157_wrong_code (db : DB) (id owner : Text) (h : owner ≠ []) (ho : owner ∉ db.idents.map (·.id)) :
    (moveBalance db id owner).1 = db ∧
    ∃ r, (moveBalance db id owner).2 = some r ∧ r.status = 404 ∧ r.code = "BAL_NOT_FOUND" ∧
      r.message = t! "Identity with ID '" ++ owner ++ t! "' not found" := by
  have : db.ident? owner = none := by
    cases e : db.ident? owner with
    | none => rfl
    | some i =>
      have := find_id Identity.id e
      exact absurd (List.mem_map.2 ⟨i, this⟩) ho
  unfold moveBalance
  dsimp only
  rw [if_neg h, this]
  refine ⟨rfl, _, rfl, ?_, ?_, rfl⟩
  · show statusForCode (match ([("GEN_NOT_FOUND", "BAL_NOT_FOUND")] : List (String × String)).lookup (normalize "NOT_FOUND") with
      | some c => c | none => normalize "NOT_FOUND") = 404
    decide +kernel
  · show (match ([("GEN_NOT_FOUND", "BAL_NOT_FOUND")] : List (String × String)).lookup (normalize "NOT_FOUND") with
      | some c => c | none => normalize "NOT_FOUND") = _
    decide +kernel

theorem c157_full_fails : ¬ C157Full := by
  intro h
  obtain ⟨r, hr, _, hc⟩ := h start (t! "bln_1") (t! "idt_9") (by decide) (by decide +kernel) (by decide +kernel)
  obtain ⟨_, r', hr', _, hc', _⟩ := c157_wrong_code (run DB.fresh start) (t! "bln_1") (t! "idt_9") (by decide) (by decide +kernel)
  rw [hr] at hr'
  injection hr' with hr'
  rw [hr', hc'] at hc
  revert hc
  decide

/-- For an owner and a balance that are there the balance gets the owner and keeps the rest, other balances and
records are as before; otherwise nothing changes. -/
theorem c157_partial (es : List Ev) (id owner : Text) (hid : id ∈ (run DB.fresh es).balances.map (·.id))
    (ho : owner ∈ (run DB.fresh es).idents.map (·.id)) :
    (moveBalance (run DB.fresh es) id owner).2 = none ∧
    (∀ x, (moveBalance (run DB.fresh es) id owner).1.balance? x =
      if x = id then ((run DB.fresh es).balance? id).map ({ · with identity := some owner })
      else (run DB.fresh es).balance? x) ∧
    (moveBalance (run DB.fresh es) id owner).1 =
      { run DB.fresh es with balances := (moveBalance (run DB.fresh es) id owner).1.balances } := by
  have g := good es
  generalize run DB.fresh es = db at *
  obtain ⟨i, hi, rfl⟩ := List.mem_map.1 ho
  obtain ⟨b, hb, rfl⟩ := List.mem_map.1 hid
  have e : moveBalance db b.id i.id =
      ({ db with balances := db.balances.map fun x => if x.id = b.id then { x with identity := some i.id } else x }, none) := by
    unfold moveBalance
    dsimp only
    rw [if_neg (g.identNamed i hi), ident?_mem g hi, balance?_mem g hb]
  rw [e]
  refine ⟨rfl, fun x => ?_, rfl⟩
  unfold DB.balance?
  dsimp only
  rw [find_map_id Balance.id _ (by intro a; split <;> rfl)]
  by_cases hx : x = b.id
  · subst hx
    rw [if_pos rfl]
    have := balance?_mem g hb
    unfold DB.balance? at this
    rw [this]
    simp
  · rw [if_neg hx]
    cases hc : db.balances.find? (fun a => a.id == x) with
    | none => rfl
    | some c =>
      have := (find_id Balance.id hc).2
      simp only [Option.map_some]
      rw [if_neg (by rw [this]; exact hx)]

/-- A balance that is not there is answered as such. -/
theorem c157_missing (db : DB) (id owner : Text) (ho : owner ≠ []) (hid : id ∉ db.balances.map (·.id)) :
    (moveBalance db id owner).1 = db ∧
    ∃ r, (moveBalance db id owner).2 = some r ∧ r.status = 404 ∧ r.code = "BAL_NOT_FOUND" := by
  by_cases hi : owner ∈ db.idents.map (·.id)
  · have hb : db.balance? id = none := by
      cases e : db.balance? id with
      | none => rfl
      | some b =>
        have := find_id Balance.id e
        exact absurd (List.mem_map.2 ⟨b, this⟩) hid
    obtain ⟨i, hc⟩ : ∃ i, db.ident? owner = some i := by
      cases e : db.ident? owner with
      | none => exact absurd hi (find_none Identity.id e)
      | some i => exact ⟨i, rfl⟩
    unfold moveBalance
    dsimp only
    rw [if_neg ho, hc]
    dsimp only
    rw [hb]
    refine ⟨rfl, _, rfl, ?_, ?_⟩
    · show statusForCode (match ([("GEN_NOT_FOUND", "BAL_NOT_FOUND")] : List (String × String)).lookup (normalize "NOT_FOUND") with
        | some c => c | none => normalize "NOT_FOUND") = 404
      decide +kernel
    · show (match ([("GEN_NOT_FOUND", "BAL_NOT_FOUND")] : List (String × String)).lookup (normalize "NOT_FOUND") with
        | some c => c | none => normalize "NOT_FOUND") = _
      decide +kernel
  · obtain ⟨h1, r, h2, h3, h4, _⟩ := c157_wrong_code db id owner ho hi
    exact ⟨h1, r, h2, h3, h4⟩

example : t! "bln_1" ∈ (run DB.fresh start).balances.map (·.id) ∧ t! "idt_2" ∈ (run DB.fresh start).idents.map (·.id) := by
  decide +kernel

end Blnk.Book
