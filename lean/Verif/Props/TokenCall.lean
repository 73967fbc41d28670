import Verif.Model.TokenCall
import Verif.Props.Token
/-
C193: what the tokenization calls do with the fields they are given.
-/
namespace Blnk.Token

theorem structName_tok {n : Name} (h : n ∈ tokenizable) : structName n = n := by
  revert n; decide +kernel

theorem toUpper_idem (c : Char) : c.toUpper.toUpper = c.toUpper := by
  unfold Char.toUpper
  by_cases h : 'a'.val ≤ c.val ∧ c.val ≤ 'z'.val
  · simp only [dif_pos h]
    rw [dif_neg]
    intro hh
    have h1 := UInt32.le_iff_toNat_le.1 h.1
    have h2 := UInt32.le_iff_toNat_le.1 h.2
    have h3 := UInt32.le_iff_toNat_le.1 hh.1
    have h4 := UInt32.le_iff_toNat_le.1 hh.2
    simp only [UInt32.toNat_add] at h3 h4
    simp at h1 h2 h3 h4
    omega
  · simp only [dif_neg h]

theorem tok_text {n : Name} (h : n ∈ tokenizable) : n ∈ textFields := by
  revert n; decide +kernel

/-! ### Identities whose marks were all made by tokenize calls -/

/-- Marks as tokenize calls make them. -/
structure Clean (p : Person) : Prop where
  all : ∀ x ∈ p.marks.getD [], x.2 = some true ∧ x.1 ∈ tokenizable
  once : ((p.marks.getD []).map Prod.fst).Nodup

theorem listed_clean {p : Person} (h : Clean p) : listed p = (p.marks.getD []).map Prod.fst := by
  unfold listed
  rw [List.filter_eq_self.2]
  intro x hx
  simp [(h.all x hx).1]

theorem listed_tok {p : Person} (h : Clean p) : ∀ n ∈ listed p, n ∈ tokenizable := by
  intro n hn
  rw [listed_clean h] at hn
  obtain ⟨x, hx, rfl⟩ := List.mem_map.1 hn
  exact (h.all x hx).2

theorem entry_eq {l : List (Name × Option Bool)} (hl : ∀ x ∈ l, x.2 = some true) (n : Name) :
    entry l n = if n ∈ l.map Prod.fst then some true else none := by
  unfold entry
  cases hf : l.find? (fun x => decide (x.1 = n)) with
  | none =>
    rw [if_neg]
    intro hm
    obtain ⟨x, hx, rfl⟩ := List.mem_map.1 hm
    simpa using List.find?_eq_none.1 hf x hx
  | some x =>
    have h1 : x.1 = n := by simpa using List.find?_some hf
    have h2 := List.mem_of_find?_eq_some hf
    rw [if_pos (h1 ▸ List.mem_map_of_mem h2)]
    obtain ⟨a, b⟩ := x
    have := hl _ h2
    simp only at this
    subst this
    rfl

theorem isMarked_clean {p : Person} (h : Clean p) (n : Name) : isMarked p n = decide (structName n ∈ listed p) := by
  rw [listed_clean h]
  unfold isMarked
  cases hm : p.marks with
  | none => simp
  | some l =>
    have ha : ∀ x ∈ l, x.2 = some true ∧ x.1 ∈ tokenizable := by have := h.all; rw [hm] at this; exact this
    simp only [Option.getD_some]
    rw [entry_eq (fun x hx => (ha x hx).1), entry_eq (fun x hx => (ha x hx).1)]
    by_cases h1 : structName n ∈ l.map Prod.fst
    · simp [h1]
    · have h2 : n ∉ l.map Prod.fst := by
        intro hn
        obtain ⟨x, hx, rfl⟩ := List.mem_map.1 hn
        exact h1 (by rw [structName_tok (ha x hx).2]; exact List.mem_map_of_mem hx)
      rw [if_neg h1, if_neg h2]
      simp [h1]

theorem addMark_clean {p : Person} (h : Clean p) {n : Name} (hn : structName n ∉ listed p) :
    addMark p.marks n = p.marks.getD [] ++ [(structName n, some true)] := by
  unfold addMark
  rw [List.filter_eq_self.2]
  intro x hx
  have h1 := (h.all x hx).1
  have h2 : x.1 ≠ structName n := by
    intro e
    apply hn
    rw [listed_clean h, ← e]
    exact List.mem_map_of_mem hx
  simp [h1, h2]

/-- One field: refused exactly if it is not tokenizable or marked already. -/
theorem tokenizeNamed_clean (C : Cipher) (hmac) (k : Nat) (n : Name) {p : Person} (h : Clean p) :
    (structName n ∈ tokenizable ∧ structName n ∉ listed p ∧ ∃ q, tokenizeNamed C hmac k n p = .ok q ∧ Clean q ∧
      listed q = listed p ++ [structName n] ∧ q.value (structName n) = tokenizeFormat C hmac k (p.value (structName n)) ∧
      ∀ f, f ≠ structName n → q.value f = p.value f) ∨
    ((structName n ∉ tokenizable ∨ structName n ∈ listed p) ∧ ∃ e, tokenizeNamed C hmac k n p = .error e) := by
  by_cases h1 : structName n ∈ tokenizable
  · by_cases h2 : structName n ∈ listed p
    · right
      refine ⟨.inr h2, .already, ?_⟩
      unfold tokenizeNamed
      rw [if_neg (by simpa using h1), isMarked_clean h, if_pos (by simpa using h2)]
    · left
      refine ⟨h1, h2, _, by unfold tokenizeNamed; rw [if_neg (by simpa using h1), isMarked_clean h, if_neg (by simpa using h2)], ?_, ?_, ?_, ?_⟩
      · constructor
        · intro x hx
          simp only [Option.getD_some, addMark_clean h h2, List.mem_append, List.mem_singleton] at hx
          rcases hx with hx | rfl
          · exact h.all x hx
          · exact ⟨rfl, h1⟩
        · simp only [Option.getD_some, addMark_clean h h2, List.map_append, List.map_cons, List.map_nil]
          rw [List.nodup_append]
          refine ⟨h.once, by simp, ?_⟩
          intro a ha b hb e
          simp only [List.mem_singleton] at hb
          subst hb; subst e
          exact h2 (by rw [listed_clean h]; exact ha)
      · rw [listed_clean h]
        unfold listed
        simp only [Option.getD_some, addMark_clean h h2, List.filter_append, List.map_append]
        rw [List.filter_eq_self.2 (fun x hx => by simp [(h.all x hx).1])]
        rfl
      · simp
      · intro f hf; simp [hf]
  · exact .inr ⟨.inl h1, .notTokenizable, by unfold tokenizeNamed; rw [if_pos (by simpa using h1)]⟩

/-- The names asked for, as fields. -/
def fieldsOf (ns : List (Nat × Name)) : List Name := ns.map fun x => structName x.2

/-- **C193.** A tokenize call for several fields does the fields before the first one that is refused, in order, and
nothing else: these are marked and hold a token of what they held, every other field is as it was. -/
theorem c193_does (C : Cipher) (hmac) : ∀ (ns : List (Nat × Name)) (p : Person), Clean p → Clean (tokenizeMany C hmac ns p).1 ∧
    ∃ pre rest, ns = pre ++ rest ∧ listed (tokenizeMany C hmac ns p).1 = listed p ++ fieldsOf pre ∧
      (∀ x ∈ pre, (tokenizeMany C hmac ns p).1.value (structName x.2) = tokenizeFormat C hmac x.1 (p.value (structName x.2))) ∧
      (∀ f, f ∉ fieldsOf pre → (tokenizeMany C hmac ns p).1.value f = p.value f) ∧
      ((tokenizeMany C hmac ns p).2 = none → rest = []) ∧
      (∀ e, (tokenizeMany C hmac ns p).2 = some e → ∃ x rest', rest = x :: rest' ∧
        (structName x.2 ∉ tokenizable ∨ structName x.2 ∈ listed p ++ fieldsOf pre))
  | [], p, h => ⟨h, [], [], rfl, by simp [tokenizeMany, fieldsOf], by simp, by simp [tokenizeMany], fun _ => rfl, by simp [tokenizeMany]⟩
  | (k, n) :: ns, p, h => by
    rcases tokenizeNamed_clean C hmac k n h with ⟨h1, h2, q, hq, hc, hl, hv, ho⟩ | ⟨hbad, e, he⟩
    · have eq : tokenizeMany C hmac ((k, n) :: ns) p = tokenizeMany C hmac ns q := by simp only [tokenizeMany, hq]
      rw [eq]
      obtain ⟨c1, pre, rest, e1, e2, e3, e4, e5, e6⟩ := c193_does C hmac ns q hc
      have hfresh : structName n ∉ fieldsOf pre := by
        intro hm
        have hn := c1.once
        rw [← listed_clean c1, e2, hl, List.append_assoc, List.nodup_append] at hn
        have := hn.2.1
        simp only [List.cons_append, List.nil_append, List.nodup_cons] at this
        exact this.1 hm
      refine ⟨c1, (k, n) :: pre, rest, by rw [e1]; rfl, by rw [e2, hl]; simp [fieldsOf], ?_, ?_, e5, ?_⟩
      · intro x hx
        rcases List.mem_cons.1 hx with rfl | hx
        · rw [e4 _ hfresh]; exact hv
        · rw [e3 x hx, ho]
          intro e
          exact hfresh (e ▸ List.mem_map_of_mem hx)
      · intro f hf
        simp only [fieldsOf, List.map_cons, List.mem_cons, not_or] at hf
        rw [e4 f hf.2, ho f hf.1]
      · intro e he
        obtain ⟨x, rest', hr, hb⟩ := e6 e he
        refine ⟨x, rest', hr, ?_⟩
        rw [hl] at hb
        simpa [fieldsOf] using hb
    · have eq : tokenizeMany C hmac ((k, n) :: ns) p = (p, some e) := by simp only [tokenizeMany, he]
      rw [eq]
      refine ⟨h, [], (k, n) :: ns, rfl, by simp [fieldsOf], by simp, fun _ _ => rfl, by simp, fun _ _ => ⟨_, _, rfl, ?_⟩⟩
      simpa [fieldsOf] using hbad

/-- **C193.** It is answered with success exactly if all the names are of tokenizable fields that are not marked, none
named twice. -/
theorem c193_accepts (C : Cipher) (hmac) (ns : List (Nat × Name)) (p : Person) (h : Clean p) :
    (tokenizeMany C hmac ns p).2 = none ↔
      (∀ n ∈ fieldsOf ns, n ∈ tokenizable ∧ n ∉ listed p) ∧ (fieldsOf ns).Nodup := by
  obtain ⟨c, pre, rest, e1, e2, -, -, e5, e6⟩ := c193_does C hmac ns p h
  have hn := c.once
  rw [← listed_clean c, e2, List.nodup_append] at hn
  have ht := listed_tok c
  rw [e2] at ht
  constructor
  · intro hnone
    have := e5 hnone
    subst this
    rw [List.append_nil] at e1
    subst e1
    exact ⟨fun n hm => ⟨ht n (List.mem_append_right _ hm), fun hp => hn.2.2 n hp n hm rfl⟩, hn.2.1⟩
  · rintro ⟨ha, hd⟩
    cases hr : (tokenizeMany C hmac ns p).2 with
    | none => rfl
    | some e =>
      obtain ⟨x, rest', rfl, hb⟩ := e6 e hr
      exfalso
      have hx : structName x.2 ∈ fieldsOf ns := by rw [e1]; exact List.mem_map_of_mem (by simp)
      rcases hb with hb | hb
      · exact hb (ha _ hx).1
      · rcases List.mem_append.1 hb with hb | hb
        · exact (ha _ hx).2 hb
        · rw [e1, fieldsOf, List.map_append, List.nodup_append] at hd
          exact hd.2.2 _ hb _ (by simp) rfl

/-! ### Any number of calls, and what the other calls then answer -/

/-- Tokenize calls one after the other, whatever they answer. -/
def tokenizeCalls (C : Cipher) (hmac : List Char → Nat → Nat) : List (List (Nat × Name)) → Person → Person
  | [], p => p
  | ns :: cs, p => tokenizeCalls C hmac cs (tokenizeMany C hmac ns p).1

/-- A marked field holds a token of the original, any other the original. -/
structure Sealed (C : Cipher) (hmac : List Char → Nat → Nat) (orig : Name → List Char) (p : Person) : Prop where
  clean : Clean p
  token : ∀ n ∈ listed p, ∃ k, p.value n = tokenizeFormat C hmac k (orig n)
  plain : ∀ n, n ∉ listed p → p.value n = orig n

theorem Sealed.many {C : Cipher} {hmac orig} {p : Person} (h : Sealed C hmac orig p) (ns) : Sealed C hmac orig (tokenizeMany C hmac ns p).1 := by
  obtain ⟨c, pre, rest, e1, e2, e3, e4, -, -⟩ := c193_does C hmac ns p h.clean
  have hn := c.once
  rw [← listed_clean c, e2, List.nodup_append] at hn
  refine ⟨c, ?_, ?_⟩
  · intro n hm
    rw [e2] at hm
    by_cases hp : n ∈ fieldsOf pre
    · obtain ⟨x, hx, rfl⟩ := List.mem_map.1 hp
      refine ⟨x.1, ?_⟩
      rw [e3 x hx, h.plain _ (fun hl => hn.2.2 _ hl _ hp rfl)]
    · rcases List.mem_append.1 hm with hm | hm
      · obtain ⟨k, hk⟩ := h.token n hm
        exact ⟨k, by rw [e4 n hp, hk]⟩
      · exact absurd hm hp
  · intro n hm
    rw [e2, List.mem_append, not_or] at hm
    rw [e4 n hm.2, h.plain n hm.1]

theorem Sealed.calls {C : Cipher} {hmac orig} : ∀ (cs) {p : Person}, Sealed C hmac orig p → Sealed C hmac orig (tokenizeCalls C hmac cs p)
  | [], _, h => h
  | ns :: cs, _, h => Sealed.calls cs (h.many ns)

theorem sealed_new (C : Cipher) (hmac) (p : Person) (h : p.marks = none) : Sealed C hmac p.value p :=
  ⟨⟨by simp [h], by simp [h]⟩, by simp [listed, h], fun _ _ => rfl⟩

theorem detokenizeNamed_sealed {C : Cipher} {hmac orig} {p : Person} (h : Sealed C hmac orig p) (n : Name) :
    detokenizeNamed C n p = if structName n ∈ listed p then
      (if ':' ∈ orig (structName n) then .error .badToken else .ok (orig (structName n))) else .error .notTokenized := by
  unfold detokenizeNamed
  rw [isMarked_clean h.clean, isMarked_clean h.clean]
  by_cases hm : structName n ∈ listed p
  · rw [if_pos hm]
    have ht := listed_tok h.clean _ hm
    obtain ⟨k, hk⟩ := h.token _ hm
    have htext : (textOf p (structName n)).or (textOf p n) = some (tokenizeFormat C hmac k (orig (structName n))) := by
      unfold textOf
      rw [if_pos (tok_text ht), hk]
      rfl
    simp only [hm, decide_true, Bool.not_true, Bool.false_and, Bool.false_eq_true, if_false, htext]
    by_cases hc : ':' ∈ orig (structName n)
    · rw [if_pos hc, c48_colon_lost C hmac k _ hc]
    · rw [if_neg hc, c48_format_partial C hmac k _ hc]
  · have h2 : structName (structName n) ∉ listed p := by
      intro hh
      have ht := listed_tok h.clean _ hh
      apply hm
      have : structName (structName n) = structName n := by
        cases n with
        | nil => rfl
        | cons c cs =>
          simp only [structName, List.cons.injEq, and_true]
          have := toUpper_idem c
          exact this
      rwa [this] at hh
    simp [hm, h2]

/-- The answer for a list of names. -/
theorem answers_sealed {C : Cipher} {hmac orig} {p : Person} (h : Sealed C hmac orig p) : ∀ ns : List Name,
    answers C p ns = if ∀ n ∈ ns, structName n ∈ listed p ∧ ':' ∉ orig (structName n) then
      some (ns.map fun n => (n, orig (structName n))) else none
  | [] => by simp [answers]
  | n :: ns => by
    rw [answers, detokenizeNamed_sealed h, answers_sealed h ns]
    by_cases h1 : structName n ∈ listed p <;> by_cases h2 : ':' ∈ orig (structName n) <;>
      by_cases h3 : ∀ n ∈ ns, structName n ∈ listed p ∧ ':' ∉ orig (structName n) <;> simp [h1, h2, h3]

/-- **C193.** Whatever tokenize calls were made on an identity that was created without marks: the tokenized-fields
listed are tokenizable fields, each once; a field that is not listed has the value it had; and a detokenize call answers
exactly if all the fields it names (all that are listed, if it names none) are listed and had no colon in their value —
then with their original values under the names given. -/
theorem c193_answers (C : Cipher) (hmac) (p : Person) (h : p.marks = none) (cs : List (List (Nat × Name))) (ns : List Name) :
    (listed (tokenizeCalls C hmac cs p)).Nodup ∧
    (∀ n ∈ listed (tokenizeCalls C hmac cs p), n ∈ tokenizable) ∧
    (∀ n, n ∉ listed (tokenizeCalls C hmac cs p) → (tokenizeCalls C hmac cs p).value n = p.value n) ∧
    (ns ≠ [] → detokenizeCall C (tokenizeCalls C hmac cs p) ns =
      if ∀ n ∈ ns, structName n ∈ listed (tokenizeCalls C hmac cs p) ∧ ':' ∉ p.value (structName n) then
        some (ns.map fun n => (n, p.value (structName n))) else none) ∧
    detokenizeCall C (tokenizeCalls C hmac cs p) [] =
      if ∀ n ∈ listed (tokenizeCalls C hmac cs p), ':' ∉ p.value n then
        some ((listed (tokenizeCalls C hmac cs p)).map fun n => (n, p.value n)) else none := by
  have hs := Sealed.calls (C := C) (hmac := hmac) cs (sealed_new C hmac p h)
  have ht := listed_tok hs.clean
  refine ⟨by rw [listed_clean hs.clean]; exact hs.clean.once, ht, hs.plain, ?_, ?_⟩
  · intro hne
    unfold detokenizeCall
    rw [if_neg (by simpa using hne), answers_sealed hs]
  · rw [show detokenizeCall C (tokenizeCalls C hmac cs p) [] = answers C (tokenizeCalls C hmac cs p) (listed (tokenizeCalls C hmac cs p)) from rfl,
      answers_sealed hs]
    have e : ∀ n ∈ listed (tokenizeCalls C hmac cs p), structName n = n := fun n hn => structName_tok (ht n hn)
    have e1 : (∀ n ∈ listed (tokenizeCalls C hmac cs p), structName n ∈ listed (tokenizeCalls C hmac cs p) ∧ ':' ∉ p.value (structName n)) ↔
        (∀ n ∈ listed (tokenizeCalls C hmac cs p), ':' ∉ p.value n) := by
      constructor
      · intro h n hn; have := (h n hn).2; rwa [e n hn] at this
      · intro h n hn; rw [e n hn]; exact ⟨hn, h n hn⟩
    have e2 : (listed (tokenizeCalls C hmac cs p)).map (fun n => (n, p.value (structName n))) =
        (listed (tokenizeCalls C hmac cs p)).map fun n => (n, p.value n) :=
      List.map_congr_left fun n hn => by rw [e n hn]
    rw [e2]
    by_cases hc : ∀ n ∈ listed (tokenizeCalls C hmac cs p), ':' ∉ p.value n
    · rw [if_pos hc, if_pos (e1.2 hc)]
    · rw [if_neg hc, if_neg (fun h => hc (e1.1 h))]

/-- **C193 (part).** Without colons: after a call that succeeded on a new identity the fields named are listed, and a
detokenize call without names gives them back, each with its original value. Missing: values with a colon, calls that
fail half way, the JSON names of fields, and marks that clients write (all false). -/
theorem c193_round_partial (C : Cipher) (hmac) (p : Person) (h : p.marks = none) (ns : List (Nat × Name))
    (hcolon : ∀ n ∈ tokenizable, ':' ∉ p.value n) (hok : (tokenizeMany C hmac ns p).2 = none) :
    listed (tokenizeMany C hmac ns p).1 = fieldsOf ns ∧
    detokenizeCall C (tokenizeMany C hmac ns p).1 [] = some ((fieldsOf ns).map fun n => (n, p.value n)) := by
  have hc : Clean p := (sealed_new C hmac p h).clean
  obtain ⟨c, pre, rest, e1, e2, -, -, e5, -⟩ := c193_does C hmac ns p hc
  have := e5 hok
  subst this
  rw [List.append_nil] at e1
  subst e1
  have hl : listed p = [] := by simp [listed, h]
  rw [hl, List.nil_append] at e2
  refine ⟨e2, ?_⟩
  have := ((c193_answers C hmac p h [ns] []).2.2.2.2).trans (if_pos (fun n hn => hcolon n (listed_tok c n hn)))
  simp only [tokenizeCalls] at this
  rw [this, e2]

/-! ### Where the full statement fails -/

/-- **C193 in full.** On an identity without marks: a tokenize call that is refused changes nothing; a detokenize call
without names answers with all the fields that are listed and their original values; and a field can be named as in the
JSON of the identity. -/
def C193Full (C : Cipher) (hmac : List Char → Nat → Nat) : Prop := ∀ (p : Person), p.marks = none →
  (∀ ns, (tokenizeMany C hmac ns p).2 ≠ none → (tokenizeMany C hmac ns p).1 = p) ∧
  (∀ ns, detokenizeCall C (tokenizeMany C hmac ns p).1 [] = some ((listed (tokenizeMany C hmac ns p).1).map fun n => (n, p.value n))) ∧
  (∀ n ∈ jsonNames, (tokenizeMany C hmac [(0, n)] p).2 = none)

/-- **C193 (violated).** A call refused for its second field has tokenized the first. -/
theorem c193_half_fails (C : Cipher) (hmac) : ¬ C193Full C hmac ∧ ∀ p : Person, p.marks = none →
    (tokenizeMany C hmac [(0, t! "FirstName"), (1, t! "Gender")] p).2 = some .notTokenizable ∧
    listed (tokenizeMany C hmac [(0, t! "FirstName"), (1, t! "Gender")] p).1 = [t! "FirstName"] := by
  have key : ∀ p : Person, p.marks = none →
      (tokenizeMany C hmac [(0, t! "FirstName"), (1, t! "Gender")] p).2 = some .notTokenizable ∧
      listed (tokenizeMany C hmac [(0, t! "FirstName"), (1, t! "Gender")] p).1 = [t! "FirstName"] := by
    intro p h
    have m : isMarked p (t! "FirstName") = false := by simp [isMarked, h]
    have a1 : structName (t! "FirstName") = t! "FirstName" := by decide +kernel
    have a2 : structName (t! "Gender") = t! "Gender" := by decide +kernel
    have b1 : ¬ (t! "FirstName" ∉ tokenizable) := by decide +kernel
    have b2 : t! "Gender" ∉ tokenizable := by decide +kernel
    simp only [tokenizeMany, tokenizeNamed, a1, a2, if_neg b1, if_pos b2, m, Bool.false_eq_true, if_false]
    refine ⟨trivial, ?_⟩
    simp only [listed, addMark, h, a1, Option.getD_some, Option.getD_none, List.filter_nil, List.nil_append]
    decide +kernel
  refine ⟨fun hf => ?_, key⟩
  obtain ⟨k1, k2⟩ := key ⟨fun _ => [], none⟩ rfl
  have := (hf ⟨fun _ => [], none⟩ rfl).1 _ (by rw [k1]; simp)
  rw [this] at k2
  simp [listed] at k2

/-- **C193 (violated).** One value with a colon, and a detokenize call without names answers nothing at all; the other
fields can still be had by name. -/
theorem c193_colon_fails (C : Cipher) (hmac) : ¬ C193Full C hmac ∧ ∀ p : Person, p.marks = none → ':' ∈ p.value (t! "Street") →
    detokenizeCall C (tokenizeMany C hmac [(0, t! "FirstName"), (1, t! "Street")] p).1 [] = none ∧
    (':' ∉ p.value (t! "FirstName") →
      detokenizeCall C (tokenizeMany C hmac [(0, t! "FirstName"), (1, t! "Street")] p).1 [t! "FirstName"] =
        some [(t! "FirstName", p.value (t! "FirstName"))]) := by
  have ok : ∀ p : Person, p.marks = none → listed (tokenizeMany C hmac [(0, t! "FirstName"), (1, t! "Street")] p).1 = [t! "FirstName", t! "Street"] := by
    intro p h
    have hc : Clean p := (sealed_new C hmac p h).clean
    have hl : listed p = [] := by simp [listed, h]
    have hok := (c193_accepts C hmac [(0, t! "FirstName"), (1, t! "Street")] p hc).2 (by rw [hl]; decide +kernel)
    obtain ⟨-, pre, rest, e1, e2, -, -, e5, -⟩ := c193_does C hmac [(0, t! "FirstName"), (1, t! "Street")] p hc
    have := e5 hok
    subst this
    rw [List.append_nil] at e1
    subst e1
    rw [e2, hl]
    decide +kernel
  have key : ∀ p : Person, p.marks = none → ':' ∈ p.value (t! "Street") →
      detokenizeCall C (tokenizeMany C hmac [(0, t! "FirstName"), (1, t! "Street")] p).1 [] = none := by
    intro p h hcol
    exact ((c193_answers C hmac p h [[(0, t! "FirstName"), (1, t! "Street")]] []).2.2.2.2).trans (if_neg fun hh =>
      hh (t! "Street") (by simp only [tokenizeCalls]; rw [ok p h]; simp) hcol)
  refine ⟨fun hf => ?_, fun p h hcol => ⟨key p h hcol, fun hno => ?_⟩⟩
  · have h1 := (hf ⟨fun _ => [':'], none⟩ rfl).2.1 [(0, t! "FirstName"), (1, t! "Street")]
    rw [key ⟨fun _ => [':'], none⟩ rfl (by simp)] at h1
    cases h1
  · have e : structName (t! "FirstName") = t! "FirstName" := by decide +kernel
    refine ((c193_answers C hmac p h [[(0, t! "FirstName"), (1, t! "Street")]] [t! "FirstName"]).2.2.2.1 (by simp)).trans ((if_pos ?_).trans ?_)
    · intro n hn
      rw [List.mem_singleton] at hn
      subst hn
      simp only [tokenizeCalls]
      rw [e, ok p h]
      exact ⟨by simp, hno⟩
    · simp only [List.map_cons, List.map_nil, e]

/-- **C193 (violated).** Of the names that the identity has in JSON only `street` is understood. -/
theorem c193_names_fails (C : Cipher) (hmac) : ¬ C193Full C hmac ∧ ∀ (p : Person) (k : Nat), ∀ n ∈ jsonNames, n ≠ t! "street" →
    tokenizeMany C hmac [(k, n)] p = (p, some .notTokenizable) := by
  have key : ∀ (p : Person) (k : Nat), ∀ n ∈ jsonNames, n ≠ t! "street" →
      tokenizeMany C hmac [(k, n)] p = (p, some .notTokenizable) := by
    intro p k n hn hs
    have : structName n ∉ tokenizable := by revert n; decide +kernel
    simp only [tokenizeMany, tokenizeNamed, if_pos this]
  refine ⟨fun hf => ?_, key⟩
  have h1 := (hf ⟨fun _ => [], none⟩ rfl).2.2 (t! "first_name") (by decide +kernel)
  rw [key _ _ _ (by decide +kernel) (by decide +kernel)] at h1
  cases h1

/-- A mark on a field that is not tokenizable, and the field, survive every tokenize call. -/
theorem many_keeps (C : Cipher) (hmac) {n : Name} (hn : n ∉ tokenizable) : ∀ (ns : List (Nat × Name)) (p : Person),
    (n, some true) ∈ p.marks.getD [] →
    (n, some true) ∈ (tokenizeMany C hmac ns p).1.marks.getD [] ∧ (tokenizeMany C hmac ns p).1.value n = p.value n
  | [], p, h => ⟨h, rfl⟩
  | (k, m) :: ns, p, h => by
    unfold tokenizeMany
    by_cases h1 : structName m ∈ tokenizable
    · have hne : n ≠ structName m := fun e => hn (e ▸ h1)
      by_cases h2 : isMarked p m = true
      · have : tokenizeNamed C hmac k m p = .error .already := by unfold tokenizeNamed; rw [if_neg (by simpa using h1), if_pos h2]
        simp only [this]
        exact ⟨h, trivial⟩
      · have : tokenizeNamed C hmac k m p = .ok ⟨fun g => if g = structName m then tokenizeFormat C hmac k (p.value g) else p.value g, some (addMark p.marks m)⟩ := by
          unfold tokenizeNamed; rw [if_neg (by simpa using h1), if_neg h2]
        simp only [this]
        have ih := many_keeps C hmac hn ns ⟨fun g => if g = structName m then tokenizeFormat C hmac k (p.value g) else p.value g, some (addMark p.marks m)⟩ (by
          simp only [Option.getD_some, addMark, List.mem_append, List.mem_filter]
          exact .inl ⟨h, by simp [hne]⟩)
        refine ⟨ih.1, ih.2.trans ?_⟩
        simp [hne]
    · have : tokenizeNamed C hmac k m p = .error .notTokenizable := by unfold tokenizeNamed; rw [if_pos (by simpa using h1)]
      simp only [this]
      exact ⟨h, trivial⟩

theorem answers_none (C : Cipher) (p : Person) {n : Name} {e : Refusal} (hn : detokenizeNamed C n p = .error e) : ∀ ns, n ∈ ns → answers C p ns = none
  | m :: ns, h => by
    rw [answers]
    rcases List.mem_cons.1 h with rfl | h
    · rw [hn]
    · rw [answers_none C p hn ns h]
      split <;> rfl

/-- **C193 (violated when clients write marks).** An identity stored with a mark on a field that holds no token, as
`"tokenized_fields": {"Gender": true}`, or on a name that is no field: a detokenize call without names fails, whatever
is tokenized afterwards, and no call can take the mark away. -/
theorem c193_mark_fails (C : Cipher) (hmac) (p : Person) (n : Name) (hn : n ∉ tokenizable) (hcap : structName n = n)
    (hm : (n, some true) ∈ p.marks.getD []) (hbad : n ∉ textFields ∨ detokenize C (p.value n) = none)
    (hdob : detokenize C (t! "<time.Time Value>") = none ∧ detokenize C (t! "<map[string]interface {} Value>") = none)
    (ns : List (Nat × Name)) :
    n ∈ listed (tokenizeMany C hmac ns p).1 ∧ detokenizeCall C (tokenizeMany C hmac ns p).1 [] = none := by
  obtain ⟨k1, k2⟩ := many_keeps C hmac hn ns p hm
  have hl : n ∈ listed (tokenizeMany C hmac ns p).1 :=
    List.mem_map.2 ⟨_, List.mem_filter.2 ⟨k1, by simp⟩, rfl⟩
  refine ⟨hl, ?_⟩
  have key : ∃ e, detokenizeNamed C n (tokenizeMany C hmac ns p).1 = .error e := by
    generalize tokenizeMany C hmac ns p = r at k1 k2
    have hor : ∀ o : Option (List Char), o.or o = o := by intro o; cases o <;> rfl
    have ht : ∀ t, textOf r.1 n = some t → detokenize C t = none := by
      intro t ht
      unfold textOf at ht
      rw [k2] at ht
      by_cases h1 : n ∈ textFields
      · rw [if_pos h1] at ht
        cases ht
        exact hbad.resolve_left (fun h => h h1)
      · rw [if_neg h1] at ht
        split at ht
        · cases ht; exact hdob.1
        · split at ht
          · cases ht; exact hdob.2
          · cases ht
    unfold detokenizeNamed
    rw [hcap, hor]
    by_cases hmk : (!isMarked r.1 n && !isMarked r.1 n) = true
    · rw [if_pos hmk]; exact ⟨_, rfl⟩
    · rw [if_neg hmk]
      cases htx : textOf r.1 n with
      | none => exact ⟨_, rfl⟩
      | some t => simp only [ht t htx]; exact ⟨_, rfl⟩
  obtain ⟨e, he⟩ := key
  exact answers_none C _ he _ hl

/-- **C193.** The list of tokenized fields is the names marked with `true`, whatever clients wrote into the marks. -/
theorem c193_listed (p : Person) (hn : ((p.marks.getD []).map Prod.fst).Nodup) (n : Name) :
    n ∈ listed p ↔ entry (p.marks.getD []) n = some true := by
  unfold listed entry
  generalize p.marks.getD [] = l at hn
  induction l with
  | nil => simp
  | cons x l ih =>
    rw [List.map_cons, List.nodup_cons] at hn
    have ih := ih hn.2
    rw [List.find?_cons]
    by_cases hx : x.1 = n
    · have hnl : n ∉ (l.filter (fun x => x.2 = some true)).map Prod.fst := by
        intro h
        obtain ⟨y, hy, e⟩ := List.mem_map.1 h
        exact hn.1 (hx ▸ e ▸ List.mem_map_of_mem (List.mem_filter.1 hy).1)
      simp only [hx, decide_true]
      obtain ⟨a, b⟩ := x
      subst hx
      rcases b with _ | _ | _
      · simpa using hnl
      · simpa using hnl
      · simp
    · simp only [hx, decide_false]
      rw [← ih]
      by_cases hb : x.2 = some true
      · simp [hb, Ne.symm hx]
      · simp [hb]

example : listed ⟨fun _ => [], some [(t! "Street", some false), (t! "Gender", some true), (t! "x", none)]⟩ = [t! "Gender"] := by
  decide +kernel

/-! ### Concrete cases -/

def ada : Person := ⟨fun n => if n = t! "FirstName" then t! "Ada" else if n = t! "Street" then t! "Way 5" else if n = t! "Gender" then t! "F" else [], none⟩

def exMac : List Char → Nat → Nat := fun _ i => i + 7

-- two fields, named with a small and a capital letter; what is shown then
example : (tokenizeMany exCipher exMac [(0, t! "firstName"), (1, t! "Street")] ada).2 = none ∧
    listed (tokenizeMany exCipher exMac [(0, t! "firstName"), (1, t! "Street")] ada).1 = [t! "FirstName", t! "Street"] ∧
    (tokenizeMany exCipher exMac [(0, t! "firstName"), (1, t! "Street")] ada).1.value (t! "FirstName") ≠ t! "Ada" ∧
    detokenizeCall exCipher (tokenizeMany exCipher exMac [(0, t! "firstName"), (1, t! "Street")] ada).1 [] =
      some [(t! "FirstName", t! "Ada"), (t! "Street", t! "Way 5")] ∧
    detokenizeCall exCipher (tokenizeMany exCipher exMac [(0, t! "firstName"), (1, t! "Street")] ada).1 [t! "street"] =
      some [(t! "street", t! "Way 5")] ∧
    detokenizeCall exCipher (tokenizeMany exCipher exMac [(0, t! "firstName"), (1, t! "Street")] ada).1 [t! "street", t! "LastName"] = none := by
  decide +kernel

-- the same field under two names; a field again; nothing named twice
example : (tokenizeMany exCipher exMac [(0, t! "firstName"), (1, t! "FirstName"), (2, t! "street")] ada).2 = some .already ∧
    listed (tokenizeMany exCipher exMac [(0, t! "firstName"), (1, t! "FirstName"), (2, t! "street")] ada).1 = [t! "FirstName"] ∧
    listed (tokenizeCalls exCipher exMac [[(0, t! "street")], [(1, t! "street"), (2, t! "LastName")], [(3, t! "PostCode")]] ada) =
      [t! "Street", t! "PostCode"] := by decide +kernel

-- the hypotheses of `c193_mark_fails`
example : (t! "Gender", some true) ∈ (({ ada with marks := some [(t! "Gender", some true), (t! "x", none)] } : Person).marks.getD []) ∧
    t! "Gender" ∉ tokenizable ∧ structName (t! "Gender") = t! "Gender" ∧ detokenize exCipher (ada.value (t! "Gender")) = none ∧
    detokenize exCipher (t! "<time.Time Value>") = none ∧ detokenize exCipher (t! "<map[string]interface {} Value>") = none := by
  decide +kernel

end Blnk.Token
