import Verif.Model.Export
import Verif.Lemmas.Errors
/-
C144–C146: what leaves with the logs, and whether logging can bring the service down.
-/
namespace Blnk.Export

open Blnk.Errs (Text has has_iff)
open Blnk.Csv (trim lower isSpace)

/-! ### C144: values under secret names stay inside -/

/-- The words that make a name secret. -/
def words : List Text :=
  [t! "authorization", t! "token", t! "secret", t! "password", t! "api_key", t! "apikey", t! "credential", t! "dsn", t! "url", t! "uri",
   t! "endpoint", t! "callback", t! "metadata", t! "webhook"]

/-- Capitals do not matter, and a dash is an underscore. -/
def norm (c : Char) : Char := if c = '-' then '_' else c.toLower

/-- A name that contains one of the words. -/
def Secret (k : Text) : Prop := ∃ w ∈ words, w <:+: k.map norm

/-- The value shows the text `x` below the names `ks`. -/
inductive Shown : Val → List Text → Text → Prop
  | text {t} : Shown (.text t) [] t
  | plain {t} : Shown (.plain t) [] t
  | list {vs v ks x} (hv : v ∈ vs) (h : Shown v ks x) : Shown (.list vs) ks x
  | map {kvs k v ks x} (hv : (k, v) ∈ kvs) (h : Shown v ks x) : Shown (.map kvs) (k :: ks) x
  | struct {kvs k v ks x} (hv : (k, v) ∈ kvs) (h : Shown v ks x) : Shown (.struct kvs) (k :: ks) x

/-- **C144 in full**: whatever an entry shows below a secret name is the word `[REDACTED]`. -/
def C144Full : Prop :=
  ∀ (urls : Text → Text) (message : Text) (fields : List (Text × Val)) (ks : List Text) (x : Text),
    Shown (.map (entry urls message fields).2) ks x → (∃ k ∈ ks, Secret k) → x = t! "[REDACTED]"

theorem norm_space {c : Char} (h : isSpace c = true) : norm c = c := by
  unfold isSpace at h
  simp only [Bool.or_eq_true, beq_iff_eq] at h
  rcases h with ((((h | h) | h) | h) | h) | h <;> subst h <;> decide

theorem infix_skip {w s t : Text} (hw : w ≠ []) (h : ∀ c ∈ w, c ∉ s) : w <:+: s ++ t ↔ w <:+: t := by
  constructor
  · rintro ⟨a, b, e⟩
    induction s generalizing a with
    | nil => exact ⟨a, b, e⟩
    | cons d s ih =>
      cases a with
      | nil =>
        cases w with
        | nil => exact absurd rfl hw
        | cons c w =>
          simp only [List.nil_append, List.cons_append, List.cons.injEq] at e
          exact absurd (e.1 ▸ List.mem_cons_self) (h c List.mem_cons_self)
      | cons a' a =>
        simp only [List.cons_append, List.cons.injEq] at e
        exact ih (fun c hc hs => h c hc (List.mem_cons_of_mem _ hs)) a e.2
  · rintro ⟨a, b, e⟩
    exact ⟨s ++ a, b, by rw [← e]; simp⟩

theorem infix_skip_end {w s t : Text} (hw : w ≠ []) (h : ∀ c ∈ w, c ∉ s) : w <:+: t ++ s ↔ w <:+: t := by
  rw [← List.reverse_infix, List.reverse_append, infix_skip (by simpa using hw) (by simpa using h), List.reverse_infix]

theorem trim_parts (t : Text) : ∃ s1 s2, t = s1 ++ (trim t ++ s2) ∧ (∀ c ∈ s1, isSpace c = true) ∧ ∀ c ∈ s2, isSpace c = true := by
  refine ⟨t.takeWhile isSpace, ((t.dropWhile isSpace).reverse.takeWhile isSpace).reverse, ?_, ?_, ?_⟩
  · unfold trim
    rw [← List.reverse_append, List.takeWhile_append_dropWhile, List.reverse_reverse, List.takeWhile_append_dropWhile]
  · intro c hc
    exact List.all_eq_true.1 (List.all_takeWhile) c hc
  · intro c hc
    rw [List.mem_reverse] at hc
    exact List.all_eq_true.1 (List.all_takeWhile) c hc

theorem map_norm (t : Text) : lower (t.map (fun c => if c = '-' then '_' else c)) = t.map norm := by
  unfold lower
  rw [List.map_map]
  apply List.map_congr_left
  intro c _
  unfold norm
  simp only [Function.comp]
  split
  · decide
  · rfl

theorem words_no_space : ∀ w ∈ words, w ≠ [] ∧ ∀ c ∈ w, isSpace c = false := by decide +kernel

/-- The code calls a name sensitive exactly if it is secret. -/
theorem sensitive_iff (k : Text) : sensitive k = true ↔ Secret k := by
  unfold sensitive Secret
  rw [List.any_eq_true]
  have key : ∀ w ∈ words, (has w (lower ((trim k).map (fun c => if c = '-' then '_' else c))) = true ↔ w <:+: k.map norm) := by
    intro w hw
    obtain ⟨h1, h2⟩ := words_no_space w hw
    rw [has_iff, map_norm]
    obtain ⟨s1, s2, e, q1, q2⟩ := trim_parts k
    have m : ∀ s : Text, (∀ c ∈ s, isSpace c = true) → ∀ c ∈ w, c ∉ s.map norm := by
      intro s hs c hc hm
      obtain ⟨d, hd, e⟩ := List.mem_map.1 hm
      rw [norm_space (hs d hd)] at e
      have := h2 c hc
      rw [← e, hs d hd] at this
      cases this
    rw [show k.map norm = s1.map norm ++ ((trim k).map norm ++ s2.map norm) by rw [← List.map_append, ← List.map_append, ← e]]
    rw [infix_skip h1 (m s1 q1), infix_skip_end h1 (m s2 q2)]
  constructor
  · rintro ⟨w, hw, h⟩; exact ⟨w, hw, (key w hw).1 h⟩
  · rintro ⟨w, hw, h⟩; exact ⟨w, hw, (key w hw).2 h⟩

mutual
/-- No struct, pointer or map with other keys inside. -/
def simple : Val → Bool
  | .list vs => simpleList vs
  | .map kvs => simpleMap kvs
  | .struct _ => false
  | _ => true
def simpleList : List Val → Bool
  | [] => true
  | v :: vs => simple v && simpleList vs
def simpleMap : List (Text × Val) → Bool
  | [] => true
  | (_, v) :: kvs => simple v && simpleMap kvs
end

mutual
theorem hidden_value (urls : Text → Text) : ∀ (v : Val) (ks : List Text) (x : Text), simple v = true → Shown (redactValue urls v) ks x →
    (∃ k ∈ ks, Secret k) → x = t! "[REDACTED]"
  | .none, ks, x, _, h, _ => by unfold redactValue at h; cases h
  | .plain t, ks, x, _, h, hk => by
    unfold redactValue at h; cases h; obtain ⟨k, hm, _⟩ := hk; cases hm
  | .text t, ks, x, _, h, hk => by
    unfold redactValue at h; cases h; obtain ⟨k, hm, _⟩ := hk; cases hm
  | .list vs, ks, x, hs, h, hk => by
    unfold redactValue at h; unfold simple at hs
    cases h with
    | list hv h => exact hidden_list urls vs ks x _ hs hv h hk
  | .map kvs, ks, x, hs, h, hk => by
    unfold redactValue at h; unfold simple at hs
    cases h with
    | map hv h => exact hidden_map urls kvs _ _ x _ hs hv h hk
  | .struct kvs, ks, x, hs, h, hk => by unfold simple at hs; cases hs
theorem hidden_list (urls : Text → Text) : ∀ (vs : List Val) (ks : List Text) (x : Text) (v : Val), simpleList vs = true → v ∈ redactList urls vs →
    Shown v ks x → (∃ k ∈ ks, Secret k) → x = t! "[REDACTED]"
  | [], ks, x, v, _, hv, _, _ => by unfold redactList at hv; cases hv
  | u :: us, ks, x, v, hs, hv, h, hk => by
    unfold redactList at hv; unfold simpleList at hs
    rw [Bool.and_eq_true] at hs
    rcases List.mem_cons.1 hv with rfl | hv
    · exact hidden_value urls u ks x hs.1 h hk
    · exact hidden_list urls us ks x v hs.2 hv h hk
theorem hidden_map (urls : Text → Text) : ∀ (kvs : List (Text × Val)) (k : Text) (ks : List Text) (x : Text) (v : Val), simpleMap kvs = true →
    (k, v) ∈ redactMap urls kvs → Shown v ks x → (∃ k' ∈ k :: ks, Secret k') → x = t! "[REDACTED]"
  | [], k, ks, x, v, _, hv, _, _ => by unfold redactMap at hv; cases hv
  | (k0, u) :: us, k, ks, x, v, hs, hv, h, hk => by
    unfold redactMap at hv; unfold simpleMap at hs
    rw [Bool.and_eq_true] at hs
    rcases List.mem_cons.1 hv with e | hv
    · have e1 : k = k0 := congrArg Prod.fst e
      have e2 : v = if sensitive k0 then .text redacted else redactValue urls u := congrArg Prod.snd e
      rw [e2] at h
      rw [e1] at hk
      cases hc : sensitive k0 with
      | true =>
        rw [hc, if_pos rfl] at h
        cases h; rfl
      | false =>
        rw [hc, if_neg (by decide)] at h
        obtain ⟨k', hm, hk'⟩ := hk
        rcases List.mem_cons.1 hm with rfl | hm
        · rw [(sensitive_iff k').2 hk'] at hc; cases hc
        · exact hidden_value urls u ks x hs.1 h ⟨k', hm, hk'⟩
    · exact hidden_map urls us k ks x v hs.2 hv h hk
end

/-- **C144, what holds**: below a secret name nothing but `[REDACTED]` is shown, at any depth of lists and of
maps whose keys are texts. -/
theorem c144_hidden_partial (urls : Text → Text) (message : Text) (fields : List (Text × Val)) (hs : simpleMap fields = true) (ks : List Text)
    (x : Text) (h : Shown (.map (entry urls message fields).2) ks x) (hk : ∃ k ∈ ks, Secret k) : x = t! "[REDACTED]" := by
  cases h with
  | map hv h => exact hidden_map urls fields _ _ x _ hs hv h hk

mutual
theorem kept_value (urls : Text → Text) : ∀ (v : Val) (ks : List Text) (x : Text), Shown v ks x → (∀ k ∈ ks, ¬ Secret k) →
    ∃ y, Shown (redactValue urls v) ks y ∧ (y = x ∨ y = redactString urls x)
  | .none, ks, x, h, _ => by cases h
  | .plain t, ks, x, h, _ => by
    cases h; exact ⟨t, by unfold redactValue; exact .plain, .inl rfl⟩
  | .text t, ks, x, h, _ => by
    cases h; exact ⟨_, by unfold redactValue; exact .text, .inr rfl⟩
  | .list vs, ks, x, h, hk => by
    cases h with
    | list hv h =>
      obtain ⟨v', hv', y, hy, e⟩ := kept_list urls vs ks x _ hv h hk
      exact ⟨y, by unfold redactValue; exact .list hv' hy, e⟩
  | .map kvs, ks, x, h, hk => by
    cases h with
    | map hv h =>
      obtain ⟨v', hv', y, hy, e⟩ := kept_map urls kvs _ _ x _ hv h hk
      exact ⟨y, by unfold redactValue; exact .map hv' hy, e⟩
  | .struct kvs, ks, x, h, _ => ⟨x, by unfold redactValue; exact h, .inl rfl⟩
theorem kept_list (urls : Text → Text) : ∀ (vs : List Val) (ks : List Text) (x : Text) (v : Val), v ∈ vs → Shown v ks x → (∀ k ∈ ks, ¬ Secret k) →
    ∃ v' ∈ redactList urls vs, ∃ y, Shown v' ks y ∧ (y = x ∨ y = redactString urls x)
  | [], _, _, _, hv, _, _ => by cases hv
  | u :: us, ks, x, v, hv, h, hk => by
    unfold redactList
    rcases List.mem_cons.1 hv with e | hv
    · rw [e] at h
      exact ⟨_, List.mem_cons_self, kept_value urls u ks x h hk⟩
    · obtain ⟨v', hv', r⟩ := kept_list urls us ks x v hv h hk
      exact ⟨v', List.mem_cons_of_mem _ hv', r⟩
theorem kept_map (urls : Text → Text) : ∀ (kvs : List (Text × Val)) (k : Text) (ks : List Text) (x : Text) (v : Val), (k, v) ∈ kvs → Shown v ks x →
    (∀ k' ∈ k :: ks, ¬ Secret k') → ∃ v', (k, v') ∈ redactMap urls kvs ∧ ∃ y, Shown v' ks y ∧ (y = x ∨ y = redactString urls x)
  | [], _, _, _, _, hv, _, _ => by cases hv
  | (k0, u) :: us, k, ks, x, v, hv, h, hk => by
    unfold redactMap
    rcases List.mem_cons.1 hv with e | hv
    · have e1 : k = k0 := congrArg Prod.fst e
      have e2 : v = u := congrArg Prod.snd e
      rw [e2] at h
      rw [e1] at hk ⊢
      have hc : sensitive k0 = false := by
        rw [Bool.eq_false_iff]; exact fun hc => hk k0 List.mem_cons_self ((sensitive_iff k0).1 hc)
      rw [hc, if_neg (by decide)]
      exact ⟨_, List.mem_cons_self, kept_value urls u ks x h (fun k' hm => hk k' (List.mem_cons_of_mem _ hm))⟩
    · obtain ⟨v', hv', r⟩ := kept_map urls us k ks x v hv h hk
      exact ⟨v', List.mem_cons_of_mem _ hv', r⟩
end

/-- What stands below no secret name still reaches the operator, as it is or with its text cleaned. -/
theorem c144_kept (urls : Text → Text) (message : Text) (fields : List (Text × Val)) (ks : List Text) (x : Text) (h : Shown (.map fields) ks x)
    (hk : ∀ k ∈ ks, ¬ Secret k) : ∃ y, Shown (.map (entry urls message fields).2) ks y ∧ (y = x ∨ y = redactString urls x) := by
  cases h with
  | map hv h =>
    obtain ⟨v', hv', y, hy, e⟩ := kept_map urls fields _ _ x _ hv h hk
    exact ⟨y, .map hv' hy, e⟩

/-- **C144 fails for structs**: their fields are sent as they are, whatever they are called. -/
theorem c144_struct_fails (urls : Text → Text) (message : Text) (name : Text) (hn : ¬ Secret name) (kvs : List (Text × Val)) (ks : List Text) (x : Text)
    (h : Shown (.struct kvs) ks x) : Shown (.map (entry urls message [(name, .struct kvs)]).2) (name :: ks) x := by
  have hc : sensitive name = false := by rw [Bool.eq_false_iff]; exact fun hc => hn ((sensitive_iff name).1 hc)
  have e : (entry urls message [(name, .struct kvs)]).2 = [(name, .struct kvs)] := by
    simp [entry, redactMap, hc, redactValue]
  rw [e]
  exact .map List.mem_cons_self h

theorem c144_full_fails : ¬ C144Full := by
  intro h
  have hn : ¬ Secret (t! "account") := by rw [← sensitive_iff]; decide +kernel
  have := h id [] [(t! "account", .struct [(t! "Password", .text (t! "hunter2"))])] _ _
    (c144_struct_fails id [] (t! "account") hn _ [t! "Password"] (t! "hunter2") (.struct List.mem_cons_self .text))
    ⟨t! "Password", by simp, (sensitive_iff _).1 (by decide +kernel)⟩
  exact absurd this (by decide +kernel)

example : (entry id [] [(t! "request", .map [(t! " X-API-Key", .text (t! "k1")), (t! "tries", .plain (t! "3"))])]).2 =
    [(t! "request", .map [(t! " X-API-Key", .text (t! "[REDACTED]")), (t! "tries", .plain (t! "3"))])] ∧
    simpleMap [(t! "request", .map [(t! " X-API-Key", .text (t! "k1")), (t! "tries", .plain (t! "3"))])] = true := by
  have h1 : sensitive (t! "request") = false := by decide +kernel
  have h2 : sensitive (t! " X-API-Key") = true := by decide +kernel
  have h3 : sensitive (t! "tries") = false := by decide +kernel
  refine ⟨?_, by simp [simpleMap, simple]⟩
  simp only [entry, redactMap, redactValue]
  rw [h1, h2, h3]
  rfl

/-! ### C145: values of queries and bearer tokens stay inside -/

/-- `t` assigns a value in a query somewhere: a `?` or `&`, a name, `=`, a value. -/
def Assigns (t : Text) : Prop :=
  ∃ (a : Text) (c : Char) (k v b : Text), t = a ++ (c :: (k ++ ('=' :: (v ++ b)))) ∧ (c = '?' ∨ c = '&') ∧
    k ≠ [] ∧ (∀ d ∈ k, keyChar d = true) ∧ v ≠ [] ∧ ∀ d ∈ v, valueChar d = true

/-- The text is empty or begins with a character that ends a value. -/
def Ends (t : Text) : Prop := t = [] ∨ ∃ c s, t = c :: s ∧ valueChar c = false

theorem keyChar_value {c : Char} (h : keyChar c = true) : valueChar c = true := by
  unfold keyChar at h; unfold valueChar
  simp only [Bool.and_eq_true] at h ⊢
  exact ⟨h.1.2, h.2⟩

theorem key_or {c : Char} (h : keyChar c = false) : c = '=' ∨ valueChar c = false := by
  by_cases e : c = '='
  · exact .inl e
  · refine .inr ?_
    unfold keyChar at h; unfold valueChar
    simp only [e, ne_eq, not_false_eq_true, decide_true, Bool.true_and] at h
    exact h

theorem takeWhile_run {p : Char → Bool} {k y : Text} (hk : ∀ d ∈ k, p d = true) (hy : y = [] ∨ ∃ c s, y = c :: s ∧ p c = false) :
    (k ++ y).takeWhile p = k ∧ (k ++ y).dropWhile p = y := by
  induction k with
  | nil =>
    rcases hy with rfl | ⟨c, s, rfl, hc⟩
    · exact ⟨rfl, rfl⟩
    · simp [hc]
  | cons d k ih =>
    have h1 := hk d List.mem_cons_self
    have h2 := ih (fun e he => hk e (List.mem_cons_of_mem _ he))
    simp only [List.cons_append, List.takeWhile_cons, List.dropWhile_cons, h1, if_true]
    exact ⟨by rw [h2.1], h2.2⟩

theorem ends_key {y : Text} (h : Ends y) : y = [] ∨ ∃ c s, y = c :: s ∧ keyChar c = false := by
  rcases h with h | ⟨c, s, e, hc⟩
  · exact .inl h
  · refine .inr ⟨c, s, e, ?_⟩
    cases hk : keyChar c
    · rfl
    · rw [keyChar_value hk] at hc; cases hc

theorem match_ends {k y : Text} (hk : ∀ d ∈ k, keyChar d = true) (hy : Ends y) : matchQuery (k ++ y) = none := by
  obtain ⟨h1, h2⟩ := takeWhile_run hk (ends_key hy)
  unfold matchQuery
  simp only [h1, h2]
  rcases hy with rfl | ⟨c, s, rfl, hc⟩
  · rfl
  · split
    · rename_i r e
      injection e with e1 e2
      rw [e1] at hc; exact absurd hc (by decide)
    · rfl

theorem match_eq {k r : Text} (hk : ∀ d ∈ k, keyChar d = true) :
    matchQuery (k ++ ('=' :: r)) = if k ≠ [] ∧ r.takeWhile valueChar ≠ [] then some (k, r.dropWhile valueChar) else none := by
  obtain ⟨h1, h2⟩ := takeWhile_run (p := keyChar) (y := '=' :: r) hk (.inr ⟨'=', r, rfl, by decide⟩)
  unfold matchQuery
  simp only [h1, h2]

theorem match_assign {k v b : Text} (hk : ∀ d ∈ k, keyChar d = true) (hk0 : k ≠ []) (hv : ∀ d ∈ v, valueChar d = true) (hv0 : v ≠ []) :
    ∃ r, matchQuery (k ++ ('=' :: (v ++ b))) = some (k, r) := by
  rw [match_eq hk, if_pos]
  · exact ⟨_, rfl⟩
  · refine ⟨hk0, ?_⟩
    cases v with
    | nil => exact absurd rfl hv0
    | cons d v => simp [hv d List.mem_cons_self]

/-- Every text is a run of characters of a name and what follows. -/
theorem split_key (t : Text) : ∃ k y, t = k ++ y ∧ (∀ d ∈ k, keyChar d = true) ∧ (Ends y ∨ ∃ r, y = '=' :: r) := by
  refine ⟨t.takeWhile keyChar, t.dropWhile keyChar, List.takeWhile_append_dropWhile.symm, ?_, ?_⟩
  · intro d hd; exact List.all_eq_true.1 List.all_takeWhile d hd
  · cases e : t.dropWhile keyChar with
    | nil => exact .inl (.inl rfl)
    | cons c s =>
      have hc : keyChar c = false := by
        have := List.head?_dropWhile_not keyChar t
        rw [e] at this; simpa using this
      rcases key_or hc with rfl | h
      · exact .inr ⟨s, rfl⟩
      · exact .inl (.inr ⟨c, s, rfl, h⟩)

theorem split_value (t : Text) : ∃ v y, t = v ++ y ∧ (∀ d ∈ v, valueChar d = true) ∧ Ends y ∧ t.takeWhile valueChar = v ∧ t.dropWhile valueChar = y := by
  refine ⟨t.takeWhile valueChar, t.dropWhile valueChar, List.takeWhile_append_dropWhile.symm, ?_, ?_, rfl, rfl⟩
  · intro d hd; exact List.all_eq_true.1 List.all_takeWhile d hd
  · cases e : t.dropWhile valueChar with
    | nil => exact .inl rfl
    | cons c s =>
      refine .inr ⟨c, s, rfl, ?_⟩
      have := List.head?_dropWhile_not valueChar t
      rw [e] at this; simpa using this

/-- Whether a match begins right here. -/
def starts (t : Text) : Prop := ∃ c s x, t = c :: s ∧ (c = '?' ∨ c = '&') ∧ matchQuery s = some x

theorem assigns_cons {c : Char} {t : Text} (h : Assigns (c :: t)) : starts (c :: t) ∨ Assigns t := by
  obtain ⟨a, d, k, v, b, e, hd, h1, h2, h3, h4⟩ := h
  cases a with
  | nil =>
    simp only [List.nil_append] at e
    obtain ⟨r, hr⟩ := match_assign (b := b) h2 h1 h4 h3
    exact .inl ⟨d, _, _, e, hd, hr⟩
  | cons x a =>
    simp only [List.cons_append, List.cons.injEq] at e
    exact .inr ⟨a, d, k, v, b, e.2, hd, h1, h2, h3, h4⟩

theorem not_assigns_nil : ¬ Assigns [] := by
  rintro ⟨a, c, k, v, b, e, _⟩
  simp at e

/-- In front of something that ends a value, a run of characters of a name adds no assignment. -/
theorem assigns_run {y : Text} (hy : Ends y) : ∀ k : Text, (∀ d ∈ k, keyChar d = true) → Assigns (k ++ y) → Assigns y
  | [], _, h => h
  | d :: k, hk, h => by
    have hk' : ∀ e ∈ k, keyChar e = true := fun e he => hk e (List.mem_cons_of_mem _ he)
    rw [List.cons_append] at h
    rcases assigns_cons h with ⟨c, s, x, e, _, hx⟩ | h
    · injection e with e1 e2
      rw [← e2, match_ends hk' hy] at hx; cases hx
    · exact assigns_run hy k hk' h

theorem redacted_key : ∀ d ∈ redacted, keyChar d = true := by decide +kernel

/-- The first character stays what it is. -/
theorem query_head (n : Nat) (c : Char) (t : Text) : ∃ s, redactQueryN (n + 1) (c :: t) = c :: s := by
  unfold redactQueryN
  split
  · split
    · exact ⟨_, rfl⟩
    · exact ⟨_, rfl⟩
  · exact ⟨_, rfl⟩

theorem query_ends {n : Nat} {t : Text} (h : Ends t) (hn : t.length ≤ n) : Ends (redactQueryN n t) := by
  rcases h with rfl | ⟨c, s, rfl, hc⟩
  · cases n <;> exact .inl (by simp [redactQueryN])
  · cases n with
    | zero => simp at hn
    | succ n =>
      obtain ⟨s', e⟩ := query_head n c s
      exact .inr ⟨c, s', e, hc⟩

/-- Without an assignment in reach, a run of characters of a name is kept. -/
theorem query_run {y : Text} (hy : ∀ k : Text, (∀ d ∈ k, keyChar d = true) → matchQuery (k ++ y) = none) : ∀ (k : Text) (n : Nat), (∀ d ∈ k, keyChar d = true) →
    redactQueryN (k.length + n) (k ++ y) = k ++ redactQueryN n y
  | [], n, _ => by simp
  | d :: k, n, hk => by
    have hk' : ∀ e ∈ k, keyChar e = true := fun e he => hk e (List.mem_cons_of_mem _ he)
    rw [show (d :: k).length + n = (k.length + n) + 1 by simp; omega, List.cons_append]
    rw [redactQueryN, hy k hk', query_run hy k n hk']
    simp

theorem query_none {n : Nat} {t : Text} (hn : t.length ≤ n) (h : matchQuery t = none) : matchQuery (redactQueryN n t) = none := by
  obtain ⟨k, y, rfl, hk, hy⟩ := split_key t
  rw [List.length_append] at hn
  obtain ⟨m, rfl⟩ : ∃ m, n = k.length + m := ⟨n - k.length, by omega⟩
  rcases hy with hy | ⟨r, rfl⟩
  · rw [query_run (fun k hk => match_ends hk hy) k m hk]
    exact match_ends hk (query_ends hy (by omega))
  · rw [match_eq hk] at h
    obtain ⟨m', rfl⟩ : ∃ m', m = m' + 1 := ⟨m - 1, by simp at hn; omega⟩
    by_cases h0 : k = []
    · subst h0
      obtain ⟨s, e⟩ := query_head m' '=' r
      simp only [List.length_nil, Nat.zero_add, List.nil_append]
      rw [e]
      have := match_eq (k := []) (r := s) (by simp)
      simpa using this
    · have hr : r.takeWhile valueChar = [] := by
        by_cases hr : r.takeWhile valueChar = []
        · exact hr
        · rw [if_pos ⟨h0, hr⟩] at h; cases h
      have hy : ∀ k : Text, (∀ d ∈ k, keyChar d = true) → matchQuery (k ++ ('=' :: r)) = none := by
        intro k hk
        rw [match_eq hk, if_neg (by simp [hr])]
      have he : Ends r := by
        obtain ⟨v, z, e, _, hz, e1, _⟩ := split_value r
        rw [hr] at e1
        rw [e, ← e1]; exact hz
      rw [query_run hy k (m' + 1) hk]
      have hq : redactQueryN (m' + 1) ('=' :: r) = '=' :: redactQueryN m' r := by
        rw [redactQueryN, if_neg (by decide)]
      rw [hq, match_eq hk, if_neg]
      rintro ⟨_, hv⟩
      apply hv
      rcases query_ends he (n := m') (by simp at hn; omega) with e | ⟨c, s, e, hc⟩
      · rw [e]; rfl
      · rw [e]; simp [hc]

theorem query_clean : ∀ (n : Nat) (t : Text), t.length ≤ n → ¬ Assigns (redactQueryN n t)
  | 0, t, _ => by unfold redactQueryN; exact not_assigns_nil
  | n + 1, [], _ => by unfold redactQueryN; exact not_assigns_nil
  | n + 1, c :: t, hn => by
    have hn' : t.length ≤ n := by simpa using hn
    unfold redactQueryN
    by_cases hc : c = '?' ∨ c = '&'
    · rw [if_pos hc]
      cases hm : matchQuery t with
      | none =>
        intro h
        rcases assigns_cons h with ⟨d, s, x, e, _, hx⟩ | h
        · injection e with _ e2
          rw [← e2, query_none hn' hm] at hx; cases hx
        · exact query_clean n t hn' h
      | some x =>
        obtain ⟨k, rest⟩ := x
        obtain ⟨k', y, rfl, hk, hy⟩ := split_key t
        rcases hy with hy | ⟨r, rfl⟩
        · rw [match_ends hk hy] at hm; cases hm
        · rw [match_eq hk] at hm
          split at hm
          · simp only [Option.some.injEq, Prod.mk.injEq] at hm
            obtain ⟨rfl, rfl⟩ := hm
            obtain ⟨v, z, e, _, hz, _, e2⟩ := split_value r
            have hl : (r.dropWhile valueChar).length ≤ n := by
              have h1 : r.length = v.length + z.length := by rw [e, List.length_append]
              rw [e2]; simp at hn'; omega
            have he : Ends (redactQueryN n (r.dropWhile valueChar)) := query_ends (by rw [e2]; exact hz) hl
            have hrun : ∀ d ∈ k' ++ redacted, keyChar d = true := by
              intro d hd
              rcases List.mem_append.1 hd with h | h
              · exact hk d h
              · exact redacted_key d h
            intro h
            simp only [← List.append_assoc] at h
            rcases assigns_cons h with ⟨d, s, x, e, _, hx⟩ | h
            · injection e with _ e2
              rw [← e2, match_ends hrun he] at hx; cases hx
            · exact query_clean n _ hl (assigns_run he _ hrun h)
          · cases hm
    · rw [if_neg hc]
      intro h
      rcases assigns_cons h with ⟨d, s, x, e, hd, _⟩ | h
      · injection e with e1 _
        rw [← e1] at hd; exact hc hd
      · exact query_clean n t hn' h

/-- **C145, queries**: no text that is sent assigns a value in a query, wherever in the text and however
often it did before. -/
theorem c145_query_partial (urls : Text → Text) (t : Text) : ¬ Assigns (clean urls t) := query_clean _ _ (Nat.le_refl _)

/-- What is sent is the cleaned text, or its beginning and a mark. -/
theorem c145_sent_partial (urls : Text → Text) (t : Text) :
    (clean urls t).length ≤ 512 ∧ redactString urls t = clean urls t ∨
    512 < (clean urls t).length ∧ ∃ p q, clean urls t = p ++ q ∧ p.length = 512 ∧ redactString urls t = p ++ t! "...[truncated]" := by
  unfold redactString
  by_cases h : (clean urls t).length ≤ 512
  · exact .inl ⟨h, by simp [h]⟩
  · refine .inr ⟨by omega, (clean urls t).take 512, (clean urls t).drop 512, (List.take_append_drop _ _).symm, by rw [List.length_take]; omega, by simp [h]⟩

/-- More steps than characters change nothing. -/
theorem query_steps : ∀ (n m : Nat) (t : Text), t.length ≤ n → t.length ≤ m → redactQueryN n t = redactQueryN m t
  | n, m, [], _, _ => by cases n <;> cases m <;> simp [redactQueryN]
  | 0, _, c :: t, h, _ => by simp at h
  | _ + 1, 0, c :: t, _, h => by simp at h
  | n + 1, m + 1, c :: t, hn, hm => by
    have hn' : t.length ≤ n := by simpa using hn
    have hm' : t.length ≤ m := by simpa using hm
    simp only [redactQueryN]
    rw [query_steps n m t hn' hm']
    split
    · cases h : matchQuery t with
      | none => rfl
      | some x =>
        obtain ⟨k, rest⟩ := x
        have hl : rest.length ≤ t.length := by
          obtain ⟨k', y, rfl, hk, hy⟩ := split_key t
          rcases hy with hy | ⟨r, rfl⟩
          · rw [match_ends hk hy] at h; cases h
          · rw [match_eq hk] at h
            split at h
            · simp only [Option.some.injEq, Prod.mk.injEq] at h
              obtain ⟨v, z, e, _, _, _, e2⟩ := split_value r
              have h1 : r.length = v.length + z.length := by rw [e, List.length_append]
              rw [← h.2, e2]; simp; omega
            · cases h
        simp only
        rw [query_steps n m rest (by omega) (by omega)]
    · rfl

/-- The text with a value assigned in a query at the end, and what follows. -/
def assign (c : Char) (k v b : Text) : Text := c :: (k ++ ('=' :: (v ++ b)))

theorem value_run {v b : Text} (hv : ∀ d ∈ v, valueChar d = true) (hb : Ends b) :
    (v ++ b).takeWhile valueChar = v ∧ (v ++ b).dropWhile valueChar = b := takeWhile_run hv hb

/-- Whether and where a match ends does not depend on the value. -/
theorem match_same {c : Char} {k b : Text} (hc : c = '?' ∨ c = '&') (hk : ∀ d ∈ k, keyChar d = true) (hb : Ends b) (a : Text) :
    (∀ v, (∀ d ∈ v, valueChar d = true) → v ≠ [] → matchQuery (a ++ assign c k v b) = none) ∨
    (∃ κ, ∀ v, (∀ d ∈ v, valueChar d = true) → v ≠ [] → matchQuery (a ++ assign c k v b) = some (κ, b)) ∨
    (∃ κ z, z.length ≤ a.length ∧ ∀ v, (∀ d ∈ v, valueChar d = true) → v ≠ [] → matchQuery (a ++ assign c k v b) = some (κ, z ++ assign c k v b)) := by
  obtain ⟨k1, y, rfl, h1, hy⟩ := split_key a
  have hq : keyChar '?' = true := by decide
  rcases hy with (rfl | ⟨e, s, rfl, he⟩) | ⟨r, rfl⟩
  · -- the name reaches up to the assignment
    rcases hc with rfl | rfl
    · refine .inr (.inl ⟨k1 ++ ('?' :: k), ?_⟩)
      intro v hv hv0
      have hrun : ∀ d ∈ k1 ++ ('?' :: k), keyChar d = true := by
        intro d hd
        rcases List.mem_append.1 hd with h | h
        · exact h1 d h
        · rcases List.mem_cons.1 h with rfl | h
          · exact hq
          · exact hk d h
      rw [show k1 ++ [] ++ assign '?' k v b = (k1 ++ ('?' :: k)) ++ ('=' :: (v ++ b)) by simp [assign], match_eq hrun]
      rw [(value_run hv hb).1, (value_run hv hb).2, if_pos ⟨by simp, hv0⟩]
    · refine .inl ?_
      intro v _ _
      rw [List.append_nil]
      exact match_ends h1 (.inr ⟨'&', _, rfl, by decide⟩)
  · refine .inl ?_
    intro v _ _
    rw [List.append_assoc]
    exact match_ends h1 (.inr ⟨e, s ++ assign c k v b, rfl, he⟩)
  · by_cases hk1 : k1 = []
    · refine .inl ?_
      intro v _ _
      rw [List.append_assoc, List.cons_append, match_eq h1, if_neg (by simp [hk1])]
    · obtain ⟨v1, z, rfl, hv1, hz, _, _⟩ := split_value r
      rcases hz with rfl | ⟨e, s, rfl, he⟩
      · rcases hc with rfl | rfl
        · refine .inr (.inl ⟨k1, ?_⟩)
          intro v hv hv0
          have hrun : ∀ d ∈ v1 ++ ('?' :: (k ++ ('=' :: v))), valueChar d = true := by
            intro d hd
            rcases List.mem_append.1 hd with h | h
            · exact hv1 d h
            · rcases List.mem_cons.1 h with rfl | h
              · decide
              · rcases List.mem_append.1 h with h | h
                · exact keyChar_value (hk d h)
                · rcases List.mem_cons.1 h with rfl | h
                  · decide
                  · exact hv d h
          rw [show k1 ++ ('=' :: (v1 ++ [])) ++ assign '?' k v b = k1 ++ ('=' :: ((v1 ++ ('?' :: (k ++ ('=' :: v)))) ++ b)) by simp [assign], match_eq h1]
          rw [(value_run hrun hb).1, (value_run hrun hb).2, if_pos ⟨hk1, by simp⟩]
        · by_cases hv10 : v1 = []
          · refine .inl ?_
            intro v _ _
            rw [List.append_assoc, List.cons_append, match_eq h1, if_neg]
            rw [hv10]
            simp [assign, show valueChar '&' = false by decide]
          · refine .inr (.inr ⟨k1, [], by simp, ?_⟩)
            intro v _ _
            have h := value_run (b := assign '&' k v b) hv1 (.inr ⟨'&', _, rfl, by decide⟩)
            rw [show k1 ++ ('=' :: (v1 ++ [])) ++ assign '&' k v b = k1 ++ ('=' :: (v1 ++ assign '&' k v b)) by simp, match_eq h1]
            rw [h.1, h.2, if_pos ⟨hk1, hv10⟩]; rfl
      · by_cases hv10 : v1 = []
        · refine .inl ?_
          intro v _ _
          rw [List.append_assoc, List.cons_append, match_eq h1, if_neg]
          rw [hv10]
          simp [he]
        · refine .inr (.inr ⟨k1, e :: s, by simp; omega, ?_⟩)
          intro v _ _
          have h := value_run (b := (e :: s) ++ assign c k v b) hv1 (.inr ⟨e, s ++ assign c k v b, rfl, he⟩)
          rw [show k1 ++ ('=' :: (v1 ++ (e :: s))) ++ assign c k v b = k1 ++ ('=' :: (v1 ++ ((e :: s) ++ assign c k v b))) by simp, match_eq h1]
          rw [h.1, h.2, if_pos ⟨hk1, hv10⟩]

theorem query_same {c : Char} {k b v v' : Text} (hc : c = '?' ∨ c = '&') (hk : ∀ d ∈ k, keyChar d = true) (hk0 : k ≠ []) (hb : Ends b)
    (hv : ∀ d ∈ v, valueChar d = true) (hv0 : v ≠ []) (hv' : ∀ d ∈ v', valueChar d = true) (hv0' : v' ≠ []) :
    ∀ (l : Nat) (a : Text) (n m : Nat), a.length ≤ l → (a ++ assign c k v b).length ≤ n → (a ++ assign c k v' b).length ≤ m →
      redactQueryN n (a ++ assign c k v b) = redactQueryN m (a ++ assign c k v' b) := by
  have hlen : ∀ v : Text, (assign c k v b).length = k.length + v.length + b.length + 2 := by intro v; simp [assign]; omega
  intro l
  induction l with
  | zero =>
    intro a n m ha hn hm
    obtain rfl : a = [] := List.eq_nil_of_length_eq_zero (by omega)
    rw [List.nil_append, hlen] at hn hm
    obtain ⟨n, rfl⟩ : ∃ i, n = i + 1 := ⟨n - 1, by omega⟩
    obtain ⟨m, rfl⟩ : ∃ i, m = i + 1 := ⟨m - 1, by omega⟩
    simp only [List.nil_append, assign, redactQueryN]
    rw [if_pos hc, if_pos hc, match_eq hk, match_eq hk, (value_run hv hb).1, (value_run hv hb).2, (value_run hv' hb).1, (value_run hv' hb).2]
    rw [if_pos ⟨hk0, hv0⟩, if_pos ⟨hk0, hv0'⟩]
    simp only
    rw [query_steps n m b (by omega) (by omega)]
  | succ l ih =>
    intro a n m ha hn hm
    cases a with
    | nil => exact ih [] n m (by simp) hn hm
    | cons d a =>
      simp only [List.length_append, List.length_cons, hlen] at ha hn hm
      obtain ⟨n, rfl⟩ : ∃ i, n = i + 1 := ⟨n - 1, by omega⟩
      obtain ⟨m, rfl⟩ : ∃ i, m = i + 1 := ⟨m - 1, by omega⟩
      have hrec := ih a n m (by omega) (by rw [List.length_append, hlen]; omega) (by rw [List.length_append, hlen]; omega)
      simp only [List.cons_append, redactQueryN]
      by_cases hd : d = '?' ∨ d = '&'
      · rw [if_pos hd, if_pos hd]
        rcases match_same hc hk hb a with h | ⟨κ, h⟩ | ⟨κ, z, hz, h⟩
        · rw [h v hv hv0, h v' hv' hv0']
          simp only
          rw [hrec]
        · rw [h v hv hv0, h v' hv' hv0']
          simp only
          rw [query_steps n m b (by omega) (by omega)]
        · rw [h v hv hv0, h v' hv' hv0']
          simp only
          rw [ih z n m (by omega) (by rw [List.length_append, hlen]; omega) (by rw [List.length_append, hlen]; omega)]
      · rw [if_neg hd, if_neg hd, hrec]

/-- **C145, queries**: the result does not depend on the value of a parameter, whatever stands before and after. -/
theorem c145_query_hidden_partial (a : Text) {c : Char} (hc : c = '?' ∨ c = '&') {k v v' b : Text} (hk0 : k ≠ []) (hk : ∀ d ∈ k, keyChar d = true)
    (hv0 : v ≠ []) (hv : ∀ d ∈ v, valueChar d = true) (hv0' : v' ≠ []) (hv' : ∀ d ∈ v', valueChar d = true) (hb : Ends b) :
    redactQuery (a ++ (c :: (k ++ ('=' :: (v ++ b))))) = redactQuery (a ++ (c :: (k ++ ('=' :: (v' ++ b))))) :=
  query_same hc hk hk0 hb hv hv0 hv' hv0' a.length a _ _ (Nat.le_refl _) (Nat.le_refl _) (Nat.le_refl _)

example : redactQuery (t! "GET /x?key=abc&page=2 failed") = t! "GET /x?key[REDACTED]&page[REDACTED] failed" := by decide +kernel

/-- The text is empty or ends with a character that is not part of a word. -/
def Apart (a : Text) : Prop := a = [] ∨ ∃ s c, a = s ++ [c] ∧ wordChar c = false

/-- The text is empty or begins with a character that ends a token. -/
def TokenEnds (t : Text) : Prop := t = [] ∨ ∃ c s, t = c :: s ∧ tokenChar c = false

/-- A mention of a token: the word, space and the token. -/
structure Mention (w s tok : Text) : Prop where
  word : lower w = t! "bearer"
  space : s ≠ [] ∧ ∀ d ∈ s, ws d = true
  token : tok ≠ [] ∧ ∀ d ∈ tok, tokenChar d = true

/-- **C145 in full**: what is sent does not depend on a token after the word Bearer, nor on the password in the
address of a database or queue, and it assigns no value in a query. Addresses without `http` are none that
`absoluteURLPattern` finds. -/
def C145Full : Prop :=
  ∀ urls : Text → Text, (∀ t, has (t! "http") t = false → urls t = t) →
    (∀ a w s tok tok' b, Apart a → Mention w s tok → Mention w s tok' → TokenEnds b →
      redactString urls (a ++ (w ++ (s ++ (tok ++ b)))) = redactString urls (a ++ (w ++ (s ++ (tok' ++ b))))) ∧
    (∀ a scheme user pw pw' b, (∀ d ∈ pw, d.isAlphanum = true) → (∀ d ∈ pw', d.isAlphanum = true) → 
      redactString urls (a ++ (scheme ++ (t! "://" ++ (user ++ (':' :: (pw ++ ('@' :: b))))))) =
      redactString urls (a ++ (scheme ++ (t! "://" ++ (user ++ (':' :: (pw' ++ ('@' :: b)))))))) ∧
    ∀ t, ¬ Assigns (clean urls t)

theorem token_space {d : Char} (h : tokenChar d = true) : ws d = false := by
  cases hw : ws d
  · rfl
  · unfold ws at hw
    simp only [Bool.or_eq_true, beq_iff_eq] at hw
    rcases hw with (((hw | hw) | hw) | hw) | hw <;> subst hw <;> exact absurd h (by decide)

theorem mention_length {w s tok : Text} (h : Mention w s tok) : w.length = 6 := by
  have := congrArg List.length h.word
  simpa [lower] using this

theorem match_mention {w s tok b : Text} (h : Mention w s tok) (hb : TokenEnds b) : matchBearer (w ++ (s ++ (tok ++ b))) = some b := by
  have hw := mention_length h
  have e1 : (w ++ (s ++ (tok ++ b))).take 6 = w := by rw [← hw]; simp
  have e2 : (w ++ (s ++ (tok ++ b))).drop 6 = s ++ (tok ++ b) := by rw [← hw]; simp
  have hs : tok ++ b = [] ∨ ∃ c r, tok ++ b = c :: r ∧ ws c = false := by
    cases ht : tok with
    | nil => exact absurd ht h.token.1
    | cons c r => exact .inr ⟨c, r ++ b, rfl, token_space (h.token.2 c (by rw [ht]; exact List.mem_cons_self))⟩
  have t1 := takeWhile_run h.space.2 hs
  have t2 := takeWhile_run h.token.2 hb
  unfold matchBearer
  rw [e1, e2, if_pos h.word]
  simp only
  rw [t1.1, t1.2, t2.1, t2.2, if_pos ⟨h.space.1, h.token.1⟩]

theorem bearer_steps : ∀ (n m : Nat) (p : Bool) (t : Text), t.length ≤ n → t.length ≤ m → redactBearerN n p t = redactBearerN m p t
  | n, m, p, [], _, _ => by cases n <;> cases m <;> simp [redactBearerN]
  | 0, _, _, c :: t, h, _ => by simp at h
  | _ + 1, 0, _, c :: t, _, h => by simp at h
  | n + 1, m + 1, p, c :: t, hn, hm => by
    have hn' : t.length ≤ n := by simpa using hn
    have hm' : t.length ≤ m := by simpa using hm
    simp only [redactBearerN]
    rw [bearer_steps n m (wordChar c) t hn' hm']
    split
    · cases h : matchBearer (c :: t) with
      | none => rfl
      | some rest =>
        have hl : rest.length ≤ t.length := by
          unfold matchBearer at h
          split at h
          · simp only at h
            split at h
            · have e : rest = _ := (Option.some.inj h).symm
              rw [e]
              have h1 := (List.dropWhile_sublist (l := (List.dropWhile ws ((c :: t).drop 6))) tokenChar).length_le
              have h2 := (List.dropWhile_sublist (l := ((c :: t).drop 6)) ws).length_le
              have h3 : ((c :: t).drop 6).length ≤ t.length := by simp
              omega
            · cases h
          · cases h
        simp only
        rw [bearer_steps n m false rest (by omega) (by omega)]
    · rfl

theorem lower_word {c : Char} (h : wordChar c = false) : c.toLower ∉ (t! "bearer") := by
  intro hm
  have hu : c.isUpper = false := by
    cases hu : c.isUpper
    · rfl
    · simp [wordChar, Char.isAlphanum, Char.isAlpha, hu] at h
  have e : c.toLower = c := by
    unfold Char.toLower
    unfold Char.isUpper at hu
    split
    · rename_i hh
      simp at hu
      exact absurd hh.2 (by have := hu hh.1; exact UInt32.not_le.2 this)
    · rfl
  rw [e] at hm
  simp only [List.mem_cons, List.not_mem_nil, or_false] at hm
  rcases hm with rfl | rfl | rfl | rfl | rfl | rfl <;> exact absurd h (by decide)

theorem bearer_none {a x : Text} {d : Char} (ha : ¬ (t! "bearer") <:+: lower (d :: a)) (hap : Apart (d :: a)) : matchBearer ((d :: a) ++ x) = none := by
  unfold matchBearer
  rw [if_neg]
  intro e
  by_cases hl : 6 ≤ (d :: a).length
  · rw [List.take_append_of_le_length hl] at e
    apply ha
    refine ⟨[], lower ((d :: a).drop 6), ?_⟩
    rw [← e, List.nil_append]
    unfold lower
    rw [← List.map_append, List.take_append_drop]
  · rcases hap with h | ⟨s, c, h, hc⟩
    · cases h
    · apply lower_word hc
      rw [← e]
      unfold lower
      refine List.mem_map.2 ⟨c, ?_, rfl⟩
      rw [List.take_append]
      refine List.mem_append_left _ ?_
      rw [List.take_of_length_le (by omega), h]
      simp

theorem apart_tail {d : Char} {a : Text} (h : Apart (d :: a)) : Apart a ∧ (a = [] → wordChar d = false) := by
  rcases h with h | ⟨s, c, h, hc⟩
  · cases h
  · cases s with
    | nil =>
      simp only [List.nil_append, List.cons.injEq] at h
      exact ⟨.inl h.2, fun _ => by rw [h.1]; exact hc⟩
    | cons y s =>
      simp only [List.cons_append, List.cons.injEq] at h
      exact ⟨.inr ⟨s, c, h.2, hc⟩, fun e => by rw [e] at h; exact absurd h.2 (by simp)⟩

theorem bearer_before {w s tok b : Text} (hm : Mention w s tok) (hb : TokenEnds b) : ∀ (a : Text) (p : Bool) (n : Nat),
    ¬ (t! "bearer") <:+: lower a → Apart a → (a = [] → p = false) → (a ++ (w ++ (s ++ (tok ++ b)))).length ≤ n →
    redactBearerN n p (a ++ (w ++ (s ++ (tok ++ b)))) = a ++ (t! "Bearer [REDACTED]" ++ redactBearer b)
  | [], p, n, _, _, hp, hn => by
    have hw := mention_length hm
    rw [hp rfl, List.nil_append]
    cases hw' : w with
    | nil => rw [hw'] at hw; cases hw
    | cons c w' =>
      rw [hw'] at hn
      have hx := match_mention hm hb
      rw [hw'] at hx
      simp only [List.nil_append, List.length_append, List.length_cons] at hn
      obtain ⟨n, rfl⟩ : ∃ i, n = i + 1 := ⟨n - 1, by omega⟩
      rw [List.cons_append] at hx ⊢
      rw [redactBearerN, if_pos rfl, hx]
      simp only [List.nil_append]
      rw [redactBearer, bearer_steps n b.length false b (by omega) (Nat.le_refl _)]
  | d :: a, p, n, ha, hap, hp, hn => by
    obtain ⟨h1, h2⟩ := apart_tail hap
    have ha' : ¬ (t! "bearer") <:+: lower a := by
      rintro ⟨x, y, e⟩
      exact ha ⟨d.toLower :: x, y, by simp only [List.cons_append, e]; rfl⟩
    have hx := bearer_none (x := w ++ (s ++ (tok ++ b))) ha hap
    simp only [List.cons_append, List.length_cons] at hn hx ⊢
    obtain ⟨n, rfl⟩ : ∃ i, n = i + 1 := ⟨n - 1, by omega⟩
    have hrec := bearer_before hm hb a (wordChar d) n ha' h1 h2 (by omega)
    rw [redactBearerN, hx, hrec]
    simp

/-- **C145, tokens**: the token after the first mention of the word Bearer is replaced, and what is sent does
not depend on it. -/
theorem c145_bearer_partial (urls : Text → Text) {a w s tok tok' b : Text} (ha : ¬ (t! "bearer") <:+: lower a) (hap : Apart a) (hm : Mention w s tok)
    (hm' : Mention w s tok') (hb : TokenEnds b) :
    redactBearer (a ++ (w ++ (s ++ (tok ++ b)))) = a ++ (t! "Bearer [REDACTED]" ++ redactBearer b) ∧
    redactString urls (a ++ (w ++ (s ++ (tok ++ b)))) = redactString urls (a ++ (w ++ (s ++ (tok' ++ b)))) := by
  have h1 := bearer_before hm hb a false _ ha hap (fun _ => rfl) (Nat.le_refl _)
  have h2 := bearer_before hm' hb a false _ ha hap (fun _ => rfl) (Nat.le_refl _)
  refine ⟨h1, ?_⟩
  unfold redactString clean
  rw [show redactBearer (a ++ (w ++ (s ++ (tok ++ b)))) = _ from h1, show redactBearer (a ++ (w ++ (s ++ (tok' ++ b)))) = _ from h2]

example : redactBearer (t! "got Authorization: bearer  abc.d-e, retry") = t! "got Authorization: Bearer [REDACTED], retry" := by decide +kernel

/-- **C145 fails for a doubled word**: the second Bearer is taken for the token, and the token is sent. -/
theorem c145_doubled_fails (urls : Text → Text) (hu : ∀ t, has (t! "http") t = false → urls t = t) :
    redactString urls (t! "header Bearer Bearer abc") = t! "header Bearer [REDACTED] abc" := by
  have h1 : redactBearer (t! "header Bearer Bearer abc") = t! "header Bearer [REDACTED] abc" := by decide +kernel
  have h2 : redactQuery (t! "header Bearer [REDACTED] abc") = t! "header Bearer [REDACTED] abc" := by decide +kernel
  unfold redactString clean
  rw [h1, hu _ (by decide +kernel), h2]
  decide +kernel

/-- **C145 fails for other addresses**: the password in the address of the database is sent. -/
theorem c145_address_fails (urls : Text → Text) (hu : ∀ t, has (t! "http") t = false → urls t = t) :
    redactString urls (t! "cannot reach postgres://blnk:s3cret@db/blnk") = t! "cannot reach postgres://blnk:s3cret@db/blnk" := by
  have h1 : redactBearer (t! "cannot reach postgres://blnk:s3cret@db/blnk") = t! "cannot reach postgres://blnk:s3cret@db/blnk" := by decide +kernel
  have h2 : redactQuery (t! "cannot reach postgres://blnk:s3cret@db/blnk") = t! "cannot reach postgres://blnk:s3cret@db/blnk" := by decide +kernel
  unfold redactString clean
  rw [h1, hu _ (by decide +kernel), h2]
  decide +kernel

theorem c145_full_fails : ¬ C145Full := by
  intro h
  have h := (h id (fun _ _ => rfl)).1 (t! "header Bearer ") (t! "Bearer") (t! " ") (t! "abc") (t! "xyz") []
    (.inr ⟨t! "header Bearer", ' ', rfl, by decide⟩) ⟨by decide +kernel, by decide +kernel, by decide +kernel⟩
    ⟨by decide +kernel, by decide +kernel, by decide +kernel⟩ (.inl rfl)
  exact absurd h (by decide +kernel)

/-! ### C146: logging never brings the service down -/

/-- **C146 in full**: no thread that logs panics, whatever else happens. -/
def C146Full : Prop := ∀ (n : Nat) (h : Hook), Steps (begin n) h → Logger.panicked ∉ h.loggers

/-- **C146 fails**: a thread that found the hook open and puts its entry into the queue after `Shutdown` closed
it panics. -/
theorem c146_full_fails : ¬ C146Full := by
  intro h
  have s1 : Step (begin 1) { begin 1 with loggers := [.ready] } := Step.look (i := 0) rfl rfl
  have s2 := Step.swap (h := { begin 1 with loggers := [.ready] }) rfl rfl
  have s3 := Step.close (h := { begin 1 with loggers := [.ready], closed := true, stopper := .swapped }) rfl
  have s4 := Step.panic (h := { begin 1 with loggers := [.ready], closed := true, shut := true, stopper := .closedQueue }) (i := 0) rfl rfl
  exact h 1 _ ((((Steps.refl.step s1).step s2).step s3).step s4) (by decide)

/-- Runs in which `Shutdown` begins only while no thread is between looking and putting. -/
inductive QuietSteps : Hook → Hook → Prop
  | refl {h} : QuietSteps h h
  | step {a b c} (hs : QuietSteps a b) (h : Step b c) (hq : b.closed = false → c.closed = true → Logger.ready ∉ b.loggers) : QuietSteps a c

theorem mem_set_ne {l : List Logger} {i : Nat} {x y : Logger} (h : y ∈ l.set i x) : y = x ∨ y ∈ l :=
  (List.mem_or_eq_of_mem_set h).symm

/-- Once closed, no thread is about to put; the queue is closed only after. -/
def Calm (h : Hook) : Prop := (h.closed = true → Logger.ready ∉ h.loggers) ∧ (h.shut = true → h.closed = true) ∧
  (h.stopper ≠ .idle → h.closed = true) ∧ Logger.panicked ∉ h.loggers

theorem calm_step {a b : Hook} (hc : Calm a) (h : Step a b) (hq : a.closed = false → b.closed = true → Logger.ready ∉ a.loggers) : Calm b := by
  obtain ⟨c1, c2, c3, c4⟩ := hc
  have keep : ∀ (i : Nat) (x y : Logger), y ≠ x → y ∉ a.loggers → y ∉ a.loggers.set i x := by
    intro i x y hne hy hm
    rcases mem_set_ne hm with h | h
    · exact hne h
    · exact hy h
  cases h with
  | skip hi hcl => exact ⟨fun h => keep _ _ _ (by decide) (c1 h), c2, c3, keep _ _ _ (by decide) c4⟩
  | look hi hcl => exact ⟨fun h => (by rw [show a.closed = true from h] at hcl; cases hcl), c2, c3, keep _ _ _ (by decide) c4⟩
  | put hi hs hl => exact ⟨fun h => keep _ _ _ (by decide) (c1 h), c2, c3, keep _ _ _ (by decide) c4⟩
  | drop hi hs hl => exact ⟨fun h => keep _ _ _ (by decide) (c1 h), c2, c3, keep _ _ _ (by decide) c4⟩
  | panic hi hs => exact absurd (List.mem_of_getElem? hi) (c1 (c2 hs))
  | swap hs hcl => exact ⟨fun _ => hq hcl rfl, fun _ => rfl, fun _ => rfl, c4⟩
  | close hs => exact ⟨c1, fun _ => c3 (by rw [hs]; decide), fun _ => c3 (by rw [hs]; decide), c4⟩
  | send hl => exact ⟨c1, c2, c3, c4⟩

/-- **C146, what holds**: if no thread is logging at the moment `Shutdown` begins, none panics, then or later. -/
theorem c146_quiet_partial (n : Nat) {h : Hook} (hs : QuietSteps (begin n) h) : Logger.panicked ∉ h.loggers := by
  suffices Calm h from this.2.2.2
  generalize hb : begin n = s at hs
  induction hs with
  | refl =>
    subst hb
    refine ⟨?_, ?_, ?_, ?_⟩ <;> simp [begin]
  | step hs h hq ih => exact calm_step ih h hq

/-- Before `Shutdown` nothing panics at all. -/
theorem c146_open_partial (n : Nat) {h : Hook} (hs : Steps (begin n) h) (ho : h.closed = false) : Logger.panicked ∉ h.loggers := by
  suffices (h.closed = false → h.stopper = .idle ∧ h.shut = false ∧ Logger.panicked ∉ h.loggers) ∧ (h.stopper ≠ .idle → h.closed = true) from (this.1 ho).2.2
  clear ho
  generalize hb : begin n = s at hs
  induction hs with
  | refl => subst hb; simp [begin]
  | @step b c hs h ih =>
    obtain ⟨i1, i2⟩ := ih
    have keep : ∀ (i : Nat) (x : Logger), Logger.panicked ≠ x → Logger.panicked ∉ b.loggers → Logger.panicked ∉ b.loggers.set i x := by
      intro i x hne hy hm
      rcases mem_set_ne hm with h | h
      · exact hne h
      · exact hy h
    cases h with
    | skip hi hcl => exact ⟨fun h => ⟨(i1 h).1, (i1 h).2.1, keep _ _ (by decide) (i1 h).2.2⟩, i2⟩
    | look hi hcl => exact ⟨fun h => ⟨(i1 h).1, (i1 h).2.1, keep _ _ (by decide) (i1 h).2.2⟩, i2⟩
    | put hi hs hl => exact ⟨fun h => ⟨(i1 h).1, (i1 h).2.1, keep _ _ (by decide) (i1 h).2.2⟩, i2⟩
    | drop hi hs hl => exact ⟨fun h => ⟨(i1 h).1, (i1 h).2.1, keep _ _ (by decide) (i1 h).2.2⟩, i2⟩
    | panic hi hs => exact ⟨fun h => (by rw [(i1 h).2.1] at hs; cases hs), i2⟩
    | swap hs hcl => exact ⟨fun h => (by cases h), fun _ => rfl⟩
    | close hs => exact ⟨fun h => (by have := i2 (by rw [hs]; decide); rw [show b.closed = false from h] at this; cases this), fun _ => i2 (by rw [hs]; decide)⟩
    | send hl => exact ⟨i1, i2⟩

/-- Where the entries of the threads are: every thread that looked and finished has its entry in exactly one
place, once. -/
theorem c146_entries (n : Nat) {h : Hook} (hs : Steps (begin n) h) :
    (h.sent ++ h.queue ++ h.dropped).Nodup ∧ h.queue.length ≤ queueSize ∧
    ∀ i ∈ h.sent ++ h.queue ++ h.dropped, h.loggers[i]? = some .done := by
  generalize hb : begin n = s at hs
  induction hs with
  | refl => subst hb; simp [begin]
  | @step b c hs h ih =>
    obtain ⟨i1, i2, i3⟩ := ih
    have other : ∀ (i j : Nat) (x y : Logger), b.loggers[i]? = some y → y ≠ .done → j ∈ b.sent ++ b.queue ++ b.dropped →
        (b.loggers.set i x)[j]? = some .done := by
      intro i j x y hi hy hj
      have : i ≠ j := by
        rintro rfl
        rw [i3 i hj] at hi
        exact hy (Option.some.inj hi).symm
      rw [List.getElem?_set_ne this]; exact i3 j hj
    have fresh : ∀ i : Nat, b.loggers[i]? = some .ready → i ∉ b.sent ++ b.queue ++ b.dropped := by
      intro i hi hm
      rw [i3 i hm] at hi; cases hi
    have self : ∀ i : Nat, b.loggers[i]? = some .ready → (b.loggers.set i .done)[i]? = some .done := by
      intro i hi
      have hlt : i < b.loggers.length := (List.getElem?_eq_some_iff.1 hi).1
      rw [List.getElem?_set_self hlt]
    cases h with
    | skip hi hcl => exact ⟨i1, i2, fun j hj => other _ j _ _ hi (by decide) hj⟩
    | look hi hcl => exact ⟨i1, i2, fun j hj => other _ j _ _ hi (by decide) hj⟩
    | panic hi hs => exact ⟨i1, i2, fun j hj => other _ j _ _ hi (by decide) hj⟩
    | @put i hi hs hl =>
      have hp : (b.sent ++ (b.queue ++ [i]) ++ b.dropped).Perm (i :: (b.sent ++ b.queue ++ b.dropped)) := by
        have := List.perm_middle (a := i) (l₁ := b.sent ++ b.queue) (l₂ := b.dropped)
        simpa using this
      refine ⟨hp.nodup_iff.2 (List.nodup_cons.2 ⟨fresh i hi, i1⟩), by simp; omega, ?_⟩
      intro j hj
      rcases List.mem_cons.1 (hp.mem_iff.1 hj) with rfl | hj
      · exact self j hi
      · exact other _ j _ _ hi (by decide) hj
    | @drop i hi hs hl =>
      have hp : (b.sent ++ b.queue ++ (b.dropped ++ [i])).Perm (i :: (b.sent ++ b.queue ++ b.dropped)) := by
        have := List.perm_append_comm (l₁ := b.sent ++ b.queue ++ b.dropped) (l₂ := [i])
        simpa using this
      refine ⟨hp.nodup_iff.2 (List.nodup_cons.2 ⟨fresh i hi, i1⟩), i2, ?_⟩
      intro j hj
      rcases List.mem_cons.1 (hp.mem_iff.1 hj) with rfl | hj
      · exact self j hi
      · exact other _ j _ _ hi (by decide) hj
    | swap hs hcl => exact ⟨i1, i2, i3⟩
    | close hs => exact ⟨i1, i2, i3⟩
    | @send x q hl =>
      rw [hl] at i1 i2 i3
      have e : b.sent ++ [x] ++ q ++ b.dropped = b.sent ++ (x :: q) ++ b.dropped := by simp
      refine ⟨?_, by simp at i2 ⊢; omega, ?_⟩
      · show (b.sent ++ [x] ++ q ++ b.dropped).Nodup
        rw [e]; exact i1
      · show ∀ i ∈ b.sent ++ [x] ++ q ++ b.dropped, _
        rw [e]; exact i3

/-- What is queued can always be sent, in order, also after `Shutdown`. -/
theorem c146_drains (h : Hook) : Steps h { h with queue := [], sent := h.sent ++ h.queue } := by
  suffices ∀ (q : List Nat) (h : Hook), h.queue = q → Steps h { h with queue := [], sent := h.sent ++ q } by exact this h.queue h rfl
  intro q
  induction q with
  | nil =>
    intro h e
    have : ({ h with queue := [], sent := h.sent ++ [] } : Hook) = h := by
      cases h; simp at e ⊢; exact e
    rw [this]; exact .refl
  | cons x q ih =>
    intro h e
    have s1 : Step h { h with queue := q, sent := h.sent ++ [x] } := .send e
    have s2 := ih { h with queue := q, sent := h.sent ++ [x] } rfl
    have trans : ∀ {a b c : Hook}, Steps a b → Steps b c → Steps a c := by
      intro a b c h1 h2
      induction h2 with
      | refl => exact h1
      | step _ h ih => exact ih.step h
    have e : ({ h with queue := [], sent := h.sent ++ (x :: q) } : Hook) = { h with queue := [], sent := h.sent ++ [x] ++ q } := by simp
    rw [e]
    exact trans (Steps.refl.step s1) s2

example : Steps (begin 2) { begin 2 with loggers := [.done, .done], closed := true, stopper := .swapped, sent := [0] } := by
  have s1 : Step (begin 2) { begin 2 with loggers := [.ready, .start] } := Step.look (i := 0) rfl rfl
  have s2 : Step { begin 2 with loggers := [.ready, .start] } { begin 2 with loggers := [.done, .start], queue := [0] } := Step.put (i := 0) rfl rfl (by decide)
  have s3 := Step.swap (h := { begin 2 with loggers := [.done, .start], queue := [0] }) rfl rfl
  have s4 : Step { begin 2 with loggers := [.done, .start], queue := [0], closed := true, stopper := .swapped }
    { begin 2 with loggers := [.done, .done], queue := [0], closed := true, stopper := .swapped } := Step.skip (i := 1) rfl rfl
  have s5 := Step.send (h := { begin 2 with loggers := [.done, .done], queue := [0], closed := true, stopper := .swapped }) (x := 0) (q := []) rfl
  exact (((((Steps.refl.step s1).step s2).step s3).step s4).step s5)

end Blnk.Export
