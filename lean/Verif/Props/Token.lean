import Verif.Model.Token
/-
C48: tokens can be turned back. C64: a tokenized field stays tokenized.
-/
namespace Blnk.Token

theorem afterColon_sep : ∀ (a b : List Char), ':' ∉ a → afterColon (a ++ ':' :: b) = some b
  | [], b, _ => by simp [afterColon]
  | x :: xs, b, h => by
    have hx : x ≠ ':' := fun e => h (e ▸ List.mem_cons_self ..)
    rw [List.cons_append, afterColon, if_neg hx]
    exact afterColon_sep xs b (fun hm => h (List.mem_cons_of_mem _ hm))

theorem afterColon_early : ∀ (a b : List Char), ':' ∈ a → ∃ r, afterColon (a ++ ':' :: b) = some (r ++ ':' :: b)
  | [], _, h => by simp at h
  | x :: xs, b, h => by
    rw [List.cons_append, afterColon]
    by_cases hx : x = ':'
    · rw [if_pos hx]; exact ⟨xs, rfl⟩
    · rw [if_neg hx]
      rcases List.mem_cons.1 h with h | h
      · exact absurd h.symm hx
      · exact afterColon_early xs b h

theorem ofNat_toNat {n : Nat} (h : n < 128) : (Char.ofNat n).toNat = n := by
  have hv : n.isValidChar := Or.inl (by omega)
  simp only [Char.ofNat, hv, dite_true]
  simp [Char.toNat, Char.ofNatAux]

/-- The kind of a character: capital, small, digit, other (then the character itself). -/
def kind (c : Char) : Nat :=
  if 65 ≤ c.toNat ∧ c.toNat ≤ 90 then 0 else if 97 ≤ c.toNat ∧ c.toNat ≤ 122 then 1
  else if 48 ≤ c.toNat ∧ c.toNat ≤ 57 then 2 else 3 + c.toNat

theorem mask_kind (b : Nat) (c : Char) : kind (mask b c) = kind c := by
  have e : 'A'.toNat = 65 ∧ 'Z'.toNat = 90 ∧ 'a'.toNat = 97 ∧ 'z'.toNat = 122 ∧ '0'.toNat = 48 ∧ '9'.toNat = 57 := by decide
  obtain ⟨e1, e2, e3, e4, e5, e6⟩ := e
  have h26 : b % 26 < 26 := Nat.mod_lt _ (by decide)
  have h10 : b % 10 < 10 := Nat.mod_lt _ (by decide)
  unfold mask
  rw [e1, e2, e3, e4, e5, e6]
  split
  · rename_i h
    unfold kind
    rw [ofNat_toNat (by omega), if_pos h, if_pos (by omega)]
  · rename_i h
    split
    · rename_i h2
      unfold kind
      rw [ofNat_toNat (by omega), if_neg (by omega), if_pos (by omega), if_neg h, if_pos h2]
    · rename_i h2
      split
      · rename_i h3
        unfold kind
        rw [ofNat_toNat (by omega), if_neg (by omega), if_neg (by omega), if_pos (by omega), if_neg h, if_neg h2, if_pos h3]
      · rfl

theorem maskAll_kind (seed : Nat → Nat) : ∀ (v : List Char) (i : Nat), (maskAll seed i v).map kind = v.map kind
  | [], _ => rfl
  | c :: cs, i => by simp [maskAll, mask_kind, maskAll_kind seed cs]

theorem colon_kind {c : Char} (h : kind c = kind ':') : c = ':' := by
  have hc : kind ':' = 61 := by decide
  rw [hc] at h
  unfold kind at h
  split at h
  · omega
  · split at h
    · omega
    · split at h
      · omega
      · have : c.toNat = 58 := by omega
        exact Char.toNat_inj.1 (by rw [this]; decide)

theorem maskAll_colon (seed : Nat → Nat) (v : List Char) (i : Nat) : ':' ∈ maskAll seed i v ↔ ':' ∈ v := by
  have key : ∀ l : List Char, ':' ∈ l ↔ kind ':' ∈ l.map kind := by
    intro l
    rw [List.mem_map]
    constructor
    · intro h; exact ⟨_, h, rfl⟩
    · rintro ⟨c, hc, e⟩; rw [← colon_kind e]; exact hc
  rw [key, maskAll_kind, ← key]

theorem no_colon {C : Cipher} (n : Nat) (v : List Char) : ':' ∉ C.seal_ n v := by
  intro h
  have := C.alphabet _ h
  rw [C.correct] at this
  cases this

/-- **C48 in full.** Both kinds of token turn back into the value. -/
def C48Full (C : Cipher) (hmac : List Char → Nat → Nat) : Prop :=
  ∀ n v, detokenize C (tokenizeStandard C n v) = some v ∧ detokenize C (tokenizeFormat C hmac n v) = some v

/-- **C48** Standard tokens always turn back into the value. -/
theorem c48_standard (C : Cipher) (n : Nat) (v : List Char) : detokenize C (tokenizeStandard C n v) = some v := by
  unfold detokenize tokenizeStandard
  rw [if_neg, C.correct]
  intro h
  rw [List.isPrefixOf_iff_prefix] at h
  obtain ⟨t, ht⟩ := h
  exact no_colon n v (ht ▸ List.mem_append_left _ (by decide))

theorem detokenize_format_eq (C : Cipher) (hmac) (n : Nat) (v : List Char) :
    detokenize C (tokenizeFormat C hmac n v) = match afterColon (maskAll (hmac v) 0 v ++ ':' :: C.seal_ n v) with
      | none => none
      | some std => C.opn std := by
  have e : tokenizeFormat C hmac n v = "FPT".toList ++ ':' :: (maskAll (hmac v) 0 v ++ ':' :: C.seal_ n v) := by
    unfold tokenizeFormat
    rw [show "FPT:".toList = "FPT".toList ++ [':'] by decide]
    simp
  unfold detokenize
  rw [if_pos]
  · unfold detokenizeFormat
    rw [e, afterColon_sep _ _ (by decide)]
    rfl
  · rw [List.isPrefixOf_iff_prefix]
    unfold tokenizeFormat
    rw [List.append_assoc]
    exact List.prefix_append _ _

/-- **C48, partial.** Format-preserving tokens turn back into every value without a colon.
Missing: values with one (`c48_colon_lost`). -/
theorem c48_format_partial (C : Cipher) (hmac) (n : Nat) (v : List Char) (h : ':' ∉ v) :
    detokenize C (tokenizeFormat C hmac n v) = some v := by
  rw [detokenize_format_eq, afterColon_sep _ _ (by rw [maskAll_colon]; exact h)]
  exact C.correct n v

/-- **C48** (violated, always) A value with a colon is never recovered from its
format-preserving token: detokenization fails. -/
theorem c48_colon_lost (C : Cipher) (hmac) (n : Nat) (v : List Char) (h : ':' ∈ v) :
    detokenize C (tokenizeFormat C hmac n v) = none := by
  rw [detokenize_format_eq]
  obtain ⟨r, hr⟩ := afterColon_early (maskAll (hmac v) 0 v) (C.seal_ n v) (by rw [maskAll_colon]; exact h)
  rw [hr]
  exact C.alphabet _ (by simp)

theorem c48_full_fails (C : Cipher) (hmac) : ¬ C48Full C hmac := by
  intro h
  have := (h 0 [':']).2
  rw [c48_colon_lost C hmac 0 [':'] (by simp)] at this
  cases this

/-- **C48** The visible part has the shape of the value: as long, capitals for capitals, small
letters for small letters, digits for digits, everything else unchanged. -/
theorem c48_shape (seed : Nat → Nat) (v : List Char) (i : Nat) (c d : Char) :
    (maskAll seed 0 v).length = v.length ∧
    ((maskAll seed 0 v)[i]? = some d → v[i]? = some c → kind d = kind c ∧ (3 ≤ kind c → d = c)) := by
  have hk := maskAll_kind seed v 0
  have hlen : (maskAll seed 0 v).length = v.length := by
    have := congrArg List.length hk
    rwa [List.length_map, List.length_map] at this
  refine ⟨hlen, fun h1 h2 => ?_⟩
  have e : kind d = kind c := by
    have := congrArg (fun l => l[i]?) hk
    simp only [List.getElem?_map, h1, h2, Option.map_some, Option.some.injEq] at this
    exact this
  refine ⟨e, fun h3 => ?_⟩
  have hc : kind c = 3 + c.toNat := by
    unfold kind at h3 ⊢
    split
    · rename_i h; rw [if_pos h] at h3; omega
    · rename_i h; rw [if_neg h] at h3
      split
      · rename_i h; rw [if_pos h] at h3; omega
      · rename_i h; rw [if_neg h] at h3
        split
        · rename_i h; rw [if_pos h] at h3; omega
        · rfl
  have hd : kind d = 3 + d.toNat := by
    rw [← e] at h3
    unfold kind at h3 ⊢
    split
    · rename_i h; rw [if_pos h] at h3; omega
    · rename_i h; rw [if_neg h] at h3
      split
      · rename_i h; rw [if_pos h] at h3; omega
      · rename_i h; rw [if_neg h] at h3
        split
        · rename_i h; rw [if_pos h] at h3; omega
        · rfl
  exact Char.toNat_inj.1 (by omega)

/-- A toy cipher: colons become pluses in the alphabet `+`, `-`. Each character is written in
unary. -/
def exSeal (v : List Char) : List Char := v.flatMap (fun c => List.replicate c.toNat '-' ++ ['+'])

def exOpen : Nat → List Char → Option (List Char)
  | 0, [] => some []
  | _ + 1, [] => none
  | n, c :: cs => if c = '-' then exOpen (n + 1) cs else if c = '+' then (exOpen 0 cs).map (Char.ofNat n :: ·) else none

theorem exOpen_dashes : ∀ (k n : Nat) (l : List Char), exOpen n (List.replicate k '-' ++ l) = exOpen (n + k) l
  | 0, _, _ => rfl
  | k + 1, n, l => by
    rw [List.replicate_succ, List.cons_append, exOpen, if_pos rfl, exOpen_dashes k (n + 1) l]
    congr 1; omega

theorem exOpen_seal : ∀ v, exOpen 0 (exSeal v) = some v
  | [] => rfl
  | c :: cs => by
    show exOpen 0 ((List.replicate c.toNat '-' ++ ['+']) ++ exSeal cs) = _
    rw [List.append_assoc, exOpen_dashes]
    simp only [List.cons_append, List.nil_append, exOpen]
    rw [if_neg (by decide), exOpen_seal cs]
    simp

theorem exOpen_colon : ∀ (l : List Char) (n : Nat), ':' ∈ l → exOpen n l = none
  | [], _, h => by simp at h
  | c :: cs, n, h => by
    rcases List.mem_cons.1 h with h | h
    · rw [← h]; cases n <;> simp [exOpen]
    · cases n <;> simp [exOpen, exOpen_colon cs _ h]

def exCipher : Cipher := ⟨fun _ => exSeal, exOpen 0, fun _ => exOpen_seal, fun t => exOpen_colon t 0⟩

example : detokenize exCipher (tokenizeFormat exCipher (fun _ i => i + 7) 0 "Jo 5".toList) = some "Jo 5".toList ∧
    (maskAll (fun i => i + 7) 0 "Jo 5".toList) = "Hi 0".toList ∧
    detokenize exCipher (tokenizeFormat exCipher (fun _ i => i + 7) 0 "a:b".toList) = none := by decide +kernel

/-! ### C64: identities -/

/-- **C64** A tokenization request served alone: the field then holds a token of its old value,
is marked, turns back into the old value (if that has no colon), and nothing else changed. A
marked field is refused and left alone. -/
theorem c64_one_request (C : Cipher) (hmac) (n : Nat) (f : Field) (i : Identity) :
    (i.marked f = true → tokenizeStep C hmac n f i = (i, false)) ∧
    (i.marked f = false →
      (tokenizeStep C hmac n f i).2 = true ∧
      (tokenizeStep C hmac n f i).1.value f = tokenizeFormat C hmac n (i.value f) ∧
      (tokenizeStep C hmac n f i).1.marked f = true ∧
      (':' ∉ i.value f → detokenizeField C f (tokenizeStep C hmac n f i).1 = some (i.value f)) ∧
      ∀ g, g ≠ f → (tokenizeStep C hmac n f i).1.value g = i.value g ∧ (tokenizeStep C hmac n f i).1.marked g = i.marked g) := by
  have hne : ∀ v, tokenizeFormat C hmac n v ≠ [] := by
    intro v h
    have := congrArg List.length h
    unfold tokenizeFormat at this
    simp at this
  refine ⟨fun h => by simp [tokenizeStep, tokenizeField, h], fun h => ?_⟩
  have hs : tokenizeStep C hmac n f i = (store { value := fun g => if g = f then tokenizeFormat C hmac n (i.value f) else i.value g, marked := fun g => g = f || i.marked g } i, true) := by
    simp [tokenizeStep, tokenizeField, h]
  rw [hs]
  refine ⟨rfl, ?_, ?_, ?_, ?_⟩
  · simp [store, hne]
  · simp [store]
  · intro hc
    unfold detokenizeField
    simp only [store, hne, if_true, if_false, decide_true, Bool.true_or]
    exact c48_format_partial C hmac n _ hc
  · intro g hg
    simp only [store, if_neg hg]
    refine ⟨?_, by simp [hg]⟩
    split
    · rename_i e; exact e.symm ▸ rfl
    · rfl

/-- **C64** Any number of requests one after the other, in any order and with repetitions:
every field asked for is marked and turns back into its original value (if that has no colon),
every other field is as it was. -/
theorem c64_sequential (C : Cipher) (hmac) (i : Identity) (fs : List (Nat × Field)) (h0 : ∀ f, i.marked f = false)
    (f : Field) :
    (f ∈ fs.map Prod.snd → (tokenizeSteps C hmac i fs).marked f = true ∧
      (':' ∉ i.value f → detokenizeField C f (tokenizeSteps C hmac i fs) = some (i.value f))) ∧
    (f ∉ fs.map Prod.snd → (tokenizeSteps C hmac i fs).marked f = false ∧ (tokenizeSteps C hmac i fs).value f = i.value f) := by
  -- a marked field is never touched again
  have keep : ∀ (fs : List (Nat × Field)) (j : Identity), j.marked f = true →
      (tokenizeSteps C hmac j fs).marked f = true ∧ (tokenizeSteps C hmac j fs).value f = j.value f := by
    intro fs
    induction fs with
    | nil => intro j hj; exact ⟨hj, rfl⟩
    | cons p ps ih =>
      intro j hj
      obtain ⟨n, g⟩ := p
      have h1 := c64_one_request C hmac n g j
      show (tokenizeSteps C hmac (tokenizeStep C hmac n g j).1 ps).marked f = true ∧
        (tokenizeSteps C hmac (tokenizeStep C hmac n g j).1 ps).value f = j.value f
      cases hg : j.marked g with
      | true => rw [h1.1 hg]; exact ih j hj
      | false =>
        have hfg : f ≠ g := by intro e; rw [e, hg] at hj; cases hj
        have := (h1.2 hg).2.2.2.2 f hfg
        obtain ⟨a, b⟩ := ih (tokenizeStep C hmac n g j).1 (this.2.trans hj)
        exact ⟨a, b.trans this.1⟩
  have main : ∀ (fs : List (Nat × Field)) (j : Identity), j.marked f = false →
      (f ∈ fs.map Prod.snd → (tokenizeSteps C hmac j fs).marked f = true ∧
        ∃ n, (tokenizeSteps C hmac j fs).value f = tokenizeFormat C hmac n (j.value f)) ∧
      (f ∉ fs.map Prod.snd → (tokenizeSteps C hmac j fs).marked f = false ∧ (tokenizeSteps C hmac j fs).value f = j.value f) := by
    intro fs
    induction fs with
    | nil => intro j hj; exact ⟨by simp, fun _ => ⟨hj, rfl⟩⟩
    | cons p ps ih =>
      intro j hj
      obtain ⟨n, g⟩ := p
      have h1 := c64_one_request C hmac n g j
      show (_ → (tokenizeSteps C hmac (tokenizeStep C hmac n g j).1 ps).marked f = true ∧ _) ∧
        (_ → (tokenizeSteps C hmac (tokenizeStep C hmac n g j).1 ps).marked f = false ∧ _)
      by_cases hfg : f = g
      · subst hfg
        obtain ⟨_, hv, hm, _, _⟩ := h1.2 hj
        obtain ⟨a, b⟩ := keep ps _ hm
        refine ⟨fun _ => ⟨a, n, b.trans hv⟩, fun h => absurd ?_ h⟩
        simp
      · have hstep : (tokenizeStep C hmac n g j).1.value f = j.value f ∧ (tokenizeStep C hmac n g j).1.marked f = j.marked f := by
          cases hg : j.marked g with
          | true => rw [h1.1 hg]; exact ⟨rfl, rfl⟩
          | false => exact (h1.2 hg).2.2.2.2 f hfg
        obtain ⟨a, b⟩ := ih (tokenizeStep C hmac n g j).1 (hstep.2.trans hj)
        rw [hstep.1] at a b
        refine ⟨fun h => a ?_, fun h => b ?_⟩
        · rw [List.map_cons, List.mem_cons] at h
          exact h.resolve_left hfg
        · intro hm; exact h (by rw [List.map_cons]; exact List.mem_cons_of_mem _ hm)
  obtain ⟨a, b⟩ := main fs i (h0 f)
  refine ⟨fun h => ?_, b⟩
  obtain ⟨h1, n, h2⟩ := a h
  refine ⟨h1, fun hc => ?_⟩
  unfold detokenizeField
  rw [if_pos h1, h2]
  exact c48_format_partial C hmac n _ hc

/-- **C64 in full.** Two requests for different fields that both read the identity before
either writes leave both fields tokenized. -/
def C64Full (C : Cipher) (hmac : List Char → Nat → Nat) : Prop :=
  ∀ (i : Identity) (f g : Field) (n m : Nat), f ≠ g → i.marked f = false → i.marked g = false →
    ∀ a b, tokenizeField C hmac n f i = some a → tokenizeField C hmac m g i = some b →
      (store b (store a i)).marked f = true ∧ (store b (store a i)).value f = a.value f

/-- **C64** (violated, always) The second write puts the first field back in clear text and
removes its mark, although its request was answered with success. -/
theorem c64_concurrent_fails (C : Cipher) (hmac) (i : Identity) (f g : Field) (n m : Nat) (hfg : f ≠ g)
    (hf : i.marked f = false) (hg : i.marked g = false) (hv : i.value f ≠ []) :
    ∃ a b, tokenizeField C hmac n f i = some a ∧ tokenizeField C hmac m g i = some b ∧
      (store b (store a i)).value f = i.value f ∧ (store b (store a i)).marked f = false := by
  refine ⟨_, _, by simp [tokenizeField, hf]; rfl, by simp [tokenizeField, hg]; rfl, ?_, ?_⟩
  · simp [store, hfg, hv]
  · simp [store, hfg, hf]

theorem c64_full_fails (C : Cipher) (hmac) : ¬ C64Full C hmac := by
  intro h
  let i : Identity := ⟨fun _ => ['a'], fun _ => false⟩
  obtain ⟨a, b, ha, hb, _, hm⟩ := c64_concurrent_fails C hmac i .firstName .lastName 0 0 (by decide) rfl rfl (by simp [i])
  rw [(h i .firstName .lastName 0 0 (by decide) rfl rfl a b ha hb).1] at hm
  cases hm

/-- **C64, partial.** A client's update that gives no metadata and leaves the field alone keeps
it tokenized and readable. Missing: updates with metadata (`c64_update_fails`). -/
theorem c64_update_partial (C : Cipher) (fields : Field → List Char) (f : Field) (i : Identity) (hf : fields f = []) :
    (update fields none i).marked f = i.marked f ∧ (update fields none i).value f = i.value f ∧
    detokenizeField C f (update fields none i) = detokenizeField C f i := by
  simp [update, detokenizeField, hf]

/-- **C64** (violated, always) A client that sets its own metadata removes the mark: the field
still holds the token but is refused for detokenization, and tokenizing again stores a token
of the token, which has colons and is therefore never recovered. -/
theorem c64_update_fails (C : Cipher) (hmac) (n m : Nat) (f : Field) (i : Identity) (hf : i.marked f = false)
    (hv : ':' ∉ i.value f) :
    let t := (tokenizeStep C hmac n f i).1
    let u := update (fun _ => []) (some fun _ => false) t
    detokenizeField C f t = some (i.value f) ∧ detokenizeField C f u = none ∧ u.value f = t.value f ∧
    ((tokenizeStep C hmac m f u).2 = true ∧ detokenizeField C f (tokenizeStep C hmac m f u).1 = none) := by
  intro t u
  have h1 := (c64_one_request C hmac n f i).2 hf
  have hu : u.marked f = false := rfl
  have h2 := (c64_one_request C hmac m f u).2 hu
  refine ⟨h1.2.2.2.1 hv, by simp [u, update, detokenizeField], by simp [u, update], h2.1, ?_⟩
  unfold detokenizeField
  rw [if_pos h2.2.2.1, h2.2.1]
  apply c48_colon_lost
  have : u.value f = t.value f := by simp [u, update]
  rw [this, h1.2.1]
  unfold tokenizeFormat
  simp

end Blnk.Token
