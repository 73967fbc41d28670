import Verif.Lemmas.ErrorTexts

/-
What a failed request is told (C114-C117, C121).
-/

namespace Blnk.Errs

/-! ### Specification -/

/-- What `POST /transactions` should say for each failure, and says when the texts involved are quiet. -/
def postCode : Kind → String
  | .lockWait => "GEN_RESOURCE_LOCKED"
  | .lockHeld => "GEN_RESOURCE_LOCKED"
  | .lockRedis => "GEN_RESOURCE_LOCKED"
  | .hooks => "TXN_VALIDATION_ERROR"
  | .refCheck => "GEN_INTERNAL"
  | .duplicate => "TXN_DUPLICATE_REFERENCE"
  | .balanceMissing => "TXN_NOT_FOUND"
  | .balanceRead => "GEN_INTERNAL"
  | .notPositive false => "TXN_INVALID_AMOUNT"
  | .notPositive true => "TXN_VALIDATION_ERROR"
  | .overdraft => "TXN_VALIDATION_ERROR"
  | .funds => "TXN_INSUFFICIENT_FUNDS"
  | .holdShort _ _ => "TXN_VALIDATION_ERROR"
  | .conflict => "GEN_CONFLICT"
  | .persist => "GEN_INTERNAL"

/-- What a bulk request says for the same failure of one of its items. -/
def bulkCode : Kind → String
  | .lockWait => "GEN_RESOURCE_LOCKED"
  | .lockHeld => "GEN_RESOURCE_LOCKED"
  | .lockRedis => "GEN_RESOURCE_LOCKED"
  | .hooks => "GEN_BAD_REQUEST"
  | .refCheck => "TXN_VALIDATION_ERROR"
  | .duplicate => "TXN_DUPLICATE_REFERENCE"
  | .balanceMissing => "TXN_NOT_FOUND"
  | .balanceRead => "GEN_BAD_REQUEST"
  | .notPositive false => "TXN_INVALID_AMOUNT"
  | .notPositive true => "GEN_BAD_REQUEST"
  | .overdraft => "GEN_BAD_REQUEST"
  | .funds => "TXN_INSUFFICIENT_FUNDS"
  | .holdShort _ _ => "GEN_BAD_REQUEST"
  | .conflict => "GEN_BAD_REQUEST"
  | .persist => "GEN_BAD_REQUEST"

/-- The failure is the server's: Redis or the database did not answer as it should. -/
def Kind.server : Kind → Bool
  | .lockRedis => true
  | .hooks => true
  | .refCheck => true
  | .balanceRead => true
  | .persist => true
  | _ => false

/-- All texts of a failed bulk item are quiet, and its number is one. -/
structure QuietItem (i : Item) (f : Fail) (e : Ending) : Prop where
  num : Numeral i.num
  item : ∀ v ∈ i.vars, Quiet v
  fail : ∀ v ∈ f.vars, Quiet v
  ending : ∀ v ∈ e.vars, Quiet v

/-! ### The code of every failure -/

theorem clearIn_one : ∀ k ∈ Kind.all, clearIn [t! "transaction"] k.lits = true := by decide +kernel

theorem lit_one : ∀ k ∈ Kind.all, classifyLit messagePatterns (t! "transaction" :: k.lits.1 :: k.lits.2) =
    (if bulkCode k = "GEN_BAD_REQUEST" then none else some (bulkCode k)) := by decide +kernel

/-- The texts of a failure without the typed ones. -/
def Kind.untyped : Kind → Bool
  | .lockRedis => true
  | .hooks => true
  | .duplicate => true
  | .notPositive _ => true
  | .overdraft => true
  | .funds => true
  | .holdShort _ _ => true
  | _ => false

theorem clearIn_none : ∀ k ∈ Kind.all, k.untyped = true → clearIn [] k.lits = true ∧
    classifyLit messagePatterns (k.lits.1 :: k.lits.2) =
      (if postCode k = "TXN_VALIDATION_ERROR" then none else some (postCode k)) := by decide +kernel

theorem classify_untyped (f : Fail) (hu : f.kind.untyped = true) (hq : ∀ v ∈ f.vars, Quiet v) :
    classifyMessage f.err.text =
      (if postCode f.kind = "TXN_VALIDATION_ERROR" then none else some (postCode f.kind)) := by
  obtain ⟨h1, h2⟩ := clearIn_none f.kind f.kind.mem_all hu
  rw [← h2, f.text_eq]
  exact classify_around (ws := []) f.len h1 hq (fun _ h => by cases h) (List.infix_refl _) (fun _ _ h => h)

theorem classify_bulk_all (i : Item) (f : Fail) (e : Ending) (h : QuietItem i f e) :
    classifyMessage (bulkText i f e) =
      (if bulkCode f.kind = "GEN_BAD_REQUEST" then none else some (bulkCode f.kind)) := by
  rw [← lit_one f.kind f.kind.mem_all]
  exact classify_bulk i f e h.num (clearIn_one f.kind f.kind.mem_all) h.item h.fail h.ending

/-- Answering with a default. -/
theorem respond_plain (o : Opts) (e : Err) (d : String) (hd : o.default = some d) (hf : o.fallback = none)
    (hp : ∃ s, e.leaf = .plain s) (c : String)
    (h : classifyMessage e.text = if c = d then none else some c) :
    respondError o e = writeError o c e.text none := by
  obtain ⟨s, hs⟩ := hp
  unfold respondError
  rw [hs]
  dsimp only
  rw [h]
  by_cases hc : c = d
  · rw [if_pos hc]
    dsimp only
    rw [hd]
    dsimp only
    rw [hf, hc]
  · rw [if_neg hc]

theorem post_write_code : ∀ k ∈ Kind.all, ∀ m d,
    (writeError postOpts (postCode k) m d).code = postCode k := by
  intro k hk m d
  have : ∀ k ∈ Kind.all, normalize (postCode k) = postCode k ∧ postOpts.upgrades.lookup (postCode k) = none := by
    decide +kernel
  obtain ⟨h1, h2⟩ := this k hk
  unfold writeError
  dsimp only
  rw [h1, h2]

/-- With quiet texts, the code of a failed post is that of its kind. -/
theorem post_code (f : Fail) (hq : ∀ v ∈ f.vars, Quiet v) : (postAnswer f).code = postCode f.kind := by
  by_cases hu : f.kind.untyped = true
  · have h := classify_untyped f hu hq
    have hp : ∃ s, f.err.leaf = .plain s := by
      cases f <;> first | exact ⟨_, rfl⟩ | simp [Fail.kind, Kind.untyped] at hu
    unfold postAnswer
    rw [respond_plain postOpts f.err "TXN_VALIDATION_ERROR" rfl rfl hp (postCode f.kind) h]
    exact post_write_code _ f.kind.mem_all _ _
  · cases f <;> first | (simp [Fail.kind, Kind.untyped] at hu; done) | rfl

/-- The same for a leg of a split. -/
theorem split_code (i : Text) (f : Fail) (hn : Numeral i) (hi : Quiet i) (hq : ∀ v ∈ f.vars, Quiet v) :
    (splitAnswer i f).code = postCode f.kind := by
  by_cases hu : f.kind.untyped = true
  · have h : classifyMessage (splitErr i f).text =
        (if postCode f.kind = "TXN_VALIDATION_ERROR" then none else some (postCode f.kind)) := by
      rw [classify_split i f hn (clearIn_one f.kind f.kind.mem_all) hi hq, lit_one f.kind f.kind.mem_all]
      have : ∀ k ∈ Kind.all, k.untyped = true →
          (if bulkCode k = "GEN_BAD_REQUEST" then none else some (bulkCode k)) =
            (if postCode k = "TXN_VALIDATION_ERROR" then none else some (postCode k)) := by decide +kernel
      exact this _ f.kind.mem_all hu
    have hp : ∃ s, (splitErr i f).leaf = .plain s := by
      cases f <;> first | exact ⟨_, rfl⟩ | simp [Fail.kind, Kind.untyped] at hu
    unfold splitAnswer
    rw [respond_plain postOpts (splitErr i f) "TXN_VALIDATION_ERROR" rfl rfl hp (postCode f.kind) h]
    exact post_write_code _ f.kind.mem_all _ _
  · cases f <;> first | (simp [Fail.kind, Kind.untyped] at hu; done) | rfl

/-- And of a bulk request. -/
theorem bulk_code (i : Item) (f : Fail) (e : Ending) (h : QuietItem i f e) :
    (bulkAnswer i f e).code = bulkCode f.kind ∧ (bulkAnswer i f e).status = statusForCode (bulkCode f.kind) := by
  have hc := classify_bulk_all i f e h
  have hn : ∀ k ∈ Kind.all, normalize (bulkCode k) = bulkCode k := by decide +kernel
  unfold bulkAnswer
  dsimp only
  rw [hc]
  by_cases hb : bulkCode f.kind = "GEN_BAD_REQUEST"
  · rw [if_pos hb, hb]
    exact ⟨by decide +kernel, rfl⟩
  · rw [if_neg hb]
    exact ⟨hn _ f.kind.mem_all, rfl⟩

/-! ### C114: reusing a reference -/

/-- The full claim: whatever the reference, and also when two requests race, the second is answered
409 with `TXN_DUPLICATE_REFERENCE`. -/
def DuplicateFull : Prop :=
  (∀ r, (postAnswer (.duplicate r)).status = 409 ∧ (postAnswer (.duplicate r)).code = "TXN_DUPLICATE_REFERENCE") ∧
  (∀ d, (postAnswer (.persist (t! "Failed to record transaction") d)).code = "TXN_DUPLICATE_REFERENCE")

/-- A reference with the words `not found` in it turns the answer into 404 `TXN_NOT_FOUND`. -/
theorem c114_full_fails : ¬ DuplicateFull := by
  intro h
  have := (h.1 (t! "order not found")).1
  revert this
  decide +kernel

/-- A lost race is answered 500 `GEN_INTERNAL`, whatever the driver said. -/
theorem c114_race_fails (d : Option Text) :
    (postAnswer (.persist (t! "Failed to record transaction") d)).status = 500 ∧
    (postAnswer (.persist (t! "Failed to record transaction") d)).code = "GEN_INTERNAL" := ⟨rfl, rfl⟩

/-- The words that make the classifier say something else. -/
def hijackers : List Text :=
  [t! "not found", t! "not in inflight status", t! "Transaction already committed", t! "has already been voided",
   t! "has already been refunded"]

/-- Which of two patterns decides. -/
theorem classifyIn_eq_iff {pre post : List (List Text × String)} {subs : List Text} {c : String} {m : Text}
    (hc : ∀ x ∈ pre, x.2 ≠ c) (hm : subs.all (fun s => has s m) = true) :
    classifyIn (pre ++ (subs, c) :: post) m = some c ↔ ∀ x ∈ pre, x.1.all (fun s => has s m) = false := by
  induction pre with
  | nil => simp [classifyIn, hm]
  | cons x pre ih =>
    obtain ⟨xs, xc⟩ := x
    rw [List.cons_append]
    simp only [classifyIn]
    by_cases hx : xs.all (fun s => has s m) = true
    · rw [if_pos hx]
      constructor
      · intro h
        exact absurd (Option.some.inj h) (hc (xs, xc) (by simp))
      · intro h
        have := h (xs, xc) (by simp)
        rw [hx] at this
        cases this
    · rw [if_neg hx, ih (fun y hy => hc y (List.mem_cons_of_mem _ hy))]
      constructor
      · intro h y hy
        rcases List.mem_cons.1 hy with rfl | hy
        · simpa using hx
        · exact h y hy
      · exact fun h y hy => h y (List.mem_cons_of_mem _ hy)

theorem dup_has {s r : Text} (h : fits s (t! "transaction validation failed: reference ") [t! " has already been used"] = true) :
    has s (Fail.duplicate r).err.text =
      ([t! "transaction validation failed: reference ", t! " has already been used"].any (has s) || has s r) := by
  have := has_render (p := s) (t! "transaction validation failed: reference ") [(r, t! " has already been used")] h
  rw [Fail.text_eq]
  show has s (render (t! "transaction validation failed: reference ") [(r, t! " has already been used")]) = _
  rw [this]
  simp only [List.map_cons, List.map_nil, List.any_cons, List.any_nil, Bool.or_false]

theorem dup_checks : (∀ s ∈ hijackers, fits s (t! "transaction validation failed: reference ") [t! " has already been used"] = true ∧
      [t! "transaction validation failed: reference ", t! " has already been used"].any (has s) = false) ∧
    (∀ s ∈ [t! "transaction", t! "has already been used"],
      [t! "transaction validation failed: reference ", t! " has already been used"].any (has s) = true) := by
  decide +kernel

theorem dup_lit {s r : Text} (h : [t! "transaction validation failed: reference ", t! " has already been used"].any (has s) = true) :
    has s (Fail.duplicate r).err.text = true := by
  rw [Fail.text_eq]
  show has s (render (t! "transaction validation failed: reference ") [(r, t! " has already been used")]) = true
  exact has_render_lit h

theorem classify_duplicate (r : Text) :
    classifyMessage (Fail.duplicate r).err.text = some "TXN_DUPLICATE_REFERENCE" ↔ ∀ w ∈ hijackers, ¬ w <:+: r := by
  have hs : messagePatterns = messagePatterns.take 5 ++ ([t! "has already been used"], "TXN_DUPLICATE_REFERENCE") ::
      messagePatterns.drop 6 := rfl
  have hh : ∀ w ∈ hijackers, has w (Fail.duplicate r).err.text = has w r := by
    intro w hw
    obtain ⟨h1, h2⟩ := dup_checks.1 w hw
    rw [dup_has h1, h2, Bool.false_or]
  have ht : has (t! "transaction") (Fail.duplicate r).err.text = true := dup_lit (dup_checks.2 _ (by simp))
  have hu : has (t! "has already been used") (Fail.duplicate r).err.text = true := dup_lit (dup_checks.2 _ (by simp))
  unfold classifyMessage
  rw [hs, classifyIn_eq_iff (by decide +kernel) (by simp only [List.all_cons, List.all_nil, Bool.and_true]; exact hu)]
  have h5 : messagePatterns.take 5 =
      [([t! "transaction", t! "not found"], "TXN_NOT_FOUND"), ([t! "not in inflight status"], "TXN_NOT_INFLIGHT"),
       ([t! "Transaction already committed"], "TXN_ALREADY_COMMITTED"),
       ([t! "has already been voided"], "TXN_ALREADY_VOIDED"), ([t! "has already been refunded"], "GEN_CONFLICT")] := rfl
  rw [h5]
  unfold hijackers at hh ⊢
  simp only [List.forall_mem_cons, List.all_cons, List.all_nil, Bool.and_true, ht, Bool.true_and, List.not_mem_nil,
    false_imp_iff, implies_true, and_true] at hh ⊢
  rw [hh.1, hh.2.1, hh.2.2.1, hh.2.2.2.1, hh.2.2.2.2]
  simp only [has_false_iff]

/-- The part that holds: a reused reference is answered 409 `TXN_DUPLICATE_REFERENCE` exactly when the
reference contains none of five wordings. -/
theorem c114_duplicate_partial (r : Text) :
    (postAnswer (.duplicate r) = ⟨409, "TXN_DUPLICATE_REFERENCE", (Fail.duplicate r).err.text, none⟩) ↔
      ∀ w ∈ hijackers, ¬ w <:+: r := by
  rw [← classify_duplicate]
  constructor
  · intro h
    have hc : (postAnswer (.duplicate r)).code = "TXN_DUPLICATE_REFERENCE" := by rw [h]
    unfold postAnswer respondError at hc
    dsimp only [Fail.err, wrap, plain] at hc
    have hu : classifyMessage (Fail.duplicate r).err.text ≠ none := by
      intro hn
      have : ∀ ps m, classifyIn ps m = none → ∀ x ∈ ps, x.1.all (fun s => has s m) = false := by
        intro ps m
        induction ps with
        | nil => intro _ x hx; cases hx
        | cons y ps ih =>
          intro h x hx
          obtain ⟨ys, yc⟩ := y
          simp only [classifyIn] at h
          by_cases hy : ys.all (fun s => has s m) = true
          · rw [if_pos hy] at h; cases h
          · rw [if_neg hy] at h
            rcases List.mem_cons.1 hx with rfl | hx
            · simpa using hy
            · exact ih h x hx
      have := this _ _ hn ([t! "has already been used"], "TXN_DUPLICATE_REFERENCE") (by unfold messagePatterns; simp)
      simp only [List.all_cons, List.all_nil, Bool.and_true] at this
      rw [dup_lit (dup_checks.2 _ (by simp))] at this
      cases this
    cases hq : classifyMessage (Fail.duplicate r).err.text with
    | none => exact absurd hq hu
    | some c =>
      have hq' := hq
      dsimp only [Fail.err, wrap, plain] at hq'
      rw [hq'] at hc
      have hmem : ∀ ps m, classifyIn ps m = some c → c ∈ ps.map (·.2) := by
        intro ps m
        induction ps with
        | nil => intro h; cases h
        | cons y ps ih =>
          intro h
          obtain ⟨ys, yc⟩ := y
          simp only [classifyIn] at h
          by_cases hy : ys.all (fun s => has s m) = true
          · rw [if_pos hy] at h
            simp only [Option.some.injEq] at h
            simp [h]
          · rw [if_neg hy] at h
            exact List.mem_cons_of_mem _ (ih h)
      have hin := hmem _ _ hq
      have all : ∀ c ∈ messagePatterns.map (·.2), (writeError postOpts c [] none).code = "TXN_DUPLICATE_REFERENCE" →
          c = "TXN_DUPLICATE_REFERENCE" := by decide +kernel
      rw [all c hin hc]
  · intro h
    unfold postAnswer respondError
    dsimp only [Fail.err, wrap, plain]
    dsimp only [Fail.err, wrap, plain] at h
    rw [h]
    rfl

/-- References without a blank are always recognised: posted alone, as a leg of a split or in a bulk request. -/
theorem c114_noBlank_partial (r i : Text) (it : Item) (e : Ending) (hr : ' ' ∉ r)
    (hn : Numeral i) (hi : Quiet i) (hit : Numeral it.num) (hiv : ∀ v ∈ it.vars, Quiet v) (he : ∀ v ∈ e.vars, Quiet v) :
    (postAnswer (.duplicate r)).code = "TXN_DUPLICATE_REFERENCE" ∧
    (splitAnswer i (.duplicate r)).code = "TXN_DUPLICATE_REFERENCE" ∧
    (bulkAnswer it (.duplicate r) e).code = "TXN_DUPLICATE_REFERENCE" ∧
    (bulkAnswer it (.duplicate r) e).status = 409 := by
  have hq : ∀ v ∈ (Fail.duplicate r).vars, Quiet v := by
    intro v hv
    rw [List.mem_singleton.1 hv]
    exact quiet_of_noBlank hr
  have hb := bulk_code it (.duplicate r) e ⟨hit, hiv, hq, he⟩
  exact ⟨post_code _ hq, split_code i _ hn hi hq, hb.1, hb.2.trans (by show statusForCode "TXN_DUPLICATE_REFERENCE" = 409; decide +kernel)⟩

example : (postAnswer (.duplicate (t! "order-42"))).status = 409 ∧
    (splitAnswer (t! "2") (.duplicate (t! "order-42_1"))).status = 409 ∧
    (bulkAnswer ⟨t! "1", t! "order-42", t! "@World", t! "bln_1", t! "10.00"⟩ (.duplicate (t! "order-42")) .kept).code
      = "TXN_DUPLICATE_REFERENCE" := by decide +kernel

end Blnk.Errs
