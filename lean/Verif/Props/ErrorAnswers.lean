import Verif.Props.ErrorCodes

/-
The shape of every error answer, what it gives away, whom it blames (C115-C117), and whether the
single and the bulk endpoint agree (C121).
-/

namespace Blnk.Errs

/-! ### C115: status and code -/

/-- Codes of the catalogue that are not legacy ones. -/
def canonical : List String := (statusByCode.map (·.1)).filter fun c => !(legacyToCanonical.map (·.1)).contains c

/-- The request handler and the error only name codes the catalogue has. -/
structure Known (o : Opts) (e : Err) : Prop where
  leaf : ∀ c m d, e.leaf = .api c m d → c ∈ statusByCode.map (·.1)
  default : ∀ c, o.default = some c → c ∈ canonical
  upgrades : ∀ x ∈ o.upgrades, x.2 ∈ canonical

theorem lookup_mem {l : List (String × String)} {a b : String} (h : l.lookup a = some b) : (a, b) ∈ l := by
  induction l with
  | nil => cases h
  | cons x l ih =>
    obtain ⟨k, v⟩ := x
    rw [List.lookup_cons] at h
    by_cases hk : (a == k) = true
    · rw [hk] at h
      simp only [Option.some.injEq] at h
      have : a = k := by simpa using hk
      rw [this, h]
      exact List.mem_cons_self ..
    · rw [Bool.not_eq_true] at hk
      rw [hk] at h
      exact List.mem_cons_of_mem _ (ih h)

theorem normalize_canonical : ∀ c ∈ statusByCode.map (·.1), normalize c ∈ canonical := by decide +kernel

theorem canonical_status : ∀ c ∈ canonical, (c, statusForCode c) ∈ statusByCode ∧ 400 ≤ statusForCode c ∧
    statusForCode c ≤ 599 ∧ c ∉ legacyToCanonical.map (·.1) := by decide +kernel

theorem canonical_known : ∀ c ∈ canonical, c ∈ statusByCode.map (·.1) := by
  intro c hc
  exact (List.mem_filter.1 hc).1

theorem writeError_shape {o : Opts} {c : String} {m : Text} {d : Option Text} (hc : c ∈ statusByCode.map (·.1))
    (hu : ∀ x ∈ o.upgrades, x.2 ∈ canonical) :
    (writeError o c m d).code ∈ canonical ∧ (writeError o c m d).status = statusForCode (writeError o c m d).code := by
  unfold writeError
  dsimp only
  cases h : o.upgrades.lookup (normalize c) with
  | none => exact ⟨normalize_canonical c hc, rfl⟩
  | some c' => exact ⟨hu _ (lookup_mem h), rfl⟩

theorem classifyIn_code {ps : List (List Text × String)} {m : Text} {c : String} (h : classifyIn ps m = some c) :
    c ∈ ps.map (·.2) := by
  induction ps with
  | nil => cases h
  | cons y ps ih =>
    obtain ⟨ys, yc⟩ := y
    simp only [classifyIn] at h
    by_cases hy : ys.all (fun s => has s m) = true
    · rw [if_pos hy] at h
      simp only [Option.some.injEq] at h
      simp [h]
    · rw [if_neg hy] at h
      exact List.mem_cons_of_mem _ (ih h)

theorem pattern_codes : ∀ c ∈ messagePatterns.map (·.2), c ∈ canonical := by decide +kernel

theorem sentinel_codes (s : Sentinel) : classifySentinel s ∈ canonical := by cases s <;> decide +kernel

theorem respond_shape (o : Opts) (e : Err) (h : Known o e) :
    (respondError o e).code ∈ canonical ∧ (respondError o e).status = statusForCode (respondError o e).code := by
  unfold respondError
  cases hl : e.leaf with
  | api c m d => exact writeError_shape (h.leaf c m d hl) h.upgrades
  | sentinel s t => exact writeError_shape (canonical_known _ (sentinel_codes s)) h.upgrades
  | plain s =>
    dsimp only
    cases hm : classifyMessage e.text with
    | some c => exact writeError_shape (canonical_known _ (pattern_codes c (classifyIn_code hm))) h.upgrades
    | none =>
      dsimp only
      cases hd : o.default with
      | some c => exact writeError_shape (canonical_known _ (h.default c hd)) h.upgrades
      | none => exact writeError_shape (by decide +kernel) h.upgrades

/-- Every error answer carries a current code of the catalogue together with the one status the
catalogue lists for it, a 4xx or 5xx. -/
theorem c115_catalogue (o : Opts) (e : Err) (h : Known o e) :
    ((respondError o e).code, (respondError o e).status) ∈ statusByCode ∧
    (∀ s, ((respondError o e).code, s) ∈ statusByCode → s = (respondError o e).status) ∧
    (respondError o e).code ∉ legacyToCanonical.map (·.1) ∧
    400 ≤ (respondError o e).status ∧ (respondError o e).status ≤ 599 := by
  obtain ⟨h1, h2⟩ := respond_shape o e h
  obtain ⟨a, b, c, d⟩ := canonical_status _ h1
  have uniq : ∀ x ∈ statusByCode, x.2 = statusForCode x.1 := by decide +kernel
  rw [h2]
  exact ⟨a, fun s hs => uniq _ hs, d, b, c⟩

theorem status_is_error (c : String) : 400 ≤ statusForCode c ∧ statusForCode c ≤ 599 := by
  have key : ∀ x ∈ statusByCode, 400 ≤ x.2 ∧ x.2 ≤ 599 := by decide +kernel
  unfold statusForCode
  cases h : statusByCode.lookup c with
  | none => exact ⟨by decide, by decide⟩
  | some s =>
    have : ∀ (l : List (String × Nat)), l.lookup c = some s → ∃ k, (k, s) ∈ l := by
      intro l
      induction l with
      | nil => intro h; cases h
      | cons a l ih =>
        intro h
        rw [List.lookup_cons] at h
        split at h
        · exact ⟨a.1, by cases h; simp⟩
        · obtain ⟨k, hk⟩ := ih h
          exact ⟨k, by simp [hk]⟩
    obtain ⟨k, hk⟩ := this _ h
    exact key _ hk

/-- Whatever the code, even one the catalogue does not list, an error is never answered as a success. -/
theorem c115_never_success (o : Opts) (e : Err) : 400 ≤ (respondError o e).status ∧ (respondError o e).status ≤ 599 := by
  have hw : ∀ c m d, 400 ≤ (writeError o c m d).status ∧ (writeError o c m d).status ≤ 599 := fun _ _ _ => status_is_error _
  unfold respondError
  split
  · exact hw _ _ _
  · exact hw _ _ _
  · split
    · exact hw _ _ _
    · split <;> exact hw _ _ _

-- A code that is not in the catalogue.
example : (respondError {} (api "NO_SUCH_CODE" (t! "x") none)).status = 500 := by decide +kernel

/-- The same for the bulk handler, which builds its answer itself. -/
theorem c115_bulk (i : Item) (f : Fail) (e : Ending) :
    ((bulkAnswer i f e).code, (bulkAnswer i f e).status) ∈ statusByCode ∧
    (bulkAnswer i f e).code ∉ legacyToCanonical.map (·.1) := by
  have hn : ∀ c ∈ canonical, normalize c = c := by decide +kernel
  have key : ∀ c ∈ canonical, (normalize c, statusForCode c) ∈ statusByCode ∧ normalize c ∉ legacyToCanonical.map (·.1) := by
    intro c hc
    rw [hn c hc]
    exact ⟨(canonical_status c hc).1, (canonical_status c hc).2.2.2⟩
  unfold bulkAnswer
  dsimp only
  cases hm : classifyMessage (bulkText i f e) with
  | some c => exact key c (pattern_codes c (classifyIn_code hm))
  | none => exact key _ (by decide +kernel)

/-- The handlers of this model name only current codes. -/
theorem known_post (f : Fail) : Known postOpts f.err where
  leaf := by
    intro c m d h
    have : ∀ c ∈ ["NOT_FOUND", "CONFLICT", "INTERNAL_SERVER_ERROR"], c ∈ statusByCode.map (·.1) := by decide +kernel
    cases f <;> simp only [Fail.err, wrap, plain, api, Leaf.api.injEq, reduceCtorEq] at h
    all_goals exact this c (by simp [← h.1])
  default := by
    intro c h
    have : c = "TXN_VALIDATION_ERROR" := by simpa [postOpts] using h.symm
    subst this
    decide +kernel
  upgrades := by
    intro x hx
    have : x = ("GEN_NOT_FOUND", "TXN_NOT_FOUND") := by simpa [postOpts] using hx
    subst this
    decide +kernel

example : (respondError readOpts (api "NOT_FOUND" (t! "Transaction with ID 'x' not found") none)).code = "TXN_NOT_FOUND" ∧
    (respondError readOpts (api "NOT_FOUND" (t! "Transaction with ID 'x' not found") none)).status = 404 := by
  decide +kernel

/-! ### C116: what an answer gives away -/

/-- The full claim: an answer to a failure of the server does not depend on what the database or Redis said. -/
def HiddenFull : Prop :=
  (∀ step d d', postAnswer (.persist step d) = postAnswer (.persist step d')) ∧
  (∀ t t', postAnswer (.hooks t) = postAnswer (.hooks t'))

/-- The details of a typed error are passed through, driver fields included. -/
theorem c116_details_fails (step : Text) (d : Text) : (postAnswer (.persist step (some d))).details = some d := rfl

/-- A Redis error before the hooks is shown as it is. -/
theorem c116_hook_text_fails (t : Text) : (postAnswer (.hooks t)).message = t := by
  unfold postAnswer respondError
  dsimp only [Fail.err, plain]
  have ht : Err.text ⟨[], .plain t⟩ = t := rfl
  cases h : classifyMessage (Err.text ⟨[], .plain t⟩) <;> exact ht

theorem c116_full_fails : ¬ HiddenFull := by
  intro h
  have := congrArg Resp.details (h.1 [] none (some (t! "{\"Table\":\"transactions\"}")))
  cases this

/-- Without its details. -/
def Err.redact (e : Err) : Err :=
  match e.leaf with
  | .api c m _ => { e with leaf := .api c m none }
  | _ => e

theorem redact_text (e : Err) : e.redact.text = e.text := by
  unfold Err.redact
  cases h : e.leaf <;> simp [Err.text, Leaf.text, h]

/-- The part that holds: where no default code is given, two errors the classifier does not recognise
are answered alike, with a fixed text. -/
theorem c116_sanitized_partial (o : Opts) (e : Err) (s : Text) (ho : o.default = none) (hl : e.leaf = .plain s)
    (hc : classifyMessage e.text = none) (hu : o.upgrades.lookup "GEN_INTERNAL" = none) :
    respondError o e = ⟨500, "GEN_INTERNAL", t! "internal server error", none⟩ := by
  unfold respondError
  rw [hl]
  dsimp only
  rw [hc]
  dsimp only
  rw [ho]
  have hn : normalize "GEN_INTERNAL" = "GEN_INTERNAL" := by decide +kernel
  have hs : statusForCode "GEN_INTERNAL" = 500 := by decide +kernel
  unfold writeError
  dsimp only
  rw [hn, hu]
  dsimp only
  rw [hs]
  rfl

example : respondError readOpts (plain (t! "dial tcp 10.0.0.3:5432: connect: connection refused")) =
    ⟨500, "GEN_INTERNAL", t! "internal server error", none⟩ := by
  refine c116_sanitized_partial _ _ _ rfl rfl ?_ ?_ <;> decide +kernel

/-- Settlements and bulk requests flatten the errors they meet: the details never leave the server. -/
theorem c116_flattened_partial (es : List Err) (i : Item) (f f' : Fail) (e : Ending)
    (hf : f.err.redact = f'.err.redact) :
    respondError settleOpts (batchErr es) = respondError settleOpts (batchErr (es.map Err.redact)) ∧
    (respondError settleOpts (batchErr es)).details = none ∧ bulkAnswer i f e = bulkAnswer i f' e := by
  have h1 : batchErr es = batchErr (es.map Err.redact) := by
    unfold batchErr
    rw [List.map_map]
    congr 4
    exact List.map_congr_left fun x _ => (redact_text x).symm
  refine ⟨by rw [← h1], ?_, ?_⟩
  · unfold respondError
    dsimp only [batchErr, plain]
    cases classifyMessage _ <;> rfl
  · have ht : f.err.text = f'.err.text := by rw [← redact_text, hf, redact_text]
    have : bulkText i f e = bulkText i f' e := by unfold bulkText; rw [ht]
    unfold bulkAnswer
    rw [this]

example : (respondError settleOpts (batchErr [api "INTERNAL_SERVER_ERROR" (t! "Failed to record transaction")
    (some (t! "{\"Table\":\"transactions\"}"))])).details = none := by decide +kernel

/-! ### C117: whom an answer blames -/

/-- The full claim for a post: 5xx for failures of the server and for nothing else. -/
def BlameFull : Prop := ∀ f, (500 ≤ (postAnswer f).status ↔ f.kind.server = true)

/-- Redis failing before the hooks is blamed on the client. -/
theorem c117_full_fails : ¬ BlameFull := by
  intro h
  have := (h (.hooks (t! "dial tcp 10.0.0.2:6379: connect: connection refused"))).2 rfl
  revert this
  decide +kernel

theorem pattern_status_post : ∀ c ∈ messagePatterns.map (·.2), (writeError postOpts c [] none).status < 500 := by
  decide +kernel

theorem pattern_status_settle : ∀ c ∈ messagePatterns.map (·.2), (writeError settleOpts c [] none).status < 500 := by
  decide +kernel

theorem pattern_status : ∀ c ∈ messagePatterns.map (·.2), statusForCode c < 500 := by decide +kernel

theorem status_text (o : Opts) (c : String) (m m' : Text) (d d' : Option Text) :
    (writeError o c m d).status = (writeError o c m' d').status := rfl

theorem respond_plain_status (o : Opts) (e : Err) (s : Text) (hl : e.leaf = .plain s)
    (hp : ∀ c ∈ messagePatterns.map (·.2), (writeError o c [] none).status < 500)
    (c : String) (hd : o.default = some c) (hc : (writeError o c [] none).status < 500) :
    (respondError o e).status < 500 := by
  unfold respondError
  rw [hl]
  dsimp only
  cases h : classifyMessage e.text with
  | some c' => exact hp c' (classifyIn_code h)
  | none =>
    dsimp only
    rw [hd]
    exact hc

/-- The part that holds: a post is answered 5xx exactly when checking the reference, reading the
balances or persisting fails, so what is answered 5xx is the server's failure. -/
theorem c117_post_partial (f : Fail) :
    500 ≤ (postAnswer f).status ↔ f.kind = .refCheck ∨ f.kind = .balanceRead ∨ f.kind = .persist := by
  by_cases hu : f.kind.untyped = true
  · have hp : ∃ s, f.err.leaf = .plain s := by
      cases f <;> first | exact ⟨_, rfl⟩ | simp [Fail.kind, Kind.untyped] at hu
    obtain ⟨s, hs⟩ := hp
    have := respond_plain_status postOpts f.err s hs pattern_status_post "TXN_VALIDATION_ERROR" rfl (by decide +kernel)
    constructor
    · intro h
      unfold postAnswer at h
      omega
    · intro h
      rcases h with h | h | h <;> rw [h] at hu <;> cases hu
  · cases f <;> first
      | (simp [Fail.kind, Kind.untyped] at hu; done)
      | (rename_i d; exact ⟨fun _ => by simp [Fail.kind], fun _ => show 500 ≤ statusForCode "GEN_INTERNAL" by decide +kernel⟩)
      | (refine ⟨fun h => ?_, fun h => by simp [Fail.kind] at h⟩
         exfalso
         revert h
         first
           | (show ¬ 500 ≤ statusForCode "GEN_RESOURCE_LOCKED"; decide +kernel)
           | (show ¬ 500 ≤ statusForCode "TXN_NOT_FOUND"; decide +kernel)
           | (show ¬ 500 ≤ statusForCode "GEN_CONFLICT"; decide +kernel))

/-- Settling never blames the server: whatever goes wrong with the legs, the answer is a 4xx. -/
theorem c117_settle_blames_client_fails (es : List Err) : (respondError settleOpts (batchErr es)).status < 500 :=
  respond_plain_status settleOpts (batchErr es) _ rfl pattern_status_settle "GEN_BAD_REQUEST" rfl (by decide +kernel)

/-- Neither does a bulk request. -/
theorem c117_bulk_blames_client_fails (i : Item) (f : Fail) (e : Ending) : (bulkAnswer i f e).status < 500 := by
  unfold bulkAnswer
  dsimp only
  cases hm : classifyMessage (bulkText i f e) with
  | some c => exact pattern_status c (classifyIn_code hm)
  | none => decide +kernel

/-- A failed listing of the legs may be answered as if there were nothing to settle. -/
theorem c117_listing_fails (e : Err) (void : Bool) : Batch (some e) [] 0 (.ok 0) ∧
    (settleAnswer void (.ok 0)).map Resp.code = some "TXN_NOT_INFLIGHT" ∧
    (refundAnswer (.ok 0)).map Resp.code = some "TXN_NOT_FOUND" :=
  ⟨.done rfl, by cases void <;> rfl, rfl⟩

/-- When the listing works, an answer that all went through means that no leg failed. -/
theorem c117_listed_partial (errs : List Err) (n : Nat) (a : Except Err Nat) (h : Batch none errs n a) (void : Bool) :
    (settleAnswer void a = none → errs = [] ∧ 0 < n) ∧ (refundAnswer a = none → errs = [] ∧ 0 < n) := by
  cases h with
  | fetch e h => cases h
  | errs h => exact ⟨fun h => (by cases h), fun h => (by cases h)⟩
  | done h =>
    cases n with
    | zero => exact ⟨fun h => (by cases h), fun h => (by cases h)⟩
    | succ n => exact ⟨fun _ => ⟨h, Nat.succ_pos n⟩, fun _ => ⟨h, Nat.succ_pos n⟩⟩

example : Batch none [plain (t! "x")] 2 (.error (batchErr [plain (t! "x")])) := .errs (by decide)

/-! ### C121: one failure, two endpoints -/

/-- The full claim: an item of a bulk request that fails is answered like the same transaction posted alone. -/
def SameCodeFull : Prop := ∀ i f e, QuietItem i f e → (bulkAnswer i f e).code = (postAnswer f).code

def plainItem : Item := ⟨t! "1", t! "ref-1", t! "bln_1", t! "bln_2", t! "10.00"⟩

theorem plainItem_quiet : Numeral plainItem.num ∧ ∀ v ∈ plainItem.vars, Quiet v := by
  refine ⟨by unfold Numeral plainItem; decide +kernel, ?_⟩
  intro v hv
  exact quiet_of_noBlank (by revert v; decide +kernel)

theorem c121_full_fails : ¬ SameCodeFull := by
  intro h
  have := h plainItem .overdraft .kept
    ⟨plainItem_quiet.1, plainItem_quiet.2, (fun v hv => by cases hv), (fun v hv => by cases hv)⟩
  revert this
  decide +kernel

/-- Which failures are answered alike, exactly: locks, used references, missing balances, amounts that
are not positive, and insufficient funds. -/
theorem c121_same_partial (i : Item) (f : Fail) (e : Ending) (h : QuietItem i f e) :
    (bulkAnswer i f e).code = (postAnswer f).code ↔
      f.kind ∈ [.lockWait, .lockHeld, .lockRedis, .duplicate, .balanceMissing, .notPositive false, .funds] := by
  rw [(bulk_code i f e h).1, post_code f h.fail]
  have : ∀ k ∈ Kind.all, bulkCode k = postCode k ↔
      k ∈ [Kind.lockWait, .lockHeld, .lockRedis, .duplicate, .balanceMissing, .notPositive false, .funds] := by
    decide +kernel
  exact this _ f.kind.mem_all

example : (bulkAnswer plainItem .funds (.rolledBack (t! "voided"))).code = (postAnswer .funds).code := by decide +kernel

end Blnk.Errs
