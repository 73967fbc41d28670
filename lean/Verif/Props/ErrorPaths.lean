import Verif.Props.ErrorAnswers

/-
Previews against posts (C118), the decisions of the queue worker (C119) and the two ways to settle (C120).
-/

namespace Blnk.Errs

/-! ### C118: the code a preview announces -/

/-- The code a preview announces and the code the post returns; `none` when nothing stands in the way. -/
def previewOf (o : Obstacles) : Option String := (previewRejection o).map previewCode
def realOf (o : Obstacles) : Option String := (realFail o).map fun f => (postAnswer f).code

/-- What applying a transfer to its balances can fail with. -/
def Kind.applying : Kind → Bool
  | .notPositive _ => true
  | .overdraft => true
  | .funds => true
  | _ => false

/-- The obstacles are of their kinds; identifiers of balances are quiet. -/
structure Sensible (o : Obstacles) : Prop where
  apply : ∀ f, o.apply = some f → f.kind.applying = true
  same : ∀ id, o.same = some id → Quiet id

/-- The full claim: a preview announces the code the post would return. -/
def PreviewFull : Prop := ∀ o, Sensible o → previewOf o = realOf o

/-- A used reference and missing funds at once: the preview names the funds, the post the reference. -/
theorem c118_full_fails : ¬ PreviewFull := by
  intro h
  have := h ⟨some (t! "ref-1"), some .funds, none⟩
    ⟨fun f hf => (by cases hf; rfl), fun id hid => (by cases hid)⟩
  revert this
  decide +kernel

/-- A transfer of a balance to itself: the preview announces 400, the post answers 409. -/
theorem c118_self_fails : previewOf ⟨none, none, some (t! "bln_1")⟩ = some "TXN_VALIDATION_ERROR" ∧
    realOf ⟨none, none, some (t! "bln_1")⟩ = some "GEN_CONFLICT" := by decide +kernel

/-- A match among the first patterns is the answer. -/
theorem classifyIn_append {pre post : List (List Text × String)} {m : Text} :
    classifyIn (pre ++ post) m = (match classifyIn pre m with | some c => some c | none => classifyIn post m) := by
  induction pre with
  | nil => rfl
  | cons x pre ih =>
    obtain ⟨xs, xc⟩ := x
    rw [List.cons_append]
    simp only [classifyIn]
    by_cases hx : xs.all (fun s => has s m) = true
    · rw [if_pos hx, if_pos hx]
    · rw [if_neg hx, if_neg hx, ih]

theorem classifyIn_isSome {ps : List (List Text × String)} {m : Text} {x : List Text × String} (hx : x ∈ ps)
    (hm : x.1.all (fun s => has s m) = true) : ∃ c, classifyIn ps m = some c := by
  induction ps with
  | nil => cases hx
  | cons y ps ih =>
    obtain ⟨ys, yc⟩ := y
    simp only [classifyIn]
    by_cases hy : ys.all (fun s => has s m) = true
    · exact ⟨yc, by rw [if_pos hy]⟩
    · rw [if_neg hy]
      rcases List.mem_cons.1 hx with rfl | hx
      · exact absurd hm hy
      · exact ih hx

/-- Whatever the reference, a used one is classified by the first six patterns. -/
theorem duplicate_code (r : Text) : ∃ c, classifyMessage (Fail.duplicate r).err.text = some c ∧
    c ∈ (messagePatterns.take 6).map (·.2) := by
  obtain ⟨c, hc⟩ := classifyIn_isSome (ps := messagePatterns.take 6) (m := (Fail.duplicate r).err.text)
    (x := ([t! "has already been used"], "TXN_DUPLICATE_REFERENCE")) (by unfold messagePatterns; simp)
    (by simp only [List.all_cons, List.all_nil, Bool.and_true]; exact dup_lit (dup_checks.2 _ (by simp)))
  refine ⟨c, ?_, classifyIn_code hc⟩
  unfold classifyMessage
  rw [← List.take_append_drop 6 messagePatterns, classifyIn_append, hc]

theorem duplicate_post (r : Text) (c : String) (hc : classifyMessage (Fail.duplicate r).err.text = some c)
    (hm : c ∈ (messagePatterns.take 6).map (·.2)) : (postAnswer (.duplicate r)).code = c := by
  have h6 : ∀ c ∈ (messagePatterns.take 6).map (·.2), (writeError postOpts c [] none).code = c := by decide +kernel
  have : (postAnswer (.duplicate r)).code = (writeError postOpts c [] none).code := by
    unfold postAnswer respondError
    dsimp only [Fail.err, wrap, plain]
    dsimp only [Fail.err, wrap, plain] at hc
    rw [hc]
    rfl
  rw [this, h6 c hm]

theorem dup_text_eq (r : Text) :
    t! "transaction validation failed: reference " ++ r ++ t! " has already been used" = (Fail.duplicate r).err.text := by
  rw [Fail.text_eq]
  show _ = t! "transaction validation failed: reference " ++ (r ++ t! " has already been used")
  rw [List.append_assoc]

theorem applying_code (f : Fail) (h : f.kind.applying = true) :
    previewCode f.err.text = (postAnswer f).code ∧ previewCode f.err.text ∉ (messagePatterns.take 6).map (·.2) := by
  cases f with
  | notPositive b => cases b <;> decide +kernel
  | overdraft => decide +kernel
  | funds => decide +kernel
  | _ => cases h

theorem same_code (id : Text) (h : Quiet id) : previewCode (sameBalanceText id) = "TXN_VALIDATION_ERROR" := by
  have hr : sameBalanceText id = render (t! "Optimistic locking failure: balance with ID '")
      [(id, t! "' may have been updated or deleted by another transaction")] := by
    unfold sameBalanceText
    rw [List.append_assoc]
    rfl
  have hc : classifyMessage (sameBalanceText id) = none := by
    have k := classify_render (b := t! "Optimistic locking failure: balance with ID '")
      (r := [(id, t! "' may have been updated or deleted by another transaction")])
      (show clear (t! "Optimistic locking failure: balance with ID '")
        [t! "' may have been updated or deleted by another transaction"] = true by decide +kernel)
      (by
        intro x hx
        rw [List.mem_singleton.1 hx]
        exact h)
    rw [hr]
    exact k.trans (show classifyLit messagePatterns [t! "Optimistic locking failure: balance with ID '",
      t! "' may have been updated or deleted by another transaction"] = none by decide +kernel)
  unfold previewCode
  rw [hc]

/-- The part that holds, exactly: preview and post agree unless a used reference meets another obstacle
of the amounts, or the transfer is from a balance to itself and nothing else stands in the way. -/
theorem c118_agree_partial (o : Obstacles) (h : Sensible o) : previewOf o = realOf o ↔
    ¬ (o.duplicate.isSome = true ∧ o.apply.isSome = true) ∧
    ¬ (o.duplicate = none ∧ o.apply = none ∧ o.same.isSome = true) := by
  obtain ⟨dup, ap, same⟩ := o
  unfold previewOf realOf previewRejection realFail
  cases ap with
  | some f =>
    obtain ⟨h1, h2⟩ := applying_code f (h.apply f rfl)
    cases dup with
    | some r =>
      obtain ⟨c, hc, hm⟩ := duplicate_code r
      simp only [Option.map_some, Option.some.injEq, duplicate_post r c hc hm, Option.isSome_some, and_self,
        not_true_eq_false, false_and, iff_false]
      exact fun e => h2 (e ▸ hm)
    | none => simp [h1]
  | none =>
    cases dup with
    | some r =>
      obtain ⟨c, hc, hm⟩ := duplicate_code r
      have : previewCode (Fail.duplicate r).err.text = c := by unfold previewCode; rw [hc]
      simp only [Option.map_some, dup_text_eq, this, duplicate_post r c hc hm]
      simp
    | none =>
      cases same with
      | none => simp
      | some id =>
        simp only [Option.map_some, same_code id (h.same id rfl), Option.some.injEq]
        have : (postAnswer (.conflict id)).code = "GEN_CONFLICT" := rfl
        rw [this]
        simp

example : previewOf ⟨none, some .overdraft, none⟩ = realOf ⟨none, some .overdraft, none⟩ ∧
    previewOf ⟨some (t! "not found"), none, some (t! "bln_1")⟩ = some "TXN_NOT_FOUND" := by decide +kernel

/-! ### C119: the queue worker -/

/-- The wordings the worker decides by. -/
def workerPhrases : List Text :=
  [t! "duplicate key value violates unique constraint", t! "already been used", t! "insufficient funds",
   t! "transaction exceeds overdraft limit", t! "already held", t! "failed to acquire lock",
   t! "failed to acquire batch lock"]

/-- The text, in whatever case, contains none of them. -/
def QuietLow (v : Text) : Prop := ∀ s ∈ workerPhrases, has s (lower v) = false

/-- What the worker should do, by kind of failure. -/
def workerSpec (c : Cfg) (n : Nat) : Kind → Verdict
  | .duplicate => .drop
  | .overdraft => .reject
  | .funds => if c.fundRetries = false ∨ (0 < c.maxRetries ∧ c.maxRetries ≤ n) then .reject else .retry
  | .lockWait => if c.rejectContention = true ∨ (0 < c.maxRetries ∧ c.maxRetries ≤ n) then .reject else .retry
  | .lockHeld => if c.rejectContention = true ∨ (0 < c.maxRetries ∧ c.maxRetries ≤ n) then .reject else .retry
  | .lockRedis => if c.rejectContention = true ∨ (0 < c.maxRetries ∧ c.maxRetries ≤ n) then .reject else .retry
  | _ => if 0 < c.maxRetries ∧ c.maxRetries ≤ n then .reject else .retry

/-- The full claim: whatever texts are involved, a task is dropped only when its reference is used, and
given up only for lack of funds, for contention under that policy, or when its attempts are used up. -/
def WorkerFull : Prop := ∀ (c : Cfg) (n : Nat) (f : Fail), verdict c n f.err = workerSpec c n f.kind

/-- A source that does not exist and is called `reference already been used` makes the worker drop the
transaction without a trace. -/
theorem c119_full_fails : ¬ WorkerFull := by
  intro h
  have := h ⟨false, false, 5⟩ 0 (.balanceMissing (t! "reference already been used"))
  revert this
  decide +kernel

/-- One called `insufficient funds` has it rejected at once. -/
theorem c119_name_fails : verdict ⟨false, false, 5⟩ 0 (Fail.balanceMissing (t! "Insufficient Funds Account")).err = .reject := by
  decide +kernel

theorem exhausted_iff (c : Cfg) (n : Nat) : exhausted c n = true ↔ 0 < c.maxRetries ∧ c.maxRetries ≤ n := by
  unfold exhausted
  by_cases h : c.maxRetries ≤ 0
  · rw [if_pos h]
    constructor
    · intro h; cases h
    · intro h'; omega
  · rw [if_neg h, decide_eq_true_iff]
    constructor
    · intro h'; exact ⟨by omega, h'⟩
    · intro h'; exact h'.2

theorem worker_frame : ∀ k ∈ Kind.all, ∀ s ∈ workerPhrases, fits s (low k.lits).1 (low k.lits).2 = true := by
  decide +kernel

/-- The wordings each failure has itself. -/
def Kind.says (k : Kind) (s : Text) : Bool := ((low k.lits).1 :: (low k.lits).2).any (has s)

theorem low_has (f : Fail) (hq : ∀ v ∈ f.vars, QuietLow v) (s : Text) (hs : s ∈ workerPhrases) :
    has s (lower f.err.text) = f.kind.says s := by
  rw [f.text_eq, lower_fill]
  refine has_fill ?_ (worker_frame f.kind f.kind.mem_all s hs) ?_
  · rw [List.length_map, f.len]
    simp [low]
  · intro v hv
    obtain ⟨w, hw, rfl⟩ := List.mem_map.1 hv
    exact hq w hw s hs

theorem says_table : ∀ k ∈ Kind.all,
    k.says (t! "duplicate key value violates unique constraint") = false ∧
    k.says (t! "already been used") = decide (k = .duplicate) ∧
    k.says (t! "insufficient funds") = decide (k = .funds) ∧
    k.says (t! "transaction exceeds overdraft limit") = decide (k = .overdraft) ∧
    (k.says (t! "already held") || k.says (t! "failed to acquire lock") || k.says (t! "failed to acquire batch lock")) =
      decide (k = .lockWait ∨ k = .lockHeld ∨ k = .lockRedis) := by
  decide +kernel

theorem dup_reference (r : Text) : has (t! "reference") (lower (Fail.duplicate r).err.text) = true := by
  have h : has (t! "reference") (lower (t! "transaction validation failed: reference ")) = true := by decide +kernel
  rw [← dup_text_eq, List.append_assoc]
  unfold lower
  rw [List.map_append, has_iff]
  exact ((has_iff _ _).1 h).trans (List.prefix_append _ _).isInfix

theorem isDuplicate_iff (f : Fail) (hq : ∀ v ∈ f.vars, QuietLow v) : isDuplicate f.err = decide (f.kind = .duplicate) := by
  obtain ⟨h1, h2, _⟩ := says_table f.kind f.kind.mem_all
  unfold isDuplicate
  dsimp only
  rw [low_has f hq _ (by simp [workerPhrases]), h1, low_has f hq (t! "already been used") (by simp [workerPhrases]), h2]
  by_cases hk : f.kind = .duplicate
  · cases f with
    | duplicate r => rw [dup_reference r]; simp [hk]
    | _ => cases hk
  · simp [hk]

theorem isContention_iff (f : Fail) (hq : ∀ v ∈ f.vars, QuietLow v) :
    isContention f.err = decide (f.kind = .lockWait ∨ f.kind = .lockHeld ∨ f.kind = .lockRedis) := by
  obtain ⟨_, _, _, _, h5⟩ := says_table f.kind f.kind.mem_all
  have key : (has (t! "already held") (lower f.err.text) || has (t! "failed to acquire lock") (lower f.err.text) ||
      has (t! "failed to acquire batch lock") (lower f.err.text)) =
      decide (f.kind = .lockWait ∨ f.kind = .lockHeld ∨ f.kind = .lockRedis) := by
    rw [low_has f hq (t! "already held") (by simp [workerPhrases]),
      low_has f hq (t! "failed to acquire lock") (by simp [workerPhrases]),
      low_has f hq (t! "failed to acquire batch lock") (by simp [workerPhrases]), h5]
  cases f with
  | lockWait => rfl
  | lockHeld k => rfl
  | _ => exact key

/-- The part that holds: when identifiers, references and the texts of Redis and of the database keep
clear of seven wordings, the worker does what it should for every failure, setting and attempt. -/
theorem c119_worker_partial (c : Cfg) (n : Nat) (f : Fail) (hq : ∀ v ∈ f.vars, QuietLow v) :
    verdict c n f.err = workerSpec c n f.kind := by
  obtain ⟨_, _, h3, h4, _⟩ := says_table f.kind f.kind.mem_all
  unfold verdict
  rw [isDuplicate_iff f hq, isContention_iff f hq, low_has f hq (t! "insufficient funds") (by simp [workerPhrases]), h3,
    low_has f hq (t! "transaction exceeds overdraft limit") (by simp [workerPhrases]), h4]
  have he := exhausted_iff c n
  cases hk : f.kind <;> simp only [workerSpec, reduceCtorEq, decide_false, decide_true, or_self, or_false, false_or, if_true,
      Bool.false_eq_true, if_false, Bool.and_true, Bool.and_false, ← he] <;>
    cases c.fundRetries <;> cases c.rejectContention <;> cases exhausted c n <;> simp

/-- So a queued transaction disappears without a record only when its reference is used. -/
theorem c119_dropped_partial (c : Cfg) (n : Nat) (f : Fail) (hq : ∀ v ∈ f.vars, QuietLow v) :
    verdict c n f.err = .drop ↔ ∃ r, f = .duplicate r := by
  rw [c119_worker_partial c n f hq]
  constructor
  · intro h
    cases f with
    | duplicate r => exact ⟨r, rfl⟩
    | _ =>
      simp only [Fail.kind, workerSpec] at h
      first
        | (cases h; done)
        | (split at h <;> cases h)
  · rintro ⟨r, rfl⟩
    rfl

/-- And with unlimited attempts no failure of the server makes it give up, unless contention does. -/
theorem c119_patient_partial (c : Cfg) (n : Nat) (f : Fail) (hq : ∀ v ∈ f.vars, QuietLow v) (hs : f.kind.server = true)
    (hm : c.maxRetries ≤ 0) (hr : c.rejectContention = false) : verdict c n f.err = .retry := by
  rw [c119_worker_partial c n f hq]
  have : ¬ (0 < c.maxRetries ∧ c.maxRetries ≤ n) := by omega
  cases hk : f.kind <;> rw [hk] at hs <;> simp [Kind.server] at hs <;> simp [workerSpec, this, hr]

/-- With the contention policy, Redis being away is taken for contention and the transaction is rejected. -/
theorem c119_redis_fails : (Fail.lockRedis (t! "bln_1") (t! "dial tcp: connection refused")).kind.server = true ∧
    verdict ⟨false, true, 0⟩ 0 (Fail.lockRedis (t! "bln_1") (t! "dial tcp: connection refused")).err = .reject := by
  decide +kernel

example : verdict ⟨true, false, 3⟩ 2 Fail.funds.err = .retry ∧ verdict ⟨true, false, 3⟩ 3 Fail.funds.err = .reject ∧
    verdict ⟨false, false, 3⟩ 0 (Fail.duplicate (t! "ref-1")).err = .drop := by decide +kernel

/-! ### C120: settling alone and in bulk -/

/-- The code of `PUT /transactions/inflight/{id}` with `skip_queue`, by failure of the only leg. -/
def settleCode : SKind → String
  | .locked _ => "GEN_RESOURCE_LOCKED"
  | .lockRedis _ => "GEN_RESOURCE_LOCKED"
  | .notFound => "TXN_NOT_FOUND"
  | .read => "GEN_BAD_REQUEST"
  | .notInflight => "TXN_NOT_INFLIGHT"
  | .voided => "TXN_ALREADY_VOIDED"
  | .committed _ => "TXN_ALREADY_COMMITTED"
  | .negative => "GEN_BAD_REQUEST"
  | .exceeds => "TXN_COMMIT_AMOUNT_EXCEEDED"
  | .save k => bulkCode k

/-- The code of the same failure for an item of the bulk endpoint. -/
def itemCode : SKind → String
  | .locked _ => "LOCKED"
  | .lockRedis _ => "LOCKED"
  | .notFound => "NOT_FOUND"
  | .read => "INTERNAL_ERROR"
  | .notInflight => "NOT_INFLIGHT"
  | .voided => "ALREADY_VOIDED"
  | .committed _ => "ALREADY_COMMITTED"
  | .negative => "INTERNAL_ERROR"
  | .exceeds => "INVALID_AMOUNT"
  | .save .lockWait => "LOCKED"
  | .save .lockHeld => "LOCKED"
  | .save .lockRedis => "LOCKED"
  | .save .balanceMissing => "NOT_FOUND"
  | .save _ => "INTERNAL_ERROR"

theorem settle_clear : ∀ k ∈ SKind.all, k ≠ .notFound → clearIn [] k.lits = true ∧
    classifyLit messagePatterns (k.lits.1 :: k.lits.2) =
      (if settleCode k = "GEN_BAD_REQUEST" then none else some (settleCode k)) := by decide +kernel

theorem settle_write_code : ∀ k ∈ SKind.all, ∀ m d, (writeError settleOpts (settleCode k) m d).code = settleCode k := by
  intro k hk m d
  have : ∀ k ∈ SKind.all, normalize (settleCode k) = settleCode k ∧ settleOpts.upgrades.lookup (settleCode k) = none := by
    decide +kernel
  obtain ⟨h1, h2⟩ := this k hk
  unfold writeError
  dsimp only
  rw [h1, h2]

/-- The code of a commit or void made at once. -/
theorem settle_code (f : SettleFail) (hk : f.kind ≠ .notFound) (hq : ∀ v ∈ f.vars, Quiet v) :
    (respondError settleOpts (batchErr [f.err])).code = settleCode f.kind := by
  obtain ⟨h1, h2⟩ := settle_clear f.kind f.kind.mem_all hk
  have h := classify_batch f h1 hq
  rw [h2] at h
  rw [respond_plain settleOpts _ "GEN_BAD_REQUEST" rfl rfl ⟨_, rfl⟩ (settleCode f.kind) h]
  exact settle_write_code _ f.kind.mem_all _ _

/-- The wordings the bulk endpoint decides by. -/
def itemPhrases : List Text :=
  [t! "not found", t! "no rows in result set", t! "has already been voided", t! "Transaction already committed",
   t! "not in inflight status", t! "cannot commit more than", t! "failed to acquire lock"]

theorem itemPhrases_sub : ∀ s ∈ itemPhrases, s ∈ phrases := by decide +kernel

theorem item_frame : ∀ k ∈ SKind.all, ∀ s ∈ itemPhrases, fits s k.lits.1 k.lits.2 = true := by decide +kernel

def SKind.says (k : SKind) (s : Text) : Bool := (k.lits.1 :: k.lits.2).any (has s)

theorem item_has (f : SettleFail) (hq : ∀ v ∈ f.vars, Quiet v) (s : Text) (hs : s ∈ itemPhrases) :
    has s f.err.text = f.kind.says s := by
  rw [f.text_eq]
  exact has_fill f.len (item_frame f.kind f.kind.mem_all s hs) (fun v hv => hq v hv s (itemPhrases_sub s hs))

/-- `classifyInflight` on what a failure says itself. -/
def itemPick (says : Text → Bool) : String :=
  if says (t! "no rows in result set") || says (t! "not found") then "NOT_FOUND"
  else if says (t! "has already been voided") then "ALREADY_VOIDED"
  else if says (t! "Transaction already committed") then "ALREADY_COMMITTED"
  else if says (t! "not in inflight status") then "NOT_INFLIGHT"
  else if says (t! "cannot commit more than") then "INVALID_AMOUNT"
  else if says (t! "failed to acquire lock") then "LOCKED"
  else "INTERNAL_ERROR"

theorem item_table : ∀ k ∈ SKind.all, itemPick k.says = itemCode k := by decide +kernel

theorem inflight_pick (m : Text) : classifyInflight m = itemPick (fun s => has s m) := by
  have a1 : has (t! "not found") (t! "transaction not found") = true := by decide +kernel
  have a2 : has (t! "Transaction already committed") (t! "cannot void. Transaction already committed") = true := by
    decide +kernel
  have m1 : has (t! "not found") m = false → has (t! "transaction not found") m = false := has_false_mono a1
  have m2 : has (t! "Transaction already committed") m = false →
      has (t! "cannot void. Transaction already committed") m = false := has_false_mono a2
  unfold classifyInflight itemPick
  dsimp only
  have e1 : (has (t! "transaction not found") m || has (t! "no rows in result set") m || has (t! "not found") m) =
      (has (t! "no rows in result set") m || has (t! "not found") m) := by
    cases h : has (t! "not found") m
    · rw [m1 h]; simp
    · simp
  have e2 : (has (t! "Transaction already committed") m || has (t! "cannot void. Transaction already committed") m) =
      has (t! "Transaction already committed") m := by
    cases h : has (t! "Transaction already committed") m
    · rw [m2 h]; rfl
    · rfl
  rw [e1, e2]

theorem item_code (f : SettleFail) (hq : ∀ v ∈ f.vars, Quiet v) : classifyInflight f.err.text = itemCode f.kind := by
  rw [inflight_pick, ← item_table f.kind f.kind.mem_all]
  unfold itemPick
  dsimp only
  simp only [item_has f hq _ (show t! "no rows in result set" ∈ itemPhrases by simp [itemPhrases]),
    item_has f hq _ (show t! "not found" ∈ itemPhrases by simp [itemPhrases]),
    item_has f hq _ (show t! "has already been voided" ∈ itemPhrases by simp [itemPhrases]),
    item_has f hq _ (show t! "Transaction already committed" ∈ itemPhrases by simp [itemPhrases]),
    item_has f hq _ (show t! "not in inflight status" ∈ itemPhrases by simp [itemPhrases]),
    item_has f hq _ (show t! "cannot commit more than" ∈ itemPhrases by simp [itemPhrases]),
    item_has f hq _ (show t! "failed to acquire lock" ∈ itemPhrases by simp [itemPhrases])]

/-- The refusals a client can act on, with their names at the single and at the bulk endpoint. -/
inductive Refusal where
  | busy | notInflight | voided | committed | tooMuch
deriving DecidableEq, Repr

def Refusal.single : Refusal → String
  | .busy => "GEN_RESOURCE_LOCKED"
  | .notInflight => "TXN_NOT_INFLIGHT"
  | .voided => "TXN_ALREADY_VOIDED"
  | .committed => "TXN_ALREADY_COMMITTED"
  | .tooMuch => "TXN_COMMIT_AMOUNT_EXCEEDED"

def Refusal.bulk : Refusal → String
  | .busy => "LOCKED"
  | .notInflight => "NOT_INFLIGHT"
  | .voided => "ALREADY_VOIDED"
  | .committed => "ALREADY_COMMITTED"
  | .tooMuch => "INVALID_AMOUNT"

def SettleFail.refusal : SettleFail → Option Refusal
  | .locked _ _ => some .busy
  | .notInflight => some .notInflight
  | .voided => some .voided
  | .committed _ => some .committed
  | .exceeds _ _ => some .tooMuch
  | _ => none

/-- The full claim: a hold that cannot be settled is refused alike by the synchronous endpoint, the
queued one and the bulk one, also when it does not exist, for which the synchronous one finds no leg. -/
def SettleFull : Prop :=
  (∀ (f : SettleFail) (r : Refusal), f.refusal = some r → (respondError settleOpts (batchErr [f.err])).code = r.single ∧
    (respondError settleOpts f.err).code = r.single ∧ classifyInflight f.err.text = r.bulk) ∧
  (∀ id void, (settleAnswer void (.ok 0)).map Resp.code = some (respondError settleOpts (SettleFail.notFound id).err).code)

/-- An unknown id is 400 `TXN_NOT_INFLIGHT` at once, 404 `TXN_NOT_FOUND` when queued. -/
theorem c120_full_fails : ¬ SettleFull := by
  intro h
  have := h.2 (t! "txn_1") false
  revert this
  decide +kernel

/-- A currency with the words `not found` in it makes the bulk endpoint report a missing transaction. -/
theorem c120_currency_fails :
    classifyInflight (SettleFail.exceeds (t! "remaining") (t! "Available: not found1.00, Requested: not found2.00")).err.text
      = "NOT_FOUND" := by decide +kernel

/-- A negative commit amount is a bad request alone and an internal error in bulk. -/
theorem c120_negative_fails : (respondError settleOpts (batchErr [SettleFail.negative.err])).code = "GEN_BAD_REQUEST" ∧
    classifyInflight SettleFail.negative.err.text = "INTERNAL_ERROR" := by decide +kernel

/-- The part that holds: with quiet amounts and currencies the five refusals are told alike on all three ways. -/
theorem c120_same_partial (f : SettleFail) (r : Refusal) (hr : f.refusal = some r) (hq : ∀ v ∈ f.vars, Quiet v) :
    (respondError settleOpts (batchErr [f.err])).code = r.single ∧
    (respondError settleOpts f.err).code = r.single ∧ classifyInflight f.err.text = r.bulk := by
  have hk : f.kind ≠ .notFound := by
    intro h
    cases f <;> simp [SettleFail.kind] at h
    cases hr
  have hs : settleCode f.kind = r.single ∧ itemCode f.kind = r.bulk := by
    cases f <;> simp only [SettleFail.refusal, Option.some.injEq, reduceCtorEq] at hr <;> subst hr <;> exact ⟨rfl, rfl⟩
  refine ⟨(settle_code f hk hq).trans hs.1, ?_, (item_code f hq).trans hs.2⟩
  rw [← hs.1]
  have plainCase : ∀ s, f.err.leaf = .plain s → (respondError settleOpts f.err).code = settleCode f.kind := by
    intro s hl
    obtain ⟨h1, h2⟩ := settle_clear f.kind f.kind.mem_all hk
    have h : classifyMessage f.err.text = classifyLit messagePatterns ([] ++ f.kind.lits.1 :: f.kind.lits.2) := by
      rw [f.text_eq]
      exact classify_around (ws := []) f.len h1 hq (fun _ h => by cases h) (List.infix_refl _) (fun _ _ h => h)
    rw [List.nil_append, h2] at h
    rw [respond_plain settleOpts _ "GEN_BAD_REQUEST" rfl rfl ⟨s, hl⟩ (settleCode f.kind) h]
    exact settle_write_code _ f.kind.mem_all _ _
  cases f with
  | locked v k => rfl
  | notInflight => exact plainCase _ rfl
  | voided => exact plainCase _ rfl
  | committed v => exact plainCase _ rfl
  | exceeds a b => exact plainCase _ rfl
  | _ => cases hr

/-- And every other failure of a leg, so that nothing is left open: what each endpoint says. -/
theorem c120_table_partial (f : SettleFail) (hq : ∀ v ∈ f.vars, Quiet v) :
    (f.kind ≠ .notFound → (respondError settleOpts (batchErr [f.err])).code = settleCode f.kind) ∧
    classifyInflight f.err.text = itemCode f.kind :=
  ⟨fun hk => settle_code f hk hq, item_code f hq⟩

example : (respondError settleOpts (batchErr [(SettleFail.exceeds (t! "remaining") (t! "Available: USD1.00, Requested: USD2.00")).err])).code
    = "TXN_COMMIT_AMOUNT_EXCEEDED" := by decide +kernel

end Blnk.Errs
