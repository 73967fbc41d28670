import Verif.Lemmas.Errors

/-
The texts of the failures as fixed and unknown parts.
-/

set_option linter.unusedSimpArgs false

namespace Blnk.Errs

/-- A failure without the texts it carries. -/
inductive Kind where
  | lockWait | lockHeld | lockRedis | hooks | refCheck | duplicate | balanceMissing | balanceRead
  | notPositive (precise : Bool) | overdraft | funds | holdShort (void credit : Bool) | conflict | persist
deriving DecidableEq, Repr

def Fail.kind : Fail → Kind
  | .lockWait => .lockWait
  | .lockHeld _ => .lockHeld
  | .lockRedis _ _ => .lockRedis
  | .hooks _ => .hooks
  | .refCheck _ => .refCheck
  | .duplicate _ => .duplicate
  | .balanceMissing _ => .balanceMissing
  | .balanceRead _ => .balanceRead
  | .notPositive p => .notPositive p
  | .overdraft => .overdraft
  | .funds => .funds
  | .holdShort v c _ _ => .holdShort v c
  | .conflict _ => .conflict
  | .persist _ _ => .persist

def Kind.all : List Kind :=
  [.lockWait, .lockHeld, .lockRedis, .hooks, .refCheck, .duplicate, .balanceMissing, .balanceRead,
   .notPositive false, .notPositive true, .overdraft, .funds, .holdShort false false,
   .holdShort false true, .holdShort true false, .holdShort true true, .conflict, .persist]

theorem Kind.mem_all (k : Kind) : k ∈ Kind.all := by
  cases k with
  | notPositive b => cases b <;> decide
  | holdShort a b => cases a <;> cases b <;> decide
  | _ => decide

/-- The texts a failure carries: identifiers, keys, references, and what Redis or a step said. -/
def Fail.vars : Fail → List Text
  | .lockWait => []
  | .lockHeld k => [k, k]
  | .lockRedis k t => [k, t]
  | .hooks t => [t]
  | .refCheck _ => []
  | .duplicate r => [r]
  | .balanceMissing id => [id]
  | .balanceRead _ => []
  | .notPositive _ => []
  | .overdraft => []
  | .funds => []
  | .holdShort _ _ held need => [held, need]
  | .conflict id => [id]
  | .persist step _ => [step]

/-- The fixed parts: the first one and those after each unknown part. -/
def Kind.lits : Kind → Text × List Text
  | .lockWait => (t! "failed to acquire lock: failed to acquire all locks within the wait timeout", [])
  | .lockHeld => (t! "failed to acquire lock: " ++ t! "failed to acquire lock for key ", [t! ": " ++ t! "lock for key ", t! " is already held"])
  | .lockRedis => (t! "failed to acquire lock: " ++ t! "failed to acquire lock for key ", [t! ": ", []])
  | .hooks => ([], [[]])
  | .refCheck => (t! "transaction validation failed: INTERNAL_SERVER_ERROR: Failed to check if transaction exists", [])
  | .duplicate => (t! "transaction validation failed: " ++ t! "reference ", [t! " has already been used"])
  | .balanceMissing =>
    (t! "failed to get source and destination balances: " ++ ("NOT_FOUND".toList ++ (t! ": " ++ t! "Balance with ID '")), [t! "' not found"])
  | .balanceRead =>
    (t! "failed to get source and destination balances: INTERNAL_SERVER_ERROR: Failed to scan balance data", [])
  | .notPositive false => (t! "failed to apply transaction to balances: transaction amount must be positive", [])
  | .notPositive true =>
    (t! "failed to apply transaction to balances: transaction precise amount must be positive", [])
  | .overdraft => (t! "failed to apply transaction to balances: transaction exceeds overdraft limit", [])
  | .funds => (t! "failed to apply transaction to balances: insufficient funds in source balance", [])
  | .holdShort v c => (t! "failed to apply transaction to balances: " ++ (holdText v c), [t! ", need ", []])
  | .conflict =>
    (t! "failed to persist transaction with balances: " ++ ("CONFLICT".toList ++ (t! ": " ++ t! "Optimistic locking failure: balance with ID '")),
      [t! "' may have been updated or deleted by another transaction"])
  | .persist => (t! "failed to persist transaction with balances: " ++ ("INTERNAL_SERVER_ERROR".toList ++ t! ": "), [[]])

/-- Fixed parts with the unknown parts between them. -/
def fill (l : Text × List Text) (vs : List Text) : Text := render l.1 (vs.zip l.2)

theorem render_append (a b : Text) (r : List (Text × Text)) : render (a ++ b) r = a ++ render b r := by
  cases r with
  | nil => rfl
  | cons x r => simp [render]

theorem Fail.len (f : Fail) : f.vars.length = f.kind.lits.2.length := by
  cases f with
  | notPositive b => cases b <;> rfl
  | _ => rfl

theorem Fail.text_eq (f : Fail) : f.err.text = fill f.kind.lits f.vars := by
  cases f with
  | notPositive b => cases b <;> rfl
  | holdShort v c h n =>
    simp only [Fail.err, wrap, plain, Err.text, Leaf.text, Fail.kind, Kind.lits, Fail.vars, fill, render, List.zip_cons_cons, List.zip_nil_left,
      List.append_assoc, List.append_nil, List.nil_append]
  | lockRedis k t =>
    simp only [Fail.err, wrap, Err.text, Leaf.text, Fail.kind, Kind.lits, Fail.vars, fill, render, List.zip_cons_cons, List.zip_nil_left,
      List.append_assoc, List.append_nil, List.nil_append]
  | lockHeld k =>
    simp only [Fail.err, wrap, Err.text, Leaf.text, Fail.kind, Kind.lits, Fail.vars, fill, render, List.zip_cons_cons, List.zip_nil_left,
      List.append_assoc, List.append_nil, List.nil_append]
  | hooks t =>
    simp only [Fail.err, plain, Err.text, Leaf.text, Fail.kind, Kind.lits, Fail.vars, fill, render, List.zip_cons_cons, List.zip_nil_left,
      List.append_assoc, List.append_nil, List.nil_append]
  | duplicate r =>
    simp only [Fail.err, wrap, plain, Err.text, Leaf.text, Fail.kind, Kind.lits, Fail.vars, fill, render, List.zip_cons_cons, List.zip_nil_left,
      List.append_assoc, List.append_nil, List.nil_append]
  | balanceMissing r =>
    simp only [Fail.err, wrap, api, Err.text, Leaf.text, Fail.kind, Kind.lits, Fail.vars, fill, render, List.zip_cons_cons, List.zip_nil_left,
      List.append_assoc, List.append_nil, List.nil_append]
  | conflict r =>
    simp only [Fail.err, wrap, api, Err.text, Leaf.text, Fail.kind, Kind.lits, Fail.vars, fill, render, List.zip_cons_cons, List.zip_nil_left,
      List.append_assoc, List.append_nil, List.nil_append]
  | persist s d =>
    simp only [Fail.err, wrap, api, Err.text, Leaf.text, Fail.kind, Kind.lits, Fail.vars, fill, render, List.zip_cons_cons, List.zip_nil_left,
      List.append_assoc, List.append_nil, List.nil_append]
  | _ => rfl

theorem zip_snd {vs bs : List Text} (h : vs.length = bs.length) : (vs.zip bs).map (·.2) = bs := by
  exact List.map_snd_zip (by omega)

theorem zip_fst_mem {vs bs : List Text} {P : Text → Prop} (h : ∀ v ∈ vs, P v) : ∀ x ∈ vs.zip bs, P x.1 := by
  intro x hx
  exact h _ (List.of_mem_zip (a := x.1) (b := x.2) hx).1

/-- With quiet unknown parts the fixed parts decide. -/
theorem classify_fill {l : Text × List Text} {vs : List Text} (hl : vs.length = l.2.length)
    (hc : clear l.1 l.2 = true) (hq : ∀ v ∈ vs, Quiet v) :
    classifyMessage (fill l vs) = classifyLit messagePatterns (l.1 :: l.2) := by
  have := classify_render (b := l.1) (r := vs.zip l.2) (by rw [zip_snd hl]; exact hc) (zip_fst_mem hq)
  rw [zip_snd hl] at this
  exact this

/-- The check of the fixed parts of a failure, next to fixed words around it. -/
def clearIn (ws : List Text) (l : Text × List Text) : Bool :=
  decided (fun p => fits p l.1 l.2) messagePatterns (ws ++ l.1 :: l.2)

/-- The text `m` around a failure adds the words `ws` and no phrase. -/
theorem classify_around {ws : List Text} {l : Text × List Text} {vs : List Text} {m : Text}
    (hl : vs.length = l.2.length) (hc : clearIn ws l = true) (hq : ∀ v ∈ vs, Quiet v)
    (hw : ∀ w ∈ ws, w <:+: m) (hin : fill l vs <:+: m)
    (hout : ∀ s ∈ phrases, has s (fill l vs) = false → has s m = false) :
    classifyMessage m = classifyLit messagePatterns (ws ++ l.1 :: l.2) := by
  have h1 : ∀ p, (ws ++ l.1 :: l.2).any (has p) = true → has p m = true := by
    intro p h
    rw [List.any_append, Bool.or_eq_true] at h
    rw [has_iff]
    rcases h with h | h
    · obtain ⟨w, hw', hp⟩ := List.any_eq_true.1 h
      exact ((has_iff _ _).1 hp).trans (hw w hw')
    · have : has p (fill l vs) = true := by
        unfold fill
        apply has_render_lit
        rw [zip_snd hl]
        exact h
      exact ((has_iff _ _).1 this).trans hin
  refine classifyIn_of patterns_phrases h1 ?_ hc
  intro s hs hf hn
  rw [List.any_append, Bool.or_eq_false_iff] at hn
  apply hout s hs
  have := has_render_quiet (p := s) (b := l.1) (r := vs.zip l.2) (by rw [zip_snd hl]; exact hf)
    (zip_fst_mem (P := fun v => has s v = false) fun v hv => hq v hv s hs)
  rw [zip_snd hl, hn.2] at this
  exact this

/-! ### Bulk items and split legs -/

inductive EndKind where
  | kept | rolledBack | rollbackFailed
deriving DecidableEq, Repr

def EndKind.all : List EndKind := [.kept, .rolledBack, .rollbackFailed]

theorem EndKind.mem_all (k : EndKind) : k ∈ EndKind.all := by cases k <;> decide

def Ending.kind : Ending → EndKind
  | .kept => .kept
  | .rolledBack _ => .rolledBack
  | .rollbackFailed _ => .rollbackFailed

def Ending.vars : Ending → List Text
  | .kept => []
  | .rolledBack a => [a]
  | .rollbackFailed t => [t]

def EndKind.lits : EndKind → List Text
  | .kept => [t! ". Previous transactions were not rolled back."]
  | .rolledBack => [t! ". All transactions in this batch have been ", t! "."]
  | .rollbackFailed => [t! ". Failed to roll back all transactions: ", []]

def itemLits : List Text :=
  [t! " (Reference: ", t! ", Source: ", t! ", Destination: ", t! ", Amount: ", t! "): "]

def Item.vars (i : Item) : List Text := [i.num, i.ref, i.src, i.dst, i.amount]

theorem bulkText_eq (i : Item) (f : Fail) (e : Ending) :
    bulkText i f e = t! "failed to queue transaction " ++ (i.num ++
      render (t! " (Reference: ") ([(i.ref, t! ", Source: "), (i.src, t! ", Destination: "),
        (i.dst, t! ", Amount: "), (i.amount, t! "): ")] ++ (f.err.text :: e.vars).zip e.kind.lits)) := by
  cases e <;> simp [bulkText, Ending.text, Ending.kind, Ending.vars, EndKind.lits, render]

/-- Nothing in the fixed parts around a bulk item's failure is or can complete a phrase. -/
theorem bulk_frame : ∀ e ∈ EndKind.all, ∀ s ∈ phrases,
    fits s [] (itemLits ++ e.lits) = true ∧
      (t! "failed to queue transaction " :: [] :: itemLits ++ e.lits).any (has s) = false := by
  decide +kernel

theorem classify_bulk (i : Item) (f : Fail) (e : Ending) (hn : Numeral i.num)
    (hc : clearIn [t! "transaction"] f.kind.lits = true)
    (hi : ∀ v ∈ i.vars, Quiet v) (hf : ∀ v ∈ f.vars, Quiet v) (he : ∀ v ∈ e.vars, Quiet v) :
    classifyMessage (bulkText i f e) =
      classifyLit messagePatterns (t! "transaction" :: f.kind.lits.1 :: f.kind.lits.2) := by
  refine classify_around (ws := [t! "transaction"]) f.len hc hf ?_ ?_ ?_
  · intro w hw
    rw [List.mem_singleton] at hw
    subst hw
    rw [bulkText_eq]
    exact ((has_iff _ _).1 (by decide +kernel : has (t! "transaction") (t! "failed to queue transaction ") = true)).trans
      (List.prefix_append _ _).isInfix
  · rw [← f.text_eq]
    unfold bulkText
    simp only [List.append_assoc]
    refine ⟨t! "failed to queue transaction " ++ i.num ++ t! " (Reference: " ++ i.ref ++ t! ", Source: " ++ i.src
      ++ t! ", Destination: " ++ i.dst ++ t! ", Amount: " ++ i.amount ++ t! "): ", e.text, ?_⟩
    simp only [List.append_assoc]
  · intro s hs h
    rw [← f.text_eq] at h
    rw [bulkText_eq, has_append_numeral hs hn]
    obtain ⟨h1, h2⟩ := bulk_frame e.kind (EndKind.mem_all _) s hs
    have key := has_render_quiet (p := s) (b := [])
      (r := (i.num, t! " (Reference: ") :: ([(i.ref, t! ", Source: "), (i.src, t! ", Destination: "),
        (i.dst, t! ", Amount: "), (i.amount, t! "): ")] ++ (f.err.text :: e.vars).zip e.kind.lits))
      (by cases e <;> exact h1)
      (by
        intro x hx
        rw [List.mem_cons, List.mem_append] at hx
        rcases hx with rfl | hx | hx
        · exact hi _ (by simp [Item.vars]) s hs
        · refine hi x.1 ?_ s hs
          simp only [List.mem_cons, List.not_mem_nil, or_false] at hx
          rcases hx with rfl | rfl | rfl | rfl <;> simp [Item.vars]
        · have hx' := (List.of_mem_zip (a := x.1) (b := x.2) hx).1
          rcases List.mem_cons.1 hx' with q | q
          · rw [q]; exact h
          · exact he _ q s hs)
    simp only [render, List.nil_append] at key
    rw [key]
    rw [List.cons_append, List.any_cons, Bool.or_eq_false_iff] at h2
    rw [h2.1, Bool.false_or]
    cases e <;> exact h2.2

theorem split_frame : ∀ s ∈ phrases, fits s [] [t! ": ", []] = true ∧
    [t! "failed to record split transaction ", [], t! ": "].any (has s) = false := by decide +kernel

theorem splitText_eq (i : Text) (f : Fail) :
    (splitErr i f).text = t! "failed to record split transaction " ++ (i ++ (t! ": " ++ f.err.text)) := by
  simp [splitErr, Err.text]

theorem classify_split (i : Text) (f : Fail) (hn : Numeral i)
    (hc : clearIn [t! "transaction"] f.kind.lits = true) (hi : Quiet i) (hf : ∀ v ∈ f.vars, Quiet v) :
    classifyMessage (splitErr i f).text =
      classifyLit messagePatterns (t! "transaction" :: f.kind.lits.1 :: f.kind.lits.2) := by
  refine classify_around (ws := [t! "transaction"]) f.len hc hf ?_ ?_ ?_
  · intro w hw
    rw [List.mem_singleton] at hw
    subst hw
    rw [splitText_eq]
    exact ((has_iff _ _).1 (by decide +kernel : has (t! "transaction") (t! "failed to record split transaction ") = true)).trans
      (List.prefix_append _ _).isInfix
  · rw [← f.text_eq, splitText_eq]
    exact ⟨t! "failed to record split transaction " ++ i ++ t! ": ", [], by simp⟩
  · intro s hs h
    rw [← f.text_eq] at h
    rw [splitText_eq, has_append_numeral hs hn]
    obtain ⟨h1, h2⟩ := split_frame s hs
    have key := has_render_quiet (p := s) (b := []) (r := [(i, t! ": "), (f.err.text, [])]) h1
      (by
        intro x hx
        simp only [List.mem_cons, List.not_mem_nil, or_false] at hx
        rcases hx with rfl | rfl
        · exact hi s hs
        · exact h)
    simp only [render, List.nil_append, List.append_nil] at key
    rw [key]
    simp only [List.map_cons, List.map_nil, List.any_cons, List.any_nil, Bool.or_false, Bool.or_eq_false_iff] at h2 ⊢
    exact ⟨h2.1, h2.2.1, h2.2.2, h2.2.1⟩

/-! ### Settlements -/

inductive SKind where
  | locked (void : Bool) | lockRedis (void : Bool) | notFound | read | notInflight | voided
  | committed (void : Bool) | negative | exceeds | save (k : Kind)
deriving DecidableEq, Repr

def SKind.all : List SKind :=
  [.locked false, .locked true, .lockRedis false, .lockRedis true, .notFound, .read, .notInflight, .voided,
   .committed false, .committed true, .negative, .exceeds] ++ Kind.all.map .save

theorem SKind.mem_all (k : SKind) : k ∈ SKind.all := by
  unfold SKind.all
  rw [List.mem_append]
  cases k with
  | save k => exact .inr (List.mem_map_of_mem k.mem_all)
  | locked b => left; cases b <;> decide
  | lockRedis b => left; cases b <;> decide
  | committed b => left; cases b <;> decide
  | _ => left; decide

def SettleFail.kind : SettleFail → SKind
  | .locked v _ => .locked v
  | .lockRedis v _ => .lockRedis v
  | .notFound _ => .notFound
  | .read _ _ _ => .read
  | .notInflight => .notInflight
  | .voided => .voided
  | .committed v => .committed v
  | .negative => .negative
  | .exceeds _ _ => .exceeds
  | .save f => .save f.kind

def SettleFail.vars : SettleFail → List Text
  | .locked _ k => [k]
  | .lockRedis _ t => [t]
  | .notFound id => [id]
  | .read front m _ => [front, m]
  | .notInflight => []
  | .voided => []
  | .committed _ => []
  | .negative => []
  | .exceeds which rest => [which, rest]
  | .save f => f.vars

def SKind.lits : SKind → Text × List Text
  | .locked false => (t! "failed to acquire lock for inflight commit: lock for key ", [t! " is already held"])
  | .locked true => (t! "failed to acquire lock for inflight void: lock for key ", [t! " is already held"])
  | .lockRedis false => (t! "failed to acquire lock for inflight commit: ", [[]])
  | .lockRedis true => (t! "failed to acquire lock for inflight void: ", [[]])
  | .notFound => ("NOT_FOUND".toList ++ (t! ": " ++ t! "Transaction with ID '"), [t! "' not found"])
  | .read => ([], ["INTERNAL_SERVER_ERROR".toList ++ t! ": ", []])
  | .notInflight => (t! "transaction is not in inflight status", [])
  | .voided => (t! "transaction has already been voided", [])
  | .committed false => (t! "cannot commit. Transaction already committed", [])
  | .committed true => (t! "cannot void. Transaction already committed", [])
  | .negative => (t! "commit amount cannot be negative", [])
  | .exceeds => (t! "cannot commit more than the ", [t! " amount. ", []])
  | .save k => (t! "saving transaction to db error: " ++ k.lits.1, k.lits.2)

theorem SettleFail.len (f : SettleFail) : f.vars.length = f.kind.lits.2.length := by
  cases f with
  | save f => exact f.len
  | locked v k => cases v <;> rfl
  | lockRedis v t => cases v <;> rfl
  | committed v => cases v <;> rfl
  | _ => rfl

theorem SettleFail.text_eq (f : SettleFail) : f.err.text = fill f.kind.lits f.vars := by
  cases f with
  | save f =>
    have h := f.text_eq
    unfold fill at h
    show t! "saving transaction to db error: " ++ f.err.pre ++ f.err.leaf.text =
      render (t! "saving transaction to db error: " ++ f.kind.lits.1) (f.vars.zip f.kind.lits.2)
    rw [render_append, ← h, List.append_assoc]
    rfl
  | locked v k =>
    cases v
    · show t! "failed to acquire lock for inflight commit: " ++ [] ++ (t! "lock for key " ++ k ++ t! " is already held") =
        t! "failed to acquire lock for inflight commit: lock for key " ++ (k ++ t! " is already held")
      rw [List.append_nil, List.append_assoc]
      rfl
    · show t! "failed to acquire lock for inflight void: " ++ [] ++ (t! "lock for key " ++ k ++ t! " is already held") =
        t! "failed to acquire lock for inflight void: lock for key " ++ (k ++ t! " is already held")
      rw [List.append_nil, List.append_assoc]
      rfl
  | lockRedis v t =>
    cases v
    · show t! "failed to acquire lock for inflight commit: " ++ [] ++ t =
        t! "failed to acquire lock for inflight commit: " ++ (t ++ [])
      rw [List.append_nil, List.append_nil]
    · show t! "failed to acquire lock for inflight void: " ++ [] ++ t =
        t! "failed to acquire lock for inflight void: " ++ (t ++ [])
      rw [List.append_nil, List.append_nil]
  | committed v => cases v <;> rfl
  | notFound id =>
    show [] ++ ("NOT_FOUND".toList ++ t! ": " ++ (t! "Transaction with ID '" ++ id ++ t! "' not found")) =
      ("NOT_FOUND".toList ++ (t! ": " ++ t! "Transaction with ID '")) ++ (id ++ t! "' not found")
    simp only [List.append_assoc, List.nil_append]
  | read a b d =>
    show a ++ ("INTERNAL_SERVER_ERROR".toList ++ t! ": " ++ b) =
      [] ++ (a ++ (("INTERNAL_SERVER_ERROR".toList ++ t! ": ") ++ (b ++ [])))
    simp only [List.append_assoc, List.nil_append, List.append_nil]
  | exceeds a b =>
    show [] ++ (t! "cannot commit more than the " ++ a ++ t! " amount. " ++ b) =
      t! "cannot commit more than the " ++ (a ++ (t! " amount. " ++ (b ++ [])))
    simp only [List.append_assoc, List.nil_append, List.append_nil]
  | _ => rfl

theorem batch_frame : ∀ s ∈ phrases,
    fits s (t! "error occurred during processing: [") [t! "]"] = true ∧
      [t! "error occurred during processing: [", t! "]"].any (has s) = false := by decide +kernel

theorem batchText_eq (e : Err) :
    (batchErr [e]).text = render (t! "error occurred during processing: [") [(e.text, t! "]")] := by
  simp [batchErr, plain, Err.text, Leaf.text, render, List.intercalate]

theorem classify_batch (f : SettleFail) (hc : clearIn [] f.kind.lits = true) (hf : ∀ v ∈ f.vars, Quiet v) :
    classifyMessage (batchErr [f.err]).text = classifyLit messagePatterns (f.kind.lits.1 :: f.kind.lits.2) := by
  refine classify_around (ws := []) f.len hc hf (fun _ h => by cases h) ?_ ?_
  · rw [← f.text_eq, batchText_eq]
    exact ⟨t! "error occurred during processing: [", t! "]", by simp [render]⟩
  · intro s hs h
    rw [← f.text_eq] at h
    obtain ⟨h1, h2⟩ := batch_frame s hs
    rw [batchText_eq, has_render_quiet (r := [(f.err.text, t! "]")]) h1 (by
      intro x hx
      rw [List.mem_singleton] at hx
      subst hx
      exact h)]
    exact h2

/-! ### Lower case -/

def low (l : Text × List Text) : Text × List Text := (lower l.1, l.2.map lower)

theorem lower_render : ∀ (b : Text) (r : List (Text × Text)),
    lower (render b r) = render (lower b) (r.map fun x => (lower x.1, lower x.2))
  | b, [] => rfl
  | b, (v, b') :: r => by
    have := lower_render b' r
    simp only [lower] at this
    simp [render, lower, this]

theorem lower_fill (l : Text × List Text) (vs : List Text) : lower (fill l vs) = fill (low l) (vs.map lower) := by
  simp only [fill, lower_render, low]
  congr 1
  rw [List.zip_map]
  rfl

/-- Whether a phrase that fits between the fixed parts occurs. -/
theorem has_fill {p : Text} {l : Text × List Text} {vs : List Text} (hl : vs.length = l.2.length)
    (hf : fits p l.1 l.2 = true) (hv : ∀ v ∈ vs, has p v = false) :
    has p (fill l vs) = (l.1 :: l.2).any (has p) := by
  have := has_render (p := p) l.1 (vs.zip l.2) (by rw [zip_snd hl]; exact hf)
  rw [zip_snd hl] at this
  have h0 : ((vs.zip l.2).map (·.1)).any (has p) = false := by
    rw [List.any_eq_false]
    intro t ht
    obtain ⟨y, hy, rfl⟩ := List.mem_map.1 ht
    simp [zip_fst_mem (P := fun v => has p v = false) hv y hy]
  rw [h0, Bool.or_false] at this
  exact this

end Blnk.Errs
