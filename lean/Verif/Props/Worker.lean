import Verif.Model.Worker
import Verif.Props.Queue
/-
C31 (the worker never drops a transaction silently) and C32 (recovery is bounded).
-/
namespace Blnk.Queue
open Blnk

/-! ### Texts -/

theorem isPrefixOf_append {sub a b : List Char} (h : sub.isPrefixOf a = true) : sub.isPrefixOf (a ++ b) = true := by
  rw [List.isPrefixOf_iff_prefix] at h ⊢
  exact h.trans (List.prefix_append a b)

theorem contains_left {sub : List Char} : ∀ {a b : List Char}, containsChars sub a = true → containsChars sub (a ++ b) = true
  | [], b, h => by
    simp only [containsChars, List.isEmpty_iff] at h
    subst h
    cases b <;> simp [containsChars]
  | c :: cs, b, h => by
    simp only [containsChars, Bool.or_eq_true, List.cons_append] at h ⊢
    rcases h with h | h
    · exact .inl (isPrefixOf_append (a := c :: cs) h)
    · exact .inr (contains_left h)

theorem contains_right {sub : List Char} : ∀ {a b : List Char}, containsChars sub b = true → containsChars sub (a ++ b) = true
  | [], _, h => h
  | c :: cs, b, h => by
    simp only [containsChars, List.cons_append, Bool.or_eq_true]
    exact .inr (contains_right h)

theorem says_left {a b sub : String} (h : says a sub = true) : says (a ++ b) sub = true := by
  simp only [says, String.toList_append, List.map_append]
  exact contains_left h

theorem says_right {a b sub : String} (h : says b sub = true) : says (a ++ b) sub = true := by
  simp only [says, String.toList_append, List.map_append]
  exact contains_right h

/-- The refusal of a used reference is always recognised, whatever the reference contains. -/
theorem duplicate_recognised (db : DB) (t : Txn) : isDuplicateText (errText db t .duplicateRef) = true := by
  have h1 : says (errText db t .duplicateRef) "reference" = true := says_left (says_left (by decide +kernel))
  have h2 : says (errText db t .duplicateRef) "already been used" = true := says_right (by decide +kernel)
  simp [isDuplicateText, h1, h2]

theorem balText_not_duplicate (e : BalErr) : isDuplicateText (balText e) = false := by
  cases e <;> decide +kernel

/-! ### The parts of a delivery -/

theorem acts_txns (cfg : Cfg) (as : List Act) : ∀ db, ∃ new, (acts cfg db as).txns = db.txns ++ new := by
  induction as with
  | nil => intro db; exact ⟨[], by simp [acts]⟩
  | cons a as ih =>
    intro db
    obtain ⟨n1, e1⟩ := act_txns cfg db a
    obtain ⟨n2, e2⟩ := ih (act cfg db a)
    exact ⟨n1 ++ n2, by rw [acts, e2, e1, List.append_assoc]⟩

theorem acts_inv {cfg : Cfg} {as : List Act} : ∀ {db : DB}, Inv db → Inv (acts cfg db as) := by
  induction as with
  | nil => intro db h; exact h
  | cons a as ih => intro db h; exact ih (act_inv h)

theorem tryBatch_spec {cfg : Cfg} {db : DB} {t : Txn} {sibs : List Txn} (hi : Inv db) :
    Inv (tryBatch cfg db t sibs).1 ∧ (∀ x ∈ db.txns, x ∈ (tryBatch cfg db t sibs).1.txns) ∧
    ((tryBatch cfg db t sibs).2 = true → ∃ r ∈ (tryBatch cfg db t sibs).1.txns, r.reference = t.reference ∧ ¬ waiting r) := by
  unfold tryBatch
  split
  · exact ⟨hi, fun _ h => h, by simp⟩
  · rename_i sibs' _
    have i := step_inv (cfg := cfg) hi (.batch (t :: sibs))
    have g := grow (step_txns cfg db (.batch (t :: sibs)))
    simp only [step] at i g
    cases h : recordBatch cfg db (t :: sibs) with
    | mk db' o =>
      rw [h] at i g
      cases o with
      | posted rows =>
        refine ⟨i, g, fun _ => ?_⟩
        have hp : (recordBatch cfg db (t :: sibs)).2 = .posted rows := by rw [h]
        obtain ⟨_, _, h3, h4⟩ := recordBatch_posted_rows hi hp
        obtain ⟨r, hr, e, hn⟩ := h4 t (by simp)
        rw [h] at h3
        exact ⟨r, by simp only [] at h3 ⊢; rw [h3]; exact List.mem_append_right _ hr, e, hn⟩
      | discarded => exact ⟨i, g, by simp⟩
      | refused e => exact ⟨i, g, by simp⟩

theorem doReject_spec {cfg : Cfg} {e : Env} {db : DB} {t : Txn} :
    (∀ x ∈ db.txns, x ∈ (doReject cfg e db t).1.txns) ∧
    ((doReject cfg e db t).2 = .ack → rejectedRow t ∈ (doReject cfg e db t).1.txns) ∧
    ((doReject cfg e db t).2 = .retry → e.rejectFault = true ∨ e.afterReject = true ∨
      RefUsed db t.reference ∨ db.hasTxnId t.id = true) := by
  have g := grow (step_txns cfg db (.store (rejectedRow t)))
  unfold doReject
  split
  · rename_i h; exact ⟨fun _ h => h, by simp, fun _ => .inl h⟩
  · cases hs : db.insertTxn (rejectedRow t) with
    | ok db' =>
      simp only [step, hs] at g ⊢
      refine ⟨g, ?_, ?_⟩
      · obtain ⟨_, _, rfl⟩ := insertTxn_ok hs; intro _; simp
      · intro h
        cases ha : e.afterReject with
        | true => exact .inr (.inl rfl)
        | false => simp [ha] at h
    | error err =>
      simp only [step, hs] at g ⊢
      refine ⟨g, by simp, fun _ => ?_⟩
      simp only [DB.insertTxn] at hs
      by_cases h1 : db.hasTxnId t.id = true
      · exact .inr (.inr (.inr h1))
      · by_cases h2 : db.hasRef t.reference = true
        · exact .inr (.inr (.inl (hasRef_iff.1 h2)))
        · simp [rejectedRow, h1, h2] at hs

/-- An accepted or queued transaction is never silently discarded for a zero amount. -/
theorem recordSingle_not_discarded {cfg : Cfg} {db : DB} {t : Txn} {n1 n2 : String} (h : t.Plain) :
    (recordSingle cfg db t n1 n2).2 ≠ .discarded := by
  intro hd
  unfold recordSingle at hd
  split at hd
  · cases hd
  · split at hd
    · cases hd
    · rename_i db2 did h2
      unfold postResolved at hd
      split at hd
      · cases hd
      · rename_i hn
        generalize ht : ({ t with source := _, destination := did } : Txn) = t' at hn
        have hp : t'.Plain := by rw [← ht]; exact h
        unfold prepareSingle at hn
        split at hn
        · cases hn
        · split at hn
          · rename_i s d _ _
            simp only [applyToBalances, bind, Except.bind] at hn
            split at hn
            · cases hn
            · rename_i x hx
              split at hx
              · cases hx
              · rename_i s' hs'
                obtain ⟨p, h0, e, _⟩ := applySource_pos hp hs'
                split at hn
                · rename_i hz
                  rw [finalRow_plain hp, e] at hz
                  simp at hz; omega
                · cases hn
          all_goals cases hn
      · split at hd <;> cases hd

theorem onError_spec (w : WCfg) (e : Env) (retry : Nat) (db : DB) (t : Txn) (msg : String) :
    (∀ x ∈ db.txns, x ∈ (onError w e retry db t msg).1.txns) ∧
    ((onError w e retry db t msg).2 = .ack → isDuplicateText msg = true ∨ rejectedRow t ∈ (onError w e retry db t msg).1.txns) ∧
    ((onError w e retry db t msg).2 = .retry → w.exhausted retry = true →
      e.rejectFault = true ∨ e.afterReject = true ∨ RefUsed (onError w e retry db t msg).1 t.reference ∨
      (onError w e retry db t msg).1.hasTxnId t.id = true) := by
  have g := grow (acts_txns w.base e.gap4 db)
  obtain ⟨r1, r2, r3⟩ := doReject_spec (cfg := w.base) (e := e) (db := acts w.base db e.gap4) (t := t)
  have r3' : (doReject w.base e (acts w.base db e.gap4) t).2 = .retry → e.rejectFault = true ∨ e.afterReject = true ∨
      RefUsed (doReject w.base e (acts w.base db e.gap4) t).1 t.reference ∨
      (doReject w.base e (acts w.base db e.gap4) t).1.hasTxnId t.id = true := by
    intro h
    rcases r3 h with h | h | ⟨x, hx, ex⟩ | h
    · exact .inl h
    · exact .inr (.inl h)
    · exact .inr (.inr (.inl ⟨x, r1 x hx, ex⟩))
    · refine .inr (.inr (.inr ?_))
      simp only [DB.hasTxnId, List.any_eq_true] at h ⊢
      obtain ⟨x, hx, ex⟩ := h
      exact ⟨x, r1 x hx, ex⟩
  have hrej : (∀ x ∈ db.txns, x ∈ (doReject w.base e (acts w.base db e.gap4) t).1.txns) := fun x hx => r1 x (g x hx)
  unfold onError
  split
  · exact ⟨fun _ h => h, fun _ => .inl (by assumption), by simp⟩
  · split
    · split
      · exact ⟨hrej, fun h => .inr (r2 h), fun h _ => r3' h⟩
      · rename_i h
        refine ⟨fun _ h => h, by simp, fun _ hx => ?_⟩
        simp [hx] at h
    · split
      · exact ⟨hrej, fun h => .inr (r2 h), fun h _ => r3' h⟩
      · split
        · exact ⟨hrej, fun h => .inr (r2 h), fun h _ => r3' h⟩
        · split
          · exact ⟨hrej, fun h => .inr (r2 h), fun h _ => r3' h⟩
          · rename_i h
            exact ⟨fun _ h => h, by simp, fun _ hx => absurd hx h⟩

/-- No text of a failure other than a used reference reads as one: the client's account names and
the environment's error do not contain the words the worker looks for. -/
structure Quiet (e : Env) (t : Txn) : Prop where
  fault : ∀ msg, e.fault = some msg → isDuplicateText msg = false
  source : isDuplicateText (notFoundText t.source) = false
  destination : isDuplicateText (notFoundText t.destination) = false
  conflict : isDuplicateText (conflictText t.source) = false

seal isDuplicateText in
theorem quiet_err {e : Env} {db : DB} {t : Txn} {err : OpErr} (h : Quiet e t) (hd : isDuplicateText (errText db t err) = true) :
    err = .duplicateRef := by
  have no : isDuplicateText (errText db t err) = false → err = .duplicateRef := fun x => by rw [x] at hd; exact Bool.noConfusion hd
  cases err with
  | duplicateRef => rfl
  | bal b => exact no (balText_not_duplicate b)
  | balanceNotFound =>
    have e : errText db t .balanceNotFound = notFoundText (if (db.find t.source).isNone then t.source else t.destination) := rfl
    by_cases hn : (db.find t.source).isNone = true
    · rw [if_pos hn] at e; exact no (e ▸ h.source)
    · rw [if_neg hn] at e; exact no (e ▸ h.destination)
  | conflict => exact no h.conflict
  | duplicateId =>
    exact no (show isDuplicateText "failed to persist transaction with balances: INTERNAL_SERVER_ERROR: Failed to record transaction" = false by decide +kernel)
  | balanceExists =>
    exact no (show isDuplicateText "failed to resolve balance IDs: CONFLICT: Balance already exists" = false by decide +kernel)
  | mixedCurrencies => exact no (show isDuplicateText "coalescing batch contains multiple currencies" = false by decide +kernel)
  | missingRef => exact no (show isDuplicateText "batch transaction validation failed" = false by decide +kernel)
  | zeroAmount =>
    exact no (show isDuplicateText "batch coalescing does not support zero-amount transactions" = false by decide +kernel)

theorem resolve_err {db : DB} {i c n : String} {err : OpErr} (h : db.resolve i c n = .error err) : err = .balanceExists := by
  simp only [DB.resolve] at h
  split at h
  · split at h
    · cases h
    · split at h
      · cases h
      · rename_i e he
        cases h
        simp only [DB.createBalance] at he
        split at he
        · exact (Except.error.inj he).symm
        · split at he
          · exact (Except.error.inj he).symm
          · cases he
  · cases h

theorem updateRows_err : ∀ {bs rows : List Balance} {err : OpErr}, updateRows rows bs = .error err → err = .conflict
  | [], _, _, h => by cases h
  | b :: bs, rows, err, h => by
    simp only [updateRows] at h
    split at h
    · exact updateRows_err h
    · rename_i e he
      cases h
      simp only [updateRow] at he
      split at he
      · cases he
      · exact (Except.error.inj he).symm

theorem persist_dup {db : DB} {r : Txn} {bs : List Balance} (h : db.persist { rows := [r], balances := bs } = .error .duplicateRef) :
    db.hasRef r.reference = true := by
  simp only [DB.persist] at h
  split at h
  · rename_i e he
    have := updateRows_err he
    subst this
    cases h
  · simp only [DB.insertTxns] at h
    split at h
    · cases h
    · rename_i e he
      cases h
      simp only [DB.insertTxn] at he
      split at he
      · cases he
      · split at he
        · rename_i hr; exact hr
        · cases he

/-- A single attempt that is refused for a used reference met a stored row with that reference. -/
theorem recordSingle_duplicate {cfg : Cfg} {db : DB} {t : Txn} {n1 n2 : String}
    (h : (recordSingle cfg db t n1 n2).2 = .refused .duplicateRef) : RefUsed db t.reference := by
  unfold recordSingle at h
  split at h
  · rename_i err he
    have := resolve_err he
    simp only [Outcome.refused.injEq] at h; rw [h] at this; cases this
  · rename_i db1 sid h1
    split at h
    · rename_i err he
      have := resolve_err he
      simp only [Outcome.refused.injEq] at h; rw [h] at this; cases this
    · rename_i db2 did h2
      have e : db2.txns = db.txns := ((resolve_onlyOpened h1).trans (resolve_onlyOpened h2)).txns
      have back : RefUsed db2 t.reference → RefUsed db t.reference := by
        rintro ⟨x, hx, ex⟩; exact ⟨x, e ▸ hx, ex⟩
      unfold postResolved at h
      split at h
      · rename_i err he
        simp only [Outcome.refused.injEq] at h; subst h
        unfold prepareSingle at he
        split at he
        · rename_i hr; exact back (hasRef_iff.1 hr)
        · split at he
          · split at he
            · cases he
            · split at he <;> cases he
          · cases he
      · cases h
      · rename_i wk hw
        split at h
        · cases h
        · rename_i err hp
          simp only [Outcome.refused.injEq] at h; subst h
          obtain ⟨hf, s, d, s', d', _, _, _, _, rfl⟩ := prepareSingle_some hw
          have k := finalRow_keeps { t with source := sid, destination := did }
          have := persist_dup hp
          rw [k.1] at this
          exact back (hasRef_iff.1 this)

theorem recordSingle_posted_plain {cfg : Cfg} {db : DB} {t : Txn} {n1 n2 : String} {o : Outcome} (hp : t.Plain)
    (h : (recordSingle cfg db t n1 n2).2 = o) : (∃ rows, o = .posted rows) ∨ ∃ err, o = .refused err := by
  cases o with
  | posted rows => exact .inl ⟨rows, rfl⟩
  | discarded => exact absurd h (recordSingle_not_discarded hp)
  | refused err => exact .inr ⟨err, rfl⟩

theorem singleAttempt_spec {w : WCfg} {e : Env} {retry : Nat} {db : DB} {t : Txn} (hp : t.Plain) (hq : Quiet e t) :
    (singleAttempt w e retry db t).2 = .ack →
      ∃ r ∈ (singleAttempt w e retry db t).1.txns, r.reference = t.reference ∧ (r ∈ db.txns ∨ ¬ waiting r) := by
  unfold singleAttempt
  split
  · rename_i msg hm
    obtain ⟨_, h2, h3⟩ := onError_spec w e retry db t msg
    intro h
    rcases h2 h with h | h
    · rw [hq.fault msg hm] at h; cases h
    · exact ⟨_, h, rfl, .inr (by simp [waiting, rejectedRow])⟩
  · cases ho : recordSingle w.base db t e.n1 e.n2 with
    | mk db' o =>
      have ho2 : (recordSingle w.base db t e.n1 e.n2).2 = o := by rw [ho]
      have gr := grow (recordSingle_txns w.base db t e.n1 e.n2)
      rw [ho] at gr
      rcases recordSingle_posted_plain hp ho2 with ⟨rows, rfl⟩ | ⟨err, rfl⟩
      · obtain ⟨_, r, hr, er, hn⟩ := recordSingle_posted_settled ho2
        rw [ho] at hr
        exact fun _ => ⟨r, hr, er, .inr hn⟩
      · obtain ⟨h1, h2, h3⟩ := onError_spec w e retry db' t (errText db' t err)
        intro h
        rcases h2 h with h | h
        · have := quiet_err hq h
          subst this
          obtain ⟨x, hx, ex⟩ := recordSingle_duplicate ho2
          exact ⟨x, h1 x (gr x hx), ex, .inl hx⟩
        · exact ⟨_, h, rfl, .inr (by simp [waiting, rejectedRow])⟩

theorem singleAttempt_limit {w : WCfg} {e : Env} {retry : Nat} {db : DB} {t : Txn}
    (hr : (singleAttempt w e retry db t).2 = .retry) (hx : w.exhausted retry = true) :
    e.rejectFault = true ∨ e.afterReject = true ∨ RefUsed (singleAttempt w e retry db t).1 t.reference ∨
      (singleAttempt w e retry db t).1.hasTxnId t.id = true := by
  revert hr
  unfold singleAttempt
  split
  · rename_i msg _
    exact fun hr => (onError_spec w e retry db t msg).2.2 hr hx
  · split
    · rename_i db' err _
      exact fun hr => (onError_spec w e retry db' t (errText db' t err)).2.2 hr hx
    · simp

theorem waiting.plain {t : Txn} (h : waiting t) : t.Plain := by
  rcases h with h | h <;> exact ⟨by rw [h]; decide, by rw [h]; decide⟩

theorem deliver_spec {w : WCfg} {e : Env} {retry : Nat} {db : DB} {t : Txn} (hi : Inv db) (hp : t.Plain) (hq : Quiet e t) :
    (deliver w e retry db t).2 = .ack → RefUsed (deliver w e retry db t).1 t.reference := by
  obtain ⟨i1, g1, p1⟩ := tryBatch_spec (cfg := w.base) (t := t) (sibs := e.sibs1) hi
  have i1' := acts_inv (cfg := w.base) (as := e.gap1) i1
  have g1' := grow (acts_txns w.base e.gap1 (tryBatch w.base db t e.sibs1).1)
  have h2 : Inv (if e.hot = true then tryBatch w.base (acts w.base (tryBatch w.base db t e.sibs1).1 e.gap1) t e.sibs2
        else (acts w.base (tryBatch w.base db t e.sibs1).1 e.gap1, (tryBatch w.base db t e.sibs1).2)).1 ∧
      ((if e.hot = true then tryBatch w.base (acts w.base (tryBatch w.base db t e.sibs1).1 e.gap1) t e.sibs2
        else (acts w.base (tryBatch w.base db t e.sibs1).1 e.gap1, (tryBatch w.base db t e.sibs1).2)).2 = true →
        RefUsed (if e.hot = true then tryBatch w.base (acts w.base (tryBatch w.base db t e.sibs1).1 e.gap1) t e.sibs2
        else (acts w.base (tryBatch w.base db t e.sibs1).1 e.gap1, (tryBatch w.base db t e.sibs1).2)).1 t.reference) := by
    split
    · obtain ⟨i, g, p⟩ := tryBatch_spec (cfg := w.base) (t := t) (sibs := e.sibs2) i1'
      exact ⟨i, fun h => by obtain ⟨r, hr, er, _⟩ := p h; exact ⟨r, hr, er⟩⟩
    · exact ⟨i1', fun h => by obtain ⟨r, hr, er, _⟩ := p1 h; exact ⟨r, g1' r hr, er⟩⟩
  unfold deliver
  simp only
  generalize hr2 : (if e.hot = true then tryBatch w.base (acts w.base (tryBatch w.base db t e.sibs1).1 e.gap1) t e.sibs2
        else (acts w.base (tryBatch w.base db t e.sibs1).1 e.gap1, (tryBatch w.base db t e.sibs1).2)) = r2 at h2 ⊢
  split
  · rename_i h; exact fun _ => h2.2 h
  · have i2 := acts_inv (cfg := w.base) (as := e.gap2) h2.1
    obtain ⟨i3, g3, p3⟩ := tryBatch_spec (cfg := w.base) (t := t) (sibs := e.sibs3) i2
    split
    · rename_i h
      exact fun _ => by obtain ⟨r, hr, er, _⟩ := p3 h; exact ⟨r, hr, er⟩
    · have s1 := singleAttempt_spec (w := w) (e := e) (retry := retry)
        (db := acts w.base (tryBatch w.base (acts w.base r2.1 e.gap2) t e.sibs3).1 e.gap3) hp hq
      exact fun h => by obtain ⟨r, hr, er, _⟩ := s1 h; exact ⟨r, hr, er⟩

/-- The full claim: whenever the worker tells the queue that a task is done, the ledger holds a
transaction under the task's reference (applied, rejected, or processed before). -/
def C31Full : Prop := ∀ (w : WCfg) (s : Sys), Reach w.base s → ∀ (k : Key) (t : Txn), Job s k t →
  ∀ (e : Env) (retry : Nat), e.fault = none → (deliver w e retry s.db t).2 = .ack →
    RefUsed (deliver w e retry s.db t).1 t.reference

/-- The stronger reading: the row found is about this very submission. -/
def C31Own : Prop := ∀ (w : WCfg) (s : Sys), Reach w.base s → ∀ (k : Key) (t : Txn), Job s k t →
  ∀ (e : Env) (retry : Nat), e.fault = none → (deliver w e retry s.db t).2 = .ack →
    ∃ r ∈ (deliver w e retry s.db t).1.txns, (r.id = k.id ∨ r.parent = k.id) ∧ ¬ waiting r

/-- A payment from an account that does not exist, whose name reads like the duplicate message. -/
def sneaky : Txn :=
  { id := "p", source := "my reference has already been used", destination := "b", reference := "r", amount := 7, precision := 100 }

/-- **C31 fails in full.** The "account not found" message quotes the account name the client sent;
with such a name the worker takes it for a duplicate and acknowledges the task: nothing was
applied, no rejection is stored, and the client is never told. -/
theorem c31_full_fails : ¬ C31Full := by
  intro h
  have r1 : Reach {} { accepted := [submit sneaky] } := Reach.init.step (.accept _ sneaky rfl)
  let s1 : Sys := { accepted := [submit sneaky], db := (persistQueued {} {} (submit sneaky) "x" "y").1
                    tasks := [(⟨"p", "r"⟩, (persistQueued {} {} (submit sneaky) "x" "y").2.1)] }
  have r2 : Reach {} s1 := r1.step (.persist _ (submit sneaky) "x" "y" "c" .original (by simp) (fun h => by cases h))
  have hj : Job s1 ⟨"p", "r"⟩ (persistQueued {} {} (submit sneaky) "x" "y").2.1 := .task (by simp [s1])
  have hack : (deliver {} {} 0 s1.db (persistQueued {} {} (submit sneaky) "x" "y").2.1).2 = .ack := by decide +kernel
  obtain ⟨x, hx, _⟩ := h {} s1 r2 _ _ hj {} 0 rfl hack
  have e : (deliver {} {} 0 s1.db (persistQueued {} {} (submit sneaky) "x" "y").2.1).1.txns.all (fun _ => false) = true := by
    decide +kernel
  exact Bool.noConfusion (List.all_eq_true.1 e x hx)

/-- Another client's payment whose own reference is "r_q". -/
def squatter : Txn :=
  { id := "z", source := "a", destination := "b", reference := "r_q", amount := 1, precision := 100, allowOverdraft := true, status := .applied }

/-- **C31 fails on derived references.** The task of a submission with reference "r" is posted
under "r_q". If another client used "r_q" as its own reference, the task is acknowledged as a
duplicate although this submission was never applied or rejected: only its QUEUED row remains. -/
theorem c31_own_fails : ¬ C31Own := by
  intro h
  let s1 : Sys := { demoStored with db := act {} demoStored.db (.base (.post squatter "x" "y"))
                                    others := .base (.post squatter "x" "y") :: demoStored.others }
  have hs : Reach {} demoStored := by
    have h1 : Reach {} demoOpened := (Reach.init.step (.other {} (.base (.create "a" "" "USD")))).step (.other _ (.base (.create "b" "" "USD")))
    have h2 : Reach {} demoAccepted := h1.step (.accept _ demoSubmission rfl)
    exact h2.step
      (.persist demoAccepted (submit demoSubmission) "x" "y" "c" .copy (by simp [demoAccepted]) (fun _ => by decide +kernel))
  have r : Reach {} s1 := hs.step (.other _ (.base (.post squatter "x" "y")))
  have hj : Job s1 ⟨"p", "r"⟩ demoTask := .task (by simp [s1, demoStored, demoTask])
  have hack : (deliver {} {} 0 s1.db demoTask).2 = .ack := by decide +kernel
  obtain ⟨x, hx, hk, hn⟩ := h {} s1 r _ _ hj {} 0 rfl hack
  have e : (deliver {} {} 0 s1.db demoTask).1.txns.all
      (fun r => (r.id ≠ "p" && r.parent ≠ "p") || r.status = .queued) = true := by decide +kernel
  have := List.all_eq_true.1 e x hx
  simp only [Bool.or_eq_true, Bool.and_eq_true, decide_eq_true_eq] at this
  rcases this with ⟨h1, h2⟩ | h1
  · rcases hk with hk | hk
    · exact h1 hk
    · exact h2 hk
  · exact hn (.inl h1)

/-- **C31, nothing is dropped silently (partial).** For every task that waits, every database state
the ledger can be in, every sequence of batch attempts, other work in between, failures of the
single attempt and failures while rejecting: if the worker acknowledges the task, the ledger then
holds a transaction under the task's reference.
Missing: account names and environment errors must not contain the duplicate message
(`c31_full_fails`), and the transaction found may belong to somebody who used the derived
reference (`c31_own_fails`). -/
theorem c31_acknowledged_has_outcome_partial (w : WCfg) (e : Env) (retry : Nat) (db : DB) (t : Txn)
    (hi : Inv db) (hw : waiting t) (hq : Quiet e t) (ha : (deliver w e retry db t).2 = .ack) :
    RefUsed (deliver w e retry db t).1 t.reference := deliver_spec hi hw.plain hq ha

/-- **C31, the retry limit.** A delivery at the retry limit goes back to the queue only when the
rejection itself could not be recorded: storing it failed, a follow-up step failed after it was
stored, or its reference or id is already in the ledger. -/
theorem c31_limit_not_returned (w : WCfg) (e : Env) (retry : Nat) (db : DB) (t : Txn)
    (hx : w.exhausted retry = true) (hr : (deliver w e retry db t).2 = .retry) :
    e.rejectFault = true ∨ e.afterReject = true ∨ RefUsed (deliver w e retry db t).1 t.reference ∨
      (deliver w e retry db t).1.hasTxnId t.id = true := by
  revert hr
  unfold deliver
  simp only
  generalize (if e.hot = true then tryBatch w.base (acts w.base (tryBatch w.base db t e.sibs1).1 e.gap1) t e.sibs2
        else (acts w.base (tryBatch w.base db t e.sibs1).1 e.gap1, (tryBatch w.base db t e.sibs1).2)) = r2
  split
  · simp
  · split
    · simp
    · exact fun hr => singleAttempt_limit hr hx

/-- A task with too little money, delivered at the limit: a rejection is stored and the task is
done. Before the limit, with retries on, it goes back. -/
example :
    let t : Txn := { demoTask with allowOverdraft := false }
    let w : WCfg := { insufficientFundRetries := true }
    (deliver w {} 5 demoStored.db t).2 = .ack ∧
    ((deliver w {} 5 demoStored.db t).1.txns.map (fun r => (r.id, r.status))) = [("p", .queued), ("c", .rejected)] ∧
    (deliver w {} 4 demoStored.db t).2 = .retry := by decide +kernel

example : waiting demoTask ∧ Quiet {} demoTask ∧ (deliver {} {} 0 demoStored.db demoTask).2 = .ack :=
  ⟨.inl (by decide +kernel), ⟨by simp, by decide +kernel, by decide +kernel, by decide +kernel⟩, by decide +kernel⟩

/-! ### C32 -/

theorem sweep_attempts {cfg : Cfg} {max : Int} {s : RSys} {w : Sweep} (hm : w.env.metaLost = false) (i : String) :
    (sweep cfg max s w).1.attempts i = s.attempts i +
      (match (sweep cfg max s w).2 with
        | .replayed _ => if w.row.id = i then 1 else 0
        | _ => 0) := by
  unfold sweep
  split
  · unfold recoverRow
    simp only
    split
    · simp
    · split
      · simp
      · simp only [hm, Bool.false_eq_true, if_false]
        by_cases h : i = w.row.id
        · subst h; simp
        · simp only [h, if_false, if_neg (Ne.symm h)]; simp
  · simp

theorem sweep_bound {cfg : Cfg} {max : Int} {s : RSys} {w : Sweep} {b : Bool} (h : (sweep cfg max s w).2 = .replayed b) :
    s.attempts w.row.id + 1 ≤ max := by
  unfold sweep at h
  split at h
  · unfold recoverRow at h
    simp only at h
    split at h
    · cases h
    · omega
  · cases h

/-- The full claim: a row is replayed at most three times, whatever fails. -/
def C32Full : Prop := ∀ (cfg : Cfg) (s : RSys) (ws : List Sweep) (i : String), s.attempts i = 0 →
  replays cfg 3 i s ws ≤ 3

/-- **C32, at most three replays (partial).** Over any number of sweeps, with any other work in
between and any failures of the replays, a row whose counter starts at zero (or above) is replayed
at most three times, provided the counter updates reach the database. -/
theorem c32_at_most_three_replays_partial (cfg : Cfg) (ws : List Sweep) (i : String) : ∀ (s : RSys),
    0 ≤ s.attempts i → (∀ w ∈ ws, w.env.metaLost = false) → replays cfg 3 i s ws ≤ 3 := by
  suffices h : ∀ (s : RSys), (∀ w ∈ ws, w.env.metaLost = false) →
      (replays cfg 3 i s ws : Int) ≤ 0 ∨ (replays cfg 3 i s ws : Int) ≤ 3 - s.attempts i by
    intro s h0 hm
    rcases h s hm with h | h <;> omega
  induction ws with
  | nil => intro s _; exact .inl (by simp [replays])
  | cons w ws ih =>
    intro s hm
    have e := sweep_attempts (cfg := cfg) (max := 3) (s := s) (hm w (by simp)) i
    have b := fun x => sweep_bound (cfg := cfg) (max := 3) (s := s) (w := w) (b := x)
    have r := ih (sweep cfg 3 s w).1 (fun x hx => hm x (List.mem_cons_of_mem _ hx))
    rw [e] at r
    unfold replays
    cases hp : (sweep cfg 3 s w).2 with
    | replayed x =>
      rw [hp] at r
      have := b x hp
      by_cases hi : w.row.id = i
      · simp only [hi, if_true] at r this ⊢
        right
        rcases r with r | r <;> omega
      · simp only [hi, if_false] at r ⊢
        rcases r with r | r
        · left; omega
        · right; omega
    | skipped => rw [hp] at r; simp only at r ⊢; omega
    | sibling => rw [hp] at r; simp only at r ⊢; omega
    | rejected => rw [hp] at r; simp only at r ⊢; omega

/-- **C32, then it is rejected.** A stuck row whose counter has reached three is not replayed: a
REJECTED transaction is stored for it, unless its reference or the generated id is taken. -/
theorem c32_then_rejected (cfg : Cfg) (s : RSys) (w : Sweep) (hrow : w.row ∈ s.db.txns) (hst : isStuck s.db w.row = true)
    (ha : 3 ≤ s.attempts w.row.id) (href : ¬ RefUsed (acts cfg s.db w.gap) (w.row.reference ++ "_q"))
    (hid : (acts cfg s.db w.gap).hasTxnId w.env.newId = false) :
    (sweep cfg 3 s w).2 = .rejected ∧ (sweep cfg 3 s w).1.db.balances = (acts cfg s.db w.gap).balances ∧
    ∃ r ∈ (sweep cfg 3 s w).1.db.txns, r.parent = w.row.id ∧ r.status = .rejected := by
  have k := applyPrecision_keeps ({ w.row with allowOverdraft := false, overdraftLimit := 0, inflight := false, atomic := false, skipQueue := false, effectiveDate := 0 } : Txn)
  have hr : (acts cfg s.db w.gap).hasRef (w.row.reference ++ "_q") = false := by
    cases h : (acts cfg s.db w.gap).hasRef (w.row.reference ++ "_q") with
    | false => rfl
    | true => exact absurd (hasRef_iff.1 h) href
  have e1 : (rejectedRow (queueCopy (restore (scan w.row)) w.env.newId)).reference = w.row.reference ++ "_q" := by
    simp [rejectedRow, queueCopy, restore, scan, k]
  have e2 : (rejectedRow (queueCopy (restore (scan w.row)) w.env.newId)).id = w.env.newId := rfl
  have hins : (acts cfg s.db w.gap).insertTxn (rejectedRow (queueCopy (restore (scan w.row)) w.env.newId)) =
      .ok { acts cfg s.db w.gap with txns := (acts cfg s.db w.gap).txns ++ [rejectedRow (queueCopy (restore (scan w.row)) w.env.newId)] } := by
    simp [DB.insertTxn, e1, e2, hid, hr]
  have hlt : (3 : Int) < s.attempts w.row.id + 1 := by omega
  have heq : sweep cfg 3 s w = ({ s with db := (step cfg (acts cfg s.db w.gap) (.store (rejectedRow (queueCopy (restore (scan w.row)) w.env.newId)))).1 }, .rejected) := by
    unfold sweep recoverRow
    rw [if_pos ⟨hrow, hst⟩]
    simp only [if_pos hlt]
  rw [heq]
  refine ⟨rfl, ?_, ?_⟩
  · simp [step, hins]
  · refine ⟨rejectedRow (queueCopy (restore (scan w.row)) w.env.newId), by simp [step, hins], ?_, rfl⟩
    simp [rejectedRow, queueCopy, restore, scan, k]

/-- **C32, outcomes are not touched.** If the queued row's posting is already in the ledger when
the pass reaches it (an outcome that arrived after the query, say), the pass changes no balance and
stores no row. -/
theorem c32_outcome_untouched (cfg : Cfg) (s : RSys) (w : Sweep) (hi : Inv (acts cfg s.db w.gap))
    (href : RefUsed (acts cfg s.db w.gap) (w.row.reference ++ "_q")) :
    OnlyOpened (acts cfg s.db w.gap) (sweep cfg 3 s w).1.db := by
  have k := applyPrecision_keeps ({ w.row with allowOverdraft := false, overdraftLimit := 0, inflight := false, atomic := false, skipQueue := false, effectiveDate := 0 } : Txn)
  have e0 : (queueCopy (restore (scan w.row)) w.env.newId).reference = w.row.reference ++ "_q" := by
    simp [queueCopy, restore, scan, k]
  have hb := hasRef_iff.2 href
  unfold sweep
  split
  · unfold recoverRow
    simp only
    split
    · have e1 : (rejectedRow (queueCopy (restore (scan w.row)) w.env.newId)).reference = w.row.reference ++ "_q" := e0
      cases hs : (acts cfg s.db w.gap).insertTxn (rejectedRow (queueCopy (restore (scan w.row)) w.env.newId)) with
      | error e => simp only [step, hs]; exact .refl _
      | ok db' =>
        obtain ⟨_, hf, _⟩ := insertTxn_ok hs
        rw [e1, hb] at hf; cases hf
    · split
      · exact .refl _
      · simp only
        split
        · exact .refl _
        · have ht : tryBatch cfg (acts cfg s.db w.gap) (queueCopy (restore (scan w.row)) w.env.newId) w.env.sibs =
              (acts cfg s.db w.gap, false) := by
            unfold tryBatch
            split
            · rfl
            · rename_i hne
              rcases recordBatch_cases (cfg := cfg) (ts := queueCopy (restore (scan w.row)) w.env.newId :: w.env.sibs) hi with h | ⟨h, _⟩
              · cases hx : recordBatch cfg (acts cfg s.db w.gap) (queueCopy (restore (scan w.row)) w.env.newId :: w.env.sibs) with
                | mk db' o =>
                  rw [hx] at h
                  have h1 : db' = acts cfg s.db w.gap := h.1
                  subst h1
                  cases o with
                  | posted rows => exact absurd rfl (h.2 rows)
                  | discarded => rfl
                  | refused e => rfl
              · obtain ⟨_, h2, _⟩ := recordBatch_posted_rows hi h
                have := h2 _ (List.mem_cons_self)
                rw [e0, hb] at this; cases this
          rw [ht]
          simp only
          have hno : ∀ rows, (recordSingle cfg (acts cfg s.db w.gap) (queueCopy (restore (scan w.row)) w.env.newId) w.env.n1 w.env.n2).2 ≠ .posted rows := by
            intro rows ho
            have := (recordSingle_posted_settled ho).1
            rw [e0, hb] at this; cases this
          have oo : OnlyOpened _ _ := c05_refused_changes_nothing cfg (acts cfg s.db w.gap)
            (.post (queueCopy (restore (scan w.row)) w.env.newId) w.env.n1 w.env.n2) hno
          simp only [step] at oo
          split
          · rename_i h; exact absurd (by rw [h]) (hno _)
          · rename_i h; rw [h] at oo; exact oo
  · exact .refl _

/-- A stuck row of 7.00 whose source has no money. -/
def stuckRow : Txn :=
  { id := "p", source := "a", destination := "b", reference := "r", amount := 7, precision := 100, preciseAmount := some 700,
    status := .queued }

def stuckSys : RSys := { db := { demoOpened.db with txns := [stuckRow] } }

/-- Four sweeps over the stuck row. -/
def fourSweeps (lost : Bool) : List Sweep :=
  ["c1", "c2", "c3", "c4"].map fun i => { row := stuckRow, env := { newId := i, metaLost := lost } }

example : replays {} 3 "p" stuckSys (fourSweeps false) = 3 ∧
    ((sweeps {} 3 stuckSys (fourSweeps false)).db.txns.map (fun t => (t.id, t.reference, t.status))) =
      [("p", "r", .queued), ("c4", "r_q", .rejected)] := by decide +kernel

/-- **C32 fails in full.** The counter is written after the replay and a failed write is only
logged (`queue_recovery.go:235-246`): a row is then replayed without limit. -/
theorem c32_full_fails : ¬ C32Full := by
  intro h
  have := h {} stuckSys (fourSweeps true) "p" rfl
  revert this
  decide +kernel

/-- The counter lives in the transaction's metadata, which clients write. A negative number buys
any number of replays, and a large one has the row rejected without a single replay. -/
theorem c32_client_counter :
    replays {} 3 "p" { stuckSys with attempts := fun _ => -1000 } (fourSweeps false) = 4 ∧
    replays {} 3 "p" { stuckSys with attempts := fun _ => 100 } (fourSweeps false) = 0 ∧
    ((sweeps {} 3 { stuckSys with attempts := fun _ => 100 } (fourSweeps false)).db.txns.map (·.status)) = [.queued, .rejected] := by
  decide +kernel

theorem applyPrecision_meta (t : Txn) : t.applyPrecision.metaAtomic = t.metaAtomic ∧
    t.applyPrecision.metaQueuedParent = t.metaQueuedParent := by
  unfold Txn.applyPrecision
  by_cases h : t.precision = 0
  · simp only [h, if_true]
    split
    · split <;> exact ⟨rfl, rfl⟩
    · exact ⟨rfl, rfl⟩
  · simp only [h, if_false]
    split
    · split <;> exact ⟨rfl, rfl⟩
    · exact ⟨rfl, rfl⟩

/-- An atomic leg whose sibling was rejected is passed over by every sweep: it is never replayed,
never counted and never rejected. -/
theorem c32_atomic_leg_left_queued (cfg : Cfg) (s : RSys) (row c : Txn) (hc : c ∈ s.db.txns)
    (hcp : c.parent = row.metaQueuedParent) (hcs : c.status = .rejected) (hp : row.metaQueuedParent ≠ "")
    (ha : row.metaAtomic = some true) (h0 : s.attempts row.id ≤ 2) (ws : List Sweep)
    (hw : ∀ w ∈ ws, w.row = row ∧ w.gap = []) : sweeps cfg 3 s ws = s := by
  induction ws with
  | nil => rfl
  | cons w ws ih =>
    obtain ⟨e1, e2⟩ := hw w (by simp)
    have ha' : (restore (scan row)).atomic = true := by
      have : (scan row).metaAtomic = some true := (applyPrecision_meta _).1.trans ha
      simp [restore, this]
    have hq' : (restore (scan row)).metaQueuedParent = row.metaQueuedParent := by
      have : (scan row).metaQueuedParent = row.metaQueuedParent := (applyPrecision_meta _).2
      simp [restore, this]
    have hs : (sweep cfg 3 s w).1 = s := by
      unfold sweep
      rw [e1, e2]
      simp only [acts]
      split
      · unfold recoverRow
        simp only
        rw [if_neg (by omega), if_pos]
        rw [ha', hq']
        simp only [Bool.true_and, Bool.and_eq_true, decide_eq_true_eq, List.any_eq_true]
        exact ⟨by simpa using hp, c, hc, by simp [hcp, hcs]⟩
      · rfl
    simp only [sweeps, hs]
    exact ih (fun x hx => hw x (List.mem_cons_of_mem _ hx))

end Blnk.Queue
