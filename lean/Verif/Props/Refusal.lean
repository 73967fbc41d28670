import Verif.Lemmas.Complete
import Verif.Props.Posting
/-
Properties C03/C04 (when exactly a debit is accepted), C05 (refusals change
nothing) and C06 (amounts are positive, movement columns never decrease).
-/
namespace Blnk

/-! ### C03, C04 — exact acceptance -/

/-- Specification: funds that can be spent, as the API reports them. -/
def spendable (cfg : Cfg) (db : DB) (s : Balance) : Int :=
  s.balance - s.inflightDebit - (if cfg.queuedChecks then db.queuedDebit s.id else 0)

theorem view_available (cfg : Cfg) (db : DB) (s : Balance) : (db.view cfg s).available = spendable cfg db s := by
  unfold DB.view Balance.available spendable
  cases cfg.queuedChecks <;> simp

/-- A posting that meets every condition except possibly funds. -/
structure Ready (db : DB) (t : Txn) (s d : Balance) (p : Int) : Prop where
  plain : t.Plain
  ref : db.hasRef t.reference = false
  txnId : db.hasTxnId t.id = false
  distinct : t.source ≠ t.destination
  src : db.find t.source = some s
  dst : db.find t.destination = some d
  valid : t.applyPrecision.validate = .ok ()
  amount : t.applyPrecision.preciseAmount = some p

theorem ready_accepts {cfg : Cfg} {db : DB} {t : Txn} {s d : Balance} {p : Int} (h : Ready db t s d p)
    (hc : canProcessTransaction t.applyPrecision (db.view cfg s) = .ok ()) :
    (postResolved cfg db t).2 = .posted [finalRow t] := by
  refine postResolved_complete h.ref h.txnId h.distinct h.src h.dst
    ((applySource_plain h.plain.1 h.plain.2).2 ⟨h.valid, hc, rfl⟩) (applyDestination_plain_ok h.plain _) ?_
  rw [finalRow_plain h.plain, h.amount]
  have := (validate_ok h.valid).2 p h.amount
  intro he
  simp at he
  omega

theorem ready_refuses {cfg : Cfg} {db : DB} {t : Txn} {s d : Balance} {p : Int} {e : BalErr} (h : Ready db t s d p)
    (hc : canProcessTransaction t.applyPrecision (db.view cfg s) = .error e) :
    postResolved cfg db t = (db, .refused (.bal e)) := by
  have a1 : applySource t (db.view cfg s) = .error e := by
    unfold applySource
    split
    · exact absurd ‹_› h.plain.1
    · exact absurd ‹_› h.plain.2
    · simp [h.valid, hc, bind, Except.bind]
  simp [postResolved, prepareSingle, h.ref, load_view h.src, load_view h.dst, applyToBalances, a1, bind, Except.bind]

/-- **C03, acceptance.** Without overdraft permission a posting or hold that is
otherwise in order is accepted exactly when the source's spendable funds cover
it; if they do not, it is refused for insufficient funds and nothing changes. -/
theorem c03_accepted_iff_covered (cfg : Cfg) (db : DB) (t : Txn) (s d : Balance) (p : Int) (h : Ready db t s d p)
    (hno : t.allowOverdraft = false) (hlim : t.overdraftLimit = 0) :
    (p ≤ spendable cfg db s → (postResolved cfg db t).2 = .posted [finalRow t]) ∧
    (spendable cfg db s < p → postResolved cfg db t = (db, .refused (.bal .insufficientFunds))) := by
  have hk := applyPrecision_keeps t
  have hc : canProcessTransaction t.applyPrecision (db.view cfg s)
      = if spendable cfg db s ≥ p then .ok () else .error .insufficientFunds := by
    unfold canProcessTransaction
    rw [hk.1, hk.2.1, hno, hlim, h.amount, view_available]
    have : ¬ ((0 : Rat) > 0) := by decide +kernel
    simp [this]
  constructor
  · intro hp; exact ready_accepts h (by rw [hc, if_pos hp])
  · intro hp; exact ready_refuses h (by rw [hc, if_neg (by omega)])

/-- **C04, acceptance.** With a positive overdraft limit, worth `L` minor units
(below 2^63), a posting that is otherwise in order is accepted exactly when
spendable funds after it are at least `-L`; below that it is refused with the
overdraft-limit error and nothing changes.  `allow_overdraft` makes no
difference once a limit is given. -/
theorem c04_accepted_iff_within_limit (cfg : Cfg) (db : DB) (t : Txn) (s d : Balance) (p L : Int)
    (h : Ready db t s d p) (hlim : 0 < t.overdraftLimit)
    (hL : L = roundHalfAway (t.overdraftLimit * t.effPrecision)) (hsmall : L < 2 ^ 63) :
    (-L ≤ spendable cfg db s - p → (postResolved cfg db t).2 = .posted [finalRow t]) ∧
    (spendable cfg db s - p < -L → postResolved cfg db t = (db, .refused (.bal .exceedsOverdraft))) := by
  have hk := applyPrecision_keeps t
  have hpp := validate_precision_pos h.valid
  have h0 : 0 ≤ L := by
    rw [hL]; apply roundHalfAway_nonneg; exact Rat.mul_nonneg (by grind) (by grind)
  have hw : overdraftLimitPrecise t.applyPrecision = L := by
    unfold overdraftLimitPrecise
    rw [hk.2.1, applyPrecision_precision, ← hL]
    exact int64Wrap_of_lt (by omega) hsmall
  have hne : t.overdraftLimit ≠ 0 := by grind
  have hc : canProcessTransaction t.applyPrecision (db.view cfg s)
      = if spendable cfg db s ≥ p then .ok ()
        else if spendable cfg db s - p ≥ -L then .ok () else .error .exceedsOverdraft := by
    unfold canProcessTransaction
    rw [hw, hk.1, hk.2.1, h.amount, view_available]
    simp [hne, hlim]
  constructor
  · intro hp
    apply ready_accepts h
    rw [hc]
    split
    · rfl
    · first | rfl | rw [if_pos (by omega)]
  · intro hp; exact ready_refuses h (by rw [hc, if_neg (by omega), if_neg (by omega)])

/-- `a` has 10.00 with 2.50 on hold, so 7.50 to spend; the payment of 3.00 is in order. -/
example : Ready demo demoPay ((demo.find "a").get (by decide +kernel)) ((demo.find "b").get (by decide +kernel)) 300 :=
  ⟨⟨by decide, by decide⟩, by decide +kernel, by decide +kernel, by decide +kernel, by decide +kernel,
    by decide +kernel, by decide +kernel, by decide +kernel⟩

def demoTooMuch : Txn := { demoPay with amount := 751/100 }
def demoLimit : Txn := { demoPay with amount := 1250/100, overdraftLimit := 5 }
def demoOverLimit : Txn := { demoPay with amount := 1251/100, overdraftLimit := 5 }

example : (postResolved {} demo demoTooMuch).2 = .refused (.bal .insufficientFunds) ∧
    (postResolved {} demo demoLimit).2 = .posted [finalRow demoLimit] ∧
    (postResolved {} demo demoOverLimit).2 = .refused (.bal .exceedsOverdraft) := by
  refine ⟨?_, ?_, ?_⟩ <;> decide +kernel

/-- The limit of C04 holds only below 2^63 minor units: the code narrows the limit
to an `int64`, so a larger limit wraps around and postings well inside it are
refused. -/
def C04_any_limit : Prop := ∀ (cfg : Cfg) (db : DB) (t : Txn) (s d : Balance) (p : Int), Ready db t s d p →
  0 < t.overdraftLimit → -(roundHalfAway (t.overdraftLimit * t.effPrecision)) ≤ spendable cfg db s - p →
  (postResolved cfg db t).2 = .posted [finalRow t]

def demoHugeLimit : Txn := { demoPay with amount := 1250/100, overdraftLimit := 92233720368547759 }

theorem c04_any_limit_fails : ¬ C04_any_limit := by
  intro h
  have hr : Ready demo demoHugeLimit ((demo.find "a").get (by decide +kernel))
      ((demo.find "b").get (by decide +kernel)) 1250 :=
    ⟨⟨by decide, by decide⟩, by decide +kernel, by decide +kernel, by decide +kernel, by decide +kernel,
      by decide +kernel, by decide +kernel, by decide +kernel⟩
  have := h {} demo demoHugeLimit _ _ 1250 hr (by decide +kernel) (by decide +kernel)
  revert this
  decide +kernel

/-! ### C05 — refusals change nothing -/

/-- Nothing happened except that indicator accounts named for the first time
may have been opened, all at zero. -/
structure OnlyOpened (db db' : DB) : Prop where
  txns : db'.txns = db.txns
  balances : ∃ new, db'.balances = db.balances ++ new ∧
    ∀ b ∈ new, isIndicator b.indicator = true ∧ b.balance = 0 ∧ b.credit = 0 ∧ b.debit = 0 ∧
      b.inflightBalance = 0 ∧ b.inflightCredit = 0 ∧ b.inflightDebit = 0

theorem OnlyOpened.refl (db : DB) : OnlyOpened db db := ⟨rfl, [], by simp, by simp⟩

theorem OnlyOpened.trans {a b c : DB} (h1 : OnlyOpened a b) (h2 : OnlyOpened b c) : OnlyOpened a c := by
  obtain ⟨n1, e1, p1⟩ := h1.balances
  obtain ⟨n2, e2, p2⟩ := h2.balances
  refine ⟨h2.txns.trans h1.txns, n1 ++ n2, by rw [e2, e1, List.append_assoc], ?_⟩
  intro x hx
  rcases List.mem_append.1 hx with hx | hx
  · exact p1 x hx
  · exact p2 x hx

theorem resolve_onlyOpened {db db' : DB} {s cur n i : String} (h : db.resolve s cur n = .ok (db', i)) :
    OnlyOpened db db' := by
  obtain ⟨ht, new, hb, hn⟩ := resolve_balances h
  refine ⟨ht, new, hb, ?_⟩
  intro b hbn
  obtain ⟨rfl, hs⟩ := hn b hbn
  exact ⟨hs, rfl, rfl, rfl, rfl, rfl, rfl⟩

theorem postResolved_not_posted {cfg : Cfg} {db : DB} {t : Txn} (h : ∀ rows, (postResolved cfg db t).2 ≠ .posted rows) :
    (postResolved cfg db t).1 = db := by
  unfold postResolved at h ⊢
  split
  · rfl
  · rfl
  · rename_i w hw
    simp only [hw] at h
    split
    · rename_i db' hp; rw [hp] at h; exact absurd rfl (h _)
    · rfl

/-- **C05.** Whatever the reason and the stage, an operation that is refused (or
discarded for a zero amount) leaves the transaction table as it was and every
account's columns as they were; at most it opens, at zero, indicator accounts the
posting named for the first time. -/
theorem c05_refused_changes_nothing (cfg : Cfg) (db : DB) (op : Op)
    (h : ∀ rows, (step cfg db op).2 ≠ .posted rows) : OnlyOpened db (step cfg db op).1 := by
  cases op with
  | create i ind cur =>
    simp only [step] at h ⊢
    split
    · rename_i db' hc; rw [hc] at h; exact absurd rfl (h _)
    · exact .refl db
  | post t n1 n2 =>
    simp only [step, recordSingle] at h ⊢
    split
    · exact .refl db
    · rename_i db1 sid h1
      rw [h1] at h
      simp only at h
      split
      · exact resolve_onlyOpened h1
      · rename_i db2 did h2
        rw [h2] at h
        simp only at h
        rw [postResolved_not_posted h]
        exact (resolve_onlyOpened h1).trans (resolve_onlyOpened h2)
  | batch ts =>
    simp only [step, recordBatch] at h ⊢
    split
    · exact .refl db
    · rename_i w hw
      simp only [hw] at h
      split
      · rename_i db' hp; rw [hp] at h; exact absurd rfl (h _)
      · exact .refl db
  | store t =>
    simp only [step] at h ⊢
    split
    · rename_i db' hc; rw [hc] at h; exact absurd rfl (h _)
    · exact .refl db

/-- **C05, by id.** A refused posting between accounts given by id, or a refused
batch, leaves the database exactly as it was. -/
theorem c05_refused_by_id_is_identity (cfg : Cfg) (db : DB) (t : Txn) (n1 n2 : String)
    (hs : isIndicator t.source = false) (hd : isIndicator t.destination = false)
    (h : ∀ rows, (step cfg db (.post t n1 n2)).2 ≠ .posted rows) : (step cfg db (.post t n1 n2)).1 = db := by
  have e : ∀ d : DB, step cfg d (.post t n1 n2) = postResolved cfg d t := by
    intro d; simp [step, recordSingle, DB.resolve, hs, hd]
  rw [e] at h ⊢
  exact postResolved_not_posted h

theorem c05_refused_batch_is_identity (cfg : Cfg) (db : DB) (ts : List Txn)
    (h : ∀ rows, (step cfg db (.batch ts)).2 ≠ .posted rows) : (step cfg db (.batch ts)).1 = db := by
  simp only [step, recordBatch] at h ⊢
  split
  · rfl
  · rename_i w hw
    simp only [hw] at h
    split
    · rename_i db' hp; rw [hp] at h; exact absurd rfl (h _)
    · rfl

/-- A payment to a new indicator that fails for funds: the indicator account stays. -/
def demoFail : Op := .post { demoTooMuch with destination := "@Fees" } "f1" "f2"

example : (step {} demo demoFail).2 = .refused (.bal .insufficientFunds) ∧
    (step {} demo demoFail).1.balances.map (·.id) = ["a", "b", "w", "f2"] := by
  constructor <;> decide +kernel

/-! ### C06 — positive amounts, monotone columns -/

/-- **C06, amounts.** Every row a plain posting stores carries a strictly positive
amount, and a posting whose amount is not positive is refused with no effect. -/
theorem c06_posted_amount_positive (cfg : Cfg) (db : DB) (t : Txn) (rows : List Txn) (hr : Reachable cfg db)
    (hp : t.Plain) (h : (postResolved cfg db t).2 = .posted rows) :
    ∀ r ∈ rows, ∃ p, r.preciseAmount = some p ∧ 0 < p := by
  obtain ⟨p, hpos, rfl, hpa, _⟩ := c01_posting_two_sided cfg db t rows hr hp h
  intro r hr
  simp at hr; subst hr
  exact ⟨p, hpa, hpos⟩

theorem c06_nonpositive_refused (cfg : Cfg) (db : DB) (t : Txn) (hp : t.Plain)
    (hz : t.applyPrecision.preciseAmount.getD 0 ≤ 0) : (postResolved cfg db t).1 = db := by
  have hno : ∀ b b', applySource t b ≠ .ok b' := by
    intro b b' h
    obtain ⟨p, hpos, hpa, _⟩ := applySource_pos hp h
    rw [hpa] at hz; simp at hz; omega
  unfold postResolved
  split
  · rfl
  · rfl
  · rename_i w hw
    obtain ⟨_, s, d, s', d', _, _, ha, _⟩ := prepareSingle_some hw
    exact absurd (applyToBalances_inv ha).1 (hno _ _)

/-- Movement columns never go down. -/
def MonoRel (b b' : Balance) : Prop := b.credit ≤ b'.credit ∧ b.debit ≤ b'.debit

theorem monoRel_rowRel : RowRel SignOK MonoRel where
  refl b := ⟨Int.le_refl _, Int.le_refl _⟩
  trans a b c _ h1 h2 := ⟨Int.le_trans h1.1 h2.1, Int.le_trans h1.2 h2.2⟩
  src t s s' hP hc hq hid h := by
    have e := applySource_effect h
    have := dst_amount_nonneg hP (source_validated h)
    have := e.credit; have := e.debit
    constructor <;> omega
  dst t s s' hP hv hc hid h := by
    have e := applyDestination_effect h
    have := dst_amount_nonneg hP hv
    have := e.credit; have := e.debit
    constructor <;> omega
  queued r q b h := h
  write r b _ h := h

/-- What C06 assumes of a run: settlement amounts are nonnegative (proved of the
commit and void operations in `Inflight.lean`), batches hold queued members, and
QUEUED rows are stored with nonnegative amounts. -/
def OpSigns : Op → Prop
  | .create _ _ _ => True
  | .post t _ _ => SignOK t
  | .batch ts => ∀ t ∈ ts, t.status = .queued
  | .store t => t.status = .queued → 0 ≤ t.preciseAmount.getD 0

theorem batchMember_signOK {t : Txn} (hs : t.status = .queued) : SignOK (batchMember t) := by
  have hst : (batchMember t).status = .applied ∨ (batchMember t).status = .inflight := by
    simp only [batchMember, finalStatus, hs]
    split <;> simp
  refine ⟨?_, ?_⟩
  · intro h; rcases hst with h' | h' <;> rw [h'] at h <;> cases h
  · intro h; rcases hst with h' | h' <;> rw [h'] at h <;> cases h

theorem find_append_some {l m : List Balance} {i : String} {b : Balance}
    (h : l.find? (fun x => x.id = i) = some b) : (l ++ m).find? (fun x => x.id = i) = some b := by
  rw [List.find?_append, h]; rfl

theorem step_ids {cfg : Cfg} {db : DB} (op : Op) :
    ∃ new, ids (step cfg db op).1.balances = ids db.balances ++ new := by
  have key : ∀ db' : DB, OnlyOpened db db' → ∃ new, ids db'.balances = ids db.balances ++ new := by
    intro db' h
    obtain ⟨new, e, _⟩ := h.balances
    exact ⟨ids new, by rw [e]; simp [ids]⟩
  by_cases h : ∀ rows, (step cfg db op).2 ≠ .posted rows
  · exact key _ (c05_refused_changes_nothing cfg db op h)
  · cases op with
    | create i ind cur =>
      simp only [step]
      split
      · rename_i db' hc
        obtain ⟨_, _, rfl⟩ := createBalance_ok hc
        exact ⟨[i], by simp [ids]⟩
      · exact ⟨[], by simp⟩
    | post t n1 n2 =>
      simp only [step, recordSingle]
      split
      · exact ⟨[], by simp⟩
      · rename_i db1 sid h1
        split
        · exact key _ (resolve_onlyOpened h1)
        · rename_i db2 did h2
          obtain ⟨new, e⟩ := key _ ((resolve_onlyOpened h1).trans (resolve_onlyOpened h2))
          refine ⟨new, ?_⟩
          rw [← e]
          unfold postResolved
          split
          · rfl
          · rfl
          · split
            · rename_i db' hp
              obtain ⟨rows, hu, _, rfl⟩ := persist_ok hp
              exact updateRows_ids hu
            · rfl
    | batch ts =>
      refine ⟨[], ?_⟩
      simp only [step, recordBatch, List.append_nil]
      split
      · rfl
      · split
        · rename_i db' hp
          obtain ⟨rows, hu, _, rfl⟩ := persist_ok hp
          exact updateRows_ids hu
        · rfl
    | store t =>
      refine ⟨[], ?_⟩
      simp only [step, List.append_nil]
      split
      · rename_i db' hc; obtain ⟨_, _, rfl⟩ := insertTxn_ok hc; rfl
      · rfl

/-- Every row of a run's state descends from the row of the same id, if any. -/
theorem step_mono {cfg : Cfg} {db : DB} (hi : Inv db) (hq : QueuedNonneg db) {op : Op} (ho : OpSigns op) :
    ∀ x ∈ (step cfg db op).1.balances, ∀ o ∈ db.balances, o.id = x.id → MonoRel o x := by
  have base : ∀ {db1 : DB} {l : List Balance}, Inv db1 → OnlyOpened db db1 →
      RowsRel MonoRel (fun _ => False) db1.balances l →
      ∀ x ∈ l, ∀ o ∈ db.balances, o.id = x.id → MonoRel o x := by
    intro db1 l hi1 hop hr x hx o ho' hid
    obtain ⟨new, e, _⟩ := hop.balances
    rcases hr x hx with ⟨o', ho'', e1, _, r⟩ | hf
    · have : o ∈ db1.balances := by rw [e]; exact List.mem_append_left _ ho'
      have := eq_of_mem_ids hi1.nodup this ho'' (hid.trans e1.symm)
      subst this; exact r
    · cases hf
  have hrefl : ∀ l : List Balance, RowsRel MonoRel (fun _ => False) l l := fun l => RowsRel.refl monoRel_rowRel _ l
  cases op with
  | create i ind cur =>
    simp only [step]
    split
    · rename_i db' hc
      have hi' := createBalance_inv hi hc
      obtain ⟨h1, _, rfl⟩ := createBalance_ok hc
      intro x hx o ho' hid
      have := eq_of_mem_ids hi'.nodup (List.mem_append_left _ ho') hx hid
      subst this; exact monoRel_rowRel.refl _
    · exact base hi (.refl db) (hrefl _)
  | post t n1 n2 =>
    simp only [step, recordSingle]
    split
    · exact base hi (.refl db) (hrefl _)
    · rename_i db1 sid h1
      have i1 := resolve_inv hi h1
      split
      · exact base i1 (resolve_onlyOpened h1) (hrefl _)
      · rename_i db2 did h2
        have i2 := resolve_inv i1 h2
        have hop := (resolve_onlyOpened h1).trans (resolve_onlyOpened h2)
        have q2 : QueuedNonneg db2 := by unfold QueuedNonneg; rw [hop.txns]; exact hq
        exact base i2 hop (postResolved_rel monoRel_rowRel i2 q2 ((signOK_parties t sid did).2 ho) _)
  | batch ts =>
    exact base hi (.refl db) (recordBatch_rel monoRel_rowRel hi hq (fun t ht => batchMember_signOK (ho t ht)) _)
  | store t =>
    simp only [step]
    split
    · rename_i db' hc; obtain ⟨_, _, rfl⟩ := insertTxn_ok hc; exact base hi (.refl db) (hrefl _)
    · exact base hi (.refl db) (hrefl _)

/-- **C06, columns.** Along any run, an account's total credits and total debits
never decrease: whatever account exists in a state exists in every later state
with columns at least as large. -/
theorem c06_columns_never_decrease (cfg : Cfg) (before after : List Op)
    (h : ∀ op ∈ before ++ after, OpSigns op) :
    ∀ o ∈ (run cfg {} before).balances, ∃ x ∈ (run cfg {} (before ++ after)).balances,
      x.id = o.id ∧ o.credit ≤ x.credit ∧ o.debit ≤ x.debit := by
  have hrun : ∀ (ops : List Op) (db : DB), run cfg db ops = (ops.foldl (fun d op => (step cfg d op).1) db) := by
    intro ops
    induction ops with
    | nil => intro db; rfl
    | cons op ops ih => intro db; simp [run, ih]
  have happ : run cfg {} (before ++ after) = run cfg (run cfg {} before) after := by
    rw [hrun, hrun, hrun, List.foldl_append]
  rw [happ]
  have hq : ∀ (ops : List Op) (db : DB), QueuedNonneg db → (∀ op ∈ ops, OpSigns op) → QueuedNonneg (run cfg db ops) := by
    intro ops
    induction ops with
    | nil => intro db h _; exact h
    | cons op ops ih =>
      intro db hdb ho
      refine ih _ (step_queuedNonneg hdb ?_) (fun o h' => ho o (List.mem_cons_of_mem _ h'))
      have := ho op (by simp)
      cases op <;> first | trivial | exact this
  have hq0 := hq before {} (by intro t ht; cases ht) (fun op h' => h op (List.mem_append_left _ h'))
  have hi0 : Inv (run cfg {} before) := run_inv init_inv
  have ha : ∀ op ∈ after, OpSigns op := fun op h' => h op (List.mem_append_right _ h')
  generalize run cfg {} before = db at *
  clear happ h
  induction after generalizing db with
  | nil => intro o ho; exact ⟨o, ho, rfl, Int.le_refl _, Int.le_refl _⟩
  | cons op ops ih =>
    intro o ho
    have hi1 := step_inv (cfg := cfg) hi0 op
    have hq1 : QueuedNonneg (step cfg db op).1 := hq [op] db hq0 (by
      intro o' ho'; simp at ho'; subst ho'; exact ha o' (by simp))
    obtain ⟨new, e⟩ := step_ids (cfg := cfg) (db := db) op
    have hm : o.id ∈ ids (step cfg db op).1.balances := by
      rw [e]; exact List.mem_append_left _ (List.mem_map.2 ⟨o, ho, rfl⟩)
    obtain ⟨y, hy, hye⟩ := List.mem_map.1 hm
    have r := step_mono hi0 hq0 (ha op (by simp)) y hy o ho hye.symm
    obtain ⟨x, hx, e1, e2, e3⟩ := ih (fun o' h' => ha o' (List.mem_cons_of_mem _ h')) (step cfg db op).1 hq1 hi1 y hy
    exact ⟨x, hx, e1.trans hye, Int.le_trans r.1 e2, Int.le_trans r.2 e3⟩

/-- The demo run followed by a full commit of the hold meets the hypothesis. -/
def demoCommit : Op := .post
  { id := "t6", parent := "t2", source := "a", destination := "b", reference := "r6",
    preciseAmount := some 250, precision := 100, status := .commit } "x" "y"

example : (∀ op ∈ demoOps ++ [demoCommit], OpSigns op) ∧
    ((run {} {} (demoOps ++ [demoCommit])).balances.map (fun b => (b.id, b.credit, b.debit)))
      = [("a", 1000, 250), ("b", 250, 0), ("w", 0, 1000)] := by
  constructor
  · intro op hop
    simp only [demoOps, demoCommit, List.cons_append, List.nil_append, List.mem_cons, List.not_mem_nil,
      or_false] at hop
    rcases hop with rfl | rfl | rfl | rfl | rfl <;> simp only [OpSigns, SignOK] <;> decide +kernel
  · decide +kernel

end Blnk
