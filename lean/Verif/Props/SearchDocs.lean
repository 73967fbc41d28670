import Verif.Lemmas.Search
import Verif.Props.Webhooks
/-!
What search shows of a record.

C102: the amounts search shows. C103: documents have the shape their collection asks for and
carry the id of their record. C104: a rebuilt index shows what the living one showed.
-/
namespace Blnk.Srch

/-! ### C102 -/

/-- The amounts of a record a client reads, by the name they are shown under. -/
def amounts : Rec → List (String × Int)
  | .balance r => [("balance", r.balance), ("credit_balance", r.credit), ("debit_balance", r.debit),
      ("inflight_balance", r.inflight), ("inflight_credit_balance", r.inflightCredit),
      ("inflight_debit_balance", r.inflightDebit)]
  | .txn r => [("precise_amount", r.precise)]
  | _ => []

/-- The documents search may hold for a record: from an index task or from a rebuild. -/
def Shown (r : Rec) (d : Data) : Prop := d = doc r ∨ rebuilt r = some d

/-- C102 in full: every amount is shown as it is. -/
def C102Full : Prop := ∀ (r : Rec) (d : Data), Shown r d → ∀ f n, (f, n) ∈ amounts r →
  look d f = some (.str (toString n))

def wideBalance : BalanceRec :=
  { balance := 9007199254740993, version := 3, inflight := 0, credit := 9007199254740993,
    inflightCredit := 0, debit := 0, inflightDebit := 0, ledger := "general_ledger_id", identity := "",
    id := "bln_1", indicator := "", currency := "USD", created := 1700000000, expires := zeroTime,
    md := none, track := false, strategy := "FIFO" }

/-- A balance of 2^53 + 1 is shown as 2^53. -/
theorem c102_wide_fails : ¬ C102Full := by
  intro h
  have h1 := h (.balance wideBalance) _ (Or.inl rfl) "balance" 9007199254740993 (by decide +kernel)
  have h2 : look (doc (.balance wideBalance)) "balance" = some (.str "9007199254740992") := by decide +kernel
  rw [h2] at h1
  exact absurd h1 (by decide +kernel)

theorem asFloat_small {n : Int} (h : n.natAbs < 2 ^ 53) : asFloat n = n := by
  unfold asFloat
  rw [Web.toFloat_small h]
  rcases Int.lt_trichotomy n 0 with h | h | h
  · rw [Int.sign_eq_neg_one_of_neg h]; omega
  · subst h; rfl
  · rw [Int.sign_eq_one_of_pos h]; omega

/-- Rounding moves a number by at most one part in 2^53. -/
theorem toFloat_near (n : Nat) :
    2 ^ 53 * (Auth.toFloat n - n) ≤ n ∧ 2 ^ 53 * (n - Auth.toFloat n) ≤ n := by
  by_cases h : n < 2 ^ 53
  · rw [Web.toFloat_small h]; simp
  · unfold Auth.toFloat
    rw [if_neg h]
    dsimp only
    have hn : n ≠ 0 := by omega
    have hlog : 53 ≤ Nat.log2 n := by
      have := Nat.lt_log2_self (n := n)
      by_cases h5 : Nat.log2 n + 1 ≤ 53
      · have := Nat.pow_le_pow_right (n := 2) (by omega) h5
        omega
      · omega
    have hlow : 2 ^ Nat.log2 n ≤ n := Nat.log2_self_le hn
    have hp : 2 ^ Nat.log2 n = 2 ^ 52 * 2 ^ (Nat.log2 n - 52) := by
      rw [← Nat.pow_add]; congr 1; omega
    rw [hp] at hlow
    generalize hP : 2 ^ (Nat.log2 n - 52) = P at *
    have hP0 : 0 < P := by rw [← hP]; exact Nat.two_pow_pos _
    have hdm := Nat.div_add_mod n P
    have hr := Nat.mod_lt n hP0
    generalize n / P = q at *
    generalize n % P = r at *
    rw [Nat.mul_comm] at hdm
    have hs : (q + 1) * P = q * P + P := by rw [Nat.add_mul, Nat.one_mul]
    split
    · omega
    · split
      · rw [hs]; omega
      · split
        · omega
        · rw [hs]; omega

/-- What search shows for an amount is that amount rounded to 53 bits: exact up to 2^53 and
never more than one part in 2^53 away. -/
theorem c102_amounts_partial (r : Rec) (d : Data) (hd : Shown r d) (f : String) (n : Int)
    (h : (f, n) ∈ amounts r) :
    ∃ m : Int, look d f = some (.str (toString m)) ∧
      (n.natAbs < 2 ^ 53 → m = n) ∧ 2 ^ 53 * (m - n).natAbs ≤ n.natAbs := by
  refine ⟨asFloat n, ?_, asFloat_small, ?_⟩
  · have key : ∀ r : Rec, (f, n) ∈ amounts r → look (doc r) f = some (.str (toString (asFloat n))) := by
      intro r h
      cases r with
      | balance r =>
        simp only [amounts, List.mem_cons, Prod.mk.injEq, List.not_mem_nil, or_false] at h
        rcases h with h | h | h | h | h | h <;> obtain ⟨rfl, rfl⟩ := h <;>
          rw [look_doc _ _ (by decide)] <;>
          simp [Rec.json, BalanceRec.json, Rec.coll, look_cons, fieldOp, floatOp, bigFields, schema, timeFields, bigOp,
            needOp, emptyOp]
      | txn r =>
        simp only [amounts, List.mem_cons, Prod.mk.injEq, List.not_mem_nil, or_false] at h
        obtain ⟨rfl, rfl⟩ := h
        rw [look_doc _ _ (by decide)]
        simp [Rec.json, TxnRec.json, Rec.coll, look_cons, fieldOp, floatOp, bigFields, schema, timeFields, bigOp,
            needOp, emptyOp]
      | _ => simp [amounts] at h
    rcases hd with rfl | hd
    · exact key r h
    · unfold rebuilt at hd
      cases hr : r.row with
      | none => rw [hr] at hd; simp at hd
      | some r' =>
        rw [hr] at hd
        simp only [Option.map_some, Option.some.injEq] at hd
        subst hd
        apply key
        cases r <;> simp only [Rec.row, Option.some.injEq, reduceCtorEq] at hr <;> subst hr <;> exact h
  · have := toFloat_near n.natAbs
    unfold asFloat
    generalize Auth.toFloat n.natAbs = t at *
    rcases Int.lt_trichotomy n 0 with h | h | h
    · rw [Int.sign_eq_neg_one_of_neg h]; omega
    · subst h; simp
    · rw [Int.sign_eq_one_of_pos h]; omega

example : Shown (.balance wideBalance) (doc (.balance wideBalance)) ∧
    ("credit_balance", 9007199254740993) ∈ amounts (.balance wideBalance) :=
  ⟨Or.inl rfl, by decide +kernel⟩

/-! ### C103 -/

/-- A value a field of this type may hold. -/
def typeOk : Ty → JV → Bool
  | .string, .str _ => true
  | .int, .num _ => true
  | .float, .num _ => true
  | .float, .real _ => true
  | .bool, .bool _ => true
  | .object, .obj _ => true
  | _, _ => false

/-- The document has every field its collection requires, and every field the collection
knows holds a value of its type. -/
def Fits (c : Coll) (d : Data) : Prop := ∀ f ∈ schema c,
  (look d f.name = none ∧ f.optional = true) ∨ ∃ v, look d f.name = some v ∧ typeOk f.ty v = true

/-- The amount of a transaction is a number. -/
def Numeric : Rec → Prop
  | .txn r => (∃ n, r.amount = .num n) ∨ ∃ t, r.amount = .real t
  | _ => True

theorem schema_no_id (c : Coll) : ∀ f ∈ schema c, f.name ≠ "id" := by
  cases c <;> decide

theorem look_unlessEmpty (k s j : String) :
    look (unlessEmpty k s) j = if j = k ∧ s ≠ "" then some (.str s) else none := by
  unfold unlessEmpty
  by_cases hs : s = ""
  · simp [hs, look_nil]
  · rw [if_neg hs, look_cons, look_nil]; simp [hs]

/-- What the document of `r` holds under a field of its collection is fitting. -/
def FieldOk (r : Rec) (f : Field) : Prop :=
  (fieldOp r.coll f.name ((look r.json f.name).map floatOp) = none ∧ f.optional = true) ∨
  ∃ v, fieldOp r.coll f.name ((look r.json f.name).map floatOp) = some v ∧ typeOk f.ty v = true

theorem ledger_fits (r : LedgerRec) : ∀ f ∈ schema .ledgers, FieldOk (.ledger r) f := by
  obtain ⟨id, name, created, md⟩ := r
  cases md <;>
  simp [FieldOk, schema, Rec.coll, Rec.json, LedgerRec.json, look_cons, fieldOp, floatOp, bigFields, timeFields, needOp,
    emptyOp, timeOp, metaOp, typeOk, metaOf]

theorem identity_fits (r : IdentityRec) : ∀ f ∈ schema .identities, FieldOk (.identity r) f := by
  obtain ⟨id, kind, organization, category, first, last, others, gender, email, phone, nationality, street, country,
    state, post, city, dob, created, md⟩ := r
  cases md <;>
  simp [FieldOk, schema, Rec.coll, Rec.json, IdentityRec.json, look_cons, fieldOp, floatOp, bigFields, timeFields, needOp,
    emptyOp, timeOp, metaOp, typeOk, metaOf]

theorem recon_fits (r : ReconRec) : ∀ f ∈ schema .reconciliations, FieldOk (.recon r) f := by
  obtain ⟨id, upload, status, matched, unmatched, dry, started, completed⟩ := r
  cases completed <;>
  simp [FieldOk, schema, Rec.coll, Rec.json, ReconRec.json, look_cons, fieldOp, floatOp, bigFields, timeFields, needOp,
    emptyOp, timeOp, typeOk]

theorem balance_fits (r : BalanceRec) : ∀ f ∈ schema .balances, FieldOk (.balance r) f := by
  intro f hf
  simp only [schema, List.mem_cons, List.not_mem_nil, or_false] at hf
  rcases hf with rfl | rfl | rfl | rfl | rfl | rfl | rfl | rfl | rfl | rfl | rfl | rfl | rfl | rfl | rfl | rfl
  case inr.inr.inr.inr.inr.inr.inr.inr.inr.inl =>
    by_cases h : r.identity = "" <;>
    simp [FieldOk, schema, Rec.coll, Rec.json, BalanceRec.json, look_cons, fieldOp, floatOp, bigFields, timeFields, needOp,
      emptyOp, typeOk, h]
  case inr.inr.inr.inr.inr.inr.inr.inr.inr.inr.inr.inl =>
    by_cases h : r.indicator = "" <;>
    simp [FieldOk, schema, Rec.coll, Rec.json, BalanceRec.json, look_cons, look_append, look_unlessEmpty, fieldOp, floatOp, bigFields, timeFields,
      needOp, emptyOp, typeOk, default, h]
  case inr.inr.inr.inr.inr.inr.inr.inr.inr.inr.inr.inr.inr.inr.inr =>
    cases h : r.md <;>
    simp [FieldOk, schema, Rec.coll, Rec.json, BalanceRec.json, look_cons, look_append, look_unlessEmpty, fieldOp, floatOp, bigFields, timeFields,
      needOp, emptyOp, metaOp, metaOf, typeOk, h]
  all_goals
    simp [FieldOk, schema, Rec.coll, Rec.json, BalanceRec.json, look_cons, look_append, look_unlessEmpty, fieldOp, floatOp,
      bigFields, timeFields, needOp, emptyOp, timeOp, bigOp, typeOk, default]

theorem txn_fits (r : TxnRec) (hn : Numeric (.txn r)) : ∀ f ∈ schema .transactions, FieldOk (.txn r) f := by
  intro f hf
  simp only [schema, List.mem_cons, List.not_mem_nil, or_false] at hf
  rcases hf with rfl | rfl | rfl | rfl | rfl | rfl | rfl | rfl | rfl | rfl | rfl | rfl | rfl | rfl | rfl | rfl | rfl | rfl | rfl
  case inr.inl =>
    rcases hn with ⟨n, hn⟩ | ⟨t, hn⟩ <;>
    simp [FieldOk, schema, Rec.coll, Rec.json, TxnRec.json, look_cons, fieldOp, floatOp, bigFields, timeFields, needOp,
      emptyOp, typeOk, hn]
  case inr.inr.inr.inr.inr.inl =>
    by_cases h : r.source = "" <;> cases h1 : r.effective <;> cases h2 : r.md <;>
    simp [FieldOk, schema, Rec.coll, Rec.json, TxnRec.json, look_cons, look_append, look_unlessEmpty, look_nil, fieldOp, floatOp,
      bigFields, timeFields, needOp, emptyOp, typeOk, default, h, h1, h2]
  case inr.inr.inr.inr.inr.inr.inl =>
    by_cases h : r.destination = "" <;> cases h1 : r.effective <;> cases h2 : r.md <;>
    simp [FieldOk, schema, Rec.coll, Rec.json, TxnRec.json, look_cons, look_append, look_unlessEmpty, look_nil, fieldOp, floatOp,
      bigFields, timeFields, needOp, emptyOp, typeOk, default, h, h1, h2]
  case inr.inr.inr.inr.inr.inr.inr.inr.inr.inl =>
    by_cases h : r.description = "" <;> cases h1 : r.effective <;> cases h2 : r.md <;>
    simp [FieldOk, schema, Rec.coll, Rec.json, TxnRec.json, look_cons, look_append, look_unlessEmpty, look_nil, fieldOp, floatOp,
      bigFields, timeFields, needOp, emptyOp, typeOk, default, h, h1, h2]
  case inr.inr.inr.inr.inr.inr.inr.inr.inr.inr.inr.inr.inr.inr.inr.inr.inr.inl =>
    cases h : r.effective <;> cases h' : r.md <;>
    simp [FieldOk, schema, Rec.coll, Rec.json, TxnRec.json, look_cons, look_append, look_unlessEmpty, look_nil, fieldOp, floatOp,
      bigFields, timeFields, needOp, emptyOp, timeOp, typeOk, default, h, h']
  case inr.inr.inr.inr.inr.inr.inr.inr.inr.inr.inr.inr.inr.inr.inr.inr.inr.inr =>
    cases h : r.effective <;> cases h' : r.md <;>
    simp [FieldOk, schema, Rec.coll, Rec.json, TxnRec.json, look_cons, look_append, look_unlessEmpty, look_nil, fieldOp, floatOp,
      bigFields, timeFields, needOp, emptyOp, metaOp, typeOk, h, h']
  all_goals
    cases h : r.effective <;>
    simp [FieldOk, schema, Rec.coll, Rec.json, TxnRec.json, look_cons, look_append, look_unlessEmpty, fieldOp, floatOp,
      bigFields, timeFields, needOp, emptyOp, timeOp, bigOp, typeOk, h]

theorem doc_fits (r : Rec) (hn : Numeric r) : Fits r.coll (doc r) := by
  intro f hf
  rw [look_doc r f.name (schema_no_id _ f hf)]
  cases r with
  | ledger r => exact ledger_fits r f hf
  | identity r => exact identity_fits r f hf
  | balance r => exact balance_fits r f hf
  | txn r => exact txn_fits r hn f hf
  | recon r => exact recon_fits r f hf

theorem doc_id (r : Rec) (h : r.id ≠ "") : look (doc r) "id" = some (.str r.id) := by
  unfold doc
  apply look_handle_id _ _ _ h
  rw [look_throughJson]
  cases r with
  | balance r =>
    simp [Rec.coll, idField, Rec.id, Rec.json, BalanceRec.json, look_cons, fieldOp, floatOp,
      bigFields, timeFields, schema, needOp, emptyOp]
  | txn r =>
    simp [Rec.coll, idField, Rec.id, Rec.json, TxnRec.json, look_cons, look_append, look_unlessEmpty, fieldOp, floatOp,
      bigFields, timeFields, schema, needOp, emptyOp]
  | ledger r =>
    simp [Rec.coll, idField, Rec.id, Rec.json, LedgerRec.json, look_cons, fieldOp, floatOp,
      bigFields, timeFields, schema, needOp, emptyOp]
  | identity r =>
    simp [Rec.coll, idField, Rec.id, Rec.json, IdentityRec.json, look_cons, fieldOp, floatOp,
      bigFields, timeFields, schema, needOp, emptyOp]
  | recon r =>
    simp [Rec.coll, idField, Rec.id, Rec.json, ReconRec.json, look_cons, fieldOp, floatOp,
      bigFields, timeFields, schema, needOp, emptyOp]

theorem shown_is_doc {r : Rec} {d : Data} (h : Shown r d) :
    ∃ r' : Rec, d = doc r' ∧ r'.coll = r.coll ∧ r'.id = r.id ∧ (Numeric r → Numeric r') := by
  rcases h with rfl | h
  · exact ⟨r, rfl, rfl, rfl, fun a => a⟩
  · unfold rebuilt at h
    cases hr : r.row with
    | none => rw [hr] at h; simp at h
    | some r' =>
      rw [hr] at h
      simp only [Option.map_some, Option.some.injEq] at h
      refine ⟨r', h.symm, ?_⟩
      cases r <;> simp only [Rec.row, Option.some.injEq, reduceCtorEq] at hr <;> subst hr <;>
        exact ⟨rfl, rfl, fun a => a⟩

/-- C103: whatever a record holds, the document sent for it has every field its collection
requires, every field has the declared type, and the document goes by the id of the record. -/
theorem c103_fits (r : Rec) (hn : Numeric r) (d : Data) (hd : Shown r d) : Fits r.coll d := by
  obtain ⟨r', rfl, hc, -, hn'⟩ := shown_is_doc hd
  rw [← hc]
  exact doc_fits r' (hn' hn)

theorem c103_id (r : Rec) (h : r.id ≠ "") (d : Data) (hd : Shown r d) : look d "id" = some (.str r.id) := by
  obtain ⟨r', rfl, -, hi, -⟩ := shown_is_doc hd
  rw [← hi] at h ⊢
  exact doc_id r' h

def holdTxn : TxnRec :=
  { precise := 5000, amount := .real "50.5", amountString := "", precision := 100, overdraft := 0, id := "txn_1",
    parent := "", source := "bln_1", destination := "bln_2", reference := "ref_1", currency := "USD",
    description := "", status := "INFLIGHT", hash := "h", allowOverdraft := true, inflight := true,
    skipQueue := true, atomic := false, created := 1700000000, effective := none, scheduled := zeroTime,
    expiry := 1700086400, commit := zeroTime, md := none }

example : Numeric (.txn holdTxn) ∧ Rec.id (.txn holdTxn) ≠ "" ∧
    (∃ d, rebuilt (.txn holdTxn) = some d ∧ Shown (.txn holdTxn) d) := by
  refine ⟨Or.inr ⟨_, rfl⟩, by decide, _, rfl, Or.inr rfl⟩

/-! ### C104 -/

/-- C104 in full: a rebuild sends for every record the document its index task sent. -/
def C104Full : Prop := ∀ (r : Rec) (d : Data), rebuilt r = some d → ∀ f ∈ schema r.coll,
  look d f.name = look (doc r) f.name

/-- A hold that search found as a hold with an expiry is found without both after a rebuild. -/
theorem c104_hold_fails : ¬ C104Full := by
  intro h
  have h1 := h (.txn holdTxn) _ rfl ⟨"inflight", .bool, false⟩ (by decide +kernel)
  have h2 : look (doc (.txn holdTxn.row)) "inflight" = some (.bool false) := by decide +kernel
  have h3 : look (doc (.txn holdTxn)) "inflight" = some (.bool true) := by decide +kernel
  dsimp only at h1
  rw [h2, h3] at h1
  exact absurd h1 (by decide)

/-- The version of a balance is back to zero after a rebuild. -/
theorem c104_version_fails : ¬ C104Full := by
  intro h
  have h1 := h (.balance wideBalance) _ rfl ⟨"version", .int, false⟩ (by decide +kernel)
  have h2 : look (doc (.balance wideBalance.row)) "version" = some (.num 0) := by decide +kernel
  have h3 : look (doc (.balance wideBalance)) "version" = some (.num 3) := by decide +kernel
  dsimp only at h1
  rw [h2, h3] at h1
  exact absurd h1 (by decide)

/-- What a rebuild does not read. -/
def unread : Coll → List String
  | .balances => ["version", "inflight_expires_at"]
  | .transactions => ["allow_overdraft", "inflight", "scheduled_for", "inflight_expiry_date"]
  | _ => []

/-- All other fields are shown by a rebuilt index as the index tasks showed them. -/
theorem c104_rest_partial (r : Rec) (d : Data) (h : rebuilt r = some d) (f : Field) (hf : f ∈ schema r.coll)
    (hu : f.name ∉ unread r.coll) : look d f.name = look (doc r) f.name := by
  unfold rebuilt at h
  cases hr : r.row with
  | none => rw [hr] at h; simp at h
  | some r' =>
    rw [hr] at h
    simp only [Option.map_some, Option.some.injEq] at h
    subst h
    have hid := schema_no_id _ f hf
    have key : look r'.json f.name = look r.json f.name ∧ r'.coll = r.coll := by
      cases r with
      | ledger r => simp only [Rec.row, Option.some.injEq] at hr; subst hr; exact ⟨rfl, rfl⟩
      | identity r => simp only [Rec.row, Option.some.injEq] at hr; subst hr; exact ⟨rfl, rfl⟩
      | recon r => simp [Rec.row] at hr
      | balance r =>
        simp only [Rec.row, Option.some.injEq] at hr; subst hr
        refine ⟨?_, rfl⟩
        simp only [Rec.coll, schema, List.mem_cons, List.not_mem_nil, or_false] at hf
        rcases hf with rfl | rfl | rfl | rfl | rfl | rfl | rfl | rfl | rfl | rfl | rfl | rfl | rfl | rfl | rfl | rfl <;>
          simp [Rec.coll, unread] at hu <;>
          simp [Rec.json, BalanceRec.json, BalanceRec.row, look_cons, look_append, look_unlessEmpty]
      | txn r =>
        simp only [Rec.row, Option.some.injEq] at hr; subst hr
        refine ⟨?_, rfl⟩
        simp only [Rec.coll, schema, List.mem_cons, List.not_mem_nil, or_false] at hf
        rcases hf with rfl | rfl | rfl | rfl | rfl | rfl | rfl | rfl | rfl | rfl | rfl | rfl | rfl | rfl | rfl | rfl |
          rfl | rfl | rfl <;>
          simp [Rec.coll, unread] at hu <;>
          simp [Rec.json, TxnRec.json, TxnRec.row, look_cons, look_append, look_unlessEmpty]
    rw [look_doc r' _ hid, look_doc r _ hid, key.1, key.2]

example : rebuilt (.txn holdTxn) = some (doc (.txn holdTxn.row)) ∧
    (⟨"status", .string, false⟩ : Field) ∈ schema (Rec.txn holdTxn).coll ∧
    "status" ∉ unread (Rec.txn holdTxn).coll := ⟨rfl, by decide +kernel, by decide +kernel⟩

end Blnk.Srch
