import Verif.Model.Views
import Verif.Props.RecordAnswers
/-
C163-C168: what is shown of transactions and balances, wherever they are read.
-/
namespace Blnk.Views
open Errs

/-! ### Metadata -/

theorem find_filter_of {α : Type} (p q : α → Bool) (l : List α) (h : ∀ x, p x = true → q x = true) :
    (l.filter q).find? p = l.find? p := by
  induction l with
  | nil => rfl
  | cons x l ih =>
    by_cases hq : q x = true
    · rw [List.filter_cons_of_pos hq, List.find?_cons, List.find?_cons, ih]
    · rw [List.filter_cons_of_neg hq, ih, List.find?_cons]
      have : p x = false := by
        cases hp : p x
        · rfl
        · exact absurd (h x hp) hq
      rw [this]

theorem look_without_ne {k k' : Text} (m : Info) (h : k ≠ k') : look k (without k' m) = look k m := by
  unfold look without
  rw [find_filter_of]
  intro x hx
  simp at hx ⊢
  rw [hx]
  exact h

theorem look_without_self (k : Text) (m : Info) : look k (without k m) = none := by
  unfold look without
  rw [Option.map_eq_none_iff, List.find?_eq_none]
  intro x hx
  have := (List.mem_filter.1 hx).2
  simp at this ⊢
  exact this

theorem look_append (k : Text) (m n : Info) : look k (m ++ n) = (look k m).or (look k n) := by
  unfold look
  rw [List.find?_append]
  cases m.find? (fun e => e.1 = k) <;> simp

theorem look_put_self (k : Text) (v : Val) (m : Info) : look k (put k v m) = some v := by
  unfold put
  rw [look_append, look_without_self]
  simp [look]

theorem look_put_ne {k k' : Text} (v : Val) (m : Info) (h : k ≠ k') : look k (put k' v m) = look k m := by
  unfold put
  rw [look_append, look_without_ne m h]
  have : look k [(k', v)] = none := by simp [look, Ne.symm h]
  rw [this]
  cases look k m <;> rfl

theorem look_merge_notin {k : Text} {patch : Info} (h : ∀ e ∈ patch, e.1 ≠ k) (m : Info) : look k (merge m patch) = look k m := by
  unfold merge
  induction patch generalizing m with
  | nil => rfl
  | cons e patch ih =>
    rw [List.foldl_cons, ih (fun e he => h e (List.mem_cons_of_mem _ he)), look_put_ne _ _ (h e List.mem_cons_self).symm]

/-- What a transaction shows under a key of its metadata. -/
def shownAt (k : Text) (v : TxnView) : Option Val := v.info.bind (look k)

theorem look_nil (k : Text) : look k [] = none := rfl

theorem shownAt_transform {k : Text} (hk : k ≠ t! "inflight") (v : TxnView) : shownAt k (transform v) = shownAt k v := by
  unfold transform shownAt
  cases hi : v.info with
  | none => simp [hi]
  | some m =>
    dsimp only
    split
    · dsimp only
      split
      · rename_i h
        have := look_without_ne m hk
        rw [h, look_nil] at this
        simp [← this]
      · simp [look_without_ne m hk]
    · dsimp only
      split
      · rename_i h; subst h; simp [look_nil]
      · rfl

theorem transform_inflight (v : TxnView) (h : v.inflight = false) :
    (transform v).inflight = decide (v.info.bind (look (t! "inflight")) = some (.bool true)) := by
  unfold transform
  cases hi : v.info with
  | none => simp [h]
  | some m =>
    dsimp only
    by_cases hm : look (t! "inflight") m = some (.bool true)
    · simp [hm]
    · simp [hm, h]

theorem scan_info (k : TxnRead) (r : TxnRow) : (scanTxn k r).info = r.info := by cases k <;> rfl
theorem scan_inflight (k : TxnRead) (r : TxnRow) : (scanTxn k r).inflight = false := by cases k <;> rfl

/-- The fields that go through the transformation as they are. -/
theorem transform_other (v : TxnView) : { transform v with inflight := v.inflight, info := v.info } = v := by
  unfold transform
  split
  · rfl
  · split <;> rfl

/-! ### C163 -/

/-- What is shown is what was submitted. -/
structure Faithful (s : Submitted) (v : TxnView) : Prop where
  source : v.source = s.source
  destination : v.destination = s.destination
  reference : v.reference = s.reference
  currency : v.currency = s.currency
  description : v.description = s.description
  amount : v.amount = s.amount
  precise : v.precise = s.precise
  precision : v.precision = s.precision
  overdraftLimit : v.overdraftLimit = s.overdraftLimit
  allowOverdraft : v.allowOverdraft = s.allowOverdraft
  inflight : v.inflight = s.inflight
  atomic : v.atomic = s.atomic
  effectiveDate : ∀ d, s.effectiveDate = some d → v.effectiveDate = some d
  scheduledFor : v.scheduledFor = s.scheduledFor
  info : ∀ k, shownAt k v = s.info.bind (look k)

/-- C163 in full: a transaction applied at once is shown as it was submitted, wherever it is read. -/
def C163Full : Prop := ∀ (k : TxnRead) (id hash : Text) (now : Int) (s : Submitted), Faithful s (showTxn k (stored id hash now s))

/-- A transfer with nothing unusual about it. -/
def plainTransfer : Submitted where
  source := t! "bln_a"
  destination := t! "bln_b"
  reference := t! "ref_1"
  currency := t! "USD"
  amount := 10
  precise := 1000
  precision := 100

/-- Read by its reference, a transaction has no precision. -/
theorem c163_precision_lost : ¬ C163Full := by
  intro h
  have := (h .byReference [] [] 0 plainTransfer).precision
  revert this
  decide +kernel

/-- Read by its id, one has no effective date. -/
theorem c163_effective_date_lost : ¬ Faithful { plainTransfer with effectiveDate := some 86400 } (showTxn .byId (stored [] [] 0 { plainTransfer with effectiveDate := some 86400 })) := by
  intro h
  have := h.effectiveDate 86400 rfl
  revert this
  decide +kernel

/-- And it never shows that an overdraft was allowed, nor how much of one, nor that it was one of an
atomic batch, nor when it was scheduled for. -/
theorem c163_never_shown (k : TxnRead) (r : TxnRow) :
    (showTxn k r).allowOverdraft = false ∧ (showTxn k r).overdraftLimit = 0 ∧ (showTxn k r).atomic = false ∧
    (showTxn k r).scheduledFor = zeroTime ∧ (showTxn k r).skipQueue = false ∧ (showTxn k r).amountString = [] ∧
    (showTxn k r).inflightExpiry = zeroTime ∧ (showTxn k r).inflightCommit = zeroTime := by
  have h := transform_other (scanTxn k r)
  have hs : ∀ v : TxnView, v.allowOverdraft = false ∧ v.overdraftLimit = 0 ∧ v.atomic = false ∧ v.scheduledFor = zeroTime ∧
      v.skipQueue = false ∧ v.amountString = [] ∧ v.inflightExpiry = zeroTime ∧ v.inflightCommit = zeroTime → 
      (transform v).allowOverdraft = false ∧ (transform v).overdraftLimit = 0 ∧ (transform v).atomic = false ∧ (transform v).scheduledFor = zeroTime ∧
      (transform v).skipQueue = false ∧ (transform v).amountString = [] ∧ (transform v).inflightExpiry = zeroTime ∧ (transform v).inflightCommit = zeroTime := by
    intro v hv
    unfold transform
    split
    · exact hv
    · split <;> exact hv
  apply hs
  cases k <;> exact ⟨rfl, rfl, rfl, rfl, rfl, rfl, rfl, rfl⟩

/-- A key of the client's own named `inflight` is taken out of the metadata. -/
theorem c163_metadata_lost : shownAt (t! "inflight") (showTxn .byId (stored [] [] 0 { plainTransfer with info := some [(t! "inflight", .other (t! "\"to Lagos\""))] })) = none := by
  decide +kernel

/-- The metadata keys the ledger writes. -/
def reserved : List Text := [t! "inflight", t! "atomic", t! "allow_overdraft"]

theorem look_flagged {k : Text} (hk : k ∉ reserved) (s : Submitted) : look k (flagged s) = s.info.bind (look k) := by
  simp only [reserved, List.mem_cons, List.not_mem_nil, or_false, not_or] at hk
  have h0 : look k (s.info.getD []) = s.info.bind (look k) := by cases s.info <;> rfl
  unfold flagged
  rw [← h0]
  cases s.inflight <;> cases s.atomic <;> cases s.allowOverdraft <;>
    simp only [if_true, if_false, Bool.false_eq_true, look_put_ne _ _ hk.1, look_put_ne _ _ hk.2.1, look_put_ne _ _ hk.2.2]

theorem look_inflight_flagged (s : Submitted) (h : s.inflight = true) : look (t! "inflight") (flagged s) = some (.bool true) := by
  unfold flagged
  rw [h]
  have h1 : t! "inflight" ≠ t! "atomic" := by decide +kernel
  have h2 : t! "inflight" ≠ t! "allow_overdraft" := by decide +kernel
  cases s.atomic <;> cases s.allowOverdraft <;>
    simp only [if_true, if_false, Bool.false_eq_true, look_put_ne _ _ h1, look_put_ne _ _ h2, look_put_self]

/-- C163, partially: wherever it is read, a transaction applied at once shows the balances, reference,
currency, description and amounts submitted, whether it is inflight, and every key of the metadata but
the three the ledger uses itself. What is missing is in `c163_fields_iff_partial`. -/
theorem c163_shown_partial (k : TxnRead) (id hash : Text) (now : Int) (s : Submitted) :
    let v := showTxn k (stored id hash now s)
    v.id = id ∧ v.source = s.source ∧ v.destination = s.destination ∧ v.reference = s.reference ∧ v.currency = s.currency ∧
    v.description = s.description ∧ v.amount = s.amount ∧ v.precise = s.precise ∧ v.inflight = s.inflight ∧
    v.status = (if s.inflight then t! "INFLIGHT" else t! "APPLIED") ∧ v.createdAt = now ∧
    ∀ key, key ∉ reserved → shownAt key v = s.info.bind (look key) := by
  have hs : ∀ w : TxnView, (transform w).id = w.id ∧ (transform w).source = w.source ∧ (transform w).destination = w.destination ∧
      (transform w).reference = w.reference ∧ (transform w).currency = w.currency ∧ (transform w).description = w.description ∧
      (transform w).amount = w.amount ∧ (transform w).precise = w.precise ∧ (transform w).status = w.status ∧ (transform w).createdAt = w.createdAt := by
    intro w
    unfold transform
    split
    · simp
    · split <;> simp
  obtain ⟨h1, h2, h3, h4, h5, h6, h7, h8, h9, h10⟩ := hs (scanTxn k (stored id hash now s))
  have hi : (showTxn k (stored id hash now s)).inflight = s.inflight := by
    unfold showTxn
    rw [transform_inflight _ (scan_inflight ..), scan_info]
    cases hf : s.inflight
    · simp [stored, hf, look_without_self]
    · simp [stored, hf, look_inflight_flagged s hf]
  refine ⟨h1.trans ?_, h2.trans ?_, h3.trans ?_, h4.trans ?_, h5.trans ?_, h6.trans ?_, h7.trans ?_, h8.trans ?_, hi, h9.trans ?_, h10.trans ?_, ?_⟩
  · cases k <;> rfl
  · cases k <;> rfl
  · cases k <;> rfl
  · cases k <;> rfl
  · cases k <;> rfl
  · cases k <;> rfl
  · cases k <;> rfl
  · cases k <;> rfl
  · cases k <;> rfl
  · cases k <;> rfl
  · intro key hk
    have hk0 : key ≠ t! "inflight" := fun e => hk (by rw [e]; exact List.mem_cons_self)
    unfold showTxn
    rw [shownAt_transform hk0]
    unfold shownAt
    rw [scan_info]
    show (some _ : Option Info).bind (look key) = _
    rw [Option.bind_some, ← look_flagged hk s]
    cases s.inflight
    · exact look_without_ne _ hk0
    · rfl

/-- Which of the other fields are shown: the precision unless read by reference, the effective date in
the lists only, the rest if nothing was asked. -/
theorem c163_fields_iff_partial (k : TxnRead) (id hash : Text) (now : Int) (s : Submitted) :
    let v := showTxn k (stored id hash now s)
    (v.precision = s.precision ↔ k ≠ .byReference ∨ s.precision = 0) ∧
    ((∀ d, s.effectiveDate = some d → v.effectiveDate = some d) ↔ k = .listed ∨ k = .filtered ∨ s.effectiveDate = none) ∧
    (v.allowOverdraft = s.allowOverdraft ↔ s.allowOverdraft = false) ∧ (v.overdraftLimit = s.overdraftLimit ↔ s.overdraftLimit = 0) ∧
    (v.atomic = s.atomic ↔ s.atomic = false) ∧ (v.scheduledFor = s.scheduledFor ↔ s.scheduledFor = zeroTime) := by
  have hs : ∀ w : TxnView, (transform w).precision = w.precision ∧ (transform w).effectiveDate = w.effectiveDate := by
    intro w
    unfold transform
    split
    · simp
    · split <;> simp
  obtain ⟨h1, h2⟩ := hs (scanTxn k (stored id hash now s))
  obtain ⟨n1, n2, n3, n4, -⟩ := c163_never_shown k (stored id hash now s)
  refine ⟨?_, ?_, by rw [n1]; exact eq_comm, by rw [n2]; exact eq_comm, by rw [n3]; exact eq_comm, by rw [n4]; exact eq_comm⟩
  · show (transform (scanTxn k (stored id hash now s))).precision = _ ↔ _
    rw [h1]
    cases k <;> simp [scanTxn, stored]
    exact eq_comm
  · show (∀ d, s.effectiveDate = some d → (transform (scanTxn k (stored id hash now s))).effectiveDate = some d) ↔ _
    rw [h2]
    cases he : s.effectiveDate <;> cases k <;> simp [scanTxn, stored, he]

/-- **C163.** A flag whose field is never shown can still be read in the metadata, where it was put: atomic and
allow_overdraft are there if they were asked for, and if not the client's own value of that key. -/
theorem c163_flags (k : TxnRead) (id hash : Text) (now : Int) (s : Submitted) :
    let v := showTxn k (stored id hash now s)
    shownAt (t! "atomic") v = (if s.atomic then some (.bool true) else s.info.bind (look (t! "atomic"))) ∧
    shownAt (t! "allow_overdraft") v = (if s.allowOverdraft then some (.bool true) else s.info.bind (look (t! "allow_overdraft"))) := by
  have a1 : t! "atomic" ≠ t! "inflight" := by decide +kernel
  have a2 : t! "atomic" ≠ t! "allow_overdraft" := by decide +kernel
  have o1 : t! "allow_overdraft" ≠ t! "inflight" := by decide +kernel
  have read : ∀ key, key ≠ t! "inflight" → shownAt key (showTxn k (stored id hash now s)) = look key (flagged s) := by
    intro key hk0
    unfold showTxn
    rw [shownAt_transform hk0]
    unfold shownAt
    rw [scan_info]
    show (some _ : Option Info).bind (look key) = _
    rw [Option.bind_some]
    cases s.inflight
    · exact look_without_ne _ hk0
    · rfl
  have h0 : ∀ key, look key (s.info.getD []) = s.info.bind (look key) := by intro key; cases s.info <;> rfl
  refine ⟨(read _ a1).trans ?_, (read _ o1).trans ?_⟩
  · unfold flagged
    cases s.inflight <;> cases s.atomic <;> cases s.allowOverdraft <;>
      simp only [if_true, if_false, Bool.false_eq_true, look_put_ne _ _ a1, look_put_ne _ _ a2, look_put_self, h0]
  · unfold flagged
    cases s.inflight <;> cases s.atomic <;> cases s.allowOverdraft <;>
      simp only [if_true, if_false, Bool.false_eq_true, look_put_ne _ _ o1, look_put_ne _ _ (Ne.symm a2), look_put_self, h0]

example : shownAt (t! "allow_overdraft") (showTxn .byId (stored [] [] 0 { plainTransfer with allowOverdraft := true })) = some (.bool true) := by
  decide +kernel

example : shownAt (t! "note") (showTxn .byId (stored [] [] 0 { plainTransfer with inflight := true, info := some [(t! "note", .other (t! "\"rent\""))] })) =
    some (.other (t! "\"rent\"")) := by decide +kernel

/-! ### C164 -/

/-- C164 in full: a transaction is shown the same wherever it is read. -/
def C164Full : Prop := ∀ (k k' : TxnRead) (r : TxnRow), showTxn k r = showTxn k' r

/-- By its id with a precision and a hash, by its reference without, and with its effective date only in
a list. -/
theorem c164_violated : ¬ C164Full := by
  intro h
  have := congrArg TxnView.precision (h .byId .byReference (stored [] [] 0 plainTransfer))
  revert this
  decide +kernel

theorem transform_congr {v w : TxnView} (h : { v with precision := 0, hash := [], effectiveDate := none } = { w with precision := 0, hash := [], effectiveDate := none }) :
    { transform v with precision := 0, hash := [], effectiveDate := none } = { transform w with precision := 0, hash := [], effectiveDate := none } := by
  have hc : ∀ v : TxnView, { transform v with precision := 0, hash := [], effectiveDate := none } =
      transform { v with precision := 0, hash := [], effectiveDate := none } := by
    intro v
    unfold transform
    dsimp only
    split
    · rfl
    · split <;> rfl
  rw [hc, hc, h]

/-- C164, partially: everything else is the same everywhere, and the two lists agree throughout. -/
theorem c164_same_but_partial (k k' : TxnRead) (r : TxnRow) :
    { showTxn k r with precision := 0, hash := [], effectiveDate := none } = { showTxn k' r with precision := 0, hash := [], effectiveDate := none } ∧
    showTxn .listed r = showTxn .filtered r := by
  refine ⟨transform_congr ?_, rfl⟩
  cases k <;> cases k' <;> rfl

/-- When the others agree. -/
theorem c164_same_iff (r : TxnRow) : (showTxn .byId r = showTxn .listed r ↔ r.effectiveDate = none) ∧
    (showTxn .byId r = showTxn .byReference r ↔ r.precision = 0 ∧ r.hash = []) := by
  have hs : ∀ w : TxnView, (transform w).precision = w.precision ∧ (transform w).effectiveDate = w.effectiveDate ∧ (transform w).hash = w.hash := by
    intro w
    unfold transform
    split
    · simp
    · split <;> simp
  constructor
  · constructor
    · intro h
      have := congrArg TxnView.effectiveDate h
      unfold showTxn at this
      rw [(hs _).2.1, (hs _).2.1] at this
      exact this.symm
    · intro h
      unfold showTxn
      congr 1
      simp [scanTxn, h]
  · constructor
    · intro h
      have h1 := congrArg TxnView.precision h
      have h2 := congrArg TxnView.hash h
      unfold showTxn at h1 h2
      rw [(hs _).1, (hs _).1] at h1
      rw [(hs _).2.2, (hs _).2.2] at h2
      exact ⟨h1, h2⟩
    · rintro ⟨h1, h2⟩
      unfold showTxn
      congr 1
      simp [scanTxn, h1, h2]

/-! ### C165 -/

/-- Updates of the metadata, one after the other. -/
def updates (ps : List Info) (r : TxnRow) : TxnRow := ps.foldl (fun r p => updateInfo p r) r

/-- C165 in full: whatever is written to its metadata, a transaction is shown inflight when it is, and not when it
is not. -/
def C165Full : Prop := ∀ (k : TxnRead) (id hash : Text) (now : Int) (s : Submitted) (ps : List Info),
  (showTxn k (updates ps (stored id hash now s))).inflight = decide ((showTxn k (updates ps (stored id hash now s))).status = t! "INFLIGHT")

/-- An applied transfer, with `"inflight": true` written to its metadata, is shown as inflight. -/
theorem c165_violated : ¬ C165Full := by
  intro h
  have := h .byId [] [] 0 plainTransfer [[(t! "inflight", .bool true)]]
  revert this
  decide +kernel

theorem updates_status (ps : List Info) (r : TxnRow) : (updates ps r).status = r.status := by
  unfold updates
  induction ps generalizing r with
  | nil => rfl
  | cons p ps ih => rw [List.foldl_cons, ih]; rfl

theorem updates_look {key : Text} {ps : List Info} (h : ∀ p ∈ ps, ∀ e ∈ p, e.1 ≠ key) (r : TxnRow) :
    (updates ps r).info.bind (look key) = r.info.bind (look key) := by
  unfold updates
  induction ps generalizing r with
  | nil => rfl
  | cons p ps ih =>
    rw [List.foldl_cons, ih (fun p hp => h p (List.mem_cons_of_mem _ hp))]
    show look key (merge (r.info.getD []) p) = _
    rw [look_merge_notin (h p List.mem_cons_self)]
    cases r.info <;> rfl

/-- C165, partially: as long as no update writes the key `inflight`. -/
theorem c165_inflight_partial (k : TxnRead) (id hash : Text) (now : Int) (s : Submitted) (ps : List Info)
    (h : ∀ p ∈ ps, ∀ e ∈ p, e.1 ≠ t! "inflight") :
    (showTxn k (updates ps (stored id hash now s))).inflight = decide ((showTxn k (updates ps (stored id hash now s))).status = t! "INFLIGHT") := by
  have hst : (showTxn k (updates ps (stored id hash now s))).status = if s.inflight then t! "INFLIGHT" else t! "APPLIED" := by
    have ht : ∀ w : TxnView, (transform w).status = w.status := by
      intro w; unfold transform; split
      · rfl
      · split <;> rfl
    unfold showTxn
    rw [ht]
    have : (scanTxn k (updates ps (stored id hash now s))).status = (updates ps (stored id hash now s)).status := by cases k <;> rfl
    rw [this, updates_status]
    rfl
  rw [hst]
  unfold showTxn
  rw [transform_inflight _ (scan_inflight ..), scan_info, updates_look h]
  cases hf : s.inflight
  · simp only [stored, hf, Option.bind_some, look_without_self, if_false, Bool.false_eq_true]
    decide +kernel
  · simp [stored, hf, look_inflight_flagged s hf]

example : (showTxn .listed (updates [[(t! "note", .bool true)]] (stored [] [] 0 { plainTransfer with inflight := true }))).inflight = true := by
  decide +kernel

/-! ### C166 -/

/-- C166 in full: a balance is shown the same wherever it is read. -/
def C166Full : Prop := ∀ (k k' : BalRead) (r : BalRow), showBal k r = showBal k' r

/-- A balance of which funds are tracked, changed twice since. -/
def tracked : BalRow where
  id := t! "bln_a"
  balance := 700
  credit := 1000
  debit := 300
  inflightBalance := 0
  inflightCredit := 0
  inflightDebit := 0
  version := 3
  currency := t! "USD"
  ledger := t! "ldg_a"
  identity := none
  indicator := some (t! "@a")
  createdAt := 0
  info := some [(t! "kind", .other (t! "\"savings\""))]
  track := true
  strategy := some (t! "LIFO")

/-- A list shows version 0 of it, and that its funds are not tracked. -/
theorem c166_violated : ¬ C166Full := by
  intro h
  have := h .listed .byId tracked
  revert this
  decide +kernel

/-- C166, partially: the amounts, currency, ledger, owner and indicator are the same everywhere and those of
the row; the lists agree with each other. -/
theorem c166_same_but_partial (k : BalRead) (r : BalRow) :
    let v := showBal k r
    v.id = r.id ∧ v.balance = r.balance ∧ v.credit = r.credit ∧ v.debit = r.debit ∧ v.inflightBalance = r.inflightBalance ∧
    v.inflightCredit = r.inflightCredit ∧ v.inflightDebit = r.inflightDebit ∧ v.currency = r.currency ∧ v.ledger = r.ledger ∧
    v.identity = r.identity.getD [] ∧ v.indicator = r.indicator.getD [] ∧ v.createdAt = r.createdAt ∧
    showBal .listed r = showBal .filtered r := by
  cases k <;> simp [showBal]

/-- What is left out where: nothing by id, the metadata by indicator, and the version, the tracking and the
strategy in lists. -/
theorem c166_same_iff (r : BalRow) :
    (showBal .byIndicator r = showBal .byId r ↔ r.info = none) ∧
    (showBal .listed r = showBal .byId r ↔ r.version = 0 ∧ r.track = false ∧ r.strategy = some []) := by
  constructor
  · simp [showBal]; exact eq_comm
  · simp only [showBal, BalView.mk.injEq, true_and]
    constructor
    · rintro ⟨h1, h2, h3⟩
      refine ⟨h1.symm, h2.symm, ?_⟩
      cases hs : r.strategy with
      | none => rw [hs] at h3; exact absurd h3 (by decide +kernel)
      | some x => rw [hs] at h3; exact congrArg some h3.symm
    · rintro ⟨h1, h2, h3⟩
      exact ⟨h1.symm, h2.symm, by rw [h3]; rfl⟩

/-! ### C167 -/

/-- The owner and the ledger of every balance exist. -/
def Rooted (rows : List BalRow) (idents : List Book.Identity) (ledgers : List Book.Ledger) : Prop :=
  ∀ r ∈ rows, (∀ o, r.identity = some o → o ∈ idents.map Book.Identity.id) ∧ r.ledger ∈ ledgers.map Book.Ledger.id

/-- C167 in full: a balance that exists is shown with its owner and its ledger when they are asked for,
and each of them as it is. -/
def C167Full : Prop := ∀ rows idents ledgers inc (r : BalRow), Rooted rows idents ledgers → r ∈ rows → (rows.map BalRow.id).Nodup →
  ∃ f, getBalance rows idents ledgers inc r.id = .ok f ∧ f.view = showBal .byId r ∧
    (t! "identity" ∈ inc → f.owner = r.identity.bind (fun o => idents.find? (fun i => i.id = o))) ∧
    (t! "ledger" ∈ inc → f.ledger = ledgers.find? (fun l => l.id = r.ledger))

/-- A balance without an owner, asked for with its owner, is answered with an internal error. -/
theorem c167_no_owner (rows : List BalRow) (idents : List Book.Identity) (ledgers : List Book.Ledger) (inc : List Text) (r : BalRow)
    (hr : rows.find? (fun x => x.id = r.id) = some r) (ho : r.identity = none) (hi : t! "identity" ∈ inc) :
    ∃ e, getBalance rows idents ledgers inc r.id = .error e ∧ e.status = 500 := by
  refine ⟨_, by unfold getBalance; rw [hr]; simp only [ho, Option.bind_none, Option.isNone_none, hi, decide_true, Bool.and_self, Bool.true_or, if_true]; rfl, ?_⟩
  decide +kernel

def ledgerA : Book.Ledger := { id := t! "ldg_a", name := t! "main", info := none }

theorem c167_violated : ¬ C167Full := by
  intro h
  obtain ⟨f, hf, -⟩ := h [tracked] [] [ledgerA] [t! "identity"] tracked
    (by intro r hr; rw [List.mem_singleton.1 hr]; exact ⟨fun o ho => by simp [tracked] at ho, by decide +kernel⟩) List.mem_cons_self (by decide +kernel)
  obtain ⟨e, he, -⟩ := c167_no_owner [tracked] [] [ledgerA] [t! "identity"] tracked (by decide +kernel) rfl List.mem_cons_self
  rw [hf] at he
  cases he

theorem find_self {rows : List BalRow} {r : BalRow} (hr : r ∈ rows) (hn : (rows.map BalRow.id).Nodup) :
    rows.find? (fun x => x.id = r.id) = some r := by
  induction rows with
  | nil => simp at hr
  | cons x rows ih =>
    rw [List.map_cons, List.nodup_cons] at hn
    by_cases hx : x.id = r.id
    · rw [List.find?_cons_of_pos (by simpa using hx)]
      rcases List.mem_cons.1 hr with rfl | hr'
      · rfl
      · exact absurd (List.mem_map.2 ⟨r, hr', hx.symm⟩) hn.1
    · rw [List.find?_cons_of_neg (by simpa using hx)]
      rcases List.mem_cons.1 hr with rfl | hr'
      · exact absurd rfl hx
      · exact ih hr' hn.2

/-- C167, partially: a balance that exists is shown, unless its owner is asked for and it has none; the
owner that comes with it lacks its type and its metadata, and the ledger its metadata. -/
theorem c167_included_partial {rows : List BalRow} {idents : List Book.Identity} {ledgers : List Book.Ledger} {inc : List Text} {r : BalRow}
    (root : Rooted rows idents ledgers) (hr : r ∈ rows) (hn : (rows.map BalRow.id).Nodup) (h : t! "identity" ∈ inc → r.identity ≠ none) :
    ∃ f, getBalance rows idents ledgers inc r.id = .ok f ∧ f.view = showBal .byId r ∧
      (t! "identity" ∈ inc → ∃ i ∈ idents, some i.id = r.identity ∧ f.owner = some (included i)) ∧
      (t! "ledger" ∈ inc → ∃ l ∈ ledgers, l.id = r.ledger ∧ f.ledger = some { l with info := none }) ∧
      (t! "identity" ∉ inc → f.owner = none) ∧ (t! "ledger" ∉ inc → f.ledger = none) := by
  obtain ⟨hid, hl⟩ := root r hr
  obtain ⟨l, hlf⟩ : ∃ l, ledgers.find? (fun l => l.id = r.ledger) = some l := by
    obtain ⟨l, hl1, hl2⟩ := List.mem_map.1 hl
    cases e : ledgers.find? (fun l => l.id = r.ledger) with
    | some l => exact ⟨l, rfl⟩
    | none => exact absurd hl2 (by simpa using List.find?_eq_none.1 e l hl1)
  have hlm := List.mem_of_find?_eq_some hlf
  have hle : l.id = r.ledger := by simpa using List.find?_some hlf
  unfold getBalance
  rw [find_self hr hn]
  simp only [hlf, Option.isNone_some, Bool.and_false, Bool.or_false]
  by_cases hi : t! "identity" ∈ inc
  · obtain ⟨o, ho⟩ : ∃ o, r.identity = some o := by
      cases e : r.identity with
      | none => exact absurd e (h hi)
      | some o => exact ⟨o, rfl⟩
    obtain ⟨i, hif⟩ : ∃ i, idents.find? (fun i => i.id = o) = some i := by
      obtain ⟨i, h1, h2⟩ := List.mem_map.1 (hid o ho)
      cases e : idents.find? (fun i => i.id = o) with
      | some i => exact ⟨i, rfl⟩
      | none => exact absurd h2 (by simpa using List.find?_eq_none.1 e i h1)
    have hie : i.id = o := by simpa using List.find?_some hif
    simp only [ho, Option.bind_some, hif, Option.isNone_some, Bool.and_false, Bool.false_eq_true, if_false]
    refine ⟨_, rfl, rfl, fun _ => ⟨i, List.mem_of_find?_eq_some hif, by rw [hie], by simp [hi]⟩, fun hx => ⟨l, hlm, hle, by simp [hx]⟩,
      fun hx => absurd hi hx, fun hx => by simp [hx]⟩
  · simp only [hi, decide_false, Bool.false_and, Bool.false_eq_true, if_false]
    exact ⟨_, rfl, rfl, fun hx => hx.elim, fun hx => ⟨l, hlm, hle, by simp [hx]⟩, fun _ => rfl, fun hx => by simp [hx]⟩

/-- A balance that does not exist is not found, whatever its id. -/
theorem c167_missing (rows : List BalRow) (idents : List Book.Identity) (ledgers : List Book.Ledger) (inc : List Text) (id : Text)
    (h : id ∉ rows.map BalRow.id) : Book.refused 404 "BAL_NOT_FOUND" (getBalance rows idents ledgers inc id) := by
  have : rows.find? (fun r => r.id = id) = none := by
    rw [List.find?_eq_none]
    intro r hr
    simp only [decide_eq_true_eq]
    exact fun e => h (List.mem_map.2 ⟨r, hr, e⟩)
  unfold getBalance
  rw [this]
  refine ⟨_, rfl, ?_, ?_⟩
  · show (writeError _ _ _ none).status = _
    rw [Book.write_status]
    decide +kernel
  · show (writeError _ _ _ none).code = _
    rw [Book.write_code]
    decide +kernel

example : ∃ f, getBalance [tracked] [] [ledgerA] [t! "ledger"] tracked.id = .ok f ∧ f.ledger = some ledgerA :=
  ⟨_, rfl, by decide +kernel⟩

/-! ### C168 -/

/-- C168 in full: a balance asked for by an indicator and a currency is shown, or not found. -/
def C168Full : Prop := ∀ (rows : List BalRow) (ind cur : Text),
  (∀ r, rows.find? (fun r => r.indicator = some ind ∧ r.currency = cur) = some r → getByIndicator rows ind cur = .ok (showBal .byIndicator r)) ∧
  ((∀ r ∈ rows, r.indicator = some ind → r.currency ≠ cur) → Book.refused 404 "BAL_NOT_FOUND" (getByIndicator rows ind cur))

theorem has_missing {p ind : Text} (h : '\'' ∉ p) (hp : p ≠ []) :
    has p (t! "balance with indicator '" ++ ind ++ t! "' not found") =
      (has p (t! "balance with indicator ") || (has p ind || has p (t! " not found"))) := by
  have e : t! "balance with indicator '" ++ ind ++ t! "' not found" =
      t! "balance with indicator " ++ '\'' :: (ind ++ '\'' :: t! " not found") := by simp
  rw [e, has_append_of_notin h, Book.has_cons_notin h hp, has_append_of_notin h, Book.has_cons_notin h hp]

/-- Which code the answer for an unknown indicator has, for one without blanks: a word in it decides. -/
theorem c168_missing (rows : List BalRow) (ind cur : Text) (h : ∀ r ∈ rows, r.indicator = some ind → r.currency ≠ cur) (hb : ' ' ∉ ind) :
    if (t! "transaction") <:+: ind then Book.refused 404 "TXN_NOT_FOUND" (getByIndicator rows ind cur)
    else if (t! "field") <:+: ind then Book.refused 400 "IDT_FIELD_NOT_FOUND" (getByIndicator rows ind cur)
    else Book.refused 404 "BAL_NOT_FOUND" (getByIndicator rows ind cur) := by
  have hg : rows.find? (fun r => r.indicator = some ind ∧ r.currency = cur) = none := by
    rw [List.find?_eq_none]
    intro r hr
    simp only [decide_eq_true_eq, not_and]
    exact h r hr
  unfold getByIndicator
  rw [hg]
  dsimp only
  have key : ∀ m : Text, (∀ p ∈ Book.allPhrases, has p m = (has p (t! "balance with indicator ") || (has p ind || has p (t! " not found")))) →
      classifyMessage (t! "balance with indicator '" ++ ind ++ t! "' not found") = classifyMessage m := by
    intro m hm
    apply Book.classifyIn_congr
    intro p hp
    rw [hm p hp]
    exact has_missing (Book.phrases_plain p hp).1 (Book.phrases_plain p hp).2.1
  have resp : ∀ c, classifyMessage (t! "balance with indicator '" ++ ind ++ t! "' not found") = some c →
      respondError { upgrades := [("GEN_NOT_FOUND", "BAL_NOT_FOUND")] } (plain (t! "balance with indicator '" ++ ind ++ t! "' not found")) =
      writeError { upgrades := [("GEN_NOT_FOUND", "BAL_NOT_FOUND")] } c (t! "balance with indicator '" ++ ind ++ t! "' not found") none := by
    intro c hc
    show (match classifyMessage _ with | some c => _ | none => _) = _
    have : classifyMessage (plain (t! "balance with indicator '" ++ ind ++ t! "' not found")).text = some c := hc
    rw [this]
    rfl
  have word : ∀ m : Text, has (t! "transaction") m = has (t! "transaction") ind →
      has (t! "field") m = has (t! "field") ind →
      (∀ p ∈ Book.allPhrases, ' ' ∈ p → has p m = (has p (t! "balance with indicator ") || has p (t! " not found"))) →
      ∀ p ∈ Book.allPhrases, has p m = (has p (t! "balance with indicator ") || (has p ind || has p (t! " not found"))) := by
    intro m h1 h2 h3 p hp
    rcases (Book.phrases_plain p hp).2.2 with hs | rfl | rfl
    · rw [h3 p hp hs, has_false_of_noBlank hs hb, Bool.false_or]
    · rw [h1, show has (t! "transaction") (t! "balance with indicator ") = false by decide +kernel,
        show has (t! "transaction") (t! " not found") = false by decide +kernel]
      simp
    · rw [h2, show has (t! "field") (t! "balance with indicator ") = false by decide +kernel,
        show has (t! "field") (t! " not found") = false by decide +kernel]
      simp
  by_cases ht : (t! "transaction") <:+: ind
  · rw [if_pos ht]
    have hc : classifyMessage (t! "balance with indicator '" ++ ind ++ t! "' not found") = some "TXN_NOT_FOUND" := by
      have h1 : has (t! "transaction") (t! "balance with indicator '" ++ ind ++ t! "' not found") = true := by
        rw [has_missing (by decide +kernel) (by decide), (has_iff _ _).2 ht]
        simp
      have h2 : has (t! "not found") (t! "balance with indicator '" ++ ind ++ t! "' not found") = true := by
        rw [has_missing (by decide +kernel) (by decide), show has (t! "not found") (t! " not found") = true by decide +kernel]
        simp
      unfold classifyMessage messagePatterns classifyIn
      rw [if_pos]
      simp only [List.all_cons, List.all_nil, Bool.and_true, h1, h2]
    rw [resp _ hc]
    exact ⟨_, rfl, by rw [Book.write_status]; decide +kernel, by rw [Book.write_code]; decide +kernel⟩
  · rw [if_neg ht]
    have ht' := (has_false_iff _ _).2 ht
    by_cases hf : (t! "field") <:+: ind
    · rw [if_pos hf]
      have hf' := (has_iff _ _).2 hf
      have hc := key (t! "balance with indicator field not found")
        (word _ (by rw [ht']; decide +kernel) (by rw [hf']; decide +kernel) (by decide +kernel))
      rw [show classifyMessage (t! "balance with indicator field not found") = some "IDT_FIELD_NOT_FOUND" by decide +kernel] at hc
      rw [resp _ hc]
      exact ⟨_, rfl, by rw [Book.write_status]; decide +kernel, by rw [Book.write_code]; decide +kernel⟩
    · rw [if_neg hf]
      have hf' := (has_false_iff _ _).2 hf
      have hc := key (t! "balance with indicator  not found")
        (word _ (by rw [ht']; decide +kernel) (by rw [hf']; decide +kernel) (by decide +kernel))
      rw [show classifyMessage (t! "balance with indicator  not found") = some "GEN_NOT_FOUND" by decide +kernel] at hc
      rw [resp _ hc]
      exact ⟨_, rfl, by rw [Book.write_status]; decide +kernel, by rw [Book.write_code]; decide +kernel⟩

/-- There is no balance `@transactions`: the answer says that a transaction was not found. -/
theorem c168_violated : ¬ C168Full := by
  intro h
  obtain ⟨r, hr, -, hc⟩ := (h [] (t! "@transactions") (t! "USD")).2 (by simp)
  have : Book.refused 404 "TXN_NOT_FOUND" (getByIndicator [] (t! "@transactions") (t! "USD")) := by
    have := c168_missing [] (t! "@transactions") (t! "USD") (by simp) (by decide +kernel)
    rwa [if_pos ((has_iff _ _).1 (by decide +kernel))] at this
  obtain ⟨r', hr', -, hc'⟩ := this
  rw [hr] at hr'
  cases hr'
  rw [hc] at hc'
  revert hc'
  decide +kernel

/-- C168, partially: for indicators without blanks and without two words. -/
theorem c168_answer_partial (rows : List BalRow) (ind cur : Text) (hb : ' ' ∉ ind) (ht : ¬ (t! "transaction") <:+: ind)
    (hf : ¬ (t! "field") <:+: ind) :
    (∀ r, rows.find? (fun r => r.indicator = some ind ∧ r.currency = cur) = some r → getByIndicator rows ind cur = .ok (showBal .byIndicator r)) ∧
    ((∀ r ∈ rows, r.indicator = some ind → r.currency ≠ cur) → Book.refused 404 "BAL_NOT_FOUND" (getByIndicator rows ind cur)) := by
  constructor
  · intro r hr
    unfold getByIndicator
    rw [hr]
  · intro h
    have := c168_missing rows ind cur h hb
    rwa [if_neg ht, if_neg hf] at this

example : getByIndicator [tracked] (t! "@a") (t! "USD") = .ok (showBal .byIndicator tracked) :=
  (c168_answer_partial [tracked] (t! "@a") (t! "USD") (by decide +kernel) ((has_false_iff _ _).1 (by decide +kernel))
    ((has_false_iff _ _).1 (by decide +kernel))).1 tracked (by decide +kernel)

end Blnk.Views
