import Verif.Model.Refund
import Verif.Props.HoldFloors
import Verif.Props.References
/-
C28 (a transaction is refunded once) and C29 (a refund reverses the transaction).
-/
namespace Blnk

/-! ### Rows are only ever appended -/

theorem recordSingle_txns (cfg : Cfg) (db : DB) (t : Txn) (n1 n2 : String) :
    ∃ new, (recordSingle cfg db t n1 n2).1.txns = db.txns ++ new := by
  unfold recordSingle
  split
  · exact ⟨[], by simp⟩
  · rename_i db1 sid h1
    split
    · exact ⟨[], by simp [(resolve_onlyOpened h1).txns]⟩
    · rename_i db2 did h2
      have e : db2.txns = db.txns := ((resolve_onlyOpened h1).trans (resolve_onlyOpened h2)).txns
      unfold postResolved
      split
      · exact ⟨[], by simp [e]⟩
      · exact ⟨[], by simp [e]⟩
      · split
        · rename_i db' hp
          obtain ⟨_, _, _, rfl⟩ := persist_ok hp
          exact ⟨_, by simp [e]; rfl⟩
        · exact ⟨[], by simp [e]⟩

theorem step_txns (cfg : Cfg) (db : DB) (op : Op) : ∃ new, (step cfg db op).1.txns = db.txns ++ new := by
  cases op with
  | create i ind cur =>
    simp only [step]
    split
    · rename_i db' h; exact ⟨[], by simp [(createBalance_effect h).2]⟩
    · exact ⟨[], by simp⟩
  | post t n1 n2 => exact recordSingle_txns cfg db t n1 n2
  | batch ts =>
    simp only [step, recordBatch]
    split
    · exact ⟨[], by simp⟩
    · split
      · rename_i db' hp
        obtain ⟨_, _, _, rfl⟩ := persist_ok hp
        exact ⟨_, rfl⟩
      · exact ⟨[], by simp⟩
  | store t =>
    simp only [step]
    split
    · rename_i db' h; obtain ⟨_, _, rfl⟩ := insertTxn_ok h; exact ⟨[t], rfl⟩
    · exact ⟨[], by simp⟩

theorem act_txns (cfg : Cfg) (db : DB) (a : Act) : ∃ new, (act cfg db a).txns = db.txns ++ new := by
  cases a with
  | base op => exact step_txns cfg db op
  | commit id amt newId ref n1 n2 =>
    simp only [act, commitInflight]
    split
    · exact ⟨[], by simp⟩
    · split
      · exact ⟨[], by simp⟩
      · exact recordSingle_txns ..
  | void id newId ref n1 n2 =>
    simp only [act, voidInflight]
    split
    · exact ⟨[], by simp⟩
    · split
      · exact ⟨[], by simp⟩
      · exact recordSingle_txns ..

theorem landRefund_txns (cfg : Cfg) (db : DB) (o : Txn) (skip : Bool) (newId n1 n2 : String) :
    ∃ new, (landRefund cfg db o skip newId n1 n2).1.txns = db.txns ++ new := by
  unfold landRefund
  split
  · exact recordSingle_txns ..
  · exact step_txns ..

theorem rstep_txns (cfg : Cfg) (db : DB) (s : RStep) : ∃ new, (rstep cfg db s).txns = db.txns ++ new := by
  cases s with
  | act a => exact act_txns cfg db a
  | refund o skip newId n1 n2 => exact landRefund_txns ..

theorem rsteps_txns (cfg : Cfg) (ss : List RStep) : ∀ db, ∃ new, (rsteps cfg db ss).txns = db.txns ++ new := by
  induction ss with
  | nil => intro db; exact ⟨[], by simp [rsteps]⟩
  | cons s ss ih =>
    intro db
    obtain ⟨n1, e1⟩ := rstep_txns cfg db s
    obtain ⟨n2, e2⟩ := ih (rstep cfg db s)
    exact ⟨n1 ++ n2, by rw [rsteps, e2, e1, List.append_assoc]⟩

/-- What a submission keeps. -/
theorem submit_keeps (t : Txn) : (submit t).id = t.id ∧ (submit t).parent = t.parent ∧ (submit t).reference = t.reference ∧
    (submit t).source = t.source ∧ (submit t).destination = t.destination ∧ (submit t).currency = t.currency ∧
    (submit t).allowOverdraft = t.allowOverdraft ∧ (submit t).overdraftLimit = t.overdraftLimit ∧
    (submit t).inflight = t.inflight := by
  have k := applyPrecision_keeps t
  unfold submit
  simp [k]

/-- A posted single transaction is new and is stored under its reference, id and parent. -/
theorem recordSingle_posted_row {cfg : Cfg} {db : DB} {t : Txn} {n1 n2 : String} {rows : List Txn}
    (h : (recordSingle cfg db t n1 n2).2 = .posted rows) :
    db.hasRef t.reference = false ∧ ∃ r ∈ (recordSingle cfg db t n1 n2).1.txns, rows = [r] ∧
      r.reference = t.reference ∧ r.id = t.id ∧ r.parent = t.parent ∧
      (isIndicator t.source = false → r.source = t.source) ∧
      (isIndicator t.destination = false → r.destination = t.destination) := by
  unfold recordSingle at h ⊢
  split at h
  · cases h
  · rename_i db1 sid h1
    split at h
    · cases h
    · rename_i db2 did h2
      have e : db2.txns = db.txns := ((resolve_onlyOpened h1).trans (resolve_onlyOpened h2)).txns
      unfold postResolved at h ⊢
      split at h
      · cases h
      · cases h
      · rename_i w hw
        split at h
        · rename_i db' hp
          simp only [Outcome.posted.injEq] at h
          subst h
          obtain ⟨_, _, _, rfl⟩ := persist_ok hp
          obtain ⟨hf, s, d, s', d', _, _, _, _, rfl⟩ := prepareSingle_some hw
          have k := finalRow_keeps { t with source := sid, destination := did }
          refine ⟨?_, finalRow { t with source := sid, destination := did }, by simp, rfl, k.1, k.2.1, k.2.2.2.2.2, ?_, ?_⟩
          · simp only [DB.hasRef, e] at hf; exact hf
          · intro hi
            rw [k.2.2.1]
            simp only [DB.resolve, hi] at h1
            simp at h1
            exact h1.2.symm
          · intro hi
            rw [k.2.2.2.1]
            simp only [DB.resolve, hi] at h2
            simp at h2
            exact h2.2.symm
        · cases h

theorem landRefund_posted {cfg : Cfg} {db : DB} {o : Txn} {skip : Bool} {newId n1 n2 : String} {rows : List Txn}
    (h : (landRefund cfg db o skip newId n1 n2).2 = .posted rows) :
    db.hasRef (refundRef o.id) = false ∧ ∃ r ∈ (landRefund cfg db o skip newId n1 n2).1.txns, rows = [r] ∧
      r.reference = refundRef o.id ∧ r.id = newId ∧ r.parent = o.id ∧
      (isIndicator o.destination = false → r.source = o.destination) ∧
      (isIndicator o.source = false → r.destination = o.source) := by
  unfold landRefund at h ⊢
  split at h <;> rename_i hsk
  · rw [if_pos hsk]
    obtain ⟨h1, r, hr, e, h2, h3, h4, h5, h6⟩ := recordSingle_posted_row h
    have k := submit_keeps (refundTxn o true newId)
    refine ⟨by rw [k.2.2.1] at h1; exact h1, r, hr, e, by rw [h2, k.2.2.1]; rfl, by rw [h3, k.1]; rfl,
      by rw [h4, k.2.1]; rfl, ?_, ?_⟩
    · intro hi; rw [h5 (by rw [k.2.2.2.1]; exact hi), k.2.2.2.1]; rfl
    · intro hi; rw [h6 (by rw [k.2.2.2.2.1]; exact hi), k.2.2.2.2.1]; rfl
  · rw [if_neg hsk]
    have k := submit_keeps (refundTxn o false newId)
    simp only [step] at h ⊢
    split at h
    · rename_i db' hs
      simp only [Outcome.posted.injEq] at h
      obtain ⟨h1, h2, rfl⟩ := insertTxn_ok hs
      simp only [queuedRow] at h2 hs h ⊢
      refine ⟨by rw [k.2.2.1] at h2; exact h2, _, ?_, h.symm, k.2.2.1, k.1, k.2.1, fun _ => k.2.2.2.1, fun _ => k.2.2.2.2.1⟩
      simp
    · cases h

theorem refundRef_inj {a b : String} (h : refundRef a = refundRef b) : a = b := by
  unfold refundRef at h
  have := congrArg String.toList h
  simp only [String.toList_append] at this
  exact String.toList_injective (List.append_cancel_right this)

/-! ### C28 -/

/-- **C28, one transaction.** Over every history of postings, settlements and refunds, where
each refund may have been decided on an arbitrarily old reading of its original and without any
lock, at most one refund of each transaction is created. -/
theorem c28_each_row_refunded_once_partial (cfg : Cfg) (ss : List RStep) : ∀ db, (refundsMade cfg db ss).Nodup ∧
    ∀ i ∈ refundsMade cfg db ss, ¬ RefUsed db (refundRef i) := by
  induction ss with
  | nil => intro db; simp [refundsMade]
  | cons s ss ih =>
    intro db
    obtain ⟨hn, hf⟩ := ih (rstep cfg db s)
    obtain ⟨new, et⟩ := rstep_txns cfg db s
    have back : ∀ i, ¬ RefUsed (rstep cfg db s) (refundRef i) → ¬ RefUsed db (refundRef i) := by
      rintro i h ⟨t, ht, e⟩
      exact h ⟨t, by rw [et]; exact List.mem_append_left _ ht, e⟩
    cases s with
    | act a => simpa [refundsMade] using ⟨hn, fun i hi => back i (hf i hi)⟩
    | refund o skip newId n1 n2 =>
      simp only [refundsMade]
      split
      · rename_i rows hp
        obtain ⟨h1, r, hr, _, h2, _⟩ := landRefund_posted hp
        refine ⟨List.nodup_cons.2 ⟨fun hm => hf _ hm ⟨r, hr, h2⟩, hn⟩, ?_⟩
        intro i hi
        rcases List.mem_cons.1 hi with rfl | hi
        · intro hu; rw [hasRef_iff.2 hu] at h1; cases h1
        · exact back i (hf i hi)
      · simpa using ⟨hn, fun i hi => back i (hf i hi)⟩

/-- **C28, later calls.** Once a refund of a stored transaction was created, every later call to
refund that transaction is refused without effect, whatever happened in between (also if the
refund is still queued, or was rejected). -/
theorem c28_second_refund_refused_partial (cfg : Cfg) (db : DB) (o : Txn) (skip skip' : Bool) (newId newId' n1 n2 m1 m2 : String)
    (ss : List RStep) (rows : List Txn) (ho : db.getTxn o.id = some o) (hs : o.status = .applied ∨ o.status = .void)
    (hi1 : isIndicator o.source = false) (hi2 : isIndicator o.destination = false)
    (h : (refund cfg db o.id skip newId n1 n2).2 = .ok (.posted rows)) :
    let db' := rsteps cfg (refund cfg db o.id skip newId n1 n2).1 ss
    refund cfg db' o.id skip' newId' m1 m2 = (db', .error .already) := by
  intro db'
  have hland : refund cfg db o.id skip newId n1 n2 =
      ((landRefund cfg db o skip newId n1 n2).1, .ok (landRefund cfg db o skip newId n1 n2).2) := by
    unfold refund at h ⊢
    unfold decideRefund at h ⊢
    rw [ho] at h ⊢
    simp only at h ⊢
    cases hv : validateRefund db o with
    | error e => rw [hv] at h; cases h
    | ok u => cases skip <;> simp [landRefund]
  rw [hland] at h
  obtain ⟨_, r, hr, _, h2, h3, h4, h5, h6⟩ := landRefund_posted (by simpa using h)
  obtain ⟨n0, e0⟩ := landRefund_txns cfg db o skip newId n1 n2
  obtain ⟨n1', e1⟩ := rsteps_txns cfg ss (landRefund cfg db o skip newId n1 n2).1
  have edb : db' = rsteps cfg (landRefund cfg db o skip newId n1 n2).1 ss := by simp only [db', hland]
  have hget : db'.getTxn o.id = some o := by
    unfold DB.getTxn at ho ⊢
    rw [edb, e1, e0]
    rw [Option.map_eq_some_iff] at ho ⊢
    obtain ⟨x, hx, ex⟩ := ho
    exact ⟨x, by rw [List.find?_append, List.find?_append, hx]; rfl, ex⟩
  have hre : db'.isRefunded o = true := by
    unfold DB.isRefunded
    rw [List.any_eq_true]
    refine ⟨r, by rw [edb, e1]; exact List.mem_append_left _ hr, ?_⟩
    simp [h4, h5 hi2, h6 hi1]
  simp [refund, decideRefund, hget, validateRefund, hs, hre]

/-- A payment of 7.00 from an account with overdraft, applied directly. -/
def refDemo : DB := run {} {} [.create "a" "" "USD", .create "b" "" "USD",
  .post { id := "p", source := "a", destination := "b", reference := "r", amount := 7, precision := 100,
          allowOverdraft := true, status := .queued } "x" "y"]

/-- Ids generated during a request. -/
def refIds (tag : String) (k : Nat) : String := tag ++ toString k

def balancesOf (db : DB) : List (String × Int × Int × Int) := db.balances.map (fun b => (b.id, b.balance, b.credit, b.debit))

/-- Whether a call created something. -/
def Except.made : Except RefErr Outcome → Bool
  | .ok (.posted _) => true
  | _ => false

example : ((refDemo.getTxn "p").any fun o => o.id = "p" ∧ o.status = .applied ∧ isIndicator o.source = false ∧
    isIndicator o.destination = false ∧ Except.made (refund {} refDemo o.id true "q" "x" "y").2 = true) = true := by
  decide +kernel

example : ((refDemo.getTxn "p").any fun o => refundsMade {} refDemo [.refund o true "q" "x" "y",
    .act (.base (.create "c" "" "USD")), .refund o true "q2" "x" "y", .refund o false "q3" "x" "y"] = ["p"]) = true := by
  decide +kernel

/-- Specification: the results of a request that created something. -/
def createdBy (rs : List (Except RefErr Outcome)) : List Txn :=
  rs.flatMap fun r => match r with
    | .ok (.posted rows) => rows
    | _ => []

/-- The full claim, at the level of requests: two requests to refund the same applied
transaction create at most one refund. -/
def C28Full : Prop := ∀ (cfg : Cfg) (db : DB) (id : String) (skip : Bool) (f g : Nat → String), Reachable cfg db →
  (createdBy (refundRequest cfg db id skip f).2 ++
    createdBy (refundRequest cfg (refundRequest cfg db id skip f).1 id skip g).2).length ≤ 1

/-- It is false: a synchronous refund is itself an APPLIED child of the original, so the second
request refunds the refund and the payment stands again. -/
theorem c28_full_fails : ¬ C28Full := by
  intro h
  have := h {} refDemo "p" true (refIds "f") (refIds "g") ⟨_, rfl⟩
  revert this
  decide +kernel

/-- What the two requests of `c28_full_fails` do: the first restores both balances, the second
moves the money out again, and its answer is a mixture of a success and a refusal. -/
theorem c28_second_request_undoes_refund :
    balancesOf refDemo = [("a", -700, 0, 700), ("b", 700, 700, 0)] ∧
    balancesOf (refundRequest {} refDemo "p" true (refIds "f")).1 = [("a", 0, 700, 700), ("b", 0, 700, 700)] ∧
    balancesOf (refundRequest {} (refundRequest {} refDemo "p" true (refIds "f")).1 "p" true (refIds "g")).1
      = [("a", -700, 700, 1400), ("b", 700, 1400, 700)] := by
  decide +kernel

/-! ### C29 -/

/-- Applied rows moved a positive amount between existing accounts. -/
structure AppliedInv (db : DB) : Prop where
  pos : ∀ r ∈ db.txns, r.status = .applied → 0 < pay r
  accounts : ∀ r ∈ db.txns, r.status = .applied → r.source ∈ ids db.balances ∧ r.destination ∈ ids db.balances

theorem applied_grown {δ : Txn → Int} {gens : List String} {db db' : DB} {new : List Txn} (ha : AppliedInv db)
    (g : Grown δ gens db db' new) (hn : ∀ r ∈ new, r.status = .applied → 0 < pay r) : AppliedInv db' := by
  constructor
  · intro r hr hs
    rw [g.txns] at hr
    rcases List.mem_append.1 hr with hr | hr
    · exact ha.pos r hr hs
    · exact hn r hr hs
  · intro r hr hs
    rw [g.txns] at hr
    rcases List.mem_append.1 hr with hr | hr
    · exact ⟨g.accounts _ (ha.accounts r hr hs).1, g.accounts _ (ha.accounts r hr hs).2⟩
    · exact g.parties r hr (.inl hs)

theorem acts_applied {cfg : Cfg} {H : String → Prop} {as : List Act} : ∀ {db : DB}, HoldInv H db → AppliedInv db →
    (∀ a ∈ as, a.Respects H) → AppliedInv (acts cfg db as) := by
  induction as with
  | nil => intro db _ ha _; exact ha
  | cons a as ih =>
    intro db hk hb hr
    have ha := hr a (by simp)
    refine ih (act_holdInv (cfg := cfg) hk ha) ?_ (fun b hb => hr b (List.mem_cons_of_mem _ hb))
    cases a with
    | base op =>
      obtain ⟨new, g, hnew⟩ := ordinary_grown (cfg := cfg) hk.inv ha.1
      refine applied_grown hb g ?_
      intro r hr hs
      rcases hnew r hr with ⟨_, _, _, _, hp, _⟩ | rfl
      · exact hp
      · rcases ha.1.1 with h | h | h <;> rw [h] at hs <;> cases hs
    | commit id amt newId ref n1 n2 =>
      rcases commit_grown (cfg := cfg) (h := id) (newId := newId) (ref := ref) (n1 := n1) (n2 := n2) (amt := amt)
        hk.inv hk.remaining_nonneg with ⟨g, _⟩ | ⟨_, x, p, _, _, _, _, g, _, _, hs, hp, _⟩
      · exact applied_grown hb g (by simp)
      · refine applied_grown hb g ?_
        intro r hr _
        simp at hr; subst hr
        simp [pay, hs.amount, hp]
    | void id newId ref n1 n2 =>
      rcases void_grown (cfg := cfg) (h := id) (newId := newId) (ref := ref) (n1 := n1) (n2 := n2)
        hk.inv hk.remaining_nonneg with ⟨g, _⟩ | ⟨_, x, _, _, _, _, g, _, _, hs, _⟩
      · exact applied_grown hb g (by simp)
      · refine applied_grown hb g ?_
        intro r hr h
        simp at hr; subst hr
        rw [hs.status] at h; cases h

theorem acts_applied_init {cfg : Cfg} {H : String → Prop} {as : List Act} (hr : ∀ a ∈ as, a.Respects H) :
    AppliedInv (acts cfg {} as) := acts_applied (init_holdInv H) ⟨by simp, by simp⟩ hr

theorem applyPrecision_precise {t : Txn} {p : Int} (h : t.preciseAmount = some p) (hp : 0 < p) :
    t.applyPrecision.preciseAmount = some p := by
  unfold Txn.applyPrecision
  simp only
  split <;> rename_i q hq
  · have e : q = p := by
      by_cases h0 : t.precision = 0 <;> simp [h0, h] at hq <;> omega
    subst e
    rw [if_pos hp]; exact hq
  · exfalso; by_cases h0 : t.precision = 0 <;> simp [h0, h] at hq

/-- The transaction a refund posts. -/
structure IsRefundOf (o t : Txn) : Prop where
  source : t.source = o.destination
  destination : t.destination = o.source
  currency : t.currency = o.currency
  parent : t.parent = o.id
  reference : t.reference = refundRef o.id
  overdraft : t.allowOverdraft = true
  limit : t.overdraftLimit = o.overdraftLimit
  queued : t.status = .queued
  settled : t.inflight = false
  amount : ∀ p, o.preciseAmount = some p → 0 < p → t.preciseAmount = some p

theorem refund_isRefund (o : Txn) (skip : Bool) (newId : String) (h : o.status = .applied) :
    IsRefundOf o (submit (refundTxn o skip newId)) := by
  have k := submit_keeps (refundTxn o skip newId)
  refine ⟨k.2.2.2.1, k.2.2.2.2.1, k.2.2.2.2.2.1, k.2.1, k.2.2.1, k.2.2.2.2.2.2.1, k.2.2.2.2.2.2.2.1, ?_, ?_, ?_⟩
  · have k2 := applyPrecision_keeps (refundTxn o skip newId)
    have ks : (refundTxn o skip newId).applyPrecision.scheduledFor = none := by
      unfold Txn.applyPrecision
      simp only
      split
      · split <;> (split <;> rfl)
      · split <;> rfl
    simp only [submit, ks, k2.2.2.1]; rfl
  · rw [k.2.2.2.2.2.2.2.2]; simp [refundTxn, h]
  · intro p hp h0
    simp only [submit]
    exact applyPrecision_precise (t := refundTxn o skip newId) hp h0

theorem recordSingle_ids {cfg : Cfg} {db : DB} {t : Txn} {n1 n2 : String} (h1 : isIndicator t.source = false)
    (h2 : isIndicator t.destination = false) : recordSingle cfg db t n1 n2 = postResolved cfg db t := by
  simp [recordSingle, DB.resolve, h1, h2]

theorem refund_applied {cfg : Cfg} {db : DB} {o : Txn} {newId n1 n2 : String} (ho : db.getTxn o.id = some o)
    (hs : o.status = .applied) (hn : db.isRefunded o = false) :
    refund cfg db o.id true newId n1 n2 = ((recordSingle cfg db (submit (refundTxn o true newId)) n1 n2).1,
      .ok (recordSingle cfg db (submit (refundTxn o true newId)) n1 n2).2) := by
  simp [refund, decideRefund, ho, validateRefund, hs, hn]

/-- **C29, effect.** A refund that is accepted at any point of any history stores one APPLIED row
with the original's amount and currency and the parties exchanged, and moves exactly that amount
back: the original's destination loses it, its source gains it, no other account changes and
nothing that is on hold changes. -/
theorem c29_refund_moves_amount_back (cfg : Cfg) (H : String → Prop) (as : List Act) (hr : ∀ a ∈ as, a.Respects H)
    (o : Txn) (newId n1 n2 : String) (rows : List Txn)
    (ho : (acts cfg {} as).getTxn o.id = some o) (hs : o.status = .applied)
    (hi1 : isIndicator o.source = false) (hi2 : isIndicator o.destination = false)
    (h : (refund cfg (acts cfg {} as) o.id true newId n1 n2).2 = .ok (.posted rows)) :
    ∃ p r, o.preciseAmount = some p ∧ 0 < p ∧ rows = [r] ∧ r.status = .applied ∧ r.preciseAmount = some p ∧
      r.currency = o.currency ∧ r.source = o.destination ∧ r.destination = o.source ∧ r.parent = o.id ∧
      (refund cfg (acts cfg {} as) o.id true newId n1 n2).1.txns = (acts cfg {} as).txns ++ [r] ∧
      ∃ bs bd bs' bd', (acts cfg {} as).find o.source = some bs ∧ (acts cfg {} as).find o.destination = some bd ∧
        (refund cfg (acts cfg {} as) o.id true newId n1 n2).1.find o.source = some bs' ∧
        (refund cfg (acts cfg {} as) o.id true newId n1 n2).1.find o.destination = some bd' ∧
        bs'.balance = bs.balance + p ∧ bs'.credit = bs.credit + p ∧ bs'.debit = bs.debit ∧
        bd'.balance = bd.balance - p ∧ bd'.debit = bd.debit + p ∧ bd'.credit = bd.credit ∧
        bs'.inflightBalance = bs.inflightBalance ∧ bd'.inflightBalance = bd.inflightBalance ∧
        ∀ i, i ≠ o.source → i ≠ o.destination →
          (refund cfg (acts cfg {} as) o.id true newId n1 n2).1.find i = (acts cfg {} as).find i := by
  have hk := acts_holdInv (cfg := cfg) (init_holdInv H) hr
  have hap := acts_applied_init (cfg := cfg) hr
  generalize hdb : acts cfg {} as = db at *
  have hn : db.isRefunded o = false := by
    cases hb : db.isRefunded o with
    | false => rfl
    | true => simp [refund, decideRefund, ho, validateRefund, hs, hb] at h
  have hf := refund_isRefund o true newId hs
  generalize ht : submit (refundTxn o true newId) = t at hf
  have hrec : refund cfg db o.id true newId n1 n2 = ((postResolved cfg db t).1, .ok (postResolved cfg db t).2) := by
    rw [refund_applied ho hs hn, ht, recordSingle_ids (by rw [hf.source]; exact hi2) (by rw [hf.destination]; exact hi1)]
  rw [hrec] at h ⊢
  simp only [Except.ok.injEq] at h
  obtain ⟨hrows, P⟩ := postResolved_posted hk.inv h
  obtain ⟨x, hx, hxid, hxo⟩ := getTxn_some ho
  have hpos : 0 < pay o := by
    have : x.status = .applied := by rw [hxo] at hs; exact hs
    have := hap.pos x hx this
    rw [hxo]; exact this
  obtain ⟨p, hp⟩ : ∃ p, o.preciseAmount = some p := by
    cases hq : o.preciseAmount with
    | none => simp [pay, hq] at hpos
    | some p => exact ⟨p, rfl⟩
  have hp0 : 0 < p := by simpa [pay, hp] using hpos
  have htp := hf.amount p hp hp0
  have hpl : t.Plain := by constructor <;> rw [hf.queued] <;> decide
  have happ := applyPrecision_precise htp hp0
  obtain ⟨rs, rd, s, d, s', d', f1, f2, _, _, es, ed, a1, a2, g1, g2⟩ := P.exact
  have e1 := applySource_effect a1
  have e2 := applyDestination_effect a2
  have m1 : regAmt t = p := by simp [regAmt, hf.queued, hf.settled, happ]
  have m2 : inflAmt t = 0 := by simp [inflAmt, hf.queued, hf.settled]
  have c1 := hk.inv.consistent rs (find_mem f1).1
  have c2 := hk.inv.consistent rd (find_mem f2).1
  have cs := applySource_consistent a1 (by rw [es]; exact c1)
  have cd := applyDestination_consistent a2 (by rw [ed]; exact c2)
  have q1 : s.credit = rs.credit := by rw [es]
  have q2 : s.debit = rs.debit := by rw [es]
  have q3 : s.inflightCredit = rs.inflightCredit := by rw [es]
  have q4 : s.inflightDebit = rs.inflightDebit := by rw [es]
  have q5 : d.credit = rd.credit := by rw [ed]
  have q6 : d.debit = rd.debit := by rw [ed]
  have q7 : d.inflightCredit = rd.inflightCredit := by rw [ed]
  have q8 : d.inflightDebit = rd.inflightDebit := by rw [ed]
  have p1 := e1.credit; have p2 := e1.debit; have p3 := e1.inflightCredit; have p4 := e1.inflightDebit
  have p5 := e2.credit; have p6 := e2.debit; have p7 := e2.inflightCredit; have p8 := e2.inflightDebit
  rw [m1] at p2 p5; rw [m2] at p4 p7
  have k := finalRow_keeps t
  refine ⟨p, finalRow t, hp, hp0, hrows, ?_, ?_, by rw [k.2.2.2.2.1, hf.currency], by rw [k.2.2.1, hf.source],
    by rw [k.2.2.2.1, hf.destination], by rw [k.2.2.2.2.2, hf.parent], P.txns, ?_⟩
  · rw [finalRow_status]; simp [finalStatus, hf.settled, hf.queued]
  · rw [finalRow_plain hpl, happ]
  rw [hf.source] at f1 g1
  rw [hf.destination] at f2 g2
  refine ⟨rd, rs, rd.writeBack d', rs.writeBack s', f2, f1, g2, g1, ?_, ?_, ?_, ?_, ?_, ?_, ?_, ?_, ?_⟩
  · simp only [Balance.writeBack]; have := cd.1; have := c2.1; omega
  · simp only [Balance.writeBack]; omega
  · simp only [Balance.writeBack]; omega
  · simp only [Balance.writeBack]; have := cs.1; have := c1.1; omega
  · simp only [Balance.writeBack]; omega
  · simp only [Balance.writeBack]; omega
  · simp only [Balance.writeBack]; have := cd.2; have := c2.2; omega
  · simp only [Balance.writeBack]; have := cs.2; have := c1.2; omega
  · intro i h1 h2
    exact P.others i (by rw [hf.source]; exact h2) (by rw [hf.destination]; exact h1)

/-- **C29, which transactions.** Only a stored transaction that is APPLIED or VOID and has no row
going back from its destination to its source under its id can be refunded; every other call is
refused and leaves the ledger as it was. -/
theorem c29_only_settled_refunded (cfg : Cfg) (db : DB) (id : String) (skip : Bool) (newId n1 n2 : String) :
    (∃ o, db.getTxn id = some o ∧ (o.status = .applied ∨ o.status = .void) ∧
      ¬ ∃ r ∈ db.txns, r.parent = o.id ∧ r.source = o.destination ∧ r.destination = o.source) ∨
    ((refund cfg db id skip newId n1 n2).1 = db ∧ ∃ e, (refund cfg db id skip newId n1 n2).2 = .error e) := by
  unfold refund decideRefund
  cases hg : db.getTxn id with
  | none => exact .inr ⟨rfl, _, rfl⟩
  | some o =>
    simp only [validateRefund]
    by_cases hs : o.status = .applied ∨ o.status = .void
    · cases hb : db.isRefunded o with
      | true => simp [hs]
      | false =>
        refine .inl ⟨o, rfl, hs, ?_⟩
        rintro ⟨r, hr, h1, h2, h3⟩
        have : db.isRefunded o = true := List.any_eq_true.2 ⟨r, hr, by simp [h1, h2, h3]⟩
        rw [hb] at this; cases this
    · simp [hs]

/-- **C29, acceptance.** A refund of an applied transfer between two accounts is never refused
for lack of funds: unless it was refunded before, or the generated id or the derived reference is
already taken, it is accepted. -/
theorem c29_refund_accepted (cfg : Cfg) (H : String → Prop) (as : List Act) (hr : ∀ a ∈ as, a.Respects H)
    (o : Txn) (newId n1 n2 : String)
    (ho : (acts cfg {} as).getTxn o.id = some o) (hs : o.status = .applied) (hne : o.source ≠ o.destination)
    (hi1 : isIndicator o.source = false) (hi2 : isIndicator o.destination = false) (hprec : 0 < o.precision)
    (hn : (acts cfg {} as).isRefunded o = false) (href : ¬ RefUsed (acts cfg {} as) (refundRef o.id))
    (hid : (acts cfg {} as).hasTxnId newId = false) :
    ∃ rows, (refund cfg (acts cfg {} as) o.id true newId n1 n2).2 = .ok (.posted rows) := by
  have hk := acts_holdInv (cfg := cfg) (init_holdInv H) hr
  have hap := acts_applied_init (cfg := cfg) hr
  generalize hdb : acts cfg {} as = db at *
  have hf := refund_isRefund o true newId hs
  have hidt : (submit (refundTxn o true newId)).id = newId := (submit_keeps _).1
  have hprt : (submit (refundTxn o true newId)).precision = o.precision := by
    simp only [submit, Txn.applyPrecision, refundTxn]
    have : o.precision ≠ 0 := by grind
    split <;> (try split) <;> simp [this]
  rw [refund_applied ho hs hn]
  generalize ht : submit (refundTxn o true newId) = t at *
  rw [recordSingle_ids (by rw [hf.source]; exact hi2) (by rw [hf.destination]; exact hi1)]
  obtain ⟨x, hx, hxid, hxo⟩ := getTxn_some ho
  have hxs : x.status = .applied := by rw [hxo] at hs; exact hs
  have hpos : 0 < pay o := by rw [hxo]; exact hap.pos x hx hxs
  obtain ⟨p, hp⟩ : ∃ p, o.preciseAmount = some p := by
    cases hq : o.preciseAmount with
    | none => simp [pay, hq] at hpos
    | some p => exact ⟨p, rfl⟩
  have hp0 : 0 < p := by simpa [pay, hp] using hpos
  have htp := hf.amount p hp hp0
  have happ := applyPrecision_precise htp hp0
  have hpl : t.Plain := by constructor <;> rw [hf.queued] <;> decide
  obtain ⟨hm1, hm2⟩ := hap.accounts x hx hxs
  have hx1 : x.source = o.source := by rw [hxo]
  have hx2 : x.destination = o.destination := by rw [hxo]
  rw [hx1] at hm1; rw [hx2] at hm2
  obtain ⟨rs, f1⟩ := find_of_mem_ids hm2
  obtain ⟨rd, f2⟩ := find_of_mem_ids hm1
  have hlim : t.overdraftLimit = 0 := by rw [hf.limit, hxo]
  have hk2 := applyPrecision_keeps t
  have hcan : canProcessTransaction t.applyPrecision (db.view cfg rs) = .ok () := by
    simp [canProcessTransaction, hk2.1, hk2.2.1, hf.overdraft, hlim]
  have hamt : 0 ≤ t.applyPrecision.amount := by
    have h0 : t.precision ≠ 0 := by rw [hprt]; grind
    have : t.applyPrecision.amount = (p : Rat) / t.precision := by
      simp [Txn.applyPrecision, h0, htp, hp0]
    rw [this, hprt]
    have : (0 : Rat) < p := by exact_mod_cast hp0
    rw [Rat.div_def]
    exact Rat.mul_nonneg (by grind) (Rat.le_of_lt (Rat.inv_pos.2 hprec))
  have hval : t.applyPrecision.validate = .ok () := by
    simp only [Txn.validate, happ]
    rw [if_neg (by grind), if_neg (by omega)]
  obtain ⟨d', a2⟩ : ∃ d', applyDestination t (db.view cfg rd) = .ok d' := ⟨_, applyDestination_plain_ok hpl _⟩
  have a1 := (applySource_plain (b := db.view cfg rs) hpl.1 hpl.2).2 ⟨hval, hcan, rfl⟩
  refine ⟨[finalRow t], ?_⟩
  simp only
  rw [postResolved_complete (rs := rs) (rd := rd) ?_ ?_ ?_ ?_ ?_ a1 a2 ?_]
  · rw [hf.reference]
    cases hb : db.hasRef (refundRef o.id) with
    | false => rfl
    | true => exact absurd (hasRef_iff.1 hb) href
  · rw [hidt]; exact hid
  · rw [hf.source, hf.destination]; exact fun e => hne e.symm
  · rw [hf.source]; exact f1
  · rw [hf.destination]; exact f2
  · rw [finalRow_plain hpl, happ]; simp; omega

/-- Specification: signed effect of an applied row on an account. -/
def signed (i : String) (t : Txn) : Int :=
  if t.status = .applied then (if t.destination = i then pay t else 0) - (if t.source = i then pay t else 0) else 0

theorem signed_sum (i : String) (l : List Txn) : (l.map (signed i)).sum =
    (((l.filter (fun t => t.status = .applied)).filter (fun t => t.destination = i)).map pay).sum -
    (((l.filter (fun t => t.status = .applied)).filter (fun t => t.source = i)).map pay).sum := by
  induction l with
  | nil => rfl
  | cons t l ih =>
    simp only [List.map_cons, List.sum_cons, ih]
    by_cases h1 : t.status = .applied <;> by_cases h2 : t.destination = i <;> by_cases h3 : t.source = i <;>
      simp [h1, h2, h3, signed] <;> omega

theorem sum_drop_one (f : Txn → Int) {l : List Txn} {o : Txn} (hn : (l.map (·.id)).Nodup) (ho : o ∈ l) :
    (l.map f).sum = ((l.filter (fun t => t.id ≠ o.id)).map f).sum + f o := by
  induction l with
  | nil => cases ho
  | cons t l ih =>
    simp only [List.map_cons, List.nodup_cons] at hn
    rcases List.mem_cons.1 ho with rfl | ho
    · have : l.filter (fun t => t.id ≠ o.id) = l := by
        apply List.filter_eq_self.2
        intro x hx
        simp only [ne_eq, decide_eq_true_eq]
        exact fun e => hn.1 (List.mem_map.2 ⟨x, hx, e⟩)
      simp only [List.map_cons, List.sum_cons, List.filter_cons]
      rw [this]; simp; omega
    · have hne : t.id ≠ o.id := fun e => hn.1 (List.mem_map.2 ⟨o, ho, e.symm⟩)
      simp [hne, ih hn.2 ho]; omega

/-- **C29, as if it never happened.** After the refund every account's balance is the sum over
the stored applied rows *other than the original and its refund*: whatever was posted before,
between and around them, both balances are what they would be without the original. -/
theorem c29_as_if_never_posted (cfg : Cfg) (H : String → Prop) (as : List Act) (hr : ∀ a ∈ as, a.Respects H)
    (o : Txn) (newId n1 n2 : String) (rows : List Txn)
    (ho : (acts cfg {} as).getTxn o.id = some o) (hs : o.status = .applied) (hH : ¬ H o.id)
    (hi1 : isIndicator o.source = false) (hi2 : isIndicator o.destination = false)
    (h : (refund cfg (acts cfg {} as) o.id true newId n1 n2).2 = .ok (.posted rows))
    (b : Balance) (hb : b ∈ (refund cfg (acts cfg {} as) o.id true newId n1 n2).1.balances) :
    b.balance = ((((refund cfg (acts cfg {} as) o.id true newId n1 n2).1.txns.filter
      (fun t => t.id ≠ newId)).filter (fun t => t.id ≠ o.id)).map (signed b.id)).sum := by
  obtain ⟨p, r, hp, hp0, hrows, hst, hra, _, hsrc, hdst, _, htx, _⟩ :=
    c29_refund_moves_amount_back cfg H as hr o newId n1 n2 rows ho hs hi1 hi2 h
  have hn : (acts cfg {} as).isRefunded o = false := by
    cases hb : (acts cfg {} as).isRefunded o with
    | false => rfl
    | true => simp [refund, decideRefund, ho, validateRefund, hs, hb] at h
  have hf := refund_isRefund o true newId hs
  have hrid : r.id = newId := by
    have := h
    rw [refund_applied ho hs hn] at this
    simp only [Except.ok.injEq] at this
    obtain ⟨_, r', _, e1, _, e2, _⟩ := recordSingle_posted_row this
    rw [hrows] at e1
    simp only [List.cons.injEq, and_true] at e1
    rw [e1, e2, (submit_keeps _).1]; rfl
  have hlast : (refund cfg (acts cfg {} as) o.id true newId n1 n2).1 =
      acts cfg {} (as ++ [.base (.post (submit (refundTxn o true newId)) n1 n2)]) := by
    rw [refund_applied ho hs hn, acts_append]; rfl
  have hresp : ∀ a ∈ as ++ [.base (.post (submit (refundTxn o true newId)) n1 n2)], a.Respects H := by
    intro a ha
    rcases List.mem_append.1 ha with ha | ha
    · exact hr a ha
    · simp only [List.mem_singleton] at ha
      subst ha
      refine ⟨⟨⟨by rw [hf.queued]; decide, by rw [hf.queued]; decide⟩, .inr (.inl hf.queued)⟩, ?_, by simp⟩
      intro t ht
      simp only [Op.posts, List.mem_singleton] at ht
      subst ht
      simp [hf.settled, hf.parent, hH]
  have hbal := hb
  rw [hlast] at hbal
  obtain ⟨h1, h2, h3⟩ := c60_balance_is_sum_of_applied_rows cfg H _ hresp b hbal
  rw [← hlast] at h1 h2
  have hinv := (acts_holdInv (cfg := cfg) (init_holdInv H) hresp).inv
  rw [← hlast] at hinv
  have hsum : b.balance = ((refund cfg (acts cfg {} as) o.id true newId n1 n2).1.txns.map (signed b.id)).sum := by
    rw [signed_sum, h3, h1, h2]
  have hu := hinv.unique.txnIds
  obtain ⟨x, hx, hxid, hxo⟩ := getTxn_some ho
  have hxp : pay x = p := by
    have : x.preciseAmount = o.preciseAmount := by rw [hxo]
    simp [pay, this, hp]
  have hxs : x.status = .applied := by rw [hxo] at hs; exact hs
  have hx1 : x.source = o.source := by rw [hxo]
  have hx2 : x.destination = o.destination := by rw [hxo]
  rw [hsum]
  have hmr : r ∈ (refund cfg (acts cfg {} as) o.id true newId n1 n2).1.txns := by rw [htx]; simp
  have hmx : x ∈ (refund cfg (acts cfg {} as) o.id true newId n1 n2).1.txns := by rw [htx]; simp [hx]
  rw [sum_drop_one (signed b.id) hu hmr, hrid]
  have hxne : x.id ≠ newId := by
    rw [htx, List.map_append, List.nodup_append] at hu
    intro e
    exact hu.2.2 x.id (List.mem_map.2 ⟨x, hx, rfl⟩) r.id (by simp) (by rw [e, hrid])
  rw [sum_drop_one (signed b.id) (l := List.filter (fun t => t.id ≠ newId) _) (o := x)
    (by exact (List.filter_sublist.map _).nodup hu) (by simp [hmx, hxne]), hxid]
  have hpr : pay r = p := by simp [pay, hra]
  have : signed b.id x + signed b.id r = 0 := by
    simp only [signed, hxs, hst, hx1, hx2, hsrc, hdst, hxp, hpr, if_true]
    omega
  omega

/-- A payment, a further payment spending what was received, then the refund. -/
def refHistory : List Act :=
  [.base (.create "a" "" "USD"), .base (.create "b" "" "USD"), .base (.create "c" "" "USD"),
   .base (.post { id := "p", source := "a", destination := "b", reference := "r", amount := 7, precision := 100,
                  allowOverdraft := true, status := .queued } "x" "y"),
   .base (.post { id := "s", source := "b", destination := "c", reference := "r2", amount := 5, precision := 100,
                  status := .queued } "x" "y")]

theorem refHistory_ok : ∀ a ∈ refHistory, a.Respects (fun _ => False) := by
  intro a ha
  simp only [refHistory, List.mem_cons, List.not_mem_nil, or_false] at ha
  rcases ha with rfl | rfl | rfl | rfl | rfl <;>
    simp [Act.Respects, Op.Ordinary, Op.posts, Txn.Live, Txn.Plain]

example : (((acts {} {} refHistory).getTxn "p").any fun o => o.id = "p" ∧ o.status = .applied ∧
    isIndicator o.source = false ∧ isIndicator o.destination = false ∧ o.source ≠ o.destination ∧ 0 < o.precision ∧
    (acts {} {} refHistory).isRefunded o = false ∧ (acts {} {} refHistory).hasRef (refundRef o.id) = false ∧
    (acts {} {} refHistory).hasTxnId "q" = false ∧
    Except.made (refund {} (acts {} {} refHistory) o.id true "q" "x" "y").2 = true) = true := by
  decide +kernel

example : balancesOf (refund {} (acts {} {} refHistory) "p" true "q" "x" "y").1
      = [("a", 0, 700, 700), ("b", -500, 700, 1200), ("c", 500, 500, 0)] := by
  decide +kernel

/-! ### C83: refunds of voided holds -/

/-- The property in full: a voided hold moved nothing, so refunding its VOID row takes nothing from
anyone: no account's settled funds or funds on hold change. -/
def C83Full : Prop := ∀ (cfg : Cfg) (H : String → Prop) (as : List Act), (∀ a ∈ as, a.Respects H) →
  ∀ (o : Txn) (skip : Bool) (newId n1 n2 : String), (acts cfg {} as).getTxn o.id = some o → o.status = .void →
  ∀ i b b', (acts cfg {} as).find i = some b → (refund cfg (acts cfg {} as) o.id skip newId n1 n2).1.find i = some b' →
    b'.balance = b.balance ∧ b'.inflightDebit = b.inflightDebit

/-- The refund of a VOID row puts the released amount on hold against the payee, with overdraft
allowed, and a commit of that hold then pays the payer money that was never paid out. -/
theorem c83_payee_pays :
    ((acts {} {} holdHistory).getTxn "v1").map (fun o => (o.id, o.status, o.parent)) = some ("v1", .void, "h1") ∧
    ((acts {} {} holdHistory).balances.map fun b => (b.id, b.balance, b.inflightDebit)) = [("a", -30, 100), ("b", 30, 0)] ∧
    ((refund {} (acts {} {} holdHistory) "v1" true "q" "x" "y").1.balances.map fun b => (b.id, b.balance, b.inflightDebit))
      = [("a", -30, 100), ("b", 30, 70)] ∧
    ((acts {} (refund {} (acts {} {} holdHistory) "v1" true "q" "x" "y").1 [.commit "q" 0 "c9" "s9" "x" "y"]).balances.map
      fun b => (b.id, b.balance, b.inflightDebit)) = [("a", 40, 100), ("b", -40, 0)] := by
  decide +kernel

theorem c83_full_fails : ¬ C83Full := by
  intro h
  have hg : ∃ o, (acts {} {} holdHistory).getTxn "v1" = some o ∧ o.id = "v1" ∧ o.status = .void := by
    refine ⟨((acts {} {} holdHistory).getTxn "v1").get (by decide +kernel), by simp, by decide +kernel, by decide +kernel⟩
  obtain ⟨o, ho, hid, hs⟩ := hg
  have hb : ∃ b, (acts {} {} holdHistory).find "b" = some b ∧ b.inflightDebit = 0 :=
    ⟨((acts {} {} holdHistory).find "b").get (by decide +kernel), by simp, by decide +kernel⟩
  have hb' : ∃ b, (refund {} (acts {} {} holdHistory) "v1" true "q" "x" "y").1.find "b" = some b ∧ b.inflightDebit = 70 :=
    ⟨((refund {} (acts {} {} holdHistory) "v1" true "q" "x" "y").1.find "b").get (by decide +kernel), by simp, by decide +kernel⟩
  obtain ⟨b, e1, e2⟩ := hb
  obtain ⟨b', e3, e4⟩ := hb'
  have := (h {} exampleHolds holdHistory (fun a ha => (holdHistory_ok a ha).1) o true "q" "x" "y" (by rw [hid]; exact ho) hs "b" b b' e1
    (by rw [hid]; exact e3)).2
  omega

/-- **C83.** Refunding a VOID row never moves settled funds: whatever the refund does, no account's
balance changes by it (only holds may appear). -/
theorem c83_no_settled_move_partial (cfg : Cfg) (H : String → Prop) (as : List Act) (hr : ∀ a ∈ as, a.Respects H)
    (o : Txn) (skip : Bool) (newId n1 n2 : String)
    (ho : (acts cfg {} as).getTxn o.id = some o) (hs : o.status = .void)
    (hi1 : isIndicator o.source = false) (hi2 : isIndicator o.destination = false) :
    ∀ i b b', (acts cfg {} as).find i = some b → (refund cfg (acts cfg {} as) o.id skip newId n1 n2).1.find i = some b' →
      b'.balance = b.balance ∧ b'.credit = b.credit ∧ b'.debit = b.debit := by
  have hk := acts_holdInv (cfg := cfg) (init_holdInv H) hr
  generalize hdb : acts cfg {} as = db at *
  have same : ∀ i b b', db.find i = some b → db.find i = some b' → b'.balance = b.balance ∧ b'.credit = b.credit ∧ b'.debit = b.debit := by
    intro i b b' h1 h2; rw [h1] at h2; cases h2; exact ⟨rfl, rfl, rfl⟩
  cases hb : db.isRefunded o with
  | true => simp only [refund, decideRefund, ho, validateRefund, hs, hb]; simpa using same
  | false =>
    have hrf : refund cfg db o.id skip newId n1 n2 =
        ((if skip then recordSingle cfg db (submit (refundTxn o skip newId)) n1 n2
          else step cfg db (.store (queuedRow (submit (refundTxn o skip newId))))).1,
         .ok (if skip then recordSingle cfg db (submit (refundTxn o skip newId)) n1 n2
          else step cfg db (.store (queuedRow (submit (refundTxn o skip newId))))).2) := by
      simp [refund, decideRefund, ho, validateRefund, hs, hb]
    rw [hrf]
    cases skip with
    | false =>
      simp only [Bool.false_eq_true, if_false, step]
      split
      · rename_i db' hins
        obtain ⟨_, _, rfl⟩ := insertTxn_ok hins
        exact same
      · exact same
    | true =>
      simp only [if_true]
      have k := submit_keeps (refundTxn o true newId)
      generalize ht : submit (refundTxn o true newId) = t at *
      have hinf : t.inflight = true := by rw [k.2.2.2.2.2.2.2.2]; simp [refundTxn, hs]
      have hq : t.status = .queued := by
        have k2 := applyPrecision_keeps (refundTxn o true newId)
        have ks : (refundTxn o true newId).applyPrecision.scheduledFor = none := by
          unfold Txn.applyPrecision
          simp only
          split
          · split <;> (split <;> rfl)
          · split <;> rfl
        rw [← ht]
        simp only [submit, ks, k2.2.2.1]; rfl
      rw [recordSingle_ids (by rw [k.2.2.2.1]; exact hi2) (by rw [k.2.2.2.2.1]; exact hi1)]
      rcases postResolved_cases (cfg := cfg) (t := t) hk.inv with ⟨hsame, _⟩ | ⟨_, P⟩
      · rw [hsame]; exact same
      · intro i b b' h1 h2
        obtain ⟨rs, rd, s, d, s', d', f1, f2, _, _, es, ed, a1, a2, g1, g2⟩ := P.exact
        have m1 : regAmt t = 0 := by simp [regAmt, hq, hinf]
        have e1 := applySource_effect a1
        have e2 := applyDestination_effect a2
        have c1 := hk.inv.consistent rs (find_mem f1).1
        have c2 := hk.inv.consistent rd (find_mem f2).1
        have cs := (applySource_consistent a1 (by rw [es]; exact c1)).1
        have cd := (applyDestination_consistent a2 (by rw [ed]; exact c2)).1
        have q1 : s.credit = rs.credit := by rw [es]
        have q2 : s.debit = rs.debit := by rw [es]
        have q5 : d.credit = rd.credit := by rw [ed]
        have q6 : d.debit = rd.debit := by rw [ed]
        have p1 := e1.credit; have p2 := e1.debit; have p5 := e2.credit; have p6 := e2.debit
        have c1 := c1.1; have c2 := c2.1
        rw [m1] at p2 p5
        by_cases hsrc : i = t.source
        · rw [hsrc] at h1 h2
          rw [f1] at h1; rw [g1] at h2
          cases h1; cases h2
          simp only [Balance.writeBack]
          refine ⟨?_, ?_, ?_⟩ <;> omega
        · by_cases hdst : i = t.destination
          · rw [hdst] at h1 h2
            rw [f2] at h1; rw [g2] at h2
            cases h1; cases h2
            simp only [Balance.writeBack]
            refine ⟨?_, ?_, ?_⟩ <;> omega
          · rw [P.others i hsrc hdst] at h2
            exact same i b b' h1 h2

example : ((acts {} {} holdHistory).getTxn "v1").map (fun o => (o.id, o.status, isIndicator o.source, isIndicator o.destination))
    = some ("v1", .void, false, false) := by decide +kernel

end Blnk
