import Verif.Props.HoldFloors
import Verif.Props.Batch
import Verif.Props.Worker
/-
C203: what queued checks (`enable_queued_checks`) do to the payments that wait in the queue.

With the setting on, the total of all waiting payments of an account is subtracted from what a new
debit may use (`database/transaction_queue.go:34-55`, `model/model.go:165-176`). A waiting payment is
applied by posting a copy of it, and while the copy is judged the waiting row itself still counts.
-/
namespace Blnk.Queue

/-! ### Specification -/

/-- What an account has apart from what is held. -/
def free (b : Balance) : Int := b.balance - b.inflightDebit

/-- A waiting payment has been decided once a child of it says so. -/
def decides (c row : Txn) : Bool :=
  c.parent = row.id && [Status.applied, .rejected, .void, .inflight].contains c.status

/-- What an account owes to payments still waiting. -/
def owed (db : DB) (a : String) : Int :=
  ((db.txns.filter (fun t => t.source = a && t.status = .queued && !(db.txns.any (fun c => decides c t)))).map
    (fun t => t.preciseAmount.getD 0)).sum

/-- A payment of `p` from account `a` that waits: its row is stored, undecided, without overdraft
permission, and could be applied if the money is there. -/
structure Waits (db : DB) (a : String) (row : Txn) (p : Int) : Prop where
  stored : row ∈ db.txns
  queued : row.status = .queued
  undecided : db.txns.any (fun c => decides c row) = false
  source : row.source = a
  amount : row.preciseAmount = some p
  positive : 0 < p
  scale : 0 ≤ row.precision
  noOverdraft : row.allowOverdraft = false ∧ row.overdraftLimit = 0
  names : isIndicator row.source = false ∧ isIndicator row.destination = false
  other : row.source ≠ row.destination
  dest : (db.find row.destination).isSome = true
  fresh : db.hasRef (row.reference ++ "_q") = false

/-- How a waiting payment ended, read from the table: a child that is applied (or held, for a
payment asked to be a hold), a child that is rejected, or neither. -/
def ending (db : DB) (row : Txn) : Option Verdict :=
  if db.txns.any (fun c => c.parent = row.id && (c.status = .applied || c.status = .inflight)) then some .applied
  else if db.txns.any (fun c => c.parent = row.id && c.status = .rejected) then some .rejected
  else none

/-- The worker takes waiting payments one after the other; each is given the id of its copy. -/
def serve (w : WCfg) (db : DB) : List (Txn × String) → DB
  | [] => db
  | j :: js => serve w (deliver w {} 0 db (queueCopy j.1 j.2)).1 js

/-- How payments end when each must fit into what is left over beside all that wait, itself
included: one that fits leaves that remainder as it was, one that does not is turned away and its
amount is no longer kept for it. -/
def judge : Int → List Int → List Verdict
  | _, [] => []
  | s, p :: ps => if p ≤ s then .applied :: judge s ps else .rejected :: judge (s + p) ps

/-- Queued checks are on and a payment without money is rejected at once. -/
def Checked (w : WCfg) : Prop := w.base.queuedChecks = true ∧ w.insufficientFundRetries = false

/-- **C203** in full: an account that covers everything it owes to waiting payments pays each of
them when its turn comes. -/
def C203Full : Prop := ∀ (w : WCfg) (s : Sys) (a : String) (b : Balance) (row : Txn) (p : Int) (newId : String),
  Checked w → Reach w.base s → s.db.find a = some b → Waits s.db a row p → s.db.hasTxnId newId = false →
  owed s.db a ≤ free b → ending (serve w s.db [(row, newId)]) row = some .applied

/-! ### Counting -/

theorem decides_eq (c row : Txn) : decides c row = closesQueued c row.id := by
  unfold decides closesQueued
  cases c.status <;> simp

theorem owed_eq (db : DB) (a : String) : owed db a = db.queuedDebit a := by
  unfold owed DB.queuedDebit
  simp only [decides_eq]

theorem sum_drop {f : Txn → Int} {p q : Txn → Bool} {row : Txn} : ∀ {l : List Txn}, (l.map (·.id)).Nodup → row ∈ l →
    p row = true → q row = false → (∀ t ∈ l, t.id ≠ row.id → q t = p t) →
    ((l.filter q).map f).sum = ((l.filter p).map f).sum - f row
  | [], _, h, _, _, _ => by simp at h
  | x :: l, hn, h, hp, hq, ho => by
    simp only [List.map_cons, List.nodup_cons] at hn
    rcases List.mem_cons.1 h with rfl | h
    · have : l.filter q = l.filter p := by
        apply List.filter_congr
        intro t ht
        exact ho t (List.mem_cons_of_mem _ ht) (fun e => hn.1 (e ▸ List.mem_map_of_mem ht))
      simp [hp, hq, this]
      omega
    · have ih := sum_drop (f := f) hn.2 h hp hq (fun t ht => ho t (List.mem_cons_of_mem _ ht))
      have hx : q x = p x := ho x (by simp) (fun e => hn.1 (e ▸ List.mem_map_of_mem h))
      cases hpx : p x
      · simp only [List.filter_cons, hx, hpx]
        simpa using ih
      · simp only [List.filter_cons, hx, hpx, if_true, List.map_cons, List.sum_cons]
        omega

/-- Deciding a waiting payment takes its amount, and nothing else, out of what is owed. -/
theorem owed_decided {db : DB} {a : String} {row c : Txn} {p : Int} {bal : List Balance} (hu : UniqueRows db)
    (hw : Waits db a row p) (hd : decides c row = true) :
    owed { balances := bal, txns := db.txns ++ [c] } a = owed db a - p := by
  have hcq : c.status ≠ .queued := by
    unfold decides at hd
    intro e
    rw [e] at hd
    simp at hd
  unfold owed
  simp only [List.filter_append, List.map_append, List.sum_append]
  have h1 : ([c].filter (fun t => decide (t.source = a) && decide (t.status = .queued)
      && !(db.txns ++ [c]).any (fun c => decides c t))) = [] := by
    simp [hcq]
  rw [h1]
  simp only [List.map_nil, List.sum_nil, Int.add_zero]
  have hp : p = row.preciseAmount.getD 0 := by rw [hw.amount]; rfl
  rw [hp]
  apply sum_drop (f := fun t => t.preciseAmount.getD 0) hu.txnIds hw.stored
  · simp [hw.source, hw.queued]
    have := hw.undecided
    simpa using this
  · simp [hd]
  · intro t ht hne
    have : decides c t = false := by
      unfold decides at hd ⊢
      simp only [Bool.and_eq_true, decide_eq_true_eq] at hd
      rw [hd.1]
      simp [Ne.symm hne]
    simp [this]

/-! ### One delivery -/

theorem deliver_quiet (w : WCfg) (n : Nat) (db : DB) (t : Txn) : deliver w {} n db t = singleAttempt w {} n db t := by
  simp [deliver, tryBatch, acts]

theorem recordSingle_ids {cfg : Cfg} {db : DB} {t : Txn} (h1 : isIndicator t.source = false)
    (h2 : isIndicator t.destination = false) (n1 n2 : String) : recordSingle cfg db t n1 n2 = postResolved cfg db t := by
  simp [recordSingle, DB.resolve, h1, h2]

theorem copy_precise {row : Txn} {p : Int} {n : String} (h : row.preciseAmount = some p) (hp : 0 < p) :
    (queueCopy row n).applyPrecision.preciseAmount = some p :=
  applyPrecision_pos (t := queueCopy row n) (p := p) h hp

theorem precise_valid {t : Txn} {p : Int} (h : t.preciseAmount = some p) (hp : 0 < p) (hs : 0 ≤ t.precision) :
    t.applyPrecision.validate = .ok () := by
  have h1 := applyPrecision_pos h hp
  have h2 : 0 ≤ t.applyPrecision.amount := by
    have hp' : (0 : Rat) ≤ (p : Rat) := by exact_mod_cast Int.le_of_lt hp
    unfold Txn.applyPrecision
    simp only
    by_cases h0 : t.precision = 0
    · simp only [h0, h, hp, if_true]
      rw [Rat.div_def]
      exact Rat.mul_nonneg hp' (by decide +kernel)
    · simp only [h0, h, hp, if_true, if_false]
      rw [Rat.div_def]
      exact Rat.mul_nonneg hp' (Rat.le_of_lt (Rat.inv_pos.2 (by grind)))
  unfold Txn.validate
  rw [if_neg (Rat.not_lt.2 h2), h1]
  simp only
  rw [if_neg (by omega)]

theorem singleAttempt_posted {w : WCfg} {n : Nat} {db : DB} {t : Txn} {rows : List Txn}
    (h : (recordSingle w.base db t ({} : Env).n1 ({} : Env).n2).2 = .posted rows) :
    singleAttempt w {} n db t = ((recordSingle w.base db t ({} : Env).n1 ({} : Env).n2).1, .ack) := by
  unfold singleAttempt
  simp only
  split
  · rename_i he; rw [he] at h; cases h
  · rename_i he; rw [he]

theorem singleAttempt_refused {w : WCfg} {n : Nat} {db db' : DB} {t : Txn} {e : OpErr}
    (h : recordSingle w.base db t ({} : Env).n1 ({} : Env).n2 = (db', .refused e)) :
    singleAttempt w {} n db t = onError w {} n db' t (errText db' t e) := by
  unfold singleAttempt
  simp only [h]

/-- A waiting payment's copy meets every condition but that of funds. -/
theorem copy_ready {db : DB} {a n : String} {row : Txn} {p : Int} {s : Balance} (hw : Waits db a row p)
    (hs : db.find a = some s) (hn : db.hasTxnId n = false) : ∃ d, Ready db (queueCopy row n) s d p := by
  obtain ⟨d, hd⟩ := Option.isSome_iff_exists.1 hw.dest
  refine ⟨d, ⟨?_, hw.fresh, hn, hw.other, ?_, hd, precise_valid hw.amount hw.positive hw.scale, copy_precise hw.amount hw.positive⟩⟩
  · constructor <;> (show row.status ≠ _; rw [hw.queued]; simp)
  · show db.find row.source = some s
    rw [hw.source]; exact hs

/-- What the delivery of a waiting payment leaves. -/
structure After (db db' : DB) (a : String) (b : Balance) (row : Txn) (p : Int) (n : String) (v : Verdict) : Prop where
  inv : Inv db'
  child : ∃ c, db'.txns = db.txns ++ [c] ∧ c.parent = row.id ∧ c.id = n ∧ c.reference = row.reference ++ "_q" ∧
    ((v = .applied ∧ (c.status = .applied ∨ c.status = .inflight)) ∨ (v = .rejected ∧ c.status = .rejected))
  account : ∃ b', db'.find a = some b' ∧ free b' = (if v = .applied then free b - p else free b)
  names : ∀ i, (db.find i).isSome = true → (db'.find i).isSome = true
  others : v = .rejected → ∀ i, db'.find i = db.find i

theorem finalRow_queued {t : Txn} (h : t.status = .queued) : (finalRow t).status = .applied ∨ (finalRow t).status = .inflight := by
  unfold finalRow clearTerminalInflight
  by_cases hi : t.inflight = true
  · right; simp [finalStatus, hi]
  · left; simp [finalStatus, hi, h]

/-- **C203, one payment.** With queued checks on, a waiting payment is applied exactly when what the
account has covers everything that waits *and its own amount once more*; otherwise it is rejected. -/
theorem c203_judged {w : WCfg} {db : DB} {a : String} {b : Balance} {row : Txn} {p : Int} {n : String} (hc : Checked w)
    (hi : Inv db) (hb : db.find a = some b) (hw : Waits db a row p) (hn : db.hasTxnId n = false) :
    After db (deliver w {} 0 db (queueCopy row n)).1 a b row p n
      (if owed db a + p ≤ free b then .applied else .rejected) := by
  obtain ⟨d, hr⟩ := copy_ready hw hb hn
  have hid : b.id = a := by have := List.find?_some hb; simpa using this
  have hsp : spendable w.base db b = free b - owed db a := by
    unfold spendable free
    rw [hc.1, hid, owed_eq]
    simp
  obtain ⟨hacc, href⟩ := c03_accepted_iff_covered w.base db (queueCopy row n) b d p hr hw.noOverdraft.1 hw.noOverdraft.2
  rw [hsp] at hacc href
  rw [deliver_quiet]
  have hrs : recordSingle w.base db (queueCopy row n) ({} : Env).n1 ({} : Env).n2 = postResolved w.base db (queueCopy row n) :=
    recordSingle_ids (t := queueCopy row n) hw.names.1 hw.names.2 _ _
  by_cases h : owed db a + p ≤ free b
  · rw [if_pos h]
    have hp := hacc (by omega)
    obtain ⟨_, hps⟩ := postResolved_posted hi hp
    have hiv := recordSingle_inv (cfg := w.base) (t := queueCopy row n) (n1 := ({} : Env).n1) (n2 := ({} : Env).n2) hi
    rw [hrs] at hiv
    have hk := finalRow_keeps (queueCopy row n)
    rw [singleAttempt_posted (hrs ▸ hp), hrs]
    refine ⟨hiv, ⟨_, hps.txns, hk.2.2.2.2.2, hk.2.1, hk.1, .inl ⟨rfl, finalRow_queued (t := queueCopy row n) hw.queued⟩⟩, ?_, ?_, ?_⟩
    · obtain ⟨rs, rd, s, d', s', d'', f1, f2, l1, l2, es, ed, a1, a2, g1, g2⟩ := hps.exact
      have e := applySource_effect a1
      have hsrc : (queueCopy row n).source = a := hw.source
      rw [hsrc] at f1 g1
      have : rs = b := by rw [hb] at f1; exact (Option.some.inj f1).symm
      subst this
      refine ⟨_, g1, ?_⟩
      have c1 := hi.consistent rs (List.mem_of_find?_eq_some hb)
      have cs : s.Consistent := by rw [es]; exact c1
      have cs' := applySource_consistent a1 cs
      have hpl : (queueCopy row n).Plain := hr.plain
      have e1 := e.debit; have e2 := e.credit; have e3 := e.inflightDebit
      rw [(plain_amounts hpl).1, hr.amount] at e1
      rw [(plain_amounts hpl).2, hr.amount] at e3
      have k1 := cs.1; have k2 := cs'.1
      have q1 : s.balance = rs.balance := by rw [es]
      have q2 : s.inflightDebit = rs.inflightDebit := by rw [es]
      simp only [if_true, free, Balance.writeBack]
      cases hin : (queueCopy row n).inflight <;> simp [hin] at e1 e3 <;> omega
    · intro i hsome
      obtain ⟨rs, rd, s, d', s', d'', f1, f2, l1, l2, es, ed, a1, a2, g1, g2⟩ := hps.exact
      by_cases h1 : i = (queueCopy row n).source
      · rw [h1, g1]; rfl
      · by_cases h2 : i = (queueCopy row n).destination
        · rw [h2, g2]; rfl
        · rw [hps.others i h1 h2]; exact hsome
    · intro hv; cases hv
  · rw [if_neg h]
    have hp := href (by omega)
    rw [singleAttempt_refused (hrs.trans hp)]
    have hins : db.insertTxn (rejectedRow (queueCopy row n)) = .ok { db with txns := db.txns ++ [rejectedRow (queueCopy row n)] } := by
      simp only [DB.insertTxn]
      have h1 : db.hasTxnId (rejectedRow (queueCopy row n)).id = false := hn
      have h2 : db.hasRef (rejectedRow (queueCopy row n)).reference = false := hw.fresh
      simp [h1, h2]
    have herr : onError w {} 0 db (queueCopy row n) (errText db (queueCopy row n) (.bal .insufficientFunds))
        = ({ db with txns := db.txns ++ [rejectedRow (queueCopy row n)] }, .ack) := by
      have k1 : isDuplicateText (errText db (queueCopy row n) (.bal .insufficientFunds)) = false := balText_not_duplicate _
      have k2 : says (errText db (queueCopy row n) (.bal .insufficientFunds)) "insufficient funds" = true := by
        show says (balText .insufficientFunds) "insufficient funds" = true
        decide +kernel
      simp only [onError, k1, k2, hc.2, acts, doReject, step, hins]
      simp
    rw [herr]
    have hiv := step_inv (cfg := w.base) hi (.store (rejectedRow (queueCopy row n)))
    simp only [step, hins] at hiv
    refine ⟨hiv, ⟨_, rfl, rfl, rfl, rfl, .inr ⟨rfl, rfl⟩⟩, ⟨b, hb, by simp⟩, fun _ h => h, fun _ _ => rfl⟩

/-! ### All waiting payments, in any order -/

theorem append_cancel {x y z : String} (h : x ++ z = y ++ z) : x = y := by
  have h1 := congrArg String.toList h
  simp only [String.toList_append] at h1
  exact String.toList_inj.1 (List.append_cancel_right h1)

theorem Waits.kept {db db' : DB} {a n : String} {b : Balance} {row r : Txn} {p q : Int} {v : Verdict}
    (hr : Waits db a r q) (ha : After db db' a b row p n v) (hid : r.id ≠ row.id)
    (href : r.reference ≠ row.reference) : Waits db' a r q := by
  obtain ⟨c, ht, h1, h2, h3, h4⟩ := ha.child
  refine ⟨?_, hr.queued, ?_, hr.source, hr.amount, hr.positive, hr.scale, hr.noOverdraft, hr.names, hr.other,
    ha.names _ hr.dest, ?_⟩
  · rw [ht]; exact List.mem_append_left _ hr.stored
  · rw [ht, List.any_append, hr.undecided]
    simp [decides, h1, Ne.symm hid]
  · have := hr.fresh
    unfold DB.hasRef at this ⊢
    rw [ht, List.any_append, this]
    simp only [Bool.false_or, List.any_cons, List.any_nil, Bool.or_false, h3, decide_eq_false_iff_not]
    intro e
    exact href (append_cancel e).symm

theorem After.slack {db db' : DB} {a n : String} {b : Balance} {row : Txn} {p : Int} {v : Verdict} (hi : Inv db)
    (hw : Waits db a row p) (ha : After db db' a b row p n v) :
    ∃ b', db'.find a = some b' ∧ free b' - owed db' a = (if v = .applied then free b - owed db a else free b - owed db a + p) := by
  obtain ⟨b', hb, hf⟩ := ha.account
  obtain ⟨c, ht, h1, h2, h3, h4⟩ := ha.child
  have hd : decides c row = true := by
    unfold decides
    rcases h4 with ⟨_, h4 | h4⟩ | ⟨_, h4⟩ <;> simp [h1, h4]
  have ho := owed_decided (bal := db'.balances) hi.unique hw hd
  rw [← ht] at ho
  have ho' : owed db' a = owed db a - p := ho
  refine ⟨b', hb, ?_⟩
  rw [ho', hf]
  split <;> omega

/-- A decision stays. -/
theorem ending_kept {db db' : DB} {a n : String} {b : Balance} {row r : Txn} {p : Int} {v : Verdict}
    (ha : After db db' a b row p n v) (hid : r.id ≠ row.id) : ending db' r = ending db r := by
  obtain ⟨c, ht, h1, h2, h3, h4⟩ := ha.child
  unfold ending
  simp only [ht, List.any_append, List.any_cons, List.any_nil, h1, Ne.symm hid]
  simp

theorem ending_made {db db' : DB} {a n : String} {b : Balance} {row : Txn} {p : Int} {v : Verdict}
    (hw : Waits db a row p) (ha : After db db' a b row p n v) : ending db' row = some v := by
  obtain ⟨c, ht, h1, h2, h3, h4⟩ := ha.child
  have hu := hw.undecided
  rw [List.any_eq_false] at hu
  have no1 : db.txns.any (fun c => c.parent = row.id && (c.status = .applied || c.status = .inflight)) = false := by
    rw [List.any_eq_false]
    intro x hx he
    apply hu x hx
    simp only [Bool.and_eq_true, Bool.or_eq_true, decide_eq_true_eq] at he
    rcases he with ⟨e1, e2 | e2⟩ <;> simp [decides, e1, e2]
  unfold ending
  simp only [ht, List.any_append, no1, Bool.false_or, List.any_cons, List.any_nil, Bool.or_false, h1]
  rcases h4 with ⟨rfl, h4 | h4⟩ | ⟨rfl, h4⟩ <;> simp [h4]

/-- Payments to be taken, each once, with a fresh id for each copy. -/
structure Batch (db : DB) (a : String) (js : List (Txn × Int × String)) : Prop where
  waits : ∀ j ∈ js, Waits db a j.1 j.2.1
  ids : (js.map (·.1.id)).Nodup
  refs : (js.map (·.1.reference)).Nodup
  copies : (js.map (·.2.2)).Nodup
  fresh : ∀ j ∈ js, db.hasTxnId j.2.2 = false

theorem Batch.tail {db db' : DB} {a : String} {b : Balance} {j : Txn × Int × String} {js : List (Txn × Int × String)}
    {v : Verdict} (h : Batch db a (j :: js)) (ha : After db db' a b j.1 j.2.1 j.2.2 v) : Batch db' a js := by
  have h1 := h.ids; have h2 := h.refs; have h3 := h.copies
  simp only [List.map_cons, List.nodup_cons] at h1 h2 h3
  refine ⟨?_, h1.2, h2.2, h3.2, ?_⟩
  · intro x hx
    refine (h.waits x (List.mem_cons_of_mem _ hx)).kept ha ?_ ?_
    · intro e; exact h1.1 (e ▸ List.mem_map_of_mem (f := fun j : Txn × Int × String => j.1.id) hx)
    · intro e; exact h2.1 (e ▸ List.mem_map_of_mem (f := fun j : Txn × Int × String => j.1.reference) hx)
  · intro x hx
    obtain ⟨c, ht, _, hcid, _⟩ := ha.child
    have := h.fresh x (List.mem_cons_of_mem _ hx)
    unfold DB.hasTxnId at this ⊢
    rw [ht, List.any_append, this]
    simp only [Bool.false_or, List.any_cons, List.any_nil, Bool.or_false, hcid, decide_eq_false_iff_not]
    intro e
    exact h3.1 (e ▸ List.mem_map_of_mem (f := fun j : Txn × Int × String => j.2.2) hx)

theorem serve_settled {w : WCfg} {a : String} (hc : Checked w) : ∀ {js : List (Txn × Int × String)} {db : DB} {b : Balance}
    {r : Txn}, Inv db → db.find a = some b → Batch db a js → (∀ j ∈ js, r.id ≠ j.1.id) →
    ending (serve w db (js.map (fun j => (j.1, j.2.2)))) r = ending db r := by
  intro js
  induction js with
  | nil => intro db b r _ _ _ _; rfl
  | cons j js ih =>
    intro db b r hi hb hj hr
    have ha := c203_judged hc hi hb (hj.waits j (by simp)) (hj.fresh j (by simp))
    obtain ⟨b', hb', _⟩ := ha.account
    simp only [List.map_cons, serve]
    rw [ih ha.inv hb' (hj.tail ha) (fun x hx => hr x (List.mem_cons_of_mem _ hx)), ending_kept ha (hr j (by simp))]

/-- **C203, all of them.** Take any of the payments waiting at an account, in any order. How they
end is what `judge` says of their amounts, starting from what the account has beyond all it owes:
a payment is applied when its amount fits into that remainder, which stays as it was; a rejected one
adds its amount to it. -/
theorem c203_endings {w : WCfg} {a : String} (hc : Checked w) : ∀ {js : List (Txn × Int × String)} {db : DB} {b : Balance},
    Inv db → db.find a = some b → Batch db a js →
    js.map (fun j => ending (serve w db (js.map (fun j => (j.1, j.2.2)))) j.1)
      = (judge (free b - owed db a) (js.map (·.2.1))).map some := by
  intro js
  induction js with
  | nil => intro db b _ _ _; rfl
  | cons j js ih =>
    intro db b hi hb hj
    have hw := hj.waits j (by simp)
    have ha := c203_judged hc hi hb hw (hj.fresh j (by simp))
    have hids := hj.ids
    simp only [List.map_cons, List.nodup_cons] at hids
    obtain ⟨b', hb', hs⟩ := ha.slack hi hw
    have ht := hj.tail ha
    have hrest := ih ha.inv hb' ht
    have hfirst : ending (serve w (deliver w {} 0 db (queueCopy j.1 j.2.2)).1 (js.map (fun j => (j.1, j.2.2)))) j.1
        = some (if owed db a + j.2.1 ≤ free b then .applied else .rejected) := by
      rw [serve_settled hc ha.inv hb' ht (fun x hx e => hids.1 (e ▸ List.mem_map_of_mem (f := fun j : Txn × Int × String => j.1.id) hx)),
        ending_made hw ha]
    simp only [List.map_cons, serve, judge]
    rw [hfirst, hrest, hs]
    by_cases h : owed db a + j.2.1 ≤ free b
    · have h' : j.2.1 ≤ free b - owed db a := by omega
      simp [h, h']
    · have h' : ¬ j.2.1 ≤ free b - owed db a := by omega
      simp [h, h']

theorem judge_fits : ∀ {s : Int} {ps : List Int}, (∀ p ∈ ps, p ≤ s) → judge s ps = ps.map (fun _ => .applied)
  | _, [], _ => rfl
  | s, p :: ps, h => by
    rw [judge, if_pos (h p (by simp)), judge_fits (fun x hx => h x (List.mem_cons_of_mem _ hx))]
    rfl

/-- **C203, the part that holds.** If what the account has beyond all it owes covers the largest
waiting payment a second time, all of them are applied, in whatever order they are taken. -/
theorem c203_paid_partial {w : WCfg} {a : String} (hc : Checked w) {js : List (Txn × Int × String)} {db : DB} {b : Balance}
    (hi : Inv db) (hb : db.find a = some b) (hj : Batch db a js) (hs : ∀ j ∈ js, owed db a + j.2.1 ≤ free b) :
    ∀ j ∈ js, ending (serve w db (js.map (fun j => (j.1, j.2.2)))) j.1 = some .applied := by
  have h := c203_endings hc hi hb hj
  rw [judge_fits (by
    intro p hp
    obtain ⟨j, hjm, rfl⟩ := List.mem_map.1 hp
    have := hs j hjm
    omega)] at h
  intro j hjm
  have : ending (serve w db (js.map (fun j => (j.1, j.2.2)))) j.1 ∈
      js.map (fun j => ending (serve w db (js.map (fun j => (j.1, j.2.2)))) j.1) :=
    List.mem_map_of_mem (f := fun j => ending (serve w db (js.map (fun j => (j.1, j.2.2)))) j.1) hjm
  rw [h] at this
  simp only [List.map_map, List.mem_map, Function.comp] at this
  obtain ⟨_, _, h2⟩ := this
  exact h2.symm

theorem owed_le_self {db : DB} {a : String} {row : Txn} {p : Int} (hq : QueuedNonneg db) (hw : Waits db a row p) : p ≤ owed db a := by
  have hm : row ∈ db.txns.filter (fun t => decide (t.source = a) && decide (t.status = .queued)
      && !(db.txns.any (fun c => decides c t))) := by
    rw [List.mem_filter]
    exact ⟨hw.stored, by simp only [hw.source, hw.queued, hw.undecided]; simp⟩
  have hge : ∀ (l : List Txn), (∀ t ∈ l, 0 ≤ t.preciseAmount.getD 0) → row ∈ l → p ≤ (l.map (fun t => t.preciseAmount.getD 0)).sum := by
    intro l
    induction l with
    | nil => intro _ h; simp at h
    | cons x l ih =>
      intro hn h
      have hx := hn x (by simp)
      have hl : 0 ≤ (l.map (fun t => t.preciseAmount.getD 0)).sum := by
        apply sum_nonneg
        intro y hy
        obtain ⟨t, ht, rfl⟩ := List.mem_map.1 hy
        exact hn t (List.mem_cons_of_mem _ ht)
      simp only [List.map_cons, List.sum_cons]
      rcases List.mem_cons.1 h with rfl | h
      · rw [hw.amount]; simp only [Option.getD_some]; omega
      · have := ih (fun t ht => hn t (List.mem_cons_of_mem _ ht)) h
        omega
  apply hge _ _ hm
  intro t ht
  rw [List.mem_filter] at ht
  simp only [Bool.and_eq_true, decide_eq_true_eq] at ht
  exact hq t ht.1 ht.2.1.2

/-- **C203, at most half.** With queued checks on, a queued payment of more than half of what the
account has is always rejected, also when nothing else waits. -/
theorem c203_half {w : WCfg} {db : DB} {a : String} {b : Balance} {row : Txn} {p : Int} {n : String} (hc : Checked w)
    (hi : Inv db) (hq : QueuedNonneg db) (hb : db.find a = some b) (hw : Waits db a row p) (hn : db.hasTxnId n = false)
    (hp : free b < 2 * p) : ending (serve w db [(row, n)]) row = some .rejected := by
  have ha := c203_judged hc hi hb hw hn
  have := owed_le_self hq hw
  have := ending_made hw ha
  rw [if_neg (by omega)] at this
  exact this

/-! ### What queued checks do keep -/

/-- The account covers what it owes to waiting payments. -/
def Covered (db : DB) (a : String) : Prop := ∃ b, db.find a = some b ∧ b.indicator = "" ∧ owed db a ≤ free b

/-- What may happen meanwhile: anything but overdraft debits of this account and further waiting
payments from it. -/
def Leaves (a : String) : Op → Prop
  | .create _ _ _ => True
  | .post t _ _ => SignOK t ∧ (t.Plain → t.source = a → t.allowOverdraft = false ∧ t.overdraftLimit = 0)
  | .batch ts => ∀ t ∈ ts, Coalescible t ∧ (t.source = a → t.allowOverdraft = false ∧ t.overdraftLimit = 0)
  | .store t => t.status = .queued → 0 ≤ t.preciseAmount.getD 0 ∧ t.source ≠ a

theorem caps_zero {t : Txn} (h : t.allowOverdraft = false ∧ t.overdraftLimit = 0) : Caps 0 t := by
  constructor
  · intro e; rw [h.1] at e; cases e
  · intro e; rw [h.2] at e; exact absurd e (by decide +kernel)

theorem post_covered {cfg : Cfg} {db : DB} {a : String} {t : Txn} (hc : cfg.queuedChecks = true) (hi : Inv db)
    (hq : QueuedNonneg db) (hcov : Covered db a) (hs : SignOK t)
    (hno : t.Plain → t.source = a → t.allowOverdraft = false ∧ t.overdraftLimit = 0) :
    Covered (postResolved cfg db t).1 a := by
  by_cases hp : ∃ rows, (postResolved cfg db t).2 = .posted rows
  · obtain ⟨rows, hp⟩ := hp
    obtain ⟨_, hps⟩ := postResolved_posted hi hp
    have hle : owed (postResolved cfg db t).1 a ≤ owed db a := by
      rw [owed_eq, owed_eq]
      have := queuedDebit_append (row := finalRow t) (bal := (postResolved cfg db t).1.balances) hq (by rw [finalRow_status]; exact finalStatus_ne_queued t) a
      rw [← hps.txns] at this
      exact this
    obtain ⟨b, hb, hind, hcb⟩ := hcov
    obtain ⟨rs, rd, s, d, s', d', f1, f2, l1, l2, es, ed, a1, a2, g1, g2⟩ := hps.exact
    by_cases h1 : a = t.source
    · subst h1
      rw [hb] at f1
      have : b = rs := Option.some.inj f1
      subst this
      refine ⟨_, g1, hind, ?_⟩
      have cs : s.Consistent := by rw [es]; exact hi.consistent b (List.mem_of_find?_eq_some hb)
      have cs' := applySource_consistent a1 cs
      have hsq : s.queuedDebit = some (owed db t.source) := by
        obtain ⟨r, _, _, _, e⟩ := load_ok l1
        rw [e, owed_eq, hc]; rfl
      have e := applySource_effect a1
      have e1 := e.debit; have e2 := e.credit; have e3 := e.inflightDebit
      have k1 := cs.1; have k2 := cs'.1
      have q1 : s.balance = b.balance := by rw [es]
      have q2 : s.inflightDebit = b.inflightDebit := by rw [es]
      unfold free at hcb ⊢
      simp only [Balance.writeBack]
      by_cases hcm : t.status = .commit
      · simp only [regAmt, inflAmt, hcm] at e1 e3
        omega
      by_cases hvo : t.status = .void
      · have := hs.2 hvo
        simp only [regAmt, inflAmt, hvo] at e1 e3
        omega
      · have hpl : t.Plain := ⟨hcm, hvo⟩
        obtain ⟨v, cp, _⟩ := (applySource_plain hcm hvo).1 a1
        have := canProcess_floor (L := 0) (by omega) (caps_zero (hno hpl rfl)) v cp
        rw [(plain_amounts hpl).1] at e1
        rw [(plain_amounts hpl).2] at e3
        unfold Balance.available at this
        rw [hsq] at this
        simp only [Option.getD_some] at this
        cases hin : t.inflight <;> simp only [hin] at e1 e3 <;> simp at e1 e3 <;> omega
    · by_cases h2 : a = t.destination
      · subst h2
        rw [hb] at f2
        have : b = rd := Option.some.inj f2
        subst this
        refine ⟨_, g2, hind, ?_⟩
        have cd : d.Consistent := by rw [ed]; exact hi.consistent b (List.mem_of_find?_eq_some hb)
        have cd' := applyDestination_consistent a2 cd
        have e := applyDestination_effect a2
        have e1 := e.debit; have e2 := e.credit; have e3 := e.inflightDebit
        have k1 := cd.1; have k2 := cd'.1
        have q1 : d.balance = b.balance := by rw [ed]
        have q2 : d.inflightDebit = b.inflightDebit := by rw [ed]
        have := dst_amount_nonneg hs (source_validated a1)
        unfold free at hcb ⊢
        simp only [Balance.writeBack]
        omega
      · exact ⟨b, (hps.others a h1 h2).trans hb, hind, by omega⟩
  · rw [postResolved_not_posted (fun rows h => hp ⟨rows, h⟩)]
    exact hcov

theorem resolve_covered {db db' : DB} {a s cur n i : String} (hi : Inv db) (hcov : Covered db a)
    (hr : db.resolve s cur n = .ok (db', i)) : Covered db' a ∧ (i = a → s = a) := by
  obtain ⟨b, hb, hind, hcb⟩ := hcov
  obtain ⟨ht, new, hbal, hnew⟩ := resolve_balances hr
  have hm := List.mem_of_find?_eq_some hb
  have hid : b.id = a := by have := List.find?_some hb; simpa using this
  refine ⟨⟨b, ?_, hind, ?_⟩, ?_⟩
  · unfold DB.find at hb ⊢
    rw [hbal, List.find?_append, hb]; rfl
  · have : owed db' a = owed db a := by unfold owed; rw [ht]
    rw [this]; exact hcb
  · intro hia
    rcases resolve_ok hr with ⟨_, _, e⟩ | ⟨_, hs, x, hx, e1, e2, _⟩ | ⟨_, e, hcr⟩
    · rw [← e]; exact hia
    · have : x = b := eq_of_mem_ids hi.nodup hx hm (by rw [e1, hia, hid])
      rw [this, hind] at e2
      rw [← e2, isIndicator_empty] at hs
      cases hs
    · obtain ⟨h1, _, _⟩ := createBalance_ok hcr
      exact absurd (hid.trans (hia.symm.trans e)) (h1 b hm)

theorem recordSingle_covered {cfg : Cfg} {db : DB} {a : String} {t : Txn} (hc : cfg.queuedChecks = true) (hi : Inv db)
    (hq : QueuedNonneg db) (hcov : Covered db a) (n1 n2 : String) (o1 : SignOK t)
    (o2 : t.Plain → t.source = a → t.allowOverdraft = false ∧ t.overdraftLimit = 0) :
    Covered (recordSingle cfg db t n1 n2).1 a := by
  simp only [recordSingle]
  split
  · exact hcov
  · rename_i d1 sid h1
    obtain ⟨f1, s1⟩ := resolve_covered hi hcov h1
    have hi1 := resolve_inv hi h1
    split
    · exact f1
    · rename_i d2 did h2
      obtain ⟨f2, _⟩ := resolve_covered hi1 f1 h2
      refine post_covered hc (resolve_inv hi1 h2) ?_ f2 ((signOK_parties t sid did).2 o1) (fun hp hsrc => o2 hp (s1 hsrc))
      unfold QueuedNonneg
      rw [(resolve_balances h2).1, (resolve_balances h1).1]
      exact hq

theorem post_covered_all {cfg : Cfg} {a : String} (hc : cfg.queuedChecks = true) : ∀ {ts : List Txn} {db db' : DB},
    Inv db → QueuedNonneg db → Covered db a → (∀ t ∈ ts, Leaves a (.post t "" "")) → OneByOne cfg db ts db' → Covered db' a := by
  intro ts
  induction ts with
  | nil => intro db db' _ _ hcov _ h; cases h; exact hcov
  | cons t ts ih =>
    intro db db' hi hq hcov hl h
    cases h with
    | cons h hs =>
      rename_i db1 rows
      have e : db1 = (step cfg db (.post t "" "")).1 := by rw [h]
      have hl' := hl t (by simp)
      have hcov1 : Covered (step cfg db (.post t "" "")).1 a := recordSingle_covered hc hi hq hcov "" "" hl'.1 hl'.2
      refine ih (e ▸ step_inv hi _) (e ▸ step_queuedNonneg hq (by trivial)) (e ▸ hcov1) (fun u hu => hl u (List.mem_cons_of_mem _ hu)) hs

theorem step_covered {cfg : Cfg} {a : String} {db : DB} {op : Op} (hc : cfg.queuedChecks = true) (hr : Reachable cfg db)
    (hq : QueuedNonneg db) (hcov : Covered db a) (ho : Leaves a op) : Covered (step cfg db op).1 a := by
  have hi := hr.inv
  cases op with
  | create i ind cur =>
    simp only [step]
    split
    · rename_i db' h
      obtain ⟨_, _, rfl⟩ := createBalance_ok h
      obtain ⟨b, hb, hind, hcb⟩ := hcov
      refine ⟨b, ?_, hind, hcb⟩
      unfold DB.find at hb ⊢
      rw [List.find?_append, hb]; rfl
    · exact hcov
  | post t n1 n2 => exact recordSingle_covered hc hi hq hcov n1 n2 ho.1 ho.2
  | batch ts =>
    by_cases hp : ∃ rows, (step cfg db (.batch ts)).2 = .posted rows
    · obtain ⟨rows, hp⟩ := hp
      obtain ⟨db', hone, hsame⟩ := c14_batch_equals_one_by_one cfg db hr hq ts (fun t ht => (ho t ht).1) rows hp
      obtain ⟨b, hb, hind, hcb⟩ := post_covered_all hc hi hq hcov (fun t ht => by
        obtain ⟨c1, c2⟩ := ho t ht
        refine ⟨⟨?_, ?_⟩, fun _ => c2⟩ <;> intro e <;> rw [c1.queued] at e <;> cases e) hone
      have hcols := hsame.accounts a
      rw [hb] at hcols
      cases hf : (step cfg db (.batch ts)).1.find a with
      | none => rw [hf] at hcols; cases hcols
      | some b2 =>
        rw [hf] at hcols
        simp only [Option.map_some, Option.some.injEq] at hcols
        have c1 : b2.indicator = b.indicator := (show b2.cols.indicator = b.cols.indicator from by rw [hcols])
        have c2 : b2.balance = b.balance := (show b2.cols.balance = b.cols.balance from by rw [hcols])
        have c3 : b2.inflightDebit = b.inflightDebit := (show b2.cols.inflightDebit = b.cols.inflightDebit from by rw [hcols])
        refine ⟨b2, hf, c1.trans hind, ?_⟩
        have : owed (step cfg db (.batch ts)).1 a = owed db' a := by unfold owed; rw [hsame.txns]
        rw [this]
        unfold free at hcb ⊢
        rw [c2, c3]; exact hcb
    · have : (step cfg db (.batch ts)).1 = db := by
        simp only [step, recordBatch] at hp ⊢
        split
        · rfl
        · split
          · rename_i w hw _ db' h
            exact absurd ⟨w.rows, by simp only [hw, h]⟩ hp
          · rfl
      rw [this]; exact hcov
  | store t =>
    simp only [step]
    split
    · rename_i db' h
      obtain ⟨_, _, rfl⟩ := insertTxn_ok h
      obtain ⟨b, hb, hind, hcb⟩ := hcov
      refine ⟨b, hb, hind, Int.le_trans ?_ hcb⟩
      by_cases hst : t.status = .queued
      · unfold owed
        simp only [List.filter_append, List.map_append, List.sum_append]
        have h1 : ([t].filter (fun x => decide (x.source = a) && decide (x.status = .queued)
            && !(db.txns ++ [t]).any (fun c => decides c x))) = [] := by
          simp [(ho hst).2]
        rw [h1]
        simp only [List.map_nil, List.sum_nil, Int.add_zero]
        apply sum_filter_le
        · intro x _ hx
          simp only [List.any_append, Bool.not_or, Bool.and_eq_true] at hx ⊢
          exact ⟨hx.1, hx.2.1⟩
        · intro x hx hqx
          simp only [Bool.and_eq_true, decide_eq_true_eq] at hqx
          exact hq x hx hqx.1.2
      · rw [owed_eq, owed_eq]
        exact queuedDebit_append (bal := db.balances) hq hst a
    · exact hcov

/-- **C203, what is kept.** With queued checks on, an account that covers its waiting payments goes
on covering them, whatever else is posted, held, settled or coalesced and in whatever order: no
payment past the queue takes their money. Only overdraft permissions and further queued payments,
which are accepted without a look at the balance, can change that. -/
theorem c203_kept (cfg : Cfg) (a : String) (hc : cfg.queuedChecks = true) : ∀ (ops : List Op) (db : DB), Reachable cfg db →
    QueuedNonneg db → Covered db a → (∀ op ∈ ops, Leaves a op) → Covered (run cfg db ops) a := by
  intro ops
  induction ops with
  | nil => intro db _ _ h _; exact h
  | cons op ops ih =>
    intro db hr hq hcov ho
    have hop := ho op (by simp)
    refine ih _ ?_ (step_queuedNonneg hq ?_) (step_covered hc hr hq hcov hop) (fun o h => ho o (List.mem_cons_of_mem _ h))
    · obtain ⟨os, rfl⟩ := hr
      exact ⟨os ++ [op], by rw [run_append]; rfl⟩
    · cases op <;> first | trivial | exact fun h => (hop h).1

/-! ### Examples and the witness -/

/-- A worker with queued checks on. -/
def checking : WCfg := { base := { queuedChecks := true } }

/-- Account `a` has 10.00. -/
def tenOps : List Op :=
  [.create "a" "" "USD", .create "b" "" "USD",
   .post { id := "t1", source := "@World", destination := "a", reference := "r1", amount := 10, currency := "USD",
           precision := 100, allowOverdraft := true, status := .queued } "w" "x"]

/-- A request to pay 6.00. -/
def sixRequest : Txn :=
  { id := "p1", source := "a", destination := "b", reference := "p1", amount := 6, precision := 100, currency := "USD" }

/-- The request as stored. -/
def sixRow : Txn := (persistQueued checking.base (run checking.base {} tenOps) (submit sixRequest) "" "").2.1

/-- The system once the request is stored and its task is in Redis. -/
def sixSys : Sys :=
  { db := (persistQueued checking.base (run checking.base {} tenOps) (submit sixRequest) "" "").1
    accepted := [submit sixRequest]
    tasks := [(keyOf (submit sixRequest), queueCopy sixRow "q1")]
    others := (tenOps.map .base).reverse }

theorem reach_run {cfg : Cfg} : ∀ (ops : List Op) (s : Sys), Reach cfg s →
    Reach cfg { s with db := run cfg s.db ops, others := (ops.map Act.base).reverse ++ s.others }
  | [], _, h => h
  | op :: ops, s, h => by
    have := reach_run ops _ (.step h (.other s (.base op)))
    simpa [run, act] using this

theorem sixSys_reach : Reach checking.base sixSys := by
  have h0 : Reach checking.base { db := run checking.base {} tenOps, others := (tenOps.map .base).reverse } :=
    reach_run tenOps {} .init
  have h1 := Reach.step h0 (.accept _ sixRequest (by decide +kernel))
  exact Reach.step h1 (.persist _ (submit sixRequest) "" "" "q1" .copy (by simp) (fun _ => by decide +kernel))

theorem six_waits : Waits sixSys.db "a" sixRow 600 where
  stored := by decide +kernel
  queued := by decide +kernel
  undecided := by decide +kernel
  source := by decide +kernel
  amount := by decide +kernel
  positive := by decide
  scale := by decide +kernel
  noOverdraft := by decide +kernel
  names := by decide +kernel
  other := by decide +kernel
  dest := by decide +kernel
  fresh := by decide +kernel

/-- **C203 fails**: an account with 10.00 and one queued payment of 6.00, the only one. When the
worker takes it, the payment still counts as waiting, 4.00 is left for it, and it is rejected. -/
theorem c203_full_fails : ¬ C203Full := by
  intro h
  have hb : ∃ b, sixSys.db.find "a" = some b ∧ owed sixSys.db "a" ≤ free b := by
    have h1 : (sixSys.db.find "a").isSome = true := by decide +kernel
    obtain ⟨b, hb⟩ := Option.isSome_iff_exists.1 h1
    have h2 : (sixSys.db.find "a").map (fun b => decide (owed sixSys.db "a" ≤ free b)) = some true := by decide +kernel
    rw [hb] at h2
    exact ⟨b, hb, by simpa using h2⟩
  obtain ⟨b, hb, hle⟩ := hb
  have := h checking sixSys "a" b sixRow 600 "q1" ⟨rfl, rfl⟩ sixSys_reach hb six_waits (by decide +kernel) hle
  have no : ending (serve checking sixSys.db [(sixRow, "q1")]) sixRow = some .rejected := by decide +kernel
  rw [no] at this
  cases this

/-- Two payments of 3.00 wait at an account with 10.00. -/
def twoJobs : List (Txn × Int × String) := [(demoQ "p1" "p1" "", 300, "q1"), (demoQ "p2" "p2" "", 300, "q2")]

theorem two_waits {id : String} (h : id = "p1" ∨ id = "p2") : Waits (demoQueued checking.base) "a" (demoQ id id "") 300 := by
  rcases h with rfl | rfl <;>
    exact ⟨by decide +kernel, by decide +kernel, by decide +kernel, by decide +kernel, by decide +kernel, by decide,
      by decide +kernel, by decide +kernel, by decide +kernel, by decide +kernel, by decide +kernel, by decide +kernel⟩

/-- The hypotheses of `c203_endings` and `c203_paid_partial` are met: 6.00 waits, 4.00 is beyond it. -/
example : Inv (demoQueued checking.base) ∧ Batch (demoQueued checking.base) "a" twoJobs ∧
    ((demoQueued checking.base).find "a").map free = some 1000 ∧ owed (demoQueued checking.base) "a" = 600 ∧
    twoJobs.map (fun j => ending (serve checking (demoQueued checking.base) (twoJobs.map (fun j => (j.1, j.2.2)))) j.1)
      = [some .applied, some .applied] := by
  refine ⟨Reachable.inv ⟨_, rfl⟩, ⟨?_, by decide +kernel, by decide +kernel, by decide +kernel, ?_⟩, by decide +kernel,
    by decide +kernel, by decide +kernel⟩
  · intro j hj
    simp only [twoJobs, List.mem_cons, List.not_mem_nil, or_false] at hj
    rcases hj with rfl | rfl
    · exact two_waits (.inl rfl)
    · exact two_waits (.inr rfl)
  · intro j hj
    simp only [twoJobs, List.mem_cons, List.not_mem_nil, or_false] at hj
    rcases hj with rfl | rfl <;> decide +kernel

/-- The order decides: of 50 and 40 at an account with 100, the first is turned away and makes room
for the second; of 40 and 50 the same, and of three payments of 25 all are applied. -/
example : judge (100 - 90) [50, 40] = [.rejected, .applied] ∧ judge (100 - 90) [40, 50] = [.rejected, .applied] ∧
    judge (100 - 75) [25, 25, 25] = [.applied, .applied, .applied] := by decide

/-- Payments past the queue take what is beyond the waiting ones and no more. -/
def twoMeanwhile : List Op :=
  [.post { id := "d1", source := "a", destination := "b", reference := "d1", preciseAmount := some 400, precision := 100,
           currency := "USD", status := .queued } "x" "y",
   .post { id := "d2", source := "a", destination := "b", reference := "d2", preciseAmount := some 1, precision := 100,
           currency := "USD", status := .queued } "x" "y"]

example : Covered (demoQueued checking.base) "a" ∧ (∀ op ∈ twoMeanwhile, Leaves "a" op) ∧
    ((run checking.base (demoQueued checking.base) twoMeanwhile).find "a").map free = some 600 := by
  refine ⟨?_, ?_, by decide +kernel⟩
  · have h1 : ((demoQueued checking.base).find "a").isSome = true := by decide +kernel
    obtain ⟨b, hb⟩ := Option.isSome_iff_exists.1 h1
    have h2 : ((demoQueued checking.base).find "a").map (fun b => decide (b.indicator = "" ∧ owed (demoQueued checking.base) "a" ≤ free b))
        = some true := by decide +kernel
    rw [hb] at h2
    exact ⟨b, hb, by simpa using h2⟩
  · intro op hop
    simp only [twoMeanwhile, List.mem_cons, List.not_mem_nil, or_false] at hop
    rcases hop with rfl | rfl <;> simp [Leaves, SignOK, Txn.Plain]

end Blnk.Queue
