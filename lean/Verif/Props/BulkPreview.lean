import Verif.Model.BulkPreview
import Verif.Props.Bulk
import Verif.Props.SettlePreview
/-
C188: what the dry run of a bulk commit or void says of the batch.
-/
namespace Blnk.Undo
open Blnk Preview

/-! ### One hold: when it is settled, when it is shown as settled -/

/-- The specification: what is left of the hold can be settled as asked. -/
structure Due (db : DB) (r : Txn) (void : Bool) (amt : Int) : Prop where
  standing : db.parentVoid r.id = false
  left : 0 < pay r - committed db r.id
  asked : void = true ∨ (0 ≤ amt ∧ amt ≤ pay r - committed db r.id)

/-- What a settlement of it moves. -/
def dueAmount (db : DB) (r : Txn) (void : Bool) (amt : Int) : Int :=
  if void = true ∨ amt = 0 then pay r - committed db r.id else amt

theorem due_open {db : DB} {r : Txn} (h : db.parentVoid r.id = false) : openAmount db r = pay r - committed db r.id := by
  have : released db r.id = 0 := kidSum_zero (fun c hc hcs => parentVoid_false.1 h c hc hcs)
  unfold openAmount; omega

theorem real_due {cfg : Cfg} {H Q : String → Prop} {as : List Act} (ha : ∀ a ∈ as, a.Respects H ∧ a.Direct Q) {db : DB}
    (hdb : db = acts cfg {} as) {r : Txn} (hr : r ∈ db.txns) (hs : r.status = .inflight) (hne : r.source ≠ r.destination)
    {i : Nat} {it : BulkItem} (hit : it.txn = r.id) {void : Bool} {db' : DB} {o : Except InfErr Outcome}
    (hc : bulkCall cfg void i it db db' o) :
    ((∃ x, o = .ok (.posted [x])) ↔ Due db r void it.amount) ∧
    ∀ x, o = .ok (.posted [x]) → pay x = dueAmount db r void it.amount ∧ x.parent = r.id := by
  subst hdb
  have hf := acts_fundInv (cfg := cfg) (init_fundInv H Q) ha
  obtain ⟨newId, ref, n1, n2, hid, href, _, _, e⟩ := hc
  have hu := fun {row : Txn} (hrow : row ∈ (acts cfg {} as).txns) (h : row.id = r.id) => row_unique hf.inv hrow hr h
  cases void with
  | true =>
    simp only [if_true, hit] at e
    have eo : o = (voidInflight cfg (acts cfg {} as) r.id newId ref n1 n2).2 := by rw [← e]
    have fwd : ∀ x, o = .ok (.posted [x]) → Due (acts cfg {} as) r true it.amount ∧
        pay x = dueAmount (acts cfg {} as) r true it.amount ∧ x.parent = r.id := by
      intro x hx
      rcases void_grown (cfg := cfg) (newId := newId) (ref := ref) (n1 := n1) (n2 := n2) hf.inv (hf.toHoldInv.remaining_nonneg (h := r.id)) with
        ⟨_, hn⟩ | ⟨row, y, hrow, hrid, _, hv, _, ho, _, hS, h0⟩
      · exact absurd (eo ▸ hx) (hn _)
      · have := hu hrow hrid; subst this
        rw [eo, ho] at hx
        cases hx
        rw [totalCommitted_eq] at h0 hS
        refine ⟨⟨hv, h0, .inl rfl⟩, ?_, hS.parent⟩
        unfold pay; rw [hS.amount]; simp [dueAmount]
    refine ⟨⟨fun ⟨x, hx⟩ => (fwd x hx).1, fun hd => ?_⟩, fun x hx => (fwd x hx).2⟩
    rw [eo]
    exact c26_void_succeeds_partial cfg H Q as ha r hr hs hne (by rw [due_open hd.standing]; exact hd.left) newId ref n1 n2 hid href
  | false =>
    simp only [hit, Bool.false_eq_true, if_false] at e
    have eo : o = (commitInflight cfg (acts cfg {} as) r.id it.amount newId ref n1 n2).2 := by rw [← e]
    have fwd : ∀ x, o = .ok (.posted [x]) → Due (acts cfg {} as) r false it.amount ∧
        pay x = dueAmount (acts cfg {} as) r false it.amount ∧ x.parent = r.id := by
      intro x hx
      rcases commit_grown (cfg := cfg) (newId := newId) (ref := ref) (n1 := n1) (n2 := n2) (amt := it.amount) hf.inv (hf.toHoldInv.remaining_nonneg (h := r.id)) with
        ⟨_, hn⟩ | ⟨row, y, p, hrow, hrid, _, hv, _, ho, _, hS, h0, hle, hp⟩
      · exact absurd (eo ▸ hx) (hn _)
      · have := hu hrow hrid; subst this
        rw [eo, ho] at hx
        cases hx
        rw [totalCommitted_eq] at hle hp
        have hpx : pay x = p := by unfold pay; rw [hS.amount]; rfl
        refine ⟨⟨hv, by omega, .inr ?_⟩, ?_, hS.parent⟩
        · rcases hp with ⟨ha0, _⟩ | hp <;> omega
        · rw [hpx]; unfold dueAmount
          rcases hp with ⟨ha0, hp⟩ | hp
          · rw [if_pos (.inr ha0)]; exact hp
          · split
            · rename_i h; rcases h with h | h
              · cases h
              · omega
            · exact hp
    refine ⟨⟨fun ⟨x, hx⟩ => (fwd x hx).1, fun hd => ?_⟩, fun x hx => (fwd x hx).2⟩
    rw [eo]
    have ho := due_open hd.standing
    rcases hd.asked with h | h
    · cases h
    · obtain ⟨x, hx, _⟩ := c26_commit_succeeds_partial cfg H Q as ha r hr hs hne it.amount h.1 (by rw [ho]; exact h.2) (by rw [ho]; exact hd.left)
        newId ref n1 n2 hid href
      exact ⟨x, hx⟩

theorem row_id {db : DB} {i : String} {b : Balance} (h : db.find i = some b) : b.id = i := by
  unfold DB.find at h
  simpa using List.find?_some h

/-- A plain account that is not asked for by an empty name. -/
theorem resolve_row {cfg : Cfg} {db : DB} {m : BSet} {i c : String} {b : Balance} (h0 : i ≠ "") (hp : isIndicator i = false) (hf : db.find i = some b)
    (hm : m.get i = none) : m.resolve cfg db i c = .ok (m.put i (db.view cfg b), db.view cfg b) := by
  unfold BSet.resolve lookup DB.load
  rw [hm]
  simp only
  rw [if_neg h0, hp]
  simp only [Bool.false_eq_true, if_false, hf]
  have := row_id hf
  subst this
  rfl

theorem shown_due {cfg : Cfg} {H Q : String → Prop} {db : DB} (hf : FundInv H Q db) {r : Txn} (hr : r ∈ db.txns)
    (hs : r.status = .inflight) (hne : r.source ≠ r.destination) (h1 : r.source ≠ "") (h2 : r.destination ≠ "")
    {void : Bool} {amt : Int} :
    (applies (previewClear cfg db r.id void amt) = true ↔ Due db r void amt) ∧
    (Due db r void amt → shownTotal (previewClear cfg db r.id void amt) = dueAmount db r void amt) := by
  have hg := getTxn_of_mem hf.inv hr
  cases hv : db.parentVoid r.id with
  | true =>
    have hfe : fetchInflight db r.id = .error .voided := by
      unfold fetchInflight; rw [hg]; simp [isInflightTxn, hs, hv]
    have hsh : previewClear cfg db r.id void amt = .ok ⟨false, 0, [], []⟩ := by
      unfold previewClear shownLegs; rw [hfe]; simp [expands]
    rw [hsh]
    refine ⟨⟨by simp [applies], fun h => ?_⟩, fun h => ?_⟩ <;> · have := h.standing; rw [hv] at this; cases this
  | false =>
    have hfe : fetchInflight db r.id = .ok (bare r) := by
      unfold fetchInflight; rw [hg]; simp [isInflightTxn, hs, hv, bare]
    have hrem : remaining db (bare r) = pay r - committed db r.id := rfl
    have hnn : 0 ≤ pay r - committed db r.id := by
      have := hf.bound r hr (.inl hs)
      have e := due_open hv
      unfold openAmount at e; omega
    have hcn : 0 ≤ committed db r.id := kidSum_nonneg hf.toHoldInv (st := .applied) (.inl rfl) (hf.known r hr (.inl hs))
    obtain ⟨s, d, fs, fd, c1, c2⟩ := hf.covers hr hs
    rw [due_open hv] at c1 c2
    have hacc := hf.accounts r hr hs
    have i1 := hf.plain _ hacc.1
    have i2 := hf.plain _ hacc.2
    have key : ∀ p, (if void then (if remaining db (bare r) = 0 then Except.error InfErr.alreadyCommitted else .ok (remaining db (bare r)))
        else settleAmount (bare r) amt (remaining db (bare r))) = .ok p →
        0 < p → p ≤ pay r - committed db r.id →
        applies (previewClear cfg db r.id void amt) = true ∧ shownTotal (previewClear cfg db r.id void amt) = p := by
      intro p hp h0 hle
      have hmove : ∃ m, clearLeg cfg db [] (bare r) void amt = .ok (m, .ok p) := by
        unfold clearLeg settlement
        rw [hp]
        simp only
        unfold moveOn
        simp only [bare]
        rw [resolve_row h1 i1 fs rfl]
        simp only
        rw [resolve_row h2 i2 fd (by simp [BSet.get, BSet.put, hne])]
        simp only
        have e1 : (db.view cfg s).id = r.source := (row_id fs : s.id = _)
        have e2 : (db.view cfg d).id = r.destination := (row_id fd : d.id = _)
        rw [e1, e2, if_neg hne]
        have l1 : ¬ (db.view cfg s).inflightDebit < p := by simp only [DB.view]; omega
        have l2 : ¬ (db.view cfg d).inflightCredit < p := by simp only [DB.view]; omega
        cases void with
        | true =>
          simp [applySource, applyDestination, Balance.rollbackInflightDebit, Balance.rollbackInflightCredit, l1, l2]
        | false =>
          have ap : ∀ t : Txn, t.preciseAmount = some p → t.applyPrecision.preciseAmount = some p := fun t ht => applyPrecision_pos ht h0
          simp [applySource, applyDestination, ap, Balance.commitInflightDebit, Balance.commitInflightCredit, l1, l2]
      obtain ⟨m, hm⟩ := hmove
      unfold previewClear shownLegs
      rw [hfe]
      simp [clearLegs, hm, applies, shownTotal, Hitch.of, cleared]
    have bad : ∀ e, (if void then (if remaining db (bare r) = 0 then Except.error InfErr.alreadyCommitted else .ok (remaining db (bare r)))
        else settleAmount (bare r) amt (remaining db (bare r))) = .error e →
        applies (previewClear cfg db r.id void amt) = false := by
      intro e he
      have : clearLeg cfg db [] (bare r) void amt = .ok ([], .error (.early e)) := by
        unfold clearLeg settlement; rw [he]
      unfold previewClear shownLegs
      rw [hfe]
      simp [clearLegs, this, applies, Hitch.of]
    have hpr : (bare r).preciseAmount.getD 0 = pay r := rfl
    by_cases hd : Due db r void amt
    · have hk := key (dueAmount db r void amt) (by
        unfold dueAmount
        have hl := hd.left
        rw [hrem]
        cases void with
        | true => simp; omega
        | false =>
          have ha : 0 ≤ amt ∧ amt ≤ pay r - committed db r.id := by
            rcases hd.asked with h | h
            · cases h
            · exact h
          simp only [Bool.false_eq_true, if_false, false_or]
          unfold settleAmount
          rw [hpr, if_neg (by omega), if_neg (by omega)]
          split
          · rfl
          · rw [if_neg (by omega), if_neg (by omega)])
        (by
          unfold dueAmount
          have hl := hd.left
          split
          · exact hl
          · rename_i h
            rcases hd.asked with h' | h'
            · exact absurd (.inl h') h
            · omega)
        (by
          unfold dueAmount
          split
          · exact Int.le_refl _
          · rename_i h
            rcases hd.asked with h' | h'
            · exact absurd (.inl h') h
            · omega)
      exact ⟨⟨fun _ => hd, fun _ => hk.1⟩, fun _ => hk.2⟩
    · refine ⟨⟨fun h => ?_, fun h => absurd h hd⟩, fun h => absurd h hd⟩
      exfalso
      have hb : ∃ e, (if void then (if remaining db (bare r) = 0 then Except.error InfErr.alreadyCommitted else .ok (remaining db (bare r)))
          else settleAmount (bare r) amt (remaining db (bare r))) = .error e := by
        rw [hrem]
        by_cases hz : pay r - committed db r.id = 0
        · cases void with
          | true => exact ⟨_, by rw [if_pos rfl, if_pos hz]⟩
          | false => exact ⟨.alreadyCommitted, by simp [settleAmount, hz]⟩
        · cases void with
          | true => exact absurd ⟨hv, by omega, .inl rfl⟩ hd
          | false =>
            have hna : ¬ (0 ≤ amt ∧ amt ≤ pay r - committed db r.id) := fun h => hd ⟨hv, by omega, .inr h⟩
            simp only [Bool.false_eq_true, if_false]
            unfold settleAmount
            rw [if_neg hz]
            by_cases hneg : amt < 0
            · exact ⟨_, by rw [if_pos hneg]⟩
            · rw [if_neg hneg, if_neg (by omega), hpr]
              by_cases ho : amt > pay r
              · exact ⟨_, by rw [if_pos ho]⟩
              · exact ⟨_, by rw [if_neg ho, if_pos (by omega)]⟩
      obtain ⟨e, he⟩ := hb
      rw [bad e he] at h; cases h

/-! ### The batch, in the pool and among other requests -/

/-- The ids the positive result speaks of: a hold between two different accounts, or a row that is no hold and
stands for none. -/
inductive Named (db : DB) (id : String) : Prop
  | hold (r : Txn) (hr : r ∈ db.txns) (hid : r.id = id) (hs : r.status = .inflight) (hne : r.source ≠ r.destination)
      (h1 : r.source ≠ "") (h2 : r.destination ≠ "")
  | other (r : Txn) (hr : r ∈ db.txns) (hid : r.id = id) (hn : isInflightTxn r = false) (hl : Atomic.inflightLegs db id = [])

/-- What other requests may do meanwhile: anything but settle a hold of the batch. -/
def meanwhile (cfg : Cfg) (H Q : String → Prop) (items : List BulkItem) (db db' : DB) : Prop :=
  ∃ a : Act, a.Respects H ∧ a.Direct Q ∧ (∀ it ∈ items, a.Spares it.txn) ∧ db' = act cfg db a

/-- The outcome is what was shown. -/
def AsShown (cfg : Cfg) (db0 : DB) (void : Bool) (it : BulkItem) (o : Except InfErr Outcome) : Prop :=
  ((∃ x, o = .ok (.posted [x])) ↔ applies (previewClear cfg db0 it.txn void it.amount) = true) ∧
  ∀ x, o = .ok (.posted [x]) → pay x = shownTotal (previewClear cfg db0 it.txn void it.amount) ∧ x.parent = it.txn

/-- What the dry run looked at is as it was. -/
def Untouched (db0 db : DB) (id : String) : Prop :=
  db.getTxn id = db0.getTxn id ∧
  (∀ r ∈ db0.txns, r.id = id → r.Holds → committed db id = committed db0 id ∧ db.parentVoid id = db0.parentVoid id)

theorem getTxn_prefix {db db' : DB} {new : List Txn} {r : Txn} (hi : Inv db) (hi' : Inv db') (h : db'.txns = db.txns ++ new)
    (hr : r ∈ db.txns) : db'.getTxn r.id = db.getTxn r.id := by
  rw [getTxn_of_mem hi hr, getTxn_of_mem hi' (by rw [h]; exact List.mem_append_left _ hr)]

theorem untouched_act {cfg : Cfg} {H : String → Prop} {db0 db : DB} {a : Act} {id : String} (hk : HoldInv H db) (hr : a.Respects H)
    (hs : a.Spares id) (hsub : ∀ r ∈ db0.txns, r ∈ db.txns) (hn : ∃ r ∈ db0.txns, r.id = id) (h : Untouched db0 db id) :
    Untouched db0 (act cfg db a) id := by
  obtain ⟨new, e⟩ := act_prefix (cfg := cfg) hk hr
  obtain ⟨r, hr0, hid⟩ := hn
  subst hid
  refine ⟨?_, ?_⟩
  · rw [← h.1]
    exact getTxn_prefix hk.inv (act_holdInv (cfg := cfg) hk hr).inv e (hsub r hr0)
  · intro r' hr' hid' hh
    obtain ⟨_, e2, e3⟩ := act_spares (cfg := cfg) hk hr hs (hsub r' hr') hid' hh
    obtain ⟨f2, f3⟩ := h.2 r' hr' hid' hh
    exact ⟨e2.trans f2, e3.trans f3⟩

/-- The call for an item whose hold is as the dry run saw it ends as shown. -/
theorem call_shown {cfg : Cfg} {H Q : String → Prop} {as0 as : List Act} (h0 : ∀ a ∈ as0, a.Respects H ∧ a.Direct Q)
    (ha : ∀ a ∈ as, a.Respects H ∧ a.Direct Q) {db0 db : DB} (e0 : db0 = acts cfg {} as0) (e : db = acts cfg {} as)
    (hsub : ∀ r ∈ db0.txns, r ∈ db.txns) {it : BulkItem} (hn : Named db0 it.txn) (hu : Untouched db0 db it.txn)
    {i : Nat} {void : Bool} {db' : DB} {o : Except InfErr Outcome} (hc : bulkCall cfg void i it db db' o) :
    AsShown cfg db0 void it o := by
  have hf0 : FundInv H Q db0 := e0 ▸ acts_fundInv (cfg := cfg) (init_fundInv H Q) h0
  cases hn with
  | hold r hr hid hs hne h1 h2 =>
    have hreal := real_due (cfg := cfg) ha e (hsub r hr) hs hne hid.symm hc
    obtain ⟨s1, s2⟩ := shown_due (cfg := cfg) hf0 hr hs hne h1 h2 (void := void) (amt := it.amount)
    obtain ⟨k1, k2⟩ := hu.2 r hr hid (.inl hs)
    rw [← hid] at k1 k2
    have hdue : Due db r void it.amount ↔ Due db0 r void it.amount := by
      constructor
      · rintro ⟨a, b, c⟩; exact ⟨k2 ▸ a, k1 ▸ b, k1 ▸ c⟩
      · rintro ⟨a, b, c⟩; exact ⟨k2 ▸ a, by rw [k1]; exact b, by rw [k1]; exact c⟩
    have hamt : dueAmount db r void it.amount = dueAmount db0 r void it.amount := by unfold dueAmount; rw [k1]
    unfold AsShown
    rw [← hid]
    refine ⟨hreal.1.trans (hdue.trans s1.symm), fun x hx => ?_⟩
    have hd := hdue.1 (hreal.1.1 ⟨x, hx⟩)
    exact ⟨by rw [(hreal.2 x hx).1, hamt, s2 hd], (hreal.2 x hx).2⟩
  | other r hr hid hn hl =>
    have hg := getTxn_of_mem hf0.inv hr
    rw [hid] at hg
    have hfe : ∀ d : DB, d.getTxn it.txn = db0.getTxn it.txn → fetchInflight d it.txn = .error .notInflight := by
      intro d hd
      unfold fetchInflight
      rw [hd, hg]
      exact if_neg (show ¬ isInflightTxn r = true by rw [hn]; simp)
    have hsh : previewClear cfg db0 it.txn void it.amount = .ok ⟨false, 0, [], []⟩ := by
      unfold previewClear shownLegs
      rw [hfe db0 rfl]
      simp [expands, hl]
    have ho : o = .error .notInflight := by
      obtain ⟨newId, ref, n1, n2, _, _, _, _, ee⟩ := hc
      cases void with
      | true =>
        simp only [if_true] at ee
        have : o = (voidInflight cfg db it.txn newId ref n1 n2).2 := by rw [← ee]
        rw [this]; unfold voidInflight; rw [hfe db hu.1]
      | false =>
        simp only [Bool.false_eq_true, if_false] at ee
        have : o = (commitInflight cfg db it.txn it.amount newId ref n1 n2).2 := by rw [← ee]
        rw [this]; unfold commitInflight; rw [hfe db hu.1]
    unfold AsShown
    rw [hsh, ho]
    simp [applies]

/-- The call is an act of the ledger. -/
theorem call_act {cfg : Cfg} {Q H : String → Prop} {i : Nat} {it : BulkItem} {void : Bool} {db db' : DB} {o : Except InfErr Outcome}
    (hq : ¬ Q it.txn) (hc : bulkCall cfg void i it db db' o) :
    ∃ a : Act, a.Respects H ∧ a.Direct Q ∧ (∀ h, it.txn ≠ h → a.Spares h) ∧ db' = act cfg db a := by
  obtain ⟨newId, ref, n1, n2, _, _, j1, j2, e⟩ := hc
  cases void with
  | true =>
    simp only [if_true] at e
    exact ⟨.void it.txn newId ref n1 n2, trivial, ⟨hq, j1, j2⟩, fun h hh => hh, by simp only [act]; rw [← e]⟩
  | false =>
    simp only [Bool.false_eq_true, if_false] at e
    exact ⟨.commit it.txn it.amount newId ref n1 n2, trivial, ⟨hq, j1, j2⟩, fun h hh => hh, by simp only [act]; rw [← e]⟩

/-- Invariant of the pool at work after the dry run. -/
structure Foretold (cfg : Cfg) (H Q : String → Prop) (db0 : DB) (void : Bool) (items : List BulkItem)
    (s : Bulk.St DB BulkItem (Except InfErr Outcome)) : Prop where
  came : ∃ as, (∀ a ∈ as, a.Respects H ∧ a.Direct Q) ∧ s.shared = acts cfg {} as
  sub : ∀ r ∈ db0.txns, r ∈ s.shared.txns
  open_ : ∀ (i : Nat) (it : BulkItem), items[i]? = some it → (s.log.map (·.idx)).count i = 0 → Untouched db0 s.shared it.txn
  done : ∀ e ∈ s.log, AsShown cfg db0 void e.item e.out

theorem foretold_act {cfg : Cfg} {H Q : String → Prop} {db0 : DB} {s : Bulk.St DB BulkItem (Except InfErr Outcome)}
    {a : Act} (hr : a.Respects H) (hd : a.Direct Q)
    (came : ∃ as, (∀ a ∈ as, a.Respects H ∧ a.Direct Q) ∧ s.shared = acts cfg {} as)
    (sub : ∀ r ∈ db0.txns, r ∈ s.shared.txns) :
    (∃ as, (∀ a ∈ as, a.Respects H ∧ a.Direct Q) ∧ act cfg s.shared a = acts cfg {} as) ∧
    (∀ r ∈ db0.txns, r ∈ (act cfg s.shared a).txns) ∧ HoldInv H s.shared := by
  obtain ⟨as, h1, h2⟩ := came
  have hf : FundInv H Q s.shared := h2 ▸ acts_fundInv (cfg := cfg) (init_fundInv H Q) h1
  obtain ⟨new, e⟩ := act_prefix (cfg := cfg) hf.toHoldInv hr
  refine ⟨⟨as ++ [a], ?_, by rw [acts_append, ← h2]; rfl⟩, fun r h => by rw [e]; exact List.mem_append_left _ (sub r h), hf.toHoldInv⟩
  intro b hb
  rcases List.mem_append.1 hb with hb | hb
  · exact h1 b hb
  · simp only [List.mem_singleton] at hb; subst hb; exact ⟨hr, hd⟩

theorem run_foretold {cfg : Cfg} {H Q : String → Prop} {as0 : List Act} (h0 : ∀ a ∈ as0, a.Respects H ∧ a.Direct Q)
    {db0 : DB} (e0 : db0 = acts cfg {} as0) {void : Bool} {items : List BulkItem} (hnd : (items.map (·.txn)).Nodup)
    (hnm : ∀ it ∈ items, Named db0 it.txn ∧ ¬ Q it.txn) {m : Int} {k : Nat} {s : Bulk.St DB BulkItem (Except InfErr Outcome)}
    (h : Bulk.Run (bulkCall cfg void) (meanwhile cfg H Q items) (Bulk.start items m db0) k s) :
    Foretold cfg H Q db0 void items s := by
  have row : ∀ it ∈ items, ∃ r ∈ db0.txns, r.id = it.txn := by
    intro it hi
    cases (hnm it hi).1 with
    | hold r hr hid => exact ⟨r, hr, hid⟩
    | other r hr hid => exact ⟨r, hr, hid⟩
  induction h with
  | refl =>
    refine ⟨⟨as0, h0, e0⟩, fun r hr => hr, fun i it _ _ => ⟨rfl, fun r _ _ _ => ⟨rfl, rfl⟩⟩, ?_⟩
    intro e he; simp [Bulk.start] at he
  | @env k s x h he ih =>
    obtain ⟨a, hr, hd, hsp, rfl⟩ := he
    obtain ⟨c, sb, hk⟩ := foretold_act (cfg := cfg) hr hd ih.came ih.sub
    refine ⟨c, sb, ?_, ih.done⟩
    intro i it hi hl
    have hm := List.mem_of_getElem? hi
    exact untouched_act hk hr (hsp it hm) ih.sub (row it hm) (ih.open_ i it hi hl)
  | @work k s s' h hs ih =>
    have hp := Bulk.run_inv h
    cases hs with
    | take hq hw => exact ⟨ih.came, ih.sub, ih.open_, ih.done⟩
    | write hw => exact ⟨ih.came, ih.sub, ih.open_, ih.done⟩
    | exit hq hw => exact ⟨ih.came, ih.sub, ih.open_, ih.done⟩
    | @call i it pre post x o hw hc =>
      have hi := hp.busyItem i it (by rw [hw]; simp)
      have hm := List.mem_of_getElem? hi
      have hil : i < items.length := by obtain ⟨h, _⟩ := List.getElem?_eq_some_iff.1 hi; exact h
      have hz : (s.log.map (·.idx)).count i = 0 := by
        have h1 := hp.place i
        have h2 := hp.logged i
        simp only [hw, List.flatMap_append, List.flatMap_cons, List.count_append, Bulk.Worker.busyIdx, Bulk.Worker.gotIdx,
          List.count_cons, List.count_nil, if_pos hil, beq_self_eq_true, if_true] at h1 h2
        omega
      have hu := ih.open_ i it hi hz
      obtain ⟨as, ha, hsh⟩ := ih.came
      have hshow := call_shown (cfg := cfg) h0 ha e0 hsh ih.sub (hnm it hm).1 hu hc
      obtain ⟨a, hr, hd, hsp, rfl⟩ := call_act (H := H) (hnm it hm).2 hc
      obtain ⟨c, sb, hk⟩ := foretold_act (cfg := cfg) hr hd ih.came ih.sub
      refine ⟨c, sb, ?_, ?_⟩
      · intro j jt hj hl
        simp only [List.map_cons, List.count_cons] at hl
        have hij : j ≠ i := by
          intro hji; subst hji; simp at hl
        have hjm := List.mem_of_getElem? hj
        have hne : it.txn ≠ jt.txn := by
          intro he
          obtain ⟨hjl, ej⟩ := List.getElem?_eq_some_iff.1 hj
          obtain ⟨_, ei⟩ := List.getElem?_eq_some_iff.1 hi
          have hpw := List.pairwise_iff_getElem.1 hnd
          rcases Nat.lt_or_gt_of_ne hij with hlt | hlt
          · exact hpw j i (by simpa using hjl) (by simpa using hil) hlt (by simp [ej, ei, he])
          · exact hpw i j (by simpa using hil) (by simpa using hjl) hlt (by simp [ej, ei, he])
        exact untouched_act hk hr (hsp jt.txn hne) ih.sub (row jt hjm) (ih.open_ j jt hj (by omega))
      · intro e he
        rcases List.mem_cons.1 he with rfl | he
        · exact hshow
        · exact ih.done e he

/-- **C188, proved part.** A batch of different ids — holds between two accounts, or rows that stand for no hold —
is projected and then run: by any number of workers, in any schedule, while other requests do anything but settle
the same holds. Every item is settled exactly if the dry run said so, and moves the amount it showed. -/
theorem c188_distinct_partial {cfg : Cfg} {H Q : String → Prop} {as : List Act} (ha : ∀ a ∈ as, a.Respects H ∧ a.Direct Q)
    {void : Bool} {items : List BulkItem} (hne : items ≠ []) (hnd : (items.map (·.txn)).Nodup)
    (hnm : ∀ it ∈ items, Named (acts cfg {} as) it.txn ∧ ¬ Q it.txn) {m : Int} {k : Nat}
    {s : Bulk.St DB BulkItem (Except InfErr Outcome)}
    (h : Bulk.Run (bulkCall cfg void) (meanwhile cfg H Q items) (Bulk.start items m (acts cfg {} as)) k s) (hf : s.finished)
    {i : Nat} {it : BulkItem} (hi : items[i]? = some it) :
    ∃ o p, s.results[i]? = some (some (it, o)) ∧ (previewMany cfg (acts cfg {} as) void items).results[i]? = some p ∧
      ((∃ x, o = .ok (.posted [x])) ↔ applies p = true) ∧
      ∀ x, o = .ok (.posted [x]) → pay x = shownTotal p ∧ x.parent = it.txn := by
  have ht := run_foretold ha rfl hnd hnm h
  obtain ⟨e, he, hit, _, hres⟩ := (Bulk.c27_one_result_per_item_in_order items hne m _ k s h hf).2 i it hi
  have hel : e ∈ s.log := (List.mem_filter.1 (by rw [he]; simp : e ∈ s.log.filter (fun e => e.idx == i))).1
  have hd := ht.done e hel
  rw [hit] at hd
  exact ⟨e.out, _, hres, by simp [previewMany, hi], hd⟩

/-- **C188, proved part.** Then `would_apply` of the batch says that every item is settled. -/
theorem c188_batch_partial {cfg : Cfg} {H Q : String → Prop} {as : List Act} (ha : ∀ a ∈ as, a.Respects H ∧ a.Direct Q)
    {void : Bool} {items : List BulkItem} (hne : items ≠ []) (hnd : (items.map (·.txn)).Nodup)
    (hnm : ∀ it ∈ items, Named (acts cfg {} as) it.txn ∧ ¬ Q it.txn) {m : Int} {k : Nat}
    {s : Bulk.St DB BulkItem (Except InfErr Outcome)}
    (h : Bulk.Run (bulkCall cfg void) (meanwhile cfg H Q items) (Bulk.start items m (acts cfg {} as)) k s) (hf : s.finished) :
    (previewMany cfg (acts cfg {} as) void items).wouldApply = true ↔
      ∀ r ∈ s.results, ∃ it x, r = some (it, .ok (.posted [x])) := by
  have hlen := (Bulk.c27_one_result_per_item_in_order items hne m _ k s h hf).1
  have key := fun {i : Nat} {it : BulkItem} (hi : items[i]? = some it) => c188_distinct_partial ha hne hnd hnm h hf hi
  have e : (previewMany cfg (acts cfg {} as) void items).wouldApply = (previewMany cfg (acts cfg {} as) void items).results.all applies := rfl
  have er : (previewMany cfg (acts cfg {} as) void items).results.length = items.length := by simp [previewMany]
  rw [e, List.all_eq_true]
  constructor
  · intro hall r hr
    obtain ⟨i, hil, rfl⟩ := List.getElem_of_mem hr
    obtain ⟨o, p, h1, h2, h3, _⟩ := key (List.getElem?_eq_getElem (by omega : i < items.length))
    obtain ⟨x, hx⟩ := h3.2 (hall p (List.mem_of_getElem? h2))
    rw [List.getElem?_eq_getElem hil, Option.some.injEq] at h1
    exact ⟨_, x, by rw [h1, hx]⟩
  · intro hall p hp
    obtain ⟨i, hil, rfl⟩ := List.getElem_of_mem hp
    obtain ⟨o, p, h1, h2, h3, _⟩ := key (List.getElem?_eq_getElem (by omega : i < items.length))
    obtain ⟨it, x, hx⟩ := hall _ (List.mem_of_getElem? h1)
    rw [Option.some.injEq, Prod.mk.injEq] at hx
    rw [List.getElem?_eq_getElem hil, Option.some.injEq] at h2
    rw [h2]
    exact h3.1 ⟨x, hx.2⟩

/-! ### The note on repeated ids -/

theorem mem_dupes {seen : List String} {items : List BulkItem} {s : String} :
    s ∈ dupes seen items ↔ (if s ∈ seen then 1 else 2) ≤ (items.map (·.txn)).count s := by
  induction items generalizing seen with
  | nil => simp only [dupes, List.map_nil, List.count_nil, List.not_mem_nil, false_iff]; split <;> omega
  | cons it its ih =>
    unfold dupes
    simp only [List.map_cons, List.count_cons, beq_iff_eq]
    by_cases h1 : it.txn ∈ seen
    · rw [if_pos h1, List.mem_cons, ih]
      by_cases h2 : it.txn = s
      · subst h2; simp [h1]
      · simp [h2, Ne.symm h2]
    · rw [if_neg h1, ih]
      by_cases h2 : it.txn = s
      · subst h2; simp [h1]
      · simp [h2, Ne.symm h2]

theorem mem_uniqueIds {seen l : List String} {s : String} : s ∈ uniqueIds seen l ↔ s ∈ l ∧ s ∉ seen := by
  induction l generalizing seen with
  | nil => simp [uniqueIds]
  | cons a l ih =>
    unfold uniqueIds
    by_cases h : a ∈ seen
    · rw [if_pos h, ih, List.mem_cons]
      constructor
      · rintro ⟨h1, h2⟩; exact ⟨.inr h1, h2⟩
      · rintro ⟨h1 | h1, h2⟩
        · subst h1; exact absurd h h2
        · exact ⟨h1, h2⟩
    · rw [if_neg h]
      simp only [List.mem_cons, ih]
      constructor
      · rintro (h1 | ⟨h1, h2⟩)
        · subst h1; exact ⟨.inl rfl, h⟩
        · exact ⟨.inr h1, fun h3 => h2 (.inr h3)⟩
      · rintro ⟨h1, h2⟩
        by_cases h3 : s = a
        · exact .inl h3
        · rcases h1 with h1 | h1
          · exact absurd h1 h3
          · exact .inr ⟨h1, by simp [h3, h2]⟩

/-- **C188.** The note names exactly the ids that occur more than once. -/
theorem c188_note {cfg : Cfg} {db : DB} {void : Bool} {items : List BulkItem} {s : String} :
    s ∈ (previewMany cfg db void items).repeated ↔ 2 ≤ (items.map (·.txn)).count s := by
  simp [previewMany, mem_uniqueIds, mem_dupes]

/-! ### Where the full claims fail -/

/-- C188 without the restrictions on the ids: what the dry run says of an item is what happens to it, with nobody
else at work. -/
def C188Full : Prop := ∀ (as : List Act) (H Q : String → Prop) (void : Bool) (items : List BulkItem) (m : Int) (k : Nat)
  (s : Bulk.St DB BulkItem (Except InfErr Outcome)), (∀ a ∈ as, a.Respects H ∧ a.Direct Q) →
  Bulk.Run (bulkCall {} void) (fun _ _ => False) (Bulk.start items m (acts {} {} as)) k s → s.finished →
  ∀ (i : Nat) (it : BulkItem) (o : Except InfErr Outcome), s.results[i]? = some (some (it, o)) → AsShown {} (acts {} {} as) void it o

/-- What the note says: of the occurrences of an id it names only one can succeed. -/
def C188Note : Prop := ∀ (as : List Act) (H Q : String → Prop) (void : Bool) (items : List BulkItem) (m : Int) (k : Nat)
  (s : Bulk.St DB BulkItem (Except InfErr Outcome)), (∀ a ∈ as, a.Respects H ∧ a.Direct Q) →
  Bulk.Run (bulkCall {} void) (fun _ _ => False) (Bulk.start items m (acts {} {} as)) k s → s.finished →
  ∀ id ∈ (previewMany {} (acts {} {} as) void items).repeated, ∀ (i j : Nat) (a b : Int) (x y : Txn),
    s.results[i]? = some (some (⟨id, a⟩, .ok (.posted [x]))) → s.results[j]? = some (some (⟨id, b⟩, .ok (.posted [y]))) → i = j

/-- One worker takes the items in order. -/
theorem run_two {σ ι ω : Type} {call : Nat → ι → σ → σ → ω → Prop} {env : σ → σ → Prop} {a b : ι} {x y z : σ} {o p : ω}
    (h1 : call 0 a x y o) (h2 : call 1 b y z p) :
    ∃ k s, Bulk.Run call env (Bulk.start [a, b] 1 x) k s ∧ s.finished ∧ s.results = [some (a, o), some (b, p)] := by
  have r0 : Bulk.Run call env (Bulk.start [a, b] 1 x : Bulk.St σ ι ω) 0 _ := .refl
  have r1 := r0.work (.take (i := 0) (it := a) (q := [(1, b)]) (pre := []) (post := []) rfl rfl)
  have r2 := r1.work (.call (pre := []) (post := []) rfl h1)
  have r3 := r2.work (.write (pre := []) (post := []) rfl)
  have r4 := r3.work (.take (i := 1) (it := b) (q := []) (pre := []) (post := []) rfl rfl)
  have r5 := r4.work (.call (pre := []) (post := []) rfl h2)
  have r6 := r5.work (.write (pre := []) (post := []) rfl)
  have r7 := r6.work (.exit (pre := []) (post := []) rfl rfl)
  exact ⟨_, _, r7, by simp [Bulk.St.finished], rfl⟩

/-- The call with given new names. -/
theorem call_commit {it : BulkItem} {i : Nat} {db : DB} {newId ref : String} (h1 : db.hasTxnId newId = false) (h2 : db.hasRef ref = false) :
    bulkCall {} false i it db (commitInflight {} db it.txn it.amount newId ref "x" "y").1
      (commitInflight {} db it.txn it.amount newId ref "x" "y").2 :=
  ⟨newId, ref, "x", "y", h1, h2, by decide +kernel, by decide +kernel, rfl⟩

/-- A hold of 100. -/
def oneHold : List Act := holdHistory.take 3

theorem oneHold_ok : ∀ a ∈ oneHold, a.Respects exampleHolds ∧ a.Direct (fun _ => False) :=
  fun a ha => holdHistory_ok a (List.mem_of_mem_take ha)

/-- The ledger after a first commit of `amt`. -/
def afterOne (amt : Int) : DB := (commitInflight {} (acts {} {} oneHold) "h1" amt "c1" "s1" "x" "y").1

/-- **C188, the full claim fails for an id given twice.** Two commits of 60 of a hold of 100 are both shown to
apply, and the batch with them; the second is refused. -/
theorem c188_full_fails : ¬ C188Full := by
  intro h
  have c1 : bulkCall {} false 0 ⟨"h1", 60⟩ (acts {} {} oneHold) (afterOne 60) _ :=
    call_commit (it := ⟨"h1", 60⟩) (newId := "c1") (ref := "s1") (by decide +kernel) (by decide +kernel)
  have c2 := call_commit (it := ⟨"h1", 60⟩) (i := 1) (db := afterOne 60) (newId := "c2") (ref := "s2") (by decide +kernel) (by decide +kernel)
  obtain ⟨k, s, hr, hf, hres⟩ := run_two (env := fun _ _ => False) c1 c2
  have := h oneHold exampleHolds (fun _ => False) false [⟨"h1", 60⟩, ⟨"h1", 60⟩] 1 k s oneHold_ok hr hf 1 ⟨"h1", 60⟩ _ (by rw [hres]; rfl)
  obtain ⟨x, hx⟩ := this.1.2 (by decide +kernel)
  have hb : (match (commitInflight {} (afterOne 60) "h1" 60 "c2" "s2" "x" "y").2 with
    | .ok _ => false
    | .error _ => true) = true := by decide +kernel
  have hx' : (commitInflight {} (afterOne 60) "h1" 60 "c2" "s2" "x" "y").2 = .ok (.posted [x]) := hx
  rw [hx'] at hb
  cases hb

/-- **C188, the note is wrong.** Two commits of 30 of a hold of 100 in one batch both succeed. -/
theorem c188_note_fails : ¬ C188Note := by
  intro h
  have c1 : bulkCall {} false 0 ⟨"h1", 30⟩ (acts {} {} oneHold) (afterOne 30) _ :=
    call_commit (it := ⟨"h1", 30⟩) (newId := "c1") (ref := "s1") (by decide +kernel) (by decide +kernel)
  have c2 := call_commit (it := ⟨"h1", 30⟩) (i := 1) (db := afterOne 30) (newId := "c2") (ref := "s2") (by decide +kernel) (by decide +kernel)
  have ex : ∀ {r : Except InfErr Outcome}, (match r with
    | .ok (.posted [_]) => true
    | _ => false) = true → ∃ x, r = .ok (.posted [x]) := by
    intro r hr
    split at hr
    · exact ⟨_, rfl⟩
    · cases hr
  obtain ⟨x, hx⟩ := ex (r := (commitInflight {} (acts {} {} oneHold) "h1" 30 "c1" "s1" "x" "y").2) (by decide +kernel)
  obtain ⟨y, hy⟩ := ex (r := (commitInflight {} (afterOne 30) "h1" 30 "c2" "s2" "x" "y").2) (by decide +kernel)
  obtain ⟨k, s, hr, hf, hres⟩ := run_two (env := fun _ _ => False) c1 c2
  have := h oneHold exampleHolds (fun _ => False) false [⟨"h1", 30⟩, ⟨"h1", 30⟩] 1 k s oneHold_ok hr hf "h1" (by decide +kernel) 0 1 30 30 x y
    (by rw [hres, ← hx]; rfl) (by rw [hres, ← hy]; rfl)
  cases this

/-- **C188 fails for the id of a batch.** The dry run projects the two holds under it and says they would be
committed; the batch knows no transaction of that id and settles nothing. -/
theorem c188_parent_fails :
    (previewMany {} (acts {} {} batchHolds) false [⟨"b1", 0⟩]).wouldApply = true ∧
    (previewMany {} (acts {} {} batchHolds) false [⟨"b1", 0⟩]).results.map shownTotal = [200] ∧
    ∀ (i : Nat) (db' : DB) (o : Except InfErr Outcome), bulkCall {} false i ⟨"b1", 0⟩ (acts {} {} batchHolds) db' o →
      o = .error .notFound ∧ db' = acts {} {} batchHolds := by
  refine ⟨by decide +kernel, by decide +kernel, ?_⟩
  intro i db' o hc
  obtain ⟨newId, ref, n1, n2, _, _, _, _, e⟩ := hc
  have hfe : fetchInflight (acts {} {} batchHolds) "b1" = .error .notFound := by decide +kernel
  simp only [Bool.false_eq_true, if_false, commitInflight, hfe] at e
  exact ⟨(Prod.mk.inj e).2, (Prod.mk.inj e).1⟩

/-- **C188.** An id nothing on the ledger carries: the batch is not said to apply, and its item is refused as not
found. -/
theorem c188_unknown (cfg : Cfg) (db : DB) (void : Bool) (items : List BulkItem) (it : BulkItem) (hit : it ∈ items)
    (hn : ∀ r ∈ db.txns, r.id ≠ it.txn ∧ r.parent ≠ it.txn ∧ r.metaQueuedParent ≠ it.txn) :
    (previewMany cfg db void items).wouldApply = false ∧
    ∀ (i : Nat) (db' : DB) (o : Except InfErr Outcome), bulkCall cfg void i it db db' o → o = .error .notFound ∧ db' = db := by
  have hg : db.getTxn it.txn = none := by
    cases h : db.getTxn it.txn with
    | none => rfl
    | some t =>
      unfold DB.getTxn at h
      cases hf : db.txns.find? (fun t => t.id = it.txn) with
      | none => simp [hf] at h
      | some x =>
        have := List.mem_of_find?_eq_some hf
        exact absurd (by simpa using List.find?_some hf) (hn x this).1
  have hfe : fetchInflight db it.txn = .error .notFound := by unfold fetchInflight; rw [hg]
  have hl : Atomic.inflightLegs db it.txn = [] := by
    have h1 : db.txns.filter (fun t => (t.id = it.txn || t.parent = it.txn || t.metaQueuedParent = it.txn) && t.status = .inflight) = [] := by
      rw [List.filter_eq_nil_iff]
      intro t ht
      obtain ⟨a, b, c⟩ := hn t ht
      simp [a, b, c]
    have h2 : ∀ p : Txn → Bool, db.txns.filter (fun t => (t.id = it.txn || t.parent = it.txn) && p t) = [] := by
      intro p
      rw [List.filter_eq_nil_iff]
      intro t ht
      obtain ⟨a, b, c⟩ := hn t ht
      simp [a, b]
    unfold Atomic.inflightLegs
    simp only [h1, if_true, List.reverse_eq_nil_iff]
    simpa only [Bool.and_assoc] using h2 _
  refine ⟨?_, ?_⟩
  · have hp : previewClear cfg db it.txn void it.amount = .error (.inl .notFound) := by
      unfold previewClear shownLegs
      rw [hfe]
      simp [expands, hl]
    have hx : applies (previewClear cfg db it.txn void it.amount) = false := by rw [hp]; rfl
    simp only [previewMany]
    rw [List.all_eq_false]
    exact ⟨_, List.mem_map.2 ⟨it, hit, rfl⟩, by simp [hx]⟩
  · intro i db' o hc
    obtain ⟨newId, ref, n1, n2, _, _, _, _, e⟩ := hc
    cases void <;> simp only [Bool.false_eq_true, if_false, if_true, commitInflight, voidInflight, hfe] at e <;>
      exact ⟨(Prod.mk.inj e).2, (Prod.mk.inj e).1⟩

/-! ### Concrete cases -/

-- an id that is not known, among one that is
example : (∀ r ∈ (acts {} {} oneHold).txns, r.id ≠ "zz" ∧ r.parent ≠ "zz" ∧ r.metaQueuedParent ≠ "zz") ∧
    (previewMany {} (acts {} {} oneHold) true [⟨"h1", 0⟩, ⟨"zz", 0⟩]).results.map applies = [true, false] := by decide +kernel

/-- The two holds of 100 of the running example, and a payment of which nothing can be settled. -/
def threeRows : List Act := holdHistory.take 4 ++
  [.base (.post { id := "d1", reference := "rd", source := "a", destination := "b", preciseAmount := some 5, amount := 5,
                  precision := 1, status := .queued, allowOverdraft := true } "x" "y")]

example : ∀ a ∈ threeRows, a.Respects exampleHolds ∧ a.Direct (fun _ => False) := by
  intro a ha
  simp only [threeRows, List.mem_append, List.mem_singleton] at ha
  rcases ha with ha | rfl
  · exact holdHistory_ok a (List.mem_of_mem_take ha)
  · simp [Act.Respects, Act.Direct, Op.Ordinary, Op.posts, Op.gens, Txn.Live, Txn.Plain, exampleHolds]
    decide +kernel

example : Named (acts {} {} threeRows) "h1" := by
  have : ∃ r ∈ (acts {} {} threeRows).txns, r.id = "h1" ∧ r.status = .inflight ∧ r.source ≠ r.destination ∧ r.source ≠ "" ∧ r.destination ≠ "" := by
    decide +kernel
  obtain ⟨r, h1, h2, h3, h4, h5, h6⟩ := this
  exact .hold r h1 h2 h3 h4 h5 h6

example : Named (acts {} {} threeRows) "d1" := by
  have : ∃ r ∈ (acts {} {} threeRows).txns, r.id = "d1" ∧ isInflightTxn r = false ∧ Atomic.inflightLegs (acts {} {} threeRows) "d1" = [] := by
    decide +kernel
  obtain ⟨r, h1, h2, h3, h4⟩ := this
  exact .other r h1 h2 h3 h4

-- 60 of the one, too much of the other, and the payment
example : (previewMany {} (acts {} {} threeRows) false [⟨"h1", 60⟩, ⟨"h2", 101⟩, ⟨"d1", 0⟩]).results.map (fun p => (applies p, shownTotal p)) =
    [(true, 60), (false, 0), (false, 0)] ∧
    (previewMany {} (acts {} {} threeRows) false [⟨"h1", 60⟩, ⟨"h2", 100⟩]).wouldApply = true ∧
    (previewMany {} (acts {} {} threeRows) false [⟨"h1", 60⟩, ⟨"h2", 100⟩, ⟨"h1", 1⟩, ⟨"h1", 2⟩]).repeated = ["h1"] := by decide +kernel

end Blnk.Undo
