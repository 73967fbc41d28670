import Verif.Props.Inflight
import Verif.Model.InflightQueue
/-
C25: queued commits and voids.
-/
namespace Blnk

theorem committed_mono {cfg : Cfg} {H : String → Prop} {db : DB} {bs : List Act} (hk : HoldInv H db)
    (hr : ∀ a ∈ bs, a.Respects H) {h : String} (hH : H h) {st : Status} (hst : st = .applied ∨ st = .void) :
    kidSum st db h ≤ kidSum st (acts cfg db bs) h := by
  obtain ⟨new, e⟩ := acts_prefix (cfg := cfg) hk hr
  have hk' := acts_holdInv (cfg := cfg) hk hr
  have := kidSum_append (st := st) e h
  have nn : 0 ≤ ((new.filter (fun t => t.parent = h && t.status = st)).map pay).sum := by
    apply sum_nonneg
    intro y hy
    obtain ⟨c, hc', rfl⟩ := List.mem_map.1 hy
    rw [List.mem_filter] at hc'
    simp only [Bool.and_eq_true, decide_eq_true_eq] at hc'
    have := (hk'.kids c (by rw [e]; exact List.mem_append_right _ hc'.1) (hc'.2.2 ▸ hst) (by rw [hc'.2.1]; exact hH)).1
    omega
  omega

/-- What became of one leg of a queued action, read off the stored rows. -/
inductive LegDone (q : QAction) (c : LegCall) (db : DB) : Prop
  /-- a settlement with the action's reference is stored -/
  | settled (x : Txn) (hx : x ∈ db.txns) (hr : x.reference = q.ref c)
  /-- nothing is left of the hold -/
  | closed (r : Txn) (hr : r ∈ db.txns) (hid : r.id = c.leg) (hh : r.Holds) (hc : committed db c.leg + released db c.leg = pay r)
  /-- the requested amount is more than what is left -/
  | tooMuch (r : Txn) (hr : r ∈ db.txns) (hid : r.id = c.leg) (hh : r.Holds) (hv : q.void = false)
      (hc : pay r - committed db c.leg < q.amount)
  /-- the row is not a hold -/
  | noHold (r : Txn) (hr : r ∈ db.txns) (hid : r.id = c.leg) (hh : ¬ r.Holds)

theorem LegDone.later {cfg : Cfg} {H : String → Prop} {q : QAction} {c : LegCall} {db : DB} {bs : List Act}
    (hk : HoldInv H db) (hr : ∀ a ∈ bs, a.Respects H) (h : LegDone q c db) : LegDone q c (acts cfg db bs) := by
  obtain ⟨new, e⟩ := acts_prefix (cfg := cfg) hk hr
  have keep : ∀ {r}, r ∈ db.txns → r ∈ (acts cfg db bs).txns := fun hr => by rw [e]; exact List.mem_append_left _ hr
  have hk' := acts_holdInv (cfg := cfg) hk hr
  cases h with
  | settled x hx h => exact .settled x (keep hx) h
  | closed r hr' hid hh hc =>
    have hH : H c.leg := hid ▸ hk.known r hr' hh
    have m1 := committed_mono (cfg := cfg) hk hr hH (st := .applied) (.inl rfl)
    have m2 := committed_mono (cfg := cfg) hk hr hH (st := .void) (.inr rfl)
    have hb := hk'.bound r (keep hr') hh
    rw [hid] at hb
    refine .closed r (keep hr') hid hh ?_
    unfold committed released at *
    omega
  | tooMuch r hr' hid hh hv hc =>
    have hH : H c.leg := hid ▸ hk.known r hr' hh
    have m1 := committed_mono (cfg := cfg) hk hr hH (st := .applied) (.inl rfl)
    refine .tooMuch r (keep hr') hid hh hv ?_
    unfold committed at *
    omega
  | noHold r hr' hid hh => exact .noHold r (keep hr') hid hh

theorem act_eq_acts (cfg : Cfg) (db : DB) (a : Act) : act cfg db a = acts cfg db [a] := rfl

theorem toAct_respects {H : String → Prop} (q : QAction) (c : LegCall) : (q.toAct c).Respects H := by
  unfold QAction.toAct; split <;> exact trivial

theorem recordSingle_discarded {cfg : Cfg} {db : DB} {t : Txn} {n1 n2 : String}
    (h : (recordSingle cfg db t n1 n2).2 = .discarded) : ∃ s d, (finalRow { t with source := s, destination := d }).preciseAmount = some 0 := by
  unfold recordSingle at h
  split at h
  · cases h
  · split at h
    · cases h
    · rename_i s _ _ _ d _
      refine ⟨s, d, ?_⟩
      unfold postResolved at h
      split at h
      · cases h
      · rename_i hp
        unfold prepareSingle at hp
        split at hp
        · cases hp
        · split at hp
          · split at hp
            · cases hp
            · split at hp
              · assumption
              · cases hp
          · cases hp
      · split at h <;> cases h

theorem updateRows_error {bs : List Balance} : ∀ {rows : List Balance} {e : OpErr}, updateRows rows bs = .error e → e = .conflict := by
  induction bs with
  | nil => intro rows e h; cases h
  | cons b bs ih =>
    intro rows e h
    unfold updateRows at h
    split at h
    · exact ih h
    · rename_i e' he
      unfold updateRow at he
      split at he
      · cases he
      · cases he; cases h; rfl

theorem postResolved_dup {cfg : Cfg} {db : DB} {t : Txn} (h : (postResolved cfg db t).2 = .refused .duplicateRef) :
    db.hasRef t.reference = true := by
  cases hno : db.hasRef t.reference with
  | true => rfl
  | false =>
    exfalso
    unfold postResolved at h
    split at h
    · rename_i e he
      simp only [Outcome.refused.injEq] at h
      subst h
      unfold prepareSingle at he
      rw [hno] at he
      simp only [Bool.false_eq_true, if_false] at he
      split at he
      · split at he
        · cases he
        · split at he <;> cases he
      · cases he
    · cases h
    · rename_i w hw
      split at h
      · cases h
      · rename_i e he
        simp only [Outcome.refused.injEq] at h
        subst h
        unfold DB.persist at he
        split at he
        · rename_i e' he'
          have := updateRows_error he'
          cases he; cases this
        · unfold prepareSingle at hw
          rw [hno] at hw
          simp only [Bool.false_eq_true, if_false] at hw
          split at hw
          · split at hw
            · cases hw
            · split at hw
              · cases hw
              · simp only [Except.ok.injEq, Option.some.injEq] at hw
                subst hw
                simp only [DB.insertTxns, DB.insertTxn] at he
                rename_i rows _ _ _ _ _ _ _ _ _ _
                have e1 : ∀ rows : List Balance, ({ db with balances := rows } : DB).hasRef (finalRow t).reference = false := by
                  intro rows; rw [(finalRow_keeps t).1]; exact hno
                simp only [e1] at he
                split at he
                · rename_i h1
                  split at h1 <;> simp at h1
                  subst h1; cases he
                · rename_i e2 h1
                  split at h1 <;> simp at h1
                  subst h1; cases he
          · cases hw

theorem recordSingle_dup {cfg : Cfg} {db : DB} {t : Txn} {n1 n2 : String}
    (h : (recordSingle cfg db t n1 n2).2 = .refused .duplicateRef) : ∃ x ∈ db.txns, x.reference = t.reference := by
  have rerr : ∀ {db : DB} {a b c : String} {e : OpErr}, db.resolve a b c = .error e → e = .balanceExists := by
    intro db a b c e he
    unfold DB.resolve at he
    split at he
    · split at he
      · cases he
      · split at he
        · cases he
        · rename_i hc
          unfold DB.createBalance at hc
          split at hc
          · cases hc; cases he; rfl
          · split at hc
            · cases hc; cases he; rfl
            · cases hc
    · cases he
  unfold recordSingle at h
  split at h
  · rename_i e he
    have := rerr he
    subst this
    cases h
  · rename_i db1 s h1
    split at h
    · rename_i e he
      have := rerr he
      subst this
      cases h
    · rename_i db2 d h2
      have q := postResolved_dup h
      have e : db2.txns = db.txns := (resolve_balances h2).1.trans (resolve_balances h1).1
      unfold DB.hasRef at q
      rw [List.any_eq_true] at q
      obtain ⟨x, hx, hx'⟩ := q
      exact ⟨x, e ▸ hx, by simpa using hx'⟩

theorem fetchInflight_error {db : DB} {h : String} {e : InfErr} (he : fetchInflight db h = .error e) :
    e = .notFound ∨ (e = .notInflight ∧ ∃ r ∈ db.txns, r.id = h ∧ ¬ r.Holds) ∨
    (e = .voided ∧ db.parentVoid h = true ∧ ∃ r ∈ db.txns, r.id = h ∧ r.Holds) := by
  unfold fetchInflight at he
  split at he
  · cases he; exact .inl rfl
  · rename_i t ht
    obtain ⟨r, hr, hid, rfl⟩ := getTxn_some ht
    split at he
    · rename_i hin
      split at he
      · cases he
        exact .inr (.inr ⟨rfl, by assumption, r, hr, hid, (holds_iff r).1 (by simpa [isInflightTxn] using hin)⟩)
      · cases he
    · rename_i hin
      cases he
      exact .inr (.inl ⟨rfl, r, hr, hid, fun hh => hin (by have := (holds_iff r).2 hh; simpa [isInflightTxn] using this)⟩)

theorem settled_of_ref {cfg : Cfg} {H : String → Prop} {db : DB} {q : QAction} {c : LegCall} (hk : HoldInv H db)
    (h : ∃ x ∈ db.txns, x.reference = q.ref c) : LegDone q c (act cfg db (q.toAct c)) := by
  obtain ⟨x, hx, hr⟩ := h
  obtain ⟨new, e⟩ := act_prefix (cfg := cfg) hk (toAct_respects q c)
  exact .settled x (by rw [e]; exact List.mem_append_left _ hx) hr

theorem leg_done {cfg : Cfg} {H : String → Prop} {db : DB} {q : QAction} {c : LegCall} (hk : HoldInv H db)
    (hc : legClass (settleResult cfg db q c) ≠ .transient) : LegDone q c (act cfg db (q.toAct c)) := by
  have hcl : ∀ r ∈ db.txns, r.id = c.leg → r.Holds → committed db c.leg = pay r → LegDone q c db := by
    intro r hr hid hh h0
    have hb := hk.bound r hr hh
    have hn := kidSum_nonneg hk (st := .void) (.inr rfl) (hk.known r hr hh)
    rw [hid] at hb hn
    refine .closed r hr hid hh ?_
    have : released db c.leg = kidSum .void db c.leg := rfl
    omega
  have hvd : ∀ r ∈ db.txns, r.id = c.leg → r.Holds → db.parentVoid c.leg = true → LegDone q c db := by
    intro r hr hid hh h0
    have := hk.closed r hr hh (by rw [hid]; exact h0)
    rw [hid] at this
    exact .closed r hr hid hh this
  cases hv : q.void with
  | false =>
    have ea : q.toAct c = .commit c.leg q.amount c.newId (q.ref c) c.n1 c.n2 := by simp [QAction.toAct, hv]
    have er : settleResult cfg db q c = (commitInflight cfg db c.leg q.amount c.newId (q.ref c) c.n1 c.n2).2 := by
      simp [settleResult, hv]
    rw [er] at hc
    rcases commit_grown (cfg := cfg) (h := c.leg) (newId := c.newId) (ref := q.ref c) (n1 := c.n1) (n2 := c.n2)
      (amt := q.amount) hk.inv hk.remaining_nonneg with ⟨_, hn⟩ | ⟨row, x, p, _, _, _, _, g, _, _, hs, _⟩
    · cases hf : fetchInflight db c.leg with
      | error e =>
        have same : act cfg db (q.toAct c) = db := by rw [ea]; simp [act, commitInflight, hf]
        rw [same]
        rw [show (commitInflight cfg db c.leg q.amount c.newId (q.ref c) c.n1 c.n2).2 = .error e by simp [commitInflight, hf]] at hc
        rcases fetchInflight_error hf with rfl | ⟨rfl, r, hr, hid, hh⟩ | ⟨rfl, hpv, r, hr, hid, hh⟩
        · exact absurd rfl hc
        · exact .noHold r hr hid hh
        · exact hvd r hr hid hh hpv
      | ok t =>
        obtain ⟨row, hr, hid, hin, hpv, et⟩ := fetchInflight_ok hf
        have hh := (holds_iff row).1 hin
        have hrem : remaining db t = pay row - committed db c.leg := by
          rw [et]; simp [remaining, pay, hid, totalCommitted_eq]
        have hpay : t.preciseAmount.getD 0 = pay row := by rw [et]; rfl
        have hcn := kidSum_nonneg hk (st := .applied) (.inl rfl) (hk.known row hr hh)
        rw [hid] at hcn
        have hcn' : 0 ≤ committed db c.leg := hcn
        have hpos := hk.remaining_nonneg row hr hid hin hpv
        rw [totalCommitted_eq] at hpos
        cases ha : settleAmount t q.amount (remaining db t) with
        | error e =>
          have same : act cfg db (q.toAct c) = db := by rw [ea]; simp [act, commitInflight, hf, ha]
          rw [same]
          rw [show (commitInflight cfg db c.leg q.amount c.newId (q.ref c) c.n1 c.n2).2 = .error e by simp [commitInflight, hf, ha]] at hc
          unfold settleAmount at ha
          rw [hpay, hrem] at ha
          split at ha
          · exact hcl row hr hid hh (by omega)
          · split at ha
            · cases ha; exact absurd rfl hc
            · split at ha
              · cases ha
              · split at ha
                · exact .tooMuch row hr hid hh hv (by omega)
                · split at ha
                  · exact .tooMuch row hr hid hh hv (by omega)
                  · cases ha
        | ok p =>
          obtain ⟨hl, hp⟩ := settleAmount_ok ha
          have hp0 : 0 < p := by rcases hp with ⟨_, rfl⟩ | ⟨_, rfl, _⟩ <;> omega
          have e2 : (commitInflight cfg db c.leg q.amount c.newId (q.ref c) c.n1 c.n2).2 = .ok (recordSingle cfg db
              (commitTxn t p (if q.amount = 0 then (p : Rat) / t.precision else t.amount) c.newId (q.ref c)) c.n1 c.n2).2 := by
            simp [commitInflight, hf, ha]
          rw [e2] at hc hn
          cases ho : (recordSingle cfg db
              (commitTxn t p (if q.amount = 0 then (p : Rat) / t.precision else t.amount) c.newId (q.ref c)) c.n1 c.n2).2 with
          | posted rows => exact absurd (by rw [ho]) (hn rows)
          | discarded =>
            obtain ⟨s, d, hz⟩ := recordSingle_discarded ho
            have st := settle_commit (t := { commitTxn t p (if q.amount = 0 then (p : Rat) / t.precision else t.amount) c.newId (q.ref c) with
              source := s, destination := d }) (p := p) rfl rfl rfl hp0
            rw [st.2.1] at hz
            simp at hz; omega
          | refused e =>
            rw [ho] at hc
            cases e <;> first | exact absurd rfl hc | skip
            exact settled_of_ref hk (recordSingle_dup ho)
    · refine .settled x ?_ hs.reference
      rw [ea]
      simp only [act]
      rw [g.txns]; simp
  | true =>
    have ea : q.toAct c = .void c.leg c.newId (q.ref c) c.n1 c.n2 := by simp [QAction.toAct, hv]
    have er : settleResult cfg db q c = (voidInflight cfg db c.leg c.newId (q.ref c) c.n1 c.n2).2 := by
      simp [settleResult, hv]
    rw [er] at hc
    rcases void_grown (cfg := cfg) (h := c.leg) (newId := c.newId) (ref := q.ref c) (n1 := c.n1) (n2 := c.n2)
      hk.inv hk.remaining_nonneg with ⟨_, hn⟩ | ⟨row, x, _, _, _, _, g, _, _, hs, _⟩
    · cases hf : fetchInflight db c.leg with
      | error e =>
        have same : act cfg db (q.toAct c) = db := by rw [ea]; simp [act, voidInflight, hf]
        rw [same]
        rw [show (voidInflight cfg db c.leg c.newId (q.ref c) c.n1 c.n2).2 = .error e by simp [voidInflight, hf]] at hc
        rcases fetchInflight_error hf with rfl | ⟨rfl, r, hr, hid, hh⟩ | ⟨rfl, hpv, r, hr, hid, hh⟩
        · exact absurd rfl hc
        · exact .noHold r hr hid hh
        · exact hvd r hr hid hh hpv
      | ok t =>
        obtain ⟨row, hr, hid, hin, hpv, et⟩ := fetchInflight_ok hf
        have hh := (holds_iff row).1 hin
        have hrem : remaining db t = pay row - committed db c.leg := by
          rw [et]; simp [remaining, pay, hid, totalCommitted_eq]
        have hpos := hk.remaining_nonneg row hr hid hin hpv
        rw [totalCommitted_eq] at hpos
        by_cases h0 : remaining db t = 0
        · have same : act cfg db (q.toAct c) = db := by rw [ea]; simp [act, voidInflight, hf, h0]
          rw [same]
          exact hcl row hr hid hh (by omega)
        · have e2 : (voidInflight cfg db c.leg c.newId (q.ref c) c.n1 c.n2).2 = .ok (recordSingle cfg db
              (voidTxn t (remaining db t) c.newId (q.ref c)) c.n1 c.n2).2 := by
            simp [voidInflight, hf, h0]
          have base := applyPrecision_keeps ({ t with status := .void, inflight := false, parent := t.id, id := c.newId, reference := q.ref c, preciseAmount := some (remaining db t) } : Txn)
          have hamt : (voidTxn t (remaining db t) c.newId (q.ref c)).preciseAmount = some (remaining db t) :=
            applyPrecision_pos rfl (by omega)
          rw [e2] at hc hn
          cases ho : (recordSingle cfg db (voidTxn t (remaining db t) c.newId (q.ref c)) c.n1 c.n2).2 with
          | posted rows => exact absurd (by rw [ho]) (hn rows)
          | discarded =>
            obtain ⟨s, d, hz⟩ := recordSingle_discarded ho
            have st := settle_void (t := { voidTxn t (remaining db t) c.newId (q.ref c) with
              source := s, destination := d }) (p := remaining db t) base.2.2.1 base.2.2.2.1 hamt
            rw [st.2.1] at hz
            simp at hz; omega
          | refused e =>
            rw [ho] at hc
            cases e <;> first | exact absurd rfl hc | skip
            have er : (voidTxn t (remaining db t) c.newId (q.ref c)).reference = q.ref c := base.2.2.2.2.1
            exact settled_of_ref hk (er ▸ recordSingle_dup ho)
    · refine .settled x ?_ hs.reference
      rw [ea]
      simp only [act]
      rw [g.txns]; simp

/-- All steps of one delivery, in order: other processes' work and the settlements. -/
def deliverySteps (q : QAction) (cs : List LegCall) : List Act := cs.flatMap (fun c => c.before ++ [q.toAct c])

theorem runAction_acts (cfg : Cfg) (q : QAction) (cs : List LegCall) : ∀ db, (runAction cfg db q cs).1 = acts cfg db (deliverySteps q cs) := by
  induction cs with
  | nil => intro db; rfl
  | cons c cs ih =>
    intro db
    simp only [runAction, deliverySteps, List.flatMap_cons, ih]
    rw [List.append_assoc, acts_append]
    rfl

theorem deliverySteps_respects {H : String → Prop} {q : QAction} {cs : List LegCall}
    (he : ∀ c ∈ cs, ∀ a ∈ c.before, a.Respects H) : ∀ a ∈ deliverySteps q cs, a.Respects H := by
  intro a ha
  obtain ⟨c, hc, ha⟩ := List.mem_flatMap.1 ha
  rcases List.mem_append.1 ha with ha | ha
  · exact he c hc a ha
  · simp at ha; subst ha; exact toAct_respects q c

/-- **C25.** When a delivery is acknowledged, every leg of its snapshot is finished: settled
under the action's reference, or closed by someone else, or asked for more than was left, or
not a hold at all. Other processes may do anything between the legs. -/
theorem c25_acked_delivery_finishes_every_leg (cfg : Cfg) (H : String → Prop) (as : List Act) (q : QAction)
    (cs : List LegCall) (hr : ∀ a ∈ as, a.Respects H) (he : ∀ c ∈ cs, ∀ a ∈ c.before, a.Respects H)
    (hack : acked (runAction cfg (acts cfg {} as) q cs).2 = true) :
    ∀ c ∈ cs, LegDone q c (runAction cfg (acts cfg {} as) q cs).1 := by
  have hk := acts_holdInv (cfg := cfg) (init_holdInv H) hr
  generalize acts cfg {} as = db at *
  induction cs generalizing db with
  | nil => intro c hc; simp at hc
  | cons c cs ih =>
    have hk1 := acts_holdInv (cfg := cfg) hk (he c (by simp))
    have hk2 := act_holdInv (cfg := cfg) hk1 (toAct_respects q c)
    simp only [runAction, acked, List.contains_cons, Bool.not_or, Bool.and_eq_true] at hack
    obtain ⟨h1, h2⟩ := hack
    have h1' : legClass (settleResult cfg (acts cfg db c.before) q c) ≠ .transient := by
      intro e; rw [e] at h1; simp at h1
    have he' : ∀ c ∈ cs, ∀ a ∈ c.before, a.Respects H := fun c hc => he c (List.mem_cons_of_mem _ hc)
    intro c' hc'
    simp only [runAction]
    rcases List.mem_cons.1 hc' with rfl | hc'
    · rw [runAction_acts]
      exact (leg_done hk1 h1').later hk2 (deliverySteps_respects he')
    · exact ih he' _ h2 hk2 c' hc'

/-- A delivery over both holds; between the two legs the second hold is voided by a client. -/
def demoCalls : List LegCall :=
  [{ leg := "h1", newId := "k1" }, { leg := "h2", newId := "k2", before := [.void "h2" "v9" "s9" "x" "y"] }]

/-- A full commit carried by the queue. -/
def demoAction : QAction := { void := false, amount := 0, actionID := "act_1" }

example : (∀ c ∈ demoCalls, ∀ a ∈ c.before, a.Respects exampleHolds) ∧
    (runAction {} (acts {} {} (holdHistory.take 4)) demoAction demoCalls).2 = [.applied, .terminal] ∧
    acked (runAction {} (acts {} {} (holdHistory.take 4)) demoAction demoCalls).2 = true := by
  refine ⟨?_, by decide +kernel, by decide +kernel⟩
  intro c hc a ha
  simp [demoCalls] at hc
  rcases hc with rfl | rfl <;> simp at ha
  subst ha; trivial

/-- **C25.** Once a delivery settled a leg, no later delivery of the same action — after any
amount of other work, and whatever it generates — settles that leg again or changes any
transaction row or any column of any account. -/
theorem c25_redelivery_no_effect (cfg : Cfg) (H : String → Prop) (as bs : List Act) (q : QAction) (c c' : LegCall)
    (hr : ∀ a ∈ as ++ bs, a.Respects H) (hq : q.actionID ≠ "") (hl : c'.leg = c.leg) (rows : List Txn)
    (ho : settleResult cfg (acts cfg {} as) q c = .ok (.posted rows)) :
    let db := acts cfg {} (as ++ [q.toAct c] ++ bs)
    (∀ rows', settleResult cfg db q c' ≠ .ok (.posted rows')) ∧ (act cfg db (q.toAct c')).txns = db.txns ∧
    ∀ i, col (·.debit) (act cfg db (q.toAct c')) i = col (·.debit) db i ∧
      col (·.credit) (act cfg db (q.toAct c')) i = col (·.credit) db i ∧
      col (·.inflightDebit) (act cfg db (q.toAct c')) i = col (·.inflightDebit) db i ∧
      col (·.inflightCredit) (act cfg db (q.toAct c')) i = col (·.inflightCredit) db i := by
  intro db
  have hk0 := acts_holdInv (cfg := cfg) (init_holdInv H) (fun a ha => hr a (List.mem_append_left _ ha))
  have hk1 := act_holdInv (cfg := cfg) hk0 (toAct_respects q c)
  have hrb : ∀ a ∈ bs, a.Respects H := fun a ha => hr a (List.mem_append_right _ ha)
  have edb : db = acts cfg (act cfg (acts cfg {} as) (q.toAct c)) bs := by
    show acts cfg {} (as ++ [q.toAct c] ++ bs) = _
    rw [acts_append, acts_append]; rfl
  have hk : HoldInv H db := edb ▸ acts_holdInv (cfg := cfg) hk1 hrb
  have eref : q.ref c' = q.ref c := by simp [QAction.ref, hq, hl]
  have hx : ∃ x ∈ db.txns, x.reference = q.ref c' := by
    have : ∃ x ∈ (act cfg (acts cfg {} as) (q.toAct c)).txns, x.reference = q.ref c := by
      cases hv : q.void with
      | false =>
        simp only [settleResult, hv, Bool.false_eq_true, if_false] at ho
        rcases commit_grown (cfg := cfg) (h := c.leg) (newId := c.newId) (ref := q.ref c) (n1 := c.n1) (n2 := c.n2)
          (amt := q.amount) hk0.inv hk0.remaining_nonneg with ⟨_, hn⟩ | ⟨row, x, p, _, _, _, _, g, _, _, hs, _⟩
        · exact absurd ho (hn rows)
        · refine ⟨x, ?_, hs.reference⟩
          simp only [QAction.toAct, hv, Bool.false_eq_true, if_false, act]
          rw [g.txns]; simp
      | true =>
        simp only [settleResult, hv, if_true] at ho
        rcases void_grown (cfg := cfg) (h := c.leg) (newId := c.newId) (ref := q.ref c) (n1 := c.n1) (n2 := c.n2)
          hk0.inv hk0.remaining_nonneg with ⟨_, hn⟩ | ⟨row, x, _, _, _, _, g, _, _, hs, _⟩
        · exact absurd ho (hn rows)
        · refine ⟨x, ?_, hs.reference⟩
          simp only [QAction.toAct, hv, if_true, act]
          rw [g.txns]; simp
    obtain ⟨x, hx, hxr⟩ := this
    obtain ⟨new, e⟩ := acts_prefix (cfg := cfg) hk1 hrb
    exact ⟨x, by rw [edb, e]; exact List.mem_append_left _ hx, hxr.trans eref.symm⟩
  obtain ⟨x, hx, hxr⟩ := hx
  have nodup : ∀ {db' : DB} {y : Txn} (_ : Inv db') (_ : db'.txns = db.txns ++ [y]), y.reference = q.ref c' → False := by
    intro db' y hi e hy
    have hn := hi.unique.refs
    rw [e, List.map_append, List.nodup_append] at hn
    exact hn.2.2 _ (List.mem_map.2 ⟨x, hx, rfl⟩) _ (List.mem_map.2 ⟨y, by simp, rfl⟩) (hxr.trans hy.symm)
  have fin : ∀ {δ : Txn → Int} {gens : List String} {db' : DB}, Grown δ gens db db' [] → db'.txns = db.txns ∧
      ∀ i, col (·.debit) db' i = col (·.debit) db i ∧ col (·.credit) db' i = col (·.credit) db i ∧
        col (·.inflightDebit) db' i = col (·.inflightDebit) db i ∧ col (·.inflightCredit) db' i = col (·.inflightCredit) db i := by
    intro δ gens db' g
    refine ⟨by simpa using g.txns, fun i => ⟨?_, ?_, ?_, ?_⟩⟩
    · rw [g.debit]; simp
    · rw [g.credit]; simp
    · rw [g.inflightDebit]; simp
    · rw [g.inflightCredit]; simp
  cases hv : q.void with
  | false =>
    have e1 : q.toAct c' = .commit c'.leg q.amount c'.newId (q.ref c') c'.n1 c'.n2 := by simp [QAction.toAct, hv]
    have e2 : settleResult cfg db q c' = (commitInflight cfg db c'.leg q.amount c'.newId (q.ref c') c'.n1 c'.n2).2 := by
      simp [settleResult, hv]
    rw [e1, e2]
    rcases commit_grown (cfg := cfg) (h := c'.leg) (newId := c'.newId) (ref := q.ref c') (n1 := c'.n1) (n2 := c'.n2)
      (amt := q.amount) hk.inv hk.remaining_nonneg with ⟨g, hn⟩ | ⟨row, y, p, _, _, _, _, g, _, _, hs, _⟩
    · exact ⟨hn, fin g⟩
    · exact (nodup g.inv g.txns hs.reference).elim
  | true =>
    have e1 : q.toAct c' = .void c'.leg c'.newId (q.ref c') c'.n1 c'.n2 := by simp [QAction.toAct, hv]
    have e2 : settleResult cfg db q c' = (voidInflight cfg db c'.leg c'.newId (q.ref c') c'.n1 c'.n2).2 := by
      simp [settleResult, hv]
    rw [e1, e2]
    rcases void_grown (cfg := cfg) (h := c'.leg) (newId := c'.newId) (ref := q.ref c') (n1 := c'.n1) (n2 := c'.n2)
      hk.inv hk.remaining_nonneg with ⟨g, hn⟩ | ⟨row, y, _, _, _, _, g, _, _, hs, _⟩
    · exact ⟨hn, fin g⟩
    · exact (nodup g.inv g.txns hs.reference).elim

/-- A partial commit of 30 delivered twice moves 30 once, although 70 are still open. -/
example : let q : QAction := { void := false, amount := 30, actionID := "act_1" }
    (settleResult {} (acts {} {} (holdHistory.take 4)) q { leg := "h1", newId := "k1" }).toOption.any
      (fun o => match o with | .posted _ => true | _ => false) = true ∧
    settleResult {} (acts {} {} (holdHistory.take 4 ++ [q.toAct { leg := "h1", newId := "k1" }])) q { leg := "h1", newId := "k2" } =
      .ok (.refused .duplicateRef) := by decide +kernel

/-- **C25.** References of settlements made by queued actions are distinct for distinct legs,
for distinct actions and for commit and void. Action ids are uuids, hence of one length. -/
theorem c25_references_distinct (leg leg' aid aid' : String) (q q' : QAction)
    (h0 : aid ≠ "") (hlen : aid.length = aid'.length)
    (h : inflightActionReference leg q.name aid = inflightActionReference leg' q'.name aid') :
    leg = leg' ∧ q.void = q'.void ∧ aid = aid' := by
  have h0' : aid' ≠ "" := by
    intro e; subst e
    have : aid.length = 0 := by simpa using hlen
    exact h0 (by simpa using this)
  unfold inflightActionReference at h
  rw [if_neg h0, if_neg h0'] at h
  have hl := congrArg String.toList h
  simp only [String.toList_append] at hl
  have hlen' : aid.toList.length = aid'.toList.length := hlen
  obtain ⟨h1, h2⟩ := List.append_inj' hl hlen'
  have ea : aid = aid' := String.ext h2
  have h3 := (List.append_inj' h1 rfl).1
  unfold QAction.name at h3
  have hname : q.void = q'.void := by
    cases hv : q.void <;> cases hv' : q'.void <;> first | rfl | exfalso
    · simp only [hv, hv', Bool.false_eq_true, if_false, if_true] at h3
      have := congrArg List.getLast? h3
      simp at this
    · simp only [hv, hv', Bool.false_eq_true, if_false, if_true] at h3
      have := congrArg List.getLast? h3
      simp at this
  rw [hname] at h3
  have h4 := (List.append_inj' h3 rfl).1
  have h5 := (List.append_inj' h4 rfl).1
  exact ⟨String.ext h5, hname, ea⟩

/-- The lengths matter: with arbitrary ids two actions could share a reference. -/
example : inflightActionReference "a" "commit" "x_commit_y" = inflightActionReference "a_commit_x" "commit" "y" := by decide +kernel

/-- References a step would store. -/
def Act.refs : Act → List String
  | .base op => op.posts.map (·.reference) ++ (match op with | .store t => [t.reference] | _ => [])
  | .commit _ _ _ ref _ _ => [ref]
  | .void _ _ ref _ _ => [ref]

/-- A step is a delivery of the action, or does not use the action's references. -/
def Act.Fair (q : QAction) (a : Act) : Prop :=
  (∃ c, a = q.toAct c) ∨ ∀ leg, inflightActionReference leg q.name q.actionID ∉ a.refs

theorem ref_inj {q : QAction} (h0 : q.actionID ≠ "") {a b : String}
    (h : inflightActionReference a q.name q.actionID = inflightActionReference b q.name q.actionID) : a = b :=
  (c25_references_distinct a b _ _ q q h0 rfl h).1

/-- If the action's reference for a leg is stored, nothing is left of that leg. -/
def FullClosed (q : QAction) (leg : String) (db : DB) : Prop :=
  (∃ x ∈ db.txns, x.reference = inflightActionReference leg q.name q.actionID) →
    ∃ r ∈ db.txns, r.id = leg ∧ r.Holds ∧ committed db leg + released db leg = pay r

theorem full_closed_act {cfg : Cfg} {H : String → Prop} {db : DB} {q : QAction} {leg : String} {a : Act}
    (h0 : q.actionID ≠ "") (hfull : q.void = true ∨ q.amount = 0) (hk : HoldInv H db) (hr : a.Respects H)
    (hf : a.Fair q) (h : FullClosed q leg db) : FullClosed q leg (act cfg db a) := by
  have hk' := act_holdInv (cfg := cfg) hk hr
  rintro ⟨x, hx, hxr⟩
  have later : (∃ r ∈ db.txns, r.id = leg ∧ r.Holds ∧ committed db leg + released db leg = pay r) →
      ∃ r ∈ (act cfg db a).txns, r.id = leg ∧ r.Holds ∧ committed (act cfg db a) leg + released (act cfg db a) leg = pay r := by
    rintro ⟨r, hr', hid, hh, hc⟩
    have e : act cfg db a = acts cfg db [a] := rfl
    have hrl : ∀ b ∈ [a], b.Respects H := by simpa using hr
    have m1 := committed_mono (cfg := cfg) hk hrl (hid ▸ hk.known r hr' hh : H leg) (st := .applied) (.inl rfl)
    have m2 := committed_mono (cfg := cfg) hk hrl (hid ▸ hk.known r hr' hh : H leg) (st := .void) (.inr rfl)
    rw [← e] at m1 m2
    obtain ⟨new, e'⟩ := act_prefix (cfg := cfg) hk hr
    have hm : r ∈ (act cfg db a).txns := by rw [e']; exact List.mem_append_left _ hr'
    have hb := hk'.bound r hm hh
    rw [hid] at hb
    refine ⟨r, hm, hid, hh, ?_⟩
    unfold committed released at *
    omega
  obtain ⟨new, e⟩ := act_prefix (cfg := cfg) hk hr
  rw [e] at hx
  rcases List.mem_append.1 hx with hx | hx
  · exact later (h ⟨x, hx, hxr⟩)
  · rcases hf with ⟨c, rfl⟩ | hf
    · have eref : q.ref c = inflightActionReference c.leg q.name q.actionID := by simp [QAction.ref, h0]
      cases hv : q.void with
      | false =>
        have hamt : q.amount = 0 := by rcases hfull with h | h; · rw [hv] at h; cases h
                                       · exact h
        have ea : q.toAct c = .commit c.leg q.amount c.newId (q.ref c) c.n1 c.n2 := by simp [QAction.toAct, hv]
        rw [ea] at e hk' ⊢
        simp only [act] at e hk' ⊢
        rcases commit_grown (cfg := cfg) (h := c.leg) (newId := c.newId) (ref := q.ref c) (n1 := c.n1) (n2 := c.n2)
          (amt := q.amount) hk.inv hk.remaining_nonneg with ⟨g, hn⟩ | ⟨row, y, p, hrow, hid, hin, hpv, g, _, _, hs, _, _, hp⟩
        · have : [] = new := List.append_cancel_left (g.txns.symm.trans e)
          subst this; simp at hx
        · have : [y] = new := List.append_cancel_left (g.txns.symm.trans e)
          subst this; simp at hx; subst hx
          have el : c.leg = leg := ref_inj h0 (by rw [← hxr, hs.reference, eref])
          subst el
          have e1 : committed _ x.parent = committed db x.parent + pay x := kidSum_one g.txns hs.status
          rw [hs.parent] at e1
          have e2 : released _ c.leg = released db c.leg := kidSum_same g.txns (by simp [hs.status])
          have r0 : released db c.leg = 0 := kidSum_zero (fun d hd hds => parentVoid_false.1 hpv d hd hds)
          refine ⟨row, by rw [g.txns]; exact List.mem_append_left _ hrow, hid, (holds_iff _).1 hin, ?_⟩
          rw [totalCommitted_eq] at hp
          have hpx : pay x = p := by simp [pay, hs.amount]
          have : p = pay row - committed db c.leg := by rcases hp with hp | hp <;> omega
          omega
      | true =>
        have ea : q.toAct c = .void c.leg c.newId (q.ref c) c.n1 c.n2 := by simp [QAction.toAct, hv]
        rw [ea] at e hk' ⊢
        simp only [act] at e hk' ⊢
        rcases void_grown (cfg := cfg) (h := c.leg) (newId := c.newId) (ref := q.ref c) (n1 := c.n1) (n2 := c.n2)
          hk.inv hk.remaining_nonneg with ⟨g, hn⟩ | ⟨row, y, hrow, hid, hin, hpv, g, _, _, hs, _⟩
        · have : [] = new := List.append_cancel_left (g.txns.symm.trans e)
          subst this; simp at hx
        · have : [y] = new := List.append_cancel_left (g.txns.symm.trans e)
          subst this; simp at hx; subst hx
          have el : c.leg = leg := ref_inj h0 (by rw [← hxr, hs.reference, eref])
          subst el
          have e1 : released _ x.parent = released db x.parent + pay x := kidSum_one g.txns hs.status
          rw [hs.parent] at e1
          have e2 : committed _ c.leg = committed db c.leg := kidSum_same g.txns (by simp [hs.status])
          have r0 : released db c.leg = 0 := kidSum_zero (fun d hd hds => parentVoid_false.1 hpv d hd hds)
          refine ⟨row, by rw [g.txns]; exact List.mem_append_left _ hrow, hid, (holds_iff _).1 hin, ?_⟩
          have hpx : pay x = pay row - committed db c.leg := by simp [pay, hs.amount, totalCommitted_eq]
          omega
    · exfalso
      have hnr := hf leg
      rw [← hxr] at hnr
      cases a with
      | base op =>
        obtain ⟨new', g, hn⟩ := ordinary_grown (cfg := cfg) hk.inv hr.1
        have : new' = new := List.append_cancel_left (g.txns.symm.trans e)
        subst this
        rcases hn x hx with ⟨t, ht, hid, _⟩ | rfl
        · exact hnr (by simp only [Act.refs]; exact List.mem_append_left _ (List.mem_map.2 ⟨t, ht, hid.2.symm⟩))
        · exact hnr (by simp [Act.refs])
      | commit id amt newId ref n1 n2 =>
        rcases commit_grown (cfg := cfg) (h := id) (newId := newId) (ref := ref) (n1 := n1) (n2 := n2) (amt := amt)
          hk.inv hk.remaining_nonneg with ⟨g, _⟩ | ⟨row, y, p, _, _, _, _, g, _, _, hset, _⟩
        · have : [] = new := List.append_cancel_left (g.txns.symm.trans e)
          subst this; simp at hx
        · have : [y] = new := List.append_cancel_left (g.txns.symm.trans e)
          subst this; simp at hx; subst hx
          exact hnr (by simp [Act.refs, hset.reference])
      | void id newId ref n1 n2 =>
        rcases void_grown (cfg := cfg) (h := id) (newId := newId) (ref := ref) (n1 := n1) (n2 := n2)
          hk.inv hk.remaining_nonneg with ⟨g, _⟩ | ⟨row, y, _, _, _, _, g, _, _, hset, _⟩
        · have : [] = new := List.append_cancel_left (g.txns.symm.trans e)
          subst this; simp at hx
        · have : [y] = new := List.append_cancel_left (g.txns.symm.trans e)
          subst this; simp at hx; subst hx
          exact hnr (by simp [Act.refs, hset.reference])

theorem full_closed_acts {cfg : Cfg} {H : String → Prop} {q : QAction} {leg : String} {as : List Act}
    (h0 : q.actionID ≠ "") (hfull : q.void = true ∨ q.amount = 0) : ∀ {db : DB}, HoldInv H db →
    (∀ a ∈ as, a.Respects H ∧ a.Fair q) → FullClosed q leg db → FullClosed q leg (acts cfg db as) := by
  induction as with
  | nil => intro db _ _ h; exact h
  | cons a as ih =>
    intro db hk hr h
    have ha := hr a (by simp)
    exact ih (act_holdInv (cfg := cfg) hk ha.1) (fun b hb => hr b (List.mem_cons_of_mem _ hb))
      (full_closed_act h0 hfull hk ha.1 ha.2 h)

/-- **C25.** When a delivery of a queued void or full commit is acknowledged, every hold of its
snapshot is closed: what was committed and what was released add up to the hold. Earlier
deliveries of the same action, crashes between legs and other clients' settlements are all
allowed; only the action's own references are reserved to it. -/
theorem c25_acked_full_action_closes_every_hold (cfg : Cfg) (H : String → Prop) (as : List Act) (q : QAction)
    (cs : List LegCall) (h0 : q.actionID ≠ "") (hfull : q.void = true ∨ q.amount = 0)
    (hr : ∀ a ∈ as, a.Respects H ∧ a.Fair q) (he : ∀ c ∈ cs, ∀ a ∈ c.before, a.Respects H ∧ a.Fair q)
    (hack : acked (runAction cfg (acts cfg {} as) q cs).2 = true)
    (c : LegCall) (hc : c ∈ cs) (r : Txn) (hrow : r ∈ (acts cfg {} as).txns) (hid : r.id = c.leg) (hh : r.Holds) :
    committed (runAction cfg (acts cfg {} as) q cs).1 c.leg + released (runAction cfg (acts cfg {} as) q cs).1 c.leg = pay r := by
  have hk := acts_holdInv (cfg := cfg) (init_holdInv H) (fun a ha => (hr a ha).1)
  have hsteps := deliverySteps_respects (q := q) (H := H) (cs := cs) (fun c hc a ha => (he c hc a ha).1)
  have hkf := acts_holdInv (cfg := cfg) hk hsteps
  have hdone := c25_acked_delivery_finishes_every_leg cfg H as q cs (fun a ha => (hr a ha).1)
    (fun c hc a ha => (he c hc a ha).1) hack c hc
  have hcl : FullClosed q c.leg (acts cfg (acts cfg {} as) (deliverySteps q cs)) := by
    refine full_closed_acts h0 hfull hk ?_ (full_closed_acts h0 hfull (init_holdInv H) hr (by rintro ⟨x, hx, _⟩; simp at hx))
    intro a ha
    obtain ⟨d, hd, ha⟩ := List.mem_flatMap.1 ha
    rcases List.mem_append.1 ha with ha | ha
    · exact he d hd a ha
    · simp at ha; subst ha; exact ⟨toAct_respects q d, .inl ⟨d, rfl⟩⟩
  obtain ⟨new, e⟩ := acts_prefix (cfg := cfg) hk hsteps
  rw [runAction_acts] at hdone ⊢
  have hrow' : r ∈ (acts cfg (acts cfg {} as) (deliverySteps q cs)).txns := by rw [e]; exact List.mem_append_left _ hrow
  generalize acts cfg (acts cfg {} as) (deliverySteps q cs) = db at *
  cases hdone with
  | settled x hx hxr =>
    obtain ⟨r', hr', hid', _, hc'⟩ := hcl ⟨x, hx, by rw [hxr]; simp [QAction.ref, h0]⟩
    have : r' = r := row_unique hkf.inv hr' hrow' (hid'.trans hid.symm)
    subst this; exact hc'
  | closed r' hr' hid' _ hc' =>
    have : r' = r := row_unique hkf.inv hr' hrow' (hid'.trans hid.symm)
    subst this; exact hc'
  | tooMuch r' hr' hid' hh' hv hlt =>
    have : r' = r := row_unique hkf.inv hr' hrow' (hid'.trans hid.symm)
    subst this
    have hb := hkf.bound r' hr' hh'
    have hn := kidSum_nonneg hkf (st := .void) (.inr rfl) (hkf.known r' hr' hh')
    rw [hid'] at hb hn
    have : released db c.leg = kidSum .void db c.leg := rfl
    rcases hfull with hf | hf
    · rw [hf] at hv; cases hv
    · omega
  | noHold r' hr' hid' hh' =>
    have : r' = r := row_unique hkf.inv hr' hrow' (hid'.trans hid.symm)
    subst this; exact absurd hh hh'

/-- First delivery crashes after the first leg; the redelivery is acknowledged and both holds are closed. -/
example : let as := holdHistory.take 4 ++ [demoAction.toAct { leg := "h1", newId := "k1" }]
    let cs : List LegCall := [{ leg := "h1", newId := "k2" }, { leg := "h2", newId := "k3" }]
    (runAction {} (acts {} {} as) demoAction cs).2 = [.terminal, .applied] ∧
    committed (runAction {} (acts {} {} as) demoAction cs).1 "h1" = 100 ∧
    committed (runAction {} (acts {} {} as) demoAction cs).1 "h2" = 100 := by decide +kernel

/-! ### What the leg-by-leg guarantee does not give

The snapshot is taken anew at each delivery. While a queued hold still waits for its worker
the snapshot is its QUEUED row `P`; once the worker ran it is the INFLIGHT row `C`
(`database/transaction_grouping.go:335-443`). -/

/-- One queued action settles one hold of 100 for at most 100. -/
def C25Full : Prop := ∀ (cfg : Cfg) (H : String → Prop) (as bs : List Act) (q : QAction) (c d : LegCall),
  (∀ a ∈ as ++ bs, a.Respects H) → q.actionID ≠ "" →
  let db := acts cfg {} (as ++ [q.toAct c] ++ bs ++ [q.toAct d])
  ∀ p ∈ db.txns, ∀ r ∈ db.txns, p.id = c.leg → r.id = d.leg → r.parent = p.id → p.Holds → r.Holds → pay r = pay p →
    committed db c.leg + committed db d.leg ≤ pay p

/-- **C25 fails for queued holds**: the first delivery arrives before the worker has posted the
hold and commits the QUEUED row out of another hold's funds; its redelivery commits the
INFLIGHT row as well. -/
theorem c25_full_fails : ¬ C25Full := by
  intro h
  have := h {} twinHolds
    [.base (.create "a" "" "USD"), .base (.create "b" "" "USD"), .base (.store (standIn "P" "r1" "a" "b" 100)),
     .base (.post (holdTxn "h2" "r2" "a" "b" 100) "x" "y")]
    [.base (.post { holdTxn "C" "r1_q" "a" "b" 100 with parent := "P" } "x" "y")]
    { void := false, amount := 0, actionID := "act_1" } { leg := "P", newId := "k1" } { leg := "C", newId := "k2" }
    (by
      intro a ha
      apply twinHistory_ok
      simp [twinHistory] at ha ⊢
      grind)
    (by decide)
    _ (List.getElem_mem (n := 0) (by decide +kernel)) _ (List.getElem_mem (n := 3) (by decide +kernel))
    (by decide +kernel) (by decide +kernel) (by decide +kernel) (.inr (by decide +kernel)) (.inl (by decide +kernel)) (by decide +kernel)
  revert this
  decide +kernel

end Blnk
