import Verif.Lemmas.RowRel
import Verif.Lemmas.Round
/-
Properties C01–C08, C12, C13 and C15: what a posting does to accounts.
-/
namespace Blnk

/-- States the ledger can reach from an empty database. -/
def Reachable (cfg : Cfg) (db : DB) : Prop := ∃ ops, db = run cfg {} ops

theorem Reachable.inv {cfg : Cfg} {db : DB} (h : Reachable cfg db) : Inv db := by
  obtain ⟨ops, rfl⟩ := h; exact run_inv init_inv

/-- Specification: `settled` minor units moved from one account to the other for
good, and `held` minor units were put on (or, if negative, taken off) hold. -/
structure Moved (settled held : Int) (s s' d d' : Balance) : Prop where
  srcDebit : s'.debit = s.debit + settled
  srcCredit : s'.credit = s.credit
  srcBalance : s'.balance = s.balance - settled
  srcHoldDebit : s'.inflightDebit = s.inflightDebit + held
  srcHoldCredit : s'.inflightCredit = s.inflightCredit
  srcHold : s'.inflightBalance = s.inflightBalance - held
  dstDebit : d'.debit = d.debit
  dstCredit : d'.credit = d.credit + settled
  dstBalance : d'.balance = d.balance + settled
  dstHoldDebit : d'.inflightDebit = d.inflightDebit
  dstHoldCredit : d'.inflightCredit = d.inflightCredit + held
  dstHold : d'.inflightBalance = d.inflightBalance + held

/-- A small ledger used in the examples: a world account, two funded accounts. -/
def demoOps : List Op :=
  [ .create "a" "" "USD", .create "b" "" "USD",
    .post { id := "t1", source := "@World", destination := "a", reference := "r1", amount := 10,
            precision := 100, allowOverdraft := true, status := .queued } "w" "x",
    .post { id := "t2", source := "a", destination := "b", reference := "r2", amount := 5/2,
            precision := 100, status := .queued, inflight := true } "x" "y" ]

def demo : DB := run {} {} demoOps

theorem demo_reachable : Reachable {} demo := ⟨demoOps, rfl⟩

/-! ### C01 — double entry -/

/-- **C01.** After any sequence of operations, whatever is accepted or refused,
the signed balances of all accounts sum to zero, total credits equal total
debits, and the same holds for the inflight columns. -/
theorem c01_double_entry (cfg : Cfg) (ops : List Op) :
    ((run cfg {} ops).balances.map (·.balance)).sum = 0 ∧
    ((run cfg {} ops).balances.map (·.credit)).sum = ((run cfg {} ops).balances.map (·.debit)).sum ∧
    ((run cfg {} ops).balances.map (·.inflightBalance)).sum = 0 ∧
    ((run cfg {} ops).balances.map (·.inflightCredit)).sum
      = ((run cfg {} ops).balances.map (·.inflightDebit)).sum := by
  have hi : Inv (run cfg {} ops) := run_inv init_inv
  generalize run cfg {} ops = db at *
  have key : ∀ (l : List Balance), (∀ b ∈ l, b.Consistent) →
      (l.map (·.balance)).sum = total (·.credit) l - total (·.debit) l ∧
      (l.map (·.inflightBalance)).sum = total (·.inflightCredit) l - total (·.inflightDebit) l := by
    intro l
    induction l with
    | nil => simp
    | cons b l ih =>
      intro h
      obtain ⟨i1, i2⟩ := ih (fun x hx => h x (List.mem_cons_of_mem _ hx))
      obtain ⟨c1, c2⟩ := h b (by simp)
      simp only [List.map_cons, List.sum_cons, total_cons]
      omega
  obtain ⟨k1, k2⟩ := key db.balances hi.consistent
  have h1 := hi.settled
  have h2 := hi.inflight
  unfold total at *
  omega

example : (demo.balances.map (·.balance)) = [1000, 0, -1000] ∧
    (demo.balances.map (·.inflightBalance)) = [-250, 250, 0] := by decide +kernel

/-- The columns after a posting, for every kind of posting. -/
theorem posted_moved {cfg : Cfg} {db db' : DB} {t : Txn} (hi : Inv db) (h : PostedSingle cfg db db' t) :
    ∃ s d s' d', db.find t.source = some s ∧ db.find t.destination = some d ∧
      db'.find t.source = some s' ∧ db'.find t.destination = some d' ∧
      Moved (regAmt t) (inflAmt t) s s' d d' := by
  obtain ⟨rs, rd, s, d, s', d', f1, f2, _, _, es, ed, a1, a2, f3, f4⟩ := h.exact
  refine ⟨rs, rd, _, _, f1, f2, f3, f4, ?_⟩
  have e1 := applySource_effect a1
  have e2 := applyDestination_effect a2
  have cs : rs.Consistent := hi.consistent rs (find_mem f1).1
  have cd : rd.Consistent := hi.consistent rd (find_mem f2).1
  have cs' : s'.Consistent := applySource_consistent a1 (by rw [es]; exact cs)
  have cd' : d'.Consistent := applyDestination_consistent a2 (by rw [ed]; exact cd)
  obtain ⟨p1, p2⟩ := cs; obtain ⟨p3, p4⟩ := cd; obtain ⟨p5, p6⟩ := cs'; obtain ⟨p7, p8⟩ := cd'
  have q1 : s.debit = rs.debit := by rw [es]
  have q2 : s.credit = rs.credit := by rw [es]
  have q3 : s.inflightDebit = rs.inflightDebit := by rw [es]
  have q4 : s.inflightCredit = rs.inflightCredit := by rw [es]
  have q5 : d.debit = rd.debit := by rw [ed]
  have q6 : d.credit = rd.credit := by rw [ed]
  have q7 : d.inflightDebit = rd.inflightDebit := by rw [ed]
  have q8 : d.inflightCredit = rd.inflightCredit := by rw [ed]
  have := e1.debit; have := e1.credit; have := e1.inflightDebit; have := e1.inflightCredit
  have := e2.debit; have := e2.credit; have := e2.inflightDebit; have := e2.inflightCredit
  constructor <;> simp only [Balance.writeBack] <;> omega

theorem plain_amounts {t : Txn} (hp : t.Plain) :
    regAmt t = (if t.inflight then 0 else t.applyPrecision.preciseAmount.getD 0) ∧
    inflAmt t = (if t.inflight then t.applyPrecision.preciseAmount.getD 0 else 0) := by
  obtain ⟨h1, h2⟩ := hp
  constructor
  · unfold regAmt; split <;> simp_all
  · unfold inflAmt; split <;> simp_all

/-- **C01, one posting.** An accepted posting moves one strictly positive amount
`p`, the amount recorded on the stored transaction, out of the source and into
the destination; every other account is untouched. -/
theorem c01_posting_two_sided (cfg : Cfg) (db : DB) (t : Txn) (rows : List Txn) (hr : Reachable cfg db)
    (hp : t.Plain) (h : (postResolved cfg db t).2 = .posted rows) :
    ∃ p, 0 < p ∧ rows = [finalRow t] ∧ (finalRow t).preciseAmount = some p ∧
      (postResolved cfg db t).1.txns = db.txns ++ rows ∧
      (∃ s d s' d', db.find t.source = some s ∧ db.find t.destination = some d ∧
        (postResolved cfg db t).1.find t.source = some s' ∧
        (postResolved cfg db t).1.find t.destination = some d' ∧
        (t.inflight = false → Moved p 0 s s' d d') ∧ (t.inflight = true → Moved 0 p s s' d d')) ∧
      ∀ i, i ≠ t.source → i ≠ t.destination → (postResolved cfg db t).1.find i = db.find i := by
  obtain ⟨rfl, hps⟩ := postResolved_posted hr.inv h
  obtain ⟨rs, rd, s, d, s', d', f1, f2, _, _, es, ed, a1, a2, f3, f4⟩ := hps.exact
  obtain ⟨p, hpos, hpa, _, _⟩ := applySource_pos hp a1
  refine ⟨p, hpos, rfl, by rw [finalRow_plain hp, hpa], hps.txns, ?_, hps.others⟩
  obtain ⟨s, d, s', d', g1, g2, g3, g4, hm⟩ := posted_moved hr.inv hps
  refine ⟨s, d, s', d', g1, g2, g3, g4, ?_, ?_⟩
  · intro hi
    rw [(plain_amounts hp).1, (plain_amounts hp).2, hpa] at hm
    simpa [hi] using hm
  · intro hi
    rw [(plain_amounts hp).1, (plain_amounts hp).2, hpa] at hm
    simpa [hi] using hm

/-- A further payment of 3.00 from `a` to `b`. -/
def demoPay : Txn :=
  { id := "t3", source := "a", destination := "b", reference := "r3", amount := 3, precision := 100,
    status := .queued }

example : demoPay.Plain ∧ (postResolved {} demo demoPay).2 = .posted [finalRow demoPay] :=
  ⟨⟨by decide, by decide⟩, by decide +kernel⟩

/-! ### C02 — derived balances -/

/-- **C02.** In every reachable state, every account shows
`balance = credit − debit` and `inflight = inflight credit − inflight debit`. -/
theorem c02_balance_is_credit_minus_debit (cfg : Cfg) (ops : List Op) :
    ∀ b ∈ (run cfg {} ops).balances,
      b.balance = b.credit - b.debit ∧ b.inflightBalance = b.inflightCredit - b.inflightDebit :=
  fun b hb => (run_inv (cfg := cfg) init_inv).consistent b hb

example : ∃ b ∈ demo.balances, b.balance = 1000 ∧ b.inflightBalance = -250 := by decide +kernel

/-! ### C03, C04 — overdraft -/

/-- The precision actually used: a missing one means 1 (`model/model.go:286-288`). -/
def Txn.effPrecision (t : Txn) : Rat := if t.precision = 0 then 1 else t.precision

theorem applyPrecision_precision (t : Txn) : t.applyPrecision.precision = t.effPrecision := by
  unfold Txn.applyPrecision Txn.effPrecision
  simp only
  split
  · split <;> (split <;> simp_all)
  · split <;> simp_all

theorem effPrecision_ne (t : Txn) : t.effPrecision ≠ 0 := by
  unfold Txn.effPrecision; split <;> grind

/-- A transaction that passes validation has a positive precision. -/
theorem validate_precision_pos {t : Txn} (h : t.applyPrecision.validate = .ok ()) : 0 < t.effPrecision := by
  obtain ⟨ha, hp⟩ := validate_ok h
  have hne := effPrecision_ne t
  unfold Txn.applyPrecision at ha hp
  unfold Txn.effPrecision at *
  simp only at ha hp
  by_cases h0 : t.precision = 0
  · simp [h0]; decide +kernel
  · simp only [h0, if_false] at ha hp ⊢
    split at ha
    · rename_i p hpp
      simp only [hpp] at hp
      split at ha
      · rename_i hpos
        simp only at ha
        by_cases hneg : t.precision < 0
        · exfalso
          have h1 : (0 : Rat) < (p : Rat) := by
            have : ((0:Int):Rat) < (p : Rat) := Rat.intCast_lt_intCast.2 hpos
            have e : ((0 : Int) : Rat) = 0 := by rfl
            grind
          have h3 : (p : Rat) / t.precision < 0 := rat_div_neg h1 hneg
          grind
        · grind
      · rename_i hnp
        rw [if_neg hnp] at hp
        have := hp _ rfl
        unfold convertDecimalToPrecise at this
        have q := roundHalfAway_mono_pos this
        simp only at ha
        have : (0 : Rat) < (roundHalfEven t.precision : Rat) := by
          by_cases hh : (0 : Rat) < (roundHalfEven t.precision : Rat)
          · exact hh
          · exfalso
            have : t.amount * (roundHalfEven t.precision : Rat) ≤ 0 := rat_mul_nonpos ha (by grind)
            grind
        have : 0 < roundHalfEven t.precision := Rat.intCast_pos.1 this
        exact roundHalfEven_pos this
    · rename_i hpp
      simp only [hpp] at hp
      have := hp _ rfl
      unfold convertDecimalToPrecise at this
      have q := roundHalfAway_mono_pos this
      simp only at ha
      have : (0 : Rat) < (roundHalfEven t.precision : Rat) := by
        by_cases hh : (0 : Rat) < (roundHalfEven t.precision : Rat)
        · exact hh
        · exfalso
          have : t.amount * (roundHalfEven t.precision : Rat) ≤ 0 := rat_mul_nonpos ha (by grind)
          grind
      have : 0 < roundHalfEven t.precision := Rat.intCast_pos.1 this
      exact roundHalfEven_pos this

/-- Specification: as a debit, this transaction may take its source at most `L`
minor units below zero.  `L = 0` says it carries no permission at all. -/
def Caps (L : Int) (t : Txn) : Prop :=
  (t.allowOverdraft = true → t.overdraftLimit ≠ 0) ∧
  (0 < t.overdraftLimit → roundHalfAway (t.overdraftLimit * t.effPrecision) ≤ L)

/-- The amount settled or released by a commit or void is not negative.  The
inflight machine (`Inflight.lean`) proves this of every commit and void it issues. -/
def SignOK (t : Txn) : Prop :=
  (t.status = .commit → 0 ≤ t.applyPrecision.preciseAmount.getD 0) ∧
  (t.status = .void → 0 ≤ t.preciseAmount.getD 0)

theorem applyPrecision_parties (t : Txn) (x y : String) :
    ({ t with source := x, destination := y } : Txn).applyPrecision
      = { t.applyPrecision with source := x, destination := y } := by
  unfold Txn.applyPrecision convertDecimalToPrecise
  by_cases h : t.precision = 0 <;> simp only [h, if_true, if_false] <;> cases t.preciseAmount <;> simp only <;>
    split <;> rfl

theorem signOK_parties (t : Txn) (x y : String) : SignOK { t with source := x, destination := y } ↔ SignOK t := by
  unfold SignOK; rw [applyPrecision_parties]

theorem canProcess_floor {t : Txn} {b : Balance} {L : Int} (hL : 0 ≤ L) (hc : Caps L t)
    (hv : t.applyPrecision.validate = .ok ()) (h : canProcessTransaction t.applyPrecision b = .ok ()) :
    -L ≤ b.available - t.applyPrecision.preciseAmount.getD 0 := by
  have hk := applyPrecision_keeps t
  have hpp := validate_precision_pos hv
  unfold canProcessTransaction at h
  rw [hk.1, hk.2.1] at h
  split at h
  · rename_i h1
    simp at h1
    exact absurd h1.2 (hc.1 h1.1)
  · simp only at h
    split at h
    · omega
    · split at h
      · rename_i hlim
        split at h
        · rename_i hfl
          have h1 := hc.2 hlim
          have h0 : 0 ≤ roundHalfAway (t.overdraftLimit * t.effPrecision) := by
            apply roundHalfAway_nonneg
            exact Rat.mul_nonneg (by grind) (by grind)
          have h2 := int64Wrap_le h0
          unfold overdraftLimitPrecise at hfl
          rw [hk.2.1, applyPrecision_precision] at hfl
          omega
        · cases h
      · cases h

/-- One account's available funds never drop below `-L`. -/
def FloorRel (a : String) (L : Int) (b b' : Balance) : Prop :=
  (b.Consistent → b'.Consistent) ∧ b'.id = b.id ∧
  (b.Consistent → b.id = a → -L ≤ b.balance - b.inflightDebit → -L ≤ b'.balance - b'.inflightDebit)

theorem dst_amount_nonneg {t : Txn} (hs : SignOK t) (hv : t.Plain → t.applyPrecision.validate = .ok ()) : 0 ≤ regAmt t := by
  by_cases hc : t.status = .commit
  · simp only [regAmt, hc]; exact hs.1 hc
  by_cases hvo : t.status = .void
  · simp [regAmt, hvo]
  · have hp : t.Plain := ⟨hc, hvo⟩
    obtain ⟨p, hpa⟩ := applyPrecision_some t
    have := (validate_ok (hv hp)).2 p hpa
    rw [(plain_amounts hp).1, hpa]
    split <;> simp; omega

theorem floorRel_rowRel (a : String) (L : Int) (hL : 0 ≤ L) :
    RowRel (fun t => SignOK t ∧ (t.Plain → t.source = a → Caps L t)) (FloorRel a L) where
  refl b := ⟨fun h => h, rfl, fun _ _ h => h⟩
  trans x y z e h1 h2 := ⟨fun h => h2.1 (h1.1 h), h2.2.1.trans h1.2.1,
    fun hc hid h => h2.2.2 (h1.1 hc) (h1.2.1.trans hid) (h1.2.2 hc hid h)⟩
  src t s s' hP hc hq hid h := by
    have e := applySource_effect h
    have hc' := applySource_consistent h hc
    refine ⟨fun _ => hc', e.id, ?_⟩
    intro _ hida hfl
    have c1 := hc.1; have c2 := hc'.1
    have e1 := e.debit; have e2 := e.credit; have e3 := e.inflightDebit
    by_cases h1 : t.status = .commit
    · simp only [regAmt, inflAmt, h1] at e1 e3
      omega
    by_cases h2 : t.status = .void
    · have := hP.1.2 h2
      simp only [regAmt, inflAmt, h2] at e1 e3
      omega
    · have hp : t.Plain := ⟨h1, h2⟩
      obtain ⟨v, cp, _⟩ := (applySource_plain h1 h2).1 h
      have := canProcess_floor hL (hP.2 hp (hid.symm.trans hida)) v cp
      rw [(plain_amounts hp).1] at e1
      rw [(plain_amounts hp).2] at e3
      unfold Balance.available at this
      cases hi : t.inflight <;> simp only [hi] at e1 e3 <;> simp at e1 e3 <;> omega
  dst t s s' hP hv hc hid h := by
    have e := applyDestination_effect h
    have hc' := applyDestination_consistent h hc
    refine ⟨fun _ => hc', e.id, ?_⟩
    intro _ _ hfl
    have c1 := hc.1; have c2 := hc'.1
    have e1 := e.debit; have e2 := e.credit; have e3 := e.inflightDebit
    have := dst_amount_nonneg hP.1 hv
    omega
  queued r q b h := h
  write r b e h := ⟨h.1, rfl, h.2.2⟩

/-- What the runs of C03/C04 assume about each operation: `a` is not an indicator
account, postings that debit it respect `Caps L`, settlements are nonnegative,
batches hold queued members, queued rows have nonnegative amounts. -/
def OpCaps (a : String) (L : Int) : Op → Prop
  | .create i ind _ => i = a → ind = ""
  | .post t n1 n2 => SignOK t ∧ (t.Plain → t.source = a → Caps L t) ∧ n1 ≠ a ∧ n2 ≠ a
  | .batch ts => ∀ t ∈ ts, t.status = .queued ∧ (t.source = a → Caps L t)
  | .store t => t.status = .queued → 0 ≤ t.preciseAmount.getD 0

/-- State invariant behind C03/C04. -/
structure FloorInv (a : String) (L : Int) (db : DB) : Prop where
  inv : Inv db
  queued : QueuedNonneg db
  plainAcct : ∀ b ∈ db.balances, b.id = a → b.indicator = ""
  floor : ∀ b ∈ db.balances, b.id = a → -L ≤ b.balance - b.inflightDebit

theorem rowsRel_floor {a : String} {L : Int} {db : DB} {l : List Balance} (h : FloorInv a L db)
    (hr : RowsRel (FloorRel a L) (fun _ => False) db.balances l) :
    (∀ b ∈ l, b.id = a → b.indicator = "") ∧ ∀ b ∈ l, b.id = a → -L ≤ b.balance - b.inflightDebit := by
  constructor
  · intro b hb hid
    rcases hr b hb with ⟨o, ho, e1, e2, _⟩ | hf
    · rw [← e2]; exact h.plainAcct o ho (e1.trans hid)
    · cases hf
  · intro b hb hid
    rcases hr b hb with ⟨o, ho, e1, e2, r⟩ | hf
    · exact r.2.2 (h.inv.consistent o ho) (e1.trans hid) (h.floor o ho (e1.trans hid))
    · cases hf

theorem isIndicator_empty : isIndicator "" = false := by decide +kernel

theorem resolve_floor {a : String} {L : Int} (hL : 0 ≤ L) {db db' : DB} {s cur n i : String} (h : FloorInv a L db)
    (hn : n ≠ a) (hr : db.resolve s cur n = .ok (db', i)) : FloorInv a L db' ∧ (i = a → s = a) := by
  have hi := resolve_inv h.inv hr
  obtain ⟨ht, new, hb, hnew⟩ := resolve_balances hr
  refine ⟨⟨hi, by unfold QueuedNonneg; rw [ht]; exact h.queued, ?_, ?_⟩, ?_⟩
  · intro b hb'
    rw [hb] at hb'
    rcases List.mem_append.1 hb' with h' | h'
    · exact h.plainAcct b h'
    · intro hid; obtain ⟨rfl, _⟩ := hnew b h'; exact absurd hid hn
  · intro b hb'
    rw [hb] at hb'
    rcases List.mem_append.1 hb' with h' | h'
    · exact h.floor b h'
    · intro _; obtain ⟨rfl, _⟩ := hnew b h'; simp; omega
  · intro hia
    rcases resolve_ok hr with ⟨_, _, e⟩ | ⟨_, hs, b, hb, e1, e2, _⟩ | ⟨_, e, _⟩
    · rw [← e]; exact hia
    · have := h.plainAcct b hb (e1.trans hia)
      rw [e2] at this
      rw [this, isIndicator_empty] at hs
      cases hs
    · exact absurd (e.symm.trans hia) hn

theorem step_floor {cfg : Cfg} {a : String} {L : Int} (hL : 0 ≤ L) {db : DB} {op : Op} (h : FloorInv a L db)
    (ho : OpCaps a L op) : FloorInv a L (step cfg db op).1 := by
  have hi := step_inv (cfg := cfg) h.inv op
  have hq : QueuedNonneg (step cfg db op).1 := step_queuedNonneg h.queued (by cases op <;> first | trivial | exact ho)
  suffices hs : (∀ b ∈ (step cfg db op).1.balances, b.id = a → b.indicator = "") ∧
      ∀ b ∈ (step cfg db op).1.balances, b.id = a → -L ≤ b.balance - b.inflightDebit from ⟨hi, hq, hs.1, hs.2⟩
  cases op with
  | create i ind cur =>
    simp only [step]
    split
    · rename_i db' hc
      obtain ⟨_, _, rfl⟩ := createBalance_ok hc
      constructor
      · intro b hb hid
        rcases List.mem_append.1 hb with h' | h'
        · exact h.plainAcct b h' hid
        · simp at h'; subst h'; exact ho hid
      · intro b hb hid
        rcases List.mem_append.1 hb with h' | h'
        · exact h.floor b h' hid
        · simp at h'; subst h'; simp; omega
    · exact ⟨h.plainAcct, h.floor⟩
  | post t n1 n2 =>
    obtain ⟨o1, o2, o3, o4⟩ := ho
    simp only [step, recordSingle]
    split
    · exact ⟨h.plainAcct, h.floor⟩
    · rename_i db1 sid h1
      obtain ⟨f1, s1⟩ := resolve_floor hL h o3 h1
      split
      · exact ⟨f1.plainAcct, f1.floor⟩
      · rename_i db2 did h2
        obtain ⟨f2, _⟩ := resolve_floor hL f1 o4 h2
        refine rowsRel_floor f2 (postResolved_rel (floorRel_rowRel a L hL) f2.inv f2.queued ?_ _)
        exact ⟨(signOK_parties t sid did).2 o1, fun hp hs => o2 hp (s1 hs)⟩
  | batch ts =>
    refine rowsRel_floor h (recordBatch_rel (floorRel_rowRel a L hL) h.inv h.queued ?_ _)
    intro t ht
    obtain ⟨hs, hc⟩ := ho t ht
    have hst : (batchMember t).status = .applied ∨ (batchMember t).status = .inflight := by
      simp only [batchMember, finalStatus, hs]
      split <;> simp
    refine ⟨⟨?_, ?_⟩, fun _ hsrc => hc hsrc⟩
    · intro h; rcases hst with h' | h' <;> rw [h'] at h <;> cases h
    · intro h; rcases hst with h' | h' <;> rw [h'] at h <;> cases h
  | store t =>
    simp only [step]
    split
    · rename_i db' hins; obtain ⟨_, _, rfl⟩ := insertTxn_ok hins; exact ⟨h.plainAcct, h.floor⟩
    · exact ⟨h.plainAcct, h.floor⟩

theorem run_floor {cfg : Cfg} {a : String} {L : Int} (hL : 0 ≤ L) : ∀ {ops : List Op} {db : DB}, FloorInv a L db →
    (∀ op ∈ ops, OpCaps a L op) → FloorInv a L (run cfg db ops) := by
  intro ops
  induction ops with
  | nil => intro db h _; exact h
  | cons op ops ih =>
    intro db h ho
    exact ih (step_floor hL h (ho op (by simp))) (fun o h' => ho o (List.mem_cons_of_mem _ h'))

/-- **C04.** If no posting that debits account `a` permits more than `L` minor
units of overdraft, then after any run, whatever else happens in the ledger,
`a`'s settled balance less its holds is at least `-L`. -/
theorem c04_overdraft_floor (cfg : Cfg) (a : String) (L : Int) (hL : 0 ≤ L) (ops : List Op)
    (h : ∀ op ∈ ops, OpCaps a L op) :
    ∀ b ∈ (run cfg {} ops).balances, b.id = a → -L ≤ b.balance - b.inflightDebit :=
  (run_floor hL ⟨init_inv, (by intro t ht; cases ht), (by simp), (by simp)⟩ h).floor

/-- **C03.** If no posting that debits account `a` carries any overdraft
permission, `a` never goes below zero, holds included. -/
theorem c03_no_overdraft_without_permission (cfg : Cfg) (a : String) (ops : List Op)
    (h : ∀ op ∈ ops, OpCaps a 0 op) :
    ∀ b ∈ (run cfg {} ops).balances, b.id = a → b.inflightDebit ≤ b.balance := by
  intro b hb hid
  have := c04_overdraft_floor cfg a 0 (by omega) ops h b hb hid
  omega

/-- The demo run, continued with an attempt to spend more than `a` has left and
a permitted overdraft of 5.00, meets the hypothesis for account `a` at `L = 500`. -/
def demoOverdraft : List Op := demoOps ++
  [ .post { id := "t4", source := "a", destination := "b", reference := "r4", amount := 12, precision := 100,
            overdraftLimit := 5, status := .queued } "x" "y",
    .post { id := "t5", source := "a", destination := "b", reference := "r5", amount := 1, precision := 100,
            overdraftLimit := 5, status := .queued } "x" "y" ]

example : ∀ op ∈ demoOverdraft, OpCaps "a" 500 op := by
  intro op hop
  simp only [demoOverdraft, demoOps, List.cons_append, List.nil_append, List.mem_cons, List.not_mem_nil,
    or_false] at hop
  rcases hop with rfl | rfl | rfl | rfl | rfl | rfl <;>
    simp only [OpCaps, SignOK, Caps, Txn.Plain] <;> decide +kernel

example : ((run {} {} demoOverdraft).balances.map (fun b => (b.id, b.balance - b.inflightDebit)))
    = [("a", -450), ("b", 1200), ("w", -1000)] := by decide +kernel

example : ∀ op ∈ demoOps, OpCaps "a" 0 op := by
  intro op hop
  simp only [demoOps, List.mem_cons, List.not_mem_nil, or_false] at hop
  rcases hop with rfl | rfl | rfl | rfl <;>
    simp only [OpCaps, SignOK, Caps, Txn.Plain] <;> decide +kernel

/-- A single debit, checked at the moment it is accepted: without permission the
source had at least the amount available. -/
theorem c03_accepted_debit_is_funded (cfg : Cfg) (db : DB) (t : Txn) (rows : List Txn) (hr : Reachable cfg db)
    (hp : t.Plain) (hno : t.allowOverdraft = false) (hlim : t.overdraftLimit ≤ 0) (hq : cfg.queuedChecks = false)
    (h : (postResolved cfg db t).2 = .posted rows) :
    ∃ s p, db.find t.source = some s ∧ rows.map (·.preciseAmount) = [some p] ∧ p ≤ s.balance - s.inflightDebit := by
  obtain ⟨rfl, hps⟩ := postResolved_posted hr.inv h
  obtain ⟨rs, rd, s, d, s', d', f1, f2, l1, _, es, ed, a1, a2, f3, f4⟩ := hps.exact
  obtain ⟨v, cp, _⟩ := (applySource_plain hp.1 hp.2).1 a1
  obtain ⟨p, hpa⟩ := applyPrecision_some t
  refine ⟨rs, p, f1, by simp [finalRow_plain hp, hpa], ?_⟩
  have := canProcess_floor (L := 0) (by omega) ⟨by simp [hno], fun h => by grind⟩ v cp
  rw [hpa] at this
  unfold Balance.available at this
  have q0 : s.queuedDebit = none := by
    obtain ⟨r, _, _, _, e⟩ := load_ok l1
    rw [e]; simp [hq]
  have q1 : s.balance = rs.balance := by rw [es]
  have q2 : s.inflightDebit = rs.inflightDebit := by rw [es]
  rw [q0, q1, q2] at this
  simp at this
  omega

end Blnk
