import Verif.Model.GroupUndo
import Verif.Props.AtomicBulk
import Verif.Props.Split
import Verif.Props.QueuedSplit
import Verif.Props.Window
/-
C205: an all-or-nothing split with `skip_queue`. C206: the same through the queue.
-/
namespace Blnk.Group
open Queue Atomic

/-! ### C205: legs are items of a bulk that is the request -/

/-- The slots `Atomic.place` would see. -/
def slots (ps : List Part) : List Slot := ps.map (fun p => { txn := p.leg, n1 := p.n1, n2 := p.n2 })

/-- A request the client may send with `skip_queue`: no status, no schedule. -/
structure Direct (t : Txn) : Prop where
  skip : t.skipQueue = true
  blank : t.status = .blank
  now : t.scheduledFor = none

theorem leg_same {t : Txn} (ht : Direct t) {b : Bool} {i k : String} {m : Nat} {a : Int} (ha : 0 ≤ a) :
    bulkTxn (submit t).id (submit t).inflight (Split.leg (submit t) b i m k a) = Split.leg (submit t) b i m k a := by
  obtain ⟨k1, k2, k3, k4, k5, k6, k7⟩ : (submit t).precision ≠ 0 ∧ (submit t).skipQueue = true ∧ (submit t).scheduledFor = none ∧
      (submit t).status = .queued ∧ ((submit t).inflight = true → (submit t).metaInflight = some true) ∧
      ((submit t).atomic = true → (submit t).metaAtomic = some true) ∧
      ((submit t).allowOverdraft = true → (submit t).metaAllowOverdraft = some true) := by
    have hs : t.applyPrecision.skipQueue = t.skipQueue ∧ t.applyPrecision.scheduledFor = t.scheduledFor ∧
        t.applyPrecision.status = t.status := by
      unfold Txn.applyPrecision
      dsimp only
      repeat' split
      all_goals exact ⟨rfl, rfl, rfl⟩
    refine ⟨?_, hs.1.trans ht.skip, hs.2.1.trans ht.now, ?_, ?_, ?_, ?_⟩
    · show t.applyPrecision.precision ≠ 0
      rw [(applyPrecision_meta2 t).2]
      split
      · decide
      · assumption
    · show (if t.applyPrecision.scheduledFor.isSome then _ else _) = _
      rw [hs.2.1, ht.now, hs.2.2, ht.blank]; rfl
    · intro h
      show (if t.applyPrecision.inflight then some true else _) = _
      exact if_pos h
    · intro h
      show (if t.applyPrecision.atomic then some true else _) = _
      exact if_pos h
    · intro h
      show (if t.applyPrecision.allowOverdraft then some true else _) = _
      exact if_pos h
  generalize submit t = u at k1 k2 k3 k4 k5 k6 k7
  have hap : ({ Split.leg u b i m k a with inflight := u.inflight, skipQueue := true, parent := u.id, status := .blank } : Txn).applyPrecision =
      { Split.leg u b i m k a with status := .blank } := by
    unfold Txn.applyPrecision Split.leg
    dsimp only
    rw [if_neg k1]
    dsimp only
    by_cases h : 0 < a
    · rw [if_pos h, k2]
    · have h0 : a = 0 := by omega
      subst h0
      rw [if_neg h, k2]
      have e : ((0 : Int) : Rat) / u.precision = 0 := by simp [Rat.div_def]
      rw [e]
      unfold convertDecimalToPrecise
      dsimp only
      rw [Rat.zero_mul]
      have e2 : roundHalfAway 0 = 0 := by decide +kernel
      rw [e2]
  unfold bulkTxn submit
  rw [hap]
  unfold Split.leg
  dsimp only
  rw [k3, k4]
  simp only [Option.isSome_none, Bool.false_eq_true, if_false, if_true]
  congr 1
  · split
    · rename_i h; exact (k5 h).symm
    · rfl
  · split
    · rename_i h; exact (k6 h).symm
    · rfl
  · split
    · rename_i h; exact (k7 h).symm
    · rfl

/-- The parts of a request: the legs `SplitTransactionPrecise` makes, none of a negative amount (C62). -/
structure PartsOf (ord : List String → List String) (t : Txn) (total : Int) (sources destinations : List Split.Dist)
    (newId : Nat → String) (ps : List Part) : Prop where
  made : Split.split ord (submit t) total sources destinations newId = .ok (ps.map (·.leg))
  amounts : ∀ p ∈ ps, ∀ a, p.leg.preciseAmount = some a → 0 ≤ a

theorem parts_same {ord : List String → List String} {t : Txn} {total : Int} {sources destinations : List Split.Dist}
    {newId : Nat → String} {ps : List Part} (ht : Direct t) (hp : PartsOf ord t total sources destinations newId ps) :
    ∀ p ∈ ps, bulkTxn (submit t).id (submit t).inflight p.leg = p.leg := by
  intro p hmem
  have h := hp.made
  unfold Split.split at h
  dsimp only at h
  split at h
  · cases h
  · injection h with h
    have hm : p.leg ∈ ps.map (·.leg) := List.mem_map.2 ⟨p, hmem, rfl⟩
    rw [← h] at hm
    obtain ⟨m, k, a, _, _, _, e⟩ := Split.legs_mem hm
    have ha := hp.amounts p hmem a (by rw [e]; rfl)
    rw [e]
    exact leg_same ht ha

theorem place_same {cfg : Cfg} {batch : String} {infl : Bool} : ∀ {ps : List Part} {db : DB},
    (∀ p ∈ ps, bulkTxn batch infl p.leg = p.leg) → place cfg batch infl db (slots ps) = placeParts cfg db ps
  | [], _, _ => rfl
  | p :: ps, db, h => by
    simp only [slots, List.map_cons, place, placeParts, acts, if_true]
    rw [h p (by simp)]
    split
    · rename_i e; rw [e]
    · rename_i e
      rw [show List.map (fun p : Part => ({ txn := p.leg, n1 := p.n1, n2 := p.n2 } : Slot)) ps = slots ps from rfl,
        place_same (fun q hq => h q (List.mem_cons_of_mem _ hq))]
      split
      · rename_i e2; exact absurd e2 (e _)
      · rfl

/-- Refinement: an atomic split with `skip_queue` is an atomic bulk whose items are the legs. -/
theorem c205_is_bulk {cfg : Cfg} {ord : List String → List String} {t : Txn} {total : Int} {sources destinations : List Split.Dist}
    {newId : Nat → String} {ps : List Part} (ht : Direct t) (hat : t.atomic = true)
    (hp : PartsOf ord t total sources destinations newId ps) (fresh : Nat → String) (db : DB) :
    splitNow cfg fresh db (submit t) ps = bulkAtomic cfg (submit t).id (submit t).inflight fresh db (slots ps) := by
  unfold splitNow bulkAtomic
  dsimp only
  rw [place_same (parts_same ht hp)]
  have : (submit t).atomic = true := by
    show t.applyPrecision.atomic = true
    unfold Txn.applyPrecision
    dsimp only
    repeat' split
    all_goals exact hat
  rw [if_pos this]

/-- What the server makes up for the accounts of the parts. -/
def Plainly (ps : List Part) : Prop := ∀ p ∈ ps, isIndicator p.n1 = false ∧ isIndicator p.n2 = false

theorem submit_inflight (t : Txn) : (submit t).inflight = t.inflight ∧ (submit t).id = t.id := by
  refine ⟨?_, ?_⟩
  · show t.applyPrecision.inflight = _
    unfold Txn.applyPrecision
    dsimp only
    repeat' split
    all_goals rfl
  · show t.applyPrecision.id = _
    unfold Txn.applyPrecision
    dsimp only
    repeat' split
    all_goals rfl

/-- C205, holds: when an atomic split of holds with `skip_queue` is answered with an error, every column of
every account is as it was. -/
theorem c205_holds (cfg : Cfg) (H Q K : String → Prop) (hQ : ∀ k, K k → ¬ Q k) {ord : List String → List String} {t : Txn}
    {total : Int} {sources destinations : List Split.Dist} {newId : Nat → String} {ps : List Part}
    (ht : Direct t) (hat : t.atomic = true) (hin : t.inflight = true)
    (hp : PartsOf ord t total sources destinations newId ps) (hpl : Plainly ps) (hids : ∀ p ∈ ps, H p.leg.id ∧ K p.leg.id)
    (as : List Act) (has : ∀ a ∈ as, a.Respects H ∧ a.Direct Q ∧ Apart t.id K a)
    (hnew : ∀ r ∈ (acts cfg {} as).txns, ¬ Names t.id r) (fresh : Nat → String)
    (hfr : VoidsFresh cfg (placeParts cfg (acts cfg {} as) ps).1
      (numbered (fun k => { newId := fresh k, ref := fresh k ++ "_ref" }) 0
        (inflightLegs (placeParts cfg (acts cfg {} as) ps).1 t.id)))
    (hfail : (splitNow cfg fresh (acts cfg {} as) (submit t) ps).2 = false) :
    let db2 := (splitNow cfg fresh (acts cfg {} as) (submit t) ps).1
    ∀ i, col (·.debit) db2 i = col (·.debit) (acts cfg {} as) i ∧ col (·.credit) db2 i = col (·.credit) (acts cfg {} as) i ∧
      col (·.inflightDebit) db2 i = col (·.inflightDebit) (acts cfg {} as) i ∧
      col (·.inflightCredit) db2 i = col (·.inflightCredit) (acts cfg {} as) i := by
  have hs := parts_same ht hp
  rw [(submit_inflight t).1, (submit_inflight t).2, hin] at hs
  have e := c205_is_bulk (cfg := cfg) ht hat hp fresh (acts cfg {} as)
  rw [(submit_inflight t).1, (submit_inflight t).2, hin] at e
  rw [e] at hfail ⊢
  refine c53_failed_inflight_request cfg H Q K hQ t.id as has hnew (slots ps) ?_ fresh ?_ hfail
  · intro s hs
    obtain ⟨p, hp, rfl⟩ := List.mem_map.1 hs
    exact ⟨⟨rfl, by simp, (hids p hp).1, (hids p hp).2, hpl p hp⟩, rfl⟩
  · unfold ownVoids
    rw [place_same hs]
    exact hfr

/-- The refunds a failed split queues. -/
def partRefunds (cfg : Cfg) (t : Txn) (fresh : Nat → String) (db : DB) (ps : List Part) : List (Txn × RSlot) :=
  numbered (fun k => { newId := fresh k }) 0 ((placeParts cfg db ps).1.refundables t.id)

/-- C205 for ordinary payments (partial: not at the answer, only once the workers have applied the refunds):
every balance is then as before the request. -/
theorem c205_paid_partial (cfg : Cfg) (H Q : String → Prop) {ord : List String → List String} {t : Txn}
    {total : Int} {sources destinations : List Split.Dist} {newId : Nat → String} {ps : List Part}
    (ht : Direct t) (hat : t.atomic = true) (hin : t.inflight = false) (hprec : 0 ≤ t.precision) (hH : ¬ H t.id)
    (hp : PartsOf ord t total sources destinations newId ps) (hpl : Plainly ps)
    (as : List Act) (has : ∀ a ∈ as, a.Respects H ∧ a.Direct Q)
    (hnew : ∀ r ∈ (acts cfg {} as).txns, ¬ Names t.id r) (fresh : Nat → String) (hHf : ∀ k, ¬ H (fresh k))
    (hready : RefundsReady cfg (placeParts cfg (acts cfg {} as) ps).1 (partRefunds cfg t fresh (acts cfg {} as) ps))
    (hfail : (splitNow cfg fresh (acts cfg {} as) (submit t) ps).2 = false)
    (ds : List (Txn × RSlot))
    (hds : (ds.map (·.1)).Perm (createdBy (refundAll cfg (placeParts cfg (acts cfg {} as) ps).1
      (partRefunds cfg t fresh (acts cfg {} as) ps)).2))
    (hdo : ∀ p ∈ ds, p.2.others = [])
    (hdr : DeliversReady cfg (splitNow cfg fresh (acts cfg {} as) (submit t) ps).1 ds)
    (b : Balance) (hb : b ∈ (acts cfg {} as).balances) :
    let db3 := (deliverAll cfg (splitNow cfg fresh (acts cfg {} as) (submit t) ps).1 ds).1
    ∀ b' ∈ db3.balances, b'.id = b.id → b'.balance = b.balance := by
  have hs := parts_same ht hp
  rw [(submit_inflight t).1, (submit_inflight t).2, hin] at hs
  have e := c205_is_bulk (cfg := cfg) ht hat hp fresh (acts cfg {} as)
  rw [(submit_inflight t).1, (submit_inflight t).2, hin] at e
  rw [e] at hfail hdr ⊢
  refine c53_failed_request_refunded_partial cfg H Q t.id hH as has hnew (slots ps) ?_ fresh hHf ?_ hfail ds ?_ hdo hdr b hb
  · intro s hs
    obtain ⟨p, hpm, rfl⟩ := List.mem_map.1 hs
    refine ⟨⟨rfl, by simp, ?_, hpl p hpm⟩, rfl⟩
    have h := hp.made
    unfold Split.split at h
    dsimp only at h
    split at h
    · cases h
    · injection h with h
      have hm : p.leg ∈ ps.map (·.leg) := List.mem_map.2 ⟨p, hpm, rfl⟩
      rw [← h] at hm
      obtain ⟨m, k, a, _, _, _, e⟩ := Split.legs_mem hm
      show 0 ≤ p.leg.precision
      rw [e]
      show 0 ≤ t.applyPrecision.precision
      rw [(applyPrecision_meta2 t).2]
      split
      · decide
      · exact hprec
  · unfold ownRefunds
    rw [place_same hs]
    exact hready
  · unfold ownRefunds
    rw [place_same hs]
    exact hds

theorem grows {cfg : Cfg} : ∀ {ps : List Part} {db : DB}, ∀ r ∈ db.txns, r ∈ (placeParts cfg db ps).1.txns := by
  intro ps
  induction ps with
  | nil => intro db r h; exact h
  | cons p ps ih =>
    intro db r h
    have h' := (Window.recordSingle_grown (cfg := cfg) (db := db) (t := p.leg) (n1 := p.n1) (n2 := p.n2)).subset h
    unfold placeParts
    dsimp only
    split
    · exact h'
    · exact ih r h'

theorem part_leg {ord : List String → List String} {t : Txn} {total : Int} {sources destinations : List Split.Dist}
    {newId : Nat → String} {ps : List Part} (hp : PartsOf ord t total sources destinations newId ps) {p : Part} (hm : p ∈ ps) :
    ∃ b m k a, p.leg = Split.leg (submit t) b (newId m) m k a := by
  have h := hp.made
  unfold Split.split at h
  dsimp only at h
  split at h
  · cases h
  · injection h with h
    have hm : p.leg ∈ ps.map (·.leg) := List.mem_map.2 ⟨p, hm, rfl⟩
    rw [← h] at hm
    obtain ⟨m, k, a, _, _, _, e⟩ := Split.legs_mem hm
    exact ⟨_, m, k, a, e⟩

theorem submit_queued {t : Txn} (ht : Direct t) : (submit t).status = .queued := by
  have k2 := applyPrecision_keeps t
  have : t.applyPrecision.scheduledFor = none ∧ t.applyPrecision.status = .blank := by
    unfold Txn.applyPrecision
    dsimp only
    repeat' split
    all_goals exact ⟨ht.now, ht.blank⟩
  show (if t.applyPrecision.scheduledFor.isSome then _ else _) = _
  rw [this.1, this.2]; rfl

/-- What a posted part has: a row of its own, of a positive amount. -/
theorem recordSingle_nonzero {cfg : Cfg} {db : DB} {t : Txn} {n1 n2 : String} {rows : List Txn} (hi : Inv db)
    (h : (recordSingle cfg db t n1 n2).2 = .posted rows) :
    ∃ s d, (finalRow { t with source := s, destination := d }).preciseAmount ≠ some 0 := by
  unfold recordSingle at h
  split at h
  · cases h
  · rename_i db1 sid h1
    split at h
    · cases h
    · rename_i db2 did h2
      exact ⟨sid, did, (postResolved_posted (resolve_inv (resolve_inv hi h1) h2) h).2.nonzero⟩

/-- C205, success: the request is answered with success only when each part has its row. -/
theorem c205_all (cfg : Cfg) {ord : List String → List String} {t : Txn} {total : Int} {sources destinations : List Split.Dist}
    {newId : Nat → String} {ps : List Part} (ht : Direct t) (hp : PartsOf ord t total sources destinations newId ps)
    (fresh : Nat → String) (db : DB) (hok : (splitNow cfg fresh db (submit t) ps).2 = true) :
    ∀ p ∈ ps, ∃ r ∈ (splitNow cfg fresh db (submit t) ps).1.txns,
      r.id = p.leg.id ∧ r.parent = t.id ∧ r.reference = p.leg.reference := by
  have hpl : ∀ p ∈ ps, p.leg.Plain ∧ p.leg.parent = t.id := by
    intro p hm
    obtain ⟨b, m, k, a, e⟩ := part_leg hp hm
    rw [e]
    refine ⟨⟨?_, ?_⟩, (submit_inflight t).2⟩ <;>
    · show (submit t).status ≠ _
      rw [submit_queued ht]; simp
  have key : ∀ {qs : List Part} {db : DB}, (∀ p ∈ qs, p.leg.Plain ∧ p.leg.parent = t.id) → (placeParts cfg db qs).2 = true →
      ∀ p ∈ qs, ∃ r ∈ (placeParts cfg db qs).1.txns, r.id = p.leg.id ∧ r.parent = t.id ∧ r.reference = p.leg.reference := by
    intro qs
    induction qs with
    | nil => intro db _ _ p hp; cases hp
    | cons q qs ih =>
      intro db hpl h p hp
      unfold placeParts at h ⊢
      dsimp only at h ⊢
      split at h
      · cases h
      · rename_i hne
        rcases List.mem_cons.1 hp with rfl | hp
        · cases ho : (recordSingle cfg db p.leg p.n1 p.n2).2 with
          | refused e => exact absurd ho (hne e)
          | discarded => exact absurd ho (recordSingle_not_discarded (hpl p (by simp)).1)
          | posted rows =>
            obtain ⟨_, r, hr, _, h1, h2, h3, _⟩ := recordSingle_posted_row ho
            exact ⟨r, grows r hr, h2, h3.trans (hpl p (by simp)).2, h1⟩
        · exact ih (fun x hx => hpl x (List.mem_cons_of_mem _ hx)) h p hp
  have e : splitNow cfg fresh db (submit t) ps = placeParts cfg db ps := by
    revert hok
    unfold splitNow
    dsimp only
    split
    · intro _; rfl
    · split <;> intro h <;> cases h
  rw [e] at hok ⊢
  exact key hpl hok

theorem zero_row {t : Txn} {s d : String} {b : Bool} {i k : String} {m : Nat} (hq : t.status = .queued) :
    (finalRow { Split.leg t b i m k 0 with source := s, destination := d }).preciseAmount = some 0 := by
  have e : ((0 : Int) : Rat) / (if t.precision = 0 then 1 else t.precision) = 0 := by simp [Rat.div_def]
  have e0 : ((0 : Int) : Rat) / t.precision = 0 := by simp [Rat.div_def]
  have e2 : roundHalfAway 0 = 0 := by decide +kernel
  have h : (applyRecord { Split.leg t b i m k 0 with source := s, destination := d }).preciseAmount = some 0 := by
    unfold applyRecord Split.leg
    dsimp only
    rw [hq, e0]
    dsimp only
    unfold Txn.applyPrecision convertDecimalToPrecise
    dsimp only
    by_cases hz : t.precision = 0
    · rw [if_pos hz]
      simp only [show ¬ (0 : Int) < 0 by decide, if_false, Rat.zero_mul, e2]
    · rw [if_neg hz]
      simp only [show ¬ (0 : Int) < 0 by decide, if_false, Rat.zero_mul, e2]
  unfold finalRow clearTerminalInflight
  split <;> exact h

/-- A part of no units makes the whole request fail: payments are refused for it. -/
theorem c205_zero (cfg : Cfg) {ord : List String → List String} {t : Txn} {total : Int} {sources destinations : List Split.Dist}
    {newId : Nat → String} {ps : List Part} (ht : Direct t) (hp : PartsOf ord t total sources destinations newId ps)
    (fresh : Nat → String) (db : DB) (hi : Inv db) (p : Part) (hm : p ∈ ps) (hz : p.leg.preciseAmount = some 0) :
    (splitNow cfg fresh db (submit t) ps).2 = false := by
  obtain ⟨b, m, k, a, e⟩ := part_leg hp hm
  have ha : a = 0 := by rw [e] at hz; injection hz
  have hzr : ∀ s d, (finalRow { p.leg with source := s, destination := d }).preciseAmount = some 0 := by
    intro s d
    rw [e, ha]
    exact zero_row (submit_queued ht)
  have hpl : p.leg.Plain := by
    rw [e]
    refine ⟨?_, ?_⟩ <;>
    · show (submit t).status ≠ _
      rw [submit_queued ht]; simp
  have key : ∀ {qs : List Part} {db : DB}, Inv db → p ∈ qs → (placeParts cfg db qs).2 = false := by
    intro qs
    induction qs with
    | nil => intro db _ hp; cases hp
    | cons q qs ih =>
      intro db hi hp
      unfold placeParts
      dsimp only
      split
      · rfl
      · rename_i hne
        rcases List.mem_cons.1 hp with rfl | hp
        · cases ho : (recordSingle cfg db p.leg p.n1 p.n2).2 with
          | refused e => exact absurd ho (hne e)
          | discarded => exact absurd ho (recordSingle_not_discarded hpl)
          | posted rows =>
            obtain ⟨s, d, h⟩ := recordSingle_nonzero hi ho
            exact absurd (hzr s d) h
        · exact ih (recordSingle_inv hi) hp
  unfold splitNow
  dsimp only
  rw [key hi hm]
  simp only [Bool.false_eq_true, if_false]
  split <;> rfl

/-! ### The case of two payers -/

/-- Two payers of one receiver; the second has nothing. -/
def twoPayers (inflight atomic : Bool) : Txn :=
  { id := "t", destination := "w", reference := "r", amount := 100, precision := 1, skipQueue := true, atomic := atomic
    inflight := inflight }

def payers : List Split.Dist := [⟨"a", .number 70, .blank⟩, ⟨"b", .left, .blank⟩]

def twoParts (inflight atomic : Bool) : List Part :=
  [{ leg := Split.leg (submit (twoPayers inflight atomic)) true "l1" 1 "a" 70, n1 := "x", n2 := "y" },
   { leg := Split.leg (submit (twoPayers inflight atomic)) true "l2" 2 "b" 30, n1 := "x", n2 := "y" }]

theorem twoParts_of (i a : Bool) : PartsOf id (twoPayers i a) 100 payers [] (fun n => if n = 1 then "l1" else "l2") (twoParts i a) := by
  refine ⟨?_, ?_⟩
  · cases i <;> cases a <;> decide +kernel
  · intro p hp x hx
    simp only [twoParts, List.mem_cons, List.not_mem_nil, or_false] at hp
    rcases hp with rfl | rfl <;> · injection hx with hx; omega

/-- C205 as users read it: a failed all-or-nothing request leaves every balance as it was. -/
def C205Full : Prop :=
  ∀ (cfg : Cfg) (as : List Act) (t : Txn) (ord : List String → List String) (total : Int) (sources destinations : List Split.Dist)
    (newId fresh : Nat → String) (ps : List Part), Direct t → t.atomic = true → PartsOf ord t total sources destinations newId ps →
    (∀ r ∈ (acts cfg {} as).txns, ¬ Names t.id r) → (splitNow cfg fresh (acts cfg {} as) (submit t) ps).2 = false →
    ∀ b ∈ (acts cfg {} as).balances, ∀ b' ∈ (splitNow cfg fresh (acts cfg {} as) (submit t) ps).1.balances, b'.id = b.id →
      b'.balance = b.balance

theorem before_new : ∀ r ∈ (acts {} {} before).txns, ¬ Names "t" r := by
  have h : ((acts {} {} before).txns.all (fun r => r.id ≠ "t" ∧ r.parent ≠ "t" ∧ r.metaQueuedParent ≠ "t")) = true := by
    decide +kernel
  intro r hr hn
  have := List.all_eq_true.1 h r hr
  simp at this
  rcases hn with h | h | h
  · exact this.1 h
  · exact this.2.1 h
  · exact this.2.2 h

/-- The first payer's 70 are gone when the error is answered: their refund is only queued. -/
theorem c205_full_fails : ¬ C205Full := by
  intro h
  have hw : ∃ b ∈ (acts {} {} before).balances,
      ∃ b' ∈ (splitNow {} (refIds "f") (acts {} {} before) (submit (twoPayers false true)) (twoParts false true)).1.balances,
      b'.id = b.id ∧ b'.balance ≠ b.balance := by decide +kernel
  obtain ⟨b, hb, b', hb', e, hne⟩ := hw
  exact hne (h {} before (twoPayers false true) id 100 payers [] _ (refIds "f") _ ⟨rfl, rfl, rfl⟩ rfl (twoParts_of false true)
    before_new (by decide +kernel) b hb b' hb' e)

/-- Without `atomic` the part that was paid stays paid and nothing is queued to take it back. -/
theorem c205_not_atomic :
    (splitNow {} (refIds "f") (acts {} {} before) (submit (twoPayers false false)) (twoParts false false)).2 = false ∧
    balances (splitNow {} (refIds "f") (acts {} {} before) (submit (twoPayers false false)) (twoParts false false)).1 =
      [("a", 30, 0), ("b", 0, 0), ("w", -30, 0)] ∧
    (splitNow {} (refIds "f") (acts {} {} before) (submit (twoPayers false false)) (twoParts false false)).1.txns.all
      (fun r => r.status ≠ .queued) = true := by decide +kernel

/-- With holds both are as before when the error is answered; the hypotheses of `c205_holds` hold here. -/
example : (splitNow {} (refIds "f") (acts {} {} before) (submit (twoPayers true true)) (twoParts true true)).2 = false ∧
    (placeParts {} (acts {} {} before) (twoParts true true)).1.balances ≠ (acts {} {} before).balances ∧
    ∀ i, col (·.inflightDebit) (splitNow {} (refIds "f") (acts {} {} before) (submit (twoPayers true true)) (twoParts true true)).1 i =
      col (·.inflightDebit) (acts {} {} before) i := by
  refine ⟨by decide +kernel, by decide +kernel, fun i => ?_⟩
  refine (c205_holds {} (fun k => k = "l1" ∨ k = "l2") (fun _ => False) (fun k => k = "l1" ∨ k = "l2") (fun _ _ h => h)
    (t := twoPayers true true) ⟨rfl, rfl, rfl⟩ rfl rfl (twoParts_of true true) ?_ ?_ before ?_ before_new (refIds "f")
    (by decide +kernel) (by decide +kernel) i).2.2.1
  · intro p hp
    simp only [twoParts, List.mem_cons, List.not_mem_nil, or_false] at hp
    rcases hp with rfl | rfl <;> exact (by decide +kernel : isIndicator "x" = false ∧ isIndicator "y" = false)
  · intro p hp
    simp only [twoParts, List.mem_cons, List.not_mem_nil, or_false] at hp
    rcases hp with rfl | rfl <;> simp [Split.leg]
  · intro a ha
    simp only [before, List.mem_cons, List.not_mem_nil, or_false] at ha
    rcases ha with rfl | rfl | rfl | rfl <;>
      refine ⟨?_, ?_, ?_⟩ <;>
      simp [Act.Respects, Op.Ordinary, Op.posts, Txn.Live, Txn.Plain, Act.Direct, Op.gens, Apart, twoPayers] <;> decide +kernel

/-- With payments the refund is queued, and once delivered the balances are as before. -/
example :
    balances (splitNow {} (refIds "f") (acts {} {} before) (submit (twoPayers false true)) (twoParts false true)).1 =
      [("a", 30, 0), ("b", 0, 0), ("w", -30, 0)] ∧
    balances (deliverAll {} (splitNow {} (refIds "f") (acts {} {} before) (submit (twoPayers false true)) (twoParts false true)).1
      (backwards (splitNow {} (refIds "f") (acts {} {} before) (submit (twoPayers false true)) (twoParts false true)).1)).1 =
      [("a", 100, 0), ("b", 0, 0), ("w", -100, 0)] := by decide +kernel

/-- The hypotheses of `c205_paid_partial` hold for that request. -/
example (b : Balance) (hb : b ∈ (acts {} {} before).balances) :
    ∀ b' ∈ (deliverAll {} (splitNow {} (refIds "f") (acts {} {} before) (submit (twoPayers false true)) (twoParts false true)).1
      (backwards (splitNow {} (refIds "f") (acts {} {} before) (submit (twoPayers false true)) (twoParts false true)).1)).1.balances,
      b'.id = b.id → b'.balance = b.balance := by
  refine c205_paid_partial {} (fun _ => False) (fun _ => False) (t := twoPayers false true) ⟨rfl, rfl, rfl⟩ rfl rfl (by decide +kernel)
    (fun h => h) (twoParts_of false true) ?_ before ?_ before_new (refIds "f") (fun _ h => h) (by unfold partRefunds; decide +kernel)
    (by decide +kernel) _ ?_ ?_ (by decide +kernel) b hb
  · intro p hp
    simp only [twoParts, List.mem_cons, List.not_mem_nil, or_false] at hp
    rcases hp with rfl | rfl <;> exact (by decide +kernel : isIndicator "x" = false ∧ isIndicator "y" = false)
  · intro a ha
    simp only [before, List.mem_cons, List.not_mem_nil, or_false] at ha
    rcases ha with rfl | rfl | rfl | rfl <;>
      refine ⟨?_, ?_⟩ <;>
      simp [Act.Respects, Op.Ordinary, Op.posts, Txn.Live, Txn.Plain, Act.Direct, Op.gens] <;> decide +kernel
  · have : (backwards (splitNow {} (refIds "f") (acts {} {} before) (submit (twoPayers false true)) (twoParts false true)).1).map (·.1) =
        createdBy (refundAll {} (placeParts {} (acts {} {} before) (twoParts false true)).1
          (partRefunds {} (twoPayers false true) (refIds "f") (acts {} {} before) (twoParts false true))).2 := by
      unfold partRefunds; decide +kernel
    rw [this]
  · intro p hp
    obtain ⟨j, e⟩ := numbered_mem p hp
    rw [e]

/-- Success: both have a row. -/
example : (splitNow {} (refIds "f") (acts {} {} before)
    (submit { twoPayers false true with allowOverdraft := true })
    [{ leg := Split.leg (submit { twoPayers false true with allowOverdraft := true }) true "l1" 1 "a" 70, n1 := "x", n2 := "y" },
     { leg := Split.leg (submit { twoPayers false true with allowOverdraft := true }) true "l2" 2 "b" 30, n1 := "x", n2 := "y" }]).2 = true := by
  decide +kernel

/-- A split with a part of no units exists: 100 of 100 to the first, what is left to the second. -/
example : PartsOf id (twoPayers false true) 100 [⟨"a", .number 100, .blank⟩, ⟨"b", .left, .blank⟩] [] (fun n => if n = 1 then "l1" else "l2")
    [{ leg := Split.leg (submit (twoPayers false true)) true "l1" 1 "a" 100 },
     { leg := Split.leg (submit (twoPayers false true)) true "l2" 2 "b" 0 }] := by
  refine ⟨by decide +kernel, ?_⟩
  intro p hp x hx
  simp only [List.mem_cons, List.not_mem_nil, or_false] at hp
  rcases hp with rfl | rfl <;> · injection hx with hx; omega

/-! ### C206: taking back the parts of any reachable ledger -/

/-- The rollback of `c53_refunded_once_delivered_partial` from any ledger: rows that are paid and not yet refunded
are given refunds, the workers can apply every one in any order, and from then on every balance is the sum
over the other rows. -/
theorem undone_once_delivered (cfg : Cfg) (H Q : String → Prop) (as1 : List Act) (db1 : DB) (e1 : db1 = acts cfg {} as1)
    (has1 : ∀ a ∈ as1, a.Respects H ∧ a.Direct Q) (ps : List (Txn × RSlot))
    (hleg : ∀ r ∈ ps.map (·.1), r ∈ db1.txns ∧ Item r) (hlegnd : ((ps.map (·.1)).map (·.id)).Nodup)
    (hpo : ∀ p ∈ ps, ¬ H p.2.newId ∧ ∀ a ∈ p.2.others, a.Respects H ∧ a.Direct Q)
    (hready : RefundsReady cfg db1 ps)
    (ds : List (Txn × RSlot)) (hds : (ds.map (·.1)).Perm (createdBy (refundAll cfg db1 ps).2))
    (hdo : ∀ p ∈ ds, ∀ a ∈ p.2.others, a.Respects H ∧ a.Direct Q)
    (hdr : DeliversReady cfg (refundAll cfg db1 ps).1 ds) :
    let db3 := (deliverAll cfg (refundAll cfg db1 ps).1 ds).1
    (∀ o ∈ (refundAll cfg db1 ps).2, ∃ q, o = .ok (.posted [q])) ∧
    (∀ o ∈ (deliverAll cfg (refundAll cfg db1 ps).1 ds).2, ∃ x, o = .posted [x]) ∧
    ∀ b ∈ db3.balances, b.balance =
      ((db3.txns.filter (fun r => !Mine' (ps.map (·.1)) (ds.map (fun p => p.2.newId)) r)).map (signed b.id)).sum := by
  intro db3
  have hf1 : FundInv H Q db1 := by rw [e1]; exact acts_fundInv (cfg := cfg) (init_fundInv H Q) has1
  have hap1 : AppliedInv db1 := by rw [e1]; exact acts_applied_init (cfg := cfg) (fun a ha => (has1 a ha).1)
  obtain ⟨g1, cs, g2, g3⟩ := refundAll_ok (cfg := cfg) hf1 hap1 (fun p hp =>
    ⟨(hleg p.1 (List.mem_map.2 ⟨p, hp, rfl⟩)).1, (hleg p.1 (List.mem_map.2 ⟨p, hp, rfl⟩)).2, (hpo p hp).2⟩) hready
  have g1' : (refundAll cfg db1 ps).2 = ps.map (fun p => .ok (.posted [refundRow p.1 p.2.newId])) := g1
  have hds' : (ds.map (·.1)).Perm (ps.map (fun p => refundRow p.1 p.2.newId)) := by
    have h : (ds.map (·.1)).Perm (createdBy (refundAll cfg db1 ps).2) := hds
    rw [g1'] at h
    rwa [createdBy_map (fun p : Txn × RSlot => refundRow p.1 p.2.newId) ps] at h
  have hf2 : FundInv H Q (refundAll cfg db1 ps).1 := by
    show FundInv H Q (refundAll cfg db1 ps).1
    rw [g2]; exact acts_fundInv (cfg := cfg) hf1 g3
  have hacc : ∀ i ∈ ids db1.balances, i ∈ ids (refundAll cfg db1 ps).1.balances := by
    show ∀ i ∈ ids db1.balances, i ∈ ids (refundAll cfg db1 ps).1.balances
    rw [g2]; exact acts_accounts (cfg := cfg) hf1.toHoldInv (fun b hb => (g3 b hb).1)
  have facts : ∀ p ∈ ps, Back (refundAll cfg db1 ps).1 (refundRow p.1 p.2.newId) ∧ (refundRow p.1 p.2.newId).id = p.2.newId ∧
      ∀ i, moves i (refundRow p.1 p.2.newId) = - signed i p.1 := by
    intro p hp
    obtain ⟨hr, hi⟩ := hleg p.1 (List.mem_map.2 ⟨p, hp, rfl⟩)
    have hpos := hap1.pos p.1 hr hi.applied
    obtain ⟨a, hpa⟩ : ∃ a, p.1.preciseAmount = some a := by
      cases hq : p.1.preciseAmount with
      | none => simp [pay, hq] at hpos
      | some a => exact ⟨a, rfl⟩
    have ha0 : 0 < a := by simpa [pay, hpa] using hpos
    obtain ⟨q1, q2, q3, q4, q5, q6, q7, q8, q9, q10, q11, q12⟩ := refundRow_facts (newId := p.2.newId) hi hpa ha0
    obtain ⟨m1, m2⟩ := hap1.accounts p.1 hr hi.applied
    refine ⟨⟨q6, q7, q8, q9, ⟨a, q10, ha0⟩, by rw [q11]; exact hi.precision,
      by rw [q4, q5]; exact fun e => hi.distinct e.symm, by rw [q4]; exact hacc _ m2, by rw [q5]; exact hacc _ m1⟩, q1, ?_⟩
    intro i
    simp only [moves, signed, hi.applied, if_true, q4, q5, pay, q10, hpa]
    omega
  have hd : ∀ p ∈ ds, Back (refundAll cfg db1 ps).1 p.1 ∧ ¬ H p.1.id ∧ ∀ a ∈ p.2.others, a.Respects H ∧ a.Direct Q := by
    intro p hp
    have hm := hds'.mem_iff.1 (List.mem_map.2 ⟨p, hp, rfl⟩)
    obtain ⟨o, ho, e⟩ := List.mem_map.1 hm
    obtain ⟨f1, f2, _⟩ := facts o ho
    rw [e] at f1 f2
    exact ⟨f1, by rw [f2]; exact (hpo o ho).1, hdo p hp⟩
  obtain ⟨xs, new, es, k1, k2, k3, k4, k5, k6, k7⟩ := deliverAll_ok (cfg := cfg) hf2 hd hdr
  refine ⟨?_, ?_, ?_⟩
  · rw [g1']
    intro o ho
    obtain ⟨p, _, rfl⟩ := List.mem_map.1 ho
    exact ⟨_, rfl⟩
  · rw [k1]
    intro o ho
    obtain ⟨x, _, rfl⟩ := List.mem_map.1 ho
    exact ⟨x, rfl⟩
  · intro b hbm
    have e3 : db3 = acts cfg {} (as1 ++ cs ++ es) := by
      show (deliverAll cfg (refundAll cfg db1 ps).1 ds).1 = _
      rw [acts_append (bs := es), acts_append (bs := cs), ← e1]
      rw [k6]
      show acts cfg (refundAll cfg db1 ps).1 es = _
      rw [g2]
    have hall3 : ∀ a ∈ as1 ++ cs ++ es, a.Respects H := by
      intro a ha
      rcases List.mem_append.1 ha with ha | ha
      · rcases List.mem_append.1 ha with ha | ha
        · exact (has1 a ha).1
        · exact (g3 a ha).1
      · exact (k7 a ha).1
    have hk3 : HoldInv H db3 := by rw [e3]; exact acts_holdInv (cfg := cfg) (init_holdInv H) hall3
    have hc := c60_balance_is_sum_of_applied_rows cfg H _ hall3 b (by rw [← e3]; exact hbm)
    rw [← e3] at hc
    obtain ⟨c1, c2, c3⟩ := hc
    obtain ⟨pre, epre⟩ := acts_prefix (cfg := cfg) hf1.toHoldInv (fun b hb => (g3 b hb).1)
    have et : db3.txns = (db1.txns ++ pre) ++ new := by
      show (deliverAll cfg (refundAll cfg db1 ps).1 ds).1.txns = _
      rw [k2]
      show (refundAll cfg db1 ps).1.txns ++ new = _
      rw [g2, epre]
    have hn := hk3.inv.unique.txnIds
    have hn' := hn
    rw [et, List.map_append, List.nodup_append] at hn'
    have hxm : ∀ x ∈ xs, x ∈ new := fun x hx => k3.subset hx
    have hsum := sum_drop_many (signed b.id) (xs := ps.map (·.1) ++ xs) hn (by
      rw [List.map_append, List.nodup_append]
      refine ⟨hlegnd, hn'.2.1.sublist (k3.map _), ?_⟩
      intro i hi j hj
      refine hn'.2.2 i ?_ j ?_
      · obtain ⟨r, hr, rfl⟩ := List.mem_map.1 hi
        exact List.mem_map.2 ⟨r, List.mem_append_left _ (hleg r hr).1, rfl⟩
      · obtain ⟨r, hr, rfl⟩ := List.mem_map.1 hj
        exact List.mem_map.2 ⟨r, hxm r hr, rfl⟩) (by
      intro x hx
      rw [et]
      rcases List.mem_append.1 hx with hx | hx
      · exact List.mem_append_left _ (List.mem_append_left _ (hleg x hx).1)
      · exact List.mem_append_right _ (hxm x hx))
    have hzero : ((ps.map (·.1) ++ xs).map (signed b.id)).sum = 0 := by
      rw [List.map_append, List.sum_append, k5 b.id]
      have p1 : (ds.map (fun p => moves b.id p.1)).sum = ((ps.map (fun p => refundRow p.1 p.2.newId)).map (moves b.id)).sum := by
        have := perm_sum (hds'.map (moves b.id))
        rw [List.map_map] at this
        exact this
      rw [p1, List.map_map, List.map_map]
      have : ∀ l : List (Txn × RSlot), (∀ p ∈ l, p ∈ ps) →
          (l.map (signed b.id ∘ (·.1))).sum + (l.map (moves b.id ∘ fun p => refundRow p.1 p.2.newId)).sum = 0 := by
        intro l
        induction l with
        | nil => intro _; rfl
        | cons p l ih =>
          intro h
          have h1 := ih (fun q hq => h q (List.mem_cons_of_mem _ hq))
          have h2 := (facts p (h p (by simp))).2.2 b.id
          simp only [List.map_cons, List.sum_cons, Function.comp] at h1 ⊢
          omega
      exact this ps (fun p hp => hp)
    have hfil : db3.txns.filter (fun r => !Mine' (ps.map (·.1)) (ds.map (fun p => p.2.newId)) r) =
        db3.txns.filter (fun t => !(ps.map (·.1) ++ xs).any (fun x => x.id = t.id)) := by
      congr 1
      funext t
      unfold Mine'
      rw [List.any_append, ← k4]
      congr 2
      rw [Bool.eq_iff_iff]
      simp
    rw [hfil]
    have := signed_sum b.id db3.txns
    rw [c3, c1, c2]
    omega

/-- A step others take that minds holds. -/
def Polite (H Q : String → Prop) (a : Act) : Prop := a.Respects H ∧ a.Direct Q

/-- A task that is not the settlement of a hold; a hold has its id in `H`. -/
structure Ordinary (H : String → Prop) (t : Txn) : Prop where
  live : t.Live
  known : if t.inflight then H t.id else ¬ H t.parent
  positive : 0 ≤ pay t

/-- A delivery in which others mind holds and the coalesced tasks are ordinary. -/
structure Fair (H Q : String → Prop) (e : Env) : Prop where
  gap1 : ∀ a ∈ e.gap1, Polite H Q a
  gap2 : ∀ a ∈ e.gap2, Polite H Q a
  gap3 : ∀ a ∈ e.gap3, Polite H Q a
  gap4 : ∀ a ∈ e.gap4, Polite H Q a
  sibs : ∀ t, t ∈ e.sibs1 ∨ t ∈ e.sibs2 ∨ t ∈ e.sibs3 → Ordinary H t
  names : isIndicator e.n1 = false ∧ isIndicator e.n2 = false

/-- A history of polite steps leads from one ledger to the other. -/
def Leads (cfg : Cfg) (H Q : String → Prop) (db db' : DB) : Prop := ∃ bs, db' = acts cfg db bs ∧ ∀ b ∈ bs, Polite H Q b

theorem Leads.refl (cfg : Cfg) (H Q : String → Prop) (db : DB) : Leads cfg H Q db db := ⟨[], rfl, by simp⟩

theorem Leads.trans {cfg : Cfg} {H Q : String → Prop} {a b c : DB} (h1 : Leads cfg H Q a b) (h2 : Leads cfg H Q b c) :
    Leads cfg H Q a c := by
  obtain ⟨x, rfl, hx⟩ := h1
  obtain ⟨y, rfl, hy⟩ := h2
  refine ⟨x ++ y, acts_append.symm, ?_⟩
  intro b hb
  rcases List.mem_append.1 hb with hb | hb
  · exact hx b hb
  · exact hy b hb

theorem Leads.acts {cfg : Cfg} {H Q : String → Prop} {db : DB} {bs : List Act} (h : ∀ b ∈ bs, Polite H Q b) :
    Leads cfg H Q db (acts cfg db bs) := ⟨bs, rfl, h⟩

theorem Leads.one {cfg : Cfg} {H Q : String → Prop} {db : DB} {op : Op} (h : Polite H Q (.base op)) :
    Leads cfg H Q db (step cfg db op).1 := ⟨[.base op], rfl, by simpa using h⟩

theorem tryBatch_leads {cfg : Cfg} {H Q : String → Prop} {db : DB} {t : Txn} {sibs : List Txn} (ht : Ordinary H t)
    (hs : ∀ x ∈ sibs, Ordinary H x) : Leads cfg H Q db (tryBatch cfg db t sibs).1 := by
  unfold tryBatch
  split
  · exact .refl _ _ _ _
  · have hall : ∀ x ∈ t :: sibs, Ordinary H x := by
      intro x hx
      rcases List.mem_cons.1 hx with rfl | hx
      · exact ht
      · exact hs x hx
    have h : Leads cfg H Q db (step cfg db (.batch (t :: sibs))).1 := by
      refine .one ⟨⟨fun x hx => (hall x hx).live, ?_, ?_⟩, ?_, ?_⟩
      · intro x hx
        exact (hall x hx).known
      · intro x hx; cases hx
      · intro x hx; cases hx
      · simp [Op.gens]
    simp only [step] at h
    split
    · rename_i e; rw [e] at h; exact h
    · rename_i e; rw [e] at h; exact h

theorem doReject_leads {cfg : Cfg} {H Q : String → Prop} {e : Env} {db : DB} {t : Txn} (ht : Ordinary H t) :
    Leads cfg H Q db (doReject cfg e db t).1 := by
  have hn : ¬ (rejectedRow t).Holds := by simp [rejectedRow, Txn.Holds]
  have h : Leads cfg H Q db (step cfg db (.store (rejectedRow t))).1 := by
    refine .one ⟨⟨⟨.inr (.inr rfl), ht.positive⟩, by simp [Op.posts], ?_⟩, ?_, ?_⟩
    · intro x hx hh; cases hx; exact absurd hh hn
    · intro x hx hh; cases hx; exact absurd hh hn
    · simp [Op.gens]
  unfold doReject
  split
  · exact .refl _ _ _ _
  · split
    · rename_i e; rw [e] at h; exact h
    · rename_i e; rw [e] at h; exact h

/-- Whatever a delivery does is a history of polite steps. -/
theorem deliver_leads {w : WCfg} {H Q : String → Prop} {e : Env} {n : Nat} {db : DB} {t : Txn} (ht : Ordinary H t) (he : Fair H Q e) :
    Leads w.base H Q db (deliver w e n db t).1 := by
  have herr : ∀ {d : DB} {msg : String}, Leads w.base H Q d (onError w e n d t msg).1 := by
    intro d msg
    have hd : Leads w.base H Q d (doReject w.base e (acts w.base d e.gap4) t).1 :=
      Leads.trans (.acts he.gap4) (doReject_leads ht)
    have hr := Leads.refl w.base H Q d
    unfold onError
    split
    · exact hr
    · split
      · split
        · exact hd
        · exact hr
      · split
        · exact hd
        · split
          · exact hd
          · split
            · exact hd
            · exact hr
  have hsingle : ∀ {d : DB}, Leads w.base H Q d (singleAttempt w e n d t).1 := by
    intro d
    have hp : Leads w.base H Q d (step w.base d (.post t e.n1 e.n2)).1 := by
      refine .one ⟨⟨ht.live, ?_, ?_⟩, ?_, ?_⟩
      · intro x hx
        simp only [Op.posts, List.mem_cons, List.not_mem_nil, or_false] at hx
        subst hx
        exact ht.known
      · intro x hx; cases hx
      · intro x hx; cases hx
      · intro i hi
        simp only [Op.gens, List.mem_cons, List.not_mem_nil, or_false] at hi
        rcases hi with rfl | rfl
        · exact he.names.1
        · exact he.names.2
    simp only [step] at hp
    unfold singleAttempt
    split
    · exact herr
    · split
      · rename_i e1; rw [e1] at hp; exact Leads.trans hp herr
      · rename_i e1; rw [e1] at hp; exact hp
  unfold deliver
  dsimp only
  have h1 : Leads w.base H Q db (acts w.base (tryBatch w.base db t e.sibs1).1 e.gap1) :=
    Leads.trans (tryBatch_leads ht (fun x hx => he.sibs x (.inl hx))) (.acts he.gap1)
  have h2 : Leads w.base H Q db (if e.hot then tryBatch w.base (acts w.base (tryBatch w.base db t e.sibs1).1 e.gap1) t e.sibs2
      else (acts w.base (tryBatch w.base db t e.sibs1).1 e.gap1, (tryBatch w.base db t e.sibs1).2)).1 := by
    split
    · exact Leads.trans h1 (tryBatch_leads ht (fun x hx => he.sibs x (.inr (.inl hx))))
    · exact h1
  generalize (if e.hot then tryBatch w.base (acts w.base (tryBatch w.base db t e.sibs1).1 e.gap1) t e.sibs2
      else (acts w.base (tryBatch w.base db t e.sibs1).1 e.gap1, (tryBatch w.base db t e.sibs1).2)) = r2 at h2 ⊢
  split
  · exact h2
  · have h3 := Leads.trans (Leads.trans h2 (.acts (cfg := w.base) he.gap2))
      (tryBatch_leads (sibs := e.sibs3) ht (fun x hx => he.sibs x (.inr (.inr hx))))
    split
    · exact h3
    · exact Leads.trans (Leads.trans h3 (.acts he.gap3)) hsingle

/-- The rows a rejection takes back, with the ids of their refunds. -/
def takenBack (w : WCfg) (e : Env) (n : Nat) (fresh : Nat → String) (db : DB) (t : Txn) : List (Txn × RSlot) :=
  numbered (fun k => { newId := fresh k }) 0 ((deliver w e n db t).1.refundables t.metaQueuedParent)

/-- C206 (partial: of the parts paid up to the rejection). When a worker rejects a part of an ordinary all-or-nothing
request, every part paid by then is given a refund, whoever paid it and whatever else went on; the workers can
apply the refunds in any order with anything in between; and from then on every balance is the sum over the
rows that are neither those parts nor their refunds. -/
theorem c206_undone_partial (w : WCfg) (H Q : String → Prop) (as : List Act) (has : ∀ a ∈ as, Polite H Q a)
    (t : Txn) (ht : Ordinary H t) (hpaid : t.inflight = false) (hat : t.atomic = true) (hm : t.metaQueuedParent ≠ "") (e : Env) (he : Fair H Q e) (n : Nat)
    (fresh : Nat → String) (hfresh : ∀ k, ¬ H (fresh k))
    (hrej : rejects (acts w.base {} as) (deliver w e n (acts w.base {} as) t).1 t = true)
    (hitem : ∀ r ∈ (deliver w e n (acts w.base {} as) t).1.refundables t.metaQueuedParent, Item r)
    (hready : RefundsReady w.base (deliver w e n (acts w.base {} as) t).1 (takenBack w e n fresh (acts w.base {} as) t))
    (ds : List (Txn × RSlot))
    (hds : (ds.map (·.1)).Perm (createdBy (refundAll w.base (deliver w e n (acts w.base {} as) t).1
      (takenBack w e n fresh (acts w.base {} as) t)).2))
    (hdo : ∀ p ∈ ds, ∀ a ∈ p.2.others, Polite H Q a)
    (hdr : DeliversReady w.base (deliverPart w e fresh n (acts w.base {} as) t).1 ds) :
    let db := acts w.base {} as
    let parts := (takenBack w e n fresh db t).map (·.1)
    let db3 := (deliverAll w.base (deliverPart w e fresh n db t).1 ds).1
    (∀ r ∈ db.txns, r.status = .applied → r.metaQueuedParent = t.metaQueuedParent ∨ r.parent = t.metaQueuedParent → r ∈ parts) ∧
    (ds.length = parts.length) ∧
    (∀ o ∈ (deliverAll w.base (deliverPart w e fresh n db t).1 ds).2, ∃ x, o = .posted [x]) ∧
    ∀ b ∈ db3.balances, b.balance =
      ((db3.txns.filter (fun r => !Mine' parts (ds.map (fun p => p.2.newId)) r)).map (signed b.id)).sum := by
  intro db parts db3
  obtain ⟨bs, eb, hb⟩ := deliver_leads (w := w) (n := n) (db := db) ht he
  have e2 : (deliverPart w e fresh n db t).1 = (refundAll w.base (deliver w e n db t).1 (takenBack w e n fresh db t)).1 := by
    unfold deliverPart
    dsimp only
    rw [show rejects db (deliver w e n db t).1 t = true from hrej, hat]
    simp only [Bool.and_self, if_true]
    rw [if_neg hm]
    show rollback w.base t.metaQueuedParent t.inflight fresh (deliver w e n db t).1 = _
    unfold rollback takenBack
    rw [hpaid]
    rfl
  have has1 : ∀ a ∈ as ++ bs, a.Respects H ∧ a.Direct Q := by
    intro a ha
    rcases List.mem_append.1 ha with ha | ha
    · exact has a ha
    · exact hb a ha
  have hfst : (takenBack w e n fresh db t).map (·.1) = (deliver w e n db t).1.refundables t.metaQueuedParent := numbered_fst
  have hinv : Inv (deliver w e n db t).1 := by
    rw [eb, ← acts_append]
    exact acts_inv init_inv
  have e3 : db3 = (deliverAll w.base (refundAll w.base (deliver w e n db t).1 (takenBack w e n fresh db t)).1 ds).1 := by
    show (deliverAll w.base (deliverPart w e fresh n db t).1 ds).1 = _
    rw [e2]
  obtain ⟨g1, g2, g3⟩ := undone_once_delivered w.base H Q (as ++ bs) (deliver w e n db t).1 (by rw [acts_append]; exact eb) has1
    (takenBack w e n fresh db t) (by
      intro r hr
      rw [hfst] at hr
      exact ⟨(refundables_names r hr).1, hitem r hr⟩)
    (by
      rw [hfst]
      unfold DB.refundables
      rw [List.map_reverse]
      exact (List.reverse_perm _).nodup_iff.2 (hinv.unique.txnIds.sublist (List.filter_sublist.map _)))
    (by
      intro p hp
      obtain ⟨j, ej⟩ := numbered_mem p hp
      rw [ej]
      exact ⟨hfresh j, by simp⟩)
    hready ds hds hdo (by rw [← e2]; exact hdr)
  refine ⟨?_, ?_, ?_, ?_⟩
  · intro r hr hs hn
    show r ∈ (takenBack w e n fresh db t).map (·.1)
    rw [hfst]
    have hk := acts_holdInv (cfg := w.base) (init_holdInv H) (fun a ha => (has a ha).1)
    obtain ⟨new, en⟩ := acts_prefix (cfg := w.base) hk (fun b hb' => (hb b hb').1)
    have hr' : r ∈ (deliver w e n db t).1.txns := by
      rw [eb, en]
      exact List.mem_append_left _ hr
    unfold DB.refundables
    rw [List.mem_reverse, List.mem_filter]
    refine ⟨hr', ?_⟩
    rcases hn with h | h
    · simp [hs, h]
    · simp [hs, h]
  · have h1 := hds.length_eq
    rw [List.length_map] at h1
    rw [h1, List.length_map]
    have hl : ∀ {l : List (Txn × RSlot)} {d : DB}, (refundAll w.base d l).2.length = l.length := by
      intro l
      induction l with
      | nil => intro d; rfl
      | cons p l ih => intro d; simp only [refundAll, List.length_cons]; rw [ih]
    have hc : ∀ {l : List (Except RefErr Outcome)}, (∀ o ∈ l, ∃ q, o = .ok (.posted [q])) → (createdBy l).length = l.length := by
      intro l
      induction l with
      | nil => intro _; rfl
      | cons o l ih =>
        intro h
        obtain ⟨q, rfl⟩ := h o (by simp)
        have := ih (fun x hx => h x (List.mem_cons_of_mem _ hx))
        simp only [createdBy, List.flatMap_cons, List.length_append, List.length_cons] at this ⊢
        rw [this]
        simp [Nat.add_comm]
    rw [hc g1, hl]
  · rw [e2]; exact g2
  · rw [e3]; exact g3

/-! ### The case of two payers, queued -/

/-- The waiting row of a part (`transaction_queue.go:102-111`, `298-319`). -/
def waitingPart (inflight : Bool) (id party : String) (n : Nat) (amount : Int) : Txn :=
  { submit { twoPayers inflight true with skipQueue := false } with
    id := id, source := party, preciseAmount := some amount, amount := (amount : Rat), parent := "t", metaQueuedParent := "t"
    reference := "r_" ++ Nat.repr n }

/-- The ledger with both rows waiting. -/
def waitingBoth (inflight : Bool) : List Act :=
  before ++ [.base (.store (waitingPart inflight "l1" "a" 1 70)), .base (.store (waitingPart inflight "l2" "b" 2 30))]

/-- Their tasks: `rich` can pay, `poor` cannot. -/
def rich (inflight : Bool) : Txn := queueCopy (waitingPart inflight "l1" "a" 1 70) "q1"
def poor (inflight : Bool) : Txn := queueCopy (waitingPart inflight "l2" "b" 2 30) "q2"

def turn (t : Txn) (f : String) : Turn := { task := t, env := { n1 := "x", n2 := "y" }, fresh := refIds f }

/-- C206 for holds (partial: of the holds placed up to the rejection): when a worker rejects a part and some hold of
the request is open, every hold of it that nobody has settled is voided at once. -/
theorem c206_holds_partial (w : WCfg) (H Q : String → Prop) (as : List Act) (has : ∀ a ∈ as, Polite H Q a)
    (t : Txn) (ht : Ordinary H t) (hin : t.inflight = true) (hat : t.atomic = true) (hm : t.metaQueuedParent ≠ "")
    (e : Env) (he : Fair H Q e) (n : Nat) (fresh : Nat → String)
    (hrej : rejects (acts w.base {} as) (deliver w e n (acts w.base {} as) t).1 t = true)
    (hu : ∀ r ∈ (deliver w e n (acts w.base {} as) t).1.txns, r.status = .inflight → Names t.metaQueuedParent r →
      ¬ Q r.id ∧ Untouched (fun _ => True) (deliver w e n (acts w.base {} as) t).1 r)
    (hfr : VoidsFresh w.base (deliver w e n (acts w.base {} as) t).1
      (numbered (fun k => { newId := fresh k, ref := fresh k ++ "_ref" }) 0
        (inflightLegs (deliver w e n (acts w.base {} as) t).1 t.metaQueuedParent)))
    (r : Txn) (hr : r ∈ (acts w.base {} as).txns) (hs : r.status = .inflight) (hn : Names t.metaQueuedParent r) :
    let db2 := (deliverPart w e fresh n (acts w.base {} as) t).1
    committed db2 r.id = 0 ∧ db2.parentVoid r.id = true := by
  dsimp only
  generalize hdb : acts w.base {} as = db at *
  obtain ⟨bs, eb, hb⟩ := deliver_leads (w := w) (n := n) (db := db) ht he
  have e2 : (deliverPart w e fresh n db t).1 = (voidAll w.base (deliver w e n db t).1 (numbered (fun k => { newId := fresh k, ref := fresh k ++ "_ref" }) 0
      (inflightLegs (deliver w e n db t).1 t.metaQueuedParent))).1 := by
    unfold deliverPart
    dsimp only
    rw [hrej, hat]
    simp only [Bool.and_self, if_true]
    rw [if_neg hm]
    show rollback w.base t.metaQueuedParent t.inflight fresh (deliver w e n db t).1 = _
    unfold rollback
    rw [hin]
    rfl
  have has1 : ∀ a ∈ as ++ bs, a.Respects H ∧ a.Direct Q := by
    intro a ha
    rcases List.mem_append.1 ha with ha | ha
    · exact has a ha
    · exact hb a ha
  have e1 : (deliver w e n db t).1 = acts w.base {} (as ++ bs) := by rw [acts_append, hdb]; exact eb
  have hinv : Inv (deliver w e n db t).1 := by rw [e1]; exact acts_inv init_inv
  have hk : HoldInv H db := by
    rw [← hdb]; exact acts_holdInv (cfg := w.base) (init_holdInv H) (fun a ha => (has a ha).1)
  obtain ⟨new, en⟩ := acts_prefix (cfg := w.base) hk (fun b hb' => (hb b hb').1)
  have hr' : r ∈ (deliver w e n db t).1.txns := by
    rw [eb, en]
    exact List.mem_append_left _ hr
  have hin' : r ∈ (deliver w e n db t).1.txns.filter
      (fun x => (x.id = t.metaQueuedParent || x.parent = t.metaQueuedParent || x.metaQueuedParent = t.metaQueuedParent) && x.status = .inflight) := by
    rw [List.mem_filter]
    refine ⟨hr', ?_⟩
    rcases hn with h | h | h <;> simp [h, hs]
  have hlegs : inflightLegs (deliver w e n db t).1 t.metaQueuedParent = ((deliver w e n db t).1.txns.filter
      (fun x => (x.id = t.metaQueuedParent || x.parent = t.metaQueuedParent || x.metaQueuedParent = t.metaQueuedParent) && x.status = .inflight)).reverse := by
    unfold inflightLegs
    dsimp only
    rw [if_neg]
    intro h
    rw [h] at hin'
    cases hin'
  have hleg : ∀ x ∈ inflightLegs (deliver w e n db t).1 t.metaQueuedParent,
      ¬ Q x.id ∧ Untouched (fun _ => True) (deliver w e n db t).1 x := by
    intro x hx
    rw [hlegs, List.mem_reverse, List.mem_filter] at hx
    have h2 := hx.2
    simp only [Bool.and_eq_true, Bool.or_eq_true, decide_eq_true_eq] at h2
    refine hu x hx.1 h2.2 ?_
    rcases h2.1 with (h | h) | h
    · exact .inl h
    · exact .inr (.inl h)
    · exact .inr (.inr h)
  have hmem : ∀ p ∈ numbered (fun k => ({ newId := fresh k, ref := fresh k ++ "_ref" } : VSlot)) 0
      (inflightLegs (deliver w e n db t).1 t.metaQueuedParent), p.1 ∈ inflightLegs (deliver w e n db t).1 t.metaQueuedParent := by
    intro p hp
    have := List.mem_map_of_mem (f := fun x : Txn × VSlot => x.1) hp
    rwa [numbered_fst (mk := fun k => ({ newId := fresh k, ref := fresh k ++ "_ref" } : VSlot))] at this
  rw [e1] at hfr hleg hmem hinv
  have key := voidAll_ok (cfg := w.base) (H := H) (Q := Q) (K := fun k => ¬ Q k) (batch := t.metaQueuedParent) (fun _ h => h)
    (ps := numbered (fun k => ({ newId := fresh k, ref := fresh k ++ "_ref" } : VSlot)) 0
      (inflightLegs (acts w.base {} (as ++ bs)) t.metaQueuedParent)) has1 (by
      rw [show (fun p : Txn × VSlot => p.1.id) = (·.id) ∘ (·.1) from rfl, ← List.map_map, numbered_fst, ← e1, hlegs, List.map_reverse]
      refine (List.reverse_perm _).nodup_iff.2 (List.Nodup.sublist (List.filter_sublist.map _) ?_)
      rw [e1]
      exact hinv.unique.txnIds) (by
      intro p hp
      obtain ⟨q, u⟩ := hleg p.1 (hmem p hp)
      refine ⟨⟨u.row, u.status, q, u.distinct, u.committed, u.notVoid, u.amount⟩, ?_⟩
      obtain ⟨j, ej⟩ := numbered_mem p hp
      rw [ej]
      exact ⟨by simp, (by decide +kernel : isIndicator "" = false ∧ isIndicator "" = false)⟩) hfr
  have hrl : r ∈ (numbered (fun k => ({ newId := fresh k, ref := fresh k ++ "_ref" } : VSlot)) 0
      (inflightLegs (acts w.base {} (as ++ bs)) t.metaQueuedParent)).map (·.1) := by
    rw [numbered_fst, ← e1, hlegs, List.mem_reverse]
    exact hin'
  obtain ⟨p, hp, rfl⟩ := List.mem_map.1 hrl
  rw [e2, e1]
  exact key.2.2.2 p hp

/-- C206 as users read it: once every part has been delivered and one was rejected, each paid part has a refund
and each hold is void. -/
def C206Full : Prop :=
  ∀ (w : WCfg) (as : List Act) (mark : String) (us : List Turn), mark ≠ "" →
    (∀ u ∈ us, u.task.atomic = true ∧ u.task.metaQueuedParent = mark) →
    let db := deliverParts w (acts w.base {} as) us
    (∃ u ∈ us, rejectedRow u.task ∈ db.txns) →
    ∀ r ∈ db.txns, r.metaQueuedParent = mark →
      (r.status = .applied → ∃ q ∈ db.txns, q.reference = refundRef r.id) ∧ (r.status = .inflight → db.parentVoid r.id = true)

/-- The part that cannot be paid is delivered first. -/
def poorFirst (inflight : Bool) : List Turn := [turn (poor inflight) "f", turn (rich inflight) "g"]

def richFirst (inflight : Bool) : List Turn := [turn (rich inflight) "f", turn (poor inflight) "g"]

theorem poorFirst_of (i : Bool) : ∀ u ∈ poorFirst i, u.task.atomic = true ∧ u.task.metaQueuedParent = "t" := by
  intro u hu
  simp only [poorFirst, List.mem_cons, List.not_mem_nil, or_false] at hu
  rcases hu with rfl | rfl <;> exact ⟨rfl, rfl⟩

theorem c206_full_fails : ¬ C206Full := by
  intro h
  have hw : ∃ r ∈ (deliverParts {} (acts {} {} (waitingBoth false)) (poorFirst false)).txns, r.metaQueuedParent = "t" ∧
      r.status = .applied ∧ ¬ ∃ q ∈ (deliverParts {} (acts {} {} (waitingBoth false)) (poorFirst false)).txns,
        q.reference = refundRef r.id := by decide +kernel
  obtain ⟨r, hr, h1, h2, h3⟩ := hw
  refine h3 ((h {} (waitingBoth false) "t" (poorFirst false) (by decide) (poorFirst_of false) ?_ r hr h1).1 h2)
  exact ⟨turn (poor false) "f", by simp [poorFirst], by decide +kernel⟩

/-- The money of the part that could be paid is gone for good: nothing that waits would bring it back. -/
theorem c206_stays :
    balances (deliverParts {} (acts {} {} (waitingBoth false)) (poorFirst false)) = [("a", 30, 0), ("b", 0, 0), ("w", -30, 0)] ∧
    (deliverParts {} (acts {} {} (waitingBoth false)) (poorFirst false)).txns.map (fun r => (r.id, r.parent, r.status)) =
      [("p", "", .applied), ("l1", "t", .queued), ("l2", "t", .queued), ("q2", "l2", .rejected), ("q1", "l1", .applied)] := by
  decide +kernel

/-- With holds the hold placed after the rejection stays. -/
theorem c206_hold_stays :
    balances (deliverParts {} (acts {} {} (waitingBoth true)) (poorFirst true)) = [("a", 100, -70), ("b", 0, 0), ("w", -100, 70)] ∧
    balances (deliverParts {} (acts {} {} (waitingBoth true)) (richFirst true)) = [("a", 100, 0), ("b", 0, 0), ("w", -100, 0)] := by
  decide +kernel

theorem polite_waiting : ∀ a ∈ waitingBoth false, Polite (fun _ => False) (fun _ => False) a := by
  intro a ha
  simp only [waitingBoth, before, List.mem_append, List.mem_cons, List.not_mem_nil, or_false] at ha
  rcases ha with (rfl | rfl | rfl | rfl) | rfl | rfl <;>
    refine ⟨?_, ?_⟩ <;>
    simp [Act.Respects, Op.Ordinary, Op.posts, Txn.Live, Txn.Plain, Act.Direct, Op.gens, Txn.Holds] <;> decide +kernel

/-- The other part was paid before. -/
def richPaid : List Act := waitingBoth false ++ [.base (.post (rich false) "x" "y")]

def env0 : Env := { n1 := "x", n2 := "y" }

theorem env0_fair (H Q : String → Prop) : Fair H Q env0 :=
  ⟨by simp [env0], by simp [env0], by simp [env0], by simp [env0], by simp [env0], by decide +kernel⟩

/-- The hypotheses of `c206_undone_partial` hold when the other part was paid before: its refund is delivered, and
every balance is the sum of the other rows. -/
example : ∀ b ∈ (deliverAll {} (deliverPart {} env0 (refIds "g") 0 (acts {} {} richPaid) (poor false)).1
      (numbered (fun k => { newId := refIds "h" k }) 0 [refundRow (finalRow (rich false)) "g0"])).1.balances,
    b.balance = (((deliverAll {} (deliverPart {} env0 (refIds "g") 0 (acts {} {} richPaid) (poor false)).1
      (numbered (fun k => { newId := refIds "h" k }) 0 [refundRow (finalRow (rich false)) "g0"])).1.txns.filter
        (fun r => !Mine' ((takenBack {} env0 0 (refIds "g") (acts {} {} richPaid) (poor false)).map (·.1)) ["h0"] r)).map (signed b.id)).sum := by
  have ht : Ordinary (fun _ => False) (poor false) :=
    ⟨⟨⟨by decide +kernel, by decide +kernel⟩, .inr (.inl (by decide +kernel))⟩, by
      rw [show (poor false).inflight = false by decide +kernel]; simp, by decide +kernel⟩
  refine (c206_undone_partial {} (fun _ => False) (fun _ => False) richPaid ?_ (poor false) ht (by decide +kernel) (by decide +kernel)
    (by decide +kernel) env0 (env0_fair _ _) 0 (refIds "g") (fun _ h => h) (by decide +kernel) ?_ (by unfold takenBack; decide +kernel)
    (numbered (fun k => { newId := refIds "h" k }) 0 [refundRow (finalRow (rich false)) "g0"]) ?_ ?_ (by decide +kernel)).2.2.2
  · intro a ha
    rcases List.mem_append.1 ha with ha | ha
    · exact polite_waiting a ha
    · simp only [List.mem_cons, List.not_mem_nil, or_false] at ha
      subst ha
      refine ⟨⟨⟨⟨by decide +kernel, by decide +kernel⟩, .inr (.inl (by decide +kernel))⟩, ?_, by intro t ht; cases ht⟩,
        ⟨(by intro t ht; cases ht), ?_⟩⟩
      · intro t ht
        simp only [Op.posts, List.mem_cons, List.not_mem_nil, or_false] at ht
        subst ht
        rw [show (rich false).inflight = false by decide +kernel]; simp
      · intro i hi
        simp only [Op.gens, List.mem_cons, List.not_mem_nil, or_false] at hi
        rcases hi with rfl | rfl <;> decide +kernel
  · have e : (deliver {} env0 0 (acts {} {} richPaid) (poor false)).1.refundables (poor false).metaQueuedParent = [finalRow (rich false)] := by
      decide +kernel
    intro r hr
    rw [e] at hr
    simp only [List.mem_cons, List.not_mem_nil, or_false] at hr
    subst hr
    exact ⟨by decide +kernel, by decide +kernel, by decide +kernel, by decide +kernel⟩
  · have : (numbered (fun k => ({ newId := refIds "h" k } : RSlot)) 0 [refundRow (finalRow (rich false)) "g0"]).map (·.1) =
        createdBy (refundAll {} (deliver {} env0 0 (acts {} {} richPaid) (poor false)).1
          (takenBack {} env0 0 (refIds "g") (acts {} {} richPaid) (poor false))).2 := by
      unfold takenBack; decide +kernel
    rw [show ({} : WCfg).base = ({} : Cfg) from rfl, this]
  · intro p hp
    obtain ⟨j, e⟩ := numbered_mem p hp
    rw [e]
    simp

/-- The balances of that case: after the rejection and after the refund. -/
example :
    balances (deliverPart {} env0 (refIds "g") 0 (acts {} {} richPaid) (poor false)).1 = [("a", 30, 0), ("b", 0, 0), ("w", -30, 0)] ∧
    balances (deliverAll {} (deliverPart {} env0 (refIds "g") 0 (acts {} {} richPaid) (poor false)).1
      (numbered (fun k => { newId := refIds "h" k }) 0 [refundRow (finalRow (rich false)) "g0"])).1 =
      [("a", 100, 0), ("b", 0, 0), ("w", -100, 0)] := by decide +kernel

/-- The same with holds. -/
def richHeld : List Act := waitingBoth true ++ [.base (.post (rich true) "x" "y")]

def held (k : String) : Prop := k = "l1" ∨ k = "l2" ∨ k = "q1" ∨ k = "q2"
def queuedHeld (k : String) : Prop := k = "l1" ∨ k = "l2"

/-- The hypotheses of `c206_holds_partial` hold when the other hold was placed before. -/
example : (deliverPart {} env0 (refIds "g") 0 (acts {} {} richHeld) (poor true)).1.parentVoid "q1" = true := by
  have ht : Ordinary held (poor true) :=
    ⟨⟨⟨by decide +kernel, by decide +kernel⟩, .inr (.inl (by decide +kernel))⟩, by
      rw [show (poor true).inflight = true by decide +kernel]; exact .inr (.inr (.inr (by decide +kernel))), by decide +kernel⟩
  refine (c206_holds_partial {} held queuedHeld richHeld ?_ (poor true) ht (by decide +kernel) (by decide +kernel)
    (by decide +kernel) env0 (env0_fair _ _) 0 (refIds "g") (by decide +kernel) ?_ (by decide +kernel)
    (finalRow (rich true)) (by decide +kernel) (by decide +kernel) (.inr (.inr (by decide +kernel)))).2
  · intro a ha
    simp only [richHeld, waitingBoth, before, List.mem_append, List.mem_cons, List.not_mem_nil, or_false] at ha
    rcases ha with ((rfl | rfl | rfl | rfl) | rfl | rfl) | rfl <;>
      refine ⟨?_, ?_⟩ <;>
      simp [Act.Respects, Op.Ordinary, Op.posts, Txn.Live, Txn.Plain, Act.Direct, Op.gens, Txn.Holds, held, queuedHeld] <;> decide +kernel
  · have h : ∀ r ∈ (deliver {} env0 0 (acts {} {} richHeld) (poor true)).1.txns, r.status = .inflight → r = finalRow (rich true) := by
      decide +kernel
    intro r hr hs _
    have e := h r hr hs
    subst e
    refine ⟨?_, hr, hs, trivial, by decide +kernel, by decide +kernel, by decide +kernel, by decide +kernel⟩
    rw [show (finalRow (rich true)).id = "q1" by decide +kernel]
    simp [queuedHeld]

end Blnk.Group
