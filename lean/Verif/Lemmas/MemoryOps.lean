import Verif.Lemmas.Memory
import Verif.Lemmas.Preview
/-
Lemmas about balances in memory: the methods that post, commit, roll back and copy do to the figures
what the functions of `Model/Balance` do to values.
-/
namespace Blnk.Mem

/-- A balance from its parts. -/
def build (base : Balance) (v : Fld → Int) (q : Option Int) : Balance :=
  { base with balance := v .bal, credit := v .cr, debit := v .db
              inflightBalance := v .ib, inflightCredit := v .ic, inflightDebit := v .idb
              queuedDebit := q }

theorem view_eq (m : Memory) (b : Nat) : view m b = build (m.objs b).base (val m b) ((m.objs b).qd.map m.ints) := rfl

theorem Eff.view {m m' : Memory} {v : Vals} (hs : Sep m) (h : Eff m m' v) {b : Nat} (hb : b < m.nextObj) :
    view m' b = build (m.objs b).base (v b) ((m.objs b).qd.map m.ints) := by
  rw [view_eq]
  have e1 : val m' b = v b := funext (h.vals b)
  rw [e1, (h.ext.base b hb).1, (h.ext.base b hb).2]
  congr 1
  cases hq : (m.objs b).qd with
  | none => rfl
  | some x => simp [(h.ext.free x (hs.queued b x hq)).2]

theorem Eff.view_same {m m' : Memory} {v : Vals} (hs : Sep m) (h : Eff m m' v) {b : Nat} (hb : b < m.nextObj)
    (e : ∀ f, v b f = val m b f) : Mem.view m' b = Mem.view m b := by
  rw [h.view hs hb, funext e]
  rfl

theorem Eff.lt {m m' : Memory} {v : Vals} (h : Eff m m' v) {b : Nat} (hb : b < m.nextObj) : b < m'.nextObj := by
  rw [h.ext.objs]; exact hb

theorem Eff.val {m m' : Memory} {v : Vals} (h : Eff m m' v) : Mem.val m' = v :=
  funext fun b => funext (h.vals b)

/-- Initialise, then change a figure. -/
theorem initPut_eff {m : Memory} (hs : Sep m) {b : Nat} (hb : b < m.nextObj) (f : Fld) (x : Int) :
    Eff m (put (init m b) b f x) (updV (val m) b f x) ∧ Ready (put (init m b) b f x) b := by
  obtain ⟨h1, h2⟩ := init_eff hs hb
  have h3 := put_eff h1.sep h2 f x
  rw [h1.val] at h3
  exact ⟨h1.trans h3, h3.ready h2⟩

theorem addCredit_eff {m : Memory} (hs : Sep m) {b : Nat} (hb : b < m.nextObj) {a : Nat} (ha : Free m a)
    (i : Bool) : Eff m (addCredit m b a i)
      (if i then updV (val m) b .ic (val m b .ic + m.ints a) else updV (val m) b .cr (val m b .cr + m.ints a)) := by
  obtain ⟨h1, _⟩ := init_eff hs hb
  have e : (init m b).ints a = m.ints a := (h1.ext.free a ha).2
  unfold addCredit
  simp only [h1.val, e]
  cases i
  · exact (initPut_eff hs hb _ _).1
  · exact (initPut_eff hs hb _ _).1

theorem addDebit_eff {m : Memory} (hs : Sep m) {b : Nat} (hb : b < m.nextObj) {a : Nat} (ha : Free m a)
    (i : Bool) : Eff m (addDebit m b a i)
      (if i then updV (val m) b .idb (val m b .idb + m.ints a) else updV (val m) b .db (val m b .db + m.ints a)) := by
  obtain ⟨h1, _⟩ := init_eff hs hb
  have e : (init m b).ints a = m.ints a := (h1.ext.free a ha).2
  unfold addDebit
  simp only [h1.val, e]
  cases i
  · exact (initPut_eff hs hb _ _).1
  · exact (initPut_eff hs hb _ _).1

theorem computeBalance_eff {m : Memory} (hs : Sep m) {b : Nat} (hb : b < m.nextObj) (i : Bool) :
    Eff m (computeBalance m b i)
      (if i then updV (val m) b .ib (val m b .ic - val m b .idb)
       else updV (val m) b .bal (val m b .cr - val m b .db)) := by
  obtain ⟨h1, _⟩ := init_eff hs hb
  unfold computeBalance
  simp only [h1.val]
  cases i
  · exact (initPut_eff hs hb _ _).1
  · exact (initPut_eff hs hb _ _).1

theorem updV_other (v : Vals) {b c : Nat} (f : Fld) (x : Int) (h : c ≠ b) (g : Fld) : updV v b f x c g = v c g := by
  simp [updV, h]

theorem postCredit_eff {m : Memory} (hs : Sep m) {b : Nat} (hb : b < m.nextObj) {a : Nat} (ha : Free m a) (i : Bool) :
    ∃ v, Eff m (computeBalance (addCredit m b a i) b i) v ∧ (∀ c, c ≠ b → ∀ f, v c f = val m c f) ∧
      view (computeBalance (addCredit m b a i) b i) b = (view m b).postCredit (m.ints a) i := by
  have h1 := addCredit_eff hs hb ha i
  have h2 := computeBalance_eff h1.sep (h1.lt hb) i
  rw [h1.val] at h2
  have h := h1.trans h2
  refine ⟨_, h, ?_, ?_⟩
  · intro c hc f; cases i <;> simp [updV, hc]
  · rw [h.view hs hb, view_eq]
    cases i <;> simp [build, updV, Balance.postCredit, Balance.addCredit, Balance.computeBalance]

theorem postDebit_eff {m : Memory} (hs : Sep m) {b : Nat} (hb : b < m.nextObj) {a : Nat} (ha : Free m a) (i : Bool) :
    ∃ v, Eff m (computeBalance (addDebit m b a i) b i) v ∧ (∀ c, c ≠ b → ∀ f, v c f = val m c f) ∧
      view (computeBalance (addDebit m b a i) b i) b = (view m b).postDebit (m.ints a) i := by
  have h1 := addDebit_eff hs hb ha i
  have h2 := computeBalance_eff h1.sep (h1.lt hb) i
  rw [h1.val] at h2
  have h := h1.trans h2
  refine ⟨_, h, ?_, ?_⟩
  · intro c hc f; cases i <;> simp [updV, hc]
  · rw [h.view hs hb, view_eq]
    cases i <;> simp [build, updV, Balance.postDebit, Balance.addDebit, Balance.computeBalance]

/-! ### The transaction -/

/-- The amount of the transaction is no figure of a balance. -/
def AmountFree (m : Memory) (p : PTxn) : Prop := ∀ a, p.pa = some a → Free m a

theorem Eff.amountFree {m m' : Memory} {v : Vals} (h : Eff m m' v) {p : PTxn} (ha : AmountFree m p) : AmountFree m' p :=
  fun a e => (h.ext.free a (ha a e)).1

theorem Eff.tview {m m' : Memory} {v : Vals} (h : Eff m m' v) {p : PTxn} (ha : AmountFree m p) :
    tview m' p = tview m p := by
  unfold Mem.tview
  cases hp : p.pa with
  | none => rfl
  | some a => simp [(h.ext.free a (ha a hp)).2]

theorem newAmount_eff {m : Memory} (hs : Sep m) (t : Txn) :
    Eff m (newAmount m t).1 (val m) ∧ AmountFree (newAmount m t).1 (newAmount m t).2 ∧
      tview (newAmount m t).1 (newAmount m t).2 = { t with preciseAmount := some (convertDecimalToPrecise t) } ∧
      (newAmount m t).2.pa ≠ none := by
  obtain ⟨h1, h2, h3⟩ := fresh_free hs (convertDecimalToPrecise t)
  refine ⟨h1, ?_, ?_, by simp [newAmount]⟩
  · intro a e
    have : m.next = a := Option.some.inj e
    rw [← this]; exact h2
  · simp only [newAmount, Mem.tview, Option.map_some, h3]

theorem applyPrecision_eff {m : Memory} (hs : Sep m) {p : PTxn} (ha : AmountFree m p) :
    Eff m (applyPrecision m p).1 (val m) ∧ AmountFree (applyPrecision m p).1 (applyPrecision m p).2 ∧
      tview (applyPrecision m p).1 (applyPrecision m p).2 = (tview m p).applyPrecision ∧
      (applyPrecision m p).2.pa ≠ none := by
  unfold applyPrecision
  cases hp : p.pa with
  | none =>
    obtain ⟨h1, h2, h3, h4⟩ := newAmount_eff hs (if p.t.precision = 0 then { p.t with precision := 1 } else p.t)
    refine ⟨h1, h2, ?_, h4⟩
    dsimp only
    rw [h3]
    unfold Txn.applyPrecision tview
    rw [hp]
    by_cases h0 : p.t.precision = 0 <;> simp [h0, convertDecimalToPrecise]
  | some a =>
    dsimp only
    by_cases hpos : 0 < m.ints a
    · rw [if_pos hpos]
      refine ⟨Eff.refl hs, fun x e => ha x (hp.trans e), ?_, by simp⟩
      unfold Txn.applyPrecision tview
      rw [hp]
      by_cases h0 : p.t.precision = 0 <;> simp [h0, hpos]
    · rw [if_neg hpos]
      obtain ⟨h1, h2, h3, h4⟩ := newAmount_eff hs (if p.t.precision = 0 then { p.t with precision := 1 } else p.t)
      refine ⟨h1, h2, ?_, h4⟩
      rw [h3]
      unfold Txn.applyPrecision tview
      rw [hp]
      by_cases h0 : p.t.precision = 0 <;> simp [h0, hpos, convertDecimalToPrecise]

theorem precise_again (t : Txn) : t.applyPrecision.applyPrecision.preciseAmount = t.applyPrecision.preciseAmount :=
  (Preview.validate_twice t).2

/-! ### One side -/

/-- A method did to balance `b` what the value `r` says, to the transaction what `T` says, and nothing
to other balances. -/
structure Side (m : Memory) (b : Nat) (o : Out) (r : Except BalErr Balance) (T : Txn) : Prop where
  eff : ∃ v, Eff m o.1 v ∧ ∀ c, c ≠ b → ∀ f, v c f = val m c f
  amt : AmountFree o.1 o.2.1
  txn : tview o.1 o.2.1 = T
  ok : ∀ x, r = .ok x → o.2.2 = .ok () ∧ view o.1 b = x
  err : ∀ e, r = .error e → o.2.2 = .error e ∧ view o.1 b = view m b

theorem intsAmount {m : Memory} {p : PTxn} (h : p.pa ≠ none) : m.ints (p.pa.getD 0) = (tview m p).preciseAmount.getD 0 := by
  cases hp : p.pa with
  | none => exact absurd hp h
  | some a => simp [tview, hp]

theorem commitDebit_side {m : Memory} (hs : Sep m) {b : Nat} (hb : b < m.nextObj) {p : PTxn} (ha : AmountFree m p) :
    Side m b (commitDebit m b p) ((view m b).commitInflightDebit ((tview m p).applyPrecision.preciseAmount.getD 0))
      (tview m p).applyPrecision := by
  obtain ⟨h1, r1⟩ := init_eff hs hb
  obtain ⟨h2, ha2, ht2, hn2⟩ := applyPrecision_eff h1.sep (h1.amountFree ha)
  rw [h1.tview ha] at ht2
  rw [h1.val] at h2
  have h12 := h1.trans h2
  have r2 := h2.ready r1
  unfold commitDebit
  simp only []
  generalize applyPrecision (init m b) p = mp at h2 ha2 ht2 hn2 h12 r2 ⊢
  obtain ⟨m2, p2⟩ := mp
  dsimp only at h2 ha2 ht2 hn2 h12 r2 ⊢
  have hamt := intsAmount (m := m2) hn2
  rw [ht2] at hamt
  have hv : ∀ f, val m2 b f = val m b f := h12.vals b
  have hd : (view m b).inflightDebit = val m b .idb := rfl
  unfold Balance.commitInflightDebit
  rw [hd, hv, hamt]
  by_cases hlt : val m b .idb < (tview m p).applyPrecision.preciseAmount.getD 0
  · rw [if_pos hlt, if_pos hlt]
    refine ⟨⟨_, h12, fun _ _ _ => rfl⟩, ha2, ht2, fun _ h => (by cases h), fun e h => ?_⟩
    injection h with h
    subst h
    exact ⟨rfl, h12.view_same hs hb (fun _ => rfl)⟩
  · rw [if_neg hlt, if_neg hlt]
    generalize hA : (tview m p).applyPrecision.preciseAmount.getD 0 = A at hamt hlt ⊢
    have h3 := put_eff h12.sep r2 .idb (val m b .idb - A)
    rw [h12.val] at h3
    have r3 := h3.ready r2
    have ea : (put m2 b .idb (val m b .idb - A)).ints (p2.pa.getD 0) = A := by
      cases hp : p2.pa with
      | none => exact absurd hp hn2
      | some a =>
        rw [hp] at hamt
        exact (h3.ext.free a (ha2 a hp)).2.trans hamt
    have h4 := put_eff h3.sep r3 .db (val (put m2 b .idb (val m b .idb - A)) b .db + A)
    rw [h3.val] at h4
    have h34 := h12.trans (h3.trans h4)
    have h5 := computeBalance_eff h34.sep (h34.lt hb) true
    rw [h34.val] at h5
    have h345 := h34.trans h5
    have h6 := computeBalance_eff h345.sep (h345.lt hb) false
    rw [h345.val] at h6
    have h := h345.trans h6
    rw [ea, h3.val]
    have hend := (h3.trans (h4.trans (h5.trans h6)))
    refine ⟨⟨_, h, ?_⟩, hend.amountFree ha2, (hend.tview ha2).trans ht2, fun x hx => ?_, fun _ h => (by cases h)⟩
    · intro c hc f
      simp [updV, hc]
    · injection hx with hx
      refine ⟨rfl, ?_⟩
      rw [h.view hs hb, ← hx, view_eq]
      simp [build, updV, Balance.computeBalance]

theorem commitCredit_side {m : Memory} (hs : Sep m) {b : Nat} (hb : b < m.nextObj) {p : PTxn} (ha : AmountFree m p) :
    Side m b (commitCredit m b p) ((view m b).commitInflightCredit ((tview m p).applyPrecision.preciseAmount.getD 0))
      (tview m p).applyPrecision := by
  obtain ⟨h1, r1⟩ := init_eff hs hb
  obtain ⟨h2, ha2, ht2, hn2⟩ := applyPrecision_eff h1.sep (h1.amountFree ha)
  rw [h1.tview ha] at ht2
  rw [h1.val] at h2
  have h12 := h1.trans h2
  have r2 := h2.ready r1
  unfold commitCredit
  simp only []
  generalize applyPrecision (init m b) p = mp at h2 ha2 ht2 hn2 h12 r2 ⊢
  obtain ⟨m2, p2⟩ := mp
  dsimp only at h2 ha2 ht2 hn2 h12 r2 ⊢
  have hamt := intsAmount (m := m2) hn2
  rw [ht2] at hamt
  have hv : ∀ f, val m2 b f = val m b f := h12.vals b
  have hd : (view m b).inflightCredit = val m b .ic := rfl
  unfold Balance.commitInflightCredit
  rw [hd, hv, hamt]
  by_cases hlt : val m b .ic < (tview m p).applyPrecision.preciseAmount.getD 0
  · rw [if_pos hlt, if_pos hlt]
    refine ⟨⟨_, h12, fun _ _ _ => rfl⟩, ha2, ht2, fun _ h => (by cases h), fun e h => ?_⟩
    injection h with h
    subst h
    exact ⟨rfl, h12.view_same hs hb (fun _ => rfl)⟩
  · rw [if_neg hlt, if_neg hlt]
    generalize hA : (tview m p).applyPrecision.preciseAmount.getD 0 = A at hamt hlt ⊢
    have h3 := put_eff h12.sep r2 .ic (val m b .ic - A)
    rw [h12.val] at h3
    have r3 := h3.ready r2
    have ea : (put m2 b .ic (val m b .ic - A)).ints (p2.pa.getD 0) = A := by
      cases hp : p2.pa with
      | none => exact absurd hp hn2
      | some a =>
        rw [hp] at hamt
        exact (h3.ext.free a (ha2 a hp)).2.trans hamt
    have h4 := put_eff h3.sep r3 .cr (val (put m2 b .ic (val m b .ic - A)) b .cr + A)
    rw [h3.val] at h4
    have h34 := h12.trans (h3.trans h4)
    have h5 := computeBalance_eff h34.sep (h34.lt hb) true
    rw [h34.val] at h5
    have h345 := h34.trans h5
    have h6 := computeBalance_eff h345.sep (h345.lt hb) false
    rw [h345.val] at h6
    have h := h345.trans h6
    rw [ea, h3.val]
    have hend := (h3.trans (h4.trans (h5.trans h6)))
    refine ⟨⟨_, h, ?_⟩, hend.amountFree ha2, (hend.tview ha2).trans ht2, fun x hx => ?_, fun _ h => (by cases h)⟩
    · intro c hc f
      simp [updV, hc]
    · injection hx with hx
      refine ⟨rfl, ?_⟩
      rw [h.view hs hb, ← hx, view_eq]
      simp [build, updV, Balance.computeBalance]

/-- What a void makes of a balance, as a value. -/
def voided (t : Txn) (f : Int → Except BalErr Balance) : Except BalErr Balance :=
  match t.preciseAmount with
  | none => .error .nilAmount
  | some x => f x

theorem rollbackDebit_side {m : Memory} (hs : Sep m) {b : Nat} (hb : b < m.nextObj) {p : PTxn} (ha : AmountFree m p) :
    Side m b (rollbackDebit m b p) (voided (tview m p) (view m b).rollbackInflightDebit) (tview m p) := by
  obtain ⟨h1, r1⟩ := init_eff hs hb
  have ht := h1.tview ha
  unfold rollbackDebit voided
  cases hp : p.pa with
  | none =>
    simp only [tview, hp, Option.map_none]
    refine ⟨⟨_, h1, fun _ _ _ => rfl⟩, h1.amountFree ha, by simp [tview, hp], fun _ h => (by cases h), fun e h => ?_⟩
    injection h with h
    subst h
    exact ⟨rfl, h1.view_same hs hb (fun _ => rfl)⟩
  | some a =>
    have ea : (init m b).ints a = m.ints a := (h1.ext.free a (ha a hp)).2
    have hd : (view m b).inflightDebit = val m b .idb := rfl
    have hpm : (tview m p).preciseAmount = some (m.ints a) := by simp [tview, hp]
    simp only [hpm, h1.val, ea, Balance.rollbackInflightDebit, hd]
    by_cases hlt : val m b .idb < m.ints a
    · rw [if_pos hlt, if_pos hlt]
      refine ⟨⟨_, h1, fun _ _ _ => rfl⟩, h1.amountFree ha, ht, fun _ h => (by cases h), fun e h => ?_⟩
      injection h with h
      subst h
      exact ⟨rfl, h1.view_same hs hb (fun _ => rfl)⟩
    · rw [if_neg hlt, if_neg hlt]
      have h3 := put_eff h1.sep r1 .idb (val m b .idb - m.ints a)
      rw [h1.val] at h3
      have h13 := h1.trans h3
      have h5 := computeBalance_eff h13.sep (h13.lt hb) true
      rw [h13.val] at h5
      have h := h13.trans h5
      refine ⟨⟨_, h, ?_⟩, h.amountFree ha, h.tview ha, fun x hx => ?_, fun _ h => (by cases h)⟩
      · intro c hc f
        simp [updV, hc]
      · injection hx with hx
        refine ⟨rfl, ?_⟩
        rw [h.view hs hb, ← hx, view_eq]
        simp [build, updV, Balance.computeBalance]

theorem rollbackCredit_side {m : Memory} (hs : Sep m) {b : Nat} (hb : b < m.nextObj) {p : PTxn} (ha : AmountFree m p) :
    Side m b (rollbackCredit m b p) (voided (tview m p) (view m b).rollbackInflightCredit) (tview m p) := by
  obtain ⟨h1, r1⟩ := init_eff hs hb
  have ht := h1.tview ha
  unfold rollbackCredit voided
  cases hp : p.pa with
  | none =>
    simp only [tview, hp, Option.map_none]
    refine ⟨⟨_, h1, fun _ _ _ => rfl⟩, h1.amountFree ha, by simp [tview, hp], fun _ h => (by cases h), fun e h => ?_⟩
    injection h with h
    subst h
    exact ⟨rfl, h1.view_same hs hb (fun _ => rfl)⟩
  | some a =>
    have ea : (init m b).ints a = m.ints a := (h1.ext.free a (ha a hp)).2
    have hd : (view m b).inflightCredit = val m b .ic := rfl
    have hpm : (tview m p).preciseAmount = some (m.ints a) := by simp [tview, hp]
    simp only [hpm, h1.val, ea, Balance.rollbackInflightCredit, hd]
    by_cases hlt : val m b .ic < m.ints a
    · rw [if_pos hlt, if_pos hlt]
      refine ⟨⟨_, h1, fun _ _ _ => rfl⟩, h1.amountFree ha, ht, fun _ h => (by cases h), fun e h => ?_⟩
      injection h with h
      subst h
      exact ⟨rfl, h1.view_same hs hb (fun _ => rfl)⟩
    · rw [if_neg hlt, if_neg hlt]
      have h3 := put_eff h1.sep r1 .ic (val m b .ic - m.ints a)
      rw [h1.val] at h3
      have h13 := h1.trans h3
      have h5 := computeBalance_eff h13.sep (h13.lt hb) true
      rw [h13.val] at h5
      have h := h13.trans h5
      refine ⟨⟨_, h, ?_⟩, h.amountFree ha, h.tview ha, fun x hx => ?_, fun _ h => (by cases h)⟩
      · intro c hc f
        simp [updV, hc]
      · injection hx with hx
        refine ⟨rfl, ?_⟩
        rw [h.view hs hb, ← hx, view_eq]
        simp [build, updV, Balance.computeBalance]

/-- A plain payment on the source, as a value. -/
def plainSource (t : Txn) (b : Balance) : Except BalErr Balance := do
  let t' := t.applyPrecision
  t'.validate
  canProcessTransaction t' b
  return b.postDebit (t'.preciseAmount.getD 0) t.inflight

theorem updateSource_side {m : Memory} (hs : Sep m) {b d : Nat} (hb : b < m.nextObj) (hd : d < m.nextObj)
    {p : PTxn} (ha : AmountFree m p) :
    Side m b (updateSource m p b d) (plainSource (tview m p) (view m b)) (tview m p).applyPrecision := by
  obtain ⟨h2, ha2, ht2, hn2⟩ := applyPrecision_eff hs ha
  have hi : (applyPrecision m p).2.t.inflight = (tview m p).inflight :=
    (congrArg Txn.inflight ht2).trans (applyPrecision_keeps (tview m p)).2.2.2.1
  unfold updateSource plainSource
  simp only []
  generalize applyPrecision m p = mp at h2 ha2 ht2 hn2 hi ⊢
  obtain ⟨m2, p2⟩ := mp
  dsimp only at h2 ha2 ht2 hn2 hi ⊢
  have hv2 : view m2 b = view m b := h2.view_same hs hb (fun _ => rfl)
  rw [ht2, hv2]
  cases hval : (tview m p).applyPrecision.validate with
  | error e =>
    refine ⟨⟨_, h2, fun _ _ _ => rfl⟩, ha2, ht2, fun _ h => (by cases h), fun e h => ?_⟩
    injection h with h
    subst h
    exact ⟨rfl, hv2⟩
  | ok u =>
    cases hcan : canProcessTransaction (tview m p).applyPrecision (view m b) with
    | error e =>
      simp only []
      refine ⟨⟨_, h2, fun _ _ _ => rfl⟩, ha2, ht2, fun _ h => (by cases h), fun e h => ?_⟩
      injection h with h
      subst h
      exact ⟨rfl, hv2⟩
    | ok u' =>
      simp only []
      obtain ⟨h3, _⟩ := init_eff h2.sep (h2.lt hb)
      rw [h2.val] at h3
      have h23 := h2.trans h3
      obtain ⟨h4, _⟩ := init_eff h23.sep (h23.lt hd)
      rw [h23.val] at h4
      have h34 := h3.trans h4
      have h234 := h2.trans h34
      have ha4 := h34.amountFree ha2
      have ht4 := (h34.tview ha2).trans ht2
      obtain ⟨a, hp⟩ : ∃ a, p2.pa = some a := by
        cases hp : p2.pa with
        | none => exact absurd hp hn2
        | some a => exact ⟨a, rfl⟩
      have hamt := intsAmount (m := init (init m2 b) d) hn2
      rw [ht4] at hamt
      rw [hp] at hamt ⊢
      obtain ⟨v, h5, h6, h7⟩ := postDebit_eff h234.sep (h234.lt hb) (ha4 a hp) p2.t.inflight
      have hend := h34.trans h5
      refine ⟨⟨v, h234.trans h5, fun c hc f => (h6 c hc f).trans (h234.vals c f)⟩, hend.amountFree ha2,
        (hend.tview ha2).trans ht2, fun x hx => ?_, fun _ h => (by cases h)⟩
      injection hx with hx
      refine ⟨rfl, ?_⟩
      simp only [Option.getD_some] at hamt ⊢
      rw [h7, h234.view_same hs hb (fun _ => rfl), hamt, hi]
      exact hx

theorem updateDestination_side {m : Memory} (hs : Sep m) {b : Nat} (hb : b < m.nextObj) {p : PTxn}
    (ha : AmountFree m p) (hn : p.pa ≠ none) :
    Side m b (updateDestination m p b, p, .ok ())
      (.ok ((view m b).postCredit ((tview m p).preciseAmount.getD 0) p.t.inflight)) (tview m p) := by
  have hamt := intsAmount (m := m) hn
  obtain ⟨a, hp⟩ : ∃ a, p.pa = some a := by
    cases hp : p.pa with
    | none => exact absurd hp hn
    | some a => exact ⟨a, rfl⟩
  unfold updateDestination
  rw [hp] at hamt ⊢
  simp only [Option.getD_some] at hamt ⊢
  obtain ⟨v, h5, h6, h7⟩ := postCredit_eff hs hb (ha a hp) p.t.inflight
  refine ⟨⟨v, h5, h6⟩, h5.amountFree ha, h5.tview ha, fun x hx => ?_, fun _ h => (by cases h)⟩
  injection hx with hx
  exact ⟨rfl, by rw [h7, hamt]; exact hx⟩

/-! ### Both sides -/

theorem sourceSide_side {m : Memory} (hs : Sep m) {b d : Nat} (hb : b < m.nextObj) (hd : d < m.nextObj)
    {p : PTxn} (ha : AmountFree m p) :
    Side m b (sourceSide m p b d) (applySource (tview m p) (view m b)) (applyRecord (tview m p)) := by
  have hst : (tview m p).status = p.t.status := rfl
  unfold sourceSide applySource applyRecord
  rw [hst]
  cases p.t.status with
  | commit => exact commitDebit_side hs hb ha
  | void => exact rollbackDebit_side hs hb ha
  | _ => exact updateSource_side hs hb hd ha

/-- The destination, with the transaction as the source side left it. -/
theorem destinationSide_side {m : Memory} (hs : Sep m) {b : Nat} (hb : b < m.nextObj) {p : PTxn}
    (ha : AmountFree m p) {T : Txn} (ht : tview m p = applyRecord T) :
    ∃ T', Side m b (destinationSide m p b) (applyDestination T (view m b)) T' := by
  have hst : p.t.status = T.status := by
    have : (tview m p).status = (applyRecord T).status := by rw [ht]
    rw [show p.t.status = (tview m p).status from rfl, this]
    unfold applyRecord
    split
    · rfl
    · exact (applyPrecision_keeps T).2.2.1
  unfold destinationSide applyDestination
  rw [hst]
  have plain : T.status ≠ .void → T.applyPrecision = tview m p := by
    intro hne
    rw [ht]
    unfold applyRecord
    split
    · rename_i h; exact absurd h hne
    · rfl
  have other : T.status ≠ .void → Side m b (updateDestination m p b, p, .ok ())
      (.ok ((view m b).postCredit (T.applyPrecision.preciseAmount.getD 0) T.inflight)) (tview m p) := by
    intro hne
    have e := plain hne
    have hi : p.t.inflight = T.inflight := by
      rw [show p.t.inflight = (tview m p).inflight from rfl, ← e]
      exact (applyPrecision_keeps T).2.2.2.1
    have hn : p.pa ≠ none := by
      intro h
      obtain ⟨q, hq⟩ := applyPrecision_some T
      rw [e] at hq
      simp [tview, h] at hq
    rw [e, ← hi]
    exact updateDestination_side hs hb ha hn
  cases hT : T.status with
  | commit =>
    have e := plain (by rw [hT]; simp)
    refine ⟨(tview m p).applyPrecision, ?_⟩
    have := commitCredit_side hs hb ha
    rw [← e, precise_again] at this
    rw [← e]
    exact this
  | void =>
    have e : tview m p = T := by rw [ht]; unfold applyRecord; rw [hT]
    refine ⟨tview m p, ?_⟩
    have := rollbackCredit_side hs hb ha
    rw [e] at this ⊢
    exact this
  | _ => exact ⟨_, other (by rw [hT]; simp)⟩

end Blnk.Mem
