import Verif.Lemmas.MemoryClone
/-
C211: working out a payment changes the two balances it is for, as `Model/Balance` says, and nothing else
in memory; a dry run shows the figures from before beside those after.
-/
namespace Blnk.Mem

/-! ### Specification -/

/-- What a payment makes of balances as values. -/
def payment (T : Txn) (s d : Nat) (σ : Nat → Balance) : Except BalErr (Nat → Balance) :=
  if s = d then
    match applyToAliased T (σ s) with
    | .error e => .error e
    | .ok x => .ok (upd σ s x)
  else
    match applyToBalances T (σ s) (σ d) with
    | .error e => .error e
    | .ok (x, y) => .ok (upd (upd σ s x) d y)

/-- What payments one after the other make of them, up to the first that is refused. -/
def payments : List (Txn × Nat × Nat) → (Nat → Balance) → Except BalErr (Nat → Balance)
  | [], σ => .ok σ
  | (T, s, d) :: js, σ =>
    match payment T s d σ with
    | .error e => .error e
    | .ok σ => payments js σ

/-- The same payments in memory. -/
def applyAll (m : Memory) : List (PTxn × Nat × Nat) → Memory × Except BalErr Unit
  | [] => (m, .ok ())
  | (p, s, d) :: js =>
    match apply m p s d with
    | (m, _, .error e) => (m, .error e)
    | (m, _, .ok ()) => applyAll m js

/-- What is in memory agrees with the values. -/
def Agrees (m : Memory) (σ : Nat → Balance) : Prop := ∀ c, c < m.nextObj → view m c = σ c

/-- Balances of rows, as they are read. -/
def loadAll (m : Memory) : List Balance → Memory
  | [] => m
  | x :: xs => loadAll (load m x) xs

/-! ### One payment -/

theorem apply_all {m : Memory} (hs : Sep m) {p : PTxn} (ha : AmountFree m p) {s d : Nat}
    (hb : s < m.nextObj) (hd : d < m.nextObj) {σ : Nat → Balance} (hσ : Agrees m σ) :
    (∃ v, Eff m (apply m p s d).1 v ∧ ∀ c, c ≠ s → c ≠ d → ∀ f, v c f = val m c f) ∧
    (∀ e, payment (tview m p) s d σ = .error e → (apply m p s d).2.2 = .error e) ∧
    (∀ τ, payment (tview m p) s d σ = .ok τ → (apply m p s d).2.2 = .ok () ∧ Agrees (apply m p s d).1 τ) := by
  have h1 := sourceSide_side hs hb hd ha
  obtain ⟨v1, e1, k1⟩ := h1.eff
  unfold apply
  rcases hout : sourceSide m p s d with ⟨m1, p1, r1⟩
  rw [hout] at h1 e1
  dsimp only at h1 e1
  have hss : σ s = view m s := (hσ s hb).symm
  have hdd : σ d = view m d := (hσ d hd).symm
  cases hsrc : applySource (tview m p) (view m s) with
  | error e =>
    obtain ⟨g1, _⟩ := h1.err e hsrc
    dsimp only at g1
    subst g1
    dsimp only
    refine ⟨⟨v1, e1, fun c hc _ f => k1 c hc f⟩, ?_, ?_⟩
    · intro e' h
      unfold payment applyToAliased applyToBalances at h
      rw [hss, hsrc] at h
      split at h <;> · injection h with h; subst h; rfl
    · intro τ h
      unfold payment applyToAliased applyToBalances at h
      rw [hss, hsrc] at h
      split at h <;> cases h
  | ok x =>
    obtain ⟨g1, g2⟩ := h1.ok x hsrc
    dsimp only at g1 g2
    subst g1
    dsimp only
    obtain ⟨T', h2⟩ := destinationSide_side e1.sep (e1.lt hd) h1.amt h1.txn
    obtain ⟨v2, e2, k2⟩ := h2.eff
    have others : ∀ c, c ≠ s → c ≠ d → ∀ f, v2 c f = val m c f := fun c hc hc' f => by
      rw [k2 c hc' f, e1.vals, k1 c hc f]
    have e12 := e1.trans e2
    refine ⟨⟨v2, e12, others⟩, ?_, ?_⟩
    · intro e h
      unfold payment applyToAliased applyToBalances at h
      split at h
      · rename_i hsd
        subst hsd
        rw [hss, hsrc] at h
        rw [g2] at h2
        cases hdst : applyDestination (tview m p) x with
        | ok y => simp only [bind, Except.bind, hdst] at h; cases h
        | error e' =>
          simp only [bind, Except.bind, hdst] at h
          injection h with h
          subst h
          exact (h2.err _ hdst).1
      · rename_i hsd
        rw [hss, hdd, hsrc] at h
        have hvd : view m1 d = view m d := e1.view_same hs hd (k1 d (fun h => hsd h.symm))
        rw [hvd] at h2
        cases hdst : applyDestination (tview m p) (view m d) with
        | ok y => simp only [bind, Except.bind, hdst] at h; cases h
        | error e' =>
          simp only [bind, Except.bind, hdst] at h
          injection h with h
          subst h
          exact (h2.err _ hdst).1
    · intro τ h
      unfold payment applyToAliased applyToBalances at h
      split at h
      · rename_i hsd
        subst hsd
        rw [hss, hsrc] at h
        rw [g2] at h2
        cases hdst : applyDestination (tview m p) x with
        | error e' => simp only [bind, Except.bind, hdst] at h; cases h
        | ok y =>
          simp only [bind, Except.bind, hdst] at h
          injection h with h
          subst h
          obtain ⟨r1, r2⟩ := h2.ok y hdst
          refine ⟨r1, ?_⟩
          intro c hc
          rw [e12.ext.objs] at hc
          by_cases hcs : c = s
          · subst hcs; rw [upd_same]; exact r2
          · rw [upd_other _ _ hcs, ← hσ c hc]
            exact e12.view_same hs hc (others c hcs hcs)
      · rename_i hsd
        rw [hss, hdd, hsrc] at h
        have hvd : view m1 d = view m d := e1.view_same hs hd (k1 d (fun h => hsd h.symm))
        rw [hvd] at h2
        cases hdst : applyDestination (tview m p) (view m d) with
        | error e' => simp only [bind, Except.bind, hdst] at h; cases h
        | ok y =>
          simp only [bind, Except.bind, hdst, pure, Except.pure] at h
          injection h with h
          subst h
          obtain ⟨r1, r2⟩ := h2.ok y hdst
          refine ⟨r1, ?_⟩
          intro c hc
          rw [e12.ext.objs] at hc
          by_cases hcd : c = d
          · subst hcd; rw [upd_same]; exact r2
          · rw [upd_other _ _ hcd]
            by_cases hcs : c = s
            · subst hcs
              rw [upd_same, ← g2]
              exact e2.view_same e1.sep (e1.lt hb) (fun f => k2 _ hcd f)
            · rw [upd_other _ _ hcs, ← hσ c hc]
              exact e12.view_same hs hc (others c hcs hcd)

/-! ### C211 -/

/-- C211, the figures: in memory, payments one after the other make of all balances there are what they
make of values, and the same one is refused with the same error; also when a payment goes from a balance
to itself. -/
theorem c211_figures (js : List (PTxn × Nat × Nat)) : ∀ {m : Memory} {σ : Nat → Balance}, Sep m → Agrees m σ →
    (∀ j ∈ js, AmountFree m j.1 ∧ j.2.1 < m.nextObj ∧ j.2.2 < m.nextObj) →
    match payments (js.map fun j => (tview m j.1, j.2)) σ with
    | .error e => (applyAll m js).2 = .error e
    | .ok τ => (applyAll m js).2 = .ok () ∧ Agrees (applyAll m js).1 τ := by
  induction js with
  | nil => intro m σ _ hσ _; exact ⟨rfl, hσ⟩
  | cons j js ih =>
    intro m σ hs hσ hj
    obtain ⟨p, s, d⟩ := j
    obtain ⟨ha, hb, hd⟩ := hj (p, s, d) (by simp)
    obtain ⟨⟨v, hv, _⟩, herr, hok⟩ := apply_all hs ha hb hd hσ
    simp only [List.map_cons, payments, applyAll]
    rcases hout : apply m p s d with ⟨m1, p1, r1⟩
    rw [hout] at hv herr hok
    dsimp only at hv herr hok
    cases hp : payment (tview m p) s d σ with
    | error e =>
      have := herr e hp
      subst this
      rfl
    | ok τ =>
      obtain ⟨h1, h2⟩ := hok τ hp
      subst h1
      have hj' : ∀ j ∈ js, AmountFree m1 j.1 ∧ j.2.1 < m1.nextObj ∧ j.2.2 < m1.nextObj := by
        intro j hjm
        obtain ⟨k1, k2, k3⟩ := hj j (List.mem_cons_of_mem _ hjm)
        exact ⟨hv.amountFree k1, hv.lt k2, hv.lt k3⟩
      have ht : (js.map fun j => (tview m j.1, j.2)) = js.map fun j => (tview m1 j.1, j.2) := by
        apply List.map_congr_left
        intro j hjm
        rw [hv.tview (hj j (List.mem_cons_of_mem _ hjm)).1]
      rw [ht]
      exact ih hv.sep h2 hj'

/-- C211, the rest: whether a payment is made or refused, no other balance changes, nor does any integer
that is no figure, such as the amount of a transaction. -/
theorem c211_rest {m : Memory} (hs : Sep m) {p : PTxn} (ha : AmountFree m p) {s d : Nat}
    (hb : s < m.nextObj) (hd : d < m.nextObj) :
    Sep (apply m p s d).1 ∧
    (∀ c, c < m.nextObj → c ≠ s → c ≠ d → view (apply m p s d).1 c = view m c) ∧
    (∀ x, Free m x → (apply m p s d).1.ints x = m.ints x) := by
  obtain ⟨⟨v, hv, ho⟩, _, _⟩ := apply_all hs ha hb hd (σ := view m) (fun _ _ => rfl)
  exact ⟨hv.sep, fun c hc h1 h2 => hv.view_same hs hc (ho c h1 h2), fun x hx => (hv.ext.free x hx).2⟩

/-- C211, copies: a copy has the same figures; nothing that is done to it changes the original, and nothing
that is done to other balances changes the copy. -/
theorem c211_copy {m : Memory} (hs : Sep m) {b : Nat} (hb : b < m.nextObj) :
    view (clone m b) m.nextObj = view m b ∧ (∀ c, c < m.nextObj → view (clone m b) c = view m c) ∧
    (∀ {p : PTxn}, AmountFree m p → ∀ {d : Nat}, d < m.nextObj → d ≠ b →
      view (apply (clone m b) p m.nextObj d).1 b = view m b) ∧
    (∀ {p : PTxn}, AmountFree m p → ∀ {s d : Nat}, s < m.nextObj → d < m.nextObj →
      view (apply (clone m b) p s d).1 m.nextObj = view m b) := by
  have h := clone_made hs hb
  refine ⟨h.same, h.others, ?_, ?_⟩
  · intro p ha d hd hdb
    have ha' : AmountFree (clone m b) p := fun a e => (h.free a (ha a e)).1
    have := (c211_rest h.sep ha' (s := m.nextObj) (d := d) (by rw [h.next]; omega) (by rw [h.next]; omega)).2.1 b
      (by rw [h.next]; omega) (by omega) (fun e => hdb e.symm)
    rw [this, h.others b hb]
  · intro p ha s d hsn hd
    have ha' : AmountFree (clone m b) p := fun a e => (h.free a (ha a e)).1
    have := (c211_rest h.sep ha' (s := s) (d := d) (by rw [h.next]; omega) (by rw [h.next]; omega)).2.1 m.nextObj
      (by rw [h.next]; omega) (by omega) (by omega)
    rw [this, h.same]

/-- C211, dry runs: beside each other are shown the figures as they are, and as the payment would make
them; when it would be refused, as they are. -/
theorem c211_preview {m : Memory} (hs : Sep m) {p : PTxn} (ha : AmountFree m p) {s d : Nat}
    (hb : s < m.nextObj) (hd : d < m.nextObj) :
    (preview m p s d).sourceBefore = view m s ∧ (preview m p s d).destBefore = view m d ∧
    match payment (tview m p) s d (view m) with
    | .ok τ => (preview m p s d).ok = true ∧ (preview m p s d).sourceAfter = τ s ∧ (preview m p s d).destAfter = τ d
    | .error _ => (preview m p s d).ok = false ∧ (preview m p s d).sourceAfter = view m s ∧
        (preview m p s d).destAfter = view m d := by
  have h1 := clone_made hs hb
  have h2 := clone_made h1.sep (b := d) (by rw [h1.next]; omega)
  have n2 : (clone (clone m s) d).nextObj = m.nextObj + 2 := by rw [h2.next, h1.next]
  have ha1 : AmountFree (clone m s) p := fun a e => (h1.free a (ha a e)).1
  have ha2 : AmountFree (clone (clone m s) d) p := fun a e => (h2.free a (ha1 a e)).1
  have ht : tview (clone (clone m s) d) p = tview m p := by
    unfold tview
    cases hp : p.pa with
    | none => rfl
    | some a => simp [(h2.free a (ha1 a hp)).2, (h1.free a (ha a hp)).2]
  have vs : ∀ c, c < m.nextObj → view (clone (clone m s) d) c = view m c := fun c hc => by
    rw [h2.others c (by rw [h1.next]; omega), h1.others c hc]
  have vs0 : view (clone (clone m s) d) m.nextObj = view m s := by
    rw [h2.others _ (by rw [h1.next]; omega), h1.same]
  have vd0 : view (clone (clone m s) d) (clone m s).nextObj = view m d := by
    rw [h2.same, h1.others d hd]
  have hn1 : (clone m s).nextObj = m.nextObj + 1 := h1.next
  obtain ⟨⟨v, hv, ho⟩, herr, hok⟩ := apply_all h2.sep ha2 (s := s) (d := d) (by rw [n2]; omega) (by rw [n2]; omega)
    (σ := view (clone (clone m s) d)) (fun _ _ => rfl)
  have ks0 : view (apply (clone (clone m s) d) p s d).1 m.nextObj = view m s := by
    rw [hv.view_same h2.sep (by rw [n2]; omega) (ho _ (by omega) (by omega)), vs0]
  have kd0 : view (apply (clone (clone m s) d) p s d).1 (clone m s).nextObj = view m d := by
    rw [hv.view_same h2.sep (by rw [n2]; omega) (ho _ (by omega) (by omega)), vd0]
  rw [ht] at herr hok
  have hpay : ∀ τ, payment (tview m p) s d (view m) = .ok τ → ∃ τ', payment (tview m p) s d (view (clone (clone m s) d)) = .ok τ' ∧
      τ' s = τ s ∧ τ' d = τ d := by
    intro τ h
    unfold payment at h ⊢
    rw [vs s hb, vs d hd]
    by_cases hsd : s = d
    · rw [if_pos hsd] at h ⊢
      cases hx : applyToAliased (tview m p) (view m s) with
      | error e => rw [hx] at h; cases h
      | ok x =>
        rw [hx] at h
        injection h with h
        subst h
        subst hsd
        exact ⟨_, rfl, by rw [upd_same, upd_same], by rw [upd_same, upd_same]⟩
    · rw [if_neg hsd] at h ⊢
      cases hx : applyToBalances (tview m p) (view m s) (view m d) with
      | error e => rw [hx] at h; cases h
      | ok x =>
        rw [hx] at h
        injection h with h
        subst h
        exact ⟨_, rfl, by rw [upd_other _ _ hsd, upd_other _ _ hsd, upd_same, upd_same], by rw [upd_same, upd_same]⟩
  have hpay' : ∀ e, payment (tview m p) s d (view m) = .error e →
      payment (tview m p) s d (view (clone (clone m s) d)) = .error e := by
    intro e h
    unfold payment at h ⊢
    rw [vs s hb, vs d hd]
    by_cases hsd : s = d
    · rw [if_pos hsd] at h ⊢
      cases hx : applyToAliased (tview m p) (view m s) with
      | error e => rw [hx] at h; exact h
      | ok x => rw [hx] at h; cases h
    · rw [if_neg hsd] at h ⊢
      cases hx : applyToBalances (tview m p) (view m s) (view m d) with
      | error e => rw [hx] at h; exact h
      | ok x => rw [hx] at h; cases h
  unfold preview
  simp only []
  rcases hout : apply (clone (clone m s) d) p s d with ⟨m3, p3, r3⟩
  rw [hout] at hv herr hok ks0 kd0
  dsimp only at hv herr hok ks0 kd0
  have n3 : m3.nextObj = m.nextObj + 2 := hv.ext.objs.trans n2
  cases hp : payment (tview m p) s d (view m) with
  | error e =>
    have := herr e (hpay' e hp)
    subst this
    exact ⟨ks0, kd0, rfl, ks0, kd0⟩
  | ok τ =>
    obtain ⟨τ', h3, h4, h5⟩ := hpay τ hp
    obtain ⟨h6, h7⟩ := hok τ' h3
    subst h6
    refine ⟨ks0, kd0, rfl, ?_, ?_⟩
    · rw [← h4]; exact h7 s (by rw [n3]; omega)
    · rw [← h5]; exact h7 d (by rw [n3]; omega)

/-- C211, its premise: balances that are read from the database have figures of their own. -/
theorem c211_loaded (xs : List Balance) : ∀ {m : Memory}, Sep m →
    Sep (loadAll m xs) ∧ (loadAll m xs).nextObj = m.nextObj + xs.length ∧
    (∀ c, c < m.nextObj → view (loadAll m xs) c = view m c) ∧
    (∀ i (h : i < xs.length), view (loadAll m xs) (m.nextObj + i) = xs[i]) := by
  induction xs with
  | nil => intro m hs; exact ⟨hs, rfl, fun _ _ => rfl, fun i h => absurd h (Nat.not_lt_zero _)⟩
  | cons x xs ih =>
    intro m hs
    have h := load_made hs x
    obtain ⟨k1, k2, k3, k4⟩ := ih h.sep
    refine ⟨k1, ?_, ?_, ?_⟩
    · show (loadAll (load m x) xs).nextObj = _
      rw [k2, h.next, List.length_cons]; omega
    · intro c hc
      show view (loadAll (load m x) xs) c = _
      rw [k3 c (by rw [h.next]; omega), h.others c hc]
    · intro i hi
      show view (loadAll (load m x) xs) _ = _
      cases i with
      | zero => rw [Nat.add_zero, k3 _ (by rw [h.next]; omega), h.same]; rfl
      | succ i =>
        have hi' : i < xs.length := by simpa using hi
        have := k4 i hi'
        rw [h.next] at this
        rw [show m.nextObj + (i + 1) = m.nextObj + 1 + i by omega, this]
        rfl

/-! ### Cases -/

def alice : Balance := { id := "bln_alice", balance := 500, credit := 500, inflightDebit := 100, inflightBalance := -100 }
def bob : Balance := { id := "bln_bob", balance := 20, credit := 20 }
def mem2 : Memory := loadAll empty [alice, bob]

/-- Ten minor units, at an address of their own. -/
def mem3 : Memory := alloc mem2 10
def ten : PTxn := { t := { id := "txn_1", precision := 1 }, pa := some mem2.next }

theorem mem2_sep : Sep mem2 := (c211_loaded [alice, bob] empty_sep).1

/-- The premises can be met. -/
example : Sep mem3 ∧ AmountFree mem3 ten ∧ mem3.nextObj = 2 := by
  obtain ⟨h1, h2, _⟩ := fresh_free mem2_sep 10
  refine ⟨h1.sep, ?_, by decide +kernel⟩
  intro a e
  rw [← Option.some.inj e]
  exact h2

example : (apply mem3 ten 0 1).2.2 = .ok () ∧
    view (apply mem3 ten 0 1).1 0 = { alice with debit := 10, balance := 490 } ∧
    view (apply mem3 ten 0 1).1 1 = { bob with credit := 30, balance := 30 } := by decide +kernel

/-- A copy of the pointers alone would not do: the figures "from before" would change too. -/
theorem c211_shallow : view (apply (shallow mem3 0) ten 0 1).1 2 = { alice with debit := 10, balance := 490 } := by
  decide +kernel

/-- A void that fails on the side of the destination has changed the source in memory; the balances must
then not be stored (and are not). -/
theorem c211_half : (apply mem3 { ten with t := { ten.t with status := .void } } 0 1).2.2 =
      .error .insufficientInflightCredit ∧
    (view (apply mem3 { ten with t := { ten.t with status := .void } } 0 1).1 0).inflightDebit = 90 := by
  decide +kernel

/-- Were the amount the very integer of a figure, a commit would lose it. -/
theorem c211_alias : view (commitDebit mem2 0 { t := { id := "txn_1", precision := 1, status := .commit }
                                                pa := (mem2.objs 0).fig .idb }).1 0 =
    { alice with inflightDebit := 0, inflightBalance := 0 } := by decide +kernel

end Blnk.Mem
