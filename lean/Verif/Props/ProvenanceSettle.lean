import Verif.Props.ProvenanceFunds
/-
C88: settling a hold settles its lineage.
-/
namespace Blnk.Prov
open Lineage (Strategy Src Alloc calculate live)

/-- Nothing is left to do. -/
def Quiet (s : Sys) : Prop := ∀ it ∈ s.items, it.done = true ∨ it.failed = true

/-- **C88** in full, first half: when a hold is over and the outbox is empty, none of its
lineage is still held. -/
def C88OverFull : Prop := ∀ es, Quiet (psteps {} es) → ∀ m ∈ (psteps {} es).mains, m.held = true →
  m.closed = true ∨ m.paid = m.amount → ∀ r ∈ (psteps {} es).rows, r.parent = m.id → r.st ≠ .held

/-- **C88** in full, second half: what is settled of a provider's money is what was settled of
the hold. -/
def C88AmountFull : Prop := ∀ es, Quiet (psteps {} es) → ∀ m ∈ (psteps {} es).mains, m.held = true →
  ∀ r ∈ (psteps {} es).rows, r.parent = m.id → r.kind = .credit → r.st ≠ .held →
    (if r.settled then r.amount else 0) = m.paid

/-- A hold that is committed before its outbox item has been worked on. -/
def early : List Ev := setup ++ [.record { pay "1" "world" "bln_a" 100 "P" with held := true }, .commit "1" 0 [], go 0]

/-- **C88** (violated) Lineage written after the hold was committed stays held: nothing
settles it any more. -/
theorem c88_early_fails : ¬ C88OverFull := by
  intro h
  exact absurd (h early (by unfold Quiet; decide +kernel) { pay "1" "world" "bln_a" 100 "P" with held := true, paid := 100 }
    (by decide +kernel) rfl (.inr rfl)
    { ref := "r1_shadow_P", kind := .credit, parent := "1", provider := "P", src := shadowAcc "P" ada "USD", dst := aggAcc ada "USD",
      amount := 100, st := .held } (by decide +kernel) rfl) (by decide)

/-- 30 of a hold of 100 are committed, the rest is voided. -/
def part : List Ev := setup ++ [.record { pay "1" "world" "bln_a" 100 "P" with held := true }, go 0, .commit "1" 30 [], .void "1" []]

/-- **C88** (violated) Committing a part of a hold commits its lineage in full
(`lineage_shadow.go:42`): 100 are attributed to the provider, 30 were received. -/
theorem c88_part_fails : ¬ C88AmountFull ∧ (psteps {} part).report "bln_a" = [⟨"P", 100, 100, 0⟩] ∧
    holds (psteps {} part).mains "bln_a" = 30 := by
  refine ⟨fun h => ?_, by decide +kernel, by decide +kernel⟩
  exact absurd (h part (by unfold Quiet; decide +kernel) { pay "1" "world" "bln_a" 100 "P" with held := true, paid := 30, closed := true }
    (by decide +kernel) rfl
    { ref := "r1_shadow_P", kind := .credit, parent := "1", provider := "P", src := shadowAcc "P" ada "USD", dst := aggAcc ada "USD",
      amount := 100, st := .committed } (by decide +kernel) rfl rfl (by decide)) (by decide)

/-! ### What does hold -/

/-- What settling is meant to do: exactly the held rows of the hold change, and only in
their state. -/
def settledRows (id : String) (to : RStat) (rows : List Row) : List Row :=
  rows.map fun r => if r.parent = id ∧ r.st = .held then { r with st := to } else r

theorem settle_calm (id : String) (to : RStat) : ∀ rows : List Row, settleRows id to rows [] = (settledRows id to rows, .ok)
  | [] => rfl
  | r :: rs => by
    rw [settleRows.eq_def]
    dsimp only
    rw [settle_calm id to rs]
    unfold settledRows
    rw [List.map_cons]
    by_cases h : r.parent = id ∧ r.st = .held
    · rw [if_pos h, if_pos h]
    · rw [if_neg h, if_neg h]

/-- A hold that can be settled. -/
def Open (s : Sys) (m : Main) : Prop := s.main m.id = some m ∧ m.held = true ∧ m.closed = false ∧ m.paid < m.amount

/-- **C88** (partial) Committing the whole of a hold commits exactly the lineage rows that are
held for it, voiding it voids them, and no other lineage row changes. Missing from the full
statement: rows written later, and parts. -/
theorem c88_settles_partial (s : Sys) (m : Main) (h : Open s m) :
    (pstep s (.commit m.id 0 [])).rows = settledRows m.id .committed s.rows ∧
    (pstep s (.void m.id [])).rows = settledRows m.id .voided s.rows ∧
    (∀ x, (pstep s (.commit m.id 0 [])).main m.id = some x → x.paid = m.amount) := by
  obtain ⟨h1, h2, h3, h4⟩ := h
  refine ⟨?_, ?_, ?_⟩
  · simp only [pstep, Sys.commit, h1, if_true]
    rw [if_neg (by simp [h2, h3]; omega)]
    simp only [Sys.settle, settle_calm]
    rfl
  · simp only [pstep, Sys.void, h1]
    rw [if_neg (by simp [h2, h3]; omega)]
    simp only [Sys.settle, settle_calm]
    rfl
  · intro x hx
    simp only [pstep, Sys.commit, h1, if_true] at hx
    rw [if_neg (by simp [h2, h3]; omega)] at hx
    simp only [Sys.settle, settle_calm, Sys.retryItem, Sys.main, Sys.setMain] at hx
    obtain ⟨y, hy, e⟩ := List.mem_map.1 (List.mem_of_find?_eq_some hx)
    have hxid : x.id = m.id := by simpa using List.find?_some hx
    by_cases hc : y.id = m.id
    · rw [if_pos hc] at e; rw [← e]; dsimp only; omega
    · rw [if_neg hc] at e; rw [e] at hc; exact absurd hxid hc

example : Open (psteps {} (setup ++ [.record { pay "1" "world" "bln_a" 100 "P" with held := true }, go 0]))
      { pay "1" "world" "bln_a" 100 "P" with held := true } ∧
    ((psteps {} (setup ++ [.record { pay "1" "world" "bln_a" 100 "P" with held := true }, go 0])).rows.map Row.st) = [.held] := by
  refine ⟨⟨by decide +kernel, rfl, rfl, by decide⟩, by decide +kernel⟩

/-- What is held for a hold: out of an account, and into it. -/
def heldOut (id : String) (rows : List Row) (a : Acc) : Int :=
  ((rows.filter fun r => decide (r.parent = id ∧ r.st = .held ∧ r.src = a)).map Row.amount).sum

def heldIn (id : String) (rows : List Row) (a : Acc) : Int :=
  ((rows.filter fun r => decide (r.parent = id ∧ r.st = .held ∧ r.dst = a)).map Row.amount).sum

theorem settled_columns (id : String) (a : Acc) : ∀ rows : List Row,
    debit (settledRows id .voided rows) a = debit rows a ∧ credit (settledRows id .voided rows) a = credit rows a ∧
    heldDebit (settledRows id .voided rows) a = heldDebit rows a - heldOut id rows a ∧
    debit (settledRows id .committed rows) a = debit rows a + heldOut id rows a ∧
    credit (settledRows id .committed rows) a = credit rows a + heldIn id rows a ∧
    heldDebit (settledRows id .committed rows) a = heldDebit rows a - heldOut id rows a
  | [] => by simp [settledRows, debit, credit, heldDebit, heldOut, heldIn]
  | r :: rs => by
    have ih := settled_columns id a rs
    have hd : ∀ (x : Row) l, debit (x :: l) a = (if x.settled && x.src == a then x.amount else 0) + debit l a := fun _ _ => rfl
    have hc : ∀ (x : Row) l, credit (x :: l) a = (if x.settled && x.dst == a then x.amount else 0) + credit l a := fun _ _ => rfl
    have hh : ∀ (x : Row) l, heldDebit (x :: l) a = (if x.st == .held && x.src == a then x.amount else 0) + heldDebit l a :=
      fun _ _ => rfl
    have ho : heldOut id (r :: rs) a = (if r.parent = id ∧ r.st = .held ∧ r.src = a then r.amount else 0) + heldOut id rs a := by
      simp only [heldOut, List.filter_cons]
      by_cases h : r.parent = id ∧ r.st = .held ∧ r.src = a <;> simp [h]
    have hi : heldIn id (r :: rs) a = (if r.parent = id ∧ r.st = .held ∧ r.dst = a then r.amount else 0) + heldIn id rs a := by
      simp only [heldIn, List.filter_cons]
      by_cases h : r.parent = id ∧ r.st = .held ∧ r.dst = a <;> simp [h]
    have hs : ∀ to, settledRows id to (r :: rs) =
        (if r.parent = id ∧ r.st = .held then { r with st := to } else r) :: settledRows id to rs := fun _ => rfl
    simp only [hs, hd, hc, hh, ho, hi]
    generalize settledRows id .voided rs = V at *
    generalize settledRows id .committed rs = C at *
    by_cases hp : r.parent = id <;> by_cases h2 : r.src = a <;> by_cases h3 : r.dst = a <;>
      cases hst : r.st <;> simp [hp, h2, h3, hst, Row.settled] <;> omega

/-- **C88** (partial) What settling does to every lineage account: voiding a hold leaves what
is debited and credited as it was and only gives up what was held for it; committing the whole
of it moves exactly what was held for it. Missing from the full statement: as above. -/
theorem c88_columns_partial (s : Sys) (m : Main) (h : Open s m) (a : Acc) :
    let v := (pstep s (.void m.id [])).rows
    let c := (pstep s (.commit m.id 0 [])).rows
    debit v a = debit s.rows a ∧ credit v a = credit s.rows a ∧ heldDebit v a = heldDebit s.rows a - heldOut m.id s.rows a ∧
    debit c a = debit s.rows a + heldOut m.id s.rows a ∧ credit c a = credit s.rows a + heldIn m.id s.rows a ∧
    heldDebit c a = heldDebit s.rows a - heldOut m.id s.rows a := by
  dsimp only
  rw [(c88_settles_partial s m h).1, (c88_settles_partial s m h).2.1]
  exact settled_columns m.id a s.rows

example : let s := psteps {} (setup ++ [.record { pay "1" "world" "bln_a" 100 "P" with held := true }, go 0])
    heldOut "1" s.rows (shadowAcc "P" ada "USD") = 100 ∧ heldIn "1" s.rows (aggAcc ada "USD") = 100 ∧
    debit (pstep s (.commit "1" 0 [])).rows (shadowAcc "P" ada "USD") = 100 ∧
    debit (pstep s (.void "1" [])).rows (shadowAcc "P" ada "USD") = 0 := by decide +kernel

/-- **C88** A row that could not be settled is not forgotten: an outbox item for it is there,
and an undisturbed attempt at such an item settles everything that is held for the hold. -/
theorem c88_retry (s : Sys) (m : Main) (h : Open s m) (os : List Out) (hf : (settleRows m.id .committed s.rows os).2 = .err) :
    (∃ it ∈ (pstep s (.commit m.id 0 os)).items, it.work = .commit m.id) ∧
    ∀ s' g, (attempt g [] (.commit m.id) s').1.rows = settledRows m.id .committed s'.rows ∧
      (attempt g [] (.commit m.id) s').2 = .ok := by
  obtain ⟨h1, h2, h3, h4⟩ := h
  constructor
  · simp only [pstep, Sys.commit, h1, if_true]
    rw [if_neg (by simp [h2, h3]; omega)]
    simp only [Sys.settle, Sys.setMain]
    rw [hf]
    simp only [Sys.retryItem]
    split
    · rename_i ha
      obtain ⟨x, hx, e⟩ := List.any_eq_true.1 ha
      exact ⟨x, hx, by simpa using e⟩
    · exact ⟨{ work := .commit m.id }, by simp, rfl⟩
  · intro s' g
    simp [attempt, Sys.settle, settle_calm]

example : let s := psteps {} (setup ++ [.record { pay "1" "world" "bln_a" 100 "P" with held := true }, go 0])
    (settleRows "1" .committed s.rows [.err]).2 = .err ∧
    (psteps s [.commit "1" 0 [.err], go 1]).report "bln_a" = [⟨"P", 100, 100, 0⟩] := by decide +kernel

/-! ### Once and for all -/

/-- The hold's own item is finished, and nothing is held for it. -/
structure Shut (id : String) (s : Sys) : Prop where
  items : ∀ it ∈ s.items, it.work = .main id → it.done = true ∨ it.failed = true
  main : (s.main id).isSome = true
  rows : ∀ r ∈ s.rows, r.parent = id → r.st ≠ .held

theorem shut_settle {id s} (h : Shut id s) (id' to os) (ht : Final to) : Shut id (s.settle id' to os).1 where
  items := h.items
  main := h.main
  rows r hr e := by
    obtain ⟨x, hx, hx'⟩ := (settleRows_all2 id' to s.rows os).mem_right r hr
    rcases hx' with rfl | ⟨_, _, rfl⟩
    · exact h.rows r hx e
    · rcases ht with rfl | rfl <;> simp

theorem shut_retry {id s} (h : Shut id s) (wk o) (hw : wk ≠ .main id) : Shut id (s.retryItem wk o) := by
  unfold Sys.retryItem; split
  · split
    · exact h
    · refine ⟨?_, h.main, h.rows⟩
      intro it hit e
      rcases List.mem_append.1 hit with hit | hit
      · exact h.items it hit e
      · rw [List.mem_singleton.1 hit] at e; exact absurd e hw
  · exact h

theorem main_set {s : Sys} {m : Main} {id : String} (h : (s.main id).isSome = true) : ((s.setMain m).main id).isSome = true := by
  rw [Sys.main, List.find?_isSome] at h ⊢
  obtain ⟨x, hx, e⟩ := h
  refine ⟨if x.id = m.id then m else x, List.mem_map.2 ⟨x, hx, rfl⟩, ?_⟩
  split
  · rename_i hc; simpa [← hc] using e
  · exact e

theorem shut_process {id : String} {g : Sight} {m : Main} (hm : m.id ≠ id) (w : W) (h : Shut id w.sys) :
    Shut id (processMain g m w).1.sys := by
  have push : ∀ s r, Shut id s → r.parent = m.id → Shut id (s.push r) := by
    intro s r h e
    refine ⟨h.items, h.main, ?_⟩
    intro x hx ex
    rcases List.mem_append.1 hx with hx | hx
    · exact h.rows x hx ex
    · rw [List.mem_singleton.1 hx, e] at ex; exact absurd ex hm
  refine process_induct ?_ (fun w d p x => credit_bal m w d p x) ?_ w h
  · intro w d p h _ _ _ _
    refine credit_induct ?_ ?_ w h
    · intro s i h _ _; exact push s _ h rfl
    · intro s i h _; exact ⟨h.items, h.main, h.rows⟩
  · intro w b h _ _
    refine debit_induct w h ?_
    intro w' hw i _ _
    refine loop_induct ?_ ?_ ?_ _ w' (by rw [hw]; exact h)
    · intro s mp a h _ _; exact push s _ h rfl
    · intro s d i p a h _ _; exact push s _ h rfl
    · intro s d i p h _; exact ⟨h.items, h.main, h.rows⟩

theorem shut_step {id s} (h : Shut id s) (e : Ev) : Shut id (pstep s e) := by
  cases e with
  | ident i => exact ⟨h.items, h.main, h.rows⟩
  | bal b => simp only [pstep]; split <;> exact ⟨h.items, h.main, h.rows⟩
  | record m =>
    simp only [pstep, Sys.record]; split
    · exact h
    · rename_i hc
      simp only [not_or] at hc
      have hne : m.id ≠ id := fun e => hc.2.2.2.1 (by rw [e]; exact h.main)
      refine ⟨?_, ?_, h.rows⟩
      · intro it hit e
        dsimp only at hit
        split at hit
        · rcases List.mem_append.1 hit with hit | hit
          · exact h.items it hit e
          · rw [List.mem_singleton.1 hit] at e; injection e with e; exact absurd e hne
        · exact h.items it hit e
      · have := h.main
        rw [Sys.main, List.find?_isSome] at this ⊢
        obtain ⟨x, hx, e⟩ := this
        exact ⟨x, List.mem_append_left _ hx, e⟩
  | work k g os =>
    simp only [pstep]
    cases hk : s.items[k]? with
    | none => exact h
    | some it =>
      dsimp only; split
      · exact h
      · rename_i hopen
        have hitm : it ∈ s.items := List.mem_of_getElem? hk
        have hw : it.work ≠ .main id := fun e => hopen (by
          rcases h.items it hitm e with h | h <;> simp [h])
        have h1 : Shut id (attempt g os it.work s).1 := by
          unfold attempt
          cases hwk : it.work with
          | main id' =>
            dsimp only
            cases hm : s.main id' with
            | none => exact h
            | some m => exact shut_process (fun e => hw (by rw [hwk, ← e, (main_mem hm).2])) ⟨s, os⟩ h
          | commit id' => exact shut_settle h _ _ _ (.inl rfl)
          | void id' => exact shut_settle h _ _ _ (.inr rfl)
        refine ⟨?_, h1.main, h1.rows⟩
        intro x hx e
        rcases List.mem_or_eq_of_mem_set hx with hx | rfl
        · exact h1.items x hx e
        · exfalso
          have : (it.mark (attempt g os it.work s).2).work = it.work := by
            cases (attempt g os it.work s).2 <;> rfl
          exact hw (this ▸ e)
  | commit id' amt os =>
    simp only [pstep, Sys.commit]
    cases s.main id' with
    | none => exact h
    | some m =>
      dsimp only
      split
      all_goals
        split
        · exact h
        · apply shut_retry _ _ _ (by simp)
          apply shut_settle _ _ _ _ (.inl rfl)
          exact ⟨h.items, main_set h.main, h.rows⟩
  | void id' os =>
    simp only [pstep, Sys.void]
    cases s.main id' with
    | none => exact h
    | some m =>
      dsimp only
      split
      · exact h
      · apply shut_retry _ _ _ (by simp)
        apply shut_settle _ _ _ _ (.inr rfl)
        exact ⟨h.items, main_set h.main, h.rows⟩

theorem shut_steps {id} : ∀ (es : List Ev) (s : Sys), Shut id s → Shut id (psteps s es)
  | [], _, h => h
  | e :: es, _, h => shut_steps es _ (shut_step h e)

/-- **C88** (partial) If a hold's own item is finished when the hold is committed or voided,
and the settlement is undisturbed, then from then on none of its lineage is held, whatever
happens afterwards. Missing from the full statement: holds that are settled first. -/
theorem c88_over_partial (s : Sys) (m : Main) (h : Open s m)
    (hd : ∀ it ∈ s.items, it.work = .main m.id → it.done = true ∨ it.failed = true)
    (e : Ev) (he : e = .commit m.id 0 [] ∨ e = .void m.id []) (es : List Ev) :
    ∀ r ∈ (psteps (pstep s e) es).rows, r.parent = m.id → r.st ≠ .held := by
  refine (shut_steps es _ ?_).rows
  have key := c88_settles_partial s m h
  have hrows : ∀ to, Final to → ∀ r ∈ settledRows m.id to s.rows, r.parent = m.id → r.st ≠ .held := by
    intro to ht r hr ep
    obtain ⟨x, hx, ex⟩ := List.mem_map.1 hr
    by_cases hc : x.parent = m.id ∧ x.st = .held
    · rw [if_pos hc] at ex; rw [← ex]; rcases ht with rfl | rfl <;> simp
    · rw [if_neg hc] at ex; rw [ex] at hc; exact fun hh => hc ⟨ep, hh⟩
  have hm : (s.main m.id).isSome = true := by rw [h.1]; rfl
  obtain ⟨h1, h2, h3, h4⟩ := h
  rcases he with rfl | rfl
  · refine ⟨?_, ?_, by rw [key.1]; exact hrows _ (.inl rfl)⟩
    all_goals
      simp only [pstep, Sys.commit, h1, if_true]
      rw [if_neg (by simp [h2, h3]; omega)]
      simp only [Sys.settle, settle_calm, Sys.retryItem]
    · exact hd
    · exact main_set hm
  · refine ⟨?_, ?_, by rw [key.2.1]; exact hrows _ (.inr rfl)⟩
    all_goals
      simp only [pstep, Sys.void, h1]
      rw [if_neg (by simp [h2, h3]; omega)]
      simp only [Sys.settle, settle_calm, Sys.retryItem]
    · exact hd
    · exact main_set hm

example : let s := psteps {} (setup ++ [.record { pay "1" "world" "bln_a" 100 "P" with held := true }, go 0])
    Open s { pay "1" "world" "bln_a" 100 "P" with held := true } ∧ s.items = [⟨.main "1", 0, true, false⟩] ∧
    ((psteps s [.void "1" []]).rows.map Row.st) = [.voided] := by
  refine ⟨⟨by decide +kernel, rfl, rfl, by decide⟩, by decide +kernel, by decide +kernel⟩

end Blnk.Prov
