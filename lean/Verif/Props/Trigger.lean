import Verif.Model.Trigger
import Verif.Props.Inflight
/-
C71: balance metadata has no influence on the figures.
-/
namespace Blnk.Trig

/-- The ledger operations of an execution; a flagged creation counts as a creation. -/
def ledger : List Ev → List Act
  | [] => []
  | .act a :: es => a :: ledger es
  | .createFlagged id ind cur :: es => .base (.create id ind cur) :: ledger es
  | _ :: es => ledger es

def Unflagged : Ev → Prop
  | .createFlagged _ _ _ => False
  | _ => True

theorem sum_eq (l : List Txn) (q : Txn → Bool) :
    ((l.filter (fun t => q t && decide (t.status = .applied))).map (fun t => t.preciseAmount.getD 0)).sum =
      (((l.filter (fun t => t.status = .applied)).filter q).map pay).sum := by
  rw [List.filter_filter]; rfl

/-- On a ledger the service built, recomputing a balance from its transactions changes nothing. -/
theorem reconcile_id (cfg : Cfg) (H : String → Prop) (as : List Act) (hr : ∀ a ∈ as, a.Respects H) (b : Balance)
    (hb : b ∈ (acts cfg {} as).balances) : reconcile (acts cfg {} as).txns b = b := by
  obtain ⟨h1, h2, h3⟩ := c60_balance_is_sum_of_applied_rows cfg H as hr b hb
  have e1 : sumOut (acts cfg {} as).txns b.id = b.debit := by rw [h1]; exact sum_eq _ (fun t => t.source = b.id)
  have e2 : sumIn (acts cfg {} as).txns b.id = b.credit := by rw [h2]; exact sum_eq _ (fun t => t.destination = b.id)
  unfold reconcile
  rw [e1, e2, ← h3]

/-- **C71.** Unless a balance was *created* with the flag, metadata plays no part: over every execution
mixing postings, holds, metadata updates (asking for reconciliation or not) and identity changes, the
ledger is exactly what the postings alone produce. Missing: `c71_full_fails`. -/
theorem c71_metadata_inert_partial (cfg : Cfg) (H : String → Prop) (es : List Ev) (hr : ∀ a ∈ ledger es, a.Respects H)
    (hu : ∀ e ∈ es, Unflagged e) : (exec cfg {} es).db = acts cfg {} (ledger es) := by
  have main : ∀ (es : List Ev) (as : List Act) (st : State), (∀ a ∈ as, a.Respects H) → (∀ a ∈ ledger es, a.Respects H) →
      (∀ e ∈ es, Unflagged e) → st.db = acts cfg {} as → st.flagged = [] →
      (exec cfg st es).db = acts cfg {} (as ++ ledger es) := by
    intro es
    induction es with
    | nil => intro as st _ _ _ h _; simpa [exec, ledger] using h
    | cons e es ih =>
      intro as st ha hr hu hdb hf
      have hu' : ∀ e ∈ es, Unflagged e := fun x hx => hu x (List.mem_cons_of_mem _ hx)
      have htouch : ∀ id flag, (touch st id flag).db = st.db ∧ (touch st id flag).flagged = [] := by
        intro id flag
        refine ⟨?_, by simp [touch, hf]⟩
        have : st.db.balances.map (fun b =>
            if b.id = id && (flag || st.flagged.contains id) then reconcile st.db.txns b else b) = st.db.balances := by
          conv => rhs; rw [← List.map_id st.db.balances]
          refine List.map_congr_left fun b hb => ?_
          split
          · rw [hdb] at hb ⊢; exact reconcile_id cfg H as ha b hb
          · rfl
        unfold touch
        simp only [this]
      cases e with
      | act a =>
        have hra : a.Respects H := hr a (by simp [ledger])
        have := ih (as ++ [a]) (step cfg st (.act a)) (by
            intro x hx
            rcases List.mem_append.1 hx with hx | hx
            · exact ha x hx
            · simp at hx; rw [hx]; exact hra)
          (fun x hx => hr x (by simp [ledger, hx])) hu' (by
            simp [step, hf]
            rw [acts_append, ← hdb]; rfl) (by simp [step, hf])
        simpa [exec, ledger] using this
      | createFlagged id ind cur => exact (hu (.createFlagged id ind cur) (by simp)).elim
      | setMeta id flag =>
        exact ih as (touch st id flag) ha hr hu' ((htouch id flag).1.trans hdb) (htouch id flag).2
      | setIdentity id =>
        exact ih as (touch st id false) ha hr hu' ((htouch id false).1.trans hdb) (htouch id false).2
  simpa using main es [] {} (by simp) hr hu rfl rfl

def move (id ref : String) (p : Int) : Txn :=
  { id := id, reference := ref, source := "a", destination := "b", preciseAmount := some p, amount := p, precision := 1,
    status := .queued, allowOverdraft := true }

/-- Postings and metadata updates asking for reconciliation, interleaved. -/
def ordinary : List Ev := [.act (.base (.create "a" "" "USD")), .act (.base (.create "b" "" "USD")),
  .act (.base (.post (move "t1" "r1" 10) "x" "y")), .setMeta "a" true, .setIdentity "b",
  .act (.base (.post (move "t2" "r2" 5) "x" "y")), .setMeta "b" true, .setMeta "b" false]

example : (∀ e ∈ ordinary, Unflagged e) ∧ (∀ a ∈ ledger ordinary, a.Respects (fun _ => False)) ∧
    (exec {} {} ordinary).db.balances.map (fun b => (b.id, b.balance)) = [("a", -15), ("b", 15)] := by
  refine ⟨by simp [ordinary, Unflagged], ?_, by decide +kernel⟩
  simp [ordinary, ledger, Act.Respects, Op.Ordinary, Op.posts, Txn.Live, Txn.Plain, move]

/-- **C71.** Asking for reconciliation makes the settled columns the sums over the applied rows, from
any state whatever (also one the flag has corrupted), and touches no other balance. -/
theorem c71_reconciliation_repairs (st : State) (id : String) :
    let st' := touch st id true
    (∀ b ∈ st'.db.balances, b.id = id → b.debit = sumOut st.db.txns id ∧ b.credit = sumIn st.db.txns id ∧
      b.balance = b.credit - b.debit) ∧
    (∀ b ∈ st.db.balances, b.id ≠ id → b ∈ st'.db.balances) ∧ ids st'.db.balances = ids st.db.balances := by
  intro st'
  refine ⟨?_, ?_, ?_⟩
  · intro b hb hid
    obtain ⟨o, ho, e⟩ := List.mem_map.1 hb
    simp only [Bool.true_or, Bool.and_true, decide_eq_true_eq] at e
    split at e
    · rename_i h
      subst e
      simp [reconcile, h]
    · rename_i h; subst e; exact (h hid).elim
  · intro b hb hid
    refine List.mem_map.2 ⟨b, hb, ?_⟩
    simp [hid]
  · show ids (List.map _ _) = _
    unfold ids
    rw [List.map_map]
    refine List.map_congr_left fun b _ => ?_
    simp only [Function.comp]
    split <;> rfl

/-- The full claim. -/
def C71Full : Prop := ∀ (cfg : Cfg) (H : String → Prop) (es : List Ev), (∀ a ∈ ledger es, a.Respects H) →
  (exec cfg {} es).db = acts cfg {} (ledger es)

/-- A balance created with the flag in its metadata, then one ordinary transfer from it. -/
def lost : List Ev := [.createFlagged "a" "" "USD", .act (.base (.create "b" "" "USD")),
  .act (.base (.post (move "t1" "r1" 10) "x" "y"))]

theorem c71_full_fails : ¬ C71Full := by
  intro h
  have := congrArg DB.balances (h {} (fun _ => False) lost (by
    simp [lost, ledger, Act.Respects, Op.Ordinary, Op.posts, Txn.Live, Txn.Plain, move]))
  exact absurd this (by decide +kernel)

/-- The transfer is recorded as applied, the destination is credited and the source keeps its money:
the balances no longer add up to zero, and the source's disagrees with its transactions. A second
transfer is counted, so the difference stays. -/
theorem c71_first_posting_lost :
    (exec {} {} lost).db.txns.map (fun t => (t.id, t.status)) = [("t1", .applied)] ∧
    (exec {} {} lost).db.balances.map (fun b => (b.id, b.debit, b.credit, b.balance)) = [("a", 0, 0, 0), ("b", 0, 10, 10)] ∧
    (exec {} {} (lost ++ [.act (.base (.post (move "t2" "r2" 5) "x" "y"))])).db.balances.map (fun b => (b.id, b.balance)) =
      [("a", -5), ("b", 15)] := by
  decide +kernel

/-- A flagged balance receives 20 first, then tries to send them. -/
def received : List Ev := [.createFlagged "a" "" "USD", .act (.base (.create "b" "" "USD")),
  .act (.base (.post { move "t0" "r0" 0 with source := "b", destination := "a", preciseAmount := some 20, amount := 20 } "x" "y")),
  .act (.base (.post { move "t1" "r1" 20 with allowOverdraft := false } "x" "y"))]

/-- The credit is recorded as applied but lost, so the funds cannot be sent: the second transfer is
refused. -/
theorem c71_first_credit_lost :
    (exec {} {} (received.take 3)).db.balances.map (fun b => (b.id, b.balance)) = [("a", 0), ("b", -20)] ∧
    (exec {} {} received).db.txns.map (fun t => (t.id, t.status)) = [("t0", .applied)] := by
  decide +kernel

end Blnk.Trig
