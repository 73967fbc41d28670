import Verif.Props.Inflight
import Verif.Props.Refusal
/-
C03, C04 and C61 for histories that also settle holds. A settlement posts one COMMIT or VOID
transaction, so a history of `Act`s is a run of `Op`s in which those amounts are not negative.
-/
namespace Blnk

/-- Account ids a settlement may generate. -/
def Act.gens : Act → List String
  | .base _ => []
  | .commit _ _ _ _ n1 n2 => [n1, n2]
  | .void _ _ _ n1 n2 => [n1, n2]

/-- A step is at most one operation of the ledger machine. -/
theorem act_run {cfg : Cfg} {H : String → Prop} {db : DB} (hk : HoldInv H db) (a : Act) :
    ∃ ops, act cfg db a = run cfg db ops ∧ ∀ op ∈ ops, a = .base op ∨
      ∃ t n1 n2, op = .post t n1 n2 ∧ SignOK t ∧ ¬ t.Plain ∧ a.gens = [n1, n2] := by
  cases a with
  | base op => exact ⟨[op], rfl, by simp⟩
  | commit id amt newId ref n1 n2 =>
    simp only [act, commitInflight]
    cases hf : fetchInflight db id with
    | error e => exact ⟨[], rfl, by simp⟩
    | ok t =>
      simp only
      cases ha : settleAmount t amt (remaining db t) with
      | error e => exact ⟨[], rfl, by simp⟩
      | ok p =>
        obtain ⟨r, hr, hid, hin, hv, et⟩ := fetchInflight_ok hf
        have hn := hk.remaining_nonneg r hr hid hin hv
        have hrem : remaining db t = pay r - db.totalCommitted id := by simp [remaining, pay, et, hid]
        obtain ⟨h0, hp⟩ := settleAmount_ok ha
        have hpos : 0 < p := by rcases hp with ⟨_, hp⟩ | ⟨_, hp, _⟩ <;> omega
        refine ⟨[.post (commitTxn t p _ newId ref) n1 n2], rfl, ?_⟩
        intro op hop
        simp at hop
        refine .inr ⟨_, n1, n2, hop, ?_, ?_, rfl⟩
        · constructor
          · intro _
            rw [applyPrecision_pos (p := p) rfl hpos]
            exact Int.le_of_lt hpos
          · intro h; simp [commitTxn] at h
        · intro h; exact h.1 rfl
  | void id newId ref n1 n2 =>
    simp only [act, voidInflight]
    cases hf : fetchInflight db id with
    | error e => exact ⟨[], rfl, by simp⟩
    | ok t =>
      simp only
      split
      · exact ⟨[], rfl, by simp⟩
      · rename_i h0
        obtain ⟨r, hr, hid, hin, hv, et⟩ := fetchInflight_ok hf
        have hn := hk.remaining_nonneg r hr hid hin hv
        have hrem : remaining db t = pay r - db.totalCommitted id := by simp [remaining, pay, et, hid]
        have hpos : 0 < remaining db t := by omega
        have hst : (voidTxn t (remaining db t) newId ref).status = .void := (applyPrecision_keeps _).2.2.1
        refine ⟨[.post (voidTxn t (remaining db t) newId ref) n1 n2], rfl, ?_⟩
        intro op hop
        simp at hop
        refine .inr ⟨_, n1, n2, hop, ?_, ?_, rfl⟩
        · constructor
          · intro h; rw [hst] at h; cases h
          · intro _
            unfold voidTxn
            rw [applyPrecision_pos (p := remaining db t) rfl hpos]
            exact Int.le_of_lt hpos
        · intro h; exact h.2 hst

theorem run_append (cfg : Cfg) (xs ys : List Op) : ∀ db, run cfg db (xs ++ ys) = run cfg (run cfg db xs) ys := by
  induction xs with
  | nil => intro db; rfl
  | cons x xs ih => intro db; exact ih _

/-- A history is a run of operations, each of which satisfies `P` if the operations of the
history do and settlements do. -/
theorem acts_run {cfg : Cfg} {H : String → Prop} {P : Op → Prop} {as : List Act} : ∀ {db : DB}, HoldInv H db →
    (∀ a ∈ as, a.Respects H) → (∀ op, .base op ∈ as → P op) →
    (∀ a ∈ as, ∀ t n1 n2, SignOK t → ¬ t.Plain → a.gens = [n1, n2] → P (.post t n1 n2)) →
    ∃ ops, acts cfg db as = run cfg db ops ∧ ∀ op ∈ ops, P op := by
  induction as with
  | nil => intro db _ _ _ _; exact ⟨[], rfl, by simp⟩
  | cons a as ih =>
    intro db hk hr hb hs
    obtain ⟨ops1, e1, h1⟩ := act_run (cfg := cfg) hk a
    obtain ⟨ops2, e2, h2⟩ := ih (act_holdInv (cfg := cfg) hk (hr a (by simp))) (fun b hm => hr b (List.mem_cons_of_mem _ hm))
      (fun op hm => hb op (List.mem_cons_of_mem _ hm)) (fun b hm => hs b (List.mem_cons_of_mem _ hm))
    refine ⟨ops1 ++ ops2, ?_, ?_⟩
    · rw [run_append, ← e1, ← e2]; rfl
    · intro op hop
      rcases List.mem_append.1 hop with hop | hop
      · rcases h1 op hop with rfl | ⟨t, n1, n2, rfl, hsign, hnp, hg⟩
        · exact hb op (by simp)
        · exact hs a (by simp) t n1 n2 hsign hnp hg
      · exact h2 op hop

/-- **C04 with holds.** Committing and voiding holds, partially or in full, in any order and
mixed with any postings, never takes an account below the overdraft its own debits permitted. -/
theorem c04_overdraft_floor_with_holds (cfg : Cfg) (H : String → Prop) (a : String) (L : Int) (hL : 0 ≤ L) (as : List Act)
    (hr : ∀ x ∈ as, x.Respects H ∧ a ∉ x.gens) (hc : ∀ op, .base op ∈ as → OpCaps a L op) :
    ∀ b ∈ (acts cfg {} as).balances, b.id = a → -L ≤ b.balance - b.inflightDebit := by
  obtain ⟨ops, e, h⟩ := acts_run (cfg := cfg) (P := OpCaps a L) (init_holdInv H) (fun x hx => (hr x hx).1) hc
    (by
      intro x hx t n1 n2 hsign hnp hg
      have hna := (hr x hx).2
      rw [hg] at hna
      simp at hna
      exact ⟨hsign, fun hp => absurd hp hnp, fun e => hna.1 e.symm, fun e => hna.2 e.symm⟩)
  rw [e]
  exact c04_overdraft_floor cfg a L hL ops h

/-- **C03 with holds.** -/
theorem c03_no_overdraft_with_holds (cfg : Cfg) (H : String → Prop) (a : String) (as : List Act)
    (hr : ∀ x ∈ as, x.Respects H ∧ a ∉ x.gens) (hc : ∀ op, .base op ∈ as → OpCaps a 0 op) :
    ∀ b ∈ (acts cfg {} as).balances, b.id = a → b.inflightDebit ≤ b.balance := by
  intro b hb hid
  have := c04_overdraft_floor_with_holds cfg H a 0 (by omega) as hr hc b hb hid
  omega

/-- Account `b` sees part of a hold committed and then spends all it has; the last posting is refused. -/
def floorHistory : List Act := holdHistory ++
  [.base (.create "c" "" "USD"),
   .base (.post { id := "q1", source := "b", destination := "c", reference := "q1", preciseAmount := some 30, precision := 100, status := .queued } "x" "y"),
   .base (.post { id := "q2", source := "b", destination := "c", reference := "q2", preciseAmount := some 1, precision := 100, status := .queued } "x" "y")]

example : (∀ x ∈ floorHistory, x.Respects exampleHolds ∧ "b" ∉ x.gens) ∧
    (∀ op, .base op ∈ floorHistory → OpCaps "b" 0 op) ∧
    (acts {} {} floorHistory).balances.map (fun b => (b.id, b.balance, b.inflightDebit)) = [("a", -30, 100), ("b", 0, 0), ("c", 30, 0)] := by
  refine ⟨?_, ?_, by decide +kernel⟩
  · intro x hx
    simp only [floorHistory, holdHistory, List.cons_append, List.nil_append, List.mem_cons, List.not_mem_nil, or_false] at hx
    rcases hx with rfl | rfl | rfl | rfl | rfl | rfl | rfl | rfl | rfl <;>
      simp [Act.Respects, Act.gens, Op.Ordinary, Op.posts, holdTxn, Txn.Live, Txn.Plain, exampleHolds]
  · intro op hop
    simp only [floorHistory, holdHistory, List.cons_append, List.nil_append, List.mem_cons, List.not_mem_nil, or_false,
      Act.base.injEq, reduceCtorEq, false_or] at hop
    rcases hop with rfl | rfl | rfl | rfl | rfl | rfl | rfl <;> simp [OpCaps, SignOK, Caps, holdTxn, Txn.Plain]

/-! ### C61 -/

/-- No column is negative. -/
def Balance.NonNeg (b : Balance) : Prop := 0 ≤ b.debit ∧ 0 ≤ b.credit ∧ 0 ≤ b.inflightDebit ∧ 0 ≤ b.inflightCredit

def NonNegRel (b b' : Balance) : Prop := b.NonNeg → b'.NonNeg

theorem src_inflight_nonneg {t : Txn} {s s' : Balance} (h : applySource t s = .ok s') (h0 : 0 ≤ s.inflightDebit) :
    0 ≤ s'.inflightDebit := by
  by_cases hc : t.status = .commit
  · simp only [applySource, hc, Balance.commitInflightDebit] at h
    split at h
    · cases h
    · cases h; simp [Balance.computeBalance]; omega
  by_cases hv : t.status = .void
  · simp only [applySource, hv] at h
    split at h
    · cases h
    · simp only [Balance.rollbackInflightDebit] at h
      split at h
      · cases h
      · cases h; simp [Balance.computeBalance]; omega
  · have e := (applySource_effect h).inflightDebit
    obtain ⟨p, hpos, hpa, _⟩ := applySource_pos ⟨hc, hv⟩ h
    rw [(plain_amounts ⟨hc, hv⟩).2, hpa] at e
    simp at e
    split at e <;> omega

theorem dst_inflight_nonneg {t : Txn} {d d' : Balance} (hv0 : t.Plain → t.applyPrecision.validate = .ok ())
    (h : applyDestination t d = .ok d') (h0 : 0 ≤ d.inflightCredit) : 0 ≤ d'.inflightCredit := by
  by_cases hc : t.status = .commit
  · simp only [applyDestination, hc, Balance.commitInflightCredit] at h
    split at h
    · cases h
    · cases h; simp [Balance.computeBalance]; omega
  by_cases hv : t.status = .void
  · simp only [applyDestination, hv] at h
    split at h
    · cases h
    · simp only [Balance.rollbackInflightCredit] at h
      split at h
      · cases h
      · cases h; simp [Balance.computeBalance]; omega
  · have e := (applyDestination_effect h).inflightCredit
    obtain ⟨p, hpa⟩ := applyPrecision_some t
    have hpos := (validate_ok (hv0 ⟨hc, hv⟩)).2 p hpa
    rw [(plain_amounts ⟨hc, hv⟩).2, hpa] at e
    simp at e
    split at e <;> omega

theorem nonNegRel_rowRel : RowRel SignOK NonNegRel where
  refl b := fun h => h
  trans a b c _ h1 h2 := fun h => h2 (h1 h)
  src t s s' hP hc hq hid h := by
    intro ⟨h1, h2, h3, h4⟩
    have e := applySource_effect h
    have := dst_amount_nonneg hP (source_validated h)
    have := e.credit; have := e.debit; have := e.inflightCredit
    exact ⟨by omega, by omega, src_inflight_nonneg h h3, by omega⟩
  dst t s s' hP hv hc hid h := by
    intro ⟨h1, h2, h3, h4⟩
    have e := applyDestination_effect h
    have := dst_amount_nonneg hP hv
    have := e.credit; have := e.debit; have := e.inflightDebit
    exact ⟨by omega, by omega, by omega, dst_inflight_nonneg hv h h4⟩
  queued r q b h := h
  write r b _ h := h

theorem onlyOpened_nonNeg {db db' : DB} (h : OnlyOpened db db') (hn : ∀ b ∈ db.balances, b.NonNeg) : ∀ b ∈ db'.balances, b.NonNeg := by
  obtain ⟨new, e, hz⟩ := h.balances
  intro b hb
  rw [e] at hb
  rcases List.mem_append.1 hb with hb | hb
  · exact hn b hb
  · have := hz b hb
    simp_all [Balance.NonNeg]

theorem rowsRel_nonNeg {l l' : List Balance} (hr : RowsRel NonNegRel (fun _ => False) l l') (hn : ∀ b ∈ l, b.NonNeg) :
    ∀ b ∈ l', b.NonNeg := by
  intro b hb
  rcases hr b hb with ⟨o, ho, _, _, r⟩ | hf
  · exact r (hn o ho)
  · cases hf

theorem step_nonNeg {cfg : Cfg} {db : DB} (hi : Inv db) (hq : QueuedNonneg db) (hn : ∀ b ∈ db.balances, b.NonNeg) {op : Op}
    (ho : OpSigns op) : ∀ b ∈ (step cfg db op).1.balances, b.NonNeg := by
  cases op with
  | create i ind cur =>
    simp only [step]
    split
    · rename_i db' hc
      obtain ⟨h1, _, rfl⟩ := createBalance_ok hc
      intro b hb
      rcases List.mem_append.1 hb with hb | hb
      · exact hn b hb
      · simp at hb; subst hb; simp [Balance.NonNeg]
    · exact hn
  | post t n1 n2 =>
    simp only [step, recordSingle]
    split
    · exact hn
    · rename_i db1 sid h1
      have i1 := resolve_inv hi h1
      split
      · exact onlyOpened_nonNeg (resolve_onlyOpened h1) hn
      · rename_i db2 did h2
        have i2 := resolve_inv i1 h2
        have hop := (resolve_onlyOpened h1).trans (resolve_onlyOpened h2)
        have q2 : QueuedNonneg db2 := by unfold QueuedNonneg; rw [hop.txns]; exact hq
        exact rowsRel_nonNeg (postResolved_rel nonNegRel_rowRel i2 q2 ((signOK_parties t sid did).2 ho) _) (onlyOpened_nonNeg hop hn)
  | batch ts =>
    exact rowsRel_nonNeg (recordBatch_rel nonNegRel_rowRel hi hq (fun t ht => batchMember_signOK (ho t ht)) _) hn
  | store t =>
    simp only [step]
    split
    · rename_i db' hc; obtain ⟨_, _, rfl⟩ := insertTxn_ok hc; exact hn
    · exact hn

theorem run_nonNeg {cfg : Cfg} {ops : List Op} : ∀ {db : DB}, Inv db → QueuedNonneg db → (∀ b ∈ db.balances, b.NonNeg) →
    (∀ op ∈ ops, OpSigns op) → ∀ b ∈ (run cfg db ops).balances, b.NonNeg := by
  induction ops with
  | nil => intro db _ _ hn _; exact hn
  | cons op ops ih =>
    intro db hi hq hn ho
    refine ih (step_inv hi op) (step_queuedNonneg hq ?_) (step_nonNeg hi hq hn (ho op (by simp)))
      (fun o h => ho o (List.mem_cons_of_mem _ h))
    have := ho op (by simp)
    cases op <;> first | trivial | exact this

/-- **C61.** In every state any history of postings, batches, holds, commits and voids reaches, no
account has a negative debit, credit, held debit or held credit. In particular no settlement ever
releases more than is on hold. -/
theorem c61_columns_never_negative (cfg : Cfg) (H : String → Prop) (as : List Act) (hr : ∀ x ∈ as, x.Respects H)
    (hb : ∀ ts, .base (.batch ts) ∈ as → ∀ t ∈ ts, t.status = .queued) :
    ∀ b ∈ (acts cfg {} as).balances, 0 ≤ b.debit ∧ 0 ≤ b.credit ∧ 0 ≤ b.inflightDebit ∧ 0 ≤ b.inflightCredit := by
  obtain ⟨ops, e, h⟩ := acts_run (cfg := cfg) (P := OpSigns) (init_holdInv H) hr
    (by
      intro op hop
      have h := (hr _ hop).1
      cases op with
      | create i ind cur => trivial
      | post t n1 n2 => exact ⟨fun e => absurd e h.1.1, fun e => absurd e h.1.2⟩
      | batch ts => exact hb ts hop
      | store t => intro _; exact h.2)
    (by intro x hx t n1 n2 hsign _ _; exact hsign)
  rw [e]
  exact run_nonNeg init_inv (by intro t ht; cases ht) (by simp) h

end Blnk
