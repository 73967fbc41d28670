import Verif.Props.Refusal
/-
Properties C12 (references are used once), C13 (self-transfers) and C15 (batch
references).
-/
namespace Blnk

/-! ### C12 -/

/-- **C12.** In every reachable state no two stored transactions share a reference
(or an id). -/
theorem c12_reference_at_most_once (cfg : Cfg) (ops : List Op) :
    ((run cfg {} ops).txns.map (·.reference)).Nodup ∧ ((run cfg {} ops).txns.map (·.id)).Nodup :=
  ⟨(run_inv (cfg := cfg) init_inv).unique.refs, (run_inv (cfg := cfg) init_inv).unique.txnIds⟩

/-- Specification: a stored transaction carries this reference. -/
def RefUsed (db : DB) (r : String) : Prop := ∃ t ∈ db.txns, t.reference = r

theorem hasRef_iff {db : DB} {r : String} : db.hasRef r = true ↔ RefUsed db r := by
  simp [DB.hasRef, RefUsed, List.any_eq_true]

/-- **C12, second use.** Submitting a reference that is already stored is refused
and changes nothing (an indicator named for the first time may be opened). -/
theorem c12_second_use_refused (cfg : Cfg) (db : DB) (t : Txn) (n1 n2 : String) (h : RefUsed db t.reference) :
    (∀ rows, (step cfg db (.post t n1 n2)).2 ≠ .posted rows) ∧ OnlyOpened db (step cfg db (.post t n1 n2)).1 := by
  have hno : ∀ rows, (step cfg db (.post t n1 n2)).2 ≠ .posted rows := by
    intro rows
    simp only [step, recordSingle]
    split
    · simp
    · rename_i db1 sid h1
      split
      · simp
      · rename_i db2 did h2
        have e : db2.txns = db.txns := ((resolve_onlyOpened h1).trans (resolve_onlyOpened h2)).txns
        have hr : db2.hasRef t.reference = true := by
          rw [hasRef_iff]; unfold RefUsed; rw [e]; exact h
        simp [postResolved, prepareSingle, hr]
  exact ⟨hno, c05_refused_changes_nothing cfg db _ hno⟩

theorem insertTxns_fresh {ts : List Txn} : ∀ {db db' : DB}, db.insertTxns ts = .ok db' →
    ∀ t ∈ ts, db.hasRef t.reference = false := by
  induction ts with
  | nil => intro _ _ _ t ht; cases ht
  | cons x ts ih =>
    intro db db' h t ht
    simp only [DB.insertTxns] at h
    split at h
    · rename_i mid hm
      obtain ⟨_, h2, rfl⟩ := insertTxn_ok hm
      rcases List.mem_cons.1 ht with rfl | ht
      · exact h2
      · have := ih h t ht
        simp only [DB.hasRef, List.any_append, Bool.or_eq_false_iff] at this
        exact this.1
    · cases h

/-- **C12, races.** Work prepared before a competing submission stored the same
reference is refused when it is persisted, whatever it read earlier: the
database itself enforces the rule. -/
theorem c12_race_loser_refused (db : DB) (w : Work) (t : Txn) (ht : t ∈ w.rows) (h : RefUsed db t.reference) :
    ∃ e, db.persist w = .error e := by
  cases hp : db.persist w with
  | error e => exact ⟨e, rfl⟩
  | ok db' =>
    obtain ⟨rows, _, h2, _⟩ := persist_ok hp
    have := insertTxns_fresh h2 t ht
    have h' : ({ db with balances := rows } : DB).hasRef t.reference = true := hasRef_iff.2 h
    rw [h'] at this; cases this

/-- **C12, batches.** A batch with a member whose reference is stored is refused
as a whole. -/
theorem c12_batch_with_used_reference_refused (cfg : Cfg) (db : DB) (ts : List Txn) (t : Txn) (ht : t ∈ ts)
    (h : RefUsed db t.reference) : (step cfg db (.batch ts)).1 = db := by
  apply c05_refused_batch_is_identity
  intro rows hp
  simp only [step, recordBatch] at hp
  split at hp
  · cases hp
  · rename_i w hw
    split at hp
    · rename_i db' hper
      obtain ⟨bs, _, hm⟩ := prepareBatch_ok hw
      have hr := prepareMembers_rows hm
      have hmem : finalRow (batchMember t) ∈ w.rows := by rw [hr]; exact List.mem_map.2 ⟨t, ht, rfl⟩
      obtain ⟨e, he⟩ := c12_race_loser_refused db w _ hmem (by rw [(finalRow_keeps _).1]; exact h)
      rw [he] at hper; cases hper
    · cases hp

example : RefUsed demo "r2" := hasRef_iff.1 (by decide +kernel)

example : (step {} demo (.post { demoPay with reference := "r2" } "x" "y")).2 = .refused .duplicateRef := by
  decide +kernel

/-! ### C15 -/

/-- **C15.** A persisted batch stored one row per member, and the members'
references were pairwise distinct, non-empty and unused. -/
theorem c15_batch_references_fresh (cfg : Cfg) (db : DB) (ts : List Txn) (rows : List Txn)
    (h : (step cfg db (.batch ts)).2 = .posted rows) :
    rows.map (·.reference) = ts.map (·.reference) ∧ (ts.map (·.reference)).Nodup ∧
    (∀ t ∈ ts, t.reference ≠ "" ∧ ¬ RefUsed db t.reference) := by
  simp only [step, recordBatch] at h
  split at h
  · cases h
  · rename_i w hw
    split at h
    · rename_i db' hp
      simp only [Outcome.posted.injEq] at h
      subst h
      obtain ⟨bs, _, hm⟩ := prepareBatch_ok hw
      have key : ∀ (ts : List Txn) (refs : List String) (bs : List Balance) (rows : List Txn) (bs' : List Balance),
          prepareMembers db ts refs bs = .ok (rows, bs') →
          rows.map (·.reference) = ts.map (·.reference) ∧ (ts.map (·.reference)).Nodup ∧
          ∀ t ∈ ts, t.reference ≠ "" ∧ ¬ RefUsed db t.reference ∧ t.reference ∉ refs := by
        intro ts
        induction ts with
        | nil => intro refs bs rows bs' h; simp [prepareMembers] at h; simp [h.1]
        | cons t ts ih =>
          intro refs bs rows bs' h
          unfold prepareMembers at h
          split at h
          · cases h
          split at h
          · cases h
          rename_i hne
          split at h
          · cases h
          rename_i hfresh
          split at h
          · cases h
          split at h
          · cases h
          split at h
          · cases h
          rename_i rest bs'' hrest
          simp only [Except.ok.injEq, Prod.mk.injEq] at h
          obtain ⟨rfl, rfl⟩ := h
          obtain ⟨i1, i2, i3⟩ := ih _ _ _ _ hrest
          simp only [Bool.or_eq_true, not_or, List.contains_iff_mem, hasRef_iff] at hfresh
          refine ⟨?_, ?_, ?_⟩
          · rw [List.map_cons, List.map_cons, i1, (finalRow_keeps (batchMember t)).1]; rfl
          · simp only [List.map_cons, List.nodup_cons]
            refine ⟨?_, i2⟩
            intro hmem
            obtain ⟨u, hu, hue⟩ := List.mem_map.1 hmem
            exact (i3 u hu).2.2 (by rw [hue]; simp)
          · intro u hu
            rcases List.mem_cons.1 hu with rfl | hu
            · exact ⟨hne, hfresh.2, hfresh.1⟩
            · obtain ⟨j1, j2, j3⟩ := i3 u hu
              exact ⟨j1, j2, fun hm => j3 (List.mem_cons_of_mem _ hm)⟩
      obtain ⟨k1, k2, k3⟩ := key _ _ _ _ _ hm
      exact ⟨k1, k2, fun t ht => ⟨(k3 t ht).1, (k3 t ht).2.1⟩⟩
    · cases h

/-- Two queued payments from `a` to `b`. -/
def demoBatch : List Txn :=
  [ { demoPay with id := "q1", reference := "q1_q" }, { demoPay with id := "q2", reference := "q2_q" } ]

example : (step {} demo (.batch demoBatch)).2 = .posted (demoBatch.map (fun t => finalRow (batchMember t))) := by
  decide +kernel

/-! ### C13 -/

/-- The full claim: a queued transfer from an account to itself has the same
outcome on both execution paths. -/
def C13_full : Prop := ∀ (cfg : Cfg) (db : DB) (t : Txn) (n1 n2 : String), Reachable cfg db →
  t.status = .queued → t.source = t.destination → isIndicator t.source = false →
  ((∃ rows, (step cfg db (.post t n1 n2)).2 = .posted rows) ↔ ∃ rows, (step cfg db (.batch [t])).2 = .posted rows)

def demoSelf : Txn := { demoPay with destination := "a" }

/-- It is false: alone, the transfer writes two copies of one row and conflicts
with itself; in a batch it is applied. -/
theorem c13_full_fails : ¬ C13_full := by
  intro h
  have h1 := (h {} demo demoSelf "x" "y" demo_reachable rfl rfl (by decide +kernel)).2
    ⟨[finalRow (batchMember demoSelf)], by decide +kernel⟩
  obtain ⟨rows, hr⟩ := h1
  have : (step {} demo (.post demoSelf "x" "y")).2 = .refused .conflict := by decide +kernel
  rw [this] at hr; cases hr

/-- The same with a second member, as the service builds its batches. -/
example : (step {} demo (.batch (demoSelf :: demoBatch))).2
    = .posted ((demoSelf :: demoBatch).map (fun t => finalRow (batchMember t))) := by decide +kernel

/-- **C13, partial.** Posted alone, a self-transfer never has an effect. In a batch
on its own it may be applied, and then it leaves the account's settled and held
balances unchanged while both movement columns grow by the amount.
Missing: equality of the two outcomes, which is false (`c13_full_fails`). -/
theorem c13_self_transfer_partial (cfg : Cfg) (db : DB) (t : Txn) (hr : Reachable cfg db)
    (hself : t.source = t.destination) :
    (postResolved cfg db t).1 = db ∧ (∀ rows, (postResolved cfg db t).2 ≠ .posted rows) ∧
    ∀ rows, (step cfg db (.batch [t])).2 = .posted rows →
      ∃ b b', db.find t.source = some b ∧ (step cfg db (.batch [t])).1.find t.source = some b' ∧
        b'.balance = b.balance ∧ b'.inflightBalance = b.inflightBalance ∧
        b'.credit - b.credit = b'.debit - b.debit ∧
        b'.inflightCredit - b.inflightCredit = b'.inflightDebit - b.inflightDebit ∧
        ∀ i, i ≠ t.source → (step cfg db (.batch [t])).1.find i = db.find i := by
  have hi := hr.inv
  have hno : ∀ rows, (postResolved cfg db t).2 ≠ .posted rows := by
    intro rows h
    exact (postResolved_posted hi h).2.distinct hself
  refine ⟨postResolved_not_posted hno, hno, ?_⟩
  intro rows h
  simp only [step, recordBatch] at h ⊢
  split at h
  · cases h
  · rename_i w hw
    split at h
    · rename_i db' hp
      obtain ⟨bs, hl, hm⟩ := prepareBatch_ok hw
      obtain ⟨hids, hload⟩ := loadAll_ok hl
      have hn : (ids bs).Nodup := by rw [hids]; exact batchIds_nodup [t]
      obtain ⟨_, _, _, _, mid, rest, hap, hrest, hrows⟩ := prepareMembers_cons hm
      have e : w.balances = mid := by simp [prepareMembers] at hrest; exact hrest.2.symm
      have hstep := applyInMemory_step hn hap
      unfold applyInMemory at hap
      split at hap
      · rename_i s d hs hd
        obtain ⟨ms, is⟩ := find_mem hs
        rw [if_pos (by exact hself)] at hap
        split at hap
        · cases hap
        · rename_i b hb
          simp only [Except.ok.injEq] at hap
          obtain ⟨m, a1, a2⟩ := applyToAliased_inv hb
          have e1 := applySource_effect a1
          have e2 := applyDestination_effect a2
          have hls := hload s ms
          rw [show s.id = t.source from is] at hls
          obtain ⟨r, hrm, hfr, hrid, hse⟩ := load_ok hls
          obtain ⟨urows, hu, _, rfl⟩ := persist_ok hp
          have hbid : b.id = t.source := by rw [e2.id, e1.id]; exact is
          have hbm : b ∈ w.balances := by
            rw [e, ← hap]
            exact List.mem_map.2 ⟨s, ms, by rw [if_pos (by rw [is, hbid]; rfl)]⟩
          have hnw : (ids w.balances).Nodup := by rw [e, hstep.ids]; exact hn
          obtain ⟨hv, hf⟩ := find_updateRows hi.nodup hnw hu b hbm r (by rw [hbid]; exact hfr)
          rw [hbid] at hf
          have cr := hi.consistent r hrm
          have cs : s.Consistent := by rw [hse]; exact cr
          have cb := applyDestination_consistent a2 (applySource_consistent a1 cs)
          have q1 : s.credit = r.credit := by rw [hse]
          have q2 : s.debit = r.debit := by rw [hse]
          have q3 : s.inflightCredit = r.inflightCredit := by rw [hse]
          have q4 : s.inflightDebit = r.inflightDebit := by rw [hse]
          have p1 := e1.credit; have p2 := e1.debit; have p3 := e1.inflightCredit; have p4 := e1.inflightDebit
          have p5 := e2.credit; have p6 := e2.debit; have p7 := e2.inflightCredit; have p8 := e2.inflightDebit
          have c1 := cr.1; have c2 := cr.2; have c3 := cb.1; have c4 := cb.2
          refine ⟨r, r.writeBack b, hfr, hf, ?_, ?_, ?_, ?_, ?_⟩
          · simp only [Balance.writeBack]; omega
          · simp only [Balance.writeBack]; omega
          · simp only [Balance.writeBack]; omega
          · simp only [Balance.writeBack]; omega
          · intro i hne
            apply find_updateRows_other hu
            rw [e, hstep.ids, hids]
            intro hmem
            rcases mem_addId hmem with h' | h'
            · exact hne h'
            · rcases mem_addId h' with h' | h'
              · exact hne (h'.trans hself.symm)
              · cases h'
      · cases hap
    · cases h

end Blnk
