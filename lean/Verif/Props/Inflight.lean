import Verif.Lemmas.Funds
/-
C22, C23, C24, C26 and C60: holds, their settlement, and what explains the balance columns.

The specification side is `committed`, `released`, `Txn.Holds`, `Act.Respects`
(`Lemmas/Holds.lean`), `openAmount` and `Act.Direct` (`Lemmas/Funds.lean`): sums over stored
rows, with no reference to how the service computes a remainder.
-/
namespace Blnk

/-! ### A running example -/

/-- A hold of `p` minor units posted directly. -/
def holdTxn (id ref src dst : String) (p : Int) : Txn :=
  { id := id, reference := ref, source := src, destination := dst, preciseAmount := some p, amount := p, precision := 1,
    inflight := true, status := .queued, metaInflight := some true, allowOverdraft := true }

/-- A QUEUED row standing in for a hold that the queue will post later. -/
def standIn (id ref src dst : String) (p : Int) : Txn :=
  { id := id, reference := ref, source := src, destination := dst, preciseAmount := some p, amount := p, precision := 1,
    status := .queued, metaInflight := some true }

/-- Two holds of 100 on the same accounts; 30 of the first is committed, the rest voided. -/
def holdHistory : List Act :=
  [.base (.create "a" "" "USD"), .base (.create "b" "" "USD"),
   .base (.post (holdTxn "h1" "r1" "a" "b" 100) "x" "y"), .base (.post (holdTxn "h2" "r2" "a" "b" 100) "x" "y"),
   .commit "h1" 30 "c1" "s1" "x" "y", .void "h1" "v1" "s2" "x" "y"]

/-- The ids of the holds in `holdHistory`. -/
def exampleHolds (i : String) : Prop := i = "h1" ∨ i = "h2"

theorem holdHistory_ok : ∀ a ∈ holdHistory, a.Respects exampleHolds ∧ a.Direct (fun _ => False) := by
  intro a ha
  simp only [holdHistory, List.mem_cons, List.not_mem_nil, or_false] at ha
  rcases ha with rfl | rfl | rfl | rfl | rfl | rfl <;>
    simp [Act.Respects, Act.Direct, Op.Ordinary, Op.posts, Op.gens, holdTxn, Txn.Live, Txn.Plain, exampleHolds] <;>
    decide +kernel

/-! ### C22 -/

/-- **C22.** Over every history of postings, batches, stored rows, commits and voids, what was
committed of a hold plus what was released of it never exceeds the hold. -/
theorem c22_never_over_committed (cfg : Cfg) (H : String → Prop) (as : List Act) (hr : ∀ a ∈ as, a.Respects H) :
    ∀ r ∈ (acts cfg {} as).txns, r.Holds →
      0 ≤ committed (acts cfg {} as) r.id ∧ 0 ≤ released (acts cfg {} as) r.id ∧
      committed (acts cfg {} as) r.id + released (acts cfg {} as) r.id ≤ pay r := by
  intro r hr' hh
  have hk := acts_holdInv (cfg := cfg) (init_holdInv H) hr
  exact ⟨kidSum_nonneg hk (.inl rfl) (hk.known r hr' hh), kidSum_nonneg hk (.inr rfl) (hk.known r hr' hh), hk.bound r hr' hh⟩

example : ∃ r ∈ (acts {} {} holdHistory).txns, r.Holds ∧ pay r = 100 ∧
    committed (acts {} {} holdHistory) r.id = 30 ∧ released (acts {} {} holdHistory) r.id = 70 := by
  refine ⟨_, List.getElem_mem (n := 0) (by decide +kernel), ?_⟩
  refine ⟨.inl (by decide +kernel), by decide +kernel, by decide +kernel, by decide +kernel⟩

/-- **C22.** An accepted commit adds a strictly positive amount, at most the open remainder,
exactly the requested amount unless zero ("all that is left") was requested. -/
theorem c22_accepted_commit_within_remainder (cfg : Cfg) (H : String → Prop) (as : List Act)
    (hr : ∀ a ∈ as, a.Respects H) (h newId ref n1 n2 : String) (amt : Int) (rows : List Txn)
    (ho : (commitInflight cfg (acts cfg {} as) h amt newId ref n1 n2).2 = .ok (.posted rows)) :
    ∃ r ∈ (acts cfg {} as).txns, r.id = h ∧ r.Holds ∧ ∃ p, 0 < p ∧
      p ≤ pay r - committed (acts cfg {} as) h - released (acts cfg {} as) h ∧
      (p = amt ∨ amt = 0 ∧ p = pay r - committed (acts cfg {} as) h) ∧
      committed (commitInflight cfg (acts cfg {} as) h amt newId ref n1 n2).1 h = committed (acts cfg {} as) h + p := by
  have hk := acts_holdInv (cfg := cfg) (init_holdInv H) hr
  rcases commit_grown (cfg := cfg) (h := h) (newId := newId) (ref := ref) (n1 := n1) (n2 := n2) (amt := amt) hk.inv
    hk.remaining_nonneg with ⟨_, hn⟩ | ⟨row, x, p, hrow, hid, hin, hv, g, _, _, hs, h0, hle, hp⟩
  · exact absurd ho (hn rows)
  · refine ⟨row, hrow, hid, (holds_iff _).1 hin, p, h0, ?_, ?_, ?_⟩
    · have : released (acts cfg {} as) h = 0 := kidSum_zero (fun c hc hcs => parentVoid_false.1 hv c hc hcs)
      rw [totalCommitted_eq] at hle
      omega
    · rcases hp with hp | hp
      · exact .inr hp
      · exact .inl hp
    · have e : committed _ x.parent = committed (acts cfg {} as) x.parent + pay x := kidSum_one g.txns hs.status
      rw [hs.parent] at e
      rw [e]; simp [pay, hs.amount]

example : (commitInflight {} (acts {} {} (holdHistory.take 4)) "h1" 30 "c1" "s1" "x" "y").2.toOption.any
    (fun o => match o with | .posted [x] => decide (x.preciseAmount = some 30) | _ => false) = true := by decide +kernel

theorem commitInflight_eq (cfg : Cfg) (db : DB) (id : String) (amt : Int) (newId ref n1 n2 : String) :
    commitInflight cfg db id amt newId ref n1 n2 =
      match decideCommit db id amt newId ref with
      | .error e => (db, .error e)
      | .ok t => ((recordSingle cfg db t n1 n2).1, .ok (recordSingle cfg db t n1 n2).2) := by
  unfold commitInflight decideCommit
  cases fetchInflight db id with
  | error e => rfl
  | ok t =>
    simp only
    cases settleAmount t amt (remaining db t) <;> rfl

theorem voidInflight_eq (cfg : Cfg) (db : DB) (id newId ref n1 n2 : String) :
    voidInflight cfg db id newId ref n1 n2 =
      match decideVoid db id newId ref with
      | .error e => (db, .error e)
      | .ok t => ((recordSingle cfg db t n1 n2).1, .ok (recordSingle cfg db t n1 n2).2) := by
  unfold voidInflight decideVoid
  cases fetchInflight db id with
  | error e => rfl
  | ok t =>
    simp only
    split <;> rfl

/-- A step that does not settle the hold `h`. -/
def Act.Spares (h : String) : Act → Prop
  | .commit id _ _ _ _ _ => id ≠ h
  | .void id _ _ _ _ => id ≠ h
  | .base _ => True

theorem act_spares {cfg : Cfg} {H : String → Prop} {db : DB} {a : Act} {h : String} (hk : HoldInv H db)
    (hr : a.Respects H) (hs : a.Spares h) {r : Txn} (hrow : r ∈ db.txns) (hid : r.id = h) (hh : r.Holds) :
    db.getTxn h = (act cfg db a).getTxn h ∧ committed (act cfg db a) h = committed db h ∧
    (act cfg db a).parentVoid h = db.parentVoid h := by
  have hk' := act_holdInv (cfg := cfg) hk hr
  have hH : H h := hid ▸ hk.known r hrow hh
  obtain ⟨new, e⟩ := act_prefix (cfg := cfg) hk hr
  have hnew : ∀ x ∈ new, x.status = .applied ∨ x.status = .void → x.parent ≠ h := by
    intro x hx hst he
    cases a with
    | base op =>
      obtain ⟨ho, hpost, hstore⟩ := hr
      obtain ⟨new', g, hn⟩ := ordinary_grown (cfg := cfg) hk.inv ho
      have : new' = new := List.append_cancel_left (g.txns.symm.trans e)
      subst this
      rcases hn x hx with ⟨t, ht, _, hp, _, hst'⟩ | rfl
      · have := hpost t ht
        cases hf : t.inflight <;> rw [hf] at this hst' <;> simp at this hst'
        · rw [hp] at he; rw [he] at this; exact this hH
        · rw [hst'] at hst; simp at hst
      · rcases ho.1 with h | h | h <;> simp [h] at hst
    | commit id amt newId ref n1 n2 =>
      rcases commit_grown (cfg := cfg) (h := id) (newId := newId) (ref := ref) (n1 := n1) (n2 := n2) (amt := amt)
        hk.inv hk.remaining_nonneg with ⟨g, _⟩ | ⟨row, y, p, _, _, _, _, g, _, _, hset, _⟩
      · have : [] = new := List.append_cancel_left (g.txns.symm.trans e)
        subst this; simp at hx
      · have : [y] = new := List.append_cancel_left (g.txns.symm.trans e)
        subst this; simp at hx; subst hx
        exact hs (hset.parent.symm.trans he)
    | void id newId ref n1 n2 =>
      rcases void_grown (cfg := cfg) (h := id) (newId := newId) (ref := ref) (n1 := n1) (n2 := n2)
        hk.inv hk.remaining_nonneg with ⟨g, _⟩ | ⟨row, y, _, _, _, _, g, _, _, hset, _⟩
      · have : [] = new := List.append_cancel_left (g.txns.symm.trans e)
        subst this; simp at hx
      · have : [y] = new := List.append_cancel_left (g.txns.symm.trans e)
        subst this; simp at hx; subst hx
        exact hs (hset.parent.symm.trans he)
  refine ⟨?_, kidSum_same e (fun x hx h1 => hnew x hx (.inl h1)), ?_⟩
  · subst hid
    rw [getTxn_of_mem hk.inv hrow, getTxn_of_mem hk'.inv (by rw [e]; exact List.mem_append_left _ hrow)]
  · unfold DB.parentVoid
    rw [e, List.any_append]
    have : new.any (fun t => t.parent = h && t.status = .void) = false := by
      rw [List.any_eq_false]
      intro x hx
      simp only [Bool.and_eq_true, decide_eq_true_eq, not_and]
      intro h1 h2; exact hnew x hx (.inr h2) h1
    rw [this]; simp

theorem acts_spares {cfg : Cfg} {H : String → Prop} {h : String} {r : Txn} (hid : r.id = h) (hh : r.Holds) {as : List Act} :
    ∀ {db : DB}, HoldInv H db → (∀ a ∈ as, a.Respects H ∧ a.Spares h) → r ∈ db.txns →
    db.getTxn h = (acts cfg db as).getTxn h ∧ committed (acts cfg db as) h = committed db h ∧
    (acts cfg db as).parentVoid h = db.parentVoid h := by
  induction as with
  | nil => intro db _ _ _; exact ⟨rfl, rfl, rfl⟩
  | cons a as ih =>
    intro db hk hr hrow
    have ha := hr a (by simp)
    obtain ⟨e1, e2, e3⟩ := act_spares (cfg := cfg) hk ha.1 ha.2 hrow hid hh
    obtain ⟨new, e⟩ := act_prefix (cfg := cfg) hk ha.1
    obtain ⟨f1, f2, f3⟩ := ih (act_holdInv (cfg := cfg) hk ha.1) (fun b hb => hr b (List.mem_cons_of_mem _ hb))
      (by rw [e]; exact List.mem_append_left _ hrow)
    exact ⟨e1.trans f1, f2.trans e2, f3.trans e3⟩

/-- **C22.** A commit reads the hold and its children, then posts. Whatever else runs between
its reads and its posting — anything but another settlement of the same hold, which the lock
`inflight-commit:<id>` keeps out — the posting is exactly the one that reading and posting in
one go would make. So concurrent settlements behave as some sequence of atomic ones. -/
theorem c22_late_commit_is_atomic (cfg : Cfg) (H : String → Prop) (as bs : List Act) (h newId ref n1 n2 : String)
    (amt : Int) (t : Txn) (hr : ∀ a ∈ as, a.Respects H) (hb : ∀ b ∈ bs, b.Respects H ∧ b.Spares h)
    (hd : decideCommit (acts cfg {} as) h amt newId ref = .ok t) :
    commitInflight cfg (acts cfg {} (as ++ bs)) h amt newId ref n1 n2 =
      ((recordSingle cfg (acts cfg {} (as ++ bs)) t n1 n2).1, .ok (recordSingle cfg (acts cfg {} (as ++ bs)) t n1 n2).2) := by
  have hk := acts_holdInv (cfg := cfg) (init_holdInv H) hr
  rw [commitInflight_eq]
  have hf : ∃ u, fetchInflight (acts cfg {} as) h = .ok u := by
    unfold decideCommit at hd
    split at hd
    · cases hd
    · exact ⟨_, ‹_›⟩
  obtain ⟨u, hu⟩ := hf
  obtain ⟨r, hrow, hid, hin, _, _⟩ := fetchInflight_ok hu
  obtain ⟨e1, e2, e3⟩ := acts_spares (cfg := cfg) hid ((holds_iff _).1 hin) hk hb hrow
  rw [← acts_append] at e1 e2 e3
  have hsame : decideCommit (acts cfg {} (as ++ bs)) h amt newId ref = decideCommit (acts cfg {} as) h amt newId ref := by
    have q : fetchInflight (acts cfg {} (as ++ bs)) h = fetchInflight (acts cfg {} as) h := by
      unfold fetchInflight; rw [← e1, e3]
    unfold decideCommit
    rw [q, hu]
    have : u.id = h := by
      obtain ⟨r', _, hid', _, _, rfl⟩ := fetchInflight_ok hu; exact hid'
    simp only [remaining, totalCommitted_eq, this, e2]
  rw [hsame, hd]

/-- **C22.** The same for a void. -/
theorem c22_late_void_is_atomic (cfg : Cfg) (H : String → Prop) (as bs : List Act) (h newId ref n1 n2 : String)
    (t : Txn) (hr : ∀ a ∈ as, a.Respects H) (hb : ∀ b ∈ bs, b.Respects H ∧ b.Spares h)
    (hd : decideVoid (acts cfg {} as) h newId ref = .ok t) :
    voidInflight cfg (acts cfg {} (as ++ bs)) h newId ref n1 n2 =
      ((recordSingle cfg (acts cfg {} (as ++ bs)) t n1 n2).1, .ok (recordSingle cfg (acts cfg {} (as ++ bs)) t n1 n2).2) := by
  have hk := acts_holdInv (cfg := cfg) (init_holdInv H) hr
  rw [voidInflight_eq]
  have hf : ∃ u, fetchInflight (acts cfg {} as) h = .ok u := by
    unfold decideVoid at hd
    split at hd
    · cases hd
    · exact ⟨_, ‹_›⟩
  obtain ⟨u, hu⟩ := hf
  obtain ⟨r, hrow, hid, hin, _, _⟩ := fetchInflight_ok hu
  obtain ⟨e1, e2, e3⟩ := acts_spares (cfg := cfg) hid ((holds_iff _).1 hin) hk hb hrow
  rw [← acts_append] at e1 e2 e3
  have hsame : decideVoid (acts cfg {} (as ++ bs)) h newId ref = decideVoid (acts cfg {} as) h newId ref := by
    have q : fetchInflight (acts cfg {} (as ++ bs)) h = fetchInflight (acts cfg {} as) h := by
      unfold fetchInflight; rw [← e1, e3]
    unfold decideVoid
    rw [q, hu]
    have : u.id = h := by
      obtain ⟨r', _, hid', _, _, rfl⟩ := fetchInflight_ok hu; exact hid'
    simp only [remaining, totalCommitted_eq, this, e2]
  rw [hsame, hd]

/-- Between reading `h1` and posting, another hold is committed in full. -/
example : (∀ b ∈ ([.commit "h2" 0 "c2" "s9" "x" "y"] : List Act), b.Respects exampleHolds ∧ b.Spares "h1") ∧
    (decideCommit (acts {} {} (holdHistory.take 4)) "h1" 30 "c1" "s1").toOption.isSome = true ∧
    (commitInflight {} (acts {} {} (holdHistory.take 4 ++ [.commit "h2" 0 "c2" "s9" "x" "y"])) "h1" 30 "c1" "s1" "x" "y").2.toOption.any
      (fun o => match o with | .posted [x] => decide (x.preciseAmount = some 30) | _ => false) = true := by
  refine ⟨?_, by decide +kernel, by decide +kernel⟩
  intro b hb
  simp at hb; subst hb
  simp [Act.Respects, Act.Spares]

/-! ### C23 -/

/-- **C23.** An accepted void posts one VOID row for exactly the uncommitted amount, after
which committed plus released is the whole hold. -/
theorem c23_void_releases_remainder (cfg : Cfg) (H : String → Prop) (as : List Act) (hr : ∀ a ∈ as, a.Respects H)
    (h newId ref n1 n2 : String) (rows : List Txn)
    (ho : (voidInflight cfg (acts cfg {} as) h newId ref n1 n2).2 = .ok (.posted rows)) :
    ∃ r ∈ (acts cfg {} as).txns, r.id = h ∧ r.Holds ∧ ∃ x, rows = [x] ∧ x.status = .void ∧ x.parent = h ∧
      pay x = pay r - committed (acts cfg {} as) h ∧ 0 < pay x ∧
      committed (voidInflight cfg (acts cfg {} as) h newId ref n1 n2).1 h = committed (acts cfg {} as) h ∧
      committed (voidInflight cfg (acts cfg {} as) h newId ref n1 n2).1 h +
        released (voidInflight cfg (acts cfg {} as) h newId ref n1 n2).1 h = pay r := by
  have hk := acts_holdInv (cfg := cfg) (init_holdInv H) hr
  rcases void_grown (cfg := cfg) (h := h) (newId := newId) (ref := ref) (n1 := n1) (n2 := n2) hk.inv
    hk.remaining_nonneg with ⟨_, hn⟩ | ⟨row, x, hrow, hid, hin, hv, g, ho', _, hs, h0⟩
  · exact absurd ho (hn rows)
  · have erows : rows = [x] := by
      rw [ho] at ho'
      simpa using ho'
    have hpay : pay x = pay row - committed (acts cfg {} as) h := by simp [pay, hs.amount, totalCommitted_eq]
    have r0 : released (acts cfg {} as) h = 0 := kidSum_zero (fun c hc hcs => parentVoid_false.1 hv c hc hcs)
    have e1 : committed (voidInflight cfg (acts cfg {} as) h newId ref n1 n2).1 h = committed (acts cfg {} as) h :=
      kidSum_same g.txns (by simp [hs.status])
    have e2 : released _ x.parent = released (acts cfg {} as) x.parent + pay x := kidSum_one g.txns hs.status
    rw [hs.parent] at e2
    refine ⟨row, hrow, hid, (holds_iff _).1 hin, x, erows, hs.status, hs.parent, hpay, ?_, e1, ?_⟩
    · rw [hpay, ← totalCommitted_eq]; exact h0
    · omega

example : (voidInflight {} (acts {} {} (holdHistory.take 5)) "h1" "v1" "s2" "x" "y").2.toOption.any
    (fun o => match o with | .posted [x] => decide (x.preciseAmount = some 70) | _ => false) = true := by decide +kernel

/-- **C23.** Effect of an accepted void on the accounts: the remainder leaves the inflight
debit of the source and the inflight credit of the destination, and nothing else changes. -/
theorem c23_void_effect (cfg : Cfg) (H Q : String → Prop) (as : List Act) (hr : ∀ a ∈ as, a.Respects H ∧ a.Direct Q)
    (h newId ref n1 n2 : String) (hq : ¬ Q h) (rows : List Txn)
    (ho : (voidInflight cfg (acts cfg {} as) h newId ref n1 n2).2 = .ok (.posted rows)) :
    ∃ r ∈ (acts cfg {} as).txns, r.id = h ∧ r.Holds ∧ ∀ i,
      col (·.inflightDebit) (voidInflight cfg (acts cfg {} as) h newId ref n1 n2).1 i =
        col (·.inflightDebit) (acts cfg {} as) i - (if r.source = i then pay r - committed (acts cfg {} as) h else 0) ∧
      col (·.inflightCredit) (voidInflight cfg (acts cfg {} as) h newId ref n1 n2).1 i =
        col (·.inflightCredit) (acts cfg {} as) i - (if r.destination = i then pay r - committed (acts cfg {} as) h else 0) ∧
      col (·.debit) (voidInflight cfg (acts cfg {} as) h newId ref n1 n2).1 i = col (·.debit) (acts cfg {} as) i ∧
      col (·.credit) (voidInflight cfg (acts cfg {} as) h newId ref n1 n2).1 i = col (·.credit) (acts cfg {} as) i := by
  have hf := acts_fundInv (cfg := cfg) (init_fundInv H Q) hr
  have hk := hf.toHoldInv
  rcases void_grown (cfg := cfg) (h := h) (newId := newId) (ref := ref) (n1 := n1) (n2 := n2) hk.inv
    hk.remaining_nonneg with ⟨_, hn⟩ | ⟨row, x, hrow, hid, hin, hv, g, ho', _, hs, h0⟩
  · exact absurd ho (hn rows)
  · have hst : row.status = .inflight := by
      rcases (holds_iff _).1 hin with h' | h'
      · exact h'
      · exact absurd (hid ▸ hf.queued row hrow h'.1 (.inr h')) hq
    have hacc := hf.accounts row hrow hst
    have e1 := hs.source (hf.plain _ hacc.1)
    have e2 := hs.destination (hf.plain _ hacc.2)
    have hpay : pay x = pay row - committed (acts cfg {} as) h := by simp [pay, hs.amount, totalCommitted_eq]
    refine ⟨row, hrow, hid, .inl hst, fun i => ⟨?_, ?_, ?_, ?_⟩⟩
    · rw [g.inflightDebit]; simp only [out_cons, out_nil, e1, hpay]; split <;> omega
    · rw [g.inflightCredit]; simp only [inn_cons, inn_nil, e2, hpay]; split <;> omega
    · rw [g.debit]; simp [out_cons, rowReg, hs.status]
    · rw [g.credit]; simp [inn_cons, rowReg, hs.status]

/-- **C23.** The inflight columns of every account are the sums of the open remainders of its
INFLIGHT rows, so a hold that was voided or fully committed contributes nothing. Proved for
histories whose settlements name INFLIGHT rows, not QUEUED stand-ins (see `c23_full_fails`). -/
theorem c23_columns_are_open_holds_partial (cfg : Cfg) (H Q : String → Prop) (as : List Act)
    (hr : ∀ a ∈ as, a.Respects H ∧ a.Direct Q) :
    (∀ i, col (·.inflightDebit) (acts cfg {} as) i = out (heldOf (acts cfg {} as)) i (acts cfg {} as).txns ∧
      col (·.inflightCredit) (acts cfg {} as) i = inn (heldOf (acts cfg {} as)) i (acts cfg {} as).txns) ∧
    ∀ r ∈ (acts cfg {} as).txns, r.status = .inflight →
      ((∃ v ∈ (acts cfg {} as).txns, v.parent = r.id ∧ v.status = .void) ∨ committed (acts cfg {} as) r.id = pay r) →
      heldOf (acts cfg {} as) r = 0 := by
  have hf := acts_fundInv (cfg := cfg) (init_fundInv H Q) hr
  refine ⟨fun i => ⟨hf.debit i, hf.credit i⟩, ?_⟩
  intro r hr' hs hc
  have hb := hf.toHoldInv.bound r hr' (.inl hs)
  have hn : 0 ≤ released (acts cfg {} as) r.id := kidSum_nonneg hf.toHoldInv (.inr rfl) (hf.known r hr' (.inl hs))
  simp only [heldOf, hs, if_true, openAmount]
  rcases hc with ⟨v, hv, h1, h2⟩ | hc
  · have hpv : (acts cfg {} as).parentVoid r.id = true := by
      cases hp : (acts cfg {} as).parentVoid r.id with
      | true => rfl
      | false => exact absurd h1 (parentVoid_false.1 hp v hv h2)
    have := hf.toHoldInv.closed r hr' (.inl hs) hpv
    omega
  · omega

example : col (·.inflightDebit) (acts {} {} holdHistory) "a" = 100 ∧ col (·.debit) (acts {} {} holdHistory) "a" = 30 ∧
    col (·.inflightCredit) (acts {} {} holdHistory) "b" = 100 := by decide +kernel

/-! ### C24 -/

/-- **C24.** After a void, every later commit and void of the hold is refused and changes nothing. -/
theorem c24_void_is_final (cfg : Cfg) (H : String → Prop) (as bs : List Act)
    (hr : ∀ a ∈ as ++ bs, a.Respects H) (h : String)
    (hv : ∃ v ∈ (acts cfg {} as).txns, v.parent = h ∧ v.status = .void) (amt : Int) (newId ref n1 n2 : String) :
    (∃ e, commitInflight cfg (acts cfg {} (as ++ bs)) h amt newId ref n1 n2 = (acts cfg {} (as ++ bs), .error e)) ∧
    ∃ e, voidInflight cfg (acts cfg {} (as ++ bs)) h newId ref n1 n2 = (acts cfg {} (as ++ bs), .error e) := by
  have hk := acts_holdInv (cfg := cfg) (init_holdInv H) (fun a ha => hr a (List.mem_append_left _ ha))
  obtain ⟨new, e⟩ := acts_prefix (cfg := cfg) hk (as := bs) (fun a ha => hr a (List.mem_append_right _ ha))
  rw [acts_append]
  obtain ⟨v, hv1, hv2, hv3⟩ := hv
  have hpv : (acts cfg (acts cfg {} as) bs).parentVoid h = true := by
    cases hp : (acts cfg (acts cfg {} as) bs).parentVoid h with
    | true => rfl
    | false => exact absurd hv2 (parentVoid_false.1 hp v (by rw [e]; exact List.mem_append_left _ hv1) hv3)
  have hf : ∃ err, fetchInflight (acts cfg (acts cfg {} as) bs) h = .error err := by
    cases hf : fetchInflight (acts cfg (acts cfg {} as) bs) h with
    | error err => exact ⟨err, rfl⟩
    | ok t =>
      obtain ⟨_, _, _, _, hnv, _⟩ := fetchInflight_ok hf
      rw [hpv] at hnv; cases hnv
  obtain ⟨err, hf⟩ := hf
  exact ⟨⟨err, by simp [commitInflight, hf]⟩, ⟨err, by simp [voidInflight, hf]⟩⟩

/-- **C24.** After the whole hold is committed, every later commit and void of it is refused
and changes nothing. -/
theorem c24_full_commit_is_final (cfg : Cfg) (H : String → Prop) (as bs : List Act)
    (hr : ∀ a ∈ as ++ bs, a.Respects H) (r : Txn) (hrow : r ∈ (acts cfg {} as).txns) (hh : r.Holds)
    (hc : committed (acts cfg {} as) r.id = pay r) (amt : Int) (newId ref n1 n2 : String) :
    (∃ e, commitInflight cfg (acts cfg {} (as ++ bs)) r.id amt newId ref n1 n2 = (acts cfg {} (as ++ bs), .error e)) ∧
    ∃ e, voidInflight cfg (acts cfg {} (as ++ bs)) r.id newId ref n1 n2 = (acts cfg {} (as ++ bs), .error e) := by
  have hk := acts_holdInv (cfg := cfg) (init_holdInv H) (fun a ha => hr a (List.mem_append_left _ ha))
  have hrb : ∀ a ∈ bs, a.Respects H := fun a ha => hr a (List.mem_append_right _ ha)
  obtain ⟨new, e⟩ := acts_prefix (cfg := cfg) hk hrb
  have hk' := acts_holdInv (cfg := cfg) hk hrb
  rw [acts_append]
  have hrow' : r ∈ (acts cfg (acts cfg {} as) bs).txns := by rw [e]; exact List.mem_append_left _ hrow
  have hH := hk.known r hrow hh
  have hge : committed (acts cfg {} as) r.id ≤ committed (acts cfg (acts cfg {} as) bs) r.id := by
    have := kidSum_append (st := .applied) e r.id
    have nn : 0 ≤ ((new.filter (fun t => t.parent = r.id && t.status = .applied)).map pay).sum := by
      apply sum_nonneg
      intro y hy
      obtain ⟨c, hc', rfl⟩ := List.mem_map.1 hy
      rw [List.mem_filter] at hc'
      simp only [Bool.and_eq_true, decide_eq_true_eq] at hc'
      have := (hk'.kids c (by rw [e]; exact List.mem_append_right _ hc'.1) (.inl hc'.2.2) (by rw [hc'.2.1]; exact hH)).1
      omega
    show kidSum _ _ _ ≤ kidSum _ _ _
    omega
  have hb := hk'.bound r hrow' hh
  have hn : 0 ≤ released (acts cfg (acts cfg {} as) bs) r.id := kidSum_nonneg hk' (.inr rfl) hH
  have hz : pay r - committed (acts cfg (acts cfg {} as) bs) r.id = 0 := by omega
  cases hf : fetchInflight (acts cfg (acts cfg {} as) bs) r.id with
  | error err => exact ⟨⟨err, by simp [commitInflight, hf]⟩, ⟨err, by simp [voidInflight, hf]⟩⟩
  | ok t =>
    obtain ⟨r', hr', hid, _, _, et⟩ := fetchInflight_ok hf
    have : r' = r := row_unique hk'.inv hr' hrow' hid
    subst this
    have hrem : remaining (acts cfg (acts cfg {} as) bs) t = 0 := by
      rw [et]; simpa [remaining, pay, totalCommitted_eq] using hz
    exact ⟨⟨.alreadyCommitted, by simp [commitInflight, hf, hrem, settleAmount]⟩,
      ⟨.alreadyCommitted, by simp [voidInflight, hf, hrem]⟩⟩

example : (∃ v ∈ (acts {} {} holdHistory).txns, v.parent = "h1" ∧ v.status = .void) ∧
    (commitInflight {} (acts {} {} holdHistory) "h1" 0 "c9" "s9" "x" "y").2 = .error .voided ∧
    (voidInflight {} (acts {} {} holdHistory) "h1" "c9" "s9" "x" "y").2 = .error .voided := by
  refine ⟨⟨_, List.getElem_mem (n := 3) (by decide +kernel), by decide +kernel, by decide +kernel⟩, by decide +kernel,
    by decide +kernel⟩

example : let as := holdHistory.take 4 ++ [Act.commit "h1" 0 "c1" "s1" "x" "y"]
    committed (acts {} {} as) "h1" = 100 ∧
    (commitInflight {} (acts {} {} as) "h1" 1 "c9" "s9" "x" "y").2 = .error .alreadyCommitted ∧
    (voidInflight {} (acts {} {} as) "h1" "c9" "s9" "x" "y").2 = .error .alreadyCommitted := by decide +kernel

/-! ### C26 -/

theorem commit_arith {cfg : Cfg} {db : DB} {t : Txn} {p : Int} {rs rd : Balance} {n1 n2 : String}
    (hst : t.status = .commit) (hfl : t.inflight = false) (hpa : t.preciseAmount = some p) (h0 : 0 < p)
    (hs : isIndicator t.source = false) (hd : isIndicator t.destination = false) (hne : t.source ≠ t.destination)
    (fs : db.find t.source = some rs) (fd : db.find t.destination = some rd)
    (hle1 : p ≤ rs.inflightDebit) (hle2 : p ≤ rd.inflightCredit)
    (href : db.hasRef t.reference = false) (hid : db.hasTxnId t.id = false) :
    (recordSingle cfg db t n1 n2).2 = .posted [finalRow t] := by
  have st := settle_commit hst hfl hpa h0
  unfold recordSingle
  simp only [resolve_plain hs, resolve_plain hd]
  have ap := applyPrecision_pos hpa h0
  refine postResolved_complete (rs := rs) (rd := rd)
    (s' := ((({ db.view cfg rs with inflightDebit := rs.inflightDebit - p, debit := rs.debit + p } : Balance).computeBalance true).computeBalance false))
    (d' := ((({ db.view cfg rd with inflightCredit := rd.inflightCredit - p, credit := rd.credit + p } : Balance).computeBalance true).computeBalance false))
    href hid hne fs fd ?_ ?_ ?_
  · have : ¬ (db.view cfg rs).inflightDebit < p := by simp only [DB.view]; omega
    show applySource t _ = _
    unfold applySource
    rw [hst]; simp only; rw [ap]
    simp only [Option.getD_some, Balance.commitInflightDebit, this, if_false]
    rfl
  · have : ¬ (db.view cfg rd).inflightCredit < p := by simp only [DB.view]; omega
    show applyDestination t _ = _
    unfold applyDestination
    rw [hst]; simp only; rw [ap]
    simp only [Option.getD_some, Balance.commitInflightCredit, this, if_false]
    rfl
  · show (finalRow t).preciseAmount ≠ some 0
    rw [st.2.1]; simp; omega

theorem void_arith {cfg : Cfg} {db : DB} {t : Txn} {p : Int} {rs rd : Balance} {n1 n2 : String}
    (hst : t.status = .void) (hfl : t.inflight = false) (hpa : t.preciseAmount = some p) (h0 : 0 < p)
    (hs : isIndicator t.source = false) (hd : isIndicator t.destination = false) (hne : t.source ≠ t.destination)
    (fs : db.find t.source = some rs) (fd : db.find t.destination = some rd)
    (hle1 : p ≤ rs.inflightDebit) (hle2 : p ≤ rd.inflightCredit)
    (href : db.hasRef t.reference = false) (hid : db.hasTxnId t.id = false) :
    (recordSingle cfg db t n1 n2).2 = .posted [finalRow t] := by
  have st := settle_void hst hfl hpa
  unfold recordSingle
  simp only [resolve_plain hs, resolve_plain hd]
  refine postResolved_complete (rs := rs) (rd := rd)
    (s' := (({ db.view cfg rs with inflightDebit := rs.inflightDebit - p } : Balance).computeBalance true))
    (d' := (({ db.view cfg rd with inflightCredit := rd.inflightCredit - p } : Balance).computeBalance true))
    href hid hne fs fd ?_ ?_ ?_
  · have : ¬ (db.view cfg rs).inflightDebit < p := by simp only [DB.view]; omega
    simp [applySource, hst, hpa, Balance.rollbackInflightDebit, this]
    simp [DB.view]
  · have : ¬ (db.view cfg rd).inflightCredit < p := by simp only [DB.view]; omega
    simp [applyDestination, hst, hpa, Balance.rollbackInflightCredit, this]
    simp [DB.view]
  · show (finalRow t).preciseAmount ≠ some 0
    rw [st.2.1]; simp; omega

/-- **C26.** Once a hold is on the books, committing any part of what is open of it succeeds,
whatever else happened to the two accounts in between: ordinary debits, other holds, their
commits and voids, exhausted funds. Proved for histories whose settlements name INFLIGHT rows,
not QUEUED stand-ins (see `c26_full_fails`), and for holds between two different accounts. -/
theorem c26_commit_succeeds_partial (cfg : Cfg) (H Q : String → Prop) (as : List Act)
    (hr : ∀ a ∈ as, a.Respects H ∧ a.Direct Q) (r : Txn) (hrow : r ∈ (acts cfg {} as).txns) (hs : r.status = .inflight)
    (hne : r.source ≠ r.destination) (amt : Int) (h0 : 0 ≤ amt) (hle : amt ≤ openAmount (acts cfg {} as) r)
    (hopen : 0 < openAmount (acts cfg {} as) r) (newId ref n1 n2 : String)
    (hid : (acts cfg {} as).hasTxnId newId = false) (href : (acts cfg {} as).hasRef ref = false) :
    ∃ x, (commitInflight cfg (acts cfg {} as) r.id amt newId ref n1 n2).2 = .ok (.posted [x]) ∧
      pay x = if amt = 0 then openAmount (acts cfg {} as) r else amt := by
  have hf := acts_fundInv (cfg := cfg) (init_fundInv H Q) hr
  generalize acts cfg {} as = db at *
  have hk := hf.toHoldInv
  have hh : r.Holds := .inl hs
  have hnv : db.parentVoid r.id = false := by
    cases hp : db.parentVoid r.id with
    | false => rfl
    | true =>
      have := hk.closed r hrow hh hp
      unfold openAmount at hopen; omega
  have hrel : released db r.id = 0 := kidSum_zero (fun c hc hcs => parentVoid_false.1 hnv c hc hcs)
  obtain ⟨s, d, fs, fd, c1, c2⟩ := hf.covers hrow hs
  have hacc := hf.accounts r hrow hs
  have i1 := hf.plain _ hacc.1
  have i2 := hf.plain _ hacc.2
  have hg := getTxn_of_mem hk.inv hrow
  have hfetch : fetchInflight db r.id =
      .ok { r with allowOverdraft := false, overdraftLimit := 0, inflight := false, atomic := false, skipQueue := false } := by
    unfold fetchInflight
    rw [hg]
    simp [isInflightTxn, hs, hnv]
  have hrem : remaining db { r with allowOverdraft := false, overdraftLimit := 0, inflight := false, atomic := false, skipQueue := false }
      = openAmount db r := by
    show pay r - db.totalCommitted r.id = _
    rw [totalCommitted_eq]; unfold openAmount; omega
  have hge : openAmount db r ≤ pay r := by
    have := kidSum_nonneg hk (st := .applied) (.inl rfl) (hk.known r hrow hh)
    have e : committed db r.id = kidSum .applied db r.id := rfl
    unfold openAmount; omega
  have hset : settleAmount { r with allowOverdraft := false, overdraftLimit := 0, inflight := false, atomic := false, skipQueue := false }
      amt (openAmount db r) = .ok (if amt = 0 then openAmount db r else amt) := by
    have e : ({ r with allowOverdraft := false, overdraftLimit := 0, inflight := false, atomic := false, skipQueue := false } : Txn).preciseAmount.getD 0 = pay r := rfl
    unfold settleAmount
    rw [e]
    rw [if_neg (by omega), if_neg (by omega)]
    split
    · rfl
    · rw [if_neg (by omega), if_neg (by omega)]
  have hp0 : 0 < (if amt = 0 then openAmount db r else amt) := by split <;> omega
  have hple : (if amt = 0 then openAmount db r else amt) ≤ openAmount db r := by split <;> omega
  unfold commitInflight
  rw [hfetch]
  simp only [hrem, hset]
  refine ⟨finalRow (commitTxn { r with allowOverdraft := false, overdraftLimit := 0, inflight := false, atomic := false, skipQueue := false }
      (if amt = 0 then openAmount db r else amt)
      (if amt = 0 then ((if amt = 0 then openAmount db r else amt : Int) : Rat) / r.precision else r.amount) newId ref), ?_, ?_⟩
  · rw [commit_arith (t := commitTxn { r with allowOverdraft := false, overdraftLimit := 0, inflight := false, atomic := false, skipQueue := false }
      (if amt = 0 then openAmount db r else amt)
      (if amt = 0 then ((if amt = 0 then openAmount db r else amt : Int) : Rat) / r.precision else r.amount) newId ref)
      (rs := s) (rd := d) (p := if amt = 0 then openAmount db r else amt) rfl rfl rfl hp0 i1 i2 hne fs fd
      (by omega) (by omega) href hid]
  · have st := settle_commit (t := commitTxn { r with allowOverdraft := false, overdraftLimit := 0, inflight := false, atomic := false, skipQueue := false }
      (if amt = 0 then openAmount db r else amt)
      (if amt = 0 then ((if amt = 0 then openAmount db r else amt : Int) : Rat) / r.precision else r.amount) newId ref)
      (p := if amt = 0 then openAmount db r else amt) rfl rfl rfl hp0
    unfold pay
    rw [st.2.1]; rfl

/-- **C26.** The same for a void. -/
theorem c26_void_succeeds_partial (cfg : Cfg) (H Q : String → Prop) (as : List Act)
    (hr : ∀ a ∈ as, a.Respects H ∧ a.Direct Q) (r : Txn) (hrow : r ∈ (acts cfg {} as).txns) (hs : r.status = .inflight)
    (hne : r.source ≠ r.destination) (hopen : 0 < openAmount (acts cfg {} as) r) (newId ref n1 n2 : String)
    (hid : (acts cfg {} as).hasTxnId newId = false) (href : (acts cfg {} as).hasRef ref = false) :
    ∃ x, (voidInflight cfg (acts cfg {} as) r.id newId ref n1 n2).2 = .ok (.posted [x]) := by
  have hf := acts_fundInv (cfg := cfg) (init_fundInv H Q) hr
  generalize acts cfg {} as = db at *
  have hk := hf.toHoldInv
  have hh : r.Holds := .inl hs
  have hnv : db.parentVoid r.id = false := by
    cases hp : db.parentVoid r.id with
    | false => rfl
    | true =>
      have := hk.closed r hrow hh hp
      unfold openAmount at hopen; omega
  have hrel : released db r.id = 0 := kidSum_zero (fun c hc hcs => parentVoid_false.1 hnv c hc hcs)
  obtain ⟨s, d, fs, fd, c1, c2⟩ := hf.covers hrow hs
  have hacc := hf.accounts r hrow hs
  have i1 := hf.plain _ hacc.1
  have i2 := hf.plain _ hacc.2
  have hg := getTxn_of_mem hk.inv hrow
  have hfetch : fetchInflight db r.id =
      .ok { r with allowOverdraft := false, overdraftLimit := 0, inflight := false, atomic := false, skipQueue := false } := by
    unfold fetchInflight
    rw [hg]
    simp [isInflightTxn, hs, hnv]
  have hrem : remaining db { r with allowOverdraft := false, overdraftLimit := 0, inflight := false, atomic := false, skipQueue := false }
      = openAmount db r := by
    show pay r - db.totalCommitted r.id = _
    rw [totalCommitted_eq]; unfold openAmount; omega
  unfold voidInflight
  rw [hfetch]
  simp only [hrem]
  rw [if_neg (by omega)]
  generalize hw : ({ r with allowOverdraft := false, overdraftLimit := 0, inflight := false, atomic := false, skipQueue := false } : Txn) = w
  have w1 : w.source = r.source := by rw [← hw]
  have w2 : w.destination = r.destination := by rw [← hw]
  have base := applyPrecision_keeps ({ w with status := .void, inflight := false, parent := w.id, id := newId, reference := ref, preciseAmount := some (openAmount db r) } : Txn)
  have es : (voidTxn w (openAmount db r) newId ref).source = r.source := base.2.2.2.2.2.2.2.1.trans w1
  have ed : (voidTxn w (openAmount db r) newId ref).destination = r.destination := base.2.2.2.2.2.2.2.2.1.trans w2
  have er : (voidTxn w (openAmount db r) newId ref).reference = ref := base.2.2.2.2.1
  have ei : (voidTxn w (openAmount db r) newId ref).id = newId := base.2.2.2.2.2.1
  refine ⟨finalRow (voidTxn w (openAmount db r) newId ref), ?_⟩
  rw [void_arith (rs := s) (rd := d) (p := openAmount db r) (t := voidTxn w (openAmount db r) newId ref)
    base.2.2.1 base.2.2.2.1 (applyPrecision_pos rfl hopen) hopen (by rw [es]; exact i1) (by rw [ed]; exact i2)
    (by rw [es, ed]; exact hne) (by rw [es]; exact fs) (by rw [ed]; exact fd) c1 c2 (by rw [er]; exact href) (by rw [ei]; exact hid)]

/-- The source is emptied and overdrawn after the hold; the commit still goes through. -/
def drainedHistory : List Act := holdHistory.take 3 ++
  [.base (.post { id := "d1", reference := "rd", source := "a", destination := "b", preciseAmount := some 5000, amount := 5000,
                  precision := 1, status := .queued, allowOverdraft := true } "x" "y")]

example : (∀ a ∈ drainedHistory, a.Respects exampleHolds ∧ a.Direct (fun _ => False)) ∧
    col (·.balance) (acts {} {} drainedHistory) "a" = -5000 ∧
    (acts {} {} drainedHistory).txns.map (openAmount (acts {} {} drainedHistory)) = [100, 5000] ∧
    (commitInflight {} (acts {} {} drainedHistory) "h1" 60 "c1" "s1" "x" "y").2.toOption.any
      (fun o => match o with | .posted [x] => decide (x.preciseAmount = some 60) | _ => false) = true := by
  refine ⟨?_, by decide +kernel, by decide +kernel, by decide +kernel⟩
  intro a ha
  simp only [drainedHistory, List.mem_append, List.mem_singleton] at ha
  rcases ha with ha | rfl
  · exact holdHistory_ok a (List.mem_of_mem_take ha)
  · simp [Act.Respects, Act.Direct, Op.Ordinary, Op.posts, Op.gens, Txn.Live, Txn.Plain, exampleHolds]
    decide +kernel

/-! ### Where the full claims fail: a queued hold has two rows

In queued mode a hold is stored twice: a QUEUED row `P` carrying `meta_data.inflight = true`
(`transaction_queue.go:268-284`, `341-368`) and, once the worker applied it, an INFLIGHT row
`C` whose parent is `P` (`createQueueCopy`, `:379-385`). `IsInflightTransaction` accepts both
rows, and neither settlement looks at the other row. `POST /transactions/inflight/bulk` with
`skip_queue` and the expiry worker (`cmd/workers.go:331-347`) settle the id they are given,
which is `P`; the single-transaction endpoint settles `C`. -/

/-- Hold `P`/`C` of 100 and another client's hold `h2` of 100 on the same accounts. -/
def twinHistory : List Act :=
  [.base (.create "a" "" "USD"), .base (.create "b" "" "USD"),
   .base (.store (standIn "P" "r1" "a" "b" 100)),
   .base (.post { holdTxn "C" "r1_q" "a" "b" 100 with parent := "P" } "x" "y"),
   .base (.post (holdTxn "h2" "r2" "a" "b" 100) "x" "y")]

/-- C22 read for the hold the client made: whatever was committed through its QUEUED row and
through the INFLIGHT row the queue made for it stays within the amount. -/
def C22Full : Prop := ∀ (cfg : Cfg) (H : String → Prop) (as : List Act), (∀ a ∈ as, a.Respects H) →
  ∀ p ∈ (acts cfg {} as).txns, ∀ c ∈ (acts cfg {} as).txns, p.Holds → c.Holds → c.parent = p.id → pay c = pay p →
    committed (acts cfg {} as) p.id + committed (acts cfg {} as) c.id ≤ pay p

/-- Ids of the rows that hold in `twinHistory`. -/
def twinHolds (i : String) : Prop := i = "P" ∨ i = "C" ∨ i = "h2"

theorem twinHistory_ok : ∀ a ∈ twinHistory, a.Respects twinHolds := by
  intro a ha
  simp only [twinHistory, List.mem_cons, List.not_mem_nil, or_false] at ha
  rcases ha with rfl | rfl | rfl | rfl | rfl <;>
    simp [Act.Respects, Op.Ordinary, Op.posts, holdTxn, standIn, Txn.Live, Txn.Plain, twinHolds, pay] <;>
    (try intro h; simp_all)

/-- **C22 is violated for queued holds**: both rows of one hold of 100 can be committed, for
200 in total; the second commit spends another client's hold. -/
theorem c22_full_fails : ¬ C22Full := by
  intro h
  have := h {} twinHolds (twinHistory ++ [.commit "P" 0 "c1" "s1" "x" "y", .commit "C" 0 "c2" "s2" "x" "y"])
    (by
      intro a ha
      rcases List.mem_append.1 ha with ha | ha
      · exact twinHistory_ok a ha
      · simp at ha; rcases ha with rfl | rfl <;> simp [Act.Respects])
    _ (List.getElem_mem (n := 0) (by decide +kernel)) _ (List.getElem_mem (n := 1) (by decide +kernel))
    (.inr (by decide +kernel)) (.inl (by decide +kernel)) (by decide +kernel) (by decide +kernel)
  revert this
  decide +kernel

/-- C26 without the restriction on stand-ins. -/
def C26Full : Prop := ∀ (cfg : Cfg) (H : String → Prop) (as : List Act), (∀ a ∈ as, a.Respects H) →
  ∀ r ∈ (acts cfg {} as).txns, r.status = .inflight → r.source ≠ r.destination →
    0 < openAmount (acts cfg {} as) r → ∀ newId ref n1 n2, (acts cfg {} as).hasTxnId newId = false →
    (acts cfg {} as).hasRef ref = false →
    ∃ x, (commitInflight cfg (acts cfg {} as) r.id 0 newId ref n1 n2).2 = .ok (.posted [x])

/-- **C26 is violated**: hold `C` is committed through the ordinary endpoint, then the expiry
task of the same hold voids its QUEUED row `P`, which releases the funds of hold `h2`.
Committing `h2` is then refused for insufficient inflight funds. -/
theorem c26_full_fails : ¬ C26Full := by
  intro h
  obtain ⟨x, hx⟩ := h {} twinHolds (twinHistory ++ [.commit "C" 0 "c1" "s1" "x" "y", .void "P" "v1" "s2" "x" "y"])
    (by
      intro a ha
      rcases List.mem_append.1 ha with ha | ha
      · exact twinHistory_ok a ha
      · simp at ha; rcases ha with rfl | rfl <;> simp [Act.Respects])
    _ (List.getElem_mem (n := 2) (by decide +kernel)) (by decide +kernel) (by decide +kernel) (by decide +kernel)
    "z" "z" "x" "y" (by decide +kernel) (by decide +kernel)
  have e : (commitInflight {} (acts {} {} (twinHistory ++ [.commit "C" 0 "c1" "s1" "x" "y", .void "P" "v1" "s2" "x" "y"]))
      "h2" 0 "z" "z" "x" "y").2 = .ok (.refused (.bal .insufficientInflightDebit)) := by decide +kernel
  have hid : ((acts {} {} (twinHistory ++ [.commit "C" 0 "c1" "s1" "x" "y", .void "P" "v1" "s2" "x" "y"])).txns[2]'(by decide +kernel)).id
      = "h2" := by decide +kernel
  rw [hid, e] at hx
  cases hx

/-- C23 without the restriction on stand-ins: the inflight columns are the open holds. -/
def C23Full : Prop := ∀ (cfg : Cfg) (H : String → Prop) (as : List Act), (∀ a ∈ as, a.Respects H) →
  ∀ i, col (·.inflightDebit) (acts cfg {} as) i = out (heldOf (acts cfg {} as)) i (acts cfg {} as).txns

/-- **C23 is violated**: after the expiry of a committed queued hold, the inflight debit of
the source is zero although hold `h2` of 100 is open. -/
theorem c23_full_fails : ¬ C23Full := by
  intro h
  have := h {} twinHolds (twinHistory ++ [.commit "C" 0 "c1" "s1" "x" "y", .void "P" "v1" "s2" "x" "y"])
    (by
      intro a ha
      rcases List.mem_append.1 ha with ha | ha
      · exact twinHistory_ok a ha
      · simp at ha; rcases ha with rfl | rfl <;> simp [Act.Respects]) "a"
  revert this
  decide +kernel

/-- Holds between an account and itself can be posted by a coalesced batch but never settled:
the settlement loses its own version race. -/
theorem c26_self_hold_cannot_settle :
    let as := [Act.base (.create "a" "" "USD"), .base (.batch [holdTxn "h1" "r1" "a" "a" 100])]
    (acts {} {} as).txns.map (·.status) = [.inflight] ∧
    (commitInflight {} (acts {} {} as) "h1" 0 "z" "z" "x" "y").2 = .ok (.refused .conflict) ∧
    (voidInflight {} (acts {} {} as) "h1" "z" "z" "x" "y").2 = .ok (.refused .conflict) := by decide +kernel

/-! ### C60 -/

/-- Settled columns are the sums of the applied rows. -/
structure BookInv (db : DB) : Prop where
  debit : ∀ i, col (·.debit) db i = out rowReg i db.txns
  credit : ∀ i, col (·.credit) db i = inn rowReg i db.txns

theorem book_grown {δ : Txn → Int} {gens : List String} {db db' : DB} {new : List Txn} (hb : BookInv db)
    (g : Grown δ gens db db' new) : BookInv db' := by
  constructor <;> intro i
  · rw [g.debit, hb.debit, g.txns, out_append]
  · rw [g.credit, hb.credit, g.txns, inn_append]

theorem acts_book {cfg : Cfg} {H : String → Prop} {as : List Act} : ∀ {db : DB}, HoldInv H db → BookInv db →
    (∀ a ∈ as, a.Respects H) → BookInv (acts cfg db as) := by
  induction as with
  | nil => intro db _ hb _; exact hb
  | cons a as ih =>
    intro db hk hb hr
    have ha := hr a (by simp)
    refine ih (act_holdInv (cfg := cfg) hk ha) ?_ (fun b hb => hr b (List.mem_cons_of_mem _ hb))
    cases a with
    | base op =>
      obtain ⟨new, g, _⟩ := ordinary_grown (cfg := cfg) hk.inv ha.1
      exact book_grown hb g
    | commit id amt newId ref n1 n2 =>
      rcases commit_grown (cfg := cfg) (h := id) (newId := newId) (ref := ref) (n1 := n1) (n2 := n2) (amt := amt)
        hk.inv hk.remaining_nonneg with ⟨g, _⟩ | ⟨_, _, _, _, _, _, _, g, _⟩
      · exact book_grown hb g
      · exact book_grown hb g
    | void id newId ref n1 n2 =>
      rcases void_grown (cfg := cfg) (h := id) (newId := newId) (ref := ref) (n1 := n1) (n2 := n2)
        hk.inv hk.remaining_nonneg with ⟨g, _⟩ | ⟨_, _, _, _, _, _, g, _⟩
      · exact book_grown hb g
      · exact book_grown hb g

/-- **C60.** At any time every account's settled debit is the sum of the stored APPLIED rows
leaving it, its settled credit the sum of the APPLIED rows entering it, and its balance the
difference: balances can be recomputed from the transaction table. QUEUED, SCHEDULED, REJECTED,
INFLIGHT and VOID rows count for nothing. Holds for every history, double settlements included. -/
theorem c60_balance_is_sum_of_applied_rows (cfg : Cfg) (H : String → Prop) (as : List Act) (hr : ∀ a ∈ as, a.Respects H)
    (b : Balance) (hb : b ∈ (acts cfg {} as).balances) :
    let applied := (acts cfg {} as).txns.filter (fun t => t.status = .applied)
    b.debit = ((applied.filter (fun t => t.source = b.id)).map pay).sum ∧
    b.credit = ((applied.filter (fun t => t.destination = b.id)).map pay).sum ∧
    b.balance = b.credit - b.debit := by
  have hk := acts_holdInv (cfg := cfg) (init_holdInv H) hr
  have hbk := acts_book (cfg := cfg) (init_holdInv H) (db := {}) ⟨fun i => rfl, fun i => rfl⟩ hr
  have hfind : (acts cfg {} as).find b.id = some b := find_of_mem hk.inv.nodup hb
  have key : ∀ (q : Txn → Bool) (l : List Txn), ((l.filter q).map rowReg).sum =
      (((l.filter (fun t => t.status = .applied)).filter q).map pay).sum := by
    intro q l
    induction l with
    | nil => rfl
    | cons t l ih =>
      by_cases h1 : t.status = .applied <;> by_cases h2 : q t = true <;>
        simp [h1, h2, rowReg, ih]
  refine ⟨?_, ?_, (hk.inv.consistent b hb).1⟩
  · have := hbk.debit b.id
    simp only [col, hfind, Option.elim_some] at this
    rw [this]; exact key _ _
  · have := hbk.credit b.id
    simp only [col, hfind, Option.elim_some] at this
    rw [this]; exact key _ _

example : (acts {} {} holdHistory).balances.map (fun b => (b.id, b.debit, b.credit, b.balance)) = [("a", 30, 0, -30), ("b", 0, 30, 30)] ∧
    ((acts {} {} holdHistory).txns.map (fun t => (t.id, t.status))) =
      [("h1", .inflight), ("h2", .inflight), ("c1", .applied), ("v1", .void)] := by decide +kernel

end Blnk
