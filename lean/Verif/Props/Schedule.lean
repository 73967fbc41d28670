import Verif.Lemmas.Schedule
/-
C90 (expiry dates), C91 (scheduled transactions) and C92 (commit dates).
-/
namespace Blnk.Sched

/-! ### Tasks -/

theorem mem_eraseIdx {α : Type} {x : α} : ∀ {l : List α} {k : Nat}, x ∈ l → x ∈ l.eraseIdx k ∨ l[k]? = some x := by
  intro l
  induction l with
  | nil => intro k h; simp at h
  | cons y l ih =>
    intro k h
    cases k with
    | zero =>
      rcases List.mem_cons.1 h with rfl | h
      · exact .inr rfl
      · exact .inl (by simpa using h)
    | succ k =>
      rcases List.mem_cons.1 h with rfl | h
      · exact .inl (by simp)
      · rcases ih (k := k) h with h | h
        · exact .inl (by simp [h])
        · exact .inr (by simpa using h)

/-- A task stays until a due attempt at it succeeds, or asynq archives it. -/
theorem task_kept {cfg : Cfg} {s : Sys} {e : Ev} {x : Task} (h : x ∈ s.tasks) : x ∈ (step cfg s e).tasks ∨
    x ∈ (step cfg s e).dead ∨ ∃ k g, e = .run k g ∧ s.tasks[k]? = some x ∧ x.due ≤ s.now ∧
      (attempt cfg s.db g x.job).2 = true ∧ (step cfg s e).db = (attempt cfg s.db g x.job).1 := by
  cases e with
  | tick n => exact .inl h
  | other a => exact .inl h
  | pick k newId =>
    left; simp only [step]
    split
    · exact h
    · split <;> exact h
  | direct r =>
    left; simp only [step, Sched.direct]
    split
    · exact List.mem_append_left _ h
    · exact h
  | queued r => exact .inl (List.mem_append_left _ h)
  | archive k =>
    simp only [step]
    split
    · exact .inl h
    · rename_i t ht
      split
      · rcases mem_eraseIdx (k := k) h with h | h
        · exact .inl h
        · rw [ht] at h; cases h
          exact .inr (.inl (by simp))
      · exact .inl h
  | run k g =>
    cases ht : s.tasks[k]? with
    | none => left; simp only [step, ht]; exact h
    | some t =>
      by_cases hd : t.due ≤ s.now
      · by_cases ha : (attempt cfg s.db g t.job).2 = true
        · rcases mem_eraseIdx (k := k) h with h | h
          · left; simp only [step, ht, if_pos hd, if_pos ha]; exact h
          · rw [ht] at h; cases h
            refine .inr (.inr ⟨k, g, rfl, ht, hd, ha, ?_⟩)
            simp only [step, ht, if_pos hd, if_pos ha]
        · left; simp only [step, ht, if_pos hd, if_neg ha]; exact h
      · left; simp only [step, ht, if_neg hd]; exact h

theorem dead_kept {cfg : Cfg} {s : Sys} {e : Ev} {x : Task} (h : x ∈ s.dead) : x ∈ (step cfg s e).dead := by
  cases e with
  | tick n => exact h
  | other a => exact h
  | pick k newId =>
    simp only [step]
    split
    · exact h
    · split <;> exact h
  | direct r =>
    simp only [step, Sched.direct]
    split <;> exact h
  | queued r => exact h
  | archive k =>
    simp only [step]
    split
    · exact h
    · split
      · exact List.mem_append_left _ h
      · exact h
  | run k g =>
    simp only [step]
    split
    · exact h
    · split
      · split <;> exact h
      · exact h

/-! ### C90: expiry -/

/-- Nothing of the hold `r` is left: what was committed and what was released add up to it. -/
def Over (db : DB) (r : Txn) : Prop := committed db r.id + released db r.id = pay r

theorem over_later {cfg : Cfg} {H : String → Prop} {db : DB} {bs : List Act} {r : Txn} (hk : HoldInv H db)
    (hr : ∀ a ∈ bs, a.Respects H) (hrow : r ∈ db.txns) (hh : r.Holds) (h : Over db r) : Over (acts cfg db bs) r := by
  have hH := hk.known r hrow hh
  have m1 := committed_mono (cfg := cfg) hk hr hH (st := .applied) (.inl rfl)
  have m2 := committed_mono (cfg := cfg) hk hr hH (st := .void) (.inr rfl)
  have hk' := acts_holdInv (cfg := cfg) hk hr
  obtain ⟨new, e⟩ := acts_prefix (cfg := cfg) hk hr
  have hb := hk'.bound r (by rw [e]; exact List.mem_append_left _ hrow) hh
  unfold Over committed released at *
  omega

/-- A void that is not refused leaves nothing of the hold. -/
theorem void_over {cfg : Cfg} {H : String → Prop} {db : DB} {r : Txn} {newId ref n1 n2 : String} (hk : HoldInv H db)
    (hrow : r ∈ db.txns)
    (h : match (voidInflight cfg db r.id newId ref n1 n2).2 with | .ok (.refused _) => False | .ok _ => True | .error _ => False) :
    Over (voidInflight cfg db r.id newId ref n1 n2).1 r := by
  rcases void_grown (cfg := cfg) (h := r.id) (newId := newId) (ref := ref) (n1 := n1) (n2 := n2) hk.inv
    hk.remaining_nonneg with ⟨_, hn⟩ | ⟨row, x, hr', hid, hin, hv, g, ho', _, hs, h0⟩
  · exfalso
    cases hf : fetchInflight db r.id with
    | error e => simp [voidInflight, hf] at h
    | ok t =>
      obtain ⟨row, hr, hid, hin, hpv, et⟩ := fetchInflight_ok hf
      have hrem : remaining db t = pay row - committed db r.id := by
        rw [et]; simp [remaining, pay, hid, totalCommitted_eq]
      have hpos := hk.remaining_nonneg row hr hid hin hpv
      rw [totalCommitted_eq] at hpos
      by_cases h0 : remaining db t = 0
      · simp [voidInflight, hf, h0] at h
      · have e2 : (voidInflight cfg db r.id newId ref n1 n2).2 = .ok (recordSingle cfg db
            (voidTxn t (remaining db t) newId ref) n1 n2).2 := by
          simp [voidInflight, hf, h0]
        have base := applyPrecision_keeps ({ t with status := .void, inflight := false, parent := t.id, id := newId, reference := ref, preciseAmount := some (remaining db t) } : Txn)
        have hamt : (voidTxn t (remaining db t) newId ref).preciseAmount = some (remaining db t) :=
          applyPrecision_pos rfl (by omega)
        rw [e2] at h hn
        cases ho : (recordSingle cfg db (voidTxn t (remaining db t) newId ref) n1 n2).2 with
        | posted rows => exact absurd (by rw [ho]) (hn rows)
        | discarded =>
          obtain ⟨s, d, hz⟩ := recordSingle_discarded ho
          have st := settle_void (t := { voidTxn t (remaining db t) newId ref with
            source := s, destination := d }) (p := remaining db t) base.2.2.1 base.2.2.2.1 hamt
          rw [st.2.1] at hz
          simp at hz; omega
        | refused e => rw [ho] at h; exact h
  · have : row = r := row_unique hk.inv hr' hrow hid
    subst this
    have hpay : pay x = pay row - committed db row.id := by simp [pay, hs.amount, totalCommitted_eq]
    have r0 : released db row.id = 0 := kidSum_zero (fun c hc hcs => parentVoid_false.1 hv c hc hcs)
    have e1 : committed (voidInflight cfg db row.id newId ref n1 n2).1 row.id = committed db row.id :=
      kidSum_same g.txns (by simp [hs.status])
    have e2 : released _ x.parent = released db x.parent + pay x := kidSum_one g.txns hs.status
    rw [hs.parent] at e2
    unfold Over
    omega

/-- The row stored by an accepted `skip_queue` request that is not split. -/
theorem direct_hold {cfg : Cfg} {H Q : String → Prop} {s : Sys} {r : Req} {rows : List Txn} (hs : Fits cfg H Q s)
    (ho : (Ev.direct r).Ok cfg H Q s) (hl : r.legs = []) (hi : r.txn.inflight = true)
    (hp : (recordSingle cfg s.db (submit r.txn) (r.gen 0) (r.gen 1)).2 = .posted rows) :
    ∃ h, rows = [h] ∧ h ∈ (step cfg s (.direct r)).db.txns ∧ h.id = r.txn.id ∧ h.status = .inflight ∧ h.source ≠ h.destination ∧
      (step cfg s (.direct r)).tasks = s.tasks ++ r.dated := by
  have hrows : r.rows = [submit r.txn] := by simp [Req.rows, hl]
  have live := rows_live ho.1 (submit r.txn) (by rw [hrows]; simp)
  have sf := submit_fields r.txn
  have lv : ∀ x y, ({ submit r.txn with source := x, destination := y } : Txn).Live := fun _ _ => live
  rcases single_grown (cfg := cfg) (t := submit r.txn) (n1 := r.gen 0) (n2 := r.gen 1) (δ := rowInfl) hs.fund.inv
    (fun x y b b' _ => ⟨reg_live (lv x y), infl_live (lv x y)⟩) with ⟨_, hn⟩ | ⟨x, y, g, hpost, _, _, _, hne⟩
  · exact absurd hp (hn rows)
  · have e := hp.symm.trans hpost
    simp only [Outcome.posted.injEq] at e
    have hplace : place cfg r.gen 0 s.db r.rows = ((recordSingle cfg s.db (submit r.txn) (r.gen 0) (r.gen 1)).1, true) := by
      rw [hrows]; simp [place, hp]
    have kp := finalRow_keeps { submit r.txn with source := x, destination := y }
    refine ⟨_, e, ?_, ?_, ?_, ?_, ?_⟩
    · simp only [step, Sched.direct, hplace, if_true]
      rw [g.txns]; simp
    · rw [kp.2.1]; exact sf.1
    · rw [finalRow_status, finalStatus_live (lv x y)]
      simp [sf, hi]
    · rw [kp.2.2.1, kp.2.2.2.1]; exact hne
    · simp only [step, Sched.direct, hplace, if_true]

/-- What is known at any time about a hold with an expiry date. -/
def Guarded (d : Nat) (h : Txn) (s : Sys) : Prop :=
  h ∈ s.db.txns ∧ (⟨d, .expire h.id⟩ ∈ s.tasks ∨ ⟨d, .expire h.id⟩ ∈ s.dead ∨ Over s.db h)

theorem guarded_step {cfg : Cfg} {H Q : String → Prop} {s : Sys} {e : Ev} {d : Nat} {h : Txn} (hs : Fits cfg H Q s)
    (ho : e.Ok cfg H Q s) (hst : h.status = .inflight) (hg : Guarded d h s) : Guarded d h (step cfg s e) := by
  have hk := hs.fund.toHoldInv
  have hr : ∀ a ∈ effects cfg s e, a.Respects H := fun a ha => (effects_ok hs ho a ha).respects
  refine ⟨?_, ?_⟩
  · obtain ⟨new, en⟩ := acts_prefix (cfg := cfg) hk hr
    rw [step_db, en]; exact List.mem_append_left _ hg.1
  · rcases hg.2 with ht | ht | ht
    · rcases task_kept (cfg := cfg) (e := e) ht with h1 | h1 | ⟨k, g, rfl, _, _, ha, hdb⟩
      · exact .inl h1
      · exact .inr (.inl h1)
      · right; right
        rw [hdb]
        refine void_over hk hg.1 ?_
        simp only [attempt] at ha
        split at ha <;> simp_all
    · exact .inr (.inl (dead_kept ht))
    · right; right
      rw [step_db]
      exact over_later hk hr hg.1 (.inl hst) ht

theorem guarded_run {cfg : Cfg} {H Q : String → Prop} {es : List Ev} {d : Nat} {h : Txn} (hst : h.status = .inflight) :
    ∀ {s : Sys}, Fits cfg H Q s → Ok cfg H Q s es → Guarded d h s → Guarded d h (run cfg s es) := by
  induction es with
  | nil => intro s _ _ hg; exact hg
  | cons e es ih => intro s hs ho hg; exact ih (step_fits hs ho.1) ho.2 (guarded_step hs ho.1 hst hg)

/-- **C90 (part).** A hold placed directly (`skip_queue`, not split) with an expiry date: at any later
time its expiry task is waiting, or asynq gave it up, or nothing of the hold is left. -/
theorem c90_watched_partial (cfg : Cfg) (H Q : String → Prop) (es fs : List Ev) (r : Req) (d : Nat) (rows : List Txn)
    (hok : Ok cfg H Q {} (es ++ .direct r :: fs)) (hl : r.legs = []) (hi : r.txn.inflight = true) (hd : r.expiry = some d)
    (hp : (recordSingle cfg (run cfg {} es).db (submit r.txn) (r.gen 0) (r.gen 1)).2 = .posted rows) :
    ∃ h ∈ (run cfg {} (es ++ .direct r :: fs)).db.txns, h.id = r.txn.id ∧ h.status = .inflight ∧ h.source ≠ h.destination ∧
      (⟨d, .expire h.id⟩ ∈ (run cfg {} (es ++ .direct r :: fs)).tasks ∨
       ⟨d, .expire h.id⟩ ∈ (run cfg {} (es ++ .direct r :: fs)).dead ∨
       Over (run cfg {} (es ++ .direct r :: fs)).db h) := by
  obtain ⟨o1, o2, o3⟩ := ok_append.1 hok
  have f1 := run_fits (init_fits cfg H Q) o1
  obtain ⟨h, _, hm, hid, hst, hne, ht⟩ := direct_hold f1 o2 hl hi hp
  rw [run_append]
  have g : Guarded d h (step cfg (run cfg {} es) (.direct r)) := by
    refine ⟨hm, .inl ?_⟩
    rw [ht]
    apply List.mem_append_right
    rw [hid]
    simp [Req.dated, hd]
  have := guarded_run hst (step_fits f1 o2) o3 g
  exact ⟨h, this.1, hid, hst, hne, this.2⟩

theorem over_refuses {cfg : Cfg} {H : String → Prop} {db : DB} {r : Txn} (hk : HoldInv H db) (hrow : r ∈ db.txns) (h : Over db r)
    (amt : Int) (newId ref n1 n2 : String) :
    (∃ e, commitInflight cfg db r.id amt newId ref n1 n2 = (db, .error e)) ∧
    ∃ e, voidInflight cfg db r.id newId ref n1 n2 = (db, .error e) := by
  cases hf : fetchInflight db r.id with
  | error err => exact ⟨⟨err, by simp [commitInflight, hf]⟩, ⟨err, by simp [voidInflight, hf]⟩⟩
  | ok t =>
    obtain ⟨r', hr', hid, _, hnv, et⟩ := fetchInflight_ok hf
    have : r' = r := row_unique hk.inv hr' hrow hid
    subst this
    have r0 : released db r'.id = 0 := kidSum_zero (fun c hc hcs => parentVoid_false.1 hnv c hc hcs)
    have hrem : remaining db t = 0 := by
      have hz : pay r' - committed db r'.id = 0 := by unfold Over at h; omega
      rw [et]; simpa [remaining, pay, totalCommitted_eq] using hz
    exact ⟨⟨.alreadyCommitted, by simp [commitInflight, hf, hrem, settleAmount]⟩,
      ⟨.alreadyCommitted, by simp [voidInflight, hf, hrem]⟩⟩

theorem not_over_open {H : String → Prop} {db : DB} {r : Txn} (hk : HoldInv H db) (hrow : r ∈ db.txns) (hh : r.Holds)
    (h : ¬ Over db r) : 0 < openAmount db r := by
  have := hk.bound r hrow hh
  unfold Over at h; unfold openAmount
  omega

theorem Fits.settled {cfg : Cfg} {H Q : String → Prop} {s : Sys} (h : Fits cfg H Q s) :
    ∃ as, s.db = acts cfg {} as ∧ ∀ a ∈ as, a.Respects H ∧ a.Direct Q := by
  obtain ⟨as, e, ho⟩ := h.ledger
  exact ⟨as, e, ActOk.both ho⟩

/-- The attempt at an expiry task leaves nothing of the hold. -/
theorem expire_over {cfg : Cfg} {H Q : String → Prop} {s : Sys} {h : Txn} {g : Gen} (hs : Fits cfg H Q s) (hrow : h ∈ s.db.txns)
    (hst : h.status = .inflight) (hne : h.source ≠ h.destination) (hid : s.db.hasTxnId (g.fresh 0) = false)
    (href : s.db.hasRef g.ref = false) : Over (attempt cfg s.db g (.expire h.id)).1 h := by
  have hk := hs.fund.toHoldInv
  by_cases ho : Over s.db h
  · have := (over_refuses (cfg := cfg) hk hrow ho 0 (g.fresh 0) g.ref (g.fresh 1) (g.fresh 2)).2
    obtain ⟨e, he⟩ := this
    simp only [attempt, he]
    exact ho
  · obtain ⟨as, e, hr⟩ := hs.settled
    have hop := not_over_open hk hrow (.inl hst) ho
    rw [e] at hrow hop hid href
    obtain ⟨x, hx⟩ := c26_void_succeeds_partial cfg H Q as hr h hrow hst hne hop (g.fresh 0) g.ref (g.fresh 1) (g.fresh 2) hid href
    rw [← e] at hx hrow
    exact void_over hk hrow (by rw [hx]; trivial)

/-- **C90 (part).** Once a worker attempts the expiry task of an INFLIGHT row at or after its date,
with nothing in the way (the ids it generates are new), nothing of the hold is left, its
accounts hold nothing for it, and every later commit or void of it is refused and changes
nothing — whatever happens in between. Left out: queued holds and splits, whose expiry task
names another row or none (`c90_queued_fails`, `c90_split_fails`). -/
theorem c90_expired_partial (cfg : Cfg) (H Q : String → Prop) (es fs : List Ev) (k : Nat) (g : Gen) (d : Nat) (h : Txn)
    (hok : Ok cfg H Q {} (es ++ .run k g :: fs)) (hk : (run cfg {} es).tasks[k]? = some ⟨d, .expire h.id⟩)
    (hd : d ≤ (run cfg {} es).now) (hrow : h ∈ (run cfg {} es).db.txns) (hst : h.status = .inflight)
    (hne : h.source ≠ h.destination) (hid : (run cfg {} es).db.hasTxnId (g.fresh 0) = false)
    (href : (run cfg {} es).db.hasRef g.ref = false) :
    heldOf (run cfg {} (es ++ .run k g :: fs)).db h = 0 ∧
    ∀ (amt : Int) (newId ref n1 n2 : String),
      (∃ e, commitInflight cfg (run cfg {} (es ++ .run k g :: fs)).db h.id amt newId ref n1 n2 =
        ((run cfg {} (es ++ .run k g :: fs)).db, .error e)) ∧
      ∃ e, voidInflight cfg (run cfg {} (es ++ .run k g :: fs)).db h.id newId ref n1 n2 =
        ((run cfg {} (es ++ .run k g :: fs)).db, .error e) := by
  obtain ⟨o1, o2, o3⟩ := ok_append.1 hok
  have f1 := run_fits (init_fits cfg H Q) o1
  have f2 := step_fits f1 o2
  have f3 := run_fits f2 o3
  have hdb : (step cfg (run cfg {} es) (.run k g)).db = (attempt cfg (run cfg {} es).db g (.expire h.id)).1 := by
    simp only [step, hk, if_pos hd]
    split <;> rfl
  have ov : Over (step cfg (run cfg {} es) (.run k g)).db h := by
    rw [hdb]; exact expire_over f1 hrow hst hne hid href
  have hrow2 : h ∈ (step cfg (run cfg {} es) (.run k g)).db.txns := by
    obtain ⟨new, en⟩ := run_rows f1 (es := [.run k g]) ⟨o2, trivial⟩
    simp only [run] at en
    rw [en]; exact List.mem_append_left _ hrow
  have ov3 : Over (run cfg (step cfg (run cfg {} es) (.run k g)) fs).db h := by
    rw [run_db]
    exact over_later f2.fund.toHoldInv (fun a ha => (history_ok f2 o3 a ha).respects) hrow2 (.inl hst) ov
  have hrow3 : h ∈ (run cfg (step cfg (run cfg {} es) (.run k g)) fs).db.txns := by
    obtain ⟨new, en⟩ := run_rows f2 o3
    rw [en]; exact List.mem_append_left _ hrow2
  rw [run_append]
  refine ⟨?_, over_refuses f3.fund.toHoldInv hrow3 ov3⟩
  simp only [run, heldOf, hst, if_true, openAmount]
  unfold Over at ov3
  omega

/-! #### Not before the date -/

/-- A ledger step that is not a void of `h`. -/
def Act.Keeps (h : String) : Act → Prop
  | .void id _ _ _ _ => id ≠ h
  | _ => True

/-- An event in which nobody asks for a void of `h`, and no other request with that id sets another date. -/
def Ev.Waits (h : String) (d : Nat) : Ev → Prop
  | .direct r => r.txn.id = h → r.expiry = none ∨ r.expiry = some d
  | .queued r => r.txn.id = h → r.expiry = none ∨ r.expiry = some d
  | .run _ g => ∀ k, ∀ a ∈ g.before k, Act.Keeps h a
  | .other a => Act.Keeps h a
  | _ => True

theorem keeps_no_void {cfg : Cfg} {H Q : String → Prop} {as : List Act} {h : String} : ∀ {db : DB}, HoldInv H db →
    (∀ a ∈ as, ActOk H Q a) → (∀ a ∈ as, Act.Keeps h a) → (∀ v ∈ db.txns, v.status = .void → v.parent ≠ h) →
    ∀ v ∈ (acts cfg db as).txns, v.status = .void → v.parent ≠ h := by
  induction as with
  | nil => intro db _ _ _ hn; exact hn
  | cons a as ih =>
    intro db hk ho hw hn
    have hk' := act_holdInv (cfg := cfg) hk (ho a (by simp)).respects
    refine ih (db := act cfg db a) hk' (fun b hb => ho b (List.mem_cons_of_mem _ hb)) (fun b hb => hw b (List.mem_cons_of_mem _ hb)) ?_
    intro v hv hs
    have ha := ho a (by simp)
    have hwa := hw a (by simp)
    cases a with
    | base op =>
      obtain ⟨new, g, hnew⟩ := ordinary_grown (cfg := cfg) hk.inv ha.respects.1
      have hv' : v ∈ (Blnk.step cfg db op).1.txns := hv
      rw [g.txns] at hv'
      rcases List.mem_append.1 hv' with hv' | hv'
      · exact hn v hv' hs
      · rcases hnew v hv' with ⟨t, _, _, _, _, hst⟩ | rfl
        · rw [hs] at hst; split at hst <;> cases hst
        · have := ha.respects.1.1
          rw [hs] at this; simp at this
    | commit id amt newId ref n1 n2 =>
      rcases commit_grown (cfg := cfg) (h := id) (newId := newId) (ref := ref) (n1 := n1) (n2 := n2) (amt := amt)
        hk.inv hk.remaining_nonneg with ⟨g, _⟩ | ⟨row, y, p, _, _, _, _, g, _, _, hset, _⟩
      · simp only [act] at hv; rw [g.txns] at hv; exact hn v (by simpa using hv) hs
      · simp only [act] at hv; rw [g.txns] at hv
        rcases List.mem_append.1 hv with hv | hv
        · exact hn v hv hs
        · simp at hv; subst hv; rw [hset.status] at hs; cases hs
    | void id newId ref n1 n2 =>
      rcases void_grown (cfg := cfg) (h := id) (newId := newId) (ref := ref) (n1 := n1) (n2 := n2)
        hk.inv hk.remaining_nonneg with ⟨g, _⟩ | ⟨row, y, _, _, _, _, g, _, _, hset, _⟩
      · simp only [act] at hv; rw [g.txns] at hv; exact hn v (by simpa using hv) hs
      · simp only [act] at hv; rw [g.txns] at hv
        rcases List.mem_append.1 hv with hv | hv
        · exact hn v hv hs
        · simp at hv; subst hv; rw [hset.parent]; exact hwa

theorem step_now {cfg : Cfg} {s : Sys} {e : Ev} : s.now ≤ (step cfg s e).now := by
  cases e with
  | tick n => exact Nat.le_add_right ..
  | other a => exact Nat.le_refl _
  | pick k newId =>
    simp only [step]
    split
    · exact Nat.le_refl _
    · split <;> exact Nat.le_refl _
  | direct r =>
    simp only [step, Sched.direct]
    split <;> exact Nat.le_refl _
  | queued r => exact Nat.le_refl _
  | archive k =>
    simp only [step]
    split
    · exact Nat.le_refl _
    · split <;> exact Nat.le_refl _
  | run k g =>
    simp only [step]
    split
    · exact Nat.le_refl _
    · split
      · split <;> exact Nat.le_refl _
      · exact Nat.le_refl _

/-- New tasks come from requests. -/
theorem task_new {cfg : Cfg} {s : Sys} {e : Ev} {x : Task} (h : x ∈ (step cfg s e).tasks) : x ∈ s.tasks ∨
    (∃ r, e = .direct r ∧ x ∈ r.dated) ∨ (∃ r, e = .queued r ∧ (x ∈ r.dated ∨
      x = ⟨(r.queueTxn (Queue.persistQueued cfg s.db (submit r.txn) (r.gen 0) (r.gen 1))).scheduledFor.getD s.now,
        .apply (r.queueTxn (Queue.persistQueued cfg s.db (submit r.txn) (r.gen 0) (r.gen 1)))⟩)) := by
  cases e with
  | tick n => exact .inl h
  | other a => exact .inl h
  | pick k newId =>
    simp only [step] at h
    split at h
    · exact .inl h
    · split at h <;> exact .inl h
  | direct r =>
    simp only [step, Sched.direct] at h
    split at h
    · rcases List.mem_append.1 h with h | h
      · exact .inl h
      · exact .inr (.inl ⟨r, rfl, h⟩)
    · exact .inl h
  | queued r =>
    simp only [step, Sched.queued] at h
    rcases List.mem_append.1 h with h | h
    · exact .inl h
    · rcases List.mem_cons.1 h with h | h
      · exact .inr (.inr ⟨r, rfl, .inr h⟩)
      · exact .inr (.inr ⟨r, rfl, .inl h⟩)
  | archive k =>
    simp only [step] at h
    split at h
    · exact .inl h
    · split at h
      · exact .inl (List.mem_of_mem_eraseIdx h)
      · exact .inl h
  | run k g =>
    simp only [step] at h
    split at h
    · exact .inl h
    · split at h
      · split at h
        · exact .inl (List.mem_of_mem_eraseIdx h)
        · exact .inl h
      · exact .inl h

theorem dated_expire {r : Req} {x : Task} {id : String} (h : x ∈ r.dated) (hj : x.job = .expire id) :
    r.txn.id = id ∧ r.expiry = some x.due := by
  unfold Req.dated at h
  rcases List.mem_append.1 h with h | h
  · obtain ⟨d, hd, rfl⟩ := List.mem_map.1 h
    cases hj
    exact ⟨rfl, by simpa using hd⟩
  · obtain ⟨d, hd, rfl⟩ := List.mem_map.1 h
    cases hj

/-- Before the date there is no void of the hold, and its expiry task carries the date. -/
structure Before (h : String) (d : Nat) (s : Sys) : Prop where
  rows : s.now < d → ∀ v ∈ s.db.txns, v.status = .void → v.parent ≠ h
  tasks : ∀ x ∈ s.tasks, x.job = .expire h → x.due = d

theorem effects_keep {cfg : Cfg} {h : String} {d : Nat} {s : Sys} {e : Ev} (hb : Before h d s) (hw : e.Waits h d) (hnow : s.now < d) :
    ∀ a ∈ effects cfg s e, Act.Keeps h a := by
  cases e with
  | tick n => simp [effects]
  | archive k => simp [effects]
  | other a => simp only [effects, List.mem_singleton, forall_eq]; exact hw
  | direct r =>
    intro a ha
    obtain ⟨t, ht, j, rfl⟩ := placeSteps_mem ha
    trivial
  | queued r =>
    intro a ha
    rcases persistSteps_mem ha with ⟨_, _, rfl⟩ | ⟨_, _, rfl⟩ | ⟨_, _, _, rfl⟩ <;> trivial
  | pick k newId =>
    simp only [effects]
    split
    · simp
    · split
      · simp only [List.mem_singleton, forall_eq]; trivial
      · simp
  | run k g =>
    simp only [effects]
    split
    · simp
    · rename_i t ht
      split
      · rename_i hd
        have hm := List.mem_of_getElem? ht
        intro a ha
        cases hj : t.job with
        | apply x => rw [hj] at ha; simp [jobSteps] at ha; subst ha; trivial
        | expire id =>
          rw [hj] at ha; simp [jobSteps] at ha; subst ha
          intro e
          subst e
          have := hb.tasks t hm hj
          omega
        | settle id action =>
          rw [hj] at ha
          obtain ⟨c, hc, ha⟩ := List.mem_flatMap.1 ha
          obtain ⟨x, _, j, rfl⟩ := legCalls_mem hc
          rcases List.mem_append.1 ha with ha | ha
          · exact hw j a ha
          · simp [QAction.toAct, autoCommit] at ha; subst ha; trivial
      · simp

theorem before_step {cfg : Cfg} {H Q : String → Prop} {h : String} {d : Nat} {s : Sys} {e : Ev} (hs : Fits cfg H Q s)
    (ho : e.Ok cfg H Q s) (hw : e.Waits h d) (hb : Before h d s) : Before h d (step cfg s e) := by
  constructor
  · intro hnow
    have hlt : s.now < d := Nat.lt_of_le_of_lt (step_now (cfg := cfg) (e := e)) hnow
    rw [step_db]
    exact keeps_no_void hs.fund.toHoldInv (effects_ok hs ho) (effects_keep hb hw hlt) (hb.rows hlt)
  · intro x hx hj
    rcases task_new hx with hx1 | ⟨r, er, hx1⟩ | ⟨r, er, hx1⟩
    · exact hb.tasks x hx1 hj
    · subst er
      obtain ⟨e1, e2⟩ := dated_expire hx1 hj
      rcases hw e1 with h' | h' <;> rw [e2] at h' <;> cases h'
      rfl
    · subst er
      rcases hx1 with hx1 | hx1
      · obtain ⟨e1, e2⟩ := dated_expire hx1 hj
        rcases hw e1 with h' | h' <;> rw [e2] at h' <;> cases h'
        rfl
      · subst hx1; cases hj

theorem before_run {cfg : Cfg} {H Q : String → Prop} {h : String} {d : Nat} {es : List Ev} : ∀ {s : Sys}, Fits cfg H Q s →
    Ok cfg H Q s es → (∀ e ∈ es, e.Waits h d) → Before h d s → Before h d (run cfg s es) := by
  induction es with
  | nil => intro s _ _ _ hb; exact hb
  | cons e es ih =>
    intro s hs ho hw hb
    exact ih (step_fits hs ho.1) ho.2 (fun b hb' => hw b (List.mem_cons_of_mem _ hb')) (before_step hs ho.1 (hw e (by simp)) hb)

/-- **C90 (part).** No hold expires early: before its date no part of it is released, unless a client
asks for a void. -/
theorem c90_not_early_partial (cfg : Cfg) (H Q : String → Prop) (es : List Ev) (h : String) (d : Nat)
    (hok : Ok cfg H Q {} es) (hw : ∀ e ∈ es, e.Waits h d) (hnow : (run cfg {} es).now < d) :
    released (run cfg {} es).db h = 0 := by
  have hb := before_run (init_fits cfg H Q) hok hw ⟨by simp, by simp⟩
  exact kidSum_zero (fun c hc hcs => (hb.rows hnow c hc hcs))

/-! #### A concrete history -/

/-- Two accounts. -/
def accounts : List Ev := [.other (.base (.create "a" "" "USD")), .other (.base (.create "b" "" "USD"))]

/-- A hold as a client submits it. -/
def newHold (id ref src dst : String) (p : Int) : Txn :=
  { id := id, reference := ref, source := src, destination := dst, preciseAmount := some p, amount := p, precision := 1,
    inflight := true, allowOverdraft := true }

/-- Generated ids of an attempt. -/
def gen1 (n : String) : Gen := { fresh := fun k => if k = 0 then n else n ++ "_2", ref := n ++ "_ref" }

/-- A hold of 100 with expiry date 5, another hold, and time 6. -/
def expiring : List Ev := accounts ++
  [.direct { txn := newHold "h1" "r1" "a" "b" 100, expiry := some 5 },
   .direct { txn := newHold "h2" "r2" "a" "b" 100 }, .other (.commit "h1" 30 "c1" "s1" "x" "y"), .tick 6]

/-- Ids of the holds in the examples. -/
def demoHolds (i : String) : Prop := i = "h1" ∨ i = "h2" ∨ i = "h3"

theorem gen1_plain (k : Nat) : isIndicator ((gen1 "v").fresh k) = false := by
  simp only [gen1]; split <;> decide +kernel

theorem expiring_ok : Ok {} demoHolds (fun _ => False) {} (expiring ++ [.run 0 (gen1 "v")]) := by
  refine ⟨?_, ?_, ?_, ?_, ?_, trivial, ⟨gen1_plain, by simp [gen1]⟩, trivial⟩
  · exact create_ok (by decide +kernel)
  · exact create_ok (by decide +kernel)
  · exact ⟨rfl, id, fun _ => empty_plain, by simp [Req.rows, newHold, submit_fields, demoHolds]⟩
  · exact ⟨rfl, id, fun _ => empty_plain, by simp [Req.rows, newHold, submit_fields, demoHolds]⟩
  · exact ⟨trivial, ⟨id, by decide +kernel, by decide +kernel⟩, by simp, by simp⟩

/-- `c90_expired_partial` applies: 30 of the hold were committed, 70 expire. -/
example : ∃ h ∈ (run {} {} expiring).db.txns, h.id = "h1" ∧ h.status = .inflight ∧ h.source ≠ h.destination ∧
    (run {} {} expiring).tasks[0]? = some ⟨5, .expire "h1"⟩ ∧ 5 ≤ (run {} {} expiring).now ∧
    (run {} {} expiring).db.hasTxnId ((gen1 "v").fresh 0) = false ∧ (run {} {} expiring).db.hasRef (gen1 "v").ref = false ∧
    heldOf (run {} {} expiring).db h = 70 ∧
    released (run {} {} (expiring ++ [.run 0 (gen1 "v")])).db "h1" = 70 := by
  refine ⟨_, List.getElem_mem (n := 0) (by decide +kernel), ?_⟩
  decide +kernel

/-- `c90_watched_partial` applies to it. -/
example : ∃ rows, (recordSingle {} (run {} {} accounts).db (submit (newHold "h1" "r1" "a" "b" 100)) "" "").2 = .posted rows := by
  have : (match (recordSingle {} (run {} {} accounts).db (submit (newHold "h1" "r1" "a" "b" 100)) "" "").2 with
    | .posted _ => true | _ => false) = true := by decide +kernel
  split at this
  · exact ⟨_, by assumption⟩
  · cases this

/-- `c90_not_early_partial` applies up to the date. -/
example : (∀ e ∈ expiring.take 5, e.Waits "h1" 5) ∧ (run {} {} (expiring.take 5)).now < 5 := by
  constructor
  · simp [expiring, accounts, Ev.Waits, Act.Keeps]
  · decide +kernel

/-! #### What the dates do not give -/

/-- **C90 in full**: once the expiry task of a request is attempted at or after its date, under new
ids, no row of the request can be committed any more. -/
def C90Full : Prop := ∀ (cfg : Cfg) (es : List Ev) (k : Nat) (g : Gen) (d : Nat) (id : String),
  (run cfg {} es).tasks[k]? = some ⟨d, .expire id⟩ → d ≤ (run cfg {} es).now →
  (run cfg {} es).db.hasTxnId (g.fresh 0) = false → (run cfg {} es).db.hasRef g.ref = false →
  ∀ h ∈ (run cfg {} (es ++ [.run k g])).db.txns, h.id = id ∨ h.parent = id →
    ∀ (amt : Int) (newId ref n1 n2 : String) (rows : List Txn),
      (commitInflight cfg (run cfg {} (es ++ [.run k g])).db h.id amt newId ref n1 n2).2 ≠ .ok (.posted rows)

/-- Whether an outcome is a posting. -/
def Posted : Except InfErr Outcome → Prop
  | .ok (.posted _) => True
  | _ => False

instance (o : Except InfErr Outcome) : Decidable (Posted o) := by
  unfold Posted; split <;> infer_instance

theorem posted_rows {o : Except InfErr Outcome} (h : Posted o) : ∃ rows, o = .ok (.posted rows) := by
  unfold Posted at h
  split at h
  · exact ⟨_, rfl⟩
  · cases h

/-- A queued hold with an expiry date, applied by its worker, beside another hold. -/
def queuedExpiring : List Ev := accounts ++
  [.direct { txn := newHold "h2" "r2" "a" "b" 100 },
   .queued { txn := newHold "h1" "r1" "a" "b" 100, expiry := some 5, copyId := "h1c" }, .run 0 (gen1 "w"), .tick 6]

/-- **C90 is violated for queued holds**: the expiry task names the QUEUED row and voids that, with
funds of another hold; the INFLIGHT row can be committed long after the date. -/
theorem c90_queued_fails : ¬ C90Full := by
  intro h
  have hc : Posted (commitInflight {} (run {} {} (queuedExpiring ++ [.run 0 (gen1 "v")])).db "h1c" 0 "z" "zr" "x" "y").2 := by
    decide +kernel
  obtain ⟨rows, hr⟩ := posted_rows hc
  refine h {} queuedExpiring 0 (gen1 "v") 5 "h1" (by decide +kernel) (by decide +kernel) (by decide +kernel) (by decide +kernel)
    _ (List.getElem_mem (n := 2) (by decide +kernel)) (by decide +kernel) 0 "z" "zr" "x" "y" rows ?_
  have e : ((run {} {} (queuedExpiring ++ [.run 0 (gen1 "v")])).db.txns[2]'(by decide +kernel)).id = "h1c" := by decide +kernel
  rw [e]; exact hr

/-- A split hold with an expiry date. -/
def splitExpiring : List Ev := accounts ++ [.other (.base (.create "c" "" "USD")),
  .direct { txn := newHold "h1" "r1" "a" "" 100, expiry := some 5,
            legs := [{ id := "l1", reference := "r1_1", source := "a", destination := "b", preciseAmount := some 60 },
                     { id := "l2", reference := "r1_2", source := "a", destination := "c", preciseAmount := some 40 }] }, .tick 6]

/-- **C90 is violated for splits**: the expiry task names the request, no row has that id, and
the legs never expire. -/
theorem c90_split_fails : ¬ C90Full := by
  intro h
  have hc : Posted (commitInflight {} (run {} {} (splitExpiring ++ [.run 0 (gen1 "v")])).db "l1" 0 "z" "zr" "x" "y").2 := by
    decide +kernel
  obtain ⟨rows, hr⟩ := posted_rows hc
  refine h {} splitExpiring 0 (gen1 "v") 5 "h1" (by decide +kernel) (by decide +kernel) (by decide +kernel) (by decide +kernel)
    _ (List.getElem_mem (n := 0) (by decide +kernel)) (by decide +kernel) 0 "z" "zr" "x" "y" rows ?_
  have e : ((run {} {} (splitExpiring ++ [.run 0 (gen1 "v")])).db.txns[0]'(by decide +kernel)).id = "l1" := by decide +kernel
  rw [e]; exact hr

/-! ### C91: scheduled transactions -/

/-- Where a row that an accepted step adds comes from. -/
inductive NewRow (db : DB) : Act → Txn → Prop
  | post {op : Op} {t v : Txn} : t ∈ op.posts → v.id = t.id → v.parent = t.parent → 0 < pay v →
      v.status = (if t.inflight then .inflight else .applied) → NewRow db (.base op) v
  | store {v : Txn} : (v.status = .queued ∨ v.status = .scheduled ∨ v.status = .rejected) → NewRow db (.base (.store v)) v
  | commit {id newId ref n1 n2 : String} {amt : Int} {row v : Txn} : row ∈ db.txns → row.id = id → isInflightTxn row = true →
      v.id = newId → v.parent = id → v.status = .applied → NewRow db (.commit id amt newId ref n1 n2) v
  | void {id newId ref n1 n2 : String} {row v : Txn} : row ∈ db.txns → row.id = id → isInflightTxn row = true →
      v.id = newId → v.parent = id → v.status = .void → NewRow db (.void id newId ref n1 n2) v

theorem act_new {cfg : Cfg} {H : String → Prop} {db : DB} {a : Act} {v : Txn} (hk : HoldInv H db) (ha : a.Respects H)
    (hv : v ∈ (act cfg db a).txns) : v ∈ db.txns ∨ NewRow db a v := by
  cases a with
  | base op =>
    obtain ⟨new, g, hnew⟩ := ordinary_grown (cfg := cfg) hk.inv ha.1
    have hv' : v ∈ (Blnk.step cfg db op).1.txns := hv
    rw [g.txns] at hv'
    rcases List.mem_append.1 hv' with hv' | hv'
    · exact .inl hv'
    · right
      rcases hnew v hv' with ⟨t, ht, hid, hp, hpos, hst⟩ | rfl
      · exact .post ht hid.1 hp hpos hst
      · exact .store ha.1.1
  | commit id amt newId ref n1 n2 =>
    rcases commit_grown (cfg := cfg) (h := id) (newId := newId) (ref := ref) (n1 := n1) (n2 := n2) (amt := amt)
      hk.inv hk.remaining_nonneg with ⟨g, _⟩ | ⟨row, y, p, hr, hid, hin, _, g, _, hnid, hset, _⟩
    · simp only [act] at hv; rw [g.txns] at hv; exact .inl (by simpa using hv)
    · simp only [act] at hv; rw [g.txns] at hv
      rcases List.mem_append.1 hv with hv | hv
      · exact .inl hv
      · simp at hv; subst hv; exact .inr (.commit hr hid hin hnid hset.parent hset.status)
  | void id newId ref n1 n2 =>
    rcases void_grown (cfg := cfg) (h := id) (newId := newId) (ref := ref) (n1 := n1) (n2 := n2)
      hk.inv hk.remaining_nonneg with ⟨g, _⟩ | ⟨row, y, hr, hid, hin, _, g, _, hnid, hset, _⟩
    · simp only [act] at hv; rw [g.txns] at hv; exact .inl (by simpa using hv)
    · simp only [act] at hv; rw [g.txns] at hv
      rcases List.mem_append.1 hv with hv | hv
      · exact .inl hv
      · simp at hv; subst hv; exact .inr (.void hr hid hin hnid hset.parent hset.status)

/-- A row of the request `X`. -/
def Txn.Of (X : String) (v : Txn) : Prop := v.id = X ∨ v.parent = X

/-- A step that brings in no row of the request by its own choice of ids. It may try to settle it. -/
def Act.Foreign (X : String) : Act → Prop
  | .base op => (∀ t ∈ op.posts, ¬ Txn.Of X t) ∧ ∀ t, op = .store t → ¬ Txn.Of X t
  | .commit _ _ newId _ _ _ => newId ≠ X
  | .void _ newId _ _ _ => newId ≠ X

/-- An event about other requests. Anybody may try to commit or void `X`. -/
def Ev.Foreign (X : String) : Ev → Prop
  | .direct r => ∀ t ∈ r.rows, ¬ Txn.Of X t
  | .queued r => r.txn.id ≠ X ∧ r.txn.parent ≠ X ∧ r.copyId ≠ X
  | .run _ g => ∀ k, g.fresh k ≠ X ∧ ∀ a ∈ g.before k, Act.Foreign X a
  | .pick _ newId => newId ≠ X
  | .other a => Act.Foreign X a
  | _ => True

theorem foreign_acts {cfg : Cfg} {H Q : String → Prop} {X : String} {as : List Act} : ∀ {db : DB}, HoldInv H db →
    (∀ a ∈ as, ActOk H Q a) → (∀ a ∈ as, Act.Foreign X a) → (∀ v ∈ db.txns, Txn.Of X v → v.status = .scheduled) →
    ∀ v ∈ (acts cfg db as).txns, Txn.Of X v → v.status = .scheduled := by
  induction as with
  | nil => intro db _ _ _ hn; exact hn
  | cons a as ih =>
    intro db hk ho hf hn
    have hk' := act_holdInv (cfg := cfg) hk (ho a (by simp)).respects
    refine ih (db := act cfg db a) hk' (fun b hb => ho b (List.mem_cons_of_mem _ hb)) (fun b hb => hf b (List.mem_cons_of_mem _ hb)) ?_
    intro v hv hx
    have hfa := hf a (by simp)
    rcases act_new hk (ho a (by simp)).respects hv with hv | hv
    · exact hn v hv hx
    · exfalso
      cases hv with
      | post ht hid hp _ _ => exact hfa.1 _ ht (by unfold Txn.Of at *; rw [← hid, ← hp]; exact hx)
      | store hs => exact hfa.2 _ rfl hx
      | @commit id _ _ _ _ _ row _ hr hid hin hnid hp _ =>
        rcases hx with hx | hx
        · exact hfa (hnid.symm.trans hx)
        · have := hn _ hr (.inl (hid.trans (hp.symm.trans hx)))
          simp [isInflightTxn, this] at hin
      | @void id _ _ _ _ row _ hr hid hin hnid hp _ =>
        rcases hx with hx | hx
        · exact hfa (hnid.symm.trans hx)
        · have := hn _ hr (.inl (hid.trans (hp.symm.trans hx)))
          simp [isInflightTxn, this] at hin

/-- Before the date: every row of the request is SCHEDULED, and the task that applies it carries the date. -/
structure Unapplied (X : String) (d : Nat) (s : Sys) : Prop where
  rows : s.now < d → ∀ v ∈ s.db.txns, Txn.Of X v → v.status = .scheduled
  tasks : ∀ x ∈ s.tasks, ∀ t, x.job = .apply t → Txn.Of X t → x.due = d

theorem queueTxn_ids (cfg : Cfg) (db : DB) (r : Req) : let p := Queue.persistQueued cfg db (submit r.txn) (r.gen 0) (r.gen 1)
    ((r.queueTxn p).id = r.copyId ∧ (r.queueTxn p).parent = r.txn.id ∨ (r.queueTxn p).id = r.txn.id ∧ (r.queueTxn p).parent = r.txn.parent)
    ∧ (r.queueTxn p).scheduledFor = r.txn.scheduledFor := by
  intro p
  obtain ⟨x, y, q, e⟩ := persist_txn cfg db (submit r.txn) (r.gen 0) (r.gen 1)
  have sf := submit_fields r.txn
  simp only [p, Req.queueTxn]
  split
  · rw [e]; simp [Queue.queueCopy, sf]
  · rw [e]; simp [sf]

theorem effects_foreign {cfg : Cfg} {X : String} {d : Nat} {s : Sys} {e : Ev} (hb : Unapplied X d s) (hf : e.Foreign X) (hnow : s.now < d) :
    ∀ a ∈ effects cfg s e, Act.Foreign X a := by
  cases e with
  | tick n => simp [effects]
  | archive k => simp [effects]
  | other a => simp only [effects, List.mem_singleton, forall_eq]; exact hf
  | direct r =>
    intro a ha
    obtain ⟨t, ht, j, rfl⟩ := placeSteps_mem ha
    exact ⟨by simpa [Op.posts] using hf t ht, by simp⟩
  | queued r =>
    intro a ha
    have sf := submit_fields r.txn
    rcases persistSteps_mem ha with ⟨_, _, rfl⟩ | ⟨_, _, rfl⟩ | ⟨_, _, _, rfl⟩
    · exact ⟨by simp [Op.posts], by simp⟩
    · exact ⟨by simp [Op.posts], by simp⟩
    · refine ⟨by simp [Op.posts], ?_⟩
      intro t e
      cases e
      simp [Txn.Of, sf, hf.1, hf.2.1]
  | pick k newId =>
    simp only [effects]
    split
    · simp
    · rename_i row hrow
      split
      · rename_i hst
        have hm := List.mem_of_getElem? hrow
        have sc := scan_fields row newId
        simp only [List.mem_singleton, forall_eq]
        refine ⟨?_, by simp⟩
        simp only [Op.posts, List.mem_singleton, forall_eq, Txn.Of, sc]
        rintro (h | h)
        · exact hf h
        · have := hb.rows hnow row hm (.inl h)
          rw [hst] at this; cases this
      · simp
  | run k g =>
    simp only [effects]
    split
    · simp
    · rename_i t ht
      split
      · rename_i hd
        have hm := List.mem_of_getElem? ht
        intro a ha
        cases hj : t.job with
        | apply x =>
          rw [hj] at ha; simp [jobSteps] at ha; subst ha
          refine ⟨?_, by simp⟩
          simp only [Op.posts, List.mem_singleton, forall_eq]
          intro hx
          have := hb.tasks t hm x hj hx
          omega
        | expire id =>
          rw [hj] at ha; simp [jobSteps] at ha; subst ha
          exact (hf 0).1
        | settle id action =>
          rw [hj] at ha
          obtain ⟨c, hc, ha⟩ := List.mem_flatMap.1 ha
          obtain ⟨x, _, j, rfl⟩ := legCalls_mem hc
          rcases List.mem_append.1 ha with ha | ha
          · exact (hf j).2 a ha
          · simp [QAction.toAct, autoCommit] at ha; subst ha; exact (hf j).1
      · simp

theorem dated_apply {r : Req} {x : Task} {t : Txn} (h : x ∈ r.dated) : x.job ≠ .apply t := by
  unfold Req.dated at h
  rcases List.mem_append.1 h with h | h
  · obtain ⟨d, hd, rfl⟩ := List.mem_map.1 h
    simp
  · obtain ⟨d, hd, rfl⟩ := List.mem_map.1 h
    simp

theorem unapplied_step {cfg : Cfg} {H Q : String → Prop} {X : String} {d : Nat} {s : Sys} {e : Ev} (hs : Fits cfg H Q s)
    (ho : e.Ok cfg H Q s) (hf : e.Foreign X) (hb : Unapplied X d s) : Unapplied X d (step cfg s e) := by
  constructor
  · intro hnow
    have hlt : s.now < d := Nat.lt_of_le_of_lt (step_now (cfg := cfg) (e := e)) hnow
    rw [step_db]
    exact foreign_acts hs.fund.toHoldInv (effects_ok hs ho) (effects_foreign hb hf hlt) (hb.rows hlt)
  · intro x hx t hj ht
    rcases task_new hx with hx1 | ⟨r, er, hx1⟩ | ⟨r, er, hx1⟩
    · exact hb.tasks x hx1 t hj ht
    · exact absurd hj (dated_apply hx1)
    · subst er
      rcases hx1 with hx1 | hx1
      · exact absurd hj (dated_apply hx1)
      · subst hx1
        exfalso
        simp only [Job.apply.injEq] at hj
        obtain ⟨hid, _⟩ := queueTxn_ids cfg s.db r
        rw [hj] at hid
        unfold Txn.Of at ht
        obtain ⟨f1, f2, f3⟩ := hf
        rcases hid with ⟨h1, h2⟩ | ⟨h1, h2⟩ <;> rw [h1, h2] at ht <;> rcases ht with ht | ht
        · exact f3 ht
        · exact f1 ht
        · exact f1 ht
        · exact f2 ht

theorem unapplied_run {cfg : Cfg} {H Q : String → Prop} {X : String} {d : Nat} {es : List Ev} : ∀ {s : Sys}, Fits cfg H Q s →
    Ok cfg H Q s es → (∀ e ∈ es, e.Foreign X) → Unapplied X d s → Unapplied X d (run cfg s es) := by
  induction es with
  | nil => intro s _ _ _ hb; exact hb
  | cons e es ih =>
    intro s hs ho hw hb
    exact ih (step_fits hs ho.1) ho.2 (fun b hb' => hw b (List.mem_cons_of_mem _ hb')) (unapplied_step hs ho.1 (hw e (by simp)) hb)

/-- **C91 in full**: whatever its flags, a new request with `scheduled_for` has no effect on the ledger before its date. -/
def C91Full : Prop := ∀ (cfg : Cfg) (es : List Ev) (r : Req) (e : Ev) (d : Nat), (e = .direct r ∨ e = .queued r) →
  r.txn.scheduledFor = some d → (run cfg {} es).now < d →
  (∀ v ∈ (run cfg {} es).db.txns, v.id ≠ r.txn.id ∧ v.parent ≠ r.txn.id) →
  ∀ v ∈ (run cfg {} (es ++ [e])).db.txns, v.id = r.txn.id ∨ v.parent = r.txn.id → v.status = .scheduled

/-- **C91 is violated with `skip_queue`**: the date is ignored and the transaction applied at once. -/
theorem c91_skip_queue_fails : ¬ C91Full := by
  intro h
  have := h {} accounts { txn := { id := "t1", reference := "r1", source := "a", destination := "b", preciseAmount := some 100, precision := 1,
                                   allowOverdraft := true, scheduledFor := some 50 } } _ 50 (.inl rfl) rfl (by decide +kernel)
    (by decide +kernel) _ (List.getElem_mem (n := 0) (by decide +kernel)) (by decide +kernel)
  revert this
  decide +kernel

/-- **C91 (part).** A queued request with `scheduled_for`: before its date every row of it is
SCHEDULED — nothing was applied, held or released for it — whatever else happens, including
attempts to commit or void it and the pickers of QUEUED rows. Assumed: its id, generated by the
server, is not used by other requests and operations. -/
theorem c91_not_early_partial (cfg : Cfg) (H Q : String → Prop) (es fs : List Ev) (r : Req) (d : Nat)
    (hok : Ok cfg H Q {} (es ++ .queued r :: fs)) (hd : r.txn.scheduledFor = some d)
    (hes : ∀ e ∈ es, e.Foreign r.txn.id) (hfs : ∀ e ∈ fs, e.Foreign r.txn.id)
    (hnow : (run cfg {} (es ++ .queued r :: fs)).now < d) :
    ∀ v ∈ (run cfg {} (es ++ .queued r :: fs)).db.txns, v.id = r.txn.id ∨ v.parent = r.txn.id → v.status = .scheduled := by
  obtain ⟨o1, o2, o3⟩ := ok_append.1 hok
  have f1 := run_fits (init_fits cfg H Q) o1
  have u1 : Unapplied r.txn.id d (run cfg {} es) := unapplied_run (init_fits cfg H Q) o1 hes ⟨by simp, by simp⟩
  have u2 : Unapplied r.txn.id d (step cfg (run cfg {} es) (.queued r)) := by
    have sf := submit_fields r.txn
    constructor
    · intro hn v hv hx
      have hlt : (run cfg {} es).now < d := hn
      rw [step_db] at hv
      obtain ⟨as, he⟩ : ∃ as, as = effects cfg (run cfg {} es) (.queued r) := ⟨_, rfl⟩
      have hao := effects_ok f1 o2
      rw [← he] at hv hao
      have hmem : ∀ a ∈ as, (∃ n ind cur, a = .base (.create n ind cur)) ∨ ∃ t, a = .base (.store t) ∧ t.status = .scheduled := by
        intro a ha
        rw [he] at ha
        rcases persistSteps_mem ha with ⟨i, c, rfl⟩ | ⟨i, c, rfl⟩ | ⟨_, x, y, rfl⟩
        · exact .inl ⟨_, _, _, rfl⟩
        · exact .inl ⟨_, _, _, rfl⟩
        · exact .inr ⟨_, rfl, by simp [sf, hd]⟩
      clear he
      have key : ∀ (as : List Act) (db : DB), HoldInv H db → (∀ a ∈ as, ActOk H Q a) →
          (∀ a ∈ as, (∃ n ind cur, a = .base (.create n ind cur)) ∨ ∃ t, a = .base (.store t) ∧ t.status = .scheduled) →
          (∀ v ∈ db.txns, Txn.Of r.txn.id v → v.status = .scheduled) →
          ∀ v ∈ (acts cfg db as).txns, Txn.Of r.txn.id v → v.status = .scheduled := by
        intro as
        induction as with
        | nil => intro db _ _ _ hn; exact hn
        | cons a as ih =>
          intro db hk ho hm hn
          have hk' := act_holdInv (cfg := cfg) hk (ho a (by simp)).respects
          refine ih (act cfg db a) hk' (fun b hb => ho b (List.mem_cons_of_mem _ hb)) (fun b hb => hm b (List.mem_cons_of_mem _ hb)) ?_
          intro v hv hx
          rcases act_new hk (ho a (by simp)).respects hv with hv | hv
          · exact hn v hv hx
          · rcases hm a (by simp) with ⟨n, i, c, rfl⟩ | ⟨t, rfl, ht⟩
            · cases hv with
              | post ht _ _ _ _ => simp [Op.posts] at ht
            · cases hv with
              | post ht _ _ _ _ => simp [Op.posts] at ht
              | store _ => exact ht
      exact key as _ f1.fund.toHoldInv hao hmem (u1.rows hlt) v hv hx
    · intro x hx t hj ht
      rcases task_new hx with hx1 | ⟨r', er, hx1⟩ | ⟨r', er, hx1⟩
      · exact u1.tasks x hx1 t hj ht
      · cases er
      · cases er
        rcases hx1 with hx1 | hx1
        · exact absurd hj (dated_apply hx1)
        · subst hx1
          simp only [(queueTxn_ids cfg (run cfg {} es).db r).2, hd, Option.getD_some]
  have u3 := unapplied_run (step_fits f1 o2) o3 hfs u2
  rw [run_append] at hnow ⊢
  exact u3.rows hnow

/-- A payment of 100 scheduled for 50. -/
def laterPayment : Req :=
  { txn := { id := "t1", reference := "r1", source := "a", destination := "b", preciseAmount := some 100, amount := 100, precision := 1,
             allowOverdraft := true, scheduledFor := some 50 }, copyId := "t1c" }

/-- Attempts to commit it, to apply it and to pick it up before the date. -/
def pestered : List Ev := [.other (.commit "t1" 0 "c1" "s1" "x" "y"), .run 0 (gen1 "v"), .pick 0 "h3", .tick 49]

theorem pestered_ok : Ok {} demoHolds (fun _ => False) {} (accounts ++ .queued laterPayment :: pestered) := by
  refine ⟨create_ok (by decide +kernel), create_ok (by decide +kernel), ?_, ?_, ⟨gen1_plain, by simp [gen1]⟩, ?_, trivial, trivial⟩
  · refine ⟨rfl, rfl, by decide +kernel, fun _ => empty_plain, ?_⟩
    simp [laterPayment, demoHolds]
  · exact ⟨trivial, ⟨id, by decide +kernel, by decide +kernel⟩, by simp, by simp⟩
  · exact ⟨.inr (.inr rfl), id⟩

/-- `c91_not_early_partial` applies: nothing came of any of that, and the date has not passed. -/
example : (∀ e ∈ accounts ++ pestered, e.Foreign "t1") ∧ (run {} {} (accounts ++ .queued laterPayment :: pestered)).now < 50 ∧
    (run {} {} (accounts ++ .queued laterPayment :: pestered)).db.txns.map (fun t => (t.id, t.status)) = [("t1", .scheduled)] := by
  refine ⟨?_, by decide +kernel, by decide +kernel⟩
  simp only [accounts, pestered, List.cons_append, List.nil_append, List.forall_mem_cons, List.not_mem_nil, false_implies, implies_true, and_true]
  refine ⟨by simp [Ev.Foreign, Act.Foreign, Op.posts], by simp [Ev.Foreign, Act.Foreign, Op.posts], by simp [Ev.Foreign, Act.Foreign], ?_,
    by simp [Ev.Foreign], trivial⟩
  intro k
  refine ⟨?_, by simp [gen1]⟩
  simp only [gen1]; split <;> decide

/-- At the date the worker applies it. -/
example : 0 < pay (submit laterPayment.txn) ∧ (run {} {} (accounts ++ .queued laterPayment :: pestered ++ [.tick 1, .run 0 (gen1 "v")])).db.txns.map
    (fun t => (t.id, t.status)) = [("t1", .scheduled), ("t1c", .applied)] := by decide +kernel

/-- **C91 (part).** A queued request with `scheduled_for`: at any time its task is waiting, or asynq gave it
up, or a row of it was posted with the requested amount. -/
theorem c91_kept_partial (cfg : Cfg) (H Q : String → Prop) (es fs : List Ev) (r : Req) (d : Nat)
    (hok : Ok cfg H Q {} (es ++ .queued r :: fs)) (hd : r.txn.scheduledFor = some d) (hp : 0 < pay (submit r.txn)) :
    ∃ t : Txn, pay t = pay (submit r.txn) ∧ (t.id = r.copyId ∧ t.parent = r.txn.id ∨ t.id = r.txn.id) ∧
      (⟨d, .apply t⟩ ∈ (run cfg {} (es ++ .queued r :: fs)).tasks ∨
       ⟨d, .apply t⟩ ∈ (run cfg {} (es ++ .queued r :: fs)).dead ∨
       ∃ v ∈ (run cfg {} (es ++ .queued r :: fs)).db.txns, v.id = t.id ∧ v.parent = t.parent ∧ pay v = pay t ∧
         v.status = if r.txn.inflight then .inflight else .applied) := by
  obtain ⟨o1, o2, o3⟩ := ok_append.1 hok
  have f1 := run_fits (init_fits cfg H Q) o1
  have f2 := step_fits f1 o2
  have ids := queueTxn_ids cfg (run cfg {} es).db r
  dsimp only at ids
  obtain ⟨x, y, q, e⟩ := persist_txn cfg (run cfg {} es).db (submit r.txn) (r.gen 0) (r.gen 1)
  have sf := submit_fields r.txn
  have hpay : pay (r.queueTxn (Queue.persistQueued cfg (run cfg {} es).db (submit r.txn) (r.gen 0) (r.gen 1))) = pay (submit r.txn) := by
    unfold Req.queueTxn; rw [e]; split <;> rfl
  have hinf : (r.queueTxn (Queue.persistQueued cfg (run cfg {} es).db (submit r.txn) (r.gen 0) (r.gen 1))).inflight = r.txn.inflight := by
    unfold Req.queueTxn; rw [e]; split <;> exact sf.2.2.1
  have hst : (r.queueTxn (Queue.persistQueued cfg (run cfg {} es).db (submit r.txn) (r.gen 0) (r.gen 1))).status = .scheduled := by
    have : (submit r.txn).status = .scheduled := by rw [sf.2.2.2.2.2.2, hd]; rfl
    unfold Req.queueTxn; rw [e]; split <;> exact this
  have htask : ⟨d, .apply (r.queueTxn (Queue.persistQueued cfg (run cfg {} es).db (submit r.txn) (r.gen 0) (r.gen 1)))⟩ ∈
      (step cfg (run cfg {} es) (.queued r)).tasks := by
    simp only [step, Sched.queued]
    apply List.mem_append_right
    have hs := ids.2
    rw [hs, hd]
    simp
  generalize r.queueTxn (Queue.persistQueued cfg (run cfg {} es).db (submit r.txn) (r.gen 0) (r.gen 1)) = t at *
  obtain ⟨p, hpa, hp0⟩ : ∃ p, t.preciseAmount = some p ∧ 0 < p := by
    unfold pay at hpay hp
    cases hpa : t.preciseAmount with
    | none => rw [hpa] at hpay; simp at hpay; omega
    | some p => rw [hpa] at hpay; simp at hpay; exact ⟨p, rfl, by omega⟩
  refine ⟨t, hpay, ids.1.imp id (·.1), ?_⟩
  rw [run_append]
  show ⟨d, .apply t⟩ ∈ (run cfg (step cfg (run cfg {} es) (.queued r)) fs).tasks ∨ _
  have key : ∀ (fs : List Ev) (s : Sys), Fits cfg H Q s → Ok cfg H Q s fs →
      (⟨d, .apply t⟩ ∈ s.tasks ∨ ⟨d, .apply t⟩ ∈ s.dead ∨ ∃ v ∈ s.db.txns, v.id = t.id ∧ v.parent = t.parent ∧ pay v = pay t ∧
         v.status = if r.txn.inflight then .inflight else .applied) →
      (⟨d, .apply t⟩ ∈ (run cfg s fs).tasks ∨ ⟨d, .apply t⟩ ∈ (run cfg s fs).dead ∨ ∃ v ∈ (run cfg s fs).db.txns, v.id = t.id ∧
        v.parent = t.parent ∧ pay v = pay t ∧ v.status = if r.txn.inflight then .inflight else .applied) := by
    intro fs
    induction fs with
    | nil => intro s _ _ h; exact h
    | cons e es ih =>
      intro s hs ho h
      refine ih (step cfg s e) (step_fits hs ho.1) ho.2 ?_
      rcases h with h | h | ⟨v, hv, hp⟩
      · rcases task_kept (cfg := cfg) (e := e) h with h1 | h1 | ⟨k, g, rfl, _, _, ha, hdb⟩
        · exact .inl h1
        · exact .inr (.inl h1)
        · right; right
          rw [hdb]
          simp only [attempt] at ha ⊢
          have lv : ∀ x y, ({ t with source := x, destination := y } : Txn).Live := fun _ _ => live_of_status (.inr hst)
          rcases single_grown (cfg := cfg) (t := t) (n1 := g.fresh 0) (n2 := g.fresh 1) (δ := rowInfl) hs.fund.inv
            (fun x y b b' _ => ⟨reg_live (lv x y), infl_live (lv x y)⟩) with ⟨_, hn⟩ | ⟨x, y, gr, hpost, _, _, _, _⟩
          · exfalso
            cases ho : (recordSingle cfg s.db t (g.fresh 0) (g.fresh 1)).2 with
            | posted rows => exact hn rows ho
            | refused e => rw [ho] at ha; cases ha
            | discarded =>
              obtain ⟨x, y, hz⟩ := recordSingle_discarded ho
              rw [finalRow_plain (lv x y).1] at hz
              rw [applyPrecision_pos (t := { t with source := x, destination := y }) hpa hp0] at hz
              simp at hz; omega
          · have kp := finalRow_keeps { t with source := x, destination := y }
            refine ⟨_, by rw [gr.txns]; simp, kp.2.1, kp.2.2.2.2.2, ?_, ?_⟩
            · unfold pay
              rw [finalRow_plain (lv x y).1]
              rw [applyPrecision_pos (t := { t with source := x, destination := y }) hpa hp0, hpa]
            · rw [finalRow_status, finalStatus_live (lv x y)]
              simp [hinf]
      · exact .inr (.inl (dead_kept h))
      · right; right
        obtain ⟨new, en⟩ := run_rows hs (es := [e]) ⟨ho.1, trivial⟩
        simp only [run] at en
        exact ⟨v, by rw [en]; exact List.mem_append_left _ hv, hp⟩
  exact key fs _ f2 o3 (.inl htask)

/-! ### C92: commit dates -/

/-- A commit that finds nothing left ends as a terminal answer. -/
theorem over_terminal {cfg : Cfg} {H : String → Prop} {db : DB} {r : Txn} (hk : HoldInv H db) (hrow : r ∈ db.txns) (h : Over db r)
    (amt : Int) (newId ref n1 n2 : String) : legClass (commitInflight cfg db r.id amt newId ref n1 n2).2 = .terminal := by
  cases hf : fetchInflight db r.id with
  | error err =>
    have he : err = .voided ∨ err = .notInflight := by
      unfold fetchInflight at hf
      rw [getTxn_of_mem hk.inv hrow] at hf
      simp only at hf
      split at hf
      · split at hf
        · cases hf; exact .inl rfl
        · cases hf
      · cases hf; exact .inr rfl
    rcases he with rfl | rfl <;> simp [commitInflight, hf, legClass]
  | ok t =>
    obtain ⟨r', hr', hid, _, hnv, et⟩ := fetchInflight_ok hf
    have : r' = r := row_unique hk.inv hr' hrow hid
    subst this
    have r0 : released db r'.id = 0 := kidSum_zero (fun c hc hcs => parentVoid_false.1 hnv c hc hcs)
    have hrem : remaining db t = 0 := by
      have hz : pay r' - committed db r'.id = 0 := by unfold Over at h; omega
      rw [et]; simpa [remaining, pay, totalCommitted_eq] using hz
    simp [commitInflight, hf, hrem, settleAmount, legClass]

/-- Every id generated for a leg is new when it is used. -/
def FreshIds (cfg : Cfg) (q : QAction) : DB → List LegCall → Prop
  | _, [] => True
  | db, c :: cs => (acts cfg db c.before).hasTxnId c.newId = false ∧
      FreshIds cfg q (act cfg (acts cfg db c.before) (q.toAct c)) cs

theorem delivery_acked {cfg : Cfg} {H Q : String → Prop} {action : String} (h0 : action ≠ "") {cs : List LegCall} : ∀ {as : List Act},
    (∀ a ∈ as, (a.Respects H ∧ a.Direct Q) ∧ a.Fair (autoCommit action)) →
    (∀ c ∈ cs, ¬ Q c.leg ∧ isIndicator c.n1 = false ∧ isIndicator c.n2 = false ∧
      ∀ a ∈ c.before, (a.Respects H ∧ a.Direct Q) ∧ a.Fair (autoCommit action)) →
    (∀ c ∈ cs, ∃ h ∈ (acts cfg {} as).txns, h.id = c.leg ∧ h.status = .inflight ∧ h.source ≠ h.destination) →
    FreshIds cfg (autoCommit action) (acts cfg {} as) cs →
    acked (runAction cfg (acts cfg {} as) (autoCommit action) cs).2 = true := by
  induction cs with
  | nil => intro as _ _ _ _; rfl
  | cons c cs ih =>
    intro as hr hc hrows hfresh
    have hcc := hc c (by simp)
    have hr1 : ∀ a ∈ as ++ c.before, (a.Respects H ∧ a.Direct Q) ∧ a.Fair (autoCommit action) := by
      intro a ha
      rcases List.mem_append.1 ha with ha | ha
      · exact hr a ha
      · exact hcc.2.2.2 a ha
    have hact : ((autoCommit action).toAct c).Respects H ∧ ((autoCommit action).toAct c).Direct Q := by
      refine ⟨toAct_respects _ _, ?_⟩
      simp only [QAction.toAct, autoCommit, Act.Direct]
      exact ⟨hcc.1, hcc.2.1, hcc.2.2.1⟩
    have hr2 : ∀ a ∈ as ++ c.before ++ [(autoCommit action).toAct c], (a.Respects H ∧ a.Direct Q) ∧ a.Fair (autoCommit action) := by
      intro a ha
      rcases List.mem_append.1 ha with ha | ha
      · exact hr1 a ha
      · simp at ha; subst ha; exact ⟨hact, .inl ⟨c, rfl⟩⟩
    have e1 : acts cfg {} (as ++ c.before) = acts cfg (acts cfg {} as) c.before := acts_append ..
    have e2 : acts cfg {} (as ++ c.before ++ [(autoCommit action).toAct c]) =
        act cfg (acts cfg (acts cfg {} as) c.before) ((autoCommit action).toAct c) := by rw [acts_append, e1]; rfl
    have hk := acts_holdInv (cfg := cfg) (init_holdInv H) (fun a ha => (hr a ha).1.1)
    have hk1 := acts_holdInv (cfg := cfg) (init_holdInv H) (fun a ha => (hr1 a ha).1.1)
    obtain ⟨n1, p1⟩ := acts_prefix (cfg := cfg) hk (as := c.before) (fun a ha => (hcc.2.2.2 a ha).1.1)
    obtain ⟨n2, p2⟩ := acts_prefix (cfg := cfg) hk1 (as := [(autoCommit action).toAct c]) (by
      intro a ha; simp at ha; subst ha; exact hact.1)
    have rest := ih (as := as ++ c.before ++ [(autoCommit action).toAct c]) hr2 (fun d hd => hc d (List.mem_cons_of_mem _ hd))
      (by
        intro d hd
        obtain ⟨h, hm, hh⟩ := hrows d (List.mem_cons_of_mem _ hd)
        refine ⟨h, ?_, hh⟩
        rw [acts_append, p2, e1, p1]
        simp [hm])
      (by rw [e2]; exact hfresh.2)
    have first : legClass (settleResult cfg (acts cfg (acts cfg {} as) c.before) (autoCommit action) c) ≠ .transient := by
      obtain ⟨h, hm, hid, hst, hne⟩ := hrows c (by simp)
      have hm1 : h ∈ (acts cfg {} (as ++ c.before)).txns := by rw [e1, p1]; exact List.mem_append_left _ hm
      have hres : settleResult cfg (acts cfg (acts cfg {} as) c.before) (autoCommit action) c =
          (commitInflight cfg (acts cfg {} (as ++ c.before)) h.id 0 c.newId ((autoCommit action).ref c) c.n1 c.n2).2 := by
        simp only [settleResult, autoCommit, ← e1, hid]; rfl
      rw [hres]
      by_cases ho : Over (acts cfg {} (as ++ c.before)) h
      · rw [over_terminal hk1 hm1 ho]; simp
      · have href : (acts cfg {} (as ++ c.before)).hasRef ((autoCommit action).ref c) = false := by
          cases hb : (acts cfg {} (as ++ c.before)).hasRef ((autoCommit action).ref c) with
          | false => rfl
          | true =>
            exfalso
            have hcl : FullClosed (autoCommit action) c.leg (acts cfg {} (as ++ c.before)) :=
              full_closed_acts h0 (.inr rfl) (init_holdInv H) (fun a ha => ⟨(hr1 a ha).1.1, (hr1 a ha).2⟩)
                (by rintro ⟨x, hx, _⟩; simp at hx)
            unfold DB.hasRef at hb
            rw [List.any_eq_true] at hb
            obtain ⟨x, hx, hxr⟩ := hb
            obtain ⟨r', hr', hid', _, hc'⟩ := hcl ⟨x, hx, by simpa [QAction.ref, autoCommit, h0] using hxr⟩
            have : r' = h := row_unique hk1.inv hr' hm1 (hid'.trans hid.symm)
            subst this
            rw [← hid'] at hc'
            exact ho hc'
        have hop := not_over_open hk1 hm1 (.inl hst) ho
        have hidn : (acts cfg {} (as ++ c.before)).hasTxnId c.newId = false := by rw [e1]; exact hfresh.1
        obtain ⟨x, hx, _⟩ := c26_commit_succeeds_partial cfg H Q (as ++ c.before) (fun a ha => (hr1 a ha).1) h hm1 hst hne 0
          (Int.le_refl _) (by omega) hop c.newId ((autoCommit action).ref c) c.n1 c.n2 hidn href
        rw [hx]; simp [legClass]
    rw [e2] at rest
    simp only [runAction, acked, List.contains_cons, Bool.not_or, Bool.and_eq_true] at rest ⊢
    exact ⟨by simpa using fun h => first h.symm, rest⟩

/-- The steps of a history and of the other processes during an attempt keep off the references of an action. -/
def Reserved (cfg : Cfg) (action : String) (es : List Ev) (g : Gen) : Prop :=
  (∀ a ∈ history cfg {} es, a.Fair (autoCommit action)) ∧ ∀ k, ∀ a ∈ g.before k, a.Fair (autoCommit action)

/-- **C92 (part).** The attempt at a commit task succeeds: the ids it generates being new and its references
reserved, the task is acknowledged, whatever other processes do between its legs. -/
theorem c92_acknowledged_partial (cfg : Cfg) (H Q : String → Prop) (es : List Ev) (k : Nat) (g : Gen) (d : Nat) (id action : String)
    (hok : Ok cfg H Q {} (es ++ [.run k g])) (hk : (run cfg {} es).tasks[k]? = some ⟨d, .settle id action⟩)
    (h0 : action ≠ "") (hres : Reserved cfg action es g)
    (hne : ∀ h ∈ (run cfg {} es).db.txns, h.status = .inflight → h.source ≠ h.destination)
    (hfresh : FreshIds cfg (autoCommit action) (run cfg {} es).db (legCalls g 0 (Atomic.inflightLegs (run cfg {} es).db id))) :
    (attempt cfg (run cfg {} es).db g (.settle id action)).2 = true := by
  obtain ⟨o1, o2, _⟩ := ok_append.1 hok
  have f1 := run_fits (init_fits cfg H Q) o1
  have hj := f1.tasks _ (List.mem_of_getElem? hk)
  have hh := history_ok (init_fits cfg H Q) o1
  have legs := f1.legs (id := id) hj
  simp only [attempt]
  have e : (run cfg {} es).db = acts cfg {} (history cfg {} es) := run_db
  generalize Atomic.inflightLegs (run cfg {} es).db id = L at *
  rw [e] at hfresh hne legs ⊢
  refine delivery_acked h0 (fun a ha => ⟨⟨(hh a ha).respects, (hh a ha).direct⟩, hres.1 a ha⟩) ?_ ?_ hfresh
  · intro c hc
    obtain ⟨t, ht, j, rfl⟩ := legCalls_mem hc
    refine ⟨(legs t ht).2.2, empty_plain, empty_plain, ?_⟩
    intro a ha
    have := o2.2 j a ha
    exact ⟨⟨this.respects, this.direct⟩, hres.2 j a ha⟩
  · intro c hc
    obtain ⟨t, ht, j, rfl⟩ := legCalls_mem hc
    obtain ⟨h1, h2, _⟩ := legs t ht
    exact ⟨t, h1, rfl, h2, hne t h1 h2⟩

/-- An acknowledged attempt at a commit task settles every hold of the request. -/
theorem settle_over {cfg : Cfg} {H Q : String → Prop} {es : List Ev} {k : Nat} {g : Gen} {id action : String} {h : Txn}
    (o1 : Ok cfg H Q {} es) (o2 : (Ev.run k g).Ok cfg H Q (run cfg {} es)) (h0 : action ≠ "")
    (hf : ∀ a ∈ history cfg {} es, a.Fair (autoCommit action))
    (hb : ∀ c ∈ legCalls g 0 (Atomic.inflightLegs (run cfg {} es).db id), ∀ a ∈ c.before, a.Fair (autoCommit action))
    (hack : (attempt cfg (run cfg {} es).db g (.settle id action)).2 = true) (hrow : h ∈ (run cfg {} es).db.txns)
    (hst : h.status = .inflight) (hid : h.id = id ∨ h.parent = id) :
    Over (attempt cfg (run cfg {} es).db g (.settle id action)).1 h := by
  have hh := history_ok (init_fits cfg H Q) o1
  obtain ⟨c, hc, hcl⟩ := legCalls_cover (g := g) (k := 0) (legs_cover hrow hid hst)
  simp only [attempt] at hack ⊢
  have e : (run cfg {} es).db = acts cfg {} (history cfg {} es) := run_db
  generalize Atomic.inflightLegs (run cfg {} es).db id = L at *
  rw [e] at hack hrow ⊢
  have := c25_acked_full_action_closes_every_hold cfg H (history cfg {} es) (autoCommit action) (legCalls g 0 L) h0 (.inr rfl)
    (fun a ha => ⟨(hh a ha).respects, hf a ha⟩)
    (by
      intro c hc a ha
      refine ⟨?_, hb c hc a ha⟩
      obtain ⟨t, ht, j, rfl⟩ := legCalls_mem hc
      exact (o2.2 j a ha).respects)
    hack c hc h hrow hcl.symm (.inl hst)
  rw [hcl] at this
  exact this

/-- **C92 (part).** Once the commit task of a request is acknowledged, every hold of the request — the
row itself or its split legs — is settled in full from then on, and refuses further commits
and voids. Left out: queued holds (`c92_late_fails`, `c92_scheduled_fails`). -/
theorem c92_settled_partial (cfg : Cfg) (H Q : String → Prop) (es fs : List Ev) (k : Nat) (g : Gen) (d : Nat) (id action : String)
    (hok : Ok cfg H Q {} (es ++ .run k g :: fs)) (hk : (run cfg {} es).tasks[k]? = some ⟨d, .settle id action⟩)
    (hd : d ≤ (run cfg {} es).now) (h0 : action ≠ "") (hres : Reserved cfg action es g)
    (hack : (attempt cfg (run cfg {} es).db g (.settle id action)).2 = true)
    (h : Txn) (hrow : h ∈ (run cfg {} es).db.txns) (hst : h.status = .inflight) (hid : h.id = id ∨ h.parent = id) :
    committed (run cfg {} (es ++ .run k g :: fs)).db h.id + released (run cfg {} (es ++ .run k g :: fs)).db h.id = pay h ∧
    ∀ (amt : Int) (newId ref n1 n2 : String),
      (∃ e, commitInflight cfg (run cfg {} (es ++ .run k g :: fs)).db h.id amt newId ref n1 n2 =
        ((run cfg {} (es ++ .run k g :: fs)).db, .error e)) ∧
      ∃ e, voidInflight cfg (run cfg {} (es ++ .run k g :: fs)).db h.id newId ref n1 n2 =
        ((run cfg {} (es ++ .run k g :: fs)).db, .error e) := by
  obtain ⟨o1, o2, o3⟩ := ok_append.1 hok
  have f1 := run_fits (init_fits cfg H Q) o1
  have f2 := step_fits f1 o2
  have f3 := run_fits f2 o3
  have hdb : (step cfg (run cfg {} es) (.run k g)).db = (attempt cfg (run cfg {} es).db g (.settle id action)).1 := by
    simp only [step, hk, if_pos hd]
    split <;> rfl
  have ov : Over (step cfg (run cfg {} es) (.run k g)).db h := by
    rw [hdb]
    exact settle_over o1 o2 h0 hres.1 (fun c hc a ha => by
      obtain ⟨t, ht, j, rfl⟩ := legCalls_mem hc
      exact hres.2 j a ha) hack hrow hst hid
  have hrow2 : h ∈ (step cfg (run cfg {} es) (.run k g)).db.txns := by
    obtain ⟨new, en⟩ := run_rows f1 (es := [.run k g]) ⟨o2, trivial⟩
    simp only [run] at en
    rw [en]; exact List.mem_append_left _ hrow
  have ov3 : Over (run cfg (step cfg (run cfg {} es) (.run k g)) fs).db h := by
    rw [run_db]
    exact over_later f2.fund.toHoldInv (fun a ha => (history_ok f2 o3 a ha).respects) hrow2 (.inl hst) ov
  have hrow3 : h ∈ (run cfg (step cfg (run cfg {} es) (.run k g)) fs).db.txns := by
    obtain ⟨new, en⟩ := run_rows f2 o3
    rw [en]; exact List.mem_append_left _ hrow2
  rw [run_append]
  exact ⟨ov3, over_refuses f3.fund.toHoldInv hrow3 ov3⟩

/-! #### The commit task is kept -/

theorem history_append {cfg : Cfg} {es fs : List Ev} : ∀ {s : Sys},
    history cfg s (es ++ fs) = history cfg s es ++ history cfg (run cfg s es) fs := by
  induction es with
  | nil => intro s; rfl
  | cons e es ih => intro s; simp only [List.cons_append, history, run, ih, List.append_assoc]

/-- The rows of an accepted `skip_queue` hold. -/
theorem place_holds {cfg : Cfg} {H Q : String → Prop} {gen : Nat → String} (hg : ∀ k, isIndicator (gen k) = false) {ts : List Txn} :
    ∀ {k : Nat} {db : DB}, HoldInv H db → (∀ t ∈ ts, t.Live ∧ t.inflight = true ∧ H t.id ∧ ¬ Q t.id) → (place cfg gen k db ts).2 = true →
    ∀ t ∈ ts, 0 < pay t → ∃ h ∈ (place cfg gen k db ts).1.txns, h.id = t.id ∧ h.parent = t.parent ∧ h.status = .inflight ∧
      h.source ≠ h.destination ∧ pay h = pay t := by
  induction ts with
  | nil => intro k db _ _ _ t ht; simp at ht
  | cons u ts ih =>
    intro k db hk hl hp t ht hpos
    obtain ⟨hlu, hiu, hHu, hQu⟩ := hl u (by simp)
    have ok1 : ActOk H Q (.base (.post u (gen k) (gen (k + 1)))) := post_ok hlu (by rw [if_pos hiu]; exact ⟨hHu, hQu⟩) (hg k) (hg (k + 1))
    have hk1 : HoldInv H (recordSingle cfg db u (gen k) (gen (k + 1))).1 := act_holdInv (cfg := cfg) hk ok1.respects
    have hok : ∀ a ∈ placeSteps cfg gen (k + 2) (recordSingle cfg db u (gen k) (gen (k + 1))).1 ts, a.Respects H := by
      intro a ha
      obtain ⟨x, hx, j, rfl⟩ := placeSteps_mem ha
      obtain ⟨l1, l2, l3, l4⟩ := hl x (List.mem_cons_of_mem _ hx)
      exact (post_ok (Q := Q) l1 (by rw [if_pos l2]; exact ⟨l3, l4⟩) (hg j) (hg (j + 1))).respects
    obtain ⟨new, en⟩ := acts_prefix (cfg := cfg) hk1 hok
    have hnot : ∀ e, (recordSingle cfg db u (gen k) (gen (k + 1))).2 ≠ .refused e := by
      intro e he
      unfold place at hp
      simp [he] at hp
    have hplace : place cfg gen k db (u :: ts) = place cfg gen (k + 2) (recordSingle cfg db u (gen k) (gen (k + 1))).1 ts := by
      show (let o := recordSingle cfg db u (gen k) (gen (k + 1)); match o.2 with
        | .refused _ => (o.1, false) | _ => place cfg gen (k + 2) o.1 ts) = _
      dsimp only
      split
      · exact absurd (by assumption) (hnot _)
      · rfl
    rw [hplace] at hp ⊢
    rcases List.mem_cons.1 ht with rfl | ht
    · obtain ⟨p, hpa, hp0⟩ : ∃ p, t.preciseAmount = some p ∧ 0 < p := by
        unfold pay at hpos
        cases hpa : t.preciseAmount with
        | none => rw [hpa] at hpos; simp at hpos
        | some p => rw [hpa] at hpos; simp at hpos; exact ⟨p, rfl, hpos⟩
      have lv : ∀ x y, ({ t with source := x, destination := y } : Txn).Live := fun _ _ => hlu
      rcases single_grown (cfg := cfg) (t := t) (n1 := gen k) (n2 := gen (k + 1)) (δ := rowInfl) hk.inv
        (fun x y b b' _ => ⟨reg_live (lv x y), infl_live (lv x y)⟩) with ⟨_, hn⟩ | ⟨x, y, gr, hpost, _, _, _, hne⟩
      · exfalso
        cases ho : (recordSingle cfg db t (gen k) (gen (k + 1))).2 with
        | posted rows => exact hn rows ho
        | refused e => exact hnot e ho
        | discarded =>
          obtain ⟨x, y, hz⟩ := recordSingle_discarded ho
          rw [finalRow_plain (lv x y).1, applyPrecision_pos (t := { t with source := x, destination := y }) hpa hp0] at hz
          simp at hz; omega
      · have kp := finalRow_keeps { t with source := x, destination := y }
        refine ⟨finalRow { t with source := x, destination := y }, ?_, kp.2.1, kp.2.2.2.2.2, ?_, ?_, ?_⟩
        · rw [place_steps, en, gr.txns]; simp
        · rw [finalRow_status, finalStatus_live (lv x y)]; simp [hiu]
        · rw [kp.2.2.1, kp.2.2.2.1]; exact hne
        · unfold pay
          rw [finalRow_plain (lv x y).1, applyPrecision_pos (t := { t with source := x, destination := y }) hpa hp0, hpa]
    · exact ih hk1 (fun x hx => hl x (List.mem_cons_of_mem _ hx)) hp t ht hpos

/-- What is known at any time about a hold with a commit date. -/
def Awaits (d : Nat) (id action : String) (h : Txn) (s : Sys) : Prop :=
  h ∈ s.db.txns ∧ (⟨d, .settle id action⟩ ∈ s.tasks ∨ ⟨d, .settle id action⟩ ∈ s.dead ∨ Over s.db h)

theorem awaits_run {cfg : Cfg} {H Q : String → Prop} {d : Nat} {id action : String} {h : Txn} (h0 : action ≠ "") (hst : h.status = .inflight)
    (hid : h.id = id ∨ h.parent = id) {fs : List Ev} : ∀ {es : List Ev}, Ok cfg H Q {} (es ++ fs) →
    (∀ a ∈ history cfg {} (es ++ fs), a.Fair (autoCommit action)) → Awaits d id action h (run cfg {} es) →
    Awaits d id action h (run cfg {} (es ++ fs)) := by
  induction fs with
  | nil => intro es _ _ h; simpa using h
  | cons e fs ih =>
    intro es hok hf ha
    have e1 : es ++ e :: fs = es ++ [e] ++ fs := by simp
    rw [e1] at hok hf ⊢
    refine ih hok hf ?_
    rw [List.append_assoc] at hok hf
    obtain ⟨o1, o2, _⟩ := ok_append.1 hok
    have f1 := run_fits (init_fits cfg H Q) o1
    have hk := f1.fund.toHoldInv
    have hr : ∀ a ∈ effects cfg (run cfg {} es) e, a.Respects H := fun a ha => (effects_ok f1 o2 a ha).respects
    have hfair : (∀ a ∈ history cfg {} es, a.Fair (autoCommit action)) ∧
        ∀ a ∈ effects cfg (run cfg {} es) e, a.Fair (autoCommit action) := by
      rw [history_append] at hf
      refine ⟨fun a ha => hf a (List.mem_append_left _ ha), fun a ha => hf a (List.mem_append_right _ ?_)⟩
      simp only [List.cons_append, List.nil_append, history]
      exact List.mem_append_left _ ha
    rw [run_append]
    show Awaits d id action h (step cfg (run cfg {} es) e)
    refine ⟨?_, ?_⟩
    · obtain ⟨new, en⟩ := acts_prefix (cfg := cfg) hk hr
      rw [step_db, en]; exact List.mem_append_left _ ha.1
    · rcases ha.2 with ht | ht | ht
      · rcases task_kept (cfg := cfg) (e := e) ht with h1 | h1 | ⟨k, g, rfl, hk', hd', hack, hdb⟩
        · exact .inl h1
        · exact .inr (.inl h1)
        · right; right
          rw [hdb]
          refine settle_over o1 o2 h0 hfair.1 ?_ hack ha.1 hst hid
          intro c hc a hab
          refine hfair.2 a ?_
          have hd2 : d ≤ (run cfg {} es).now := hd'
          simp only [effects, hk', hd2, if_true, jobSteps]
          exact List.mem_flatMap.2 ⟨c, hc, List.mem_append_left _ hab⟩
      · exact .inr (.inl (dead_kept ht))
      · right; right
        rw [step_db]
        exact over_later hk hr ha.1 (.inl hst) ht

/-- **C92 (part).** Every hold placed directly (`skip_queue`, split or not) with a commit date: at any later
time its commit task is waiting, or asynq gave it up, or nothing of the hold is open. -/
theorem c92_watched_partial (cfg : Cfg) (H Q : String → Prop) (es fs : List Ev) (r : Req) (d : Nat)
    (hok : Ok cfg H Q {} (es ++ .direct r :: fs)) (hi : r.txn.inflight = true) (hd : r.commitAt = some d) (h0 : r.action ≠ "")
    (hp : (place cfg r.gen 0 (run cfg {} es).db r.rows).2 = true)
    (hf : ∀ a ∈ history cfg {} (es ++ .direct r :: fs), a.Fair (autoCommit r.action)) :
    ∀ t ∈ r.rows, 0 < pay t → ∃ h ∈ (run cfg {} (es ++ .direct r :: fs)).db.txns, h.id = t.id ∧ h.status = .inflight ∧ pay h = pay t ∧
      (h.id = r.txn.id ∨ h.parent = r.txn.id) ∧
      (⟨d, .settle r.txn.id r.action⟩ ∈ (run cfg {} (es ++ .direct r :: fs)).tasks ∨
       ⟨d, .settle r.txn.id r.action⟩ ∈ (run cfg {} (es ++ .direct r :: fs)).dead ∨
       Over (run cfg {} (es ++ .direct r :: fs)).db h) := by
  intro t ht hpos
  have e1 : es ++ .direct r :: fs = es ++ [.direct r] ++ fs := by simp
  obtain ⟨o1, o2, o3⟩ := ok_append.1 hok
  have f1 := run_fits (init_fits cfg H Q) o1
  have sf := submit_fields r.txn
  have hinf : ∀ u ∈ r.rows, u.inflight = true := by
    intro u hu
    unfold Req.rows at hu
    split at hu
    · simp at hu; subst hu; rw [sf.2.2.1]; exact hi
    · obtain ⟨l, _, rfl⟩ := List.mem_map.1 hu
      simp [legOf, sf, hi]
  obtain ⟨h, hm, hid, hpar, hst, hne, hpay⟩ := place_holds (Q := Q) o2.2.2.1 f1.fund.toHoldInv (fun u hu => by
    have := o2.2.2.2 u hu
    rw [if_pos (hinf u hu)] at this
    exact ⟨rows_live o2.1 u hu, hinf u hu, this⟩) hp t ht hpos
  have hreq : h.id = r.txn.id ∨ h.parent = r.txn.id := by
    unfold Req.rows at ht
    split at ht
    · simp at ht; subst ht; exact .inl (hid.trans sf.1)
    · obtain ⟨l, _, rfl⟩ := List.mem_map.1 ht
      exact .inr (hpar.trans sf.1)
  have a1 : Awaits d r.txn.id r.action h (run cfg {} (es ++ [.direct r])) := by
    rw [run_append]
    show Awaits d r.txn.id r.action h (step cfg (run cfg {} es) (.direct r))
    simp only [step, Sched.direct, hp, if_true]
    exact ⟨hm, .inl (List.mem_append_right _ (by simp [Req.dated, hd]))⟩
  rw [e1] at hok hf ⊢
  have := awaits_run h0 hst hreq hok hf a1
  exact ⟨h, this.1, hid, hst, hpay, hreq, this.2⟩

/-! #### Not before the date -/

theorem legs_of {db : DB} {id : String} {t : Txn} (h : t ∈ Atomic.inflightLegs db id) :
    t.id = id ∨ t.parent = id ∨ t.metaQueuedParent = id := by
  unfold Atomic.inflightLegs at h
  simp only at h
  split at h
  · simp only [List.mem_reverse, List.mem_filter, Bool.and_eq_true, Bool.or_eq_true, decide_eq_true_eq] at h
    rcases h.2.1.1.1.1 with h | h
    · exact .inl h
    · exact .inr (.inl h)
  · simp only [List.mem_reverse, List.mem_filter, Bool.and_eq_true, Bool.or_eq_true, decide_eq_true_eq] at h
    rcases h.2.1 with (h | h) | h
    · exact .inl h
    · exact .inr (.inl h)
    · exact .inr (.inr h)

/-- A ledger step that is not a commit of `h`. -/
def Act.NoCommit (h : String) : Act → Prop
  | .commit id _ _ _ _ _ => id ≠ h
  | _ => True

/-- The ids under which a commit task reaches the row `h`. -/
def Reaches (id : String) (h : Txn) : Prop := h.id = id ∨ h.parent = id ∨ h.metaQueuedParent = id

/-- An event in which no client commits `h`, and no request sets another commit date for it. -/
def Ev.Leaves (h : Txn) (d : Nat) : Ev → Prop
  | .direct r => Reaches r.txn.id h → r.commitAt = none ∨ r.commitAt = some d
  | .queued r => Reaches r.txn.id h → r.commitAt = none ∨ r.commitAt = some d
  | .run _ g => ∀ k, ∀ a ∈ g.before k, Act.NoCommit h.id a
  | .other a => Act.NoCommit h.id a
  | _ => True

theorem noCommit_acts {cfg : Cfg} {H Q : String → Prop} {as : List Act} {h : String} (hH : H h) : ∀ {db : DB}, HoldInv H db →
    (∀ a ∈ as, ActOk H Q a) → (∀ a ∈ as, Act.NoCommit h a) → (∀ v ∈ db.txns, v.status = .applied → v.parent ≠ h) →
    ∀ v ∈ (acts cfg db as).txns, v.status = .applied → v.parent ≠ h := by
  induction as with
  | nil => intro db _ _ _ hn; exact hn
  | cons a as ih =>
    intro db hk ho hw hn
    have hk' := act_holdInv (cfg := cfg) hk (ho a (by simp)).respects
    refine ih (db := act cfg db a) hk' (fun b hb => ho b (List.mem_cons_of_mem _ hb)) (fun b hb => hw b (List.mem_cons_of_mem _ hb)) ?_
    intro v hv hs
    have ha := (ho a (by simp)).respects
    have hwa := hw a (by simp)
    rcases act_new hk ha hv with hv | hv
    · exact hn v hv hs
    · cases hv with
      | post ht _ hp _ hst =>
        intro e
        have := ha.2.1 _ ht
        rw [hs] at hst
        split at hst
        · cases hst
        · rename_i hi
          rw [if_neg hi, ← hp, e] at this
          exact this hH
      | store hst => rcases hst with h | h | h <;> rw [hs] at h <;> cases h
      | commit _ _ _ _ hp _ => rw [hp]; exact hwa
      | void _ _ _ _ _ hst => rw [hs] at hst; cases hst

theorem dated_settle {r : Req} {x : Task} {id action : String} (h : x ∈ r.dated) (hj : x.job = .settle id action) :
    r.txn.id = id ∧ r.commitAt = some x.due := by
  unfold Req.dated at h
  rcases List.mem_append.1 h with h | h
  · obtain ⟨d, hd, rfl⟩ := List.mem_map.1 h
    cases hj
  · obtain ⟨d, hd, rfl⟩ := List.mem_map.1 h
    cases hj
    exact ⟨rfl, by simpa using hd⟩

/-- Before the date nothing of the hold is committed, and commit tasks that reach it carry the date. -/
structure Uncommitted (h : Txn) (d : Nat) (s : Sys) : Prop where
  rows : s.now < d → ∀ v ∈ s.db.txns, v.status = .applied → v.parent ≠ h.id
  tasks : ∀ x ∈ s.tasks, ∀ id action, x.job = .settle id action → Reaches id h → x.due = d

theorem effects_leave {cfg : Cfg} {h : Txn} {d : Nat} {s : Sys} {e : Ev}
    (huniq : ∀ v ∈ s.db.txns, v.id = h.id → v = h) (hb : Uncommitted h d s)
    (hw : e.Leaves h d) (hnow : s.now < d) : ∀ a ∈ effects cfg s e, Act.NoCommit h.id a := by
  cases e with
  | tick n => simp [effects]
  | archive k => simp [effects]
  | other a => simp only [effects, List.mem_singleton, forall_eq]; exact hw
  | direct r =>
    intro a ha
    obtain ⟨t, ht, j, rfl⟩ := placeSteps_mem ha
    trivial
  | queued r =>
    intro a ha
    rcases persistSteps_mem ha with ⟨_, _, rfl⟩ | ⟨_, _, rfl⟩ | ⟨_, _, _, rfl⟩ <;> trivial
  | pick k newId =>
    simp only [effects]
    split
    · simp
    · split
      · simp only [List.mem_singleton, forall_eq]; trivial
      · simp
  | run k g =>
    simp only [effects]
    split
    · simp
    · rename_i t ht
      split
      · rename_i hd
        have hm := List.mem_of_getElem? ht
        intro a ha
        cases hj : t.job with
        | apply x => rw [hj] at ha; simp [jobSteps] at ha; subst ha; trivial
        | expire id => rw [hj] at ha; simp [jobSteps] at ha; subst ha; trivial
        | settle id action =>
          rw [hj] at ha
          obtain ⟨c, hc, ha⟩ := List.mem_flatMap.1 ha
          obtain ⟨x, hx, j, rfl⟩ := legCalls_mem hc
          rcases List.mem_append.1 ha with ha | ha
          · exact hw j a ha
          · simp [QAction.toAct, autoCommit] at ha; subst ha
            intro e
            have hxt := (legs_mem hx).1
            have : x = h := huniq x hxt e
            subst this
            have := hb.tasks t hm id action hj (legs_of hx)
            omega
      · simp

theorem uncommitted_step {cfg : Cfg} {H Q : String → Prop} {h : Txn} {d : Nat} {s : Sys} {e : Ev} (hs : Fits cfg H Q s) (hH : H h.id)
    (ho : e.Ok cfg H Q s) (huniq : ∀ v ∈ s.db.txns, v.id = h.id → v = h) (hw : e.Leaves h d) (hb : Uncommitted h d s) :
    Uncommitted h d (step cfg s e) := by
  constructor
  · intro hnow
    have hlt : s.now < d := Nat.lt_of_le_of_lt (step_now (cfg := cfg) (e := e)) hnow
    rw [step_db]
    exact noCommit_acts hH hs.fund.toHoldInv (effects_ok hs ho) (effects_leave huniq hb hw hlt) (hb.rows hlt)
  · intro x hx id action hj hr
    rcases task_new hx with hx1 | ⟨r, er, hx1⟩ | ⟨r, er, hx1⟩
    · exact hb.tasks x hx1 id action hj hr
    · subst er
      obtain ⟨e1, e2⟩ := dated_settle hx1 hj
      rcases hw (by rw [e1]; exact hr) with h' | h' <;> rw [e2] at h' <;> cases h'
      rfl
    · subst er
      rcases hx1 with hx1 | hx1
      · obtain ⟨e1, e2⟩ := dated_settle hx1 hj
        rcases hw (by rw [e1]; exact hr) with h' | h' <;> rw [e2] at h' <;> cases h'
        rfl
      · subst hx1; cases hj

theorem uncommitted_run {cfg : Cfg} {H Q : String → Prop} {h : Txn} {d : Nat} {es : List Ev} (hH : H h.id) : ∀ {s : Sys}, Fits cfg H Q s →
    Ok cfg H Q s es → (∀ v ∈ (run cfg s es).db.txns, v.id = h.id → v = h) → (∀ e ∈ es, e.Leaves h d) → Uncommitted h d s →
    Uncommitted h d (run cfg s es) := by
  induction es with
  | nil => intro s _ _ _ _ hb; exact hb
  | cons e es ih =>
    intro s hs ho hu hw hb
    refine ih (step_fits hs ho.1) ho.2 hu (fun b hb' => hw b (List.mem_cons_of_mem _ hb')) (uncommitted_step hs hH ho.1 ?_ (hw e (by simp)) hb)
    intro v hv
    obtain ⟨new, en⟩ := run_rows hs ho
    exact hu v (by rw [en]; exact List.mem_append_left _ hv)

/-- **C92 (part).** No hold is committed early: before its commit date nothing of it is committed unless a
client asks for it. -/
theorem c92_not_early_partial (cfg : Cfg) (H Q : String → Prop) (es : List Ev) (h : Txn) (d : Nat)
    (hok : Ok cfg H Q {} es) (hrow : h ∈ (run cfg {} es).db.txns) (hst : h.status = .inflight)
    (hw : ∀ e ∈ es, e.Leaves h d) (hnow : (run cfg {} es).now < d) : committed (run cfg {} es).db h.id = 0 := by
  have f := run_fits (init_fits cfg H Q) hok
  have hH := f.fund.toHoldInv.known h hrow (.inl hst)
  have hb := uncommitted_run hH (init_fits cfg H Q) hok (fun v hv e => row_unique f.fund.inv hv hrow e) hw ⟨by simp, by simp⟩
  exact kidSum_zero (fun c hc hcs => (hb.rows hnow c hc hcs))

/-! #### A concrete history -/

/-- A split hold of 60 and 40 with commit date 5, and another hold, at time 6. -/
def committing : List Ev := accounts ++ [.other (.base (.create "c" "" "USD")),
  .direct { txn := newHold "req" "r1" "a" "" 100, commitAt := some 5, action := "act_1",
            legs := [{ id := "h1", reference := "r1_1", source := "a", destination := "b", preciseAmount := some 60 },
                     { id := "h2", reference := "r1_2", source := "a", destination := "c", preciseAmount := some 40 }] },
  .direct { txn := newHold "h3" "r3" "a" "b" 100 }, .tick 6]

/-- Ids generated for the two legs. -/
def gen2 : Gen := { fresh := fun k => if k = 0 then "k1" else "k2" }

theorem committing_ok : Ok {} demoHolds (fun _ => False) {} (committing ++ [.run 0 gen2]) := by
  refine ⟨create_ok (by decide +kernel), create_ok (by decide +kernel), create_ok (by decide +kernel), ?_, ?_, trivial, ⟨?_, by simp [gen2]⟩, trivial⟩
  · exact ⟨rfl, id, fun _ => empty_plain, by simp [Req.rows, legOf, newHold, submit_fields, demoHolds]⟩
  · exact ⟨rfl, id, fun _ => empty_plain, by simp [Req.rows, newHold, submit_fields, demoHolds]⟩
  · intro k; simp only [gen2]; split <;> decide +kernel

/-- `c92_acknowledged_partial` and `c92_settled_partial` apply: both legs are committed, the other hold is not. -/
example : (run {} {} committing).tasks[0]? = some ⟨5, .settle "req" "act_1"⟩ ∧ 5 ≤ (run {} {} committing).now ∧
    (∀ h ∈ (run {} {} committing).db.txns, h.status = .inflight → h.source ≠ h.destination) ∧
    (attempt {} (run {} {} committing).db gen2 (.settle "req" "act_1")).2 = true ∧
    committed (run {} {} (committing ++ [.run 0 gen2])).db "h1" = 60 ∧ committed (run {} {} (committing ++ [.run 0 gen2])).db "h2" = 40 ∧
    committed (run {} {} (committing ++ [.run 0 gen2])).db "h3" = 0 := by decide +kernel

example : FreshIds {} (autoCommit "act_1") (run {} {} committing).db
    (legCalls gen2 0 (Atomic.inflightLegs (run {} {} committing).db "req")) := by
  have e : legCalls gen2 0 (Atomic.inflightLegs (run {} {} committing).db "req") =
      [{ leg := "h2", newId := "k1", before := [] }, { leg := "h1", newId := "k2", before := [] }] := by
    have : (Atomic.inflightLegs (run {} {} committing).db "req").map (·.id) = ["h2", "h1"] := by decide +kernel
    generalize Atomic.inflightLegs (run {} {} committing).db "req" = L at this
    rcases L with _ | ⟨x, _ | ⟨y, _ | ⟨z, l⟩⟩⟩ <;> simp at this
    simp [legCalls, gen2, this.1, this.2]
  rw [e]
  exact ⟨by decide +kernel, by decide +kernel, trivial⟩

example : Reserved {} "act_1" committing gen2 := by
  constructor
  · intro a ha
    right
    intro leg
    have hr : a.refs = [] ∨ a.refs = ["r1_1"] ∨ a.refs = ["r1_2"] ∨ a.refs = ["r3"] := by
      have e : (history {} {} committing).map Act.refs = [[], [], [], ["r1_1"], ["r1_2"], ["r3"]] := by decide +kernel
      have hm : a.refs ∈ (history {} {} committing).map Act.refs := List.mem_map.2 ⟨a, ha, rfl⟩
      rw [e] at hm
      simpa using hm
    intro hm
    have hl : ∀ r ∈ a.refs, r.length ≤ 4 := by
      rcases hr with h | h | h | h <;> rw [h] <;> simp <;> decide +kernel
    have hlen := hl _ hm
    have h13 : (inflightActionReference leg (autoCommit "act_1").name (autoCommit "act_1").actionID).length = leg.length + 13 := by
      have e : (autoCommit "act_1").name = "commit" := rfl
      have e0 : (autoCommit "act_1").actionID = "act_1" := rfl
      have hn : "act_1" ≠ "" := by decide
      rw [e, e0, inflightActionReference, if_neg hn]
      simp only [String.length_append]
      have e1 : "_".length = 1 := by decide +kernel
      have e2 : "commit".length = 6 := by decide +kernel
      have e3 : "act_1".length = 5 := by decide +kernel
      omega
    omega
  · simp [gen2]

/-- `c92_watched_partial` applies: both legs of the request are placed. -/
example : (place {} (fun _ => "") 0 (run {} {} (committing.take 3)).db
    ({ txn := newHold "req" "r1" "a" "" 100, commitAt := some 5, action := "act_1",
       legs := [{ id := "h1", reference := "r1_1", source := "a", destination := "b", preciseAmount := some 60 },
                { id := "h2", reference := "r1_2", source := "a", destination := "c", preciseAmount := some 40 }] } : Req).rows).2 = true := by
  decide +kernel

/-- `c92_not_early_partial` applies up to the date. -/
example : ∃ h ∈ (run {} {} (committing.take 5)).db.txns, h.id = "h1" ∧ h.status = .inflight ∧
    (∀ e ∈ committing.take 5, e.Leaves h 5) ∧ (run {} {} (committing.take 5)).now < 5 := by
  refine ⟨_, List.getElem_mem (n := 0) (by decide +kernel), by decide +kernel, by decide +kernel, ?_, by decide +kernel⟩
  simp [committing, accounts, Ev.Leaves, Act.NoCommit]

/-! #### What the commit date does not give -/

/-- **C92 in full**: once the commit task of a request is attempted at or after its date and acknowledged,
every hold of the request is settled in full from then on. -/
def C92Full : Prop := ∀ (cfg : Cfg) (es fs : List Ev) (k : Nat) (g : Gen) (d : Nat) (id action : String),
  (run cfg {} es).tasks[k]? = some ⟨d, .settle id action⟩ → d ≤ (run cfg {} es).now → action ≠ "" →
  (attempt cfg (run cfg {} es).db g (.settle id action)).2 = true →
  ∀ h ∈ (run cfg {} (es ++ .run k g :: fs)).db.txns, h.status = .inflight → (h.id = id ∨ h.parent = id) →
    committed (run cfg {} (es ++ .run k g :: fs)).db h.id + released (run cfg {} (es ++ .run k g :: fs)).db h.id = pay h

/-- A queued hold with a commit date, which its worker has not applied yet, beside another hold. -/
def lateHold : List Ev := accounts ++
  [.direct { txn := newHold "h2" "r2" "a" "b" 100 },
   .queued { txn := newHold "h1" "r1" "a" "b" 100, commitAt := some 5, copyId := "h1c", action := "act_1" }, .tick 6]

/-- **C92 is violated for queued holds**: a commit task that runs before the hold is placed commits the
QUEUED row with funds of another hold; the hold placed afterwards stays open. -/
theorem c92_late_fails : ¬ C92Full := by
  intro h
  have := h {} lateHold [.run 0 (gen1 "w")] 1 (gen1 "v") 5 "h1" "act_1" (by decide +kernel) (by decide +kernel) (by decide)
    (by decide +kernel) _ (List.getElem_mem (n := 3) (by decide +kernel)) (by decide +kernel) (by decide +kernel)
  revert this
  decide +kernel

/-- A scheduled hold with a commit date after it, both dates past, not applied yet. -/
def scheduledHold : List Ev := accounts ++
  [.queued { txn := { newHold "h1" "r1" "a" "b" 100 with scheduledFor := some 4 }, commitAt := some 5, copyId := "h1c", action := "act_1" }, .tick 6]

/-- **C92 is violated for scheduled holds**: a commit task that finds no row to commit is acknowledged and
gone; the hold placed afterwards is never committed. -/
theorem c92_scheduled_fails : ¬ C92Full := by
  intro h
  have := h {} scheduledHold [.run 0 (gen1 "w")] 1 (gen1 "v") 5 "h1" "act_1" (by decide +kernel) (by decide +kernel) (by decide)
    (by decide +kernel) _ (List.getElem_mem (n := 1) (by decide +kernel)) (by decide +kernel) (by decide +kernel)
  revert this
  decide +kernel

/-- What is given up was due. -/
theorem step_dead {cfg : Cfg} {s : Sys} (h : ∀ t ∈ s.dead, t.due ≤ s.now) (e : Ev) :
    ∀ t ∈ (step cfg s e).dead, t.due ≤ (step cfg s e).now := by
  cases e with
  | direct r =>
    simp only [step, direct]
    split <;> exact h
  | queued r => exact h
  | tick n => exact fun t ht => Nat.le_trans (h t ht) (Nat.le_add_right _ _)
  | run k g =>
    simp only [step]
    split
    · exact h
    · split
      · split <;> exact h
      · exact h
  | archive k =>
    simp only [step]
    split
    · exact h
    · rename_i u _
      split
      · rename_i hd
        intro t ht
        rcases List.mem_append.1 ht with ht | ht
        · exact h t ht
        · rw [List.mem_singleton.1 ht]; exact hd
      · exact h
  | pick k newId =>
    simp only [step]
    split
    · exact h
    · split <;> exact h
  | other a => exact h

/-- **C90** (partial) No task is given up before its date, and no attempt at a task is made
before its date: until then the ledger is left alone. -/
theorem c90_early_partial (cfg : Cfg) (es : List Ev) :
    (∀ t ∈ (run cfg {} es).dead, t.due ≤ (run cfg {} es).now) ∧
    ∀ k g t, (run cfg {} es).tasks[k]? = some t → (run cfg {} es).now < t.due →
      step cfg (run cfg {} es) (.run k g) = run cfg {} es := by
  refine ⟨?_, fun k g t ht hd => ?_⟩
  · have key : ∀ (es : List Ev) (s : Sys), (∀ t ∈ s.dead, t.due ≤ s.now) → ∀ t ∈ (run cfg s es).dead, t.due ≤ (run cfg s es).now := by
      intro es
      induction es with
      | nil => exact fun _ h => h
      | cons e es ih => exact fun s h => ih _ (step_dead h e)
    exact key es {} (by simp)
  · simp only [step, ht]
    rw [if_neg (by omega)]

end Blnk.Sched
