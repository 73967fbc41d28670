import Verif.Lemmas.Hooks
/-
C93: changes to hooks stick. C94: hooks are called for their stage.
-/
namespace Blnk.Hooks

/-! ### C93 -/

/-- The process is a request that changes the hook. -/
def Proc.changes (id : String) : Proc → Bool
  | .regSet h | .regAdd h | .updRem _ h | .updAdd h | .updSet h => h.id == id
  | .updGet i _ | .delGet i | .delDel i _ | .delRem i _ => i == id
  | _ => false

/-- A request to change the hook arrives. -/
def Ev.changes (id : String) : Ev → Bool
  | .ask (.register h) => h.id == id
  | .ask (.update i _) | .ask (.delete i) => i == id
  | _ => false

/-- No other request to change the hook is under way. -/
def Undisputed (s : Sys) (i : Nat) (id : String) : Prop :=
  ∀ j p, j ≠ i → s.procs[j]? = some p → p.changes id = false

/-- **C93** in full, for updates: when an update is answered and nobody else changes the hook,
the hook is from then on what the update made it. -/
def C93UpdateFull : Prop := ∀ es es' i h, (hsteps {} es).procs[i]? = some (.updSet h) → Undisputed (hsteps {} es) i h.id →
  (∀ e ∈ es', e.changes h.id = false) →
  ∃ g, (hsteps {} (es ++ .go i .ok :: es')).get h.id = some g ∧ g.cfg = h.cfg

/-- **C93** in full, for deletions: it is gone. -/
def C93DeleteFull : Prop := ∀ es es' i id typ, (hsteps {} es).procs[i]? = some (.delRem id typ) → Undisputed (hsteps {} es) i id →
  (∀ e ∈ es', e.changes id = false) → (hsteps {} (es ++ .go i .ok :: es')).get id = none

/-- A hook, and the same switched off and sent elsewhere. -/
def bell : Hook := { id := "hook_1", url := "https://a", typ := postType }
def mute : Hook := { bell with url := "https://b", active := false }

/-- Register a hook, then fire it for a transaction: one task. -/
def ring : List Ev := [.ask (.register bell), .go 0 .ok, .go 0 .ok,
  .ask (.fire ⟨false, [("txn_1", "{}")]⟩), .go 1 .ok, .go 1 .ok, .go 1 .ok, .go 1 .ok, .go 1 .ok]

/-- The task is worked on and the receiver answers. -/
def answered (k : Nat) : List Ev := [.take k, .call k (.heard ⟨200, .empty⟩), .report k .ok]

/-- **C93** (violated) A hook that was switched off is switched on again by the worker that
finishes an older task: it stores the hook as the task has it (`client.go:208-232`). It is then
called for the next transaction, at its old address. -/
theorem c93_update_fails : ¬ C93UpdateFull ∧
    (hsteps {} (ring ++ [.ask (.update "hook_1" mute), .go 2 .ok] ++ .go 2 .ok :: answered 0)).acks =
      [.registered bell, .updated mute] ∧
    ((hsteps {} (ring ++ [.ask (.update "hook_1" mute), .go 2 .ok] ++ .go 2 .ok :: (answered 0 ++
      [.ask (.fire ⟨false, [("txn_2", "{}")]⟩), .go 3 .ok, .go 3 .ok, .go 3 .ok, .go 3 .ok] ++ answered 1))).calls.map
        fun c => (c.txn, c.url)) = [("txn_1", "https://a"), ("txn_2", "https://a")] := by
  refine ⟨fun h => ?_, by decide +kernel, by decide +kernel⟩
  obtain ⟨g, h1, h2⟩ := h (ring ++ [.ask (.update "hook_1" mute), .go 2 .ok]) (answered 0) 2 mute (by decide +kernel)
    (by
      intro j p hj hp
      have hl : (hsteps {} (ring ++ [.ask (.update "hook_1" mute), .go 2 .ok])).procs = [.idle, .idle, .updSet mute] := by
        decide +kernel
      rw [hl] at hp
      match j, hp with
      | 0, hp => simp only [List.getElem?_cons_zero, Option.some.injEq] at hp; subst hp; rfl
      | 1, hp => simp only [List.getElem?_cons_succ, List.getElem?_cons_zero, Option.some.injEq] at hp; subst hp; rfl
      | 2, _ => exact absurd rfl hj
      | n + 3, hp => simp at hp)
    (by decide)
  have : (hsteps {} (ring ++ [.ask (.update "hook_1" mute), .go 2 .ok] ++ .go 2 .ok :: answered 0)).get "hook_1" =
      some { bell with lastRun := 0, lastOk := true } := by decide +kernel
  have e : mute.id = "hook_1" := rfl
  rw [e, this] at h1
  simp only [Option.some.injEq] at h1
  rw [← h1] at h2
  exact absurd h2 (by decide)

/-- **C93** (violated) A deleted hook is there again when a worker finishes an older task. -/
theorem c93_delete_fails : ¬ C93DeleteFull := by
  intro h
  have := h (ring ++ [.ask (.delete "hook_1"), .go 2 .ok, .go 2 .ok]) (answered 0) 2 "hook_1" postType (by decide +kernel)
    (by
      intro j p hj hp
      have hl : (hsteps {} (ring ++ [.ask (.delete "hook_1"), .go 2 .ok, .go 2 .ok])).procs =
          [.idle, .idle, .delRem "hook_1" postType] := by decide +kernel
      rw [hl] at hp
      match j, hp with
      | 0, hp => simp only [List.getElem?_cons_zero, Option.some.injEq] at hp; subst hp; rfl
      | 1, hp => simp only [List.getElem?_cons_succ, List.getElem?_cons_zero, Option.some.injEq] at hp; subst hp; rfl
      | 2, _ => exact absurd rfl hj
      | n + 3, hp => simp at hp)
    (by decide)
  have e : (hsteps {} (ring ++ [.ask (.delete "hook_1"), .go 2 .ok, .go 2 .ok] ++ .go 2 .ok :: answered 0)).get "hook_1" =
      some { bell with lastRun := 0, lastOk := true } := by decide +kernel
  rw [e] at this
  simp at this

/-- The hook as `c` says (absent for `none`) wherever a firing has it in hand. -/
def PStill (id : String) (c : Option Cfg) (p : Proc) : Prop :=
  p.changes id = false ∧
  match p with
  | .fireGet _ _ acc => ∀ h ∈ acc, h.id = id → some h.cfg = c
  | .fireQueue ws => ∀ w ∈ ws, w.1.id = id → some w.1.cfg = c ∧ w.1.active = true
  | _ => True

/-- A task that is over. -/
def Task.ended (t : Task) : Prop := t.st = .done ∨ t.st = .dead

/-- Tasks of the hook are over or carry it as `c` says. -/
def TStill (id : String) (c : Option Cfg) (t : Task) : Prop :=
  t.hook.id = id → t.ended ∨ (some t.hook.cfg = c ∧ t.hook.active = true)

structure Still (id : String) (c : Option Cfg) (s : Sys) : Prop where
  keyed : ∀ k h, s.store k = some h → h.id = k
  store : (s.store id).map Hook.cfg = c
  procs : ∀ p ∈ s.procs, PStill id c p
  tasks : ∀ t ∈ s.tasks, TStill id c t

theorem still_put {id c s} (a : Still id c s) (h : Hook) (g : h.id = id → some h.cfg = c) : Still id c (s.put h) where
  keyed k x hx := by
    simp only [Sys.put] at hx
    split at hx
    · rename_i e; simp only [Option.some.injEq] at hx; rw [← hx]; exact e.symm
    · exact a.keyed k x hx
  store := by
    simp only [Sys.put]
    split
    · rename_i e; exact g e.symm
    · exact a.store
  procs := a.procs
  tasks := a.tasks

theorem still_del {id c s} (a : Still id c s) (i : String) (hi : i ≠ id) : Still id c (s.del i) where
  keyed k x hx := by
    simp only [Sys.del] at hx
    split at hx
    · simp at hx
    · exact a.keyed k x hx
  store := by
    simp only [Sys.del]
    rw [if_neg (Ne.symm hi)]
    exact a.store
  procs := a.procs
  tasks := a.tasks

theorem still_same {id c s s'} (a : Still id c s) (h1 : s'.store = s.store) (h2 : s'.procs = s.procs) (h3 : s'.tasks = s.tasks) :
    Still id c s' :=
  ⟨fun k h e => a.keyed k h (by rw [← h1]; exact e), by rw [h1]; exact a.store, fun p h => a.procs p (by rw [← h2]; exact h),
    fun t h => a.tasks t (by rw [← h3]; exact h)⟩

theorem pstill_idle {id c} : PStill id c .idle := ⟨rfl, trivial⟩

theorem write_still {id c s s' o next} (a : Still id c s) (a' : Still id c s')
    (hn : Still id c (next s').1 ∧ PStill id c (next s').2) :
    Still id c (write o s s' next).1 ∧ PStill id c (write o s s' next).2 := by
  cases o
  · exact hn
  · exact ⟨a, pstill_idle⟩
  · exact ⟨a', pstill_idle⟩
  · exact ⟨a, pstill_idle⟩

theorem advance_still {id c s o p} (a : Still id c s) (hp : PStill id c p) :
    Still id c (advance s o p).1 ∧ PStill id c (advance s o p).2 := by
  have idle : Still id c s ∧ PStill id c .idle := ⟨a, pstill_idle⟩
  cases p with
  | regSet h =>
    have hn : h.id ≠ id := by simpa [Proc.changes] using hp.1
    exact write_still a (still_put a h fun e => absurd e hn) ⟨still_put a h fun e => absurd e hn, hp.1, trivial⟩
  | regAdd h => exact write_still a (still_same a rfl rfl rfl) ⟨still_same a rfl rfl rfl, pstill_idle⟩
  | updGet i h =>
    simp only [advance]
    split
    · cases hs : s.store i with
      | none => exact idle
      | some old =>
        refine ⟨a, ?_⟩
        have e := a.keyed i old hs
        have hn : i ≠ id := by simpa [Proc.changes] using hp.1
        dsimp only
        split <;> exact ⟨by simp [Proc.changes, merged_id, e, hn], trivial⟩
    · exact idle
  | updRem old h => exact write_still a (still_same a rfl rfl rfl) ⟨still_same a rfl rfl rfl, hp.1, trivial⟩
  | updAdd h => exact write_still a (still_same a rfl rfl rfl) ⟨still_same a rfl rfl rfl, hp.1, trivial⟩
  | updSet h =>
    have hn : h.id ≠ id := by simpa [Proc.changes] using hp.1
    exact write_still a (still_put a h fun e => absurd e hn)
      ⟨still_same (still_put a h fun e => absurd e hn) rfl rfl rfl, pstill_idle⟩
  | delGet i =>
    simp only [advance]
    split
    · cases hs : s.store i with
      | none => exact idle
      | some old => exact ⟨a, hp.1, trivial⟩
    · exact idle
  | delDel i typ =>
    have hn : i ≠ id := by simpa [Proc.changes] using hp.1
    cases o
    · exact ⟨still_del a i hn, hp.1, trivial⟩
    · exact idle
    · exact ⟨still_del a i hn, pstill_idle⟩
    · exact idle
  | delRem i typ => exact write_still a (still_same a rfl rfl rfl) ⟨still_same a rfl rfl rfl, pstill_idle⟩
  | fireList f =>
    simp only [advance]
    split
    · exact ⟨a, rfl, fun h hh => by simp at hh⟩
    · exact idle
  | fireGet f ids acc =>
    cases ids with
    | nil =>
      simp only [advance]
      split
      · exact idle
      · refine ⟨a, rfl, fun w hw e => ?_⟩
        have := jobs_mem hw
        exact ⟨hp.2 w.1 this.1 e, this.2.1⟩
    | cons i ids =>
      simp only [advance]
      split
      · exact idle
      · by_cases ho : o = .ok
        · rw [if_pos ho]
          cases hs : s.store i with
          | none => exact ⟨a, rfl, hp.2⟩
          | some h =>
            refine ⟨a, rfl, fun x hx e => ?_⟩
            rcases List.mem_append.1 hx with hx | hx
            · exact hp.2 x hx e
            · have ex := List.mem_singleton.1 hx
              subst ex
              have ek := a.keyed i x hs
              have := a.store
              rw [← e, ek, hs] at this
              exact this
        · rw [if_neg ho]; exact ⟨a, rfl, hp.2⟩
  | fireQueue ws =>
    cases ws with
    | nil => exact idle
    | cons w ws =>
      have hw : PStill id c (.fireQueue ws) := ⟨rfl, fun x hx => hp.2 x (List.mem_cons_of_mem _ hx)⟩
      have ha : Still id c (s.enqueue w) := by
        refine ⟨a.keyed, a.store, a.procs, fun t ht => ?_⟩
        rcases List.mem_append.1 ht with ht | ht
        · exact a.tasks t ht
        · rw [List.mem_singleton.1 ht]; exact fun e => .inr (hp.2 w (by simp) e)
      cases o
      · exact ⟨ha, hw⟩
      · exact ⟨a, hw⟩
      · exact ⟨ha, hw⟩
      · exact idle
  | idle => exact idle

theorem still_tasks {id c s} (a : Still id c s) (k : Nat) (t t' : Task) (ht : s.tasks[k]? = some t) (e : t'.hook = t.hook)
    (hl : ¬ t.ended) : Still id c { s with tasks := s.tasks.set k t' } := by
  refine ⟨a.keyed, a.store, a.procs, fun x hx => ?_⟩
  rcases set_mem hx with rfl | hx
  · intro ei
    rw [e] at ei ⊢
    rcases a.tasks t (List.mem_of_getElem? ht) ei with h | h
    · exact absurd h hl
    · exact .inr h
  · exact a.tasks x hx

theorem still_step {id c s e} (a : Still id c s) (he : e.changes id = false) : Still id c (hstep s e) := by
  cases e with
  | ask r =>
    refine ⟨a.keyed, a.store, fun p hp => ?_, a.tasks⟩
    rcases List.mem_append.1 hp with hp | hp
    · exact a.procs p hp
    · rw [List.mem_singleton.1 hp]
      cases r with
      | register h =>
        simp only [Req.start, validate_created]
        cases hv : validate h with
        | none => exact pstill_idle
        | some h' =>
          refine ⟨?_, trivial⟩
          have := validate_id hv
          simpa [Ev.changes, Proc.changes, this] using he
      | update i h => exact ⟨he, trivial⟩
      | delete i => exact ⟨he, trivial⟩
      | fire f => exact ⟨rfl, trivial⟩
  | go i o =>
    simp only [hstep]
    cases hp : s.procs[i]? with
    | none => exact a
    | some p =>
      have := advance_still (o := o) a (a.procs p (List.mem_of_getElem? hp))
      refine ⟨this.1.keyed, this.1.store, fun q hq => ?_, this.1.tasks⟩
      rcases set_mem hq with rfl | hq
      · exact this.2
      · exact this.1.procs q hq
  | take k =>
    simp only [hstep]
    cases ht : s.tasks[k]? with
    | none => exact a
    | some t =>
      dsimp only; split
      · rename_i hs; exact still_tasks a k t _ ht rfl (by simp [Task.ended, hs])
      · exact a
  | call k an =>
    simp only [hstep]
    cases ht : s.tasks[k]? with
    | none => exact a
    | some t =>
      dsimp only; split
      · rename_i hs
        obtain ⟨b, hb⟩ := callTask_tasks s k t an
        exact still_same (still_tasks a k t { t with st := .called b } ht rfl (by simp [Task.ended, hs])) rfl rfl hb
      · exact a
  | report k o =>
    simp only [hstep]
    cases ht : s.tasks[k]? with
    | none => exact a
    | some t =>
      dsimp only
      cases hst : t.st with
      | called ok =>
        have hl : ¬ t.ended := by simp [Task.ended, hst]
        have hg : t.hook.id = id → some t.hook.cfg = c := by
          intro e
          rcases a.tasks t (List.mem_of_getElem? ht) e with h | h
          · exact absurd h hl
          · exact h.1
        simp only [report]
        split
        · exact still_tasks (still_put a { t.hook with lastRun := s.now, lastOk := ok } hg) k t _ ht rfl hl
        · exact still_tasks a k t _ ht rfl hl
      | calling =>
        dsimp only; split
        · exact still_tasks a k t _ ht rfl (by simp [Task.ended, hst])
        · exact a
      | waiting => exact a
      | done => exact a
      | dead => exact a
  | tick => exact still_same a rfl rfl rfl

theorem still_steps {id c} : ∀ es s, Still id c s → (∀ e ∈ es, e.changes id = false) → Still id c (hsteps s es)
  | [], _, a, _ => a
  | e :: es, s, a, h => still_steps es _ (still_step a (h e (by simp))) fun x hx => h x (List.mem_cons_of_mem _ hx)

/-- While the hook is absent or switched off and nothing of it is under way, it is not
called. -/
theorem still_mute {id c s e} (a : Still id c s) (hc : ∀ x, c = some x → x.active = false) :
    (hstep s e).calls.filter (fun x => x.hook == id) = s.calls.filter fun x => x.hook == id := by
  cases hstep_moves s e with
  | same _ h => rw [h]
  | add _ _ _ _ _ h => rw [h]
  | take _ _ _ _ _ h => rw [h]
  | over _ _ _ _ _ _ h => rw [h]
  | call k t b ht hs _ h =>
    rcases h with ⟨h, _⟩ | h
    · rw [h]
    · rw [h, List.filter_append]
      have hn : t.hook.id ≠ id := by
        intro e
        rcases a.tasks t (List.mem_of_getElem? ht) e with h | h
        · rcases h with h | h <;> rw [hs] at h <;> simp at h
        · have h1 := hc _ h.1.symm
          have h2 := h.2
          simp only [Hook.cfg] at h1
          rw [h2] at h1; simp at h1
      simp [hn]

theorem still_mutes {id c} (hc : ∀ x, c = some x → x.active = false) : ∀ es s, Still id c s → (∀ e ∈ es, e.changes id = false) →
    (hsteps s es).calls.filter (fun x => x.hook == id) = s.calls.filter fun x => x.hook == id
  | [], _, _, _ => rfl
  | e :: es, s, a, h => by
    rw [← still_mute (e := e) a hc]
    exact still_mutes hc es _ (still_step a (h e (by simp))) fun x hx => h x (List.mem_cons_of_mem _ hx)

/-- Nothing of the hook is under way except process `i`: no other request changes it, and
firings and tasks that are not over have it as `c` says. -/
structure Settled (s : Sys) (i : Nat) (id : String) (c : Option Cfg) : Prop where
  procs : ∀ j p, j ≠ i → s.procs[j]? = some p → PStill id c p
  tasks : ∀ t ∈ s.tasks, TStill id c t

theorem settled_set {s : Sys} {i : Nat} {id : String} {c : Option Cfg} (h : Settled s i id c) (q : Proc) (hq : PStill id c q) :
    ∀ p ∈ s.procs.set i q, PStill id c p := by
  intro p hp
  obtain ⟨j, hj⟩ := List.mem_iff_getElem?.1 hp
  by_cases e : j = i
  · subst e
    rw [List.getElem?_set] at hj
    simp only [if_true] at hj
    split at hj
    · simp only [Option.some.injEq] at hj; rw [← hj]; exact hq
    · simp at hj
  · rw [List.getElem?_set_ne (Ne.symm e)] at hj
    exact h.procs j p e hj

/-- **C93** (partial) An update that is answered while nothing of the hook is under way sticks:
whatever happens afterwards, overlapping and failing as it may, the hook is what the update
made it until somebody asks for another change; and a hook that the update switched off is not
called. Missing from the full statement: older tasks. -/
theorem c93_update_partial (es es' : List Ev) (i : Nat) (h : Hook) (hp : (hsteps {} es).procs[i]? = some (.updSet h))
    (hs : Settled (hsteps {} es) i h.id (some h.cfg)) (he : ∀ e ∈ es', e.changes h.id = false) :
    (∃ g, (hsteps {} (es ++ .go i .ok :: es')).get h.id = some g ∧ g.cfg = h.cfg) ∧
    (h.active = false → (hsteps {} (es ++ .go i .ok :: es')).calls.filter (fun x => x.hook == h.id) =
      (hsteps {} es).calls.filter fun x => x.hook == h.id) := by
  have a : Still h.id (some h.cfg) (hstep (hsteps {} es) (.go i .ok)) := by
    have hk := (all_put (keyed es) h trivial).store
    simp only [hstep, hp, advance, write]
    refine ⟨fun k x hx => (hk k x hx).1, ?_, ?_, hs.tasks⟩
    · simp [Sys.put, Sys.ack]
    · exact settled_set hs _ pstill_idle
  rw [hsteps_append]
  refine ⟨?_, fun hm => ?_⟩
  · have b := (still_steps es' _ a he).store
    simp only [hsteps, Sys.get]
    cases hx : (hsteps (hstep (hsteps {} es) (.go i .ok)) es').store h.id with
    | none => rw [hx] at b; simp at b
    | some g => rw [hx] at b; exact ⟨g, rfl, by simpa using b⟩
  · simp only [hsteps]
    rw [still_mutes (fun x hx => by rw [← Option.some.inj hx]; exact hm) es' _ a he]
    simp only [hstep, hp, advance, write]
    rfl

/-- **C93** (partial) A deletion that is answered while nothing of the hook is under way sticks:
the hook is not found again and not called again until somebody registers it anew. -/
theorem c93_delete_partial (es es' : List Ev) (i : Nat) (id typ : String)
    (hp : (hsteps {} es).procs[i]? = some (.delRem id typ)) (hg : (hsteps {} es).get id = none)
    (hs : Settled (hsteps {} es) i id none) (he : ∀ e ∈ es', e.changes id = false) :
    (hsteps {} (es ++ [.go i .ok])).acks = (hsteps {} es).acks ++ [.deleted id] ∧
    (hsteps {} (es ++ .go i .ok :: es')).get id = none ∧
    (hsteps {} (es ++ .go i .ok :: es')).calls.filter (fun x => x.hook == id) =
      (hsteps {} es).calls.filter fun x => x.hook == id := by
  have a : Still id none (hstep (hsteps {} es) (.go i .ok)) := by
    have hk := (keyed es).store
    simp only [hstep, hp, advance, write]
    refine ⟨fun k x hx => (hk k x hx).1, ?_, ?_, hs.tasks⟩
    · have : (hsteps {} es).store id = none := hg
      simp [Sys.srem, Sys.ack, this]
    · exact settled_set hs _ pstill_idle
  refine ⟨?_, ?_, ?_⟩
  · rw [hsteps_append]; simp only [hsteps, hstep, hp, advance, write]; rfl
  · rw [hsteps_append]
    have b := (still_steps es' _ a he).store
    simpa [hsteps, Sys.get] using b
  · rw [hsteps_append]
    simp only [hsteps]
    rw [still_mutes (fun x hx => by simp at hx) es' _ a he]
    simp only [hstep, hp, advance, write]
    rfl

/-- The first task is over, then the hook is switched off. -/
def later : List Ev := ring ++ answered 0 ++ [.ask (.update "hook_1" mute), .go 2 .ok]

theorem later_settled : Settled (hsteps {} later) 2 mute.id (some mute.cfg) where
  procs j p hj hp := by
    have hl : (hsteps {} later).procs = [.idle, .idle, .updSet { mute with lastOk := true }] := by decide +kernel
    rw [hl] at hp
    match j, hp with
    | 0, hp => simp only [List.getElem?_cons_zero, Option.some.injEq] at hp; subst hp; exact pstill_idle
    | 1, hp => simp only [List.getElem?_cons_succ, List.getElem?_cons_zero, Option.some.injEq] at hp; subst hp; exact pstill_idle
    | 2, _ => exact absurd rfl hj
    | n + 3, hp => simp at hp
  tasks t ht := by
    have hl : (hsteps {} later).tasks.map Task.st = [.done] := by decide +kernel
    have : t.st ∈ (hsteps {} later).tasks.map Task.st := List.mem_map_of_mem ht
    rw [hl] at this
    exact fun _ => .inl (.inl (by simpa using this))

example : (hsteps {} later).procs[2]? = some (.updSet { mute with lastOk := true }) ∧
    Settled (hsteps {} later) 2 "hook_1" (some mute.cfg) ∧ (hsteps {} later).calls.length = 1 ∧
    (hsteps {} (later ++ .go 2 .ok :: [.ask (.fire ⟨false, [("txn_2", "{}")]⟩), .go 3 .ok, .go 3 .ok, .go 3 .ok])).tasks.length = 1 :=
  ⟨by decide +kernel, later_settled, by decide +kernel, by decide +kernel⟩

/-- The first task is over, then the hook is deleted. -/
def removed : List Ev := ring ++ answered 0 ++ [.ask (.delete "hook_1"), .go 2 .ok, .go 2 .ok]

example : (hsteps {} removed).procs[2]? = some (.delRem "hook_1" postType) ∧ (hsteps {} removed).get "hook_1" = none ∧
    Settled (hsteps {} removed) 2 "hook_1" none := by
  refine ⟨by decide +kernel, by decide +kernel, ?_, ?_⟩
  · intro j p hj hp
    have hl : (hsteps {} removed).procs = [.idle, .idle, .delRem "hook_1" postType] := by decide +kernel
    rw [hl] at hp
    match j, hp with
    | 0, hp => simp only [List.getElem?_cons_zero, Option.some.injEq] at hp; subst hp; exact pstill_idle
    | 1, hp => simp only [List.getElem?_cons_succ, List.getElem?_cons_zero, Option.some.injEq] at hp; subst hp; exact pstill_idle
    | 2, _ => exact absurd rfl hj
    | n + 3, hp => simp at hp
  · intro t ht
    have hl : (hsteps {} removed).tasks.map Task.st = [.done] := by decide +kernel
    have : t.st ∈ (hsteps {} removed).tasks.map Task.st := List.mem_map_of_mem ht
    rw [hl] at this
    exact fun _ => .inl (.inl (by simpa using this))

/-! ### Nothing is made up -/

/-- Somebody asked for the hook to be like this. -/
def Wanted (es : List Ev) (id url typ : String) (active : Bool) : Prop :=
  ∃ h, (.ask (.register h) ∈ es ∧ h.id = id ∨ .ask (.update id h) ∈ es) ∧ h.url = url ∧ h.typ = typ ∧ h.active = active

theorem validate_keeps {h h' : Hook} (e : validate h = some h') :
    h'.id = h.id ∧ h'.url = h.url ∧ h'.typ = h.typ ∧ h'.active = h.active ∧ 0 < h'.timeout ∧ 0 ≤ h'.retry ∧ h'.retry ≤ 10 ∧
    (h.typ = preType ∨ h.typ = postType) := by
  unfold validate at e
  split at e
  · simp at e
  · split at e
    · simp at e
    · rename_i ht
      simp only [Option.some.injEq] at e
      subst e
      refine ⟨rfl, rfl, rfl, rfl, ?_, ?_, ?_, ?_⟩
      · dsimp only; split <;> omega
      · dsimp only; split
        · omega
        · split <;> omega
      · dsimp only; split
        · omega
        · split <;> omega
      · by_cases h1 : h.typ = preType
        · exact .inl h1
        · by_cases h2 : h.typ = postType
          · exact .inr h2
          · exact absurd ⟨h1, h2⟩ ht

/-- **C93** Whatever overlaps and fails, a stored hook is always as some request for its id made
it, all of it by the same request; and every call goes to the address, with the type, of a
request that made the hook active, for a transaction that was fired at that stage, with exactly
the data fired. -/
theorem c93_nothing_made_up (es : List Ev) :
    (∀ id h, (hsteps {} es).get id = some h → h.id = id ∧ Wanted es id h.url h.typ h.active) ∧
    ∀ c ∈ (hsteps {} es).calls, Wanted es c.hook c.url c.typ true ∧
      ∃ f, .ask (.fire f) ∈ es ∧ f.stage = c.stage ∧ (c.txn, c.data) ∈ f.txns := by
  have a : All (fun id c => Wanted es id c.url c.typ c.active) (hsteps {} es) := by
    apply hsteps_all es {} (all_empty _)
    intro e he
    cases e with
    | ask r =>
      cases r with
      | register h =>
        intro h' hv
        obtain ⟨h1, h2, h3, h4, _⟩ := validate_keeps hv
        exact ⟨h, .inl ⟨he, h1.symm⟩, h2.symm, h3.symm, h4.symm⟩
      | update id h => exact ⟨h, .inr he, rfl, rfl, rfl⟩
      | _ => trivial
    | _ => trivial
  refine ⟨fun id h hh => a.store id h hh, fun c hc => ?_⟩
  obtain ⟨t, ht, e⟩ := logged es c hc
  obtain ⟨d1, f, d2, d3, d4⟩ := (all_due es).tasks t (List.mem_of_getElem? ht)
  have w := a.tasks t (List.mem_of_getElem? ht)
  have d1' : t.hook.active = true := d1
  simp only [Hook.cfg, d1'] at w
  rw [e]
  exact ⟨w, f, d2, d3, d4⟩

example : (hsteps {} (ring ++ answered 0)).calls = [{ task := 0, hook := "hook_1", url := "https://a", typ := postType, stage := postType, txn := "txn_1", data := "{}" }] := by
  decide +kernel

end Blnk.Hooks
