import Verif.Model.Hooks
/-
Invariants of the hook system.
-/
namespace Blnk.Hooks

/-- The part of a hook its owner decides. -/
structure Cfg where
  url : String
  typ : String
  active : Bool
  timeout : Int
  retry : Int
deriving DecidableEq, Repr

def Hook.cfg (h : Hook) : Cfg := ⟨h.url, h.typ, h.active, h.timeout, h.retry⟩

theorem merged_cfg (old h : Hook) : (merged old h).cfg = h.cfg := rfl
theorem merged_id (old h : Hook) : (merged old h).id = old.id := rfl

theorem hsteps_append (s : Sys) (a b : List Ev) : hsteps s (a ++ b) = hsteps (hsteps s a) b := by
  induction a generalizing s with
  | nil => rfl
  | cons e es ih => exact ih _

theorem set_mem {α} {l : List α} {i : Nat} {x y : α} (h : y ∈ l.set i x) : y = x ∨ y ∈ l := by
  rcases List.mem_or_eq_of_mem_set h with h | h
  · exact .inr h
  · exact .inl h

/-! ### What every hook in the system satisfies -/

/-- A process holds only hooks with `G`, where `G` looks at the id and what the owner
decides. -/
def PAll (G : String → Cfg → Prop) : Proc → Prop
  | .regSet h | .regAdd h | .updRem _ h | .updAdd h | .updSet h => G h.id h.cfg
  | .updGet id h => G id h.cfg
  | .fireGet _ _ acc => ∀ h ∈ acc, G h.id h.cfg
  | .fireQueue ws => ∀ w ∈ ws, G w.1.id w.1.cfg
  | _ => True

structure All (G : String → Cfg → Prop) (s : Sys) : Prop where
  store : ∀ k h, s.store k = some h → h.id = k ∧ G k h.cfg
  procs : ∀ p ∈ s.procs, PAll G p
  tasks : ∀ t ∈ s.tasks, G t.hook.id t.hook.cfg

/-- A request asks only for what `G` allows. -/
def Req.Asks (G : String → Cfg → Prop) : Req → Prop
  | .register h => ∀ h', validate h = some h' → G h'.id h'.cfg
  | .update id h => G id h.cfg
  | _ => True

def Ev.Asks (G : String → Cfg → Prop) : Ev → Prop
  | .ask r => r.Asks G
  | _ => True

theorem validate_created (h : Hook) (n : Nat) :
    validate { h with created := n } = (validate h).map fun h => { h with created := n } := by
  unfold validate
  dsimp only
  split
  · rfl
  · split <;> rfl

theorem validate_id {h h' : Hook} (e : validate h = some h') : h'.id = h.id := by
  unfold validate at e
  split at e
  · simp at e
  · split at e
    · simp at e
    · simp only [Option.some.injEq] at e; rw [← e]

theorem all_empty (G : String → Cfg → Prop) : All G {} :=
  ⟨fun _ _ h => by simp at h, fun _ h => by simp at h, fun _ h => by simp at h⟩

theorem all_put {G s} (a : All G s) (h : Hook) (g : G h.id h.cfg) : All G (s.put h) where
  store k x hx := by
    simp only [Sys.put] at hx
    split at hx
    · rename_i e; simp only [Option.some.injEq] at hx; rw [← hx]; exact ⟨e.symm, by rw [e]; exact g⟩
    · exact a.store k x hx
  procs := a.procs
  tasks := a.tasks

theorem all_del {G s} (a : All G s) (id : String) : All G (s.del id) where
  store k x hx := by
    simp only [Sys.del] at hx
    split at hx
    · simp at hx
    · exact a.store k x hx
  procs := a.procs
  tasks := a.tasks

theorem all_same {G s s'} (a : All G s) (h1 : s'.store = s.store) (h2 : s'.procs = s.procs) (h3 : s'.tasks = s.tasks) : All G s' :=
  ⟨fun k h e => a.store k h (by rw [← h1]; exact e), fun p h => a.procs p (by rw [← h2]; exact h),
    fun t h => a.tasks t (by rw [← h3]; exact h)⟩

theorem jobs_mem {f : Fire} {hs : List Hook} {w : Hook × String × String × String} (h : w ∈ jobs f hs) :
    w.1 ∈ hs ∧ w.1.active = true ∧ w.2.1 = f.stage ∧ (w.2.2.1, w.2.2.2) ∈ f.txns := by
  unfold jobs at h
  obtain ⟨x, hx, h⟩ := List.mem_flatMap.1 h
  obtain ⟨y, hy, e⟩ := List.mem_map.1 h
  obtain ⟨h1, h2⟩ := List.mem_filter.1 hy
  subst e
  exact ⟨h1, h2, rfl, hx⟩

theorem write_all {G s s' o next} (a : All G s) (a' : All G s') (hn : All G (next s').1 ∧ PAll G (next s').2) :
    All G (write o s s' next).1 ∧ PAll G (write o s s' next).2 := by
  cases o
  · exact hn
  · exact ⟨a, trivial⟩
  · exact ⟨a', trivial⟩
  · exact ⟨a, trivial⟩

theorem advance_all {G s o p} (a : All G s) (hp : PAll G p) : All G (advance s o p).1 ∧ PAll G (advance s o p).2 := by
  cases p with
  | regSet h => exact write_all a (all_put a h hp) ⟨all_put a h hp, hp⟩
  | regAdd h => exact write_all a (all_same a rfl rfl rfl) ⟨all_same a rfl rfl rfl, trivial⟩
  | updGet id h =>
    simp only [advance]
    split
    · cases hs : s.store id with
      | none => exact ⟨a, trivial⟩
      | some old =>
        refine ⟨a, ?_⟩
        have := (a.store id old hs).1
        dsimp only
        split <;> (show G (merged old h).id h.cfg; rw [merged_id, this]; exact hp)
    · exact ⟨a, trivial⟩
  | updRem old h => exact write_all a (all_same a rfl rfl rfl) ⟨all_same a rfl rfl rfl, hp⟩
  | updAdd h => exact write_all a (all_same a rfl rfl rfl) ⟨all_same a rfl rfl rfl, hp⟩
  | updSet h => exact write_all a (all_put a h hp) ⟨all_same (all_put a h hp) rfl rfl rfl, trivial⟩
  | delGet id =>
    simp only [advance]
    split
    · cases hs : s.store id with
      | none => exact ⟨a, trivial⟩
      | some old => exact ⟨a, trivial⟩
    · exact ⟨a, trivial⟩
  | delDel id typ =>
    cases o
    · exact ⟨all_del a id, trivial⟩
    · exact ⟨a, trivial⟩
    · exact ⟨all_del a id, trivial⟩
    · exact ⟨a, trivial⟩
  | delRem id typ => exact write_all a (all_same a rfl rfl rfl) ⟨all_same a rfl rfl rfl, trivial⟩
  | fireList f =>
    simp only [advance]
    split
    · exact ⟨a, fun h hh => by simp at hh⟩
    · exact ⟨a, trivial⟩
  | fireGet f ids acc =>
    cases ids with
    | nil =>
      simp only [advance]
      split
      · exact ⟨a, trivial⟩
      · exact ⟨a, fun w hw => hp w.1 (jobs_mem hw).1⟩
    | cons id ids =>
      simp only [advance]
      split
      · exact ⟨a, trivial⟩
      · by_cases ho : o = .ok
        · rw [if_pos ho]
          cases hs : s.store id with
          | none => exact ⟨a, hp⟩
          | some h =>
            refine ⟨a, fun x hx => ?_⟩
            rcases List.mem_append.1 hx with hx | hx
            · exact hp x hx
            · have e := List.mem_singleton.1 hx
              have := a.store id h hs
              rw [e, this.1]; exact this.2
        · rw [if_neg ho]; exact ⟨a, hp⟩
  | fireQueue ws =>
    cases ws with
    | nil => exact ⟨a, trivial⟩
    | cons w ws =>
      have hw : PAll G (.fireQueue ws) := fun x hx => hp x (List.mem_cons_of_mem _ hx)
      have ha : All G (s.enqueue w) := by
        refine ⟨a.store, a.procs, fun t ht => ?_⟩
        rcases List.mem_append.1 ht with ht | ht
        · exact a.tasks t ht
        · rw [List.mem_singleton.1 ht]; exact hp w (by simp)
      cases o
      · exact ⟨ha, hw⟩
      · exact ⟨a, hw⟩
      · exact ⟨ha, hw⟩
      · exact ⟨a, trivial⟩
  | idle => exact ⟨a, trivial⟩

theorem advance_procs (s : Sys) (o : Out) (p : Proc) : (advance s o p).1.procs = s.procs := by
  cases p with
  | fireGet f ids acc =>
    cases ids <;> simp only [advance]
    · split <;> rfl
    · split
      · rfl
      · split <;> rfl
  | fireQueue ws => cases ws <;> cases o <;> rfl
  | updGet id h => simp only [advance]; split <;> (try split) <;> rfl
  | delGet id => simp only [advance]; split <;> (try split) <;> rfl
  | fireList f => simp only [advance]; split <;> rfl
  | idle => rfl
  | regSet h => cases o <;> rfl
  | regAdd h => cases o <;> rfl
  | updRem a h => cases o <;> rfl
  | updAdd h => cases o <;> rfl
  | updSet h => cases o <;> rfl
  | delDel a h => cases o <;> rfl
  | delRem a h => cases o <;> rfl

theorem all_tasks {G s} (a : All G s) (k : Nat) (t t' : Task) (ht : s.tasks[k]? = some t) (e : t'.hook = t.hook) :
    All G { s with tasks := s.tasks.set k t' } := by
  refine ⟨a.store, a.procs, fun x hx => ?_⟩
  rcases set_mem hx with rfl | hx
  · rw [e]; exact a.tasks t (List.mem_of_getElem? ht)
  · exact a.tasks x hx

theorem callTask_tasks (s : Sys) (k : Nat) (t : Task) (a : Answer) :
    ∃ b, (callTask s k t a).tasks = s.tasks.set k { t with st := .called b } := ⟨_, rfl⟩

theorem start_all {G : String → Cfg → Prop} {r : Req} (n : Nat) (h : r.Asks G) : PAll G (r.start n) := by
  cases r with
  | register h0 =>
    simp only [Req.start, validate_created]
    cases hv : validate h0 with
    | none => trivial
    | some h' => exact h h' hv
  | update id h0 => exact h
  | delete id => trivial
  | fire f => trivial

theorem hstep_all {G s e} (a : All G s) (he : e.Asks G) : All G (hstep s e) := by
  cases e with
  | ask r =>
    refine ⟨a.store, fun p hp => ?_, a.tasks⟩
    rcases List.mem_append.1 hp with hp | hp
    · exact a.procs p hp
    · rw [List.mem_singleton.1 hp]; exact start_all s.now he
  | go i o =>
    simp only [hstep]
    cases hp : s.procs[i]? with
    | none => exact a
    | some p =>
      have := advance_all (o := o) a (a.procs p (List.mem_of_getElem? hp))
      refine ⟨this.1.store, fun q hq => ?_, this.1.tasks⟩
      rcases set_mem hq with rfl | hq
      · exact this.2
      · exact this.1.procs q hq
  | take k =>
    simp only [hstep]
    cases ht : s.tasks[k]? with
    | none => exact a
    | some t =>
      dsimp only; split
      · exact all_tasks a k t _ ht rfl
      · exact a
  | call k an =>
    simp only [hstep]
    cases ht : s.tasks[k]? with
    | none => exact a
    | some t =>
      dsimp only; split
      · obtain ⟨b, hb⟩ := callTask_tasks s k t an
        exact all_same (all_tasks a k t { t with st := .called b } ht rfl) rfl rfl hb
      · exact a
  | report k o =>
    simp only [hstep]
    cases ht : s.tasks[k]? with
    | none => exact a
    | some t =>
      dsimp only
      cases hst : t.st with
      | called ok =>
        simp only [report]
        split
        · exact all_tasks (all_put a { t.hook with lastRun := s.now, lastOk := ok }
            (a.tasks t (List.mem_of_getElem? ht))) k t _ ht rfl
        · exact all_tasks a k t _ ht rfl
      | calling =>
        dsimp only; split
        · exact all_tasks a k t _ ht rfl
        · exact a
      | waiting => exact a
      | done => exact a
      | dead => exact a
  | tick => exact all_same a rfl rfl rfl

theorem hsteps_all {G} : ∀ es s, All G s → (∀ e ∈ es, e.Asks G) → All G (hsteps s es)
  | [], _, a, _ => a
  | e :: es, s, a, h => hsteps_all es _ (hstep_all a (h e (by simp))) fun x hx => h x (List.mem_cons_of_mem _ hx)

/-- Hooks are stored under their ids. -/
theorem keyed (es : List Ev) : All (fun _ _ => True) (hsteps {} es) :=
  hsteps_all es {} (all_empty _) fun e _ => by
    cases e with
    | ask r => cases r <;> simp [Ev.Asks, Req.Asks]
    | _ => trivial

/-! ### Tasks keep their place and their contents -/

def Task.Same (t t' : Task) : Prop := t'.hook = t.hook ∧ t'.stage = t.stage ∧ t'.txn = t.txn ∧ t'.data = t.data

theorem Task.Same.refl (t : Task) : t.Same t := ⟨rfl, rfl, rfl, rfl⟩

theorem Task.Same.trans {a b c : Task} (h : a.Same b) (h' : b.Same c) : a.Same c :=
  ⟨h'.1.trans h.1, h'.2.1.trans h.2.1, h'.2.2.1.trans h.2.2.1, h'.2.2.2.trans h.2.2.2⟩

/-- Every command leaves the tasks as they are or adds one at the end. -/
theorem advance_tasks (s : Sys) (o : Out) (p : Proc) :
    (advance s o p).1.tasks = s.tasks ∨
    ∃ w ws, p = .fireQueue (w :: ws) ∧ (advance s o p).1 = s.enqueue w := by
  cases p with
  | fireGet f ids acc =>
    left
    cases ids <;> simp only [advance]
    · split <;> rfl
    · split
      · rfl
      · split <;> rfl
  | fireQueue ws =>
    cases ws with
    | nil => left; cases o <;> rfl
    | cons w ws =>
      cases o
      · exact .inr ⟨w, ws, rfl, rfl⟩
      · exact .inl rfl
      · exact .inr ⟨w, ws, rfl, rfl⟩
      · exact .inl rfl
  | updGet id h => left; simp only [advance]; split <;> (try split) <;> rfl
  | delGet id => left; simp only [advance]; split <;> (try split) <;> rfl
  | fireList f => left; simp only [advance]; split <;> rfl
  | idle => left; rfl
  | regSet h => left; cases o <;> rfl
  | regAdd h => left; cases o <;> rfl
  | updRem a h => left; cases o <;> rfl
  | updAdd h => left; cases o <;> rfl
  | updSet h => left; cases o <;> rfl
  | delDel a h => left; cases o <;> rfl
  | delRem a h => left; cases o <;> rfl

theorem advance_calls (s : Sys) (o : Out) (p : Proc) : (advance s o p).1.calls = s.calls := by
  cases p with
  | fireGet f ids acc =>
    cases ids <;> simp only [advance]
    · split <;> rfl
    · split
      · rfl
      · split <;> rfl
  | fireQueue ws => cases ws <;> cases o <;> rfl
  | updGet id h => simp only [advance]; split <;> (try split) <;> rfl
  | delGet id => simp only [advance]; split <;> (try split) <;> rfl
  | fireList f => simp only [advance]; split <;> rfl
  | idle => rfl
  | regSet h => cases o <;> rfl
  | regAdd h => cases o <;> rfl
  | updRem a h => cases o <;> rfl
  | updAdd h => cases o <;> rfl
  | updSet h => cases o <;> rfl
  | delDel a h => cases o <;> rfl
  | delRem a h => cases o <;> rfl

/-- What a step does to the tasks and the calls: nothing, one more task, or one task changes
its state and perhaps is called. -/
inductive Moves (s : Sys) (e : Ev) (s' : Sys) : Prop
  | same (h : s'.tasks = s.tasks) (h' : s'.calls = s.calls)
  | add (w : Hook × String × String × String) (ws) (i : Nat) (hp : s.procs[i]? = some (.fireQueue (w :: ws)))
      (h : s'.tasks = s.tasks ++ [{ hook := w.1, stage := w.2.1, txn := w.2.2.1, data := w.2.2.2 }]) (h' : s'.calls = s.calls)
  | take (k : Nat) (t : Task) (ht : s.tasks[k]? = some t) (hs : t.st = .waiting)
      (h : s'.tasks = s.tasks.set k { t with st := .calling }) (h' : s'.calls = s.calls)
  | call (k : Nat) (t : Task) (b : Bool) (ht : s.tasks[k]? = some t) (hs : t.st = .calling)
      (h : s'.tasks = s.tasks.set k { t with st := .called b })
      (h' : s'.calls = s.calls ∧ b = false ∧ (t.hook.timeout ≤ 0 ∨ e = .call k .unsent) ∨ s'.calls = s.calls ++ [{ task := k, hook := t.hook.id, url := t.hook.url, typ := t.hook.typ, stage := t.stage, txn := t.txn, data := t.data }])
  | over (k : Nat) (t : Task) (ok : Bool) (ht : s.tasks[k]? = some t)
      (hs : t.st = .called true ∧ ok = true ∨ ok = false ∧ (t.st = .calling ∨ ∃ b, t.st = .called b))
      (h : s'.tasks = s.tasks.set k (t.over ok)) (h' : s'.calls = s.calls) (he : t.st = .calling → e = .report k .crash)

theorem hstep_moves (s : Sys) (e : Ev) : Moves s e (hstep s e) := by
  cases e with
  | ask r => exact .same rfl rfl
  | go i o =>
    simp only [hstep]
    cases hp : s.procs[i]? with
    | none => exact .same rfl rfl
    | some p =>
      dsimp only
      rcases advance_tasks s o p with h | ⟨w, ws, rfl, h⟩
      · exact .same h (advance_calls s o p)
      · exact .add w ws i hp (by rw [h]; rfl) (advance_calls s o _)
  | take k =>
    simp only [hstep]
    cases ht : s.tasks[k]? with
    | none => exact .same rfl rfl
    | some t =>
      dsimp only; split
      · rename_i hs; exact .take k t ht hs rfl rfl
      · exact .same rfl rfl
  | call k a =>
    simp only [hstep]
    cases ht : s.tasks[k]? with
    | none => exact .same rfl rfl
    | some t =>
      dsimp only; split
      · rename_i hs
        refine .call k t _ ht hs rfl ?_
        simp only [callTask]
        by_cases hz : t.hook.timeout ≤ 0
        · rw [if_pos hz]; left; exact ⟨rfl, rfl, .inl hz⟩
        · rw [if_neg hz]
          cases a with
          | unsent => left; exact ⟨rfl, rfl, .inr rfl⟩
          | unheard => right; rfl
          | heard r => right; rfl
      · exact .same rfl rfl
  | report k o =>
    simp only [hstep]
    cases ht : s.tasks[k]? with
    | none => exact .same rfl rfl
    | some t =>
      dsimp only
      cases hst : t.st with
      | called ok =>
        refine .over k t (ok && o ≠ .crash) ht ?_ ?_ ?_ (fun hh => by rw [hst] at hh; simp at hh)
        · cases ok
          · right; exact ⟨rfl, .inr ⟨_, hst⟩⟩
          · by_cases ho : o = .crash
            · right; exact ⟨by simp [ho], .inr ⟨_, hst⟩⟩
            · left; exact ⟨hst, by simp [ho]⟩
        · simp only [report]; split <;> rfl
        · simp only [report]; split <;> rfl
      | calling =>
        dsimp only; split
        · rename_i ho; exact .over k t false ht (.inr ⟨rfl, .inl hst⟩) rfl rfl (fun _ => by rw [ho])
        · exact .same rfl rfl
      | waiting => exact .same rfl rfl
      | done => exact .same rfl rfl
      | dead => exact .same rfl rfl
  | tick => exact .same rfl rfl

theorem getElem?_set' {α} {l : List α} {k : Nat} {x t : α} (ht : l[k]? = some t) (j : Nat) :
    (l.set k x)[j]? = if k = j then some x else l[j]? := by
  have := (List.getElem?_eq_some_iff.1 ht).1
  by_cases h : k = j
  · subst h; rw [if_pos rfl, List.getElem?_set_self this]
  · rw [if_neg h, List.getElem?_set_ne h]

/-- Tasks keep their numbers and what they carry. -/
theorem hstep_same (s : Sys) (e : Ev) (k : Nat) (t : Task) (h : s.tasks[k]? = some t) :
    ∃ t', (hstep s e).tasks[k]? = some t' ∧ t.Same t' := by
  have key : ∀ j u u', s.tasks[j]? = some u → (hstep s e).tasks = s.tasks.set j u' → u.Same u' →
      ∃ t', (hstep s e).tasks[k]? = some t' ∧ t.Same t' := by
    intro j u u' hj ht hu
    rw [ht, getElem?_set' hj]
    by_cases e : j = k
    · rw [if_pos e]; subst e; rw [h] at hj; cases hj; exact ⟨_, rfl, hu⟩
    · rw [if_neg e]; exact ⟨t, h, Task.Same.refl t⟩
  cases hstep_moves s e with
  | same h1 => rw [h1]; exact ⟨t, h, Task.Same.refl t⟩
  | add w ws i hp h1 =>
    rw [h1, List.getElem?_append_left (List.getElem?_eq_some_iff.1 h).1]
    exact ⟨t, h, Task.Same.refl t⟩
  | take j u hu _ h1 => exact key j u _ hu h1 ⟨rfl, rfl, rfl, rfl⟩
  | call j u b hu _ h1 => exact key j u _ hu h1 ⟨rfl, rfl, rfl, rfl⟩
  | over j u ok hu _ h1 => exact key j u _ hu h1 ⟨rfl, rfl, rfl, rfl⟩

theorem hsteps_same : ∀ (es : List Ev) (s : Sys) (k : Nat) (t : Task), s.tasks[k]? = some t →
    ∃ t', (hsteps s es).tasks[k]? = some t' ∧ t.Same t'
  | [], _, _, t, h => ⟨t, h, Task.Same.refl t⟩
  | e :: es, s, k, t, h => by
    obtain ⟨t1, h1, e1⟩ := hstep_same s e k t h
    obtain ⟨t2, h2, e2⟩ := hsteps_same es _ k t1 h1
    exact ⟨t2, h2, e1.trans e2⟩

/-- The calls are those of the tasks. -/
def callOf (k : Nat) (t : Task) : Call :=
  { task := k, hook := t.hook.id, url := t.hook.url, typ := t.hook.typ, stage := t.stage, txn := t.txn, data := t.data }

theorem callOf_same {k : Nat} {t t' : Task} (h : t.Same t') : callOf k t' = callOf k t := by
  obtain ⟨h1, h2, h3, h4⟩ := h
  simp [callOf, h1, h2, h3, h4]

def Logged (s : Sys) : Prop := ∀ c ∈ s.calls, ∃ t, s.tasks[c.task]? = some t ∧ c = callOf c.task t

theorem logged_step {s : Sys} (h : Logged s) (e : Ev) : Logged (hstep s e) := by
  have old : ∀ c ∈ s.calls, ∃ t, (hstep s e).tasks[c.task]? = some t ∧ c = callOf c.task t := by
    intro c hc
    obtain ⟨t, h1, h2⟩ := h c hc
    obtain ⟨t', h3, h4⟩ := hstep_same s e c.task t h1
    exact ⟨t', h3, by rw [callOf_same h4]; exact h2⟩
  intro c hc
  cases hstep_moves s e with
  | same h1 h2 => rw [h2] at hc; exact old c hc
  | add w ws i hp h1 h2 => rw [h2] at hc; exact old c hc
  | take j u hu _ h1 h2 => rw [h2] at hc; exact old c hc
  | call j u b hu _ h1 h2 =>
    rcases h2 with ⟨h2, _⟩ | h2
    · rw [h2] at hc; exact old c hc
    · rw [h2] at hc
      rcases List.mem_append.1 hc with hc | hc
      · exact old c hc
      · have ec := List.mem_singleton.1 hc
        subst ec
        dsimp only
        rw [h1, getElem?_set' hu, if_pos rfl]
        exact ⟨_, rfl, rfl⟩
  | over j u ok hu _ h1 h2 => rw [h2] at hc; exact old c hc

theorem logged_steps : ∀ (es : List Ev) (s : Sys), Logged s → Logged (hsteps s es)
  | [], _, h => h
  | e :: es, _, h => logged_steps es _ (logged_step h e)

theorem logged (es : List Ev) : Logged (hsteps {} es) := logged_steps es {} fun c hc => by simp at hc

/-! ### Where tasks come from -/

/-- Firings satisfy `F`; what is queued is for an active hook and comes from such a firing. -/
def Due (F : Fire → Prop) (w : Hook × String × String × String) : Prop :=
  w.1.active = true ∧ ∃ f, F f ∧ f.stage = w.2.1 ∧ (w.2.2.1, w.2.2.2) ∈ f.txns

def PDue (F : Fire → Prop) : Proc → Prop
  | .fireList f | .fireGet f _ _ => F f
  | .fireQueue ws => ∀ w ∈ ws, Due F w
  | _ => True

structure AllDue (F : Fire → Prop) (s : Sys) : Prop where
  procs : ∀ p ∈ s.procs, PDue F p
  tasks : ∀ t ∈ s.tasks, Due F (t.hook, t.stage, t.txn, t.data)

theorem advance_due {F s o p} (hp : PDue F p) : PDue F (advance s o p).2 := by
  cases p with
  | fireGet f ids acc =>
    cases ids <;> simp only [advance]
    · split
      · trivial
      · intro w hw
        obtain ⟨_, h2, h3, h4⟩ := jobs_mem hw
        exact ⟨h2, f, hp, h3.symm, h4⟩
    · split
      · trivial
      · split <;> exact hp
  | fireQueue ws =>
    cases ws with
    | nil => trivial
    | cons w ws =>
      have : PDue F (.fireQueue ws) := fun x hx => hp x (List.mem_cons_of_mem _ hx)
      cases o <;> first | exact this | trivial
  | updGet id h => simp only [advance]; split <;> (try split) <;> (try dsimp only) <;> (try split) <;> trivial
  | delGet id => simp only [advance]; split <;> (try split) <;> trivial
  | fireList f => simp only [advance]; split <;> first | exact hp | trivial
  | idle => trivial
  | regSet h => cases o <;> trivial
  | regAdd h => cases o <;> trivial
  | updRem a h => cases o <;> trivial
  | updAdd h => cases o <;> trivial
  | updSet h => cases o <;> trivial
  | delDel a h => cases o <;> trivial
  | delRem a h => cases o <;> trivial

/-- What becomes of the processes. -/
theorem hstep_procs (s : Sys) (e : Ev) (p : Proc) (hp : p ∈ (hstep s e).procs) :
    p ∈ s.procs ∨ (∃ r, e = .ask r ∧ p = r.start s.now) ∨
    ∃ i o q, e = .go i o ∧ s.procs[i]? = some q ∧ p = (advance s o q).2 := by
  cases e with
  | ask r =>
    rcases List.mem_append.1 hp with hp | hp
    · exact .inl hp
    · exact .inr (.inl ⟨r, rfl, List.mem_singleton.1 hp⟩)
  | go i o =>
    simp only [hstep] at hp
    cases hq : s.procs[i]? with
    | none => rw [hq] at hp; exact .inl hp
    | some q =>
      rw [hq] at hp
      rcases set_mem hp with hp | hp
      · exact .inr (.inr ⟨i, o, q, rfl, hq, hp⟩)
      · rw [advance_procs] at hp; exact .inl hp
  | take k =>
    simp only [hstep] at hp; revert hp; split
    · split <;> exact .inl
    · exact .inl
  | call k a =>
    simp only [hstep] at hp; revert hp; split
    · split <;> exact .inl
    · exact .inl
  | report k o =>
    simp only [hstep] at hp; revert hp; split
    · split
      · simp only [report]; split <;> exact .inl
      · split <;> exact .inl
      · exact .inl
    · exact .inl
  | tick => exact .inl hp

def Ev.Fires (F : Fire → Prop) (e : Ev) : Prop := ∀ f, e = .ask (.fire f) → F f

theorem due_step {F s e} (h : AllDue F s) (he : e.Fires F) : AllDue F (hstep s e) where
  procs p hp := by
    rcases hstep_procs s e p hp with hp | ⟨r, er, ep⟩ | ⟨i, o, q, _, hq, ep⟩
    · exact h.procs p hp
    · subst ep
      cases r with
      | fire f => exact he f er
      | register h0 => simp only [Req.start]; split <;> trivial
      | _ => trivial
    · rw [ep]; exact advance_due (h.procs q (List.mem_of_getElem? hq))
  tasks t ht := by
    have key : ∀ (j : Nat) (u u' : Task), s.tasks[j]? = some u → (hstep s e).tasks = s.tasks.set j u' → u.Same u' →
        Due F (t.hook, t.stage, t.txn, t.data) := by
      intro j u u' hj h1 hu
      rw [h1] at ht
      rcases set_mem ht with rfl | ht
      · obtain ⟨e1, e2, e3, e4⟩ := hu
        rw [e1, e2, e3, e4]; exact h.tasks u (List.mem_of_getElem? hj)
      · exact h.tasks t ht
    cases hstep_moves s e with
    | same h1 h2 => rw [h1] at ht; exact h.tasks t ht
    | add w ws i hp h1 h2 =>
      rw [h1] at ht
      rcases List.mem_append.1 ht with ht | ht
      · exact h.tasks t ht
      · rw [List.mem_singleton.1 ht]
        exact h.procs _ (List.mem_of_getElem? hp) w (by simp)
    | take j u hu _ h1 h2 => exact key j u _ hu h1 ⟨rfl, rfl, rfl, rfl⟩
    | call j u b hu _ h1 h2 => exact key j u _ hu h1 ⟨rfl, rfl, rfl, rfl⟩
    | over j u ok hu _ h1 h2 => exact key j u _ hu h1 ⟨rfl, rfl, rfl, rfl⟩

theorem due_steps {F} : ∀ (es : List Ev) (s : Sys), AllDue F s → (∀ e ∈ es, e.Fires F) → AllDue F (hsteps s es)
  | [], _, h, _ => h
  | e :: es, _, h, he => due_steps es _ (due_step h (he e (by simp))) fun x hx => he x (List.mem_cons_of_mem _ hx)

theorem all_due (es : List Ev) : AllDue (fun f => .ask (.fire f) ∈ es) (hsteps {} es) :=
  due_steps es {} ⟨fun p hp => by simp at hp, fun t ht => by simp at ht⟩ fun e he f ef => by rw [← ef]; exact he

end Blnk.Hooks
