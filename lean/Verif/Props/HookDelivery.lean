import Verif.Props.HookCalls
/-
C96: active hooks are told. C97: what the receiver's answer means.
-/
namespace Blnk.Hooks

/-! ### C96: queued -/

/-- A task for the hook and a transaction of the firing, numbered from `n` on. -/
def Has (n : Nat) (f : Fire) (id : String) (c : Cfg) (s : Sys) (x : String × String) : Prop :=
  ∃ k t, n ≤ k ∧ s.tasks[k]? = some t ∧ t.hook.id = id ∧ t.hook.cfg = c ∧ t.stage = f.stage ∧ t.txn = x.1 ∧ t.data = x.2

/-- **C96** in full, first half: a hook that is stored, active and of the stage when a
transaction fires, and that nobody changes, has a task for the transaction when the firing is
over. -/
def C96QueuedFull : Prop := ∀ (es es' : List Ev) (i : Nat) (f : Fire) (h : Hook), (hsteps {} es).procs[i]? = some (.fireList f) → (hsteps {} es).get h.id = some h →
  h.active = true → h.typ = f.stage → Still h.id (some h.cfg) (hsteps {} es) → (∀ e ∈ es', e.changes h.id = false) →
  (hsteps {} (es ++ es')).procs[i]? = some .idle →
  ∀ x ∈ f.txns, Has (hsteps {} es).tasks.length f h.id h.cfg (hsteps {} (es ++ es')) x

/-- A registered hook, and a transaction that is about to fire it. -/
def ready : List Ev := [.ask (.register bell), .go 0 .ok, .go 0 .ok, .ask (.fire ⟨false, [("txn_1", "{}")]⟩)]

theorem ready_still : Still "hook_1" (some bell.cfg) (hsteps {} ready) where
  keyed k h hk := ((keyed ready).store k h hk).1
  store := by decide +kernel
  procs p hp := by
    have hl : (hsteps {} ready).procs = [.idle, .fireList ⟨false, [("txn_1", "{}")]⟩] := by decide +kernel
    rw [hl] at hp
    simp at hp
    rcases hp with rfl | rfl
    · exact pstill_idle
    · exact ⟨rfl, trivial⟩
  tasks t ht := by
    have hl : (hsteps {} ready).tasks = [] := by decide +kernel
    rw [hl] at ht; simp at ht

/-- **C96** (violated) A failed enqueue is reported to the operators and the transaction goes on
(`manager.go:327-331`): the hook is never told. -/
theorem c96_not_queued_fails : ¬ C96QueuedFull := by
  intro h
  obtain ⟨k, t, _, h1, _⟩ := h ready [.go 1 .ok, .go 1 .ok, .go 1 .ok, .go 1 .err, .go 1 .ok] 1 ⟨false, [("txn_1", "{}")]⟩ bell
    (by decide +kernel) (by decide +kernel) rfl rfl ready_still (by decide) (by decide +kernel) ("txn_1", "{}") (by simp)
  have hl : (hsteps {} (ready ++ [.go 1 .ok, .go 1 .ok, .go 1 .ok, .go 1 .err, .go 1 .ok])).tasks = [] := by decide +kernel
  rw [hl] at h1; simp at h1

/-- A change of type that breaks off between the two lists, and is then taken back. -/
def unlisted : List Ev := [.ask (.register bell), .go 0 .ok, .go 0 .ok,
  .ask (.update "hook_1" { bell with typ := preType }), .go 1 .ok, .go 1 .ok, .go 1 .err,
  .ask (.update "hook_1" bell), .go 2 .ok, .go 2 .ok,
  .ask (.fire ⟨false, [("txn_1", "{}")]⟩)]

theorem unlisted_still : Still "hook_1" (some bell.cfg) (hsteps {} unlisted) where
  keyed k h hk := ((keyed unlisted).store k h hk).1
  store := by decide +kernel
  procs p hp := by
    have hl : (hsteps {} unlisted).procs = [.idle, .idle, .idle, .fireList ⟨false, [("txn_1", "{}")]⟩] := by decide +kernel
    rw [hl] at hp
    simp at hp
    rcases hp with rfl | rfl
    · exact pstill_idle
    · exact ⟨rfl, trivial⟩
  tasks t ht := by
    have hl : (hsteps {} unlisted).tasks = [] := by decide +kernel
    rw [hl] at ht; simp at ht

/-- **C96** (violated) Nothing fails while the transaction fires, and the hook is still not
told: an earlier change of its type broke off after taking it off its list
(`manager.go:135-144`), and asking again does not put it back, because its stored type is right.
The API shows it as active all the while. -/
theorem c96_unlisted_fails :
    (hsteps {} unlisted).acks = [.registered bell, .updated bell] ∧ (hsteps {} unlisted).get "hook_1" = some bell ∧
    ¬ C96QueuedFull ∧
    ∀ x, ¬ Has 0 ⟨false, [("txn_1", "{}")]⟩ "hook_1" bell.cfg (hsteps {} (unlisted ++ [.go 3 .ok, .go 3 .ok, .go 3 .ok])) x := by
  have hl : (hsteps {} (unlisted ++ [.go 3 .ok, .go 3 .ok, .go 3 .ok])).tasks = [] := by decide +kernel
  refine ⟨by decide +kernel, by decide +kernel, fun h => ?_, fun x hx => ?_⟩
  · obtain ⟨k, t, _, h1, _⟩ := h unlisted [.go 3 .ok, .go 3 .ok, .go 3 .ok] 3 ⟨false, [("txn_1", "{}")]⟩ bell
      (by decide +kernel) (by decide +kernel) rfl rfl unlisted_still (by decide) (by decide +kernel) ("txn_1", "{}") (by simp)
    rw [hl] at h1; simp at h1
  · obtain ⟨k, t, _, h1, _⟩ := hx
    rw [hl] at h1; simp at h1

theorem advance_listed {s : Sys} {o : Out} {p : Proc} {id key : String} (h : id ∈ s.sets key) (hp : p.changes id = false) :
    id ∈ (advance s o p).1.sets key := by
  have add : ∀ k (x : String), id ∈ (s.sadd k x).sets key := by
    intro k x
    simp only [Sys.sadd]
    split
    · split
      · exact h
      · exact List.mem_append.2 (.inl h)
    · exact h
  have rem : ∀ k (x : String), x ≠ id → id ∈ (s.srem k x).sets key := by
    intro k x hx
    simp only [Sys.srem]
    split
    · exact List.mem_filter.2 ⟨h, by simpa using Ne.symm hx⟩
    · exact h
  cases p with
  | regSet x => cases o <;> exact h
  | regAdd x => cases o <;> first | exact h | exact add _ _
  | updGet i x =>
    simp only [advance]
    split
    · split <;> exact h
    · exact h
  | updRem old x =>
    have hn : x.id ≠ id := by simpa [Proc.changes] using hp
    cases o <;> first | exact h | exact rem _ _ hn
  | updAdd x => cases o <;> first | exact h | exact add _ _
  | updSet x => cases o <;> exact h
  | delGet i =>
    simp only [advance]
    split
    · split <;> exact h
    · exact h
  | delDel i typ => cases o <;> exact h
  | delRem i typ =>
    have hn : i ≠ id := by simpa [Proc.changes] using hp
    cases o <;> first | exact h | exact rem _ _ hn
  | fireList f => simp only [advance]; split <;> exact h
  | fireGet f ids acc =>
    cases ids <;> simp only [advance]
    · split <;> exact h
    · split
      · exact h
      · split <;> exact h
  | fireQueue ws => cases ws <;> cases o <;> exact h
  | idle => exact h

/-- How far the firing is. -/
def PTold (n : Nat) (f : Fire) (id : String) (c : Cfg) (s : Sys) : Proc → Prop
  | .fireList g => g = f
  | .fireGet g ids acc => g = f ∧ (id ∈ ids ∨ ∃ h ∈ acc, h.id = id ∧ h.cfg = c)
  | .fireQueue ws => ∀ x ∈ f.txns, (∃ w ∈ ws, w.1.id = id ∧ w.1.cfg = c ∧ w.2 = (f.stage, x.1, x.2)) ∨ Has n f id c s x
  | .idle => ∀ x ∈ f.txns, Has n f id c s x
  | _ => False

structure Telling (n i : Nat) (f : Fire) (id : String) (c : Cfg) (s : Sys) : Prop where
  len : n ≤ s.tasks.length
  still : Still id (some c) s
  listed : id ∈ s.sets (typeKey f.stage)
  proc : ∃ p, s.procs[i]? = some p ∧ PTold n f id c s p

theorem has_same {n f id c s x e} (h : Has n f id c s x) : Has n f id c (hstep s e) x := by
  obtain ⟨k, t, h1, h2, h3, h4, h5, h6, h7⟩ := h
  obtain ⟨t', h8, e1, e2, e3, e4⟩ := hstep_same s e k t h2
  exact ⟨k, t', h1, h8, by rw [e1]; exact h3, by rw [e1]; exact h4, by rw [e2]; exact h5, by rw [e3]; exact h6, by rw [e4]; exact h7⟩

theorem told_same {n f id c s e p} (h : PTold n f id c s p) : PTold n f id c (hstep s e) p := by
  cases p with
  | fireQueue ws => exact fun x hx => (h x hx).imp (fun a => a) has_same
  | idle => exact fun x hx => has_same (h x hx)
  | fireList g => exact h
  | fireGet g ids acc => exact h
  | regSet _ => exact h
  | regAdd _ => exact h
  | updGet _ _ => exact h
  | updRem _ _ => exact h
  | updAdd _ => exact h
  | updSet _ => exact h
  | delGet _ => exact h
  | delDel _ _ => exact h
  | delRem _ _ => exact h

/-- Only its own steps move a process. -/
theorem proc_at (s : Sys) (e : Ev) (i : Nat) (p : Proc) (hp : s.procs[i]? = some p) (he : ∀ o, e ≠ .go i o) :
    (hstep s e).procs[i]? = some p := by
  cases e with
  | ask r =>
    show (s.procs ++ [r.start s.now])[i]? = some p
    rw [List.getElem?_append_left (List.getElem?_eq_some_iff.1 hp).1]; exact hp
  | go j o =>
    have hj : j ≠ i := fun e => he o (by rw [e])
    simp only [hstep]
    cases hq : s.procs[j]? with
    | none => exact hp
    | some q =>
      dsimp only
      rw [advance_procs, List.getElem?_set_ne hj]; exact hp
  | take k =>
    simp only [hstep]; split
    · split <;> exact hp
    · exact hp
  | call k a =>
    simp only [hstep]; split
    · split <;> exact hp
    · exact hp
  | report k o =>
    simp only [hstep]; split
    · split
      · simp only [report]; split <;> exact hp
      · split <;> exact hp
      · exact hp
    · exact hp
  | tick => exact hp

theorem len_step (s : Sys) (e : Ev) : s.tasks.length ≤ (hstep s e).tasks.length := by
  cases hstep_moves s e with
  | same h => rw [h]; exact Nat.le_refl _
  | add _ _ _ _ h => rw [h]; simp
  | take _ _ _ _ h => rw [h]; simp
  | call _ _ _ _ _ h => rw [h]; simp
  | over _ _ _ _ _ h => rw [h]; simp

theorem telling_step {n i f id c s e} (a : Telling n i f id c s) (hc : c.active = true) (he : e.changes id = false)
    (ho : ∀ o, e = .go i o → o = .ok) : Telling n i f id c (hstep s e) where
  len := Nat.le_trans a.len (len_step s e)
  still := still_step a.still he
  listed := by
    rcases hstep_sets s e with h | ⟨j, o, p, _, hp, h⟩
    · rw [h]; exact a.listed
    · rw [h]; exact advance_listed a.listed (a.still.procs p (List.mem_of_getElem? hp)).1
  proc := by
    obtain ⟨p, hp, ht⟩ := a.proc
    by_cases hi : ∃ o, e = .go i o
    · obtain ⟨o, eo⟩ := hi
      have := ho o eo
      subst this
      subst eo
      have hlt := (List.getElem?_eq_some_iff.1 hp).1
      have hat : (hstep s (.go i .ok)).procs[i]? = some (advance s .ok p).2 := by
        simp only [hstep, hp]
        rw [advance_procs, List.getElem?_set_self hlt]
      refine ⟨_, hat, ?_⟩
      have same := @told_same n f id c s (.go i .ok)
      cases p with
      | fireList g =>
        have eg : g = f := ht
        subst eg
        exact ⟨rfl, .inl a.listed⟩
      | fireGet g ids acc =>
        obtain ⟨eg, ht⟩ := ht
        subst eg
        cases ids with
        | nil =>
          intro x hx
          left
          rcases ht with ht | ⟨h, hh, e1, e2⟩
          · simp at ht
          · refine ⟨(h, g.stage, x.1, x.2), ?_, e1, e2, rfl⟩
            unfold jobs
            refine List.mem_flatMap.2 ⟨x, hx, List.mem_map.2 ⟨h, List.mem_filter.2 ⟨hh, ?_⟩, rfl⟩⟩
            rw [← e2] at hc; exact hc
        | cons j ids =>
          show PTold n g id c _ (match (if Out.ok = Out.ok then s.store j else none) with
            | some h => (s, Proc.fireGet g ids (acc ++ [h]))
            | none => (s, Proc.fireGet g ids acc)).2
          rw [if_pos rfl]
          have hst := a.still.store
          cases hs : s.store j with
          | none =>
            refine ⟨rfl, ?_⟩
            rcases ht with ht | ht
            · rcases List.mem_cons.1 ht with ht | ht
              · rw [ht, hs] at hst; simp at hst
              · exact .inl ht
            · exact .inr ht
          | some h =>
            refine ⟨rfl, ?_⟩
            rcases ht with ht | ⟨h', hh, e1, e2⟩
            · rcases List.mem_cons.1 ht with ht | ht
              · right
                refine ⟨h, by simp, ?_, ?_⟩
                · rw [a.still.keyed j h hs, ht]
                · rw [ht, hs] at hst; simpa using hst
              · exact .inl ht
            · exact .inr ⟨h', List.mem_append.2 (.inl hh), e1, e2⟩
      | fireQueue ws =>
        cases ws with
        | nil =>
          intro x hx
          rcases ht x hx with ⟨w, hw, _⟩ | h
          · simp at hw
          · exact has_same h
        | cons w ws =>
          intro x hx
          rcases ht x hx with ⟨w', hw, e1, e2, e3⟩ | h
          · rcases List.mem_cons.1 hw with hw | hw
            · subst hw
              right
              have htk : (hstep s (.go i .ok)).tasks = s.tasks ++ [{ hook := w'.1, stage := w'.2.1, txn := w'.2.2.1, data := w'.2.2.2 }] := by
                simp only [hstep, hp]; rfl
              refine ⟨s.tasks.length, { hook := w'.1, stage := w'.2.1, txn := w'.2.2.1, data := w'.2.2.2 }, a.len, ?_, e1, e2, ?_, ?_, ?_⟩
              · rw [htk]; simp
              · rw [e3]
              · rw [e3]
              · rw [e3]
            · exact .inl ⟨w', hw, e1, e2, e3⟩
          · exact .inr (has_same h)
      | idle => exact fun x hx => has_same (ht x hx)
      | regSet _ => exact ht.elim
      | regAdd _ => exact ht.elim
      | updGet _ _ => exact ht.elim
      | updRem _ _ => exact ht.elim
      | updAdd _ => exact ht.elim
      | updSet _ => exact ht.elim
      | delGet _ => exact ht.elim
      | delDel _ _ => exact ht.elim
      | delRem _ _ => exact ht.elim
    · exact ⟨p, proc_at s e i p hp (fun o eo => hi ⟨o, eo⟩), told_same ht⟩

theorem telling_steps {n i f id c} (hc : c.active = true) : ∀ es s, Telling n i f id c s → (∀ e ∈ es, e.changes id = false) →
    (∀ o, .go i o ∈ es → o = .ok) → Telling n i f id c (hsteps s es)
  | [], _, a, _, _ => a
  | e :: es, _, a, h, ho =>
    telling_steps hc es _ (telling_step a hc (h e (by simp)) fun o eo => ho o (by simp [eo]))
      (fun x hx => h x (List.mem_cons_of_mem _ hx)) fun o hh => ho o (List.mem_cons_of_mem _ hh)

/-- **C96** (partial) A hook that is stored, active, on the list of the stage and not being
changed has, once a firing whose own commands work is over, a new task of its own for every
transaction of the firing, whatever else overlaps and fails. Missing from the full statement:
failing commands of the firing, and hooks that a failed change took off their list. -/
theorem c96_queued_partial (es es' : List Ev) (i : Nat) (f : Fire) (h : Hook)
    (hp : (hsteps {} es).procs[i]? = some (.fireList f)) (ha : h.active = true)
    (hl : h.id ∈ (hsteps {} es).sets (typeKey f.stage)) (hs : Still h.id (some h.cfg) (hsteps {} es))
    (he : ∀ e ∈ es', e.changes h.id = false) (ho : ∀ o, .go i o ∈ es' → o = .ok)
    (hd : (hsteps {} (es ++ es')).procs[i]? = some .idle) :
    ∀ x ∈ f.txns, Has (hsteps {} es).tasks.length f h.id h.cfg (hsteps {} (es ++ es')) x := by
  have a := telling_steps (c := h.cfg) ha es' (hsteps {} es) ⟨Nat.le_refl _, hs, hl, _, hp, rfl⟩ he ho
  rw [hsteps_append] at hd ⊢
  obtain ⟨p, hp', ht⟩ := a.proc
  rw [hd] at hp'
  cases hp'
  exact ht

example : (hsteps {} ready).procs[1]? = some (.fireList ⟨false, [("txn_1", "{}")]⟩) ∧
    "hook_1" ∈ (hsteps {} ready).sets (typeKey postType) ∧ Still "hook_1" (some bell.cfg) (hsteps {} ready) ∧
    (hsteps {} (ready ++ [.go 1 .ok, .go 1 .ok, .go 1 .ok, .go 1 .ok, .go 1 .ok])).procs[1]? = some .idle :=
  ⟨by decide +kernel, by decide +kernel, ready_still, by decide +kernel⟩

/-! ### C96: called -/

/-- Workers do not stop in the middle and requests reach the receiver. -/
def Reliable (es : List Ev) : Prop := ∀ e ∈ es, (∀ k, e ≠ .call k .unsent) ∧ ∀ k, e ≠ .report k .crash

/-- **C96** in full, second half: if requests get through, a task is not given up before the
receiver was called. -/
def C96CalledFull : Prop := ∀ es, Reliable es → ∀ k t, (hsteps {} es).tasks[k]? = some t → t.ended → 1 ≤ callsOf (hsteps {} es) k

/-- An update that does not mention a timeout. -/
def hasty : List Ev := [.ask (.register bell), .go 0 .ok, .go 0 .ok,
  .ask (.update "hook_1" { bell with timeout := 0, retry := 0 }), .go 1 .ok, .go 1 .ok,
  .ask (.fire ⟨false, [("txn_1", "{}")]⟩), .go 2 .ok, .go 2 .ok, .go 2 .ok, .go 2 .ok] ++ answered 0

/-- **C96** (violated) An update whose body leaves `timeout` out sets it to zero, without the
default a registration gets (`manager.go:398-400`); every attempt is over before it is sent. -/
theorem c96_no_timeout_fails : ¬ C96CalledFull := by
  intro h
  exact absurd (h hasty (by
    intro e he
    simp [hasty, answered] at he
    rcases he with rfl | rfl | rfl | rfl | rfl | rfl | rfl | rfl | rfl | rfl <;> simp) 0
    { hook := { bell with timeout := 0, retry := 0 }, stage := postType, txn := "txn_1", data := "{}", st := .dead, tries := 1 }
    (by decide +kernel) (.inr rfl)) (by decide +kernel)

/-- An accepted call was made; a task is given up only when its retries are used up; and with a
timeout every attempt is a call, if requests get through. -/
structure Honest (rel : Bool) (s : Sys) : Prop where
  done : ∀ (k : Nat) (t : Task), s.tasks[k]? = some t → t.st = .done ∨ t.st = .called true → 1 ≤ callsOf s k
  dead : ∀ (k : Nat) (t : Task), s.tasks[k]? = some t → t.st = .dead → t.tries = t.max + 1
  live : ∀ (k : Nat) (t : Task), s.tasks[k]? = some t → ¬ t.ended → t.tries ≤ t.max
  all : rel = true → ∀ (k : Nat) (t : Task), s.tasks[k]? = some t → 0 < t.hook.timeout →
    t.tries + (match t.st with | .called _ => 1 | _ => 0) ≤ callsOf s k

theorem callsOf_mono (s : Sys) (e : Ev) (k : Nat) : callsOf s k ≤ callsOf (hstep s e) k := by
  unfold callsOf
  cases hstep_moves s e with
  | same _ h => rw [h]; exact Nat.le_refl _
  | add _ _ _ _ _ h => rw [h]; exact Nat.le_refl _
  | take _ _ _ _ _ h => rw [h]; exact Nat.le_refl _
  | over _ _ _ _ _ _ h => rw [h]; exact Nat.le_refl _
  | call _ _ _ _ _ _ h =>
    rcases h with ⟨h, _⟩ | h
    · rw [h]; exact Nat.le_refl _
    · rw [h, List.filter_append, List.length_append]; omega

/-- Only the task that moves has to be looked at. -/
theorem honest_at {rel : Bool} {s : Sys} {e : Ev} (a : Honest rel s) (j : Nat)
    (rest : ∀ k, k ≠ j → (hstep s e).tasks[k]? = s.tasks[k]?)
    (own : ∀ t, (hstep s e).tasks[j]? = some t →
      (t.st = .done ∨ t.st = .called true → 1 ≤ callsOf (hstep s e) j) ∧ (t.st = .dead → t.tries = t.max + 1) ∧
      (¬ t.ended → t.tries ≤ t.max) ∧
      (rel = true → 0 < t.hook.timeout → t.tries + (match t.st with | .called _ => 1 | _ => 0) ≤ callsOf (hstep s e) j)) :
    Honest rel (hstep s e) := by
  refine ⟨fun k t ht => ?_, fun k t ht => ?_, fun k t ht => ?_, fun hr k t ht => ?_⟩
  all_goals
    by_cases hk : k = j
    · subst hk
      first
        | exact (own t ht).1
        | exact (own t ht).2.1
        | exact (own t ht).2.2.1
        | exact (own t ht).2.2.2 hr
    · rw [rest k hk] at ht
      have := callsOf_mono s e k
      first
        | exact fun h => Nat.le_trans (a.done k t ht h) this
        | exact a.dead k t ht
        | exact a.live k t ht
        | exact fun h => Nat.le_trans (a.all hr k t ht h) this

theorem honest_step {rel : Bool} {s : Sys} {e : Ev} (a : Honest rel s)
    (he : rel = true → (∀ k, e ≠ .call k .unsent) ∧ ∀ k, e ≠ .report k .crash) : Honest rel (hstep s e) := by
  cases hstep_moves s e with
  | same h1 h2 =>
    refine honest_at a 0 (fun k _ => by rw [h1]) fun t ht => ?_
    rw [h1] at ht
    have hc : callsOf (hstep s e) 0 = callsOf s 0 := by unfold callsOf; rw [h2]
    rw [hc]
    exact ⟨a.done 0 t ht, a.dead 0 t ht, a.live 0 t ht, fun hr => a.all hr 0 t ht⟩
  | add w ws i hp h1 h2 =>
    refine honest_at a s.tasks.length (fun k hk => ?_) fun t ht => ?_
    · rw [h1]
      by_cases hl : k < s.tasks.length
      · rw [List.getElem?_append_left hl]
      · rw [List.getElem?_eq_none (by simp; omega), List.getElem?_eq_none (by omega)]
    · rw [h1] at ht
      simp at ht
      subst ht
      exact ⟨fun h => by simp at h, fun h => by simp at h, fun _ => Nat.zero_le _, fun _ _ => Nat.zero_le _⟩
  | take j u hu hs h1 h2 =>
    refine honest_at a j (fun k hk => by rw [h1, getElem?_set' hu, if_neg (Ne.symm hk)]) fun t ht => ?_
    rw [h1, getElem?_set' hu, if_pos rfl] at ht
    simp only [Option.some.injEq] at ht
    subst ht
    refine ⟨fun h => by simp at h, fun h => by simp at h, fun _ => a.live j u hu (by unfold Task.ended; rw [hs]; simp), fun hr ht => ?_⟩
    have := a.all hr j u hu ht
    rw [hs] at this
    exact Nat.le_trans this (callsOf_mono s e j)
  | call j u b hu hs h1 h2 =>
    refine honest_at a j (fun k hk => by rw [h1, getElem?_set' hu, if_neg (Ne.symm hk)]) fun t ht => ?_
    rw [h1, getElem?_set' hu, if_pos rfl] at ht
    simp only [Option.some.injEq] at ht
    subst ht
    have hl := a.live j u hu (by unfold Task.ended; rw [hs]; simp)
    rcases h2 with ⟨h2, hb, h3⟩ | h2
    · subst hb
      refine ⟨fun h => by simp at h, fun h => by simp at h, fun _ => hl, fun hr ht => ?_⟩
      have ht' : 0 < u.hook.timeout := ht
      rcases h3 with h3 | h3
      · omega
      · exact absurd h3 ((he hr).1 j)
    · have hc : callsOf (hstep s e) j = callsOf s j + 1 := by
        unfold callsOf; rw [h2, List.filter_append, List.length_append]; simp
      rw [hc]
      refine ⟨fun _ => by omega, fun h => by simp at h, fun _ => hl, fun hr ht => ?_⟩
      have := a.all hr j u hu ht
      rw [hs] at this
      dsimp only at this ⊢
      omega
  | over j u ok hu hs h1 h2 h3 =>
    refine honest_at a j (fun k hk => by rw [h1, getElem?_set' hu, if_neg (Ne.symm hk)]) fun t ht => ?_
    rw [h1, getElem?_set' hu, if_pos rfl] at ht
    simp only [Option.some.injEq] at ht
    subst ht
    have hc : callsOf (hstep s e) j = callsOf s j := by unfold callsOf; rw [h2]
    rw [hc]
    have hm : (u.over ok).max = u.max := rfl
    have ht : (u.over ok).tries = u.tries + 1 := rfl
    have hl : u.tries ≤ u.max := a.live j u hu (by
      unfold Task.ended
      rcases hs with ⟨hs, _⟩ | ⟨_, hs | ⟨b, hs⟩⟩ <;> rw [hs] <;> simp)
    rw [hm, ht]
    refine ⟨fun h => ?_, fun h => ?_, fun h => ?_, fun hr hto => ?_⟩
    · rcases hs with ⟨hs, _⟩ | ⟨ho, _⟩
      · exact a.done j u hu (.inr hs)
      · subst ho
        unfold Task.over at h
        dsimp only at h
        simp only [Bool.false_eq_true, if_false] at h
        split at h <;> simp at h
    · unfold Task.over at h
      dsimp only at h
      cases ok
      · simp only [Bool.false_eq_true, if_false] at h
        by_cases hd : u.max ≤ u.tries
        · omega
        · rw [if_neg hd] at h; simp at h
      · simp at h
    · unfold Task.ended Task.over at h
      dsimp only at h
      cases ok
      · simp only [Bool.false_eq_true, if_false] at h
        by_cases hd : u.max ≤ u.tries
        · rw [if_pos hd] at h; simp at h
        · omega
      · simp at h
    · have hto' : 0 < u.hook.timeout := hto
      have := a.all hr j u hu hto'
      have hcalled : ∃ b, u.st = .called b := by
        rcases hs with ⟨hs, _⟩ | ⟨_, hs | hs⟩
        · exact ⟨_, hs⟩
        · exact absurd (h3 hs) ((he hr).2 j)
        · exact hs
      obtain ⟨b, hb⟩ := hcalled
      rw [hb] at this
      dsimp only at this
      have : (match (u.over ok).st with | .called _ => 1 | _ => 0) = 0 := by
        unfold Task.over
        dsimp only
        split
        · rename_i h; revert h; split
          · simp
          · split <;> simp
        · rfl
      rw [this]; omega

theorem honest_steps {rel : Bool} : ∀ es s, Honest rel s → (rel = true → Reliable es) → Honest rel (hsteps s es)
  | [], _, a, _ => a
  | e :: es, _, a, h =>
    honest_steps es _ (honest_step a fun hr => h hr e (by simp)) fun hr x hx => h hr x (List.mem_cons_of_mem _ hx)

theorem honest (rel : Bool) (es : List Ev) (h : rel = true → Reliable es) : Honest rel (hsteps {} es) :=
  honest_steps es {} ⟨fun _ _ h => by simp at h, fun _ _ h => by simp at h, fun _ _ h => by simp at h, fun _ _ _ h => by simp at h⟩ h

/-- **C96** (partial) Over all histories: a task that counts as delivered was received; a task
is given up only when all its attempts were used; and if requests get through and workers do
not stop, a hook with a timeout was really called on every one of them. Missing from the full
statement: hooks without a timeout. -/
theorem c96_called_partial (es : List Ev) (k : Nat) (t : Task) (ht : (hsteps {} es).tasks[k]? = some t) :
    (t.st = .done → 1 ≤ callsOf (hsteps {} es) k) ∧
    (t.st = .dead → t.tries = t.hook.retry.toNat + 1 ∧
      (Reliable es → 0 < t.hook.timeout → callsOf (hsteps {} es) k = t.hook.retry.toNat + 1)) := by
  have a := honest false es (fun h => by simp at h)
  refine ⟨fun h => a.done k t ht (.inl h), fun h => ⟨a.dead k t ht h, fun hr hto => ?_⟩⟩
  have b := (honest true es fun _ => hr).all rfl k t ht hto
  rw [h] at b
  have c := (c95_bounded_partial es).1 k t ht
  have d := a.dead k t ht h
  have hm : t.max = t.hook.retry.toNat := rfl
  dsimp only at b
  omega

example : Reliable (ring ++ (List.replicate 12 (failed 0)).flatten) ∧
    (hsteps {} (ring ++ (List.replicate 12 (failed 0)).flatten)).tasks[0]?.map Task.st = some .dead := by
  refine ⟨?_, by decide +kernel⟩
  have h : ∀ e ∈ ring ++ (List.replicate 12 (failed 0)).flatten,
      (match e with | .call _ .unsent => false | .report _ .crash => false | _ => true) = true := by decide +kernel
  intro e he
  refine ⟨fun k ek => ?_, fun k ek => ?_⟩ <;> (have := h e he; rw [ek] at this; simp at this)

/-! ### C97 -/

/-- A task is taken, the receiver answers `r`, and the outcome is written back. -/
def answers (k : Nat) (r : Resp) : List Ev := [.take k, .call k (.heard r), .report k .ok]

/-- **C97** in full: an answer counts as success exactly if its status says so. -/
def C97Full : Prop := ∀ (es : List Ev) (k : Nat) (t : Task) (r : Resp), (hsteps {} es).tasks[k]? = some t → t.st = .waiting →
  0 < t.hook.timeout →
  ((hsteps {} (es ++ answers k r)).tasks[k]?.map Task.st = some .done ↔ 200 ≤ r.status ∧ r.status < 300)

/-- **C97** (violated) A status of 200 with a JSON body that does not say `success` is a failure,
and the call is repeated; a status of 500 with one that does is success, and it is not. -/
theorem c97_status_fails : ¬ C97Full ∧
    (hsteps {} (ring ++ answers 0 ⟨200, .json false⟩ ++ answers 0 ⟨200, .json false⟩)).calls.length = 2 ∧
    (hsteps {} (ring ++ answers 0 ⟨500, .json true⟩ ++ answers 0 ⟨200, .empty⟩)).calls.length = 1 := by
  refine ⟨fun h => ?_, by decide +kernel, by decide +kernel⟩
  have := (h ring 0 { hook := bell, stage := postType, txn := "txn_1", data := "{}" } ⟨500, .json true⟩
    (by decide +kernel) rfl (by decide)).1 (by decide +kernel)
  exact absurd this (by decide)

/-- What the code takes for success, in words: a JSON body decides by itself; without a body
the status has to be 2xx; with any other body it has to be below 400. -/
def Means (r : Resp) : Prop :=
  r.body = .json true ∨ (r.body = .empty ∧ 200 ≤ r.status ∧ r.status < 300) ∨
  ((r.body = .text ∨ r.body = .odd) ∧ r.status < 400)

theorem accepted_iff (r : Resp) : r.accepted = true ↔ Means r := by
  obtain ⟨st, b⟩ := r
  unfold Resp.accepted Means
  cases b with
  | empty => simp
  | text => simp; omega
  | odd => simp
  | json ok => simp

theorem answers_at {s : Sys} {k : Nat} {t : Task} (r : Resp) (ht : s.tasks[k]? = some t) (hs : t.st = .waiting)
    (hto : 0 < t.hook.timeout) :
    (hsteps s (answers k r)).tasks[k]? = some (({ t with st := .called r.accepted } : Task).over r.accepted) ∧
    (hsteps s (answers k r)).calls = s.calls ++ [callOf k t] ∧
    (hsteps s (answers k r)).store t.hook.id = some { t.hook with lastRun := s.now, lastOk := r.accepted } := by
  have hlt := (List.getElem?_eq_some_iff.1 ht).1
  have hz : ¬ t.hook.timeout ≤ 0 := by omega
  have e1 : hstep s (.take k) = { s with tasks := s.tasks.set k { t with st := .calling } } := by
    simp only [hstep, ht, hs, if_true]
  have t1 : (s.tasks.set k { t with st := .calling })[k]? = some { t with st := .calling } := List.getElem?_set_self hlt
  have e2 : hstep (hstep s (.take k)) (.call k (.heard r)) =
      { s with tasks := s.tasks.set k { t with st := .called r.accepted }, calls := s.calls ++ [callOf k t] } := by
    rw [e1]
    simp only [hstep, t1, if_true]
    simp only [callTask, hz, if_false, List.set_set]
    rfl
  have t2 : (s.tasks.set k { t with st := .called r.accepted })[k]? = some { t with st := .called r.accepted } :=
    List.getElem?_set_self hlt
  have e3 : hsteps s (answers k r) =
      { s.put { t.hook with lastRun := s.now, lastOk := r.accepted } with
        tasks := s.tasks.set k (({ t with st := .called r.accepted } : Task).over r.accepted)
        calls := s.calls ++ [callOf k t] } := by
    show hstep (hstep (hstep s (.take k)) (.call k (.heard r))) (.report k .ok) = _
    rw [e2]
    simp only [hstep, t2]
    simp [report, Sys.put, List.set_set]
  rw [e3]
  exact ⟨List.getElem?_set_self hlt, rfl, if_pos rfl⟩

/-- **C97** (partial) What does hold, in every state of every history: the answer is success
exactly if it has a JSON body with `success`, or no body and a 2xx status, or another body and
a status below 400; the hook shows that outcome; and the receiver was called once. Missing
from the full statement: JSON bodies, whose status is ignored, and redirects with a body. -/
theorem c97_answer_partial (es : List Ev) (k : Nat) (t : Task) (r : Resp) (ht : (hsteps {} es).tasks[k]? = some t)
    (hs : t.st = .waiting) (hto : 0 < t.hook.timeout) :
    ((hsteps {} (es ++ answers k r)).tasks[k]?.map Task.st = some .done ↔ Means r) ∧
    (hsteps {} (es ++ answers k r)).calls = (hsteps {} es).calls ++ [callOf k t] ∧
    ((hsteps {} (es ++ answers k r)).get t.hook.id).map Hook.lastOk = some r.accepted := by
  rw [hsteps_append]
  obtain ⟨h1, h2, h3⟩ := answers_at r ht hs hto
  refine ⟨?_, h2, by unfold Sys.get; rw [h3]; rfl⟩
  rw [h1, ← accepted_iff]
  simp only [Option.map_some, Option.some.injEq, Task.over]
  cases r.accepted
  · simp only [Bool.false_eq_true, if_false]
    split <;> simp
  · simp

example : (hsteps {} ring).tasks[0]? = some { hook := bell, stage := postType, txn := "txn_1", data := "{}" } := by decide +kernel

theorem ended_step {s : Sys} {k : Nat} {t : Task} (ht : s.tasks[k]? = some t) (h : t.ended) (e : Ev) :
    (hstep s e).tasks[k]? = some t ∧ callsOf (hstep s e) k = callsOf s k := by
  unfold Task.ended at h
  cases hstep_moves s e with
  | same h1 h2 => rw [h1]; exact ⟨ht, by unfold callsOf; rw [h2]⟩
  | add w ws i hp h1 h2 =>
    rw [h1, List.getElem?_append_left (List.getElem?_eq_some_iff.1 ht).1]
    exact ⟨ht, by unfold callsOf; rw [h2]⟩
  | take j u hu hs h1 h2 =>
    have hj : j ≠ k := fun ej => by
      subst ej; rw [ht] at hu; cases hu; rw [hs] at h; simp at h
    rw [h1, getElem?_set' hu, if_neg hj]
    exact ⟨ht, by unfold callsOf; rw [h2]⟩
  | call j u b hu hs h1 h2 =>
    have hj : j ≠ k := fun ej => by
      subst ej; rw [ht] at hu; cases hu; rw [hs] at h; simp at h
    rw [h1, getElem?_set' hu, if_neg hj]
    refine ⟨ht, ?_⟩
    unfold callsOf
    rcases h2 with ⟨h2, _⟩ | h2
    · rw [h2]
    · rw [h2, List.filter_append, List.length_append]; simp [hj]
  | over j u ok hu hs h1 h2 =>
    have hj : j ≠ k := fun ej => by
      subst ej; rw [ht] at hu; cases hu
      rcases hs with ⟨hs, _⟩ | ⟨_, hs | ⟨b, hs⟩⟩ <;> rw [hs] at h <;> simp at h
    rw [h1, getElem?_set' hu, if_neg hj]
    exact ⟨ht, by unfold callsOf; rw [h2]⟩

theorem ended_steps : ∀ (es : List Ev) (s : Sys) (k : Nat) (t : Task), s.tasks[k]? = some t → t.ended →
    (hsteps s es).tasks[k]? = some t ∧ callsOf (hsteps s es) k = callsOf s k
  | [], _, _, _, ht, _ => ⟨ht, rfl⟩
  | e :: es, s, k, t, ht, h => by
    obtain ⟨h1, h2⟩ := ended_step ht h e
    obtain ⟨h3, h4⟩ := ended_steps es _ k t h1 h
    exact ⟨h3, h4.trans h2⟩

/-- **C97** (partial) An answer that counts is final: whatever happens afterwards, the receiver
is not called for this task again. -/
theorem c97_final_partial (es es' : List Ev) (k : Nat) (t : Task) (r : Resp) (ht : (hsteps {} es).tasks[k]? = some t)
    (hs : t.st = .waiting) (hto : 0 < t.hook.timeout) (hr : Means r) :
    callsOf (hsteps {} (es ++ answers k r ++ es')) k = callsOf (hsteps {} es) k + 1 := by
  obtain ⟨h1, h2, _⟩ := answers_at r ht hs hto
  rw [hsteps_append, hsteps_append]
  have := (ended_steps es' _ k _ h1 (by
    unfold Task.ended Task.over
    rw [(accepted_iff r).2 hr]; simp)).2
  rw [this]
  unfold callsOf
  rw [h2, List.filter_append, List.length_append]
  simp [callOf]

example : Means ⟨204, .empty⟩ ∧ Means ⟨200, .text⟩ ∧ ¬ Means ⟨404, .text⟩ ∧ ¬ Means ⟨302, .empty⟩ := by
  simp [Means]

end Blnk.Hooks
