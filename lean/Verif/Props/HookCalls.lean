import Verif.Props.Hooks
/-
C94: hooks are called at their stage. C95: calls are bounded.
-/
namespace Blnk.Hooks

/-! ### C94 -/

/-- **C94** in full: a hook is called only at the stage it is registered for. -/
def C94Full : Prop := ∀ es, ∀ c ∈ (hsteps {} es).calls, c.stage = c.typ

/-- A hook is registered for the first stage, then again under the same id for the second. -/
def moved : List Ev := [.ask (.register { bell with typ := preType }), .go 0 .ok, .go 0 .ok,
  .ask (.register bell), .go 1 .ok, .go 1 .ok,
  .ask (.fire ⟨true, [("txn_1", "{}")]⟩), .go 2 .ok, .go 2 .ok, .go 2 .ok, .go 2 .ok] ++ answered 0

/-- **C94** (violated) Registering an id again adds it to the second list and leaves it in the
first (`manager.go:101-105`): a hook for posted transactions is called for transactions that
are only tried, and may fail. -/
theorem c94_twice_fails : ¬ C94Full ∧ (hsteps {} moved).get "hook_1" = some { bell with lastOk := true } := by
  refine ⟨fun h => ?_, by decide +kernel⟩
  exact absurd (h moved { task := 0, hook := "hook_1", url := "https://a", typ := postType, stage := preType, txn := "txn_1", data := "{}" }
    (by decide +kernel)) (by decide)

theorem key_inj {a b : String} (h : typeKey a = typeKey b) (hb : b = preType ∨ b = postType) : a = b := by
  unfold typeKey at h
  rcases hb with rfl | rfl
  · by_cases h1 : a = preType
    · exact h1
    · rw [if_neg h1, if_pos rfl] at h
      split at h <;> exact absurd h (by decide)
  · rw [if_neg (show postType ≠ preType by decide), if_pos rfl] at h
    by_cases h1 : a = preType
    · rw [if_pos h1] at h; exact absurd h (by decide)
    · rw [if_neg h1] at h
      by_cases h2 : a = postType
      · exact h2
      · rw [if_neg h2] at h; exact absurd h (by decide)

theorem stage_ok (f : Fire) : f.stage = preType ∨ f.stage = postType := by
  unfold Fire.stage; split <;> simp

/-- The lists hold each id under its type, and firings have in hand what belongs to their
stage. -/
def PStage (ty : String → String) : Proc → Prop
  | .fireGet f ids acc => (∀ id ∈ ids, typeKey (ty id) = typeKey f.stage) ∧ ∀ h ∈ acc, h.typ = f.stage
  | .fireQueue ws => ∀ w ∈ ws, w.1.typ = w.2.1
  | _ => True

structure Staged (ty : String → String) (s : Sys) : Prop where
  all : All (fun id c => c.typ = ty id) s
  sets : ∀ key id, id ∈ s.sets key → typeKey (ty id) = key
  procs : ∀ p ∈ s.procs, PStage ty p
  tasks : ∀ t ∈ s.tasks, t.hook.typ = t.stage

theorem sadd_staged {ty : String → String} {s : Sys} (h : ∀ key id, id ∈ s.sets key → typeKey (ty id) = key) (x : Hook)
    (hx : x.typ = ty x.id) : ∀ key id, id ∈ (s.sadd (typeKey x.typ) x.id).sets key → typeKey (ty id) = key := by
  intro key id hi
  simp only [Sys.sadd] at hi
  split at hi
  · rename_i e
    split at hi
    · exact h key id hi
    · rcases List.mem_append.1 hi with hi | hi
      · exact h key id hi
      · rw [List.mem_singleton.1 hi, e, hx]
  · exact h key id hi

theorem srem_staged {ty : String → String} {s : Sys} (h : ∀ key id, id ∈ s.sets key → typeKey (ty id) = key) (k i : String) :
    ∀ key id, id ∈ (s.srem k i).sets key → typeKey (ty id) = key := by
  intro key id hi
  simp only [Sys.srem] at hi
  split at hi
  · exact h key id (List.mem_filter.1 hi).1
  · exact h key id hi

theorem advance_staged {ty s o p} (a : Staged ty s) (ha : PAll (fun id c => c.typ = ty id) p) (hp : PStage ty p) :
    (∀ key id, id ∈ (advance s o p).1.sets key → typeKey (ty id) = key) ∧ PStage ty (advance s o p).2 := by
  cases p with
  | regSet h => cases o <;> exact ⟨a.sets, trivial⟩
  | regAdd h => cases o <;> first | exact ⟨a.sets, trivial⟩ | exact ⟨sadd_staged a.sets h ha, trivial⟩
  | updGet i h =>
    simp only [advance]
    split
    · split
      · exact ⟨a.sets, trivial⟩
      · refine ⟨a.sets, ?_⟩; dsimp only; split <;> trivial
    · exact ⟨a.sets, trivial⟩
  | updRem old h => cases o <;> first | exact ⟨a.sets, trivial⟩ | exact ⟨srem_staged a.sets _ _, trivial⟩
  | updAdd h => cases o <;> first | exact ⟨a.sets, trivial⟩ | exact ⟨sadd_staged a.sets h ha, trivial⟩
  | updSet h => cases o <;> exact ⟨a.sets, trivial⟩
  | delGet i =>
    simp only [advance]
    split
    · split <;> exact ⟨a.sets, trivial⟩
    · exact ⟨a.sets, trivial⟩
  | delDel i typ => cases o <;> exact ⟨a.sets, trivial⟩
  | delRem i typ => cases o <;> first | exact ⟨a.sets, trivial⟩ | exact ⟨srem_staged a.sets _ _, trivial⟩
  | fireList f =>
    simp only [advance]
    split
    · exact ⟨a.sets, fun id hi => a.sets _ id hi, fun h hh => by simp at hh⟩
    · exact ⟨a.sets, trivial⟩
  | fireGet f ids acc =>
    cases ids with
    | nil =>
      simp only [advance]
      split
      · exact ⟨a.sets, trivial⟩
      · refine ⟨a.sets, fun w hw => ?_⟩
        have := jobs_mem hw
        rw [this.2.2.1]; exact hp.2 w.1 this.1
    | cons i ids =>
      have ht : ∀ id ∈ ids, typeKey (ty id) = typeKey f.stage := fun id hi => hp.1 id (List.mem_cons_of_mem _ hi)
      simp only [advance]
      split
      · exact ⟨a.sets, trivial⟩
      · by_cases ho : o = .ok
        · rw [if_pos ho]
          cases hs : s.store i with
          | none => exact ⟨a.sets, ht, hp.2⟩
          | some h =>
            refine ⟨a.sets, ht, fun x hx => ?_⟩
            rcases List.mem_append.1 hx with hx | hx
            · exact hp.2 x hx
            · have ex := List.mem_singleton.1 hx
              subst ex
              have h1 := (a.all.store i x hs).2
              have h2 := hp.1 i (by simp)
              have h1' : x.typ = ty i := h1
              rw [← h1'] at h2
              exact key_inj h2 (stage_ok f)
        · rw [if_neg ho]; exact ⟨a.sets, ht, hp.2⟩
  | fireQueue ws =>
    cases ws with
    | nil => exact ⟨a.sets, trivial⟩
    | cons w ws =>
      have hw : PStage ty (.fireQueue ws) := fun x hx => hp x (List.mem_cons_of_mem _ hx)
      cases o <;> first | exact ⟨a.sets, hw⟩ | exact ⟨a.sets, trivial⟩
  | idle => exact ⟨a.sets, trivial⟩

/-- Steps other than processes' leave the lists alone. -/
theorem hstep_sets (s : Sys) (e : Ev) :
    (hstep s e).sets = s.sets ∨ ∃ i o p, e = .go i o ∧ s.procs[i]? = some p ∧ (hstep s e).sets = (advance s o p).1.sets := by
  cases e with
  | ask r => exact .inl rfl
  | go i o =>
    simp only [hstep]
    cases hp : s.procs[i]? with
    | none => exact .inl rfl
    | some p => exact .inr ⟨i, o, p, rfl, hp, rfl⟩
  | take k =>
    left; simp only [hstep]; split
    · split <;> rfl
    · rfl
  | call k a =>
    left; simp only [hstep]; split
    · split <;> rfl
    · rfl
  | report k o =>
    left; simp only [hstep]; split
    · split
      · simp only [report]; split <;> rfl
      · split <;> rfl
      · rfl
    · rfl
  | tick => exact .inl rfl

theorem staged_step {ty s e} (a : Staged ty s) (he : e.Asks fun id c => c.typ = ty id) : Staged ty (hstep s e) where
  all := hstep_all a.all he
  sets key id hi := by
    rcases hstep_sets s e with h | ⟨i, o, p, _, hp, h⟩
    · rw [h] at hi; exact a.sets key id hi
    · rw [h] at hi
      have hm := List.mem_of_getElem? hp
      exact (advance_staged a (a.all.procs p hm) (a.procs p hm)).1 key id hi
  procs p hp := by
    rcases hstep_procs s e p hp with hp | ⟨r, _, ep⟩ | ⟨i, o, q, _, hq, ep⟩
    · exact a.procs p hp
    · subst ep
      cases r with
      | register h0 => simp only [Req.start]; split <;> trivial
      | _ => trivial
    · rw [ep]
      have hm := List.mem_of_getElem? hq
      exact (advance_staged a (a.all.procs q hm) (a.procs q hm)).2
  tasks t ht := by
    have key : ∀ (j : Nat) (u u' : Task), s.tasks[j]? = some u → (hstep s e).tasks = s.tasks.set j u' → u.Same u' →
        t.hook.typ = t.stage := by
      intro j u u' hj h1 hu
      rw [h1] at ht
      rcases set_mem ht with rfl | ht
      · obtain ⟨e1, e2, _⟩ := hu
        rw [e1, e2]; exact a.tasks u (List.mem_of_getElem? hj)
      · exact a.tasks t ht
    cases hstep_moves s e with
    | same h1 h2 => rw [h1] at ht; exact a.tasks t ht
    | add w ws i hp h1 h2 =>
      rw [h1] at ht
      rcases List.mem_append.1 ht with ht | ht
      · exact a.tasks t ht
      · rw [List.mem_singleton.1 ht]
        exact a.procs _ (List.mem_of_getElem? hp) w (by simp)
    | take j u hu _ h1 h2 => exact key j u _ hu h1 ⟨rfl, rfl, rfl, rfl⟩
    | call j u b hu _ h1 h2 => exact key j u _ hu h1 ⟨rfl, rfl, rfl, rfl⟩
    | over j u ok hu _ h1 h2 => exact key j u _ hu h1 ⟨rfl, rfl, rfl, rfl⟩

theorem staged_steps {ty} : ∀ es s, Staged ty s → (∀ e ∈ es, e.Asks fun id c => c.typ = ty id) → Staged ty (hsteps s es)
  | [], _, a, _ => a
  | e :: es, _, a, h => staged_steps es _ (staged_step a (h e (by simp))) fun x hx => h x (List.mem_cons_of_mem _ hx)

/-- Every request for an id asks for the same type. -/
def OneType (es : List Ev) (ty : String → String) : Prop :=
  ∀ h, (.ask (.register h) ∈ es → h.typ = ty h.id) ∧ ∀ id, .ask (.update id h) ∈ es → h.typ = ty id

/-- **C94** (partial) If nobody changes the type of a hook, by update or by registering its id
again, every call is made at the hook's stage, whatever overlaps and fails. Missing from the
full statement: changes of type. -/
theorem c94_stage_partial (es : List Ev) (ty : String → String) (h : OneType es ty) :
    ∀ c ∈ (hsteps {} es).calls, c.stage = c.typ := by
  have a : Staged ty (hsteps {} es) := by
    apply staged_steps es {} ⟨all_empty _, fun _ _ hi => by simp at hi, fun _ hp => by simp at hp, fun _ ht => by simp at ht⟩
    intro e he
    cases e with
    | ask r =>
      cases r with
      | register x =>
        intro x' hv
        obtain ⟨h1, _, h3, _⟩ := validate_keeps hv
        show x'.typ = ty x'.id
        rw [h1, h3]; exact (h x).1 he
      | update id x => exact (h x).2 id he
      | _ => trivial
    | _ => trivial
  intro c hc
  obtain ⟨t, ht, e⟩ := logged es c hc
  rw [e]
  exact (a.tasks t (List.mem_of_getElem? ht)).symm

example : OneType (ring ++ answered 0) (fun _ => postType) ∧ (hsteps {} (ring ++ answered 0)).calls.length = 1 := by
  refine ⟨fun h => ⟨fun hh => ?_, fun id hh => ?_⟩, by decide +kernel⟩
  · simp [ring, answered] at hh; rw [hh]; rfl
  · simp [ring, answered] at hh

/-! ### C95 -/

/-- How often the receiver was called for a task. -/
def callsOf (s : Sys) (k : Nat) : Nat := (s.calls.filter fun c => c.task == k).length

/-- **C95** in full: at most eleven calls for a transaction and a hook that was queued once. -/
def C95Full : Prop := ∀ es k, callsOf (hsteps {} es) k ≤ 11

/-- A call that is answered with an error. -/
def failed (k : Nat) : List Ev := [.take k, .call k (.heard ⟨500, .empty⟩), .report k .ok]

/-- The number of retries is changed to a thousand. -/
def patient : List Ev := [.ask (.register bell), .go 0 .ok, .go 0 .ok,
  .ask (.update "hook_1" { bell with retry := 1000 }), .go 1 .ok, .go 1 .ok,
  .ask (.fire ⟨false, [("txn_1", "{}")]⟩), .go 2 .ok, .go 2 .ok, .go 2 .ok, .go 2 .ok] ++ (List.replicate 12 (failed 0)).flatten

/-- **C95** (violated) An update is not validated (`manager.go:121-154`), so it can set any
number of retries. -/
theorem c95_update_fails : ¬ C95Full := by
  intro h
  exact absurd (h patient 0) (by decide +kernel)

/-- The calls of a task are its attempts, and those are counted. -/
def Counted (s : Sys) : Prop := ∀ k t, s.tasks[k]? = some t →
  callsOf s k ≤ t.tries + (match t.st with | .called _ => 1 | _ => 0) ∧
  t.tries ≤ t.max + (match t.st with | .done | .dead => 1 | _ => 0)

theorem callsOf_new {s : Sys} (h : Logged s) : callsOf s s.tasks.length = 0 := by
  unfold callsOf
  rw [List.length_eq_zero_iff, List.filter_eq_nil_iff]
  intro c hc
  obtain ⟨t, ht, _⟩ := h c hc
  have := (List.getElem?_eq_some_iff.1 ht).1
  simp; omega

theorem counted_step {s : Sys} (hl : Logged s) (h : Counted s) (e : Ev) : Counted (hstep s e) := by
  intro k t' ht'
  cases hstep_moves s e with
  | same h1 h2 =>
    rw [h1] at ht'
    have : callsOf (hstep s e) k = callsOf s k := by unfold callsOf; rw [h2]
    rw [this]; exact h k t' ht'
  | add w ws i hp h1 h2 =>
    have hc : callsOf (hstep s e) k = callsOf s k := by unfold callsOf; rw [h2]
    rw [hc]
    rw [h1] at ht'
    by_cases hk : k < s.tasks.length
    · rw [List.getElem?_append_left hk] at ht'; exact h k t' ht'
    · have hk' : k = s.tasks.length := by
        have := (List.getElem?_eq_some_iff.1 ht').1
        simp at this; omega
      subst hk'
      simp at ht'
      subst ht'
      rw [callsOf_new hl]
      exact ⟨Nat.zero_le _, Nat.zero_le _⟩
  | take j u hu hs h1 h2 =>
    have hc : callsOf (hstep s e) k = callsOf s k := by unfold callsOf; rw [h2]
    rw [hc]
    rw [h1, getElem?_set' hu] at ht'
    by_cases ej : j = k
    · subst ej; rw [if_pos rfl] at ht'
      simp only [Option.some.injEq] at ht'
      subst ht'
      have := h j u hu
      rw [hs] at this
      exact this
    · rw [if_neg ej] at ht'; exact h k t' ht'
  | call j u b hu hs h1 h2 =>
    have hc : callsOf (hstep s e) k ≤ callsOf s k + if j = k then 1 else 0 := by
      unfold callsOf
      rcases h2 with ⟨h2, _⟩ | h2
      · rw [h2]; omega
      · rw [h2, List.filter_append, List.length_append]
        by_cases ej : j = k <;> simp [ej]
    rw [h1, getElem?_set' hu] at ht'
    by_cases ej : j = k
    · subst ej; rw [if_pos rfl] at ht' hc
      simp only [Option.some.injEq] at ht'
      subst ht'
      have := h j u hu
      rw [hs] at this
      dsimp only at this ⊢
      refine ⟨by omega, ?_⟩
      show u.tries ≤ u.max + 0
      omega
    · rw [if_neg ej] at ht' hc
      have := h k t' ht'
      exact ⟨by omega, this.2⟩
  | over j u ok hu hs h1 h2 =>
    have hc : callsOf (hstep s e) k = callsOf s k := by unfold callsOf; rw [h2]
    rw [hc]
    rw [h1, getElem?_set' hu] at ht'
    by_cases ej : j = k
    · subst ej; rw [if_pos rfl] at ht'
      simp only [Option.some.injEq] at ht'
      subst ht'
      have hb := h j u hu
      have hb1 : callsOf s j ≤ u.tries + 1 := by
        have := hb.1; revert this; split <;> intro <;> omega
      have hb2 : u.tries ≤ u.max := by
        have := hb.2
        rcases hs with ⟨hs, _⟩ | ⟨_, hs | ⟨b, hs⟩⟩ <;> rw [hs] at this <;> exact this
      have hm : (u.over ok).max = u.max := rfl
      have ht : (u.over ok).tries = u.tries + 1 := rfl
      rw [hm, ht]
      refine ⟨by omega, ?_⟩
      unfold Task.over
      dsimp only
      cases ok
      · simp only [Bool.false_eq_true, if_false]
        by_cases hd : u.max ≤ u.tries
        · rw [if_pos hd]; dsimp only; omega
        · rw [if_neg hd]; dsimp only; omega
      · simp only [if_true]; omega
    · rw [if_neg ej] at ht'; exact h k t' ht'

theorem counted_steps : ∀ es s, Logged s → Counted s → Counted (hsteps s es)
  | [], _, _, h => h
  | e :: es, _, hl, h => counted_steps es _ (logged_step hl e) (counted_step hl h e)

theorem counted (es : List Ev) : Counted (hsteps {} es) :=
  counted_steps es {} (fun c hc => by simp at hc) fun k t ht => by simp at ht

/-- **C95** (partial) Over all histories a receiver is called for a task at most once more than
the hook's retries say; so if every update asks for at most ten, as registration enforces, at
most eleven times. Missing from the full statement: updates that ask for more. -/
theorem c95_bounded_partial (es : List Ev) :
    (∀ k t, (hsteps {} es).tasks[k]? = some t → callsOf (hsteps {} es) k ≤ t.hook.retry.toNat + 1) ∧
    ((∀ id h, .ask (.update id h) ∈ es → h.retry ≤ 10) → ∀ k, callsOf (hsteps {} es) k ≤ 11) := by
  have h1 : ∀ k t, (hsteps {} es).tasks[k]? = some t → callsOf (hsteps {} es) k ≤ t.hook.retry.toNat + 1 := by
    intro k t ht
    obtain ⟨a, b⟩ := counted es k t ht
    have hm : t.max = t.hook.retry.toNat := rfl
    rw [hm] at b
    cases hs : t.st <;> rw [hs] at a b <;> dsimp only at a b <;> omega
  refine ⟨h1, fun hu k => ?_⟩
  have a : All (fun _ c => c.retry ≤ 10) (hsteps {} es) := by
    apply hsteps_all es {} (all_empty _)
    intro e he
    cases e with
    | ask r =>
      cases r with
      | register x => exact fun x' hv => (validate_keeps hv).2.2.2.2.2.2.1
      | update id x => exact hu id x he
      | _ => trivial
    | _ => trivial
  cases hk : (hsteps {} es).tasks[k]? with
  | some t =>
    have := a.tasks t (List.mem_of_getElem? hk)
    have h2 := h1 k t hk
    have : t.hook.retry ≤ 10 := this
    omega
  | none =>
    have : callsOf (hsteps {} es) k = 0 := by
      unfold callsOf
      rw [List.length_eq_zero_iff, List.filter_eq_nil_iff]
      intro c hc
      obtain ⟨t, ht, _⟩ := logged es c hc
      intro e
      have e : c.task = k := by simpa using e
      rw [e, hk] at ht; simp at ht
    omega

example : callsOf (hsteps {} (ring ++ (List.replicate 12 (failed 0)).flatten)) 0 = 4 ∧
    ((hsteps {} (ring ++ (List.replicate 12 (failed 0)).flatten)).tasks.map Task.st) = [.dead] := by decide +kernel

end Blnk.Hooks
