import Verif.Model.Processor
/-
C190: a background processor works one piece at a time, and not after it has been stopped.
-/
namespace Blnk.Proc

theorem acts_append : ∀ (as bs : List Act) (s : St), acts s (as ++ bs) = (acts s as).bind (acts · bs) := by
  intro as bs
  induction as with
  | nil => intro s; rfl
  | cons a as ih =>
    intro s
    simp only [List.cons_append, acts]
    cases act s a with
    | none => rfl
    | some s' => exact ih s'

/-! ### Any callers -/

/-- What holds however the calls interleave. -/
structure Sound (s : St) : Prop where
  open_ : s.running = true → s.chan ∉ s.closed
  known : s.chan < s.made ∧ ∀ c ∈ s.closed, c < s.made
  count : s.wg = s.spawning + s.loops.length
  calm : s.panicked = false

theorem act_sound {s s' : St} {a : Act} (hs : Sound s) (h : act s a = some s') : Sound s' := by
  obtain ⟨h1, ⟨h2, h3⟩, h4, h5⟩ := hs
  cases a with
  | start =>
    simp only [act] at h
    split at h
    · cases h; exact ⟨h1, ⟨h2, h3⟩, h4, h5⟩
    · cases h
      refine ⟨fun _ hc => ?_, ⟨by simp, fun c hc => ?_⟩, h4, h5⟩
      · exact absurd (h3 _ hc) (Nat.lt_irrefl _)
      · have := h3 c hc; simp only; omega
  | add =>
    simp only [act] at h
    split at h
    · cases h
    · cases h; exact ⟨h1, ⟨h2, h3⟩, by simp only; omega, h5⟩
  | spawn =>
    simp only [act] at h
    split at h
    · cases h
    · cases h; exact ⟨h1, ⟨h2, h3⟩, by simp only [List.length_append, List.length_singleton]; omega, h5⟩
  | stop =>
    simp only [act] at h
    split at h
    · cases h; exact ⟨h1, ⟨h2, h3⟩, h4, h5⟩
    · rename_i hr
      have hr' : s.running = true := by simpa using hr
      cases h
      refine ⟨fun hf => by simp at hf, ⟨h2, fun c hc => ?_⟩, h4, ?_⟩
      · rcases List.mem_cons.1 hc with rfl | hc
        · exact h2
        · exact h3 c hc
      · have : s.closed.contains s.chan = false := by
          rw [Bool.eq_false_iff]
          intro hc
          exact h1 hr' (List.contains_iff_mem.1 hc)
        simp only [h5, this, Bool.or_self]
  | ret =>
    simp only [act] at h
    split at h
    · cases h
    · cases h; exact ⟨h1, ⟨h2, h3⟩, h4, h5⟩
  | enter i =>
    simp only [act] at h
    split at h
    · cases h; exact ⟨h1, ⟨h2, h3⟩, by simp [h4], h5⟩
    · cases h
  | tick i =>
    simp only [act] at h
    split at h
    · cases h; exact ⟨h1, ⟨h2, h3⟩, by simp [h4], h5⟩
    · cases h
  | finish i =>
    simp only [act] at h
    split at h
    · cases h; exact ⟨h1, ⟨h2, h3⟩, by simp [h4], h5⟩
    · cases h
  | see i =>
    simp only [act] at h
    split at h
    · split at h
      · cases h; exact ⟨h1, ⟨h2, h3⟩, by simp [h4], h5⟩
      · cases h
    · cases h
  | cancel i =>
    simp only [act] at h
    split at h
    · cases h; exact ⟨h1, ⟨h2, h3⟩, by simp [h4], h5⟩
    · cases h
  | leave i =>
    simp only [act] at h
    split at h
    · rename_i hi
      have hl : i < s.loops.length := by
        rcases List.getElem?_eq_some_iff.1 hi with ⟨hl, _⟩
        exact hl
      cases h
      refine ⟨h1, ⟨h2, h3⟩, ?_, ?_⟩
      · simp only [List.length_eraseIdx, hl, if_true]; omega
      · have : decide (s.wg = 0) = false := by simp; omega
        simp [h5, this]
    · cases h

theorem acts_sound : ∀ {as : List Act} {s s' : St}, Sound s → acts s as = some s' → Sound s' := by
  intro as
  induction as with
  | nil => intro s s' hs h; cases h; exact hs
  | cons a as ih =>
    intro s s' hs h
    simp only [acts] at h
    split at h
    · cases h
    · rename_i s1 h1
      exact ih (act_sound hs h1) h

theorem fresh_sound : Sound fresh := ⟨by decide, ⟨by decide, by decide⟩, rfl, rfl⟩

/-- **C190, no panic.** However many callers start and stop a processor at once, no channel is closed twice and the
wait group never falls below zero. -/
theorem c190_no_panic (as : List Act) (s : St) (h : acts fresh as = some s) : s.panicked = false :=
  (acts_sound fresh_sound h).calm

/-! ### One call after the other -/

/-- What holds when calls do not overlap. -/
structure Tidy (s : St) : Prop where
  one : s.adding + s.spawning + s.loops.length ≤ 1
  listens : ∀ c, Pc.wait c ∈ s.loops → c = s.chan
  up : s.running = true → s.stopping = 0
  down : s.running = false → s.adding = 0 ∧ s.spawning = 0 ∧ (s.stopping = 0 → s.loops = []) ∧ (s.loops ≠ [] → s.chan ∈ s.closed)
  few : s.stopping ≤ 1

theorem one_loop {l : List Pc} {i : Nat} {p q : Pc} (hl : l.length ≤ 1) (h : l[i]? = some p) : l = [p] ∧ i = 0 ∧ l.set i q = [q] := by
  match l, hl with
  | [], _ => simp at h
  | [x], _ =>
    match i with
    | 0 => simp at h; subst h; exact ⟨rfl, rfl, rfl⟩
    | i + 1 => simp at h
  | _ :: _ :: _, hl => simp at hl

theorem set_tidy {s : St} {i : Nat} {p q : Pc} (hs : Tidy s) (h : s.loops[i]? = some p)
    (hq : ∀ c, q = .wait c → c = s.chan) : Tidy { s with loops := s.loops.set i q } := by
  obtain ⟨h1, h2, h3, h4, h5⟩ := hs
  obtain ⟨e1, _, e3⟩ := one_loop (q := q) (by omega) h
  refine ⟨by simpa using h1, ?_, h3, ?_, h5⟩
  · intro c hc
    simp only [e3, List.mem_singleton] at hc
    exact hq c hc.symm
  · intro hr
    obtain ⟨k1, k2, k3, k4⟩ := h4 hr
    refine ⟨k1, k2, fun h0 => ?_, fun _ => k4 (by rw [e1]; simp)⟩
    have := k3 h0
    rw [e1] at this
    cases this

theorem act_tidy {s s' : St} {a : Act} (hw : Sound s) (hs : Tidy s) (ht : idle s = true ∨ (a ≠ .start ∧ a ≠ .stop))
    (h : act s a = some s') : Tidy s' := by
  have hs0 := hs
  obtain ⟨h1, h2, h3, h4, h5⟩ := hs
  cases a with
  | start =>
    rcases ht with ht | ht
    · simp only [idle, Bool.and_eq_true, decide_eq_true_eq] at ht
      simp only [act] at h
      split at h
      · cases h; exact hs0
      · rename_i hr
        obtain ⟨k1, k2, k3, k4⟩ := h4 (by simpa using hr)
        have hl := k3 ht.2
        cases h
        refine ⟨by simp only [hl, List.length_nil]; omega, ?_, fun _ => ht.2, fun hf => by simp at hf, h5⟩
        intro c hc
        simp only [hl, List.not_mem_nil] at hc
    · exact absurd rfl ht.1
  | stop =>
    rcases ht with ht | ht
    · simp only [idle, Bool.and_eq_true, decide_eq_true_eq] at ht
      simp only [act] at h
      split at h
      · cases h; exact hs0
      · cases h
        refine ⟨h1, h2, fun hf => by simp at hf, fun _ => ⟨ht.1.1, ht.1.2, fun h0 => ?_, fun _ => by simp⟩, by simp only; omega⟩
        simp at h0
    · exact absurd rfl ht.2
  | add =>
    simp only [act] at h
    split at h
    · cases h
    · rename_i h0
      cases h
      refine ⟨by simp only; omega, h2, h3, fun hr => ?_, h5⟩
      exact absurd (h4 hr).1 h0
  | spawn =>
    simp only [act] at h
    split at h
    · cases h
    · rename_i h0
      cases h
      refine ⟨by simp only [List.length_append, List.length_singleton]; omega, ?_, h3, fun hr => ?_, h5⟩
      · intro c hc
        rcases List.mem_append.1 hc with hc | hc
        · exact h2 c hc
        · simp at hc
      · exact absurd (h4 hr).2.1 h0
  | ret =>
    simp only [act] at h
    split at h
    · cases h
    · rename_i h0
      have hwg : s.wg = 0 := by
        cases hz : s.wg with
        | zero => rfl
        | succ n => exact absurd (.inr (by omega)) h0
      have hl : s.loops = [] := List.length_eq_zero_iff.1 (by have := hw.count; omega)
      have hst : s.stopping ≠ 0 := fun e => h0 (.inl e)
      cases h
      refine ⟨h1, h2, fun hr => absurd (h3 hr) hst, fun hr => ?_, by simp only; omega⟩
      obtain ⟨k1, k2, _, k4⟩ := h4 hr
      exact ⟨k1, k2, fun _ => hl, k4⟩
  | enter i =>
    simp only [act] at h
    split at h
    · rename_i hi
      cases h
      exact set_tidy hs0 hi (fun c e => by cases e; rfl)
    · cases h
  | tick i =>
    simp only [act] at h
    split at h
    · rename_i hi
      cases h
      exact set_tidy hs0 hi (fun c e => by cases e)
    · cases h
  | finish i =>
    simp only [act] at h
    split at h
    · rename_i hi
      cases h
      exact set_tidy hs0 hi (fun c e => by cases e)
    · cases h
  | see i =>
    simp only [act] at h
    split at h
    · rename_i hi
      split at h
      · cases h
        exact set_tidy hs0 hi (fun c e => by cases e)
      · cases h
    · cases h
  | cancel i =>
    simp only [act] at h
    split at h
    · rename_i hi
      cases h
      exact set_tidy hs0 hi (fun c e => by cases e)
    · cases h
  | leave i =>
    simp only [act] at h
    split at h
    · rename_i hi
      obtain ⟨e1, e2, _⟩ := one_loop (q := .out) (by omega) hi
      have he : s.loops.eraseIdx i = [] := by rw [e1, e2]; rfl
      cases h
      refine ⟨by simp only [he, List.length_nil]; omega, ?_, h3, fun hr => ?_, h5⟩
      · intro c hc
        simp only [he, List.not_mem_nil] at hc
      · obtain ⟨k1, k2, _, _⟩ := h4 hr
        exact ⟨k1, k2, fun _ => he, fun hne => absurd he hne⟩
    · cases h

theorem fresh_tidy : Tidy fresh := ⟨by decide, fun c hc => (by cases hc), by decide, fun _ => ⟨rfl, rfl, fun _ => rfl, fun h => absurd rfl h⟩, by decide⟩

theorem inTurn_cons {s : St} {a : Act} {as : List Act} (h : inTurn s (a :: as) = true) :
    (idle s = true ∨ (a ≠ .start ∧ a ≠ .stop)) ∧ ∃ s', act s a = some s' ∧ inTurn s' as = true := by
  simp only [inTurn, Bool.and_eq_true, Bool.or_eq_true, Bool.not_eq_true', Bool.or_eq_false_iff, decide_eq_false_iff_not] at h
  refine ⟨h.1, ?_⟩
  cases ha : act s a with
  | none => rw [ha] at h; simp at h
  | some s' => rw [ha] at h; exact ⟨s', rfl, h.2⟩

theorem inTurn_acts : ∀ {as : List Act} {s : St}, Sound s → Tidy s → inTurn s as = true →
    ∃ s', acts s as = some s' ∧ Sound s' ∧ Tidy s' := by
  intro as
  induction as with
  | nil => intro s hw ht _; exact ⟨s, rfl, hw, ht⟩
  | cons a as ih =>
    intro s hw ht h
    obtain ⟨h1, s1, h2, h3⟩ := inTurn_cons h
    obtain ⟨s', h4, h5⟩ := ih (act_sound hw h2) (act_tidy hw ht h1 h2) h3
    exact ⟨s', by simp only [acts, h2]; exact h4, h5⟩

theorem inTurn_append : ∀ {as bs : List Act} {s : St}, inTurn s (as ++ bs) = true →
    inTurn s as = true ∧ ∃ s', acts s as = some s' ∧ inTurn s' bs = true := by
  intro as bs
  induction as with
  | nil => intro s h; exact ⟨rfl, s, rfl, h⟩
  | cons a as ih =>
    intro s h
    obtain ⟨h1, s1, h2, h3⟩ := inTurn_cons h
    obtain ⟨k1, s', k2, k3⟩ := ih h3
    refine ⟨?_, s', by simp only [acts, h2]; exact k2, k3⟩
    simp only [inTurn, h2, k1, Bool.and_true, Bool.or_eq_true, Bool.not_eq_true', Bool.or_eq_false_iff, decide_eq_false_iff_not]
    exact h1

/-- **C190, one at a time.** When calls do not overlap there is never more than one loop. -/
theorem c190_one_partial (as : List Act) (h : inTurn fresh as = true) :
    ∃ s, acts fresh as = some s ∧ s.loops.length ≤ 1 := by
  obtain ⟨s, h1, _, h3⟩ := inTurn_acts fresh_sound fresh_tidy h
  exact ⟨s, h1, by have := h3.one; omega⟩

/-- Nothing is there and nothing is about to be. -/
structure Dead (s : St) : Prop where
  loops : s.loops = []
  adding : s.adding = 0
  spawning : s.spawning = 0

theorem act_dead {s s' : St} {a : Act} (hd : Dead s) (ha : a ≠ .start) (h : act s a = some s') :
    Dead s' ∧ ∀ i, a ≠ .tick i := by
  obtain ⟨h1, h2, h3⟩ := hd
  cases a with
  | start => exact absurd rfl ha
  | add => simp [act, h2] at h
  | spawn => simp [act, h3] at h
  | stop =>
    simp only [act] at h
    split at h <;> cases h <;> exact ⟨⟨h1, h2, h3⟩, fun i e => by cases e⟩
  | ret =>
    simp only [act] at h
    split at h
    · cases h
    · cases h; exact ⟨⟨h1, h2, h3⟩, fun i e => by cases e⟩
  | enter i => simp [act, h1] at h
  | tick i => simp [act, h1] at h
  | finish i => simp [act, h1] at h
  | see i => simp [act, h1] at h
  | cancel i => simp [act, h1] at h
  | leave i => simp [act, h1] at h

theorem acts_dead : ∀ {bs : List Act} {s s' : St}, Dead s → .start ∉ bs → acts s bs = some s' →
    Dead s' ∧ ∀ i, .tick i ∉ bs := by
  intro bs
  induction bs with
  | nil => intro s s' hd _ h; cases h; exact ⟨hd, fun i hi => by cases hi⟩
  | cons b bs ih =>
    intro s s' hd hn h
    simp only [List.mem_cons, not_or] at hn
    simp only [acts] at h
    split at h
    · cases h
    · rename_i s1 h1
      obtain ⟨k1, k2⟩ := act_dead hd (fun e => hn.1 e.symm) h1
      obtain ⟨k3, k4⟩ := ih k1 hn.2 h
      refine ⟨k3, fun i hi => ?_⟩
      rcases List.mem_cons.1 hi with e | hi
      · exact k2 i e.symm
      · exact k4 i hi

/-- **C190, stopped.** When calls do not overlap, no loop is left when `Stop` returns, and no work begins before the
next `Start`. -/
theorem c190_stopped_partial (as bs : List Act) (hn : .start ∉ bs) (h : inTurn fresh (as ++ .ret :: bs) = true) :
    ∀ i, .tick i ∉ bs := by
  obtain ⟨h1, s, h2, h3⟩ := inTurn_append h
  obtain ⟨s0, e0, hw, ht⟩ := inTurn_acts fresh_sound fresh_tidy h1
  rw [e0] at h2
  have h2 := Option.some.inj h2
  subst h2
  obtain ⟨k1, s1, k2, k3⟩ := inTurn_cons h3
  have ht1 := act_tidy hw ht k1 k2
  have hw1 := act_sound hw k2
  have hd : Dead s1 := by
    simp only [act] at k2
    split at k2
    · cases k2
    · rename_i h0
      have hst : s0.stopping ≠ 0 := fun e => h0 (.inl e)
      have hr : s0.running = false := by
        cases hr : s0.running with
        | false => rfl
        | true => exact absurd (ht.up hr) hst
      obtain ⟨d1, d2, _, _⟩ := ht.down hr
      have hfew := ht.few
      cases k2
      exact ⟨(ht1.down hr).2.2.1 (by simp only; omega), d1, d2⟩
  obtain ⟨s', e', _⟩ := inTurn_acts hw1 ht1 k3
  exact (acts_dead hd hn e').2

/-- **C190, not running.** When calls do not overlap and none is in progress, a processor that says it is not running
has no loop. -/
theorem c190_idle_partial (as : List Act) (s : St) (h : inTurn fresh as = true) (hs : acts fresh as = some s)
    (hi : idle s = true) (hr : s.running = false) : s.loops = [] := by
  obtain ⟨s0, e0, _, ht⟩ := inTurn_acts fresh_sound fresh_tidy h
  rw [hs] at e0
  cases e0
  simp only [idle, Bool.and_eq_true, decide_eq_true_eq] at hi
  exact (ht.down hr).2.2.1 hi.2

/-- Not a call, and not the end of the context. -/
def Quiet (a : Act) : Prop := a ≠ .start ∧ a ≠ .stop ∧ ∀ i, a ≠ .cancel i

theorem quiet_all {bs : List Act} (h : (bs.all fun x => match x with
    | .enter _ | .see _ | .leave _ | .finish _ => true
    | _ => false) = true) : ∀ b ∈ bs, Quiet b ∧ ∀ i, b ≠ .tick i := by
  intro b hb
  have := List.all_eq_true.1 h b hb
  cases b <;> simp at this <;> exact ⟨⟨by simp, by simp, by simp⟩, by simp⟩

/-- **C190, stopping.** When calls do not overlap a waiting `Stop` can return without any further work begun:
a loop in its `select` can always take the stop signal. -/
theorem c190_returns_partial (as : List Act) (s : St) (h : inTurn fresh as = true) (hs : acts fresh as = some s)
    (hst : s.stopping ≠ 0) :
    (∀ i c, s.loops[i]? = some (.wait c) → (act s (.see i)).isSome = true) ∧
    ∃ bs, (∀ b ∈ bs, Quiet b ∧ ∀ i, b ≠ .tick i) ∧ (acts s (bs ++ [.ret])).isSome = true := by
  obtain ⟨s0, e0, hw, ht⟩ := inTurn_acts fresh_sound fresh_tidy h
  rw [hs] at e0
  cases e0
  have hr : s.running = false := by
    cases hr : s.running with
    | false => rfl
    | true => exact absurd (ht.up hr) hst
  obtain ⟨d1, d2, _, d4⟩ := ht.down hr
  have hcount := hw.count
  have hone := ht.one
  refine ⟨?_, ?_⟩
  · intro i c hi
    obtain ⟨e1, _, _⟩ := one_loop (q := .out) (by omega) hi
    have hc : c = s.chan := ht.listens c (by rw [e1]; simp)
    have := d4 (by rw [e1]; simp)
    simp [act, hi, hc, this]
  · match hl : s.loops with
    | [] =>
      refine ⟨[], by simp, ?_⟩
      have : s.wg = 0 := by rw [hcount, hl, d2]; rfl
      simp [acts, act, hst, this]
    | _ :: _ :: _ => rw [hl] at hone; simp at hone; omega
    | [p] =>
      have hwg : s.wg = 1 := by rw [hcount, hl, d2]; rfl
      have hcl := d4 (by rw [hl]; simp)
      cases p with
      | top => exact ⟨[.enter 0, .see 0, .leave 0], quiet_all (by decide), by simp [acts, act, hl, hcl, hwg, hst]⟩
      | wait c =>
        have hc : c = s.chan := ht.listens c (by rw [hl]; simp)
        exact ⟨[.see 0, .leave 0], quiet_all (by decide), by simp [acts, act, hl, hc, hcl, hwg, hst]⟩
      | work => exact ⟨[.finish 0, .enter 0, .see 0, .leave 0], quiet_all (by decide), by simp [acts, act, hl, hcl, hwg, hst]⟩
      | out => exact ⟨[.leave 0], quiet_all (by decide), by simp [acts, act, hl, hwg, hst]⟩

/-- While it runs the one loop is there, or about to be. -/
structure Live (s : St) : Prop where
  one : s.running = true → s.adding + s.spawning + s.loops.length = 1
  stays : s.running = true → Pc.out ∉ s.loops

theorem act_live {s s' : St} {a : Act} (hw : Sound s) (ht : Tidy s) (hl : Live s) (hi : idle s = true ∨ (a ≠ .start ∧ a ≠ .stop))
    (hc : ∀ i, a ≠ .cancel i) (h : act s a = some s') : Live s' := by
  obtain ⟨h1, h2⟩ := hl
  have set : ∀ {i : Nat} {q : Pc}, (s.running = true → q ≠ .out) → Live { s with loops := s.loops.set i q } := by
    intro i q hq
    refine ⟨fun hr => by simpa using h1 hr, fun hr hm => ?_⟩
    rcases List.mem_or_eq_of_mem_set hm with hm | hm
    · exact h2 hr hm
    · exact hq hr hm.symm
  cases a with
  | cancel i => exact absurd rfl (hc i)
  | start =>
    simp only [act] at h
    split at h
    · cases h; exact ⟨h1, h2⟩
    · rename_i hr
      rcases hi with hi | hi
      · simp only [idle, Bool.and_eq_true, decide_eq_true_eq] at hi
        have hd := ht.down (by simpa using hr)
        have hl := hd.2.2.1 hi.2
        cases h
        refine ⟨fun _ => ?_, fun _ hm => ?_⟩
        · simp only [hl, List.length_nil]; omega
        · simp only [hl, List.not_mem_nil] at hm
      · exact absurd rfl hi.1
  | stop =>
    simp only [act] at h
    split at h
    · cases h; exact ⟨h1, h2⟩
    · cases h; exact ⟨fun hf => by simp at hf, fun hf => by simp at hf⟩
  | add =>
    simp only [act] at h
    split at h
    · cases h
    · cases h
      refine ⟨fun hr => ?_, h2⟩
      have := h1 hr
      simp only; omega
  | spawn =>
    simp only [act] at h
    split at h
    · cases h
    · cases h
      refine ⟨fun hr => ?_, fun hr hm => ?_⟩
      · have := h1 hr
        simp only [List.length_append, List.length_singleton]; omega
      · simp only [List.mem_append, List.mem_singleton, reduceCtorEq, or_false] at hm
        exact h2 hr hm
  | ret =>
    simp only [act] at h
    split at h
    · cases h
    · cases h; exact ⟨h1, h2⟩
  | enter i =>
    simp only [act] at h
    split at h
    · cases h; exact set (fun _ => by simp)
    · cases h
  | tick i =>
    simp only [act] at h
    split at h
    · cases h; exact set (fun _ => by simp)
    · cases h
  | finish i =>
    simp only [act] at h
    split at h
    · cases h; exact set (fun _ => by simp)
    · cases h
  | see i =>
    simp only [act] at h
    split at h
    · rename_i c hi'
      split at h
      · rename_i hcl
        cases h
        refine set (fun hr => ?_)
        have := ht.listens c (List.mem_of_getElem? hi')
        exact absurd (this ▸ hcl) (hw.open_ hr)
      · cases h
    · cases h
  | leave i =>
    simp only [act] at h
    split at h
    · rename_i hi'
      cases h
      exact ⟨fun hr => absurd (List.mem_of_getElem? hi') (h2 hr), fun hr => absurd (List.mem_of_getElem? hi') (h2 hr)⟩
    · cases h

/-- **C190, `IsRunning`.** When calls do not overlap, none is in progress and the context is not cancelled, it says
whether there is a loop, and there is one at most. -/
theorem c190_flag_partial (as : List Act) (s : St) (h : inTurn fresh as = true) (hs : acts fresh as = some s)
    (hc : ∀ i, .cancel i ∉ as) (hi : idle s = true) : (s.running = true → s.loops.length = 1) ∧ (s.running = false → s.loops = []) := by
  refine ⟨?_, c190_idle_partial as s h hs hi⟩
  have key : ∀ (as : List Act) (s0 : St), Sound s0 → Tidy s0 → Live s0 → inTurn s0 as = true → (∀ i, .cancel i ∉ as) →
      ∀ s1, acts s0 as = some s1 → Live s1 := by
    intro as
    induction as with
    | nil => intro s0 _ _ hl _ _ s1 e; cases e; exact hl
    | cons a as ih =>
      intro s0 hw ht hl hin hc s1 e
      obtain ⟨k1, s2, k2, k3⟩ := inTurn_cons hin
      simp only [acts, k2] at e
      exact ih s2 (act_sound hw k2) (act_tidy hw ht k1 k2)
        (act_live hw ht hl k1 (fun i e => hc i (by rw [e]; simp)) k2) k3 (fun i hm => hc i (List.mem_cons_of_mem _ hm)) s1 e
  intro hr
  have hl := key as fresh fresh_sound fresh_tidy ⟨by decide, by decide⟩ h hc s hs
  simp only [idle, Bool.and_eq_true, decide_eq_true_eq] at hi
  have := hl.one hr
  omega

/-! ### Calls that overlap -/

/-- **C190, full claim, one at a time.** -/
def C190One : Prop := ∀ as s, acts fresh as = some s → (s.loops.filter (· = .work)).length ≤ 1

/-- **C190, full claim, stopped.** No work begins after a `Stop` has returned, before the next `Start`. -/
def C190Stopped : Prop := ∀ as bs : List Act, (acts fresh (as ++ .ret :: bs)).isSome = true → .start ∉ bs → ∀ i, .tick i ∉ bs

/-- **C190, full claim, stopping.** A waiting `Stop` can return, without other calls. -/
def C190Returns : Prop := ∀ as s, acts fresh as = some s → s.stopping ≠ 0 →
  ∃ bs, (∀ b ∈ bs, Quiet b) ∧ (acts s (bs ++ [.ret])).isSome = true

/-- **C190, full claim, `IsRunning`.** When no call is in progress it says whether there is a loop. -/
def C190Flag : Prop := ∀ as s, acts fresh as = some s → idle s = true → (s.running = true ↔ s.loops ≠ [])

/-- A `Start` that comes while a `Stop` waits for the batch of the loop to end. -/
def overtaken : List Act := [.start, .add, .spawn, .enter 0, .tick 0, .stop, .start, .add, .spawn]

/-- **C190 fails, one at a time.** Two loops work at once. -/
theorem c190_one_fails : ¬ C190One := by
  intro h
  have := h (overtaken ++ [.enter 1, .tick 1]) _ rfl
  revert this
  decide +kernel

/-- **C190 fails, stopped.** `Stop` comes between the mutex and `wg.Add(1)` of `Start`: it returns at once, and the loop
that then begins may take a tick instead of the stop signal. -/
theorem c190_stopped_fails : ¬ C190Stopped := by
  intro h
  exact h [.start, .stop] [.add, .spawn, .enter 0, .tick 0] (by decide +kernel) (by decide) 0 (by decide)

/-- A loop that listens on an open channel, or will. -/
structure Stuck (s : St) : Prop where
  running : s.running = true
  open_ : s.chan ∉ s.closed
  some_ : s.loops ≠ []
  listens : ∀ c, Pc.wait c ∈ s.loops → c ∉ s.closed
  stays : Pc.out ∉ s.loops

theorem mem_set {l : List Pc} {i : Nat} {x y : Pc} (h : x ∈ l.set i y) : x ∈ l ∨ x = y := List.mem_or_eq_of_mem_set h

theorem act_stuck {s s' : St} {a : Act} (hq : Quiet a) (hs : Stuck s) (h : act s a = some s') : Stuck s' := by
  obtain ⟨h1, h2, h3, h4, h5⟩ := hs
  obtain ⟨q1, q2, q3⟩ := hq
  have set : ∀ {i : Nat} {q : Pc}, q ≠ .out → (∀ c, q = .wait c → c ∉ s.closed) → Stuck { s with loops := s.loops.set i q } := by
    intro i q hq1 hq2
    refine ⟨h1, h2, by simpa using h3, ?_, ?_⟩
    · intro c hc
      rcases mem_set hc with hc | hc
      · exact h4 c hc
      · exact hq2 c hc.symm
    · intro hc
      rcases mem_set hc with hc | hc
      · exact h5 hc
      · exact hq1 hc.symm
  cases a with
  | start => exact absurd rfl q1
  | stop => exact absurd rfl q2
  | cancel i => exact absurd rfl (q3 i)
  | add =>
    simp only [act] at h
    split at h
    · cases h
    · cases h; exact ⟨h1, h2, h3, h4, h5⟩
  | spawn =>
    simp only [act] at h
    split at h
    · cases h
    · cases h
      refine ⟨h1, h2, by simp, ?_, ?_⟩
      · intro c hc
        simp only [List.mem_append, List.mem_singleton, reduceCtorEq, or_false] at hc
        exact h4 c hc
      · simpa using h5
  | ret =>
    simp only [act] at h
    split at h
    · cases h
    · cases h; exact ⟨h1, h2, h3, h4, h5⟩
  | enter i =>
    simp only [act] at h
    split at h
    · cases h; exact set (by simp) (fun c e => by cases e; exact h2)
    · cases h
  | tick i =>
    simp only [act] at h
    split at h
    · cases h; exact set (by simp) (fun c e => by cases e)
    · cases h
  | finish i =>
    simp only [act] at h
    split at h
    · cases h; exact set (by simp) (fun c e => by cases e)
    · cases h
  | see i =>
    simp only [act] at h
    split at h
    · rename_i c hi
      split at h
      · rename_i hc
        exact absurd hc (h4 c (List.mem_of_getElem? hi))
      · cases h
    · cases h
  | leave i =>
    simp only [act] at h
    split at h
    · rename_i hi
      exact absurd (List.mem_of_getElem? hi) h5
    · cases h

theorem acts_stuck : ∀ {bs : List Act} {s s' : St}, (∀ b ∈ bs, Quiet b) → Stuck s → acts s bs = some s' → Stuck s' := by
  intro bs
  induction bs with
  | nil => intro s s' _ hs h; cases h; exact hs
  | cons b bs ih =>
    intro s s' hq hs h
    simp only [acts] at h
    split at h
    · cases h
    · rename_i s1 h1
      exact ih (fun c hc => hq c (List.mem_cons_of_mem _ hc)) (act_stuck (hq b (by simp)) hs h1) h

/-- **C190 fails, stopping.** The loop reads the channel anew on each round: after an overtaking `Start` it listens on
the new one, and the first `Stop` waits until somebody stops the processor again. -/
theorem c190_returns_fails : ¬ C190Returns := by
  intro h
  obtain ⟨bs, hq, hb⟩ := h (overtaken ++ [.finish 0]) _ rfl (by decide)
  rw [acts_append] at hb
  have hso : Sound (⟨true, 2, 3, [1], 2, [.top, .top], 0, 0, 1, false⟩ : St) := acts_sound (as := overtaken ++ [.finish 0]) fresh_sound rfl
  have hst : Stuck (⟨true, 2, 3, [1], 2, [.top, .top], 0, 0, 1, false⟩ : St) :=
    ⟨rfl, by decide, by decide, fun c hc => by simp at hc, by decide⟩
  have hbs : (acts (⟨true, 2, 3, [1], 2, [.top, .top], 0, 0, 1, false⟩ : St) bs).bind (acts · [.ret]) ≠ none := by
    intro e
    have : ((acts (⟨true, 2, 3, [1], 2, [.top, .top], 0, 0, 1, false⟩ : St) bs).bind (acts · [.ret])).isSome = true := hb
    rw [e] at this
    cases this
  cases hs : acts (⟨true, 2, 3, [1], 2, [.top, .top], 0, 0, 1, false⟩ : St) bs with
  | none => rw [hs] at hbs; exact hbs rfl
  | some s1 =>
    rw [hs] at hbs
    have k1 := acts_sound hso hs
    have k2 := acts_stuck hq hst hs
    apply hbs
    have : s1.wg ≠ 0 := by
      have h1 := k1.count
      have h2 : s1.loops.length ≠ 0 := fun e => k2.some_ (List.length_eq_zero_iff.1 e)
      omega
    simp [acts, act, this]

/-- **C190 fails, `IsRunning`.** After its context is cancelled the loop is gone; the processor says that it is running,
and `Start` does nothing. -/
theorem c190_flag_fails : ¬ C190Flag ∧ ∃ as s, acts fresh as = some s ∧ inTurn fresh as = true ∧ s.running = true ∧ s.loops = [] ∧
    act s .start = some s := by
  have hw : acts fresh [.start, .add, .spawn, .enter 0, .cancel 0, .leave 0] = some ⟨true, 1, 2, [], 0, [], 0, 0, 0, false⟩ := rfl
  refine ⟨fun h => ?_, _, _, hw, by decide +kernel, rfl, rfl, rfl⟩
  have := (h _ _ hw (by decide)).1 rfl
  exact this rfl

/-- Started, working, stopped, and started again. -/
example : inTurn fresh [.start, .add, .spawn, .enter 0, .tick 0, .stop, .finish 0, .enter 0, .tick 0, .finish 0, .enter 0, .see 0, .leave 0,
    .ret, .start, .add, .spawn, .enter 0, .tick 0] = true := by decide +kernel

/-- `Stop` does not return while there is work. -/
example : acts fresh [.start, .add, .spawn, .enter 0, .tick 0, .stop, .ret] = none := by decide +kernel

end Blnk.Proc
