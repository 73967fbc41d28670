import Verif.Model.Backpressure
import Verif.Props.QueueTerms
/-
C130–C132: the gate in front of the transaction queue.
-/
namespace Blnk.Press
open Blnk

/-! ### Specification -/

/-- The tasks of a queue that still have to be done. -/
def size : Info → Nat
  | .counts p s r => p + s + r
  | _ => 0

/-- Redis uses more of its memory than it may. -/
def MemoryOver (c : Cfg) (w : World) : Prop :=
  c.hasRedis = true ∧ ∃ u m, w.memory = some (u, m) ∧ 0 < m ∧
    (if 0 < c.memoryPercent then c.memoryPercent else 85) * m ≤ 100 * u

/-- There are as many tasks as there may be, and they can be counted. -/
def TasksOver (c : Cfg) (w : World) : Prop :=
  0 < c.maxPending ∧ c.hasInspector = true ∧ (∀ q ∈ Queue.servedQueues c.queues, w.info q ≠ .failed) ∧
    c.maxPending ≤ (((Queue.servedQueues c.queues).map (fun q => size (w.info q))).sum : Nat)

/-- Redis answers what the gate asks. -/
def Answers (c : Cfg) (w : World) : Prop :=
  (c.hasRedis = true → w.memory ≠ none) ∧ ∀ q ∈ Queue.servedQueues c.queues, w.info q ≠ .failed

/-- The queue is full. -/
def Full (c : Cfg) (w : World) : Prop := MemoryOver c w ∨ TasksOver c w

/-! ### One evaluation -/

theorem sumAll_some {w : World} {qs : List String} (h : ∀ q ∈ qs, w.info q ≠ .failed) :
    sumAll w qs = some ((qs.map (fun q => size (w.info q))).sum) := by
  induction qs with
  | nil => rfl
  | cons q qs ih =>
    have hq := h q (by simp)
    have hp : pendingTotal w q = some (size (w.info q)) := by
      unfold pendingTotal
      cases hi : w.info q with
      | failed => exact absurd hi hq
      | notFound => rfl
      | counts a b d => rfl
    simp only [sumAll, hp, ih (fun x hx => h x (by simp [hx])), Option.map_some, List.map_cons, List.sum_cons]

theorem memoryFull_iff {c : Cfg} {w : World} {u m : Int} (hr : c.hasRedis = true) (hm : w.memory = some (u, m)) :
    memoryFull c u m = true ↔ MemoryOver c w := by
  have key : ∀ p : Rat, 0 < m → (p ≤ (u : Rat) / (m : Rat) * 100 ↔ p * m ≤ 100 * u) := by
    intro p hm
    have h0 : (0 : Rat) < (m : Rat) := by exact_mod_cast hm
    have e : (u : Rat) / (m : Rat) * 100 * m = 100 * u := by
      have := Rat.div_mul_cancel (a := (u : Rat)) (Rat.ne_of_gt h0)
      grind
    constructor
    · intro h
      have := Rat.mul_le_mul_of_nonneg_right h (Rat.le_of_lt h0)
      rwa [e] at this
    · intro h
      exact Rat.le_of_mul_le_mul_right (by rwa [e]) h0
  unfold memoryFull MemoryOver
  simp only [Bool.and_eq_true, decide_eq_true_eq]
  constructor
  · rintro ⟨h0, h1⟩
    refine ⟨hr, u, m, hm, h0, ?_⟩
    have := (key _ h0).1 h1
    by_cases hp : c.memoryPercent ≤ 0
    · rw [if_pos hp] at this; rw [if_neg (by grind)]; exact this
    · rw [if_neg hp] at this; rw [if_pos (by grind)]; exact this
  · rintro ⟨_, u', m', h', h0, h1⟩
    rw [hm] at h'
    obtain ⟨rfl, rfl⟩ := Prod.mk.inj (Option.some.inj h')
    refine ⟨h0, (key _ h0).2 ?_⟩
    by_cases hp : c.memoryPercent ≤ 0
    · rw [if_pos hp]; rw [if_neg (by grind)] at h1; exact h1
    · rw [if_neg hp]; rw [if_pos (by grind)] at h1; exact h1

theorem tasksFull_some {c : Cfg} {w : World} (h : ∀ q ∈ Queue.servedQueues c.queues, w.info q ≠ .failed) :
    ∃ b, tasksFull c w = some b ∧ (b = true ↔ TasksOver c w) := by
  unfold tasksFull
  by_cases hc : 0 < c.maxPending ∧ c.hasInspector = true
  · rw [if_pos hc]
    refine ⟨_, by rw [pendingCount, sumAll_some h, Option.map_some], ?_⟩
    rw [decide_eq_true_eq]
    exact ⟨fun hle => ⟨hc.1, hc.2, h, hle⟩, fun ho => ho.2.2.2⟩
  · rw [if_neg hc]
    exact ⟨false, rfl, by simp, fun ho => absurd ⟨ho.1, ho.2.1⟩ hc⟩

/-- An evaluation that gets its answers tells whether the queue is full. -/
theorem evaluate_iff {c : Cfg} {w : World} (h : Answers c w) : ∃ b, evaluate c w = some b ∧ (b = true ↔ Full c w) := by
  obtain ⟨b, hb, hb'⟩ := tasksFull_some h.2
  unfold evaluate
  by_cases hr : c.hasRedis = true
  · rw [if_pos hr]
    cases hm : w.memory with
    | none => exact absurd hm (h.1 hr)
    | some p =>
      obtain ⟨u, m⟩ := p
      dsimp only
      by_cases hf : memoryFull c u m = true
      · rw [if_pos hf]
        exact ⟨true, rfl, fun _ => .inl ((memoryFull_iff hr hm).1 hf), fun _ => rfl⟩
      · rw [if_neg hf]
        refine ⟨b, hb, fun hx => .inr (hb'.1 hx), fun hx => ?_⟩
        rcases hx with hx | hx
        · exact absurd ((memoryFull_iff hr hm).2 hx) hf
        · exact hb'.2 hx
  · rw [if_neg hr]
    refine ⟨b, hb, fun hx => .inr (hb'.1 hx), fun hx => ?_⟩
    rcases hx with hx | hx
    · exact absurd hx.1 hr
    · exact hb'.2 hx

/-- An evaluation says "full" only if the queue is. -/
theorem evaluate_true {c : Cfg} {w : World} (h : evaluate c w = some true) : Full c w := by
  have ht : tasksFull c w = some true → TasksOver c w := by
    intro h
    unfold tasksFull at h
    by_cases hc : 0 < c.maxPending ∧ c.hasInspector = true
    · rw [if_pos hc] at h
      have hq : ∀ (qs : List String) (n : Nat), sumAll w qs = some n → ∀ q ∈ qs, w.info q ≠ .failed := by
        intro qs
        induction qs with
        | nil => intro n _ q hq; cases hq
        | cons a qs ih =>
          intro n hn q hq
          unfold sumAll at hn
          cases ha : pendingTotal w a with
          | none => rw [ha] at hn; cases hn
          | some k =>
            rw [ha] at hn
            dsimp only at hn
            cases hs : sumAll w qs with
            | none => rw [hs] at hn; cases hn
            | some l =>
              rcases List.mem_cons.1 hq with e | e
              · intro hf
                rw [← e] at ha
                unfold pendingTotal at ha
                rw [hf] at ha
                cases ha
              · exact ih l hs q e
      cases hs : pendingCount c w with
      | none => rw [hs] at h; cases h
      | some n =>
        have hall := hq _ n hs
        obtain ⟨b, hb, hb'⟩ := tasksFull_some (c := c) hall
        apply hb'.1
        have : tasksFull c w = some true := by
          unfold tasksFull
          rw [if_pos hc]; exact h
        rw [this] at hb
        exact (Option.some.inj hb).symm
    · rw [if_neg hc] at h
      cases h
  unfold evaluate at h
  by_cases hr : c.hasRedis = true
  · rw [if_pos hr] at h
    cases hm : w.memory with
    | none => rw [hm] at h; cases h
    | some p =>
      obtain ⟨u, m⟩ := p
      rw [hm] at h
      dsimp only at h
      by_cases hf : memoryFull c u m = true
      · exact .inl ((memoryFull_iff hr hm).1 hf)
      · rw [if_neg hf] at h
        exact .inr (ht h)
  · rw [if_neg hr] at h
    exact .inr (ht h)

/-! ### Attempts over time -/

theorem every_pos (c : Cfg) : 0 < c.every := by
  unfold Cfg.every
  split <;> omega

/-- What the gate remembers was found at the moment it remembers, no later than `hi`. -/
def Remembers (c : Cfg) (w : Int → World) (g : Gate) (hi : Int) : Prop :=
  ∀ t, g.checkedAt = some t → t ≤ hi ∧ evaluate c (w t) = some g.reject

/-- An answer rests on an evaluation of the last interval, or on a failed one now. -/
theorem allowed_spec {c : Cfg} {w : Int → World} {g : Gate} {hi t : Int} (h : Remembers c w g hi) (ht : hi ≤ t)
    (he : c.enabled = true) :
    Remembers c w (allowed c g t (w t)).2 t ∧
      ((evaluate c (w t) = none ∧ (allowed c g t (w t)).1 = true) ∨
        ∃ s, t - c.every < s ∧ s ≤ t ∧ evaluate c (w s) = some (!(allowed c g t (w t)).1)) := by
  have hp := every_pos c
  have hfresh : ∀ g', shouldReject c g t (w t) = shouldReject.fresh c g t (w t) → g' = g →
      Remembers c w (allowed c g t (w t)).2 t ∧
      ((evaluate c (w t) = none ∧ (allowed c g t (w t)).1 = true) ∨
        ∃ s, t - c.every < s ∧ s ≤ t ∧ evaluate c (w s) = some (!(allowed c g t (w t)).1)) := by
    intro _ e _
    unfold allowed
    rw [if_pos he, e]
    unfold shouldReject.fresh
    cases hev : evaluate c (w t) with
    | none =>
      dsimp only
      refine ⟨fun s hs => ⟨by have := (h s hs).1; omega, (h s hs).2⟩, .inl ⟨rfl, rfl⟩⟩
    | some r =>
      cases r
      · dsimp only
        refine ⟨fun s hs => ?_, .inr ⟨t, by omega, by omega, by rw [hev]; rfl⟩⟩
        obtain rfl := Option.some.inj hs
        exact ⟨by omega, hev⟩
      · dsimp only
        refine ⟨fun s hs => ?_, .inr ⟨t, by omega, by omega, by rw [hev]; rfl⟩⟩
        obtain rfl := Option.some.inj hs
        exact ⟨by omega, hev⟩
  cases hc : g.checkedAt with
  | none => exact hfresh g (by unfold shouldReject; rw [hc]) rfl
  | some s =>
    by_cases hlt : t - s < c.every
    · have e : shouldReject c g t (w t) = (some g.reject, g) := by
        unfold shouldReject; rw [hc]; dsimp only; rw [if_pos hlt]
      have hs := h s hc
      unfold allowed
      rw [if_pos he, e]
      cases hr : g.reject
      · dsimp only
        exact ⟨fun x hx => ⟨by have := (h x hx).1; omega, (h x hx).2⟩, .inr ⟨s, by omega, by omega, by rw [hs.2, hr]; rfl⟩⟩
      · dsimp only
        exact ⟨fun x hx => ⟨by have := (h x hx).1; omega, (h x hx).2⟩, .inr ⟨s, by omega, by omega, by rw [hs.2, hr]; rfl⟩⟩
    · exact hfresh g (by unfold shouldReject; rw [hc]; dsimp only; rw [if_neg hlt]) rfl

theorem attempts_spec {c : Cfg} {w : Int → World} (he : c.enabled = true) {ts : List Int} :
    ∀ {g : Gate} {hi : Int}, Remembers c w g hi → (hi :: ts).Pairwise (· ≤ ·) → ∀ (i : Nat) (t : Int), ts[i]? = some t →
      ∃ b, (attempts c w g ts).1[i]? = some b ∧
        ((evaluate c (w t) = none ∧ b = true) ∨ ∃ s, t - c.every < s ∧ s ≤ t ∧ evaluate c (w s) = some (!b)) := by
  induction ts with
  | nil => intro g hi _ _ i t h; cases h
  | cons x ts ih =>
    intro g hi hr hp i t h
    have hx : hi ≤ x := (List.pairwise_cons.1 hp).1 x (by simp)
    obtain ⟨hr', hs⟩ := allowed_spec hr hx he
    cases i with
    | zero =>
      obtain rfl := Option.some.inj h
      exact ⟨(allowed c g x (w x)).1, rfl, hs⟩
    | succ i => exact ih hr' (List.pairwise_cons.1 hp).2 i t h

/-- The same from the start of a process. -/
theorem attempts_start {c : Cfg} {w : Int → World} (he : c.enabled = true) {ts : List Int} (hp : ts.Pairwise (· ≤ ·))
    (i : Nat) (t : Int) (h : ts[i]? = some t) :
    ∃ b, (attempts c w {} ts).1[i]? = some b ∧
      ((evaluate c (w t) = none ∧ b = true) ∨ ∃ s, t - c.every < s ∧ s ≤ t ∧ evaluate c (w s) = some (!b)) := by
  cases ts with
  | nil => cases h
  | cons x ts =>
    have hp' : (x :: x :: ts).Pairwise (· ≤ ·) := by
      rw [List.pairwise_cons]
      refine ⟨fun y hy => ?_, hp⟩
      rcases List.mem_cons.1 hy with e | e
      · omega
      · exact (List.pairwise_cons.1 hp).1 y e
    exact attempts_spec he (hi := x) (fun t ht => by cases ht) hp' i t h

/-! ### C130: a full queue takes no more tasks -/

/-- **C130 in full**: an attempt while the queue is full is refused. -/
def C130Full : Prop :=
  ∀ (c : Cfg) (w : Int → World) (ts : List Int), c.enabled = true → ts.Pairwise (· ≤ ·) →
    ∀ (i : Nat) (t : Int), ts[i]? = some t → Full c (w t) → (attempts c w {} ts).1[i]? = some false

/-- **C130, what holds.** An attempt is refused if the queue has been full for the length of the check
interval and Redis answered at all these moments. Missing from the full statement: an answer may be as
old as the interval, and a check that fails lets everything through. -/
theorem c130_full_partial (c : Cfg) (w : Int → World) (ts : List Int) (he : c.enabled = true)
    (hp : ts.Pairwise (· ≤ ·)) (i : Nat) (t : Int) (h : ts[i]? = some t)
    (hf : ∀ s, t - c.every < s → s ≤ t → Full c (w s) ∧ Answers c (w s)) :
    (attempts c w {} ts).1[i]? = some false := by
  obtain ⟨b, hb, hs⟩ := attempts_start he hp i t h
  have hev := every_pos c
  rw [hb]
  rcases hs with ⟨hn, _⟩ | ⟨s, h1, h2, h3⟩
  · obtain ⟨b', hb', _⟩ := evaluate_iff (hf t (by omega) (by omega)).2
    rw [hn] at hb'; cases hb'
  · obtain ⟨hfull, hans⟩ := hf s h1 h2
    obtain ⟨b', hb', hiff⟩ := evaluate_iff hans
    rw [h3] at hb'
    have e := Option.some.inj hb'
    have := hiff.2 hfull
    rw [← e] at this
    cases b
    · rfl
    · cases this

/-- One queue, at most one task in it. -/
def tight : Cfg := { enabled := true, maxPending := 1, queues := { numberOfQueues := 1 } }

/-- No memory limit; a task is in the queue from the moment 1 on. -/
def filled (t : Int) : World := { info := fun _ => if t ≤ 0 then .notFound else .counts 1 0 0 }

theorem filled_full {t : Int} (h : 1 ≤ t) : Full tight (filled t) := by
  have e : ∀ q, (filled t).info q = .counts 1 0 0 := fun q => if_neg (by omega)
  refine .inr ⟨by decide, rfl, (fun q _ hq => by rw [e] at hq; cases hq), ?_⟩
  simp only [e, size]
  decide

theorem filled_answers (t : Int) : Answers tight (filled t) := by
  refine ⟨(fun _ h => by cases h), fun q _ h => ?_⟩
  have : (filled t).info q = if t ≤ 0 then Info.notFound else Info.counts 1 0 0 := rfl
  rw [this] at h
  split at h <;> cases h

theorem slip (n : Nat) : (attempts tight filled { checkedAt := some 0, reject := false } (List.replicate n 1)).1 = List.replicate n true := by
  have e : allowed tight { checkedAt := some 0, reject := false } 1 (filled 1) = (true, { checkedAt := some 0, reject := false }) := by
    decide +kernel
  induction n with
  | zero => rfl
  | succ n ih =>
    rw [List.replicate_succ, List.replicate_succ]
    unfold attempts
    rw [e]
    dsimp only
    rw [ih]

/-- **C130 fails, by any number of tasks.** However many tasks come within an interval, all are let into
a queue with room for one. -/
theorem c130_any_number_fails (n : Nat) :
    Full tight (filled 1) ∧ (attempts tight filled {} (0 :: List.replicate n 1)).1 = List.replicate (n + 1) true := by
  refine ⟨filled_full (by omega), ?_⟩
  have e : allowed tight {} 0 (filled 0) = (true, { checkedAt := some 0, reject := false }) := by decide +kernel
  unfold attempts
  rw [e]
  dsimp only
  rw [slip, List.replicate_succ]

theorem c130_full_fails : ¬ C130Full := by
  intro h
  have := h tight filled [0, 1] rfl (by decide) 1 1 rfl (filled_full (by omega))
  exact absurd this (by decide +kernel)

/-- Redis does not tell its memory; its only queue holds a million tasks. -/
def mute : World := { memory := none, info := fun _ => .counts 1000000 0 0 }

/-- **C130 fails when Redis does not answer**: every task is let through, whatever is in the queue. -/
theorem c130_failed_check_fails : TasksOver tight mute ∧ ∀ (g : Gate) (t : Int), g.checkedAt = none → (allowed tight g t mute).1 = true := by
  refine ⟨⟨by decide, rfl, (fun q _ hq => by cases hq), by decide +kernel⟩, fun g t h => ?_⟩
  unfold allowed shouldReject
  rw [h]
  rfl

/-- The hypotheses of `c130_full_partial` can be met: the third attempt comes when the queue has been
full for an interval. -/
example : (attempts tight filled {} [0, 1, 500000001]).1 = [true, true, false] := by decide +kernel
example : (attempts tight filled {} [0, 1, 500000001]).1[2]? = some false :=
  c130_full_partial tight filled [0, 1, 500000001] rfl (by decide) 2 500000001 rfl
    (fun s h1 _ => by
      have e : tight.every = 500000000 := rfl
      exact ⟨filled_full (by omega), filled_answers s⟩)

/-! ### C131: a queue with room takes every task -/

/-- **C131 in full**: an attempt while the queue is not full is let through. -/
def C131Full : Prop :=
  ∀ (c : Cfg) (w : Int → World) (ts : List Int), ts.Pairwise (· ≤ ·) →
    ∀ (i : Nat) (t : Int), ts[i]? = some t → ¬ Full c (w t) → (attempts c w {} ts).1[i]? = some true

theorem attempts_off {c : Cfg} {w : Int → World} (he : c.enabled = false) {ts : List Int} :
    ∀ g, (attempts c w g ts).1 = ts.map (fun _ => true) := by
  induction ts with
  | nil => intro g; rfl
  | cons x ts ih =>
    intro g
    have e : allowed c g x (w x) = (true, g) := by unfold allowed; rw [if_neg (by rw [he]; decide)]
    unfold attempts
    rw [e]
    dsimp only
    rw [ih, List.map_cons]

/-- **C131, what holds.** An attempt is refused only if the queue was full at a moment of the last
interval. -/
theorem c131_room_partial (c : Cfg) (w : Int → World) (ts : List Int) (hp : ts.Pairwise (· ≤ ·)) (i : Nat) (t : Int)
    (h : ts[i]? = some t) (hf : ∀ s, t - c.every < s → s ≤ t → ¬ Full c (w s)) :
    (attempts c w {} ts).1[i]? = some true := by
  cases he : c.enabled
  · rw [attempts_off he, List.getElem?_map, h]; rfl
  · obtain ⟨b, hb, hs⟩ := attempts_start he hp i t h
    rw [hb]
    rcases hs with ⟨_, rfl⟩ | ⟨s, h1, h2, h3⟩
    · rfl
    · cases b
      · exact absurd (evaluate_true h3) (hf s h1 h2)
      · rfl

/-- No memory limit; a task is in the queue up to the moment 0. -/
def emptied (t : Int) : World := { info := fun _ => if 0 < t then .counts 0 0 0 else .counts 1 0 0 }

theorem emptied_room {t : Int} (h : 0 < t) : ¬ Full tight (emptied t) := by
  have e : ∀ q, (emptied t).info q = .counts 0 0 0 := fun q => if_pos h
  rintro (⟨_, u, m, hm, h0, _⟩ | ⟨_, _, _, hle⟩)
  · have hm : some (0, 0) = some (u, m) := hm
    obtain ⟨_, rfl⟩ := Prod.mk.inj (Option.some.inj hm)
    omega
  · simp only [e, size] at hle
    exact absurd hle (by decide)

theorem c131_full_fails : ¬ C131Full := by
  intro h
  have := h tight emptied [0, 1] (by decide) 1 1 rfl (emptied_room (by omega))
  exact absurd this (by decide +kernel)

example : (attempts tight emptied {} [0, 1, 500000001]).1[2]? = some true :=
  c131_room_partial tight emptied [0, 1, 500000001] (by decide) 2 500000001 rfl
    (fun s h1 _ => by
      have e : tight.every = 500000000 := rfl
      exact emptied_room (by omega))

/-! ### C132: a submission the queue cannot take is refused, or it waits -/

/-- **C132 in full**: if the gate refuses a task of a submission, the client is told that the queue is
full, with the code made for it. -/
def C132Full : Prop :=
  ∀ (legs : Nat) (st : Stored) (gate : List Bool), false ∈ gate.take (tasksOf legs st) →
    (submit legs st gate).answer = .error "QUEUE_BACKPRESSURE"

theorem c132_full_fails : ¬ C132Full := by
  intro h
  have := h 0 ⟨1, true⟩ [false] (by decide)
  cases this

/-- **C132 fails, with loss.** The client is told that the transaction was created although it is neither
stored nor queued. -/
theorem c132_lost_fails : submit 0 ⟨0, false⟩ [false] = { answer := .created, stored := 0, queued := 0 } := rfl

theorem enqueueAll_spec (bs : List Bool) : (enqueueAll bs).1 ≤ bs.length ∧ bs.take (enqueueAll bs).1 = List.replicate (enqueueAll bs).1 true ∧
    ((enqueueAll bs).1 = bs.length ∨ bs[(enqueueAll bs).1]? = some false) := by
  induction bs with
  | nil => exact ⟨Nat.le_refl _, rfl, .inl rfl⟩
  | cons b bs ih =>
    cases b
    · exact ⟨Nat.zero_le _, rfl, .inr rfl⟩
    · obtain ⟨h1, h2, h3⟩ := ih
      refine ⟨by simp only [enqueueAll, List.length_cons]; omega, ?_, ?_⟩
      · simp only [enqueueAll, List.take_succ_cons, List.replicate_succ, h2]
      · rcases h3 with h3 | h3
        · exact .inl (by simp only [enqueueAll, List.length_cons, h3])
        · exact .inr (by simpa only [enqueueAll, List.getElem?_cons_succ] using h3)

/-- **C132, the legs of a split.** The tasks put into the queue are those before the first refusal: a
refusal in the middle leaves the earlier legs queued and the later ones not. -/
theorem c132_prefix_partial (legs : Nat) (st : Stored) (gate : List Bool) (hl : tasksOf legs st ≤ gate.length) :
    (submit legs st gate).queued ≤ tasksOf legs st ∧
    gate.take (submit legs st gate).queued = List.replicate (submit legs st gate).queued true ∧
    ((submit legs st gate).queued = tasksOf legs st ∨ gate[(submit legs st gate).queued]? = some false) := by
  obtain ⟨h1, h2, h3⟩ := enqueueAll_spec (gate.take (tasksOf legs st))
  have hlen : (gate.take (tasksOf legs st)).length = tasksOf legs st := by rw [List.length_take]; omega
  rw [hlen] at h1 h3
  rw [List.take_take, Nat.min_eq_left h1] at h2
  refine ⟨h1, h2, ?_⟩
  rcases h3 with h3 | h3
  · exact .inl h3
  · refine .inr ?_
    rw [List.getElem?_take] at h3
    split at h3
    · exact h3
    · cases h3

example : submit 3 ⟨3, true⟩ [true, false, true] = { answer := .created, stored := 3, queued := 1 } := rfl

/-- Any number of steps. -/
inductive Later (cfg : Blnk.Cfg) : Queue.Sys → Queue.Sys → Prop
  | refl (s) : Later cfg s s
  | step {a b c} : Later cfg a b → Queue.Step cfg b c → Later cfg a c

theorem later_rows {cfg : Blnk.Cfg} {a b : Queue.Sys} (h : Later cfg a b) : Queue.QInv a →
    Queue.QInv b ∧ ∀ r ∈ a.db.txns, r ∈ b.db.txns := by
  induction h with
  | refl => exact fun h => ⟨h, fun _ h => h⟩
  | step h1 h2 ih =>
    intro hq
    obtain ⟨hb, hr⟩ := ih hq
    refine ⟨Queue.step_qinv hb h2, fun r hm => ?_⟩
    have hm := hr r hm
    cases h2 with
    | other a => exact Queue.grow (act_txns cfg _ a) r hm
    | accept t ht => exact hm
    | persist t n1 n2 newId e ht he => exact (Queue.persistQueued_spec cfg _ t n1 n2 hb.inv).2.2.2.1 r hm
    | single k t n1 n2 hj => exact Queue.grow (recordSingle_txns cfg _ t n1 n2) r hm
    | batch js hj => exact Queue.grow (step_txns cfg _ (.batch (js.map (·.2)))) r hm
    | reject k t hj => exact Queue.grow (step_txns cfg _ (.store (Queue.rejectedRow t))) r hm

/-- **C132, what waits is not lost.** A submission without a date whose row was stored but whose task was
refused can be attempted at any later time: coalescing and recovery find the row, whatever happened since.
Missing from the full statement: the client is not told, a row that could not be stored is lost
(`c132_lost_fails`), and so is one with a date (`c132_scheduled_fails`). -/
theorem c132_waits_partial (cfg : Blnk.Cfg) (s : Queue.Sys) (hs : Queue.Reach cfg s) (t : Txn) (ht : t ∈ s.accepted)
    (hd : t.status = .queued) (n1 n2 : String) (hst : (Queue.persistQueued cfg s.db t n1 n2).2.2 = true) (s' : Queue.Sys)
    (hl : Later cfg { s with db := (Queue.persistQueued cfg s.db t n1 n2).1 } s') (newId : String) :
    ∃ x, Queue.Job s' (Queue.keyOf t) x ∧ x.id = newId ∧ x.parent = t.id ∧ x.reference = t.reference ++ "_q" := by
  have hq := Queue.reach_qinv hs
  obtain ⟨hi, hr, hstat, hg, hin⟩ := Queue.persistQueued_spec cfg s.db t n1 n2 hq.inv
  have hstep : Queue.Step cfg s { s with db := (Queue.persistQueued cfg s.db t n1 n2).1 } :=
    Queue.Step.persist s t n1 n2 "" .nothing ht (fun h => by cases h)
  obtain ⟨hq', hrows⟩ := later_rows hl (Queue.step_qinv hq hstep)
  have hk := (Queue.persistQueued_keeps cfg s.db t n1 n2 (.inl hd)).2.2.2.2.1
  have hm := hrows _ (hin hst)
  generalize (Queue.persistQueued cfg s.db t n1 n2).2.1 = row at *
  have hj : Queue.Job s' (Queue.keyOf row) _ := .copy newId hm (hstat.trans hd)
  rw [hk] at hj
  refine ⟨_, hj, rfl, ?_, ?_⟩
  · have := (applyPrecision_keeps ({ row with allowOverdraft := false, overdraftLimit := 0, inflight := false, atomic := false, skipQueue := false, effectiveDate := 0 } : Txn)).2.2.2.2.2.1
    have e := congrArg Queue.Key.id hk
    simp only [Queue.keyOf] at e
    simp [Queue.queueCopy, Queue.restore, Queue.scan, this]; exact e
  · have := (applyPrecision_keeps ({ row with allowOverdraft := false, overdraftLimit := 0, inflight := false, atomic := false, skipQueue := false, effectiveDate := 0 } : Txn)).2.2.2.2.1
    simp [Queue.queueCopy, Queue.restore, Queue.scan, this]; exact hr

/-- The demo submission, stored and then refused by the gate, long after. -/
def demoWaiting : Queue.Sys := { Queue.demoAccepted with
  db := (Queue.persistQueued {} Queue.demoAccepted.db (Blnk.submit Queue.demoSubmission) "x" "y").1 }

example : ∃ x, Queue.Job demoWaiting (Queue.keyOf (Blnk.submit Queue.demoSubmission)) x ∧ x.id = "z" ∧ x.parent = "p" ∧ x.reference = "r_q" := by
  have h1 : Queue.Reach {} Queue.demoOpened :=
    (Queue.Reach.init.step (.other {} (.base (.create "a" "" "USD")))).step (.other _ (.base (.create "b" "" "USD")))
  have h2 : Queue.Reach {} Queue.demoAccepted := h1.step (.accept _ Queue.demoSubmission rfl)
  exact c132_waits_partial {} Queue.demoAccepted h2 (Blnk.submit Queue.demoSubmission) (by simp [Queue.demoAccepted])
    (by decide +kernel) "x" "y" (by decide +kernel) demoWaiting (.refl _) "z"

/-- The demo submission with a date. -/
def dated : Txn := { Queue.demoSubmission with scheduledFor := some 100 }

/-- Stored, and refused by the gate. -/
def datedWaiting : Queue.Sys := { Queue.demoOpened with
  accepted := [Blnk.submit dated]
  db := (Queue.persistQueued {} Queue.demoOpened.db (Blnk.submit dated) "x" "y").1 }

/-- **C132 fails for a submission with a date**: it is accepted and stored, but nothing will ever attempt
it, since recovery and coalescing look for QUEUED rows only. -/
theorem c132_scheduled_fails : Queue.Reach {} datedWaiting ∧
    (∃ r ∈ datedWaiting.db.txns, r.id = dated.id ∧ r.status = .scheduled) ∧ ¬ ∃ k x, Queue.Job datedWaiting k x := by
  have h1 : Queue.Reach {} Queue.demoOpened :=
    (Queue.Reach.init.step (.other {} (.base (.create "a" "" "USD")))).step (.other _ (.base (.create "b" "" "USD")))
  have h2 : Queue.Reach {} { Queue.demoOpened with accepted := [Blnk.submit dated] } := h1.step (.accept _ dated rfl)
  refine ⟨h2.step (.persist _ (Blnk.submit dated) "x" "y" "" .nothing (by simp) (fun h => by cases h)), ?_, ?_⟩
  · have e : datedWaiting.db.txns.any (fun r => r.id = dated.id && r.status = .scheduled) = true := by decide +kernel
    obtain ⟨r, hr, h⟩ := List.any_eq_true.1 e
    simp at h
    exact ⟨r, hr, h.1, h.2⟩
  · rintro ⟨k, x, hj⟩
    cases hj with
    | task h => exact absurd h (by simp [datedWaiting, Queue.demoOpened])
    | copy newId hr hs =>
      have e : datedWaiting.db.txns.all (fun r => r.status ≠ .queued) = true := by decide +kernel
      have := List.all_eq_true.1 e _ hr
      simp [hs] at this

end Blnk.Press
