import Std.Data.String.ToNat
import Verif.Model.Restart
/-
C210: what was accepted can still be carried out after a restart with other queue settings.
-/
namespace Blnk.Restart
open Blnk.Queue (QCfg Lane queueName servedQueues numberedQueue hashBalanceID)

/-! ### Specification -/

/-- The settings stay as they are. -/
def Stays (es : List Ev) : Prop := ∀ e ∈ es, ∀ c, e ≠ .restart c

/-- The row can still be finished under the present settings. -/
def Alive (s : Sys) (id : Nat) : Prop :=
  ∃ es, Stays es ∧ ∀ r ∈ (run s es).rows, r.id = id → r.done = true

/-- The row is never finished under the present settings. -/
def Stranded (s : Sys) (id : Nat) : Prop :=
  ∀ es, Stays es → ∃ r ∈ (run s es).rows, r.id = id ∧ r.done = false

/-- C210: whatever was accepted and however blnk was started again in between, every payment can still
be carried out. -/
def C210Full : Prop :=
  ∀ (cfg : QCfg) (es : List Ev), 0 < cfg.numberOfQueues →
    (∀ e ∈ es, ∀ c, e = .restart c → 0 < c.numberOfQueues) →
    ∀ r ∈ (run { cfg := cfg } es).rows, Alive (run { cfg := cfg } es) r.id

/-- The settings `d` serve all that the settings `c` serve. -/
def Wider (c d : QCfg) : Prop := ∀ q ∈ servedQueues c, q ∈ servedQueues d

/-! ### Settings -/

theorem queueName_served (c : QCfg) (hN : 0 < c.numberOfQueues) (lane : Lane) (source : String) :
    queueName c lane source ∈ servedQueues c := by
  unfold queueName servedQueues
  by_cases h : (c.enableHotLane && lane = .hot) = true
  · rw [if_pos h]
    simp only [Bool.and_eq_true] at h
    simp [h.1]
  · rw [if_neg h]
    apply List.mem_append_left
    exact List.mem_map.2 ⟨hashBalanceID source % c.numberOfQueues, List.mem_range.2 (Nat.mod_lt _ hN), rfl⟩

/-- Not fewer queues of the same name, and the hot lane not turned off or renamed. -/
theorem c210_wider {c d : QCfg} (hn : c.numberOfQueues ≤ d.numberOfQueues)
    (hq : c.transactionQueue = d.transactionQueue)
    (hh : c.enableHotLane = true → d.enableHotLane = true ∧ c.hotQueue = d.hotQueue) : Wider c d := by
  intro q hm
  unfold servedQueues at hm ⊢
  rcases List.mem_append.1 hm with hm | hm
  · obtain ⟨i, hi, rfl⟩ := List.mem_map.1 hm
    apply List.mem_append_left
    rw [hq]
    exact List.mem_map.2 ⟨i, List.mem_range.2 (Nat.lt_of_lt_of_le (List.mem_range.1 hi) hn), rfl⟩
  · split at hm
    · rename_i he
      obtain ⟨h1, h2⟩ := hh he
      rw [List.mem_singleton] at hm
      apply List.mem_append_right
      rw [if_pos h1, hm, h2]
      simp
    · cases hm

theorem numbered_inj {a : String} {m n : Nat} (h : a ++ "_" ++ toString m = a ++ "_" ++ toString n) : m = n := by
  apply Nat.repr_injective
  have h2 := congrArg String.toList h
  simp only [String.toList_append] at h2
  exact String.toList_inj.1 (List.append_cancel_left h2)

/-- Which numbered queues are still served with another number of them. -/
theorem c210_served_iff (c : QCfg) (n : Nat) (source : String)
    (hh : c.enableHotLane = false) :
    numberedQueue c source ∈ servedQueues { c with numberOfQueues := n } ↔
      hashBalanceID source % c.numberOfQueues < n := by
  unfold servedQueues numberedQueue
  simp only [hh, Bool.false_eq_true, if_false, List.append_nil, List.mem_map, List.mem_range]
  constructor
  · rintro ⟨i, hi, he⟩
    have := numbered_inj he
    omega
  · intro h
    exact ⟨_, h, rfl⟩

/-! ### What waits -/

/-- Every row that is not finished has its task. -/
def Waits (s : Sys) : Prop :=
  (∀ r ∈ s.rows, r.done = false → ∃ t ∈ s.tasks, t.row = r.id) ∧ (s.rows.map Row.id).Nodup

/-- Every task is in a queue that is served. -/
def Served (s : Sys) : Prop := ∀ t ∈ s.tasks, t.queue ∈ servedQueues s.cfg

theorem same_row : ∀ {rows : List Row} {q r : Row}, (rows.map Row.id).Nodup → q ∈ rows → r ∈ rows →
    q.id = r.id → q = r
  | [], _, _, _, hq, _, _ => by cases hq
  | x :: rows, q, r, hn, hq, hr, he => by
    simp only [List.map_cons, List.nodup_cons] at hn
    rcases List.mem_cons.1 hq with h1 | h1 <;> rcases List.mem_cons.1 hr with h2 | h2
    · rw [h1, h2]
    · rw [← h1, he] at hn; exact absurd (List.mem_map_of_mem (f := Row.id) h2) hn.1
    · rw [← h2, ← he] at hn; exact absurd (List.mem_map_of_mem (f := Row.id) h1) hn.1
    · exact same_row hn.2 h1 h2 he

theorem finish_ids (id : Nat) (rows : List Row) : (finish id rows).map Row.id = rows.map Row.id := by
  unfold finish
  rw [List.map_map]
  apply List.map_congr_left
  intro r _
  simp only [Function.comp]
  split <;> rfl

theorem mem_finish {id : Nat} {rows : List Row} {r : Row} (h : r ∈ finish id rows) :
    (r.id = id ∧ r.done = true) ∨ (r.id ≠ id ∧ r ∈ rows) := by
  obtain ⟨q, hq, rfl⟩ := List.mem_map.1 h
  by_cases he : q.id = id
  · rw [if_pos he]; exact Or.inl ⟨he, rfl⟩
  · rw [if_neg he]; exact Or.inr ⟨he, hq⟩

theorem finish_other {id : Nat} {rows : List Row} {r : Row} (h : r ∈ rows) (hn : r.id ≠ id) :
    r ∈ finish id rows :=
  List.mem_map.2 ⟨r, h, if_neg hn⟩

theorem waits_step {s : Sys} (e : Ev) (h : Waits s) : Waits (step s e) := by
  cases e with
  | accept id source lane date =>
    simp only [step]
    split
    · exact h
    · rename_i hf
      refine ⟨?_, ?_⟩
      · intro r hr hd
        rcases List.mem_cons.1 hr with rfl | hr
        · exact ⟨_, List.mem_cons_self, rfl⟩
        · obtain ⟨t, ht, he⟩ := h.1 r hr hd
          exact ⟨t, List.mem_cons_of_mem _ ht, he⟩
      · simp only [List.map_cons, List.nodup_cons]
        refine ⟨?_, h.2⟩
        intro hm
        obtain ⟨r, hr, he⟩ := List.mem_map.1 hm
        apply hf
        rw [List.any_eq_true]
        exact ⟨r, hr, by simpa using he⟩
  | work q id =>
    simp only [step]
    split
    · refine ⟨?_, by dsimp only; rw [finish_ids]; exact h.2⟩
      intro r hr hd
      rcases mem_finish hr with ⟨_, hd'⟩ | ⟨hn, hr⟩
      · rw [hd'] at hd; cases hd
      · obtain ⟨t, ht, he⟩ := h.1 r hr hd
        refine ⟨t, List.mem_filter.2 ⟨ht, ?_⟩, he⟩
        have : t.row ≠ id := by rw [he]; exact hn
        simp [this]
    · exact h
  | recover id =>
    simp only [step]
    split
    · refine ⟨?_, by dsimp only; rw [finish_ids]; exact h.2⟩
      intro r hr hd
      rcases mem_finish hr with ⟨_, hd'⟩ | ⟨hn, hr⟩
      · rw [hd'] at hd; cases hd
      · exact h.1 r hr hd
    · exact h
  | wait d => exact h
  | restart c => exact h

theorem waits_run {s : Sys} (es : List Ev) (h : Waits s) : Waits (run s es) := by
  induction es generalizing s with
  | nil => exact h
  | cons e es ih => exact ih (waits_step e h)

theorem run_append (s : Sys) (a b : List Ev) : run s (a ++ b) = run (run s a) b := by
  induction a generalizing s with
  | nil => rfl
  | cons e a ih => exact ih _

/-- Rows are finished when one of the same id is. -/
theorem finish_done {id : Nat} {rows : List Row} : ∀ r ∈ finish id rows, r.id = id → r.done = true := by
  intro r hr he
  rcases mem_finish hr with ⟨_, h⟩ | ⟨h, _⟩
  · exact h
  · exact absurd he h

/-! ### C210 -/

/-- C210, the part that holds without a date: a payment that is QUEUED can be carried out whatever the
settings are now, for recovery does not look at queues. -/
theorem c210_queued_partial {s : Sys} (h : Waits s) {r : Row} (hr : r ∈ s.rows)
    (hs : r.scheduled = false) : Alive s r.id := by
  cases hd : r.done with
  | true =>
    refine ⟨[], (by intro e he; cases he), ?_⟩
    intro q hq he
    have : q = r := same_row h.2 hq hr he
    rw [this]; exact hd
  | false =>
    refine ⟨[.wait (threshold + r.created + 1), .recover r.id], ?_, ?_⟩
    · intro e he c
      simp only [List.mem_cons, List.not_mem_nil, or_false] at he
      rcases he with rfl | rfl <;> simp
    · show ∀ q ∈ (step (step s _) (.recover r.id)).rows, _
      have : (step s (.wait (threshold + r.created + 1))).rows.any
          (fun q => q.id = r.id && stuck (s.now + (threshold + r.created + 1)) q) = true := by
        rw [List.any_eq_true]
        refine ⟨r, hr, ?_⟩
        simp only [stuck, hs, hd, decide_true, Bool.true_and, Bool.not_false, decide_eq_true_eq]
        omega
      have e : step (step s (.wait (threshold + r.created + 1))) (.recover r.id) =
          { s with now := s.now + (threshold + r.created + 1), rows := finish r.id s.rows } := if_pos this
      rw [e]
      exact finish_done

/-- C210, the part that holds with a date: a payment whose task is in a queue that is served now can be
carried out. -/
theorem c210_task_partial {s : Sys} {t : Task} (ht : t ∈ s.tasks) (hq : t.queue ∈ servedQueues s.cfg) :
    Alive s t.row := by
  refine ⟨[.wait t.due, .work t.queue t.row], ?_, ?_⟩
  · intro e he c
    simp only [List.mem_cons, List.not_mem_nil, or_false] at he
    rcases he with rfl | rfl <;> simp
  · show ∀ q ∈ (step (step s _) (.work t.queue t.row)).rows, _
    have : t.queue ∈ servedQueues s.cfg ∧
        s.tasks.any (fun x => x.queue = t.queue && x.row = t.row && x.due ≤ s.now + t.due) = true := by
      refine ⟨hq, List.any_eq_true.2 ⟨t, ht, ?_⟩⟩
      simp
    have e : step (step s (.wait t.due)) (.work t.queue t.row) =
        { s with now := s.now + t.due, rows := finish t.row s.rows,
                 tasks := s.tasks.filter (fun x => !(x.queue = t.queue && x.row = t.row)) } := if_pos this
    rw [e]
    exact finish_done

theorem served_step {s : Sys} (e : Ev) (hN : 0 < s.cfg.numberOfQueues) (h : Served s)
    (hw : ∀ c, e = .restart c → Wider s.cfg c) : Served (step s e) := by
  cases e with
  | accept id source lane date =>
    simp only [step]
    split
    · exact h
    · intro t ht
      rcases List.mem_cons.1 ht with rfl | ht
      · exact queueName_served s.cfg hN lane source
      · exact h t ht
  | work q id =>
    simp only [step]
    split
    · intro t ht
      exact h t (List.mem_filter.1 ht).1
    · exact h
  | recover id => simp only [step]; split <;> exact h
  | wait d => exact h
  | restart c => exact fun t ht => hw c rfl _ (h t ht)

/-- Each restart serves all that was served before it. -/
def Growing : QCfg → List Ev → Prop
  | _, [] => True
  | c, .restart d :: es => 0 < d.numberOfQueues ∧ Wider c d ∧ Growing d es
  | c, _ :: es => Growing c es

theorem served_run {s : Sys} (es : List Ev) (hN : 0 < s.cfg.numberOfQueues) (h : Served s)
    (hg : Growing s.cfg es) : Served (run s es) := by
  induction es generalizing s with
  | nil => exact h
  | cons e es ih =>
    have hs := served_step e hN h (fun c he => by subst he; exact hg.2.1)
    cases e with
    | restart d => exact ih (s := step s (.restart d)) hg.1 hs hg.2.2
    | accept id source lane date =>
      have hc : (step s (.accept id source lane date)).cfg = s.cfg := by simp only [step]; split <;> rfl
      exact ih (by rw [hc]; exact hN) hs (by rw [hc]; exact hg)
    | work q id =>
      have hc : (step s (.work q id)).cfg = s.cfg := by simp only [step]; split <;> rfl
      exact ih (by rw [hc]; exact hN) hs (by rw [hc]; exact hg)
    | recover id =>
      have hc : (step s (.recover id)).cfg = s.cfg := by simp only [step]; split <;> rfl
      exact ih (by rw [hc]; exact hN) hs (by rw [hc]; exact hg)
    | wait d => exact ih (s := step s (.wait d)) hN hs hg

/-- C210, the part that holds of all payments: when every restart serves at least the queues served
before it, everything that was accepted and is not finished can be carried out. -/
theorem c210_growing_partial (cfg : QCfg) (es : List Ev) (hN : 0 < cfg.numberOfQueues)
    (hg : Growing cfg es) : ∀ r ∈ (run { cfg := cfg } es).rows, r.done = false →
      Alive (run { cfg := cfg } es) r.id := by
  intro r hr hd
  have hw : Waits (run { cfg := cfg } es) := waits_run es ⟨by simp, by simp⟩
  have hs : Served (run { cfg := cfg } es) := served_run es hN (fun t ht => by cases ht) hg
  obtain ⟨t, ht, he⟩ := hw.1 r hr hd
  rw [← he]
  exact c210_task_partial ht (hs t ht)

/-- A payment with a date whose tasks are all in queues that are not served is never carried out. -/
theorem c210_stranded {s : Sys} {r : Row} (hr : r ∈ s.rows) (hd : r.done = false)
    (hs : r.scheduled = true) (hnd : (s.rows.map Row.id).Nodup)
    (hq : ∀ t ∈ s.tasks, t.row = r.id → t.queue ∉ servedQueues s.cfg) : Stranded s r.id := by
  intro es hst
  suffices h : r ∈ (run s es).rows from ⟨r, h, rfl, hd⟩
  induction es generalizing s with
  | nil => exact hr
  | cons e es ih =>
    have hst' : Stays es := fun x hx => hst x (List.mem_cons_of_mem _ hx)
    cases e with
    | restart c => exact absurd rfl (hst _ (by simp) c)
    | wait d => exact ih (s := step s (.wait d)) hr hnd hq hst'
    | accept id source lane date =>
      refine ih (s := step s (.accept id source lane date)) ?_ ?_ ?_ hst'
      · simp only [step]
        split
        · exact hr
        · exact List.mem_cons_of_mem _ hr
      · have := (waits_step (s := { s with tasks := s.rows.map (fun r => ⟨"", r.id, 0⟩) }) (.accept id source lane date)
          ⟨fun q hq _ => ⟨_, List.mem_map_of_mem (f := fun r : Row => (⟨"", r.id, 0⟩ : Task)) hq, rfl⟩, hnd⟩).2
        simp only [step] at this ⊢
        split at this <;> rename_i hc
        · rw [if_pos hc]; exact this
        · rw [if_neg hc]; exact this
      · simp only [step]
        split
        · exact hq
        · rename_i hc
          intro t ht he
          rcases List.mem_cons.1 ht with rfl | ht
          · exfalso
            apply hc
            rw [List.any_eq_true]
            exact ⟨r, hr, by simpa using he.symm⟩
          · exact hq t ht he
    | work q id =>
      refine ih (s := step s (.work q id)) ?_ ?_ ?_ hst'
      · simp only [step]
        split
        · rename_i hc
          apply finish_other hr
          rintro rfl
          obtain ⟨hsv, ha⟩ := hc
          obtain ⟨t, ht, hp⟩ := List.any_eq_true.1 ha
          simp only [Bool.and_eq_true, decide_eq_true_eq] at hp
          exact hq t ht hp.1.2 (hp.1.1 ▸ hsv)
        · exact hr
      · simp only [step]
        split
        · dsimp only; rw [finish_ids]; exact hnd
        · exact hnd
      · simp only [step]
        split
        · intro t ht he
          exact hq t (List.mem_filter.1 ht).1 he
        · exact hq
    | recover id =>
      refine ih (s := step s (.recover id)) ?_ ?_ ?_ hst'
      · simp only [step]
        split
        · rename_i hc
          apply finish_other hr
          rintro rfl
          obtain ⟨q, hqm, hp⟩ := List.any_eq_true.1 hc
          simp only [Bool.and_eq_true, decide_eq_true_eq] at hp
          have : q = r := same_row hnd hqm hr hp.1
          rw [this] at hp
          simp [stuck, hs] at hp
        · exact hr
      · simp only [step]
        split
        · dsimp only; rw [finish_ids]; exact hnd
        · exact hnd
      · simp only [step]
        split
        · exact hq
        · exact hq

/-- C210 exactly: after any history, a payment with a date that is not finished can be carried out when,
and only when, its task is in a queue that the present settings serve. -/
theorem c210_exactly (cfg : QCfg) (es : List Ev) {r : Row} (hr : r ∈ (run { cfg := cfg } es).rows)
    (hd : r.done = false) (hs : r.scheduled = true) :
    Alive (run { cfg := cfg } es) r.id ↔
      ∃ t ∈ (run { cfg := cfg } es).tasks, t.row = r.id ∧ t.queue ∈ servedQueues (run { cfg := cfg } es).cfg := by
  have hw : Waits (run { cfg := cfg } es) := waits_run es ⟨by simp, by simp⟩
  constructor
  · rintro ⟨fs, hfs, ha⟩
    apply Classical.byContradiction
    intro hn
    obtain ⟨q, hq, h1, h2⟩ := c210_stranded hr hd hs hw.2
      (fun t ht he hm => hn ⟨t, ht, he, hm⟩) fs hfs
    rw [ha q hq h1] at h2
    cases h2
  · rintro ⟨t, ht, he, hm⟩
    rw [← he]
    exact c210_task_partial ht hm

/-! ### Cases -/

/-- Twenty queues, then ten; a salary is scheduled in between, and an ordinary payment made. -/
def twenty : QCfg := {}
def ten : QCfg := { numberOfQueues := 10 }

def salary : List Ev :=
  [.accept 1 "bln_payroll" .normal (some 86400), .accept 2 "bln_payroll" .normal none, .restart ten]

theorem payroll_queue : queueName twenty .normal "bln_payroll" = "new:transaction_18" := by decide +kernel

theorem payroll_unserved : "new:transaction_18" ∉ servedQueues ten := by decide +kernel

theorem c210_salary : Stranded (run { cfg := twenty } salary) 1 ∧ Alive (run { cfg := twenty } salary) 2 := by
  have hrows : (run { cfg := twenty } salary).rows =
      [{ id := 2, scheduled := false, created := 0 }, { id := 1, scheduled := true, created := 0 }] := by decide +kernel
  have htasks : (run { cfg := twenty } salary).tasks =
      [⟨"new:transaction_18", 2, 0⟩, ⟨"new:transaction_18", 1, 86400⟩] := by decide +kernel
  have hcfg : (run { cfg := twenty } salary).cfg = ten := rfl
  constructor
  · refine c210_stranded (r := { id := 1, scheduled := true, created := 0 }) (by rw [hrows]; simp) rfl rfl
      (by rw [hrows]; decide) ?_
    intro t ht _
    rw [htasks] at ht
    rw [hcfg]
    simp only [List.mem_cons, List.not_mem_nil, or_false] at ht
    rcases ht with rfl | rfl <;> exact payroll_unserved
  · exact c210_queued_partial (waits_run _ ⟨by simp, by simp⟩)
      (r := { id := 2, scheduled := false, created := 0 }) (by rw [hrows]; simp) rfl

theorem c210_full_fails : ¬ C210Full := by
  intro h
  obtain ⟨es, hes, ha⟩ := h twenty salary (by decide)
    (by intro e he c hc; subst hc; simp [salary] at he; subst he; decide)
    { id := 1, scheduled := true, created := 0 } (by decide +kernel)
  obtain ⟨r, hr, h1, h2⟩ := c210_salary.1 es hes
  rw [ha r hr h1] at h2
  cases h2

/-- More queues are fine. -/
example : Growing ten [.accept 1 "bln_payroll" .normal (some 86400), .restart twenty] :=
  ⟨by decide, c210_wider (by decide) rfl (by decide), trivial⟩

/-- After a change of the number of queues the waiting and the new payments of a source are in two
queues, which are worked on side by side. -/
theorem c210_two_queues :
    ((run { cfg := ten } [.accept 1 "bln_payroll" .normal none, .restart twenty,
      .accept 2 "bln_payroll" .normal none]).tasks.map Task.queue) =
      ["new:transaction_18", "new:transaction_8"] := by decide +kernel

end Blnk.Restart
