import Verif.Model.HotPairClock
/-
C207: what makes a pair use the hot lane, and for how long.
-/
namespace Blnk.Hot
open Blnk.Queue (PState Lane)

/-! ### Specification -/

/-- The events are listed the newest first. -/
def Ordered (h : List (Nat × Ev)) : Prop := h.Pairwise (fun a b => b.1 ≤ a.1)

/-- The moments at which the pair was contended, the newest first. -/
def contentions : List (Nat × Ev) → List Nat
  | [] => []
  | (t, .contend) :: h => t :: contentions h
  | (_, .submit _ _) :: h => contentions h

/-- `n` contentions in a row that lie within one span of `d`. -/
def Burst (d n : Nat) (cs : List Nat) : Prop :=
  ∃ pre ts post, cs = pre ++ ts ++ post ∧ ts.length = n ∧ ∀ a ∈ ts, ∀ b ∈ ts, a < b + d

/-- Each moment is less than `d` after the next one of the list. -/
def Linked (d : Nat) : List Nat → Prop
  | a :: b :: r => a < b + d ∧ Linked d (b :: r)
  | _ => True

/-- `n` contentions in a row, each less than `d` after the one before it. -/
def Chained (d n : Nat) (cs : List Nat) : Prop :=
  ∃ pre ts post, cs = pre ++ ts ++ post ∧ ts.length = n ∧ Linked d ts

/-- The pair was contended less than `d` ago. -/
def Recent (d now : Nat) (cs : List Nat) : Prop := ∃ t ∈ cs, now < t + d

/-- C207: a transaction takes the hot lane only when the pair was contended `threshold` times within
one `hot_pair_ttl`, and was contended less than `hot_pair_ttl` ago. -/
def C207Full : Prop :=
  ∀ (c : Cfg), 0 < c.ttl → 0 < c.threshold →
  ∀ (h : List (Nat × Ev)) (now pn ph : Nat), Ordered h → (∀ x ∈ h, x.1 ≤ now) →
    laneAt c h now pn ph = .hot →
    Burst c.ttl c.threshold (contentions h) ∧ Recent c.ttl now (contentions h)

/-! ### The machine without a clock -/

/-- What the keys show at a moment, as a pair of `Model/HotPairs.lean`. -/
def view (now pn ph : Nat) (k : Keys) : Queue.Pair where
  state := getState now k
  active := hasRecent now k
  contention := if now < k.countUntil then k.count else 0
  pendingNormal := pn
  pendingHot := ph
  flight := []

/-- The lane is the one of the machine without a clock. -/
theorem c207_lane (c : Cfg) (now pn ph : Nat) (k : Keys) :
    (resolve c now pn ph k).2 = (Queue.resolveLane (view now pn ph k)).2 := by
  unfold resolve Queue.resolveLane view
  dsimp only
  cases getState now k <;> dsimp only <;> (repeat' split) <;> first | rfl | simp_all

/-- So are the keys left by a submission. -/
theorem c207_view_resolve (c : Cfg) (hd : 0 < c.ttl) (now pn ph : Nat) (k : Keys) :
    view now pn ph (resolve c now pn ph k).1 = (Queue.resolveLane (view now pn ph k)).1 := by
  have h4 : now < now + stateTTL c := by unfold stateTTL; omega
  have h1 : now < now + c.ttl := by omega
  obtain ⟨st, su, au, cn, cu⟩ := k
  by_cases h₁ : now < su <;> by_cases h₂ : now < au <;> by_cases h₃ : pn = 0 <;>
    by_cases h₄ : 0 < ph <;> cases st <;>
    simp [resolve, Queue.resolveLane, view, getState, hasRecent, setState, setNormal, activateHot,
      h₁, h₂, h₃, h₄, h4, h1]

/-- And those left by a contention. -/
theorem c207_view_contend (c : Cfg) (hd : 0 < c.ttl) (now pn ph : Nat) (k : Keys) :
    view now pn ph (contend c now k) = Queue.recordContention c.threshold (view now pn ph k) := by
  have h4 : now < now + stateTTL c := by unfold stateTTL; omega
  have h1 : now < now + c.ttl := by omega
  obtain ⟨st, su, au, cn, cu⟩ := k
  by_cases h₁ : now < su <;> by_cases h₂ : now < cu <;>
    by_cases h₃ : cn + 1 < c.threshold <;> by_cases h₄ : 1 < c.threshold <;> cases st <;>
    simp [contend, bump, Queue.recordContention, view, getState, hasRecent, setState,
      h₁, h₂, h₃, h₄, h4, h1]

/-! ### What the keys remember of the contentions -/

theorem Linked.cons {d a : Nat} {l : List Nat} (h : Linked d l)
    (ha : ∀ b r, l = b :: r → a < b + d) : Linked d (a :: l) := by
  cases l with
  | nil => trivial
  | cons b r => exact ⟨ha b r rfl, h⟩

theorem Linked.take {d : Nat} {l : List Nat} (h : Linked d l) (n : Nat) : Linked d (l.take n) := by
  induction l generalizing n with
  | nil => simp [Linked]
  | cons a r ih =>
    cases n with
    | zero => simp [Linked]
    | succ n =>
      rw [List.take_succ_cons]
      cases r with
      | nil => simp [Linked]
      | cons b r =>
        refine Linked.cons (ih h.2 n) ?_
        intro b' r' he
        cases n with
        | zero => simp at he
        | succ n =>
          rw [List.take_succ_cons] at he
          injection he with he _
          exact he ▸ h.1

theorem Chained.cons {d n a : Nat} {cs : List Nat} (h : Chained d n cs) : Chained d n (a :: cs) := by
  obtain ⟨pre, ts, post, rfl, hl, hc⟩ := h
  exact ⟨a :: pre, ts, post, by simp, hl, hc⟩

/-- The counter stands for the latest contentions, each less than `ttl` after the one before. -/
def CountInv (c : Cfg) (cs : List Nat) (k : Keys) : Prop :=
  k.count = 0 ∨
    (Linked c.ttl (cs.take k.count) ∧ k.count ≤ cs.length ∧ 0 < k.count ∧
      ∃ t r, cs = t :: r ∧ k.countUntil = t + c.ttl)

/-- How long each state can last after the latest contention. -/
def Lasts (c : Cfg) (t : Nat) (k : Keys) : Prop :=
  k.activeUntil + 1 ≤ t + 5 * c.ttl ∧
  match k.state with
  | .normal => True
  | .promoting => k.stateUntil ≤ t + 4 * c.ttl
  | .hot => k.stateUntil + 1 ≤ t + 8 * c.ttl
  | .cooling => k.stateUntil + 2 ≤ t + 12 * c.ttl

def StateInv (c : Cfg) (cs : List Nat) (k : Keys) : Prop :=
  k.state = .normal ∨ (Chained c.ttl c.threshold cs ∧ ∃ t r, cs = t :: r ∧ Lasts c t k)

theorem countInv_bump {c : Cfg} {cs : List Nat} {k : Keys} (now : Nat)
    (h : CountInv c cs k) : CountInv c (now :: cs) (bump c now k) := by
  right
  unfold bump
  dsimp only
  split
  · rename_i hlt
    rcases h with h | ⟨hl, hle, hpos, t, r, rfl, hu⟩
    · rw [h]
      exact ⟨by simp [Linked], by simp, by simp, now, cs, rfl, rfl⟩
    · refine ⟨?_, by simpa using hle, by omega, now, _, rfl, rfl⟩
      rw [List.take_succ_cons]
      refine Linked.cons hl ?_
      intro b r' he
      cases hk : k.count with
      | zero => omega
      | succ n =>
        rw [hk, List.take_succ_cons] at he
        injection he with he _
        omega
  · exact ⟨by simp [Linked], by simp, by simp, now, cs, rfl, rfl⟩

theorem inv_contend {c : Cfg} (hd : 0 < c.ttl) (ht : 0 < c.threshold) {cs : List Nat} {k : Keys}
    (now : Nat) (hle : ∀ t ∈ cs, t ≤ now) (h1 : CountInv c cs k) (h2 : StateInv c cs k) :
    CountInv c (now :: cs) (contend c now k) ∧ StateInv c (now :: cs) (contend c now k) := by
  have hb := countInv_bump now h1
  have hs : StateInv c (now :: cs) (bump c now k) := by
    rcases h2 with h2 | ⟨hch, t, r, hcs, hl⟩
    · exact Or.inl h2
    · have htn : t ≤ now := hle t (by simp [hcs])
      refine Or.inr ⟨hch.cons, now, cs, rfl, ?_⟩
      have h2' := hl.2
      unfold Lasts
      refine ⟨by simp only [bump]; omega, ?_⟩
      have e1 : (bump c now k).state = k.state := rfl
      have e2 : (bump c now k).stateUntil = k.stateUntil := rfl
      rw [e1, e2]
      cases hst : k.state <;> rw [hst] at h2' <;> dsimp only at h2' ⊢ <;> omega
  unfold contend
  dsimp only
  split
  · exact ⟨hb, hs⟩
  · rename_i hcnt
    have hch : Chained c.ttl c.threshold (now :: cs) := by
      rcases hb with hb | ⟨hl, hlen, hpos, _⟩
      · omega
      · refine ⟨[], (now :: cs).take c.threshold, (now :: cs).drop c.threshold, by simp, ?_, ?_⟩
        · simp only [List.length_take]; omega
        · have := hl.take c.threshold
          rw [List.take_take] at this
          rwa [Nat.min_eq_left (by omega)] at this
    split
    · exact ⟨hb, Or.inr ⟨hch, now, cs, rfl, by
        constructor
        · simp only [setState, bump]; omega
        · simp only [setState, stateTTL]; omega⟩⟩
    · refine ⟨hb, Or.inr ⟨hch, now, cs, rfl, by simp only [bump]; omega, ?_⟩⟩
      dsimp only
      cases (bump c now k).state <;> simp only [stateTTL] <;> omega

theorem getState_live {now : Nat} {k : Keys} (h : now < k.stateUntil) : getState now k = k.state :=
  if_pos h

theorem getState_of {now : Nat} {k : Keys} {s : PState} (h : getState now k = s) (hs : s ≠ .normal) :
    now < k.stateUntil ∧ k.state = s := by
  unfold getState at h
  split at h
  · exact ⟨by assumption, h⟩
  · exact absurd h.symm hs

theorem inv_resolve {c : Cfg} {cs : List Nat} {k : Keys}
    (now pn ph : Nat) (h1 : CountInv c cs k) (h2 : StateInv c cs k) :
    CountInv c cs (resolve c now pn ph k).1 ∧ StateInv c cs (resolve c now pn ph k).1 := by
  have hn : CountInv c cs setNormal ∧ StateInv c cs setNormal := ⟨Or.inl rfl, Or.inl rfl⟩
  unfold resolve
  split
  · rename_i hg
    obtain ⟨hlt, hst⟩ := getState_of hg (by simp)
    split
    · refine ⟨h1, ?_⟩
      rcases h2 with h2 | ⟨hch, t, r, hcs, _, hl⟩
      · rw [hst] at h2; cases h2
      · rw [hst] at hl
        dsimp only at hl
        refine Or.inr ⟨hch, t, r, hcs, ?_, ?_⟩
        · simp only [activateHot, setState]; omega
        · simp only [activateHot, setState, stateTTL]; omega
    · exact ⟨h1, h2⟩
  · rename_i hg
    obtain ⟨hlt, hst⟩ := getState_of hg (by simp)
    split
    · exact ⟨h1, h2⟩
    · split
      · refine ⟨h1, ?_⟩
        rcases h2 with h2 | ⟨hch, t, r, hcs, ha, hl⟩
        · rw [hst] at h2; cases h2
        · rw [hst] at hl
          dsimp only at hl
          refine Or.inr ⟨hch, t, r, hcs, ha, ?_⟩
          simp only [setState, stateTTL]; omega
      · exact hn
  · split
    · exact ⟨h1, h2⟩
    · exact hn
  · exact ⟨h1, h2⟩

theorem mem_contentions {h : List (Nat × Ev)} {t : Nat} (ht : t ∈ contentions h) :
    (t, Ev.contend) ∈ h := by
  induction h with
  | nil => cases ht
  | cons x h ih =>
    obtain ⟨t', e⟩ := x
    cases e with
    | contend =>
      simp only [contentions, List.mem_cons] at ht
      rcases ht with rfl | ht
      · simp
      · exact List.mem_cons_of_mem _ (ih ht)
    | submit pn ph => exact List.mem_cons_of_mem _ (ih ht)

theorem inv_after {c : Cfg} (hd : 0 < c.ttl) (ht : 0 < c.threshold) {h : List (Nat × Ev)}
    (ho : Ordered h) : CountInv c (contentions h) (after c h) ∧ StateInv c (contentions h) (after c h) := by
  induction h with
  | nil => exact ⟨Or.inl rfl, Or.inl rfl⟩
  | cons x h ih =>
    obtain ⟨t, e⟩ := x
    obtain ⟨ho1, ho2⟩ := List.pairwise_cons.1 ho
    obtain ⟨h1, h2⟩ := ih ho2
    cases e with
    | contend => exact inv_contend hd ht t (fun t' ht' => ho1 _ (mem_contentions ht')) h1 h2
    | submit pn ph => exact inv_resolve t pn ph h1 h2

/-! ### C207 -/

/-- The hot lane is taken in three ways. -/
theorem lane_hot {c : Cfg} {now pn ph : Nat} {k : Keys} (h : (resolve c now pn ph k).2 = .hot) :
    now < k.stateUntil ∧ ((k.state = .promoting ∧ pn = 0) ∨
      (k.state = .hot ∧ (now < k.activeUntil ∨ 0 < ph)) ∨ (k.state = .cooling ∧ 0 < ph)) := by
  unfold resolve at h
  split at h
  · rename_i hg
    obtain ⟨hlt, hst⟩ := getState_of hg (by simp)
    split at h
    · exact ⟨hlt, Or.inl ⟨hst, by assumption⟩⟩
    · cases h
  · rename_i hg
    obtain ⟨hlt, hst⟩ := getState_of hg (by simp)
    split at h
    · rename_i hr
      exact ⟨hlt, Or.inr (Or.inl ⟨hst, Or.inl (by simpa [hasRecent] using hr)⟩)⟩
    · split at h
      · exact ⟨hlt, Or.inr (Or.inl ⟨hst, Or.inr (by assumption)⟩)⟩
      · cases h
  · rename_i hg
    obtain ⟨hlt, hst⟩ := getState_of hg (by simp)
    split at h
    · exact ⟨hlt, Or.inr (Or.inr ⟨hst, by assumption⟩)⟩
    · cases h
  · cases h

/-- Whatever is configured, the manager has a positive span and a positive threshold. -/
theorem c207_manager (ttl threshold : Int) :
    0 < (newManager ttl threshold).ttl ∧ 0 < (newManager ttl threshold).threshold := by
  unfold newManager
  constructor <;> dsimp only <;> split <;> omega

/-- C207, the part that holds of the cause: a transaction takes the hot lane only when the pair was
contended `threshold` times in a row, each time less than `hot_pair_ttl` after the time before. -/
theorem c207_cause_partial {c : Cfg} (hd : 0 < c.ttl) (ht : 0 < c.threshold) {h : List (Nat × Ev)}
    {now pn ph : Nat} (ho : Ordered h) (hh : laneAt c h now pn ph = .hot) :
    Chained c.ttl c.threshold (contentions h) := by
  obtain ⟨_, h2⟩ := inv_after hd ht ho
  obtain ⟨_, hs⟩ := lane_hot hh
  rcases h2 with h2 | ⟨hch, _⟩
  · rw [h2] at hs; simp at hs
  · exact hch

/-- C207, the part that holds of the end: a transaction takes the hot lane only less than twelve
times `hot_pair_ttl` after the latest contention, and less than five times when no transaction of
the pair waits in the hot lane. -/
theorem c207_end_partial {c : Cfg} (hd : 0 < c.ttl) (ht : 0 < c.threshold) {h : List (Nat × Ev)}
    {now pn ph : Nat} (ho : Ordered h) (hh : laneAt c h now pn ph = .hot) :
    Recent (12 * c.ttl) now (contentions h) ∧
    (ph = 0 → Recent (5 * c.ttl) now (contentions h)) := by
  obtain ⟨_, h2⟩ := inv_after hd ht ho
  obtain ⟨hlt, hs⟩ := lane_hot hh
  rcases h2 with h2 | ⟨_, t, r, hcs, ha, hl⟩
  · rw [h2] at hs; simp at hs
  · have hm : t ∈ contentions h := by simp [hcs]
    rcases hs with ⟨hst, hp⟩ | ⟨hst, hp⟩ | ⟨hst, hp⟩ <;> rw [hst] at hl <;> dsimp only at hl
    · exact ⟨⟨t, hm, by omega⟩, fun _ => ⟨t, hm, by omega⟩⟩
    · refine ⟨⟨t, hm, by omega⟩, fun h0 => ⟨t, hm, ?_⟩⟩
      rcases hp with hp | hp <;> omega
    · exact ⟨⟨t, hm, by omega⟩, fun h0 => by omega⟩

/-- A pair that was never contended `threshold` times keeps the normal lane. -/
theorem c207_few {c : Cfg} (hd : 0 < c.ttl) (ht : 0 < c.threshold) {h : List (Nat × Ev)}
    (now pn ph : Nat) (ho : Ordered h) (hf : (contentions h).length < c.threshold) :
    laneAt c h now pn ph = .normal := by
  cases hl : laneAt c h now pn ph with
  | normal => rfl
  | hot =>
    obtain ⟨pre, ts, post, he, hn, _⟩ := c207_cause_partial hd ht ho hl
    rw [he] at hf
    simp only [List.length_append] at hf
    omega

/-- The contentions of a chain lie within `threshold - 1` spans. -/
theorem c207_span {d : Nat} {ts : List Nat} (h : Linked d ts) {a b : Nat} (ha : ts.head? = some a)
    (hb : ts.getLast? = some b) : a ≤ b + (ts.length - 1) * d := by
  induction ts generalizing a with
  | nil => cases ha
  | cons x r ih =>
    cases r with
    | nil => simp at ha hb; omega
    | cons y r =>
      have := ih h.2 (a := y) rfl (by simpa using hb)
      simp only [List.head?_cons, Option.some.injEq] at ha
      have hx := h.1
      simp only [List.length_cons, Nat.add_sub_cancel] at this ⊢
      rw [Nat.add_mul]
      omega

/-! ### The other way round -/

/-- Contentions at the given moments, the newest first, after a history. -/
def Row (ts : List Nat) (h : List (Nat × Ev)) : List (Nat × Ev) :=
  ts.map (fun t => (t, Ev.contend)) ++ h

theorem row_count {c : Cfg} {ts : List Nat} {h : List (Nat × Ev)} (hn : ts ≠ [])
    (hl : Linked c.ttl ts) :
    ts.length ≤ (after c (Row ts h)).count ∧
    (∀ t r, ts = t :: r → (after c (Row ts h)).countUntil = t + c.ttl) := by
  have hcount : ∀ t k, (contend c t k).count = (bump c t k).count ∧
      (contend c t k).countUntil = t + c.ttl := by
    intro t k
    unfold contend
    dsimp only
    split
    · exact ⟨rfl, rfl⟩
    · split <;> exact ⟨rfl, rfl⟩
  induction ts with
  | nil => exact absurd rfl hn
  | cons t r ih =>
    have he : after c (Row (t :: r) h) = contend c t (after c (Row r h)) := rfl
    rw [he]
    refine ⟨?_, fun t' r' hh => by injection hh with h1 _; rw [← h1]; exact (hcount _ _).2⟩
    rw [(hcount _ _).1]
    unfold bump
    dsimp only
    cases r with
    | nil => simp only [List.length_singleton]; split <;> omega
    | cons y r =>
      obtain ⟨i1, i2⟩ := ih (by simp) hl.2
      rw [i2 y r rfl, if_pos hl.1]
      simp only [List.length_cons] at i1 ⊢
      omega

/-- After `threshold` contentions in a row, each less than `hot_pair_ttl` after the one before, the
pair is marked for four times `hot_pair_ttl`, whatever happened before. -/
theorem c207_marked {c : Cfg} {ts : List Nat} {t : Nat} {r : List Nat} {h : List (Nat × Ev)}
    (hts : ts = t :: r) (hn : c.threshold ≤ ts.length) (hl : Linked c.ttl ts) {now : Nat}
    (h4 : now < t + 4 * c.ttl) :
    getState now (after c (Row ts h)) ≠ .normal := by
  subst hts
  obtain ⟨hc, _⟩ := row_count (h := h) (by simp) hl
  have he : after c (Row (t :: r) h) = contend c t (after c (Row r h)) := rfl
  rw [he] at hc ⊢
  generalize after c (Row r h) = k at hc ⊢
  unfold contend at hc ⊢
  dsimp only at hc ⊢
  split at hc
  · omega
  · rename_i hcnt
    rw [if_neg hcnt]
    split
    · rw [getState_live (by simp only [setState, stateTTL]; omega)]
      simp [setState]
    · rename_i hx
      have : getState t (bump c t k) ≠ .normal := hx
      have hst : (bump c t k).state ≠ .normal := by
        intro e
        apply this
        unfold getState
        rw [e]
        split <;> rfl
      rw [getState_live (by simp only [stateTTL]; omega)]
      exact hst

/-- So, less than four times `hot_pair_ttl` after such a row, a transaction takes the hot lane when none of the
pair waits in the normal lane and one waits in the hot lane. -/
theorem c207_taken {c : Cfg} {ts : List Nat} {t : Nat} {r : List Nat} {h : List (Nat × Ev)}
    (hts : ts = t :: r) (hn : c.threshold ≤ ts.length) (hl : Linked c.ttl ts) {now ph : Nat}
    (h4 : now < t + 4 * c.ttl) (hp : 0 < ph) :
    laneAt c (Row ts h) now 0 ph = .hot := by
  have hm := c207_marked (h := h) hts hn hl h4
  unfold laneAt resolve
  cases hg : getState now (after c (Row ts h)) with
  | normal => exact absurd hg hm
  | promoting => simp
  | hot => simp [hp]; split <;> rfl
  | cooling => simp [hp]

/-! ### Cases -/

/-- Three contentions, a minute apart; the pair is hot for the next transaction. -/
example : laneAt {} [(120, .contend), (60, .contend), (0, .contend)] 130 0 0 = .hot := by decide +kernel

example : Chained 300 3 (contentions [(120, .contend), (60, .contend), (0, .contend)]) :=
  ⟨[], [120, 60, 0], [], rfl, rfl, by simp [Linked]⟩

/-- A row that leaves the pair marked, after an older history. -/
example : laneAt {} (Row [1000, 900, 800] [(400, .submit 0 0), (0, .contend)]) 2199 0 1 = .hot :=
  c207_taken rfl (by decide) (by simp [Linked]) (by decide) (by decide)

/-- Two are not enough. -/
example : laneAt {} [(60, .contend), (0, .contend)] 130 0 0 = .normal := by decide +kernel

/-- Gaps of more than five minutes start the count again. -/
example : laneAt {} [(600, .contend), (300, .contend), (0, .contend)] 601 0 0 = .normal := by decide +kernel

/-- Three contentions over nearly ten minutes are enough. -/
theorem c207_burst_fails :
    laneAt {} [(598, .contend), (299, .contend), (0, .contend)] 599 0 0 = .hot ∧
    ¬ Burst 300 3 (contentions [(598, .contend), (299, .contend), (0, .contend)]) := by
  refine ⟨by decide +kernel, ?_⟩
  rintro ⟨pre, ts, post, he, hl, hb⟩
  have hlen := congrArg List.length he
  simp only [contentions, List.length_append, List.length_cons, List.length_nil] at hlen
  have hp : pre = [] := List.length_eq_zero_iff.1 (by omega)
  have hq : post = [] := List.length_eq_zero_iff.1 (by omega)
  subst hp; subst hq
  simp only [contentions, List.nil_append, List.append_nil] at he
  have := hb 598 (by simp [← he]) 0 (by simp [← he])
  omega

/-- A pair whose latest contention is nearly an hour old (twelve times five minutes) still takes the
hot lane: the mark for promotion lasts four spans, the hot state four more and the cooling down four
more. -/
def longHistory : List (Nat × Ev) :=
  [(2398, .submit 0 1), (1199, .submit 0 0), (0, .contend), (0, .contend), (0, .contend)]

theorem c207_recent_fails :
    laneAt {} longHistory 3597 0 1 = .hot ∧ ¬ Recent 300 3597 (contentions longHistory) := by
  refine ⟨by decide +kernel, ?_⟩
  rintro ⟨t, ht, hlt⟩
  simp [longHistory, contentions] at ht
  omega

/-- With nothing waiting in the hot lane it is nearly twenty-five minutes. -/
theorem c207_recent_fails_idle :
    laneAt {} [(1199, .submit 0 0), (0, .contend), (0, .contend), (0, .contend)] 1498 0 0 = .hot := by
  decide +kernel

theorem c207_full_fails : ¬ C207Full := by
  intro h
  have := (h {} (by decide) (by decide) [(598, .contend), (299, .contend), (0, .contend)] 599 0 0
    (by simp [Ordered]) (by simp) c207_burst_fails.1).1
  exact c207_burst_fails.2 this

/-- A cooling pair that is contended again is not hot again: with nothing waiting in the hot lane the
next transaction takes the normal lane and the contentions are forgotten. -/
theorem c207_cooling_contended :
    laneAt {} ((2000, .contend) :: (1999, .contend) :: (1998, .contend) :: (1000, .submit 0 1) ::
      (0, .submit 0 0) :: [(0, .contend), (0, .contend), (0, .contend)]) 2001 0 0 = .normal := by
  decide +kernel

end Blnk.Hot
