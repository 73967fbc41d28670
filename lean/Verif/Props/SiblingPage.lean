import Verif.Model.SiblingPage
import Verif.Props.QueuedSplit
/-
C204: what recovery knows of rejected parts.
-/
namespace Blnk.Sib
open Blnk.Queue

/-! ### Specification -/

/-- A rejected row under the id. -/
def Rejected (mark : String) (t : Txn) : Prop := t.parent = mark ∧ t.status = .rejected

/-- **C204** in full: whenever a rejected part is stored, recovery sees a rejected part. -/
def C204Full (L : Nat) : Prop := ∀ (mark : String) (s : State) (p : Nat) (pg : List Txn), Reach L mark s → IsPage s.table mark pg →
  (∃ t ∈ s.table, Rejected mark t) → seen (look L s p pg).2 = true

/-! ### Pages -/

theorem page_mem {rows pg : List Txn} {mark : String} (h : IsPage rows mark pg) {t : Txn} (ht : t ∈ pg) :
    t ∈ rows ∧ t.parent = mark := by
  obtain ⟨l, hp, _, rfl⟩ := h
  have := hp.subset (List.mem_of_mem_take ht)
  simpa using this

theorem page_all {rows pg : List Txn} {mark : String} (h : IsPage rows mark pg)
    (hn : (rows.filter (fun t => t.parent = mark)).length ≤ 100) {t : Txn} (ht : t ∈ rows) (hm : t.parent = mark) : t ∈ pg := by
  obtain ⟨l, hp, _, rfl⟩ := h
  rw [List.take_of_length_le (by rw [hp.length_eq]; exact hn)]
  exact hp.symm.subset (by simp [ht, hm])

theorem seen_iff {pg : List Txn} : seen pg = true ↔ ∃ t ∈ pg, t.status = .rejected := by
  simp [seen]

/-- **C204, only newer ones.** If a hundred rows under the id are newer than every rejected one, no page shows a
rejected one. -/
theorem c204_hundred {rows pg : List Txn} {mark : String} (h : IsPage rows mark pg)
    (hn : ∀ r ∈ rows, Rejected mark r → 100 ≤ (rows.filter (fun t => t.parent = mark && decide (r.createdAt < t.createdAt))).length) :
    seen pg = false := by
  rw [Bool.eq_false_iff]
  intro hs
  obtain ⟨r, hr, hst⟩ := seen_iff.1 hs
  obtain ⟨hmem, hpar⟩ := page_mem h hr
  have hlen := hn r hmem ⟨hpar, hst⟩
  obtain ⟨l, hp, hsorted, rfl⟩ := h
  obtain ⟨pre, post, hsplit⟩ := List.append_of_mem hr
  have hl : l = pre ++ r :: (post ++ l.drop 100) := by
    have := List.take_append_drop 100 l
    rw [hsplit] at this
    simpa using this.symm
  have hprelen : pre.length < 100 := by
    have : (pre ++ r :: post).length ≤ 100 := by rw [← hsplit]; simp; omega
    simp at this; omega
  have hcount : (l.filter (fun t => decide (r.createdAt < t.createdAt))).length
      = (rows.filter (fun t => t.parent = mark && decide (r.createdAt < t.createdAt))).length := by
    rw [(hp.filter _).length_eq, List.filter_filter]
    congr 1
    apply List.filter_congr
    intro x _
    rw [Bool.and_comm]
  have hnone : (r :: (post ++ l.drop 100)).filter (fun t => decide (r.createdAt < t.createdAt)) = [] := by
    rw [List.filter_eq_nil_iff]
    intro x hx
    rw [hl, List.pairwise_append] at hsorted
    rcases List.mem_cons.1 hx with rfl | hx
    · simp
    · have := (List.pairwise_cons.1 hsorted.2.1).1 x hx
      simp; omega
  have : (l.filter (fun t => decide (r.createdAt < t.createdAt))).length ≤ pre.length := by
    conv => lhs; rw [hl]
    rw [List.filter_append, hnone, List.append_nil]
    exact List.length_filter_le _ _
  omega

/-! ### Kept pages -/

/-- A kept page was the page of the rows stored when it was read. -/
def Honest (mark : String) (s : State) (k : Kept) : Prop :=
  ∃ old new, s.rows = old ++ new ∧ IsPage (old.map (·.1)) mark k.page ∧ (∀ r ∈ new, k.read ≤ r.2) ∧ k.page ≠ []

/-- Invariant of the system. -/
structure Good (mark : String) (s : State) : Prop where
  times : ∀ r ∈ s.rows, r.2 ≤ s.now
  redis : ∀ k, s.redis = some k → Honest mark s k ∧ k.since = k.read ∧ k.since ≤ s.now
  locals : ∀ p k, s.locals p = some k → Honest mark s k ∧ k.since ≤ s.now ∧ k.since < k.read + redisKeeps ∧ k.read ≤ s.now

theorem Honest.store {mark : String} {s : State} {k : Kept} {t : Txn} (h : Honest mark s k) (hk : k.read ≤ s.now) :
    Honest mark { s with rows := s.rows ++ [(t, s.now)] } k := by
  obtain ⟨old, new, h1, h2, h3, h4⟩ := h
  refine ⟨old, new ++ [(t, s.now)], by simp [h1], h2, ?_, h4⟩
  intro r hr
  rcases List.mem_append.1 hr with hr | hr
  · exact h3 r hr
  · simp at hr; rw [hr]; exact hk

theorem honest_now {mark : String} {s : State} {pg : List Txn} (h : IsPage s.table mark pg) (hne : pg ≠ []) :
    Honest mark s { page := pg, since := s.now, read := s.now } :=
  ⟨s.rows, [], by simp, h, by simp, hne⟩

theorem fresh_some {keeps now : Nat} {o : Option Kept} {k : Kept} (h : fresh keeps now o = some k) :
    o = some k ∧ now < k.since + keeps := by
  unfold fresh at h
  split at h
  · rename_i x
    split at h
    · rename_i hlt
      cases h
      exact ⟨rfl, hlt⟩
    · cases h
  · cases h


theorem good_look {L : Nat} {mark : String} {s : State} {p : Nat} {pg : List Txn} (h : Good mark s) (hpg : IsPage s.table mark pg) :
    Good mark (look L s p pg).1 := by
  unfold look
  split
  · exact h
  · split
    · rename_i k hk
      obtain ⟨hk, hlt⟩ := fresh_some hk
      obtain ⟨h1, h2, h3⟩ := h.redis k hk
      refine ⟨h.times, h.redis, ?_⟩
      intro q k' hq
      simp only at hq
      split at hq
      · cases hq
        exact ⟨h1, Nat.le_refl _, by simpa [h2] using hlt, by simp only; omega⟩
      · exact h.locals q k' hq
    · split
      · exact h
      · rename_i hne
        have hh := honest_now hpg (by intro h0; rw [h0] at hne; exact hne rfl)
        refine ⟨h.times, ?_, ?_⟩
        · intro k hk
          cases hk
          exact ⟨hh, rfl, Nat.le_refl _⟩
        · intro q k' hq
          simp only at hq
          split at hq
          · cases hq
            exact ⟨hh, Nat.le_refl _, by simp [redisKeeps], Nat.le_refl _⟩
          · exact h.locals q k' hq

theorem good_step {L : Nat} {mark : String} {s s' : State} (h : Good mark s) (hs : Step L mark s s') : Good mark s' := by
  cases hs with
  | store t =>
    refine ⟨?_, ?_, ?_⟩
    · intro r hr
      rcases List.mem_append.1 hr with hr | hr
      · exact h.times r hr
      · simp at hr; rw [hr]; exact Nat.le_refl _
    · intro k hk
      obtain ⟨h1, h2, h3⟩ := h.redis k hk
      exact ⟨h1.store (by omega), h2, h3⟩
    · intro p k hk
      obtain ⟨h1, h2, h3, h4⟩ := h.locals p k hk
      exact ⟨h1.store h4, h2, h3, h4⟩
  | wait d =>
    refine ⟨fun r hr => Nat.le_trans (h.times r hr) (Nat.le_add_right _ _), ?_, ?_⟩
    · intro k hk
      obtain ⟨h1, h2, h3⟩ := h.redis k hk
      exact ⟨h1, h2, Nat.le_trans h3 (Nat.le_add_right _ _)⟩
    · intro p k hk
      obtain ⟨h1, h2, h3, h4⟩ := h.locals p k hk
      exact ⟨h1, Nat.le_trans h2 (Nat.le_add_right _ _), h3, Nat.le_trans h4 (Nat.le_add_right _ _)⟩
  | look p pg hpg => exact good_look h hpg
  | dropLocal p =>
    refine ⟨h.times, h.redis, ?_⟩
    intro q k hk
    simp only at hk
    split at hk
    · cases hk
    · exact h.locals q k hk
  | dropRedis => exact ⟨h.times, fun k hk => (by cases hk), h.locals⟩

theorem good {L : Nat} {mark : String} {s : State} (h : Reach L mark s) : Good mark s := by
  induction h with
  | init => exact ⟨fun r hr => (by cases hr), fun k hk => (by cases hk), fun p k hk => (by cases hk)⟩
  | step _ hs ih => exact good_step ih hs

/-- What a look gives was the page at some moment in the last `300 + L` seconds. -/
theorem look_page {L : Nat} {mark : String} {s : State} (h : Reach L mark s) (p : Nat) {pg : List Txn} (hpg : IsPage s.table mark pg) :
    ∃ old new, s.rows = old ++ new ∧ IsPage (old.map (·.1)) mark (look L s p pg).2 ∧ (∀ r ∈ new, s.now < r.2 + (redisKeeps + L)) := by
  have g := good h
  unfold look
  split
  · rename_i k hk
    obtain ⟨hk, hlt⟩ := fresh_some hk
    obtain ⟨⟨old, new, h1, h2, h3, _⟩, _, h5, _⟩ := g.locals p k hk
    exact ⟨old, new, h1, h2, fun r hr => by have := h3 r hr; omega⟩
  · split
    · rename_i k hk
      obtain ⟨hk, hlt⟩ := fresh_some hk
      obtain ⟨⟨old, new, h1, h2, h3, _⟩, h4, _⟩ := g.redis k hk
      exact ⟨old, new, h1, h2, fun r hr => by have := h3 r hr; omega⟩
    · split
      · exact ⟨s.rows, [], by simp, hpg, by simp⟩
      · exact ⟨s.rows, [], by simp, hpg, by simp⟩

/-! ### C204 -/

/-- **C204, never without cause.** Whenever the check finds a rejected part, one is stored. -/
theorem c204_cause {L : Nat} {mark : String} {s : State} (h : Reach L mark s) (p : Nat) {pg : List Txn} (hpg : IsPage s.table mark pg)
    (hs : seen (look L s p pg).2 = true) : ∃ t ∈ s.table, Rejected mark t := by
  obtain ⟨old, new, h1, h2, _⟩ := look_page h p hpg
  obtain ⟨t, ht, hst⟩ := seen_iff.1 hs
  obtain ⟨h4, h5⟩ := page_mem h2 ht
  refine ⟨t, ?_, h5, hst⟩
  unfold State.table
  rw [h1, List.map_append]
  exact List.mem_append_left _ h4

/-- **C204, late** (what holds). With at most a hundred rows under the id, a rejected part stored at least `300 + L`
seconds ago is seen, by every process. -/
theorem c204_late_partial {L : Nat} {mark : String} {s : State} (h : Reach L mark s) (p : Nat) {pg : List Txn}
    (hpg : IsPage s.table mark pg) (hn : (s.table.filter (fun t => t.parent = mark)).length ≤ 100)
    {r : Txn × Nat} (hr : r ∈ s.rows) (hrej : Rejected mark r.1) (hlate : r.2 + (300 + L) ≤ s.now) :
    seen (look L s p pg).2 = true := by
  obtain ⟨old, new, h1, h2, h3⟩ := look_page h p hpg
  rw [seen_iff]
  refine ⟨r.1, page_all h2 ?_ ?_ hrej.1, hrej.2⟩
  · have : s.table = old.map (·.1) ++ new.map (·.1) := by unfold State.table; rw [h1, List.map_append]
    rw [this, List.filter_append, List.length_append] at hn
    omega
  · rw [h1] at hr
    rcases List.mem_append.1 hr with hr | hr
    · exact List.mem_map_of_mem hr
    · have := h3 r hr
      simp only [redisKeeps] at this
      omega

/-- **C204, first look** (what holds). With at most a hundred rows under the id and no page kept, every rejected part
is seen. -/
theorem c204_first_partial {L : Nat} {mark : String} {s : State} (p : Nat) {pg : List Txn}
    (hl : s.locals p = none) (hr : s.redis = none)
    (hpg : IsPage s.table mark pg) (hn : (s.table.filter (fun t => t.parent = mark)).length ≤ 100) :
    seen (look L s p pg).2 = true ↔ ∃ t ∈ s.table, Rejected mark t := by
  have : (look L s p pg).2 = pg := by
    unfold look
    rw [hl, hr]
    simp only [fresh]
    split <;> rfl
  rw [this, seen_iff]
  constructor
  · rintro ⟨t, ht, hst⟩
    exact ⟨t, (page_mem hpg ht).1, (page_mem hpg ht).2, hst⟩
  · rintro ⟨t, ht, h1, h2⟩
    exact ⟨t, page_all hpg hn ht h1, h2⟩

/-- **C204, what follows.** An all-or-nothing part with attempts left is passed over exactly if the page it was
given shows a rejected part. -/
theorem c204_passed_over (cfg : Cfg) (e : REnv) (s : RSys) (row : Txn) (pg : List Txn) (ha : row.metaAtomic = some true)
    (hm : row.metaQueuedParent ≠ "") (hn : s.attempts row.id < 3) :
    (recoverSeen cfg 3 e s row pg).2 = .sibling ↔ seen pg = true := by
  obtain ⟨h1, h2⟩ := Halves.restored (row := row)
  unfold recoverSeen
  simp only
  rw [if_neg (by omega), h1, h2]
  simp only [ha, Option.getD_some, Bool.true_and]
  cases hs : seen pg <;> simp [hm]

/-- With a page that agrees with the table, recovery does what C195 to C197 say of it. -/
theorem c204_as_modelled (cfg : Cfg) (max : Int) (e : REnv) (s : RSys) (row : Txn) (pg : List Txn)
    (h : seen pg = true ↔ Halves.RejectedUnder s.db row.metaQueuedParent) :
    recoverSeen cfg max e s row pg = recoverRow cfg max e s row := by
  have hb : seen pg = s.db.txns.any (fun c => c.parent = row.metaQueuedParent && c.status = .rejected) := by
    rw [Bool.eq_iff_iff, h]
    simp [Halves.RejectedUnder]
  obtain ⟨_, h2⟩ := Halves.restored (row := row)
  unfold recoverSeen recoverRow
  simp only
  rw [h2, hb]
  rfl

/-! ### Witnesses -/

theorem reach_store {L : Nat} {mark : String} : ∀ (ts : List Txn) {s : State}, Reach L mark s →
    Reach L mark { s with rows := s.rows ++ ts.map (fun t => (t, s.now)) }
  | [], s, h => by simpa using h
  | t :: ts, s, h => by
    have := reach_store ts (Reach.step h (Step.store s t))
    simpa [List.append_assoc] using this

/-- A part that waits, and one that was refused a moment later. -/
def waiting : Txn := { id := "q1", parent := "bulk", status := .queued, createdAt := 5 }
def refused : Txn := { id := "r1", parent := "bulk", status := .rejected, createdAt := 6 }

/-- Process 0 looked when only the first was stored; then the other was. -/
def keptEarly : State :=
  { now := 0, rows := [(waiting, 0), (refused, 0)]
    redis := some { page := [waiting], since := 0, read := 0 }
    locals := fun q => if q = 0 then some { page := [waiting], since := 0, read := 0 } else none }

theorem pageEarly : IsPage [waiting] "bulk" [waiting] :=
  ⟨[waiting], by rw [show [waiting].filter (fun t => t.parent = "bulk") = [waiting] from by decide +kernel], by simp, by simp⟩

theorem pageBoth : IsPage [waiting, refused] "bulk" [refused, waiting] :=
  ⟨[refused, waiting], by
    rw [show [waiting, refused].filter (fun t => t.parent = "bulk") = [waiting, refused] from by decide +kernel]
    exact List.Perm.swap _ _ _, by simp [waiting, refused], by simp⟩

theorem keptEarly_reach (L : Nat) : Reach L "bulk" keptEarly := by
  have h1 : Reach L "bulk" { rows := [(waiting, 0)] } := Reach.step Reach.init (Step.store {} waiting)
  have h2 := Reach.step h1 (Step.look _ 0 [waiting] (by simpa [State.table] using pageEarly))
  have h3 := Reach.step h2 (Step.store _ refused)
  simpa [look, fresh, keptEarly] using h3

/-- **C204 fails**: a page kept from before the refusal hides it. -/
theorem c204_full_fails (L : Nat) : ¬ C204Full L := by
  intro h
  have := h "bulk" (keptEarly) 1 [refused, waiting] (keptEarly_reach L) (by simpa [State.table, keptEarly] using pageBoth)
    ⟨refused, by simp [State.table, keptEarly], rfl, rfl⟩
  simp [look, fresh, keptEarly, redisKeeps, seen, waiting] at this

/-- Other parts of a large request, all stored after the refused one. -/
def others : List Txn := (List.range 100).map (fun n => { waiting with createdAt := 7 + n })

/-- The refused part, then a hundred more; nobody has looked. -/
def large : State := { now := 0, rows := (refused :: others).map (fun t => (t, 0)) }

theorem large_reach (L : Nat) : Reach L "bulk" large := by
  have := reach_store (L := L) (mark := "bulk") (refused :: others) Reach.init
  simpa [large] using this

theorem large_table : large.table = refused :: others := by
  simp [State.table, large, Function.comp_def]

/-- **C204 fails for large requests**: with a hundred newer rows, no look of any process from an empty cache sees
the refused part, however long it waits. -/
theorem c204_large_fails (L p d : Nat) : Reach L "bulk" { large with now := d } ∧
    (∃ t ∈ large.table, Rejected "bulk" t) ∧
    ∀ pg, IsPage large.table "bulk" pg → seen (look L { large with now := d } p pg).2 = false := by
  refine ⟨?_, ⟨refused, by rw [large_table]; simp, rfl, rfl⟩, ?_⟩
  · have := Reach.step (large_reach L) (Step.wait _ d)
    simpa [large] using this
  · intro pg hpg
    have h2 : (look L { large with now := d } p pg).2 = pg := by
      simp only [look, large, fresh]
      split <;> rfl
    rw [h2]
    refine c204_hundred hpg ?_
    rw [large_table]
    intro r hr hrej
    rcases List.mem_cons.1 hr with rfl | hr
    · have : ((refused :: others).filter (fun t => t.parent = "bulk" && decide (refused.createdAt < t.createdAt))).length = 100 := by
        decide +kernel
      omega
    · obtain ⟨n, _, rfl⟩ := List.mem_map.1 hr
      exact absurd hrej.2 (by simp [waiting])

/-- The late theorem meets a case: the page kept early has gone. -/
example : seen (look 60 { keptEarly with now := 360 } 0 [refused, waiting]).2 = true :=
  c204_late_partial (mark := "bulk") (Reach.step (keptEarly_reach 60) (Step.wait _ 360)) 0 (by simpa [State.table, keptEarly] using pageBoth)
    (by decide +kernel) (r := (refused, 0)) (by simp [keptEarly]) ⟨rfl, rfl⟩ (by decide)

/-- And the bound is met: a process that copied the page from Redis in its last second misses the refusal for as long
as it keeps the copy. -/
theorem c204_bound : ∃ s, Reach 60 "bulk" s ∧ s.now = 358 ∧ (refused, 0) ∈ s.rows ∧
    ∀ pg, seen (look 60 s 1 pg).2 = false := by
  have h1 := Reach.step (keptEarly_reach 60) (Step.wait _ 299)
  have h2 := Reach.step h1 (Step.look _ 1 [refused, waiting] (by simpa [State.table, keptEarly] using pageBoth))
  have h3 := Reach.step h2 (Step.wait _ 59)
  refine ⟨_, h3, ?_, ?_, ?_⟩
  · simp [look, fresh, keptEarly, redisKeeps]
  · simp [look, fresh, keptEarly, redisKeeps]
  · intro pg
    simp [look, fresh, keptEarly, redisKeeps, seen, waiting]

/-- The first look meets a case. -/
example : seen (look 60 { rows := [(waiting, 0), (refused, 0)] } 0 [refused, waiting]).2 = true :=
  (c204_first_partial (mark := "bulk") 0 rfl rfl (by simpa [State.table] using pageBoth) (by decide +kernel)).2
    ⟨refused, by simp [State.table], rfl, rfl⟩

/-- An all-or-nothing part, its sibling refused under the mark. -/
def part : Txn :=
  { id := "q2", source := "alice", destination := "bob", currency := "USD", reference := "p-2", amount := 3
    preciseAmount := some 300, precision := 100, status := .queued, metaAtomic := some true, metaQueuedParent := "bulk" }

def booksNow : RSys := { db := { balances := [{ id := "alice", currency := "USD", balance := 1000, credit := 1000 },
    { id := "bob", currency := "USD" }], txns := [part, { refused with id := "r9" }] }, attempts := fun _ => 0 }

/-- With the early page the part is paid though a part of its request was refused; with the table's, it is passed over. -/
theorem c204_paid_anyway : (recoverSeen {} 3 { newId := "c2", n1 := "n1", n2 := "n2" } booksNow part [waiting]).2 = .replayed true ∧
    (recoverSeen {} 3 { newId := "c2", n1 := "n1", n2 := "n2" } booksNow part [refused, waiting]).2 = .sibling ∧
    Halves.RejectedUnder booksNow.db "bulk" := by
  refine ⟨by decide +kernel, by decide +kernel, { refused with id := "r9" }, by simp [booksNow], rfl, rfl⟩

end Blnk.Sib
