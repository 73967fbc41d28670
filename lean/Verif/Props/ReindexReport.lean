import Verif.Props.Reindex
/-!
What is reported of a rebuild (C110), how many run (C111), and what a restart does (C112).
-/
namespace Blnk.Reidx
open Srch (Coll)

/-! ### C110 -/

/-- C110 in full: when a rebuild is completed, the number of processed records it reports is the
number of documents it has written. -/
def C110Full : Prop := ∀ (rows idx : List Item) (evs : List Ev) (j : Job), j ∈ (run { rows := rows, idx := idx } evs).jobs → j.ph = .done →
  j.processed = j.written

/-- Two identities on two pages count as three. -/
theorem c110_pages_fails : ¬ C110Full := by
  intro h
  have := h [idt "a" 1, idt "b" 2] []
    (.post 1 :: (opening 0 ++ passOver 0 1 ++ [.job 0 (.page [⟨"b", 2, 1⟩, ⟨"a", 1, 1⟩]), .job 0 (.put true),
      .job 0 (.page [⟨"b", 2, 1⟩, ⟨"a", 1, 1⟩]), .job 0 (.put true), .job 0 (.page [⟨"b", 2, 1⟩, ⟨"a", 1, 1⟩])] ++ passOver 0 2))
    { batch := 1, ph := .done, processed := 3, all := 3, written := 2 } (by decide +kernel) rfl
  exact absurd this (by decide)

/-- And in full: while records of the collection at hand are not indexed yet, the reported total
is larger than the reported number of processed records. -/
def C110TotalFull : Prop := ∀ (rows idx : List Item) (evs : List Ev) (j : Job) (c : Coll), j ∈ (run { rows := rows, idx := idx } evs).jobs →
  j.ph = .index c → (∃ r ∈ table (run { rows := rows, idx := idx } evs).rows c, ¬ found (run { rows := rows, idx := idx } evs).idx (c, r.id)) →
  j.processed < j.all

theorem c110_total_fails : ¬ C110TotalFull := by
  intro h
  have := h [idt "a" 1, idt "b" 2] []
    (.post 1 :: (opening 0 ++ passOver 0 1 ++ [.job 0 (.page [⟨"b", 2, 1⟩, ⟨"a", 1, 1⟩]), .job 0 (.put true)]))
    { batch := 1, ph := .index .identities, offset := 1, total := 1, processed := 1, all := 1, written := 1 } .identities
    (by decide +kernel) rfl (by decide +kernel)
  exact absurd this (by decide)

/-- The counts of a rebuild. -/
structure Sums (j : Job) : Prop where
  same : j.all = j.processed
  early : (j.ph = .pending ∨ (∃ l, j.ph = .drop l) ∨ j.ph = .create) →
    j.written = 0 ∧ j.processed = 0 ∧ j.total = 0 ∧ j.page = []
  ledgers : j.ph = .index .ledgers → j.written = j.total ∧ (j.page = [] → j.processed = j.total)
  others : ∀ c, c ≠ .ledgers → j.ph = .index c → j.written ≤ j.processed + j.total ∧ (j.page = [] → j.written ≤ j.processed)
  done : j.ph = .done → j.written ≤ j.processed

theorem sums_step {rows idx : List Item} {j : Job} (h : Sums j) (e : JEv) : Sums (j.step rows idx e).2 := by
  cases e with
  | begin =>
    simp only [Job.step]
    split
    · exact ⟨rfl, fun _ => ⟨rfl, rfl, rfl, rfl⟩, (by intro h; cases h), (by intro c _ h; cases h), (by intro h; cases h)⟩
    · exact h
  | drop =>
    simp only [Job.step]
    split
    · rename_i c left hp
      exact ⟨h.same, fun _ => h.early (.inr (.inl ⟨_, hp⟩)), (by intro h; cases h), (by intro c _ h; cases h), (by intro h; cases h)⟩
    · rename_i hp
      exact ⟨h.same, fun _ => h.early (.inr (.inl ⟨_, hp⟩)), (by intro h; cases h), (by intro c _ h; cases h), (by intro h; cases h)⟩
    · exact h
  | create now =>
    simp only [Job.step]
    split
    · rename_i hp
      obtain ⟨h1, h2, h3, h4⟩ := h.early (.inr (.inr hp))
      refine ⟨h.same, ?_, fun _ => ⟨h1, fun _ => h2⟩, ?_, by intro h; cases h⟩
      · rintro (h | ⟨l, h⟩ | h) <;> cases h
      · intro c hc hx
        have hx' : Ph.index .ledgers = .index c := hx
        cases hx'
        exact absurd rfl hc
    · exact h
  | page order =>
    simp only [Job.step]
    split
    · rename_i c hp
      split
      · rename_i hg
        split
        · have hw : j.written ≤ j.processed := by
            by_cases hc : c = .ledgers
            · subst hc
              have := h.ledgers hp
              rw [this.1, this.2 hg.1]; exact Nat.le_refl _
            · exact (h.others c hc hp).2 hg.1
          refine ⟨h.same, ?_, ?_, ?_, fun _ => hw⟩
          · intro hx
            have hx' : Ph.next c = .pending ∨ (∃ l, Ph.next c = .drop l) ∨ Ph.next c = .create := hx
            cases c <;> simp [Ph.next] at hx'
          · intro hx
            have hx' : Ph.next c = .index .ledgers := hx
            cases c <;> simp [Ph.next] at hx'
          · intro c' _ _
            exact ⟨Nat.le_trans hw (Nat.le_add_right _ _), fun _ => hw⟩
        · rename_i hne
          refine ⟨h.same, ?_, ?_, ?_, ?_⟩
          · rintro (hx | ⟨l, hx⟩ | hx)
            · have hx' : j.ph = .pending := hx
              rw [hp] at hx'; cases hx'
            · have hx' : j.ph = .drop l := hx
              rw [hp] at hx'; cases hx'
            · have hx' : j.ph = .create := hx
              rw [hp] at hx'; cases hx'
          · intro hx
            exact ⟨(h.ledgers hx).1, fun he => absurd he hne⟩
          · intro c' hc hx
            exact ⟨(h.others c' hc hx).1, fun he => absurd he hne⟩
          · intro hx
            exact h.done hx
      · exact h
    · exact h
  | put ok =>
    simp only [Job.step]
    split
    · rename_i c r rest hp hpg
      have key : ∀ j' : Job, j'.ph = j.ph → j'.page = rest → j'.all = j.all → j'.processed = j.processed →
          (j'.total = j.total + 1 ∧ j'.written = j.written + 1 ∨ j'.total = j.total ∧ j'.written = j.written) →
          Sums (if rest = [] then j'.counted c else j') := by
        intro j' h1 h2 h3 h4 h5
        by_cases hc : c = .ledgers
        · subst hc
          obtain ⟨a1, -⟩ := h.ledgers hp
          by_cases hr : rest = []
          · rw [if_pos hr]
            unfold Job.counted
            rw [if_pos rfl]
            refine ⟨rfl, ?_, ?_, ?_, ?_⟩
            · intro hx; dsimp only at hx; rw [h1, hp] at hx; simp at hx
            · intro _; dsimp only; exact ⟨by omega, fun _ => rfl⟩
            · intro c' hc' hx; dsimp only at hx; rw [h1, hp] at hx; cases hx; exact absurd rfl hc'
            · intro hx; dsimp only at hx; rw [h1, hp] at hx; cases hx
          · rw [if_neg hr]
            refine ⟨by rw [h3, h4]; exact h.same, ?_, ?_, ?_, ?_⟩
            · intro hx; rw [h1, hp] at hx; simp at hx
            · intro _; exact ⟨by omega, fun he => absurd (h2.symm.trans he) hr⟩
            · intro c' hc' hx; rw [h1, hp] at hx; cases hx; exact absurd rfl hc'
            · intro hx; rw [h1, hp] at hx; cases hx
        · obtain ⟨a1, -⟩ := h.others c hc hp
          by_cases hr : rest = []
          · rw [if_pos hr]
            unfold Job.counted
            rw [if_neg hc]
            refine ⟨rfl, ?_, ?_, ?_, ?_⟩
            · intro hx; dsimp only at hx; rw [h1, hp] at hx; simp at hx
            · intro hx; dsimp only at hx; rw [h1, hp] at hx; cases hx; exact absurd rfl hc
            · intro c' hc' hx; dsimp only at hx ⊢; exact ⟨by omega, fun _ => by omega⟩
            · intro hx; dsimp only at hx; rw [h1, hp] at hx; cases hx
          · rw [if_neg hr]
            refine ⟨by rw [h3, h4]; exact h.same, ?_, ?_, ?_, ?_⟩
            · intro hx; rw [h1, hp] at hx; simp at hx
            · intro hx; rw [h1, hp] at hx; cases hx; exact absurd rfl hc
            · intro c' hc' hx; exact ⟨by omega, fun he => absurd (h2.symm.trans he) hr⟩
            · intro hx; rw [h1, hp] at hx; cases hx
      refine key (if ok then { j with page := rest, total := j.total + 1, written := j.written + 1 }
        else { j with page := rest, errors := j.errors ++ [(c, r.id)] })
        (by cases ok <;> rfl) (by cases ok <;> rfl) (by cases ok <;> rfl) (by cases ok <;> rfl) ?_
      cases ok
      · exact .inr ⟨rfl, rfl⟩
      · exact .inl ⟨rfl, rfl⟩
    · exact h
  | memory => exact h
  | stop =>
    simp only [Job.step]
    split
    · refine ⟨h.same, ?_, (by intro h; cases h), (by intro c _ h; cases h), (by intro h; cases h)⟩
      rintro (h | ⟨l, h⟩ | h) <;> cases h
    · exact h

theorem sums_new (b : Nat) : Sums (Job.new b) :=
  ⟨rfl, fun _ => ⟨rfl, rfl, rfl, rfl⟩, (by intro h; cases h), (by intro c _ h; cases h), (by intro h; cases h)⟩

/-- A property of single rebuilds that holds for new ones and is kept by their steps holds for all. -/
theorem jobs_inv {P : Job → Prop} (hn : ∀ b, P (Job.new b)) (hs : ∀ rows idx j e, P j → P (j.step rows idx e).2) (evs : List Ev) :
    ∀ s : Sys, (∀ j ∈ s.jobs, P j) → ∀ j ∈ (run s evs).jobs, P j := by
  induction evs with
  | nil => intro s h; exact h
  | cons e es ih =>
    intro s h
    refine ih _ ?_
    have happ : ∀ b, ∀ j ∈ s.jobs ++ [Job.new b], P j := by
      intro b j hj
      rcases List.mem_append.1 hj with hj | hj
      · exact h j hj
      · rw [List.mem_singleton.1 hj]; exact hn b
    cases e with
    | ins c r => simp only [step]; split <;> exact h
    | upd c id => exact h
    | gone id => exact h
    | sync x => exact h
    | post b =>
      simp only [step]; split
      · exact happ b
      · exact h
    | startup =>
      simp only [step]; split
      · exact happ 1000
      · exact h
    | job i e =>
      simp only [step]
      split
      · exact h
      · rename_i j hj
        intro j' hj'
        rcases List.mem_or_eq_of_mem_set hj' with hj' | rfl
        · exact h j' hj'
        · exact hs _ _ _ _ (h j (List.mem_of_getElem? hj))

/-- The two reported numbers are the same at any time, and at the end they are never too small. -/
theorem c110_counts_partial (rows idx : List Item) (evs : List Ev) (j : Job) (h : j ∈ (run { rows := rows, idx := idx } evs).jobs) :
    j.all = j.processed ∧ (j.ph = .done → j.written ≤ j.processed) := by
  have := jobs_inv sums_new (fun rows idx j e h => sums_step h e) evs { rows := rows, idx := idx } (by intro j hj; cases hj) j h
  exact ⟨this.same, this.done⟩

example : (run threeIdentities busyRebuild).jobs =
    [{ batch := 1, ph := .done, processed := 8, all := 8, errors := [(.identities, "b")], written := 3 }] := by decide +kernel

/-- Records are neither made nor deleted. -/
def Still : Ev → Prop
  | .ins _ _ => False
  | .gone _ => False
  | _ => True

/-- The counts of a rebuild for which every collection but the ledgers fits on one page. -/
structure Exact (n : Coll → Nat) (j : Job) : Prop where
  early : (j.ph = .pending ∨ (∃ l, j.ph = .drop l) ∨ j.ph = .create) →
    j.written = 0 ∧ j.processed = 0 ∧ j.total = 0 ∧ j.page = []
  ledgers : j.ph = .index .ledgers → j.written = j.total ∧ (j.page = [] → j.processed = j.total)
  others : ∀ c, c ≠ .ledgers → j.ph = .index c →
    (j.offset = 0 ∧ j.page = [] ∧ j.total = 0 ∧ j.written = j.processed) ∨
    (j.offset = n c ∧ (j.page = [] → j.written = j.processed) ∧ (j.page ≠ [] → j.written = j.processed + j.total))
  done : j.ph = .done → j.written = j.processed

theorem exact_step {n : Coll → Nat} {rows idx : List Item} {j : Job} (hn : ∀ c, (table rows c).length = n c)
    (hl : ∀ c, c ≠ .ledgers → n c ≤ limit c j.batch) (h : Exact n j) (e : JEv) : Exact n (j.step rows idx e).2 := by
  cases e with
  | begin =>
    simp only [Job.step]
    split
    · exact ⟨fun _ => ⟨rfl, rfl, rfl, rfl⟩, (by intro h; cases h), (by intro c _ h; cases h), (by intro h; cases h)⟩
    · exact h
  | drop =>
    simp only [Job.step]
    split
    · rename_i c left hp
      exact ⟨fun _ => h.early (.inr (.inl ⟨_, hp⟩)), (by intro h; cases h), (by intro c _ h; cases h), (by intro h; cases h)⟩
    · rename_i hp
      exact ⟨fun _ => h.early (.inr (.inl ⟨_, hp⟩)), (by intro h; cases h), (by intro c _ h; cases h), (by intro h; cases h)⟩
    · exact h
  | create now =>
    simp only [Job.step]
    split
    · rename_i hp
      obtain ⟨h1, h2, h3, h4⟩ := h.early (.inr (.inr hp))
      refine ⟨?_, fun _ => ⟨h1, fun _ => h2⟩, ?_, (by intro h; cases h)⟩
      · rintro (h | ⟨l, h⟩ | h) <;> cases h
      · intro c hc hx
        have hx' : Ph.index .ledgers = .index c := hx
        cases hx'
        exact absurd rfl hc
    · exact h
  | page order =>
    simp only [Job.step]
    split
    · rename_i c hp
      split
      · rename_i hg
        have hperm : order.length = n c := by
          have := hg.2
          unfold ordered at this
          rw [Bool.and_eq_true, List.isPerm_iff] at this
          rw [this.1.length_eq, hn]
        split
        · rename_i hpe
          have hw : j.written = j.processed := by
            by_cases hc : c = .ledgers
            · subst hc
              have := h.ledgers hp
              rw [this.1, this.2 hg.1]
            · rcases h.others c hc hp with ⟨-, -, -, h4⟩ | ⟨-, h4, -⟩
              · exact h4
              · exact h4 hg.1
          refine ⟨?_, ?_, ?_, fun _ => hw⟩
          · intro hx
            have hx' : Ph.next c = .pending ∨ (∃ l, Ph.next c = .drop l) ∨ Ph.next c = .create := hx
            cases c <;> simp [Ph.next] at hx'
          · intro hx
            have hx' : Ph.next c = .index .ledgers := hx
            cases c <;> simp [Ph.next] at hx'
          · intro c' _ _
            exact .inl ⟨rfl, rfl, rfl, hw⟩
        · rename_i hne
          refine ⟨?_, ?_, ?_, ?_⟩
          · intro hx
            have hx' : j.ph = .pending ∨ (∃ l, j.ph = .drop l) ∨ j.ph = .create := hx
            rw [hp] at hx'; simp at hx'
          · intro hx
            exact ⟨(h.ledgers hx).1, fun he => absurd he hne⟩
          · intro c' hc hx
            have hx' : j.ph = .index c' := hx
            rw [hp] at hx'
            cases hx'
            rcases h.others c hc hp with ⟨h1, -, h3, h4⟩ | ⟨h1, -, -⟩
            · right
              refine ⟨?_, fun he => absurd he hne, fun _ => ?_⟩
              · show j.offset + ((order.drop j.offset).take (limit c j.batch)).length = n c
                rw [h1, List.drop_zero, List.length_take, hperm]
                have := hl c hc
                omega
              · show j.written = j.processed + j.total
                omega
            · exfalso
              apply hne
              rw [h1, ← hperm, List.drop_length, List.take_nil]
          · intro hx
            have hx' : j.ph = .done := hx
            rw [hp] at hx'; cases hx'
      · exact h
    · exact h
  | put ok =>
    simp only [Job.step]
    split
    · rename_i c r rest hp hpg
      have key : ∀ j' : Job, j'.ph = j.ph → j'.page = rest → j'.offset = j.offset → j'.processed = j.processed →
          (j'.total = j.total + 1 ∧ j'.written = j.written + 1 ∨ j'.total = j.total ∧ j'.written = j.written) →
          Exact n (if rest = [] then j'.counted c else j') := by
        intro j' h1 h2 h3 h4 h5
        by_cases hc : c = .ledgers
        · subst hc
          obtain ⟨a1, -⟩ := h.ledgers hp
          by_cases hr : rest = []
          · rw [if_pos hr]
            unfold Job.counted
            rw [if_pos rfl]
            refine ⟨?_, ?_, ?_, ?_⟩
            · intro hx; dsimp only at hx; rw [h1, hp] at hx; simp at hx
            · intro _; dsimp only; exact ⟨by omega, fun _ => rfl⟩
            · intro c' hc' hx; dsimp only at hx; rw [h1, hp] at hx; cases hx; exact absurd rfl hc'
            · intro hx; dsimp only at hx; rw [h1, hp] at hx; cases hx
          · rw [if_neg hr]
            refine ⟨?_, ?_, ?_, ?_⟩
            · intro hx; rw [h1, hp] at hx; simp at hx
            · intro _; exact ⟨by omega, fun he => absurd (h2.symm.trans he) hr⟩
            · intro c' hc' hx; rw [h1, hp] at hx; cases hx; exact absurd rfl hc'
            · intro hx; rw [h1, hp] at hx; cases hx
        · have a1 := h.others c hc hp
          have a2 : j.offset = n c ∧ j.written = j.processed + j.total := by
            rcases a1 with ⟨-, h2, -⟩ | ⟨h1, -, h2⟩
            · rw [hpg] at h2; cases h2
            · exact ⟨h1, h2 (by rw [hpg]; simp)⟩
          by_cases hr : rest = []
          · rw [if_pos hr]
            unfold Job.counted
            rw [if_neg hc]
            refine ⟨?_, ?_, ?_, ?_⟩
            · intro hx; dsimp only at hx; rw [h1, hp] at hx; simp at hx
            · intro hx; dsimp only at hx; rw [h1, hp] at hx; cases hx; exact absurd rfl hc
            · intro c' hc' hx
              dsimp only at hx ⊢
              rw [h1, hp] at hx
              cases hx
              exact .inr ⟨by omega, fun _ => by omega, fun hne => absurd (h2.trans hr) hne⟩
            · intro hx; dsimp only at hx; rw [h1, hp] at hx; cases hx
          · rw [if_neg hr]
            refine ⟨?_, ?_, ?_, ?_⟩
            · intro hx; rw [h1, hp] at hx; simp at hx
            · intro hx; rw [h1, hp] at hx; cases hx; exact absurd rfl hc
            · intro c' hc' hx
              rw [h1, hp] at hx
              cases hx
              exact .inr ⟨by omega, fun he => absurd (h2.symm.trans he) hr, fun _ => by omega⟩
            · intro hx; rw [h1, hp] at hx; cases hx
      refine key (if ok then { j with page := rest, total := j.total + 1, written := j.written + 1 }
        else { j with page := rest, errors := j.errors ++ [(c, r.id)] })
        (by cases ok <;> rfl) (by cases ok <;> rfl) (by cases ok <;> rfl) (by cases ok <;> rfl) ?_
      cases ok
      · exact .inr ⟨rfl, rfl⟩
      · exact .inl ⟨rfl, rfl⟩
    · exact h
  | memory => exact h
  | stop =>
    simp only [Job.step]
    split
    · refine ⟨?_, (by intro h; cases h), (by intro c _ h; cases h), (by intro h; cases h)⟩
      rintro (h | ⟨l, h⟩ | h) <;> cases h
    · exact h

theorem exact_run {n : Coll → Nat} (evs : List Ev) : ∀ s : Sys, (∀ e ∈ evs, Still e) → (∀ c, (table s.rows c).length = n c) →
    (∀ j ∈ s.jobs, (∀ c, c ≠ .ledgers → n c ≤ limit c j.batch) → Exact n j) →
    ∀ j ∈ (run s evs).jobs, (∀ c, c ≠ .ledgers → n c ≤ limit c j.batch) → Exact n j := by
  induction evs with
  | nil => intro s _ _ h; exact h
  | cons e es ih =>
    intro s he hn h
    have hnew : ∀ b, Exact n (Job.new b) := fun b =>
      ⟨fun _ => ⟨rfl, rfl, rfl, rfl⟩, (by intro h; cases h), (by intro c _ h; cases h), (by intro h; cases h)⟩
    have happ : ∀ b, ∀ j ∈ s.jobs ++ [Job.new b], (∀ c, c ≠ .ledgers → n c ≤ limit c j.batch) → Exact n j := by
      intro b j hj
      rcases List.mem_append.1 hj with hj | hj
      · exact h j hj
      · rw [List.mem_singleton.1 hj]; exact fun _ => hnew b
    have he' : ∀ e ∈ es, Still e := fun x hx => he x (List.mem_cons_of_mem _ hx)
    have hs := he e List.mem_cons_self
    cases e with
    | ins c r => exact hs.elim
    | upd c id =>
      refine ih _ he' ?_ h
      intro c'
      have := congrArg List.length (table_map_bump s.rows c id c')
      simp only [List.length_map] at this
      rw [← hn c', ← this]; rfl
    | gone id => exact hs.elim
    | sync x => exact ih _ he' hn h
    | post b =>
      show ∀ j ∈ (run (step s (.post b)) es).jobs, _
      by_cases hf : s.free
      · simp only [step, if_pos hf]; exact ih _ he' hn (happ b)
      · simp only [step, if_neg hf]; exact ih _ he' hn h
    | startup =>
      show ∀ j ∈ (run (step s .startup) es).jobs, _
      by_cases hf : (s.dbHasData && !s.indexHasData) = true
      · simp only [step, if_pos hf]; exact ih _ he' hn (happ 1000)
      · simp only [step, if_neg hf]; exact ih _ he' hn h
    | job i e =>
      show ∀ j ∈ (run (step s (.job i e)) es).jobs, _
      cases hj : s.jobs[i]? with
      | none =>
        have : step s (.job i e) = s := by simp only [step, hj]
        rw [this]; exact ih _ he' hn h
      | some j =>
        simp only [step, hj]
        refine ih _ he' hn ?_
        intro j' hj'
        rcases List.mem_or_eq_of_mem_set hj' with hj' | rfl
        · exact h j' hj'
        · intro hlim
          rw [batch_step] at hlim
          exact exact_step hn hlim (h j (List.mem_of_getElem? hj) hlim) e

/-- If records are neither made nor deleted and identities, balances and transactions fit on one
page each, the report is right. -/
theorem c110_exact_partial (rows idx : List Item) (evs : List Ev) (he : ∀ e ∈ evs, Still e) (j : Job)
    (h : j ∈ (run { rows := rows, idx := idx } evs).jobs) (hl : ∀ c, c ≠ .ledgers → (table rows c).length ≤ limit c j.batch)
    (hd : j.ph = .done) : j.processed = j.written :=
  ((exact_run evs { rows := rows, idx := idx } he (fun _ => rfl) (by intro j hj; cases hj) j h hl).done hd).symm

/-- Three ledgers on three pages and an identity. -/
def smallRebuild : List Ev :=
  .post 1 :: (opening 0 ++ (List.replicate 3 [.job 0 (.page [⟨"z", 3, 1⟩, ⟨"y", 2, 1⟩, ⟨"x", 1, 1⟩]), .job 0 (.put true)]).flatten ++
    [.job 0 (.page [⟨"z", 3, 1⟩, ⟨"y", 2, 1⟩, ⟨"x", 1, 1⟩]), .job 0 (.page [⟨"a", 1, 1⟩]), .job 0 (.put true),
      .job 0 (.page [⟨"a", 1, 1⟩])] ++ passOver 0 2)

def smallRows : List Item := [(.ledgers, ⟨"x", 1, 1⟩), (.ledgers, ⟨"y", 2, 1⟩), (.ledgers, ⟨"z", 3, 1⟩), idt "a" 1]

example : (∀ e ∈ smallRebuild, Still e) ∧ (∀ c, c ≠ .ledgers → (table smallRows c).length ≤ limit c 1) ∧
    (run { rows := smallRows } smallRebuild).jobs = [{ batch := 1, ph := .done, processed := 4, all := 4, written := 4 }] := by
  refine ⟨?_, ?_, by decide +kernel⟩
  · simp [smallRebuild, opening, passOver, Still, List.replicate]
  · intro c hc
    cases c
    · exact absurd rfl hc
    all_goals decide +kernel

/-! ### C111 -/

/-- C111 in full: at most one rebuild is in progress. -/
def C111Full : Prop := ∀ (rows idx : List Item) (evs : List Ev), ((run { rows := rows, idx := idx } evs).jobs.filter Job.running).length ≤ 1

/-- Two requests are accepted before the first rebuild has begun. -/
theorem c111_requests_fails : ¬ C111Full := by
  intro h
  exact absurd (h [] [] [.post 0, .post 0, .job 0 .begin, .job 1 .begin]) (by decide +kernel)

/-- The rebuild of the server start is not known to the request. -/
theorem c111_startup_fails : ¬ C111Full := by
  intro h
  exact absurd (h [idt "a" 1] [] [.startup, .job 0 .begin, .post 0, .job 1 .begin]) (by decide +kernel)

/-- The server did not rebuild by itself, and every accepted rebuild has begun before the next
request. -/
def Calm (s : Sys) : List Ev → Prop
  | [] => True
  | e :: es => (match e with
      | .post _ => ∀ j ∈ s.jobs, j.ph ≠ .pending
      | .startup => False
      | _ => True) ∧ Calm (step s e) es

/-- All rebuilds but the current are over. -/
structure OneCur (s : Sys) : Prop where
  ended : ∀ i j, s.jobs[i]? = some j → s.cur ≠ some i → j.ph = .done ∨ j.ph = .failed
  named : ∀ i, s.cur = some i → i < s.jobs.length

theorem ended_step {rows idx : List Item} {j : Job} (e : JEv) (h : j.ph = .done ∨ j.ph = .failed) :
    (j.step rows idx e).2 = j := by
  have hr : j.running = false := by unfold Job.running; rcases h with h | h <;> rw [h]
  cases e with
  | begin => simp only [Job.step]; rcases h with h | h <;> rw [h]
  | drop => simp only [Job.step]; rcases h with h | h <;> rw [h]
  | create now => simp only [Job.step]; rcases h with h | h <;> rw [h]
  | page order => simp only [Job.step]; rcases h with h | h <;> rw [h]
  | put ok =>
    simp only [Job.step]
    rcases h with h | h <;> rw [h]
  | memory => rfl
  | stop => simp only [Job.step, hr]; rfl

theorem onecur_run (evs : List Ev) : ∀ s : Sys, Calm s evs → OneCur s → OneCur (run s evs) := by
  induction evs with
  | nil => intro s _ h; exact h
  | cons e es ih =>
    intro s hc h
    refine ih _ hc.2 ?_
    have hc1 := hc.1
    cases e with
    | ins c r => simp only [step]; split <;> exact ⟨h.ended, h.named⟩
    | upd c id => exact ⟨h.ended, h.named⟩
    | gone id => exact ⟨h.ended, h.named⟩
    | sync x => exact ⟨h.ended, h.named⟩
    | startup => exact hc1.elim
    | post b =>
      simp only [step]
      split
      · rename_i hf
        refine ⟨?_, ?_⟩
        · intro i j hi hne
          rw [List.getElem?_append] at hi
          split at hi
          · by_cases hcur : s.cur = some i
            · unfold Sys.free at hf
              rw [hcur] at hf
              dsimp only at hf
              rw [hi] at hf
              dsimp only at hf
              have hp := hc1 j (List.mem_of_getElem? hi)
              unfold Job.running at hf
              cases hph : j.ph <;> simp_all
            · exact h.ended i j hi hcur
          · rename_i hge
            exfalso
            have : i - s.jobs.length = 0 := by
              rcases Nat.lt_or_ge (i - s.jobs.length) 1 with h | h
              · omega
              · rw [List.getElem?_eq_none (by simpa using h)] at hi; cases hi
            exact hne (by show some s.jobs.length = some i; congr 1; omega)
        · intro i hi
          have hi' : some s.jobs.length = some i := hi
          cases hi'
          simp
      · exact h
    | job i e =>
      simp only [step]
      cases hj : s.jobs[i]? with
      | none => exact h
      | some j =>
        refine ⟨?_, ?_⟩
        · intro k j' hk hne
          by_cases hki : i = k
          · subst hki
            have hl : i < s.jobs.length := by
              rcases Nat.lt_or_ge i s.jobs.length with h | h
              · exact h
              · rw [List.getElem?_eq_none h] at hj; cases hj
            have hk' : (s.jobs.set i (j.step s.rows s.idx e).2)[i]? = some j' := hk
            rw [List.getElem?_set_self hl] at hk'
            have he := h.ended i j hj hne
            rw [ended_step e he] at hk'
            cases hk'
            exact he
          · have hk' : (s.jobs.set i (j.step s.rows s.idx e).2)[k]? = some j' := hk
            rw [List.getElem?_set_ne hki] at hk'
            exact h.ended k j' hk' hne
        · intro k hk
          have := h.named k hk
          show k < (s.jobs.set i _).length
          rw [List.length_set]
          exact this

theorem filter_le_one {l : List Job} {cur : Option Nat} (h : ∀ i j, l[i]? = some j → cur ≠ some i → j.running = false) :
    (l.filter Job.running).length ≤ 1 := by
  induction l generalizing cur with
  | nil => exact Nat.zero_le _
  | cons a l ih =>
    by_cases hc : cur = some 0
    · have : l.filter Job.running = [] := by
        rw [List.filter_eq_nil_iff]
        intro j hj
        obtain ⟨i, hi⟩ := List.mem_iff_getElem?.1 hj
        have := h (i + 1) j (by simpa using hi) (by rw [hc]; simp)
        simp [this]
      rw [List.filter_cons]
      split
      · rw [this]; exact Nat.le_refl _
      · rw [this]; exact Nat.zero_le _
    · have ha := h 0 a rfl hc
      rw [List.filter_cons, if_neg (by rw [ha]; decide)]
      refine ih (cur := cur.map (· - 1)) ?_
      intro i j hi hne
      refine h (i + 1) j (by simpa using hi) ?_
      rintro rfl
      exact hne rfl

/-- If the server did not rebuild by itself and every accepted rebuild has begun before the next
request, at most one is in progress. -/
theorem c111_one_partial (rows idx : List Item) (evs : List Ev) (hc : Calm { rows := rows, idx := idx } evs) :
    ((run { rows := rows, idx := idx } evs).jobs.filter Job.running).length ≤ 1 := by
  have h := onecur_run evs { rows := rows, idx := idx } hc ⟨(by intro i j hi; simp at hi), (by intro i hi; cases hi)⟩
  refine filter_le_one (cur := (run { rows := rows, idx := idx } evs).cur) ?_
  intro i j hi hne
  unfold Job.running
  rcases h.ended i j hi hne with h | h <;> rw [h]

/-- A request during a rebuild is refused, one after it failed is accepted. -/
def threeRequests : List Ev := [.post 0, .job 0 .begin, .post 5, .job 0 .stop, .post 7, .job 1 .begin]

example : Calm {} threeRequests ∧ (run {} threeRequests).jobs =
    [{ batch := 1000, ph := .failed }, { batch := 7, ph := .drop allColls }] := by
  refine ⟨?_, by decide +kernel⟩
  simp only [threeRequests, Calm]
  decide +kernel

/-! ### C112 -/

/-- C112 in full: whatever a server finds at its start, a document of a record that exists stays
there while the rebuild it may begin goes on. -/
def C112Full : Prop := ∀ (rows idx : List Item) (es : List JEv) (k : Coll × String), found rows k → found idx k →
  found (run { rows := rows, idx := idx } (.startup :: es.map (.job 0))).idx k

/-- An installation without transactions is emptied at every start. -/
theorem c112_emptied_fails : ¬ C112Full := by
  intro h
  have := h [idt "a" 1] [idt "a" 1] (.begin :: List.replicate 5 .drop) (.identities, "a") (by decide +kernel) (by decide +kernel)
  exact absurd this (by decide +kernel)

/-- And in full: a record that search has lost makes the start begin a rebuild. -/
def C112LostFull : Prop := ∀ (rows idx : List Item) (k : Coll × String), found rows k → ¬ found idx k →
  (step { rows := rows, idx := idx } .startup).jobs ≠ []

/-- Search has one of two transactions and no balance. -/
theorem c112_lost_fails : ¬ C112LostFull := by
  intro h
  have := h [(.transactions, ⟨"t1", 1, 1⟩), (.transactions, ⟨"t2", 2, 1⟩), (.balances, ⟨"b", 0, 1⟩)] [(.transactions, ⟨"t1", 1, 1⟩)]
    (.balances, "b") (by decide +kernel) (by decide +kernel)
  exact absurd this (by decide +kernel)

theorem table_empty {l : List Item} {c : Coll} : (table l c).isEmpty = true ↔ ∀ x ∈ l, x.1 ≠ c := by
  unfold table
  rw [List.isEmpty_iff, List.map_eq_nil_iff, List.filter_eq_nil_iff]
  simp

/-- A start begins exactly one rebuild if search has no transaction and the database has anything
besides a ledger and reconciliations; it does nothing else. -/
theorem c112_start_partial (s : Sys) :
    ((∀ x ∈ s.idx, x.1 ≠ .transactions) ∧ (1 < (table s.rows .ledgers).length ∨
        ∃ x ∈ s.rows, x.1 = .transactions ∨ x.1 = .balances ∨ x.1 = .identities) →
      step s .startup = { s with jobs := s.jobs ++ [Job.new 1000] }) ∧
    ((∃ x ∈ s.idx, x.1 = .transactions) ∨ ((table s.rows .ledgers).length ≤ 1 ∧
        ∀ x ∈ s.rows, x.1 = .ledgers ∨ x.1 = .reconciliations) → step s .startup = s) := by
  have hne : ∀ (l : List Item) (c : Coll), (table l c).isEmpty = false ↔ ∃ x ∈ l, x.1 = c := by
    intro l c
    rw [← Bool.not_eq_true, table_empty]
    simp
  refine ⟨?_, ?_⟩
  · rintro ⟨h1, h2⟩
    simp only [step]
    rw [if_pos]
    have hi : s.indexHasData = false := by
      unfold Sys.indexHasData
      rw [table_empty.2 h1]; rfl
    rw [hi, Bool.and_eq_true]
    refine ⟨?_, rfl⟩
    unfold Sys.dbHasData
    rcases h2 with h2 | ⟨x, hx, h2⟩
    · simp [h2]
    · rcases h2 with h2 | h2 | h2
      · rw [(hne _ _).2 ⟨x, hx, h2⟩]; simp
      · rw [(hne _ .balances).2 ⟨x, hx, h2⟩]; simp
      · rw [(hne _ .identities).2 ⟨x, hx, h2⟩]; simp
  · rintro (h | ⟨h1, h2⟩)
    · simp only [step]
      rw [if_neg]
      have hi : s.indexHasData = true := by
        unfold Sys.indexHasData
        rw [(hne _ _).2 h]; rfl
      rw [hi]
      simp
    · simp only [step]
      rw [if_neg]
      have hno : ∀ c, c ≠ .ledgers → c ≠ .reconciliations → (table s.rows c).isEmpty = true := by
        intro c ha hb
        rw [table_empty]
        intro x hx he
        rcases h2 x hx with h | h
        · exact ha (he.symm.trans h)
        · exact hb (he.symm.trans h)
      have hi : s.dbHasData = false := by
        unfold Sys.dbHasData
        rw [hno .transactions (by decide) (by decide), hno .balances (by decide) (by decide), hno .identities (by decide) (by decide)]
        simp; omega
      rw [hi]
      simp

example : step { rows := [idt "a" 1], idx := [idt "a" 1] } .startup =
    { rows := [idt "a" 1], idx := [idt "a" 1], jobs := [{ batch := 1000 }] } := by decide +kernel

end Blnk.Reidx
