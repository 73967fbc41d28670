import Verif.Model.ReconGroup
import Verif.Props.Recon
/-
C59: grouped reconciliation reports each record once. C76: a started reconciliation ends.
C77: groups are compared whole.
-/
namespace Blnk.Recon

/-! ### Groups -/

/-- The rows of a key. -/
def rowsOf (rows : List (String × Rec)) (k : String) : List Rec := (rows.filter (fun p => p.1 = k)).map (·.2)

/-- What a group is compared as: its total, its earliest date, its texts joined, its currency if it has one. -/
structure CombinedAs (g : List Rec) (v : Rec) : Prop where
  amount : v.amount = (g.map (·.amount)).sum
  date : (∃ t ∈ g, v.date = t.date) ∧ ∀ t ∈ g, v.date ≤ t.date
  description : v.description = " | ".intercalate (g.map (·.description))
  reference : v.reference = " | ".intercalate (g.map (·.reference))
  currency : (∀ t ∈ g, v.currency = t.currency) ∨ v.currency = "MIXED" ∧ ∃ t ∈ g, ∃ u ∈ g, t.currency ≠ u.currency

theorem total_sum : ∀ g : List Rec, total g = (g.map (·.amount)).sum
  | [] => rfl
  | t :: g => by rw [total, List.map_cons, List.sum_cons, total_sum g]

theorem earliest_spec : ∀ {g : List Rec}, g ≠ [] → (∃ t ∈ g, earliest g = t.date) ∧ ∀ t ∈ g, earliest g ≤ t.date := by
  intro g
  induction g with
  | nil => intro h; exact absurd rfl h
  | cons t g ih =>
    intro _
    cases g with
    | nil => exact ⟨⟨t, by simp, rfl⟩, by simp [earliest]⟩
    | cons u g =>
      obtain ⟨⟨w, hw, e⟩, h2⟩ := ih (by simp)
      rw [earliest]
      split
      · rename_i h
        exact ⟨⟨t, by simp, rfl⟩, fun v hv => by
          rcases List.mem_cons.1 hv with rfl | hv
          · exact Rat.le_refl
          · exact Rat.le_trans h (h2 v hv)⟩
      · rename_i h
        exact ⟨⟨w, by simp only [List.mem_cons] at hw ⊢; exact .inr hw, e⟩, fun v hv => by
          rcases List.mem_cons.1 hv with rfl | hv
          · exact Rat.le_of_lt (Rat.not_le.1 h)
          · exact h2 v hv⟩
      · simp

theorem combined_spec {g : List Rec} (h : g ≠ []) : CombinedAs g (combined g) where
  amount := total_sum g
  date := earliest_spec h
  description := rfl
  reference := rfl
  currency := by
    cases g with
    | nil => exact absurd rfl h
    | cons t g =>
      simp only [combined, dominantCurrency]
      split
      · rename_i hc
        simp only [List.all_eq_true, decide_eq_true_eq] at hc
        exact .inl (fun u hu => by
          rcases List.mem_cons.1 hu with rfl | hu
          · rfl
          · exact (hc u hu).symm)
      · rename_i hc
        simp only [List.all_eq_true, decide_eq_true_eq] at hc
        obtain ⟨u, hu⟩ := Classical.not_forall.1 hc
        obtain ⟨h1, h2⟩ := Classical.not_imp.1 hu
        exact .inr ⟨rfl, u, by simp [h1], t, by simp, h2⟩

theorem combinedAs_eq {g : List Rec} {v : Rec} (hg : g ≠ []) (h : CombinedAs g v) : v = { combined g with id := v.id } := by
  have hc := combined_spec hg
  obtain ⟨i, a, d, de, re, cu⟩ := v
  have h1 := h.amount; have h2 := h.date; have h3 := h.description; have h4 := h.reference; have h5 := h.currency
  simp only at h1 h2 h3 h4 h5
  have hd : d = earliest g := by
    obtain ⟨⟨t, ht, e⟩, hm⟩ := h2
    obtain ⟨⟨u, hu, e'⟩, hm'⟩ := hc.date
    have a1 := hm u hu
    have a2 := hm' t ht
    rw [← e'] at a1
    rw [← e] at a2
    exact Rat.le_antisymm a1 a2
  have hcu : cu = dominantCurrency g := by
    rcases h5 with h5 | ⟨h5, t, ht, u, hu, hn⟩ <;> rcases hc.currency with h6 | ⟨h6, t', ht', u', hu', hn'⟩
    · obtain ⟨t, ht⟩ := List.exists_mem_of_ne_nil g hg
      rw [h5 t ht, ← h6 t ht]; rfl
    · exact absurd ((h5 t' ht').symm.trans (h5 u' hu')) hn'
    · exact absurd ((h6 t ht).symm.trans (h6 u hu)) hn
    · rw [h5]; exact h6.symm
  simp only [combined, Rec.mk.injEq, true_and]
  exact ⟨by rw [h1, total_sum], hd, h3, h4, hcu⟩

theorem asks_id {x : Text} {c : Criterion} {s v : Rec} {i : String} : c.Asks x s { v with id := i } ↔ c.Asks x s v := by
  obtain ⟨f, o, d⟩ := c
  cases f <;> cases o <;> exact Iff.rfl

/-- A record and a group satisfy a rule. -/
def Fits (x : Text) (rules : List Rule) (s : Rec) (g : List Rec) : Prop := ∃ v, CombinedAs g v ∧ ∃ r ∈ rules, r.Holds x s v

theorem matchesGroup_iff {x : Text} {rules : List Rule} {s : Rec} {g : List Rec} (hg : g ≠ []) : matchesGroup x rules s g = true ↔ Fits x rules s g := by
  unfold matchesGroup
  rw [matchesRules_iff]
  constructor
  · intro h; exact ⟨_, combined_spec hg, h⟩
  · rintro ⟨v, hv, r, hr, hh⟩
    refine ⟨r, hr, fun c hc => ?_⟩
    have := hh c hc
    rw [combinedAs_eq hg hv] at this
    exact asks_id.1 this

theorem addTo_lookup (k : String) (t : Rec) : ∀ (gs : List (String × List Rec)), (gs.map (·.1)).Nodup →
    ((addTo k t gs).map (·.1)).Nodup ∧ (∀ k' g, (k', g) ∈ addTo k t gs ↔
      if k' = k then (∃ g0, (k, g0) ∈ gs ∧ g = g0 ++ [t]) ∨ ((∀ g0, (k, g0) ∉ gs) ∧ g = [t]) else (k', g) ∈ gs) ∧
      ∀ k', k' ∈ (addTo k t gs).map (·.1) ↔ k' = k ∨ k' ∈ gs.map (·.1) := by
  intro gs
  induction gs with
  | nil =>
    intro _
    refine ⟨by simp [addTo], ?_, by simp [addTo]⟩
    intro k' g
    by_cases h : k' = k <;> simp [addTo, h]
  | cons p gs ih =>
    obtain ⟨k0, g0⟩ := p
    intro hn
    rw [List.map_cons, List.nodup_cons] at hn
    obtain ⟨hn1, hn2⟩ := hn
    obtain ⟨i1, i2, i3⟩ := ih hn2
    have hnk : ∀ g, (k0, g) ∉ gs := fun g hg => hn1 (List.mem_map.2 ⟨_, hg, rfl⟩)
    rw [addTo]
    by_cases h : k0 = k
    · subst h
      rw [if_pos rfl]
      refine ⟨by rw [List.map_cons, List.nodup_cons]; exact ⟨hn1, hn2⟩, ?_, by simp⟩
      intro k' g
      by_cases hk : k' = k0
      · subst hk
        simp only [if_pos, List.mem_cons, Prod.mk.injEq, true_and]
        constructor
        · rintro (h | h)
          · exact .inl ⟨g0, .inl rfl, h⟩
          · exact absurd h (hnk g)
        · rintro (⟨g1, h1, h2⟩ | ⟨h1, _⟩)
          · rcases h1 with h1 | h1
            · subst h1; exact .inl h2
            · exact absurd h1 (hnk g1)
          · exact absurd (.inl rfl) (h1 g0)
      · simp [hk]
    · rw [if_neg h]
      refine ⟨?_, ?_, ?_⟩
      · rw [List.map_cons, List.nodup_cons]
        refine ⟨?_, i1⟩
        rw [i3]
        rintro (h1 | h1)
        · exact h h1
        · exact hn1 h1
      · intro k' g
        rw [List.mem_cons, i2]
        by_cases hk : k' = k
        · subst hk
          have : ∀ g1, (k', g1) ∈ ((k0, g0) :: gs) ↔ (k', g1) ∈ gs := by
            intro g1; simp only [List.mem_cons, Prod.mk.injEq]
            exact ⟨fun hh => hh.elim (fun hh => absurd hh.1.symm h) id, .inr⟩
          simp only [if_pos, Prod.mk.injEq, this]
          exact ⟨fun hh => hh.elim (fun hh => absurd hh.1.symm h) id, .inr⟩
        · simp [hk]
      · intro k'
        rw [List.map_cons, List.mem_cons, i3]
        simp only [List.map_cons, List.mem_cons]
        exact ⟨fun h => by rcases h with h | h | h <;> simp [h], fun h => by rcases h with h | h | h <;> simp [h]⟩

/-- The groups so far are the rows so far. -/
def Holding (gs : List (String × List Rec)) (seen : List (String × Rec)) : Prop :=
  (gs.map (·.1)).Nodup ∧ ∀ k g, (k, g) ∈ gs ↔ g = rowsOf seen k ∧ g ≠ []

theorem groupsFrom_spec : ∀ {rows seen : List (String × Rec)} {gs : List (String × List Rec)}, Holding gs seen → Holding (groupsFrom gs rows) (seen ++ rows) := by
  intro rows
  induction rows with
  | nil => intro seen gs h; simpa [groupsFrom] using h
  | cons p rows ih =>
    obtain ⟨k, t⟩ := p
    intro seen gs h
    rw [groupsFrom]
    have : Holding (addTo k t gs) (seen ++ [(k, t)]) := by
      obtain ⟨h1, h2, _⟩ := addTo_lookup k t gs h.1
      refine ⟨h1, fun k' g => ?_⟩
      rw [h2]
      have hr : rowsOf (seen ++ [(k, t)]) k' = if k' = k then rowsOf seen k ++ [t] else rowsOf seen k' := by
        unfold rowsOf
        rw [List.filter_append, List.map_append]
        by_cases hk : k' = k
        · subst hk; simp
        · have : ¬ k = k' := fun e => hk e.symm
          simp [hk, this]
      rw [hr]
      by_cases hk : k' = k
      · subst hk
        simp only [if_pos]
        constructor
        · rintro (⟨g0, h3, rfl⟩ | ⟨h3, rfl⟩)
          · rw [((h.2 _ _).1 h3).1]; simp
          · have : rowsOf seen k' = [] := by
              cases hc : rowsOf seen k' with
              | nil => rfl
              | cons a l => exact absurd ((h.2 k' (rowsOf seen k')).2 ⟨rfl, by simp [hc]⟩) (h3 _)
            simp [this]
        · rintro ⟨rfl, _⟩
          cases hc : rowsOf seen k' with
          | nil => exact .inr ⟨fun g0 h3 => ((h.2 _ _).1 h3).2 (by rw [((h.2 _ _).1 h3).1]; exact hc), rfl⟩
          | cons a l => exact .inl ⟨a :: l, (h.2 _ _).2 ⟨hc.symm, by simp⟩, rfl⟩
      · simp only [if_neg hk]; exact h.2 k' g
    have := ih this
    simpa using this

theorem groupsOf_mem {rows : List (String × Rec)} {k : String} {g : List Rec} : (k, g) ∈ groupsOf rows ↔ g = rowsOf rows k ∧ g ≠ [] := by
  have := groupsFrom_spec (rows := rows) (seen := []) (gs := []) ⟨by simp, by simp [rowsOf]⟩
  simpa [groupsOf] using this.2 k g

/-! ### A record's pages -/

theorem claim_some {x : Text} {rules : List Rule} {s : Rec} {p : List (String × Rec)} {groups : List (String × List Rec)} {g : String × List Rec}
    (hp : groups.Perm (groupsOf p)) (h : claim x rules s groups = some g) : g.2 = rowsOf p g.1 ∧ g.2 ≠ [] ∧ Fits x rules s g.2 := by
  have hm := hp.subset (List.mem_of_find?_eq_some h)
  obtain ⟨k, g⟩ := g
  have h1 := groupsOf_mem.1 hm
  have h2 := List.find?_some h
  exact ⟨h1.1, h1.2, (matchesGroup_iff h1.2).1 h2⟩

theorem claim_none {x : Text} {rules : List Rule} {s : Rec} {p : List (String × Rec)} {groups : List (String × List Rec)}
    (hp : groups.Perm (groupsOf p)) (h : claim x rules s groups = none) (k : String) (hk : rowsOf p k ≠ []) : ¬ Fits x rules s (rowsOf p k) := by
  intro hf
  have hm : (k, rowsOf p k) ∈ groups := hp.symm.subset (groupsOf_mem.2 ⟨rfl, hk⟩)
  have := List.find?_eq_none.1 h _ hm
  exact this ((matchesGroup_iff hk).2 hf)

/-- The page has a group that fits. -/
def PageFits (x : Text) (rules : List Rule) (s : Rec) (p : List (String × Rec)) : Prop := ∃ k, rowsOf p k ≠ [] ∧ Fits x rules s (rowsOf p k)

/-- A verdict: matched with all rows of one group that satisfies a rule and not reported unmatched, or
reported unmatched once and matched with nothing. -/
def OneVerdict (x : Text) (rules : List Rule) (ext : Bool) (rows : List (String × Rec)) (s : Rec) (o : Outcome) : Prop :=
  (o.unmatched = [] ∧ ∃ k, rowsOf rows k ≠ [] ∧ Fits x rules s (rowsOf rows k) ∧ o.matched = pairs ext s (rowsOf rows k)) ∨
    (o.unmatched = [s.id] ∧ o.matched = [])

/-- **C59 as stated**: of the records of a run over one table, every one gets one verdict, and no
transaction of a group is claimed by two. -/
def C59Full : Prop := ∀ (x : Text) (size : Nat) (rules : List Rule) (ext : Bool) (rows : List (String × Rec)) (ss : List (Rec × Option Outcome)),
  0 < size → (∀ r ∈ rules, r.ok = true) → (rows.map (·.2.id)).Nodup → (ss.map (·.1.id)).Nodup →
    (∀ p ∈ ss, Grouped x rules ext (chunks size rows) p.1 p.2) →
      (∀ p ∈ ss, ∃ o, p.2 = some o ∧ OneVerdict x rules ext rows p.1 o) ∧
        (((ss.filterMap (·.2)).flatMap (·.matched)).map (fun m => if ext then m.external else m.internal)).Nodup

/-- **C76 as stated**, for a record of a grouped run. -/
def C76Full : Prop := ∀ (x : Text) (size : Nat) (rules : List Rule) (ext : Bool) (rows : List (String × Rec)) (s : Rec) (o : Option Outcome),
  0 < size → (∀ r ∈ rules, r.ok = true) → Grouped x rules ext (chunks size rows) s o → o ≠ none

/-- **C77 as stated**: a record reported unmatched fits no group, and a matched one is matched with a
whole group it fits. -/
def C77Full : Prop := ∀ (x : Text) (size : Nat) (rules : List Rule) (ext : Bool) (rows : List (String × Rec)) (s : Rec) (o : Outcome),
  0 < size → (∀ r ∈ rules, r.ok = true) → Grouped x rules ext (chunks size rows) s (some o) →
    (s.id ∈ o.unmatched → ∀ k, rowsOf rows k ≠ [] → ¬ Fits x rules s (rowsOf rows k)) ∧
      (o.matched ≠ [] → ∃ k, Fits x rules s (rowsOf rows k) ∧ o.matched = pairs ext s (rowsOf rows k))

theorem chunks_one {size : Nat} {rows : List (String × Rec)} (h1 : rows ≠ []) (h2 : rows.length ≤ size) : chunks size rows = [rows] := by
  unfold chunks
  cases rows with
  | nil => exact absurd rfl h1
  | cons a l =>
    rw [List.length_cons, chunksUpTo]
    simp only [List.isEmpty_cons, Bool.false_eq_true, if_false]
    rw [List.take_of_length_le h2, List.drop_of_length_le h2]
    cases l.length <;> rfl

theorem chunks_nil (size : Nat) : chunks size [] = [] := rfl

/-- The record's run over a table that fits on one page. -/
theorem one_page {x : Text} {size : Nat} {rules : List Rule} {ext : Bool} {rows : List (String × Rec)} {s : Rec} {o : Option Outcome}
    (h : rows.length ≤ size) (hg : Grouped x rules ext (chunks size rows) s o) :
    ∃ r, o = some r ∧ OneVerdict x rules ext rows s r ∧ (r.unmatched = [s.id] ↔ ∀ k, rowsOf rows k ≠ [] → ¬ Fits x rules s (rowsOf rows k)) := by
  by_cases hr : rows = []
  · subst hr
    rw [chunks_nil] at hg
    cases hg with
    | none_read _ => exact ⟨_, rfl, .inr ⟨rfl, rfl⟩, by simp [rowsOf]⟩
    | ends hn => exact absurd rfl hn
    | hangs hn => exact absurd rfl hn
  · rw [chunks_one hr h] at hg
    have key : ∀ ms us, Scan x rules ext s [rows] ms us → (us = [] ∧ ∃ k, rowsOf rows k ≠ [] ∧ Fits x rules s (rowsOf rows k) ∧ ms = pairs ext s (rowsOf rows k)) ∨
        (us = [s.id] ∧ ms = [] ∧ ∀ k, rowsOf rows k ≠ [] → ¬ Fits x rules s (rowsOf rows k)) := by
      intro ms us hs
      cases hs with
      | hit hp hc hs =>
        cases hs
        obtain ⟨h1, h2, h3⟩ := claim_some hp hc
        rw [h1] at h2 h3
        exact .inl ⟨rfl, _, h2, h3, by rw [h1]; simp⟩
      | stop hp hc =>
        obtain ⟨h1, h2, h3⟩ := claim_some (.of_eq hp.symm) hc
        rw [h1] at h2 h3
        exact .inl ⟨rfl, _, h2, h3, by rw [h1]⟩
      | miss hp hc hs =>
        cases hs
        exact .inr ⟨rfl, rfl, fun k hk => claim_none hp hc k hk⟩
    cases hg with
    | none_read hn => cases hn
    | ends _ hs _ =>
      refine ⟨_, rfl, ?_⟩
      rcases key _ _ hs with ⟨rfl, k, h1, h2, rfl⟩ | ⟨rfl, rfl, h1⟩
      · exact ⟨.inl ⟨rfl, k, h1, h2, rfl⟩, by simp; exact ⟨k, h1, h2⟩⟩
      · exact ⟨.inr ⟨rfl, rfl⟩, by simp; exact h1⟩
    | hangs _ hs hl =>
      rcases key _ _ hs with ⟨rfl, _⟩ | ⟨rfl, _⟩ <;> simp at hl

/-- **C59, tables of one page**: if the grouped rows fit on one page, a record gets exactly one verdict:
matched with one whole group that satisfies a rule, or unmatched, and then no group does. -/
theorem c59_one_page_partial {x : Text} {size : Nat} {rules : List Rule} {ext : Bool} {rows : List (String × Rec)} {s : Rec} {o : Option Outcome}
    (h : rows.length ≤ size) (hg : Grouped x rules ext (chunks size rows) s o) : ∃ r, o = some r ∧ OneVerdict x rules ext rows s r := by
  obtain ⟨r, h1, h2, _⟩ := one_page h hg
  exact ⟨r, h1, h2⟩

/-- **C76, tables of one page**: the record's run ends. -/
theorem c76_one_page_partial {x : Text} {size : Nat} {rules : List Rule} {ext : Bool} {rows : List (String × Rec)} {s : Rec} {o : Option Outcome}
    (h : rows.length ≤ size) (hg : Grouped x rules ext (chunks size rows) s o) : o ≠ none := by
  obtain ⟨r, h1, _⟩ := one_page h hg
  rw [h1]; simp

/-- **C77, tables of one page.** -/
theorem c77_one_page_partial {x : Text} {size : Nat} {rules : List Rule} {ext : Bool} {rows : List (String × Rec)} {s : Rec} {o : Outcome}
    (h : rows.length ≤ size) (hg : Grouped x rules ext (chunks size rows) s (some o)) :
    (s.id ∈ o.unmatched → ∀ k, rowsOf rows k ≠ [] → ¬ Fits x rules s (rowsOf rows k)) ∧
      (o.matched ≠ [] → ∃ k, Fits x rules s (rowsOf rows k) ∧ o.matched = pairs ext s (rowsOf rows k)) := by
  obtain ⟨r, h1, h2, h3⟩ := one_page h hg
  cases h1
  rcases h2 with ⟨h2, k, _, h4, h5⟩ | ⟨h2, h4⟩
  · exact ⟨fun hu => absurd hu (by rw [h2]; simp), fun _ => ⟨k, h4, h5⟩⟩
  · exact ⟨fun _ => h3.1 h2, fun hm => absurd h4 hm⟩

theorem scan_unmatched {x : Text} {rules : List Rule} {ext : Bool} {s : Rec} {pages : List (List (String × Rec))} {ms : List Match} {us : List String}
    (h : Scan x rules ext s pages ms us) (hn : ∀ p ∈ pages, ¬ PageFits x rules s p) : us = pages.map (fun _ => s.id) ∧ ms = [] := by
  induction h with
  | nil => exact ⟨rfl, rfl⟩
  | hit hp hc _ _ =>
    obtain ⟨h1, h2, h3⟩ := claim_some hp hc
    rw [h1] at h2 h3
    exact absurd ⟨_, h2, h3⟩ (hn _ (by simp))
  | stop hp hc =>
    obtain ⟨h1, h2, h3⟩ := claim_some (.of_eq hp.symm) hc
    rw [h1] at h2 h3
    exact absurd ⟨_, h2, h3⟩ (hn _ (by simp))
  | miss hp hc _ ih =>
    obtain ⟨e1, e2⟩ := ih (fun p hp => hn p (by simp [hp]))
    exact ⟨by rw [e1]; rfl, e2⟩

/-- **C76 fails**, always: a record that fits no group of a table of two or more pages keeps its
reconciliation from ending. -/
theorem c76_unmatched_never_ends {x : Text} {rules : List Rule} {ext : Bool} {pages : List (List (String × Rec))} {s : Rec} {o : Option Outcome}
    (h2 : 2 ≤ pages.length) (hn : ∀ p ∈ pages, ¬ PageFits x rules s p) (h : Grouped x rules ext pages s o) : o = none := by
  cases h with
  | none_read hp => rw [hp] at h2; simp at h2
  | ends _ hs hl =>
    rw [(scan_unmatched hs hn).1, List.length_map] at hl
    omega
  | hangs _ _ _ => rfl

theorem scan_reports {x : Text} {rules : List Rule} {ext : Bool} {s : Rec} {pages : List (List (String × Rec))} {ms : List Match} {us : List String}
    (h : Scan x rules ext s pages ms us) (hne : pages ≠ []) : ms ≠ [] ∨ us ≠ [] := by
  cases h with
  | nil => exact absurd rfl hne
  | hit hp hc _ =>
    obtain ⟨_, h2, _⟩ := claim_some hp hc
    exact .inl (by simp [pairs, h2])
  | stop hp hc =>
    obtain ⟨_, h2, _⟩ := claim_some (.of_eq hp.symm) hc
    exact .inl (by simp [pairs, h2])
  | miss => exact .inr (by simp)

/-- **C59: nothing vanishes.** Whatever the pages, a record whose run ends is reported. -/
theorem c59_reported {x : Text} {rules : List Rule} {ext : Bool} {pages : List (List (String × Rec))} {s : Rec} {o : Outcome}
    (h : Grouped x rules ext pages s (some o)) : o.matched ≠ [] ∨ o.unmatched = [s.id] := by
  cases h with
  | none_read _ => exact .inr rfl
  | ends hp hs hl =>
    rcases scan_reports hs hp with h | h
    · exact .inl h
    · refine .inr ?_
      have : ∀ {pages ms us}, Scan x rules ext s pages ms us → ∀ u ∈ us, u = s.id := by
        intro pages ms us hs
        induction hs with
        | nil => simp
        | hit _ _ _ ih => exact ih
        | stop => simp
        | miss _ _ _ ih => intro u hu; rcases List.mem_cons.1 hu with h | h; exact h; exact ih u h
      have hall := this hs
      rename_i ms us
      cases us with
      | nil => exact absurd rfl h
      | cons u us =>
        cases us with
        | nil => simp only [hall u (by simp)]
        | cons v us => simp at hl

/-- **C59: matches hold.** Every match is of this record with a row of a group, as far as one page shows
it, that satisfies a rule. -/
theorem c59_matches_hold {x : Text} {rules : List Rule} {ext : Bool} {pages : List (List (String × Rec))} {s : Rec} {o : Outcome}
    (h : Grouped x rules ext pages s (some o)) {m : Match} (hm : m ∈ o.matched) :
    (if ext then m.internal else m.external) = s.id ∧ ∃ p ∈ pages, ∃ k, Fits x rules s (rowsOf p k) ∧
      ∃ t ∈ rowsOf p k, m.amount = t.amount ∧ (if ext then m.external else m.internal) = t.id := by
  have hp : ∀ {p : List (String × Rec)} {k g}, g = rowsOf p k → Fits x rules s g → m ∈ pairs ext s g →
      (if ext then m.internal else m.external) = s.id ∧ ∃ k, Fits x rules s (rowsOf p k) ∧
      ∃ t ∈ rowsOf p k, m.amount = t.amount ∧ (if ext then m.external else m.internal) = t.id := by
    intro p k g e hf hm
    subst e
    obtain ⟨t, ht, rfl⟩ := List.mem_map.1 hm
    refine ⟨by split <;> simp, k, hf, t, ht, ?_, ?_⟩
    · split <;> rfl
    · split <;> simp
  have key : ∀ {pages ms us}, Scan x rules ext s pages ms us → m ∈ ms → (if ext then m.internal else m.external) = s.id ∧ ∃ p ∈ pages, ∃ k, Fits x rules s (rowsOf p k) ∧
      ∃ t ∈ rowsOf p k, m.amount = t.amount ∧ (if ext then m.external else m.internal) = t.id := by
    intro pages ms us hs
    induction hs with
    | nil => simp
    | @hit p ps groups g ms us hperm hc _ ih =>
      intro hm
      rcases List.mem_append.1 hm with hm | hm
      · obtain ⟨h1, _, h3⟩ := claim_some hperm hc
        obtain ⟨a, b⟩ := hp h1 h3 hm
        exact ⟨a, p, by simp, b⟩
      · obtain ⟨a, q, hq, b⟩ := ih hm
        exact ⟨a, q, by simp [hq], b⟩
    | @stop p ps g hperm hc =>
      intro hm
      obtain ⟨h1, _, h3⟩ := claim_some (.of_eq hperm.symm) hc
      obtain ⟨a, b⟩ := hp h1 h3 hm
      exact ⟨a, p, by simp, b⟩
    | miss _ _ _ ih =>
      intro hm
      obtain ⟨a, q, hq, b⟩ := ih hm
      exact ⟨a, q, by simp [hq], b⟩
  cases h with
  | none_read => cases hm
  | ends _ hs _ => exact key hs hm

/-! ### Cases -/

def ra (k i : String) (a : Rat) : String × Rec := (k, { id := i, amount := a })
def exactly : Rule := { name := "total", criteria := [{ field := .amount, operator := .equals }] }

/-- The hypotheses of the one-page theorems, met by a record that fits the second of two groups and by
one that fits none. -/
def table : List (String × Rec) := [ra "a" "t1" 10, ra "b" "t2" 60, ra "b" "t3" 40]

theorem grouped_one {rows : List (String × Rec)} {s : Rec} {g : String × List Rec} (h1 : rows ≠ []) (h2 : rows.length ≤ 1000)
    (hc : claim ascii [exactly] s (groupsOf rows) = some g) :
    Grouped ascii [exactly] false (chunks 1000 rows) s (some { matched := pairs false s g.2, unmatched := [] }) := by
  rw [chunks_one h1 h2]
  have := Scan.hit (ext := false) (ps := []) (List.Perm.refl _) hc .nil
  rw [List.append_nil] at this
  exact .ends (by simp) this (by simp)

example : ∃ o, Grouped ascii [exactly] false (chunks 1000 table) { id := "e", amount := 100 } (some o) ∧
    o.matched.map (fun m => (m.external, m.internal, m.amount)) = [("e", "t2", 60), ("e", "t3", 40)] ∧ o.unmatched = [] :=
  ⟨_, grouped_one (g := ("b", [(ra "b" "t2" 60).2, (ra "b" "t3" 40).2])) (by decide) (by decide) (by decide +kernel), by decide +kernel, rfl⟩

example : ∃ o, Grouped ascii [exactly] false (chunks 1000 table) { id := "e", amount := 70 } (some o) ∧ o.matched = [] ∧ o.unmatched = ["e"] := by
  rw [chunks_one (by decide) (by decide)]
  exact ⟨_, .ends (by simp) (.miss (List.Perm.refl _) (by decide +kernel) .nil) (by simp), rfl, rfl⟩

/-- The hypotheses of `c76_unmatched_never_ends`. -/
example : 2 ≤ (chunks 2 table).length ∧ ∀ p ∈ chunks 2 table, ¬ PageFits ascii [exactly] { id := "e", amount := 70 } p := by
  refine ⟨by decide +kernel, ?_⟩
  intro p hp ⟨k, hk, hf⟩
  have hm := groupsOf_mem.2 ⟨rfl, hk⟩
  have hf' := (matchesGroup_iff hk).2 hf
  have : (chunks 2 table).all (fun p => (groupsOf p).all (fun g => !matchesGroup ascii [exactly] { id := "e", amount := 70 } g.2)) = true := by decide +kernel
  rw [List.all_eq_true] at this
  have := List.all_eq_true.1 (this p hp) _ hm
  simp [hf'] at this

/-- **C59 fails over two pages**: a record matched on the first page is also reported unmatched for the second. -/
theorem c59_two_pages_fail : ∃ o, Grouped ascii [exactly] false (chunks 1 [ra "a" "t1" 10, ra "b" "t2" 20]) { id := "e", amount := 10 } (some o) ∧
    o.matched.map (·.internal) = ["t1"] ∧ o.unmatched = ["e"] := by
  refine ⟨_, .ends (by decide +kernel) (.hit (p := [ra "a" "t1" 10]) (g := ("a", [(ra "a" "t1" 10).2])) (List.Perm.refl _) (by decide +kernel)
    (.miss (p := [ra "b" "t2" 20]) (List.Perm.refl _) (by decide +kernel) .nil)) (by simp), by decide +kernel, rfl⟩

theorem c59_full_fails : ¬ C59Full := by
  intro h
  obtain ⟨o, h1, h2, h3⟩ := c59_two_pages_fail
  obtain ⟨o', e, hv⟩ := (h ascii 1 [exactly] false [ra "a" "t1" 10, ra "b" "t2" 20] [({ id := "e", amount := 10 }, some o)] (by decide) (by decide +kernel)
    (by decide +kernel) (by simp) (by simpa using h1)).1 ({ id := "e", amount := 10 }, some o) (by simp)
  simp only [Option.some.injEq] at e
  subst e
  rcases hv with ⟨h, _⟩ | ⟨_, h⟩
  · rw [h3] at h; cases h
  · rw [h] at h2; cases h2

/-- **C59 fails: a group claimed twice.** Each record builds its own group map, so two records that fit
the same group both claim it. -/
theorem c59_group_twice_fails : ¬ C59Full := by
  intro h
  have := (h ascii 1000 [exactly] false [ra "a" "t1" 10]
    [({ id := "e1", amount := 10 }, some { matched := pairs false { id := "e1", amount := 10 } [(ra "a" "t1" 10).2], unmatched := [] }),
     ({ id := "e2", amount := 10 }, some { matched := pairs false { id := "e2", amount := 10 } [(ra "a" "t1" 10).2], unmatched := [] })]
    (by decide) (by decide +kernel) (by decide +kernel) (by decide +kernel)
    (by
      simp only [List.mem_cons, List.not_mem_nil, or_false, forall_eq_or_imp, forall_eq]
      exact ⟨grouped_one (g := ("a", [(ra "a" "t1" 10).2])) (by decide) (by decide) (by decide +kernel),
        grouped_one (g := ("a", [(ra "a" "t1" 10).2])) (by decide) (by decide) (by decide +kernel)⟩)).2
  revert this
  decide +kernel

theorem c76_full_fails : ¬ C76Full := by
  intro h
  refine h ascii 1 [exactly] false [ra "a" "t1" 10, ra "b" "t2" 20] { id := "e", amount := 70 } none (by decide) (by decide +kernel) ?_ rfl
  exact .hangs (by decide +kernel) (.miss (p := [ra "a" "t1" 10]) (List.Perm.refl _) (by decide +kernel)
    (.miss (p := [ra "b" "t2" 20]) (List.Perm.refl _) (by decide +kernel) .nil)) (by simp)

/-- **C77 fails: part of a group is matched.** The group of 60 and 40 lies across two pages, and the
record of 60 is matched with its first half. -/
theorem c77_full_fails : ¬ C77Full := by
  intro h
  have hg : Grouped ascii [exactly] false (chunks 1 [ra "b" "t2" 60, ra "b" "t3" 40]) { id := "e", amount := 60 }
      (some { matched := pairs false { id := "e", amount := 60 } [(ra "b" "t2" 60).2], unmatched := [] }) :=
    .ends (by decide +kernel) (.stop (p := [ra "b" "t2" 60]) (ps := [[ra "b" "t3" 40]]) (g := ("b", [(ra "b" "t2" 60).2])) (by decide +kernel) (by decide +kernel)) (by simp)
  obtain ⟨k, _, e⟩ := (h _ 1 _ _ _ _ _ (by decide) (by decide +kernel) hg).2 (by decide +kernel)
  have hl := congrArg List.length e
  simp only [pairs, List.length_map] at hl
  unfold rowsOf at hl
  by_cases hk : "b" = k
  · subst hk; revert hl; decide +kernel
  · simp [ra, hk] at hl

/-- **C77 fails: a group that fits is not found.** The group of 60 and 40 lies across two pages, and no
page shows a total over 99 for it; the record is reported unmatched. -/
theorem c77_group_missed_fails : ¬ C77Full := by
  intro h
  have hg : Grouped ascii [{ name := "over", criteria := [{ field := .amount, operator := .lessThan }] }] false
      (chunks 2 [ra "a" "t1" 50, ra "b" "t2" 60, ra "b" "t3" 40, ra "c" "t4" 200]) { id := "e", amount := 99 }
      (some { matched := pairs false { id := "e", amount := 99 } [(ra "c" "t4" 200).2], unmatched := ["e"] }) :=
    .ends (by decide +kernel) (.miss (p := [ra "a" "t1" 50, ra "b" "t2" 60]) (List.Perm.refl _) (by decide +kernel)
      (.hit (p := [ra "b" "t3" 40, ra "c" "t4" 200]) (g := ("c", [(ra "c" "t4" 200).2])) (List.Perm.refl _) (by decide +kernel) .nil)) (by simp)
  refine (h _ 2 _ _ _ _ _ (by decide) (by decide +kernel) hg).1 (by simp) "b" (by decide +kernel) ?_
  rw [← matchesGroup_iff (by decide +kernel)]
  decide +kernel

end Blnk.Recon
