import Std.Data.String.ToNat
import Verif.Model.Split
/-
Splits: the legs add up (C19), no leg is negative (C20), legs are complete, distinct and
traceable (C21).
-/
namespace Blnk.Split

/-! ### Maps -/

theorem get?_none {α : Type} {m : List (String × α)} {k : String} : get? m k = none ↔ k ∉ keys m := by
  induction m with
  | nil => simp [get?, keys]
  | cons x t ih =>
    obtain ⟨j, u⟩ := x
    simp only [get?, keys, List.map_cons, List.mem_cons, not_or]
    by_cases h : j = k
    · simp [h]
    · simp only [h, if_false, ih, keys]
      exact ⟨fun h' => ⟨fun h2 => h h2.symm, h'⟩, fun h' => h'.2⟩

theorem get?_mem {α : Type} {m : List (String × α)} {k : String} {v : α} (h : get? m k = some v) : (k, v) ∈ m := by
  induction m with
  | nil => simp [get?] at h
  | cons x t ih =>
    obtain ⟨j, u⟩ := x
    simp only [get?] at h
    split at h
    · rename_i hj; simp at h; simp [hj, h]
    · exact List.mem_cons_of_mem _ (ih h)

theorem mem_get? {α : Type} {m : List (String × α)} {k : String} {v : α} (hn : (keys m).Nodup) (h : (k, v) ∈ m) :
    get? m k = some v := by
  induction m with
  | nil => simp at h
  | cons x t ih =>
    obtain ⟨j, u⟩ := x
    simp only [keys, List.map_cons, List.nodup_cons] at hn
    simp only [get?]
    rcases List.mem_cons.mp h with h' | h'
    · simp only [Prod.mk.injEq] at h'
      simp [h'.1, h'.2]
    · have : j ≠ k := by
        intro e; subst e
        exact hn.1 (List.mem_map.mpr ⟨_, h', rfl⟩)
      rw [if_neg this]
      exact ih hn.2 h'

theorem mem_keys_put {α : Type} (m : List (String × α)) (k j : String) (v : α) :
    j ∈ keys (put m k v) ↔ j = k ∨ j ∈ keys m := by
  induction m with
  | nil => simp [put, keys]
  | cons x t ih =>
    obtain ⟨i, u⟩ := x
    simp only [put]
    split
    · rename_i h; subst h; simp [keys]
    · simp only [keys, List.map_cons, List.mem_cons] at ih ⊢
      rw [ih]; exact or_left_comm

theorem nodup_put {α : Type} (m : List (String × α)) (k : String) (v : α) (h : (keys m).Nodup) : (keys (put m k v)).Nodup := by
  induction m with
  | nil => simp [put, keys]
  | cons x t ih =>
    obtain ⟨i, u⟩ := x
    simp only [put]
    split
    · exact h
    · rename_i hne
      have h1 := h
      simp only [keys, List.map_cons, List.nodup_cons] at h1
      have h2 := mem_keys_put t k i v
      have h3 := ih h1.2
      simp only [keys, List.map_cons, List.nodup_cons] at h2 h3 ⊢
      exact ⟨by rw [h2]; simp only [not_or]; exact ⟨hne, h1.1⟩, h3⟩

theorem mem_put {α : Type} {m : List (String × α)} {k : String} {v : α} {x : String × α} (h : x ∈ put m k v) :
    x = (k, v) ∨ x ∈ m := by
  induction m with
  | nil => simp [put] at h; exact Or.inl h
  | cons y t ih =>
    obtain ⟨i, u⟩ := y
    simp only [put] at h
    split at h
    · rename_i hi; subst hi
      rcases List.mem_cons.mp h with h | h
      · exact Or.inl h
      · exact Or.inr (List.mem_cons_of_mem _ h)
    · rcases List.mem_cons.mp h with h | h
      · exact Or.inr (by simp [h])
      · rcases ih h with h | h
        · exact Or.inl h
        · exact Or.inr (List.mem_cons_of_mem _ h)

theorem put_fresh {α : Type} (m : List (String × α)) (k : String) (v : α) (h : k ∉ keys m) : put m k v = m ++ [(k, v)] := by
  induction m with
  | nil => simp [put]
  | cons x t ih =>
    obtain ⟨i, u⟩ := x
    simp only [keys, List.map_cons, List.mem_cons, not_or] at h
    simp only [put, if_neg (Ne.symm h.1)]
    rw [ih (by simpa [keys] using h.2)]
    simp

theorem sumI_put {m : List (String × Int)} {k : String} {u v : Int} (h : get? m k = some u) :
    sumI (put m k v) = sumI m - u + v := by
  induction m with
  | nil => simp [get?] at h
  | cons x t ih =>
    obtain ⟨i, w⟩ := x
    simp only [get?] at h
    simp only [put]
    split at h
    · rename_i hi
      simp at h; subst h
      rw [if_pos hi]
      simp [sumI]; omega
    · rename_i hi
      rw [if_neg hi]
      have := ih h
      simp only [sumI, List.map_cons, List.sum_cons] at this ⊢
      omega

theorem sumI_put_le {m : List (String × Int)} {k : String} {v : Int} (h : ∀ x ∈ m, 0 ≤ x.2) :
    sumI (put m k v) ≤ sumI m + v := by
  induction m with
  | nil => simp [put, sumI]
  | cons x t ih =>
    obtain ⟨i, w⟩ := x
    have hw : 0 ≤ w := h (i, w) (by simp)
    have := ih (fun y hy => h y (List.mem_cons_of_mem _ hy))
    simp only [put]
    split <;> simp only [sumI, List.map_cons, List.sum_cons] at this ⊢ <;> omega

theorem sumR_put_le {m : List (String × Rat)} {k : String} {v : Rat} (h : ∀ x ∈ m, 0 ≤ x.2) :
    sumR (put m k v) ≤ sumR m + v := by
  induction m with
  | nil => simp only [put, sumR, List.map_cons, List.map_nil, List.sum_cons, List.sum_nil]; grind
  | cons x t ih =>
    obtain ⟨i, w⟩ := x
    have hw : 0 ≤ w := h (i, w) (by simp)
    have := ih (fun y hy => h y (List.mem_cons_of_mem _ hy))
    simp only [put]
    split <;> simp only [sumR, List.map_cons, List.sum_cons] at this ⊢ <;> grind

theorem sumR_put {m : List (String × Rat)} {k : String} {u v : Rat} (h : get? m k = some u) :
    sumR (put m k v) = sumR m - u + v := by
  induction m with
  | nil => simp [get?] at h
  | cons x t ih =>
    obtain ⟨i, w⟩ := x
    simp only [get?] at h
    simp only [put]
    split at h
    · rename_i hi
      simp at h; subst h
      rw [if_pos hi]
      simp only [sumR, List.map_cons, List.sum_cons]; grind
    · rename_i hi
      rw [if_neg hi]
      have := ih h
      simp only [sumR, List.map_cons, List.sum_cons] at this ⊢
      grind

theorem trunc_nonneg {q : Rat} (h : 0 ≤ q) : 0 ≤ trunc q := by
  simp only [trunc, if_pos h]
  exact Rat.le_floor_iff.mpr (by simpa using h)

theorem trunc_le {q : Rat} (h : 0 ≤ q) : (trunc q : Rat) ≤ q := by
  simp only [trunc, if_pos h]
  exact Rat.floor_le q

/-! ### The largest entry -/

/-- State of the search loop after some keys: nothing positive so far, or the best so far. -/
theorem search_int (m : List (String × Int)) (order : List String) (start : String × Int)
    (hs : start = ("", 0) ∨ (0 < start.2 ∧ get? m start.1 = some start.2)) :
    (search (fun a b => decide (a < b)) m start order = ("", 0) ∨
      (0 < (search (fun a b => decide (a < b)) m start order).2 ∧
        get? m (search (fun a b => decide (a < b)) m start order).1 =
          some (search (fun a b => decide (a < b)) m start order).2)) ∧
      start.2 ≤ (search (fun a b => decide (a < b)) m start order).2 ∧
      (∀ k ∈ order, ∀ v, get? m k = some v → v ≤ (search (fun a b => decide (a < b)) m start order).2) := by
  induction order generalizing start with
  | nil => exact ⟨hs, Int.le_refl _, by simp⟩
  | cons k ks ih =>
    have h0 : 0 ≤ start.2 := by
      rcases hs with h | h
      · simp [h]
      · omega
    simp only [search]
    cases hv : get? m k with
    | none =>
      simp only
      obtain ⟨h1, h2, h3⟩ := ih start hs
      refine ⟨h1, h2, ?_⟩
      intro j hj v hjv
      rcases List.mem_cons.mp hj with h | h
      · subst h; rw [hv] at hjv; cases hjv
      · exact h3 j h v hjv
    | some u =>
      simp only
      by_cases hlt : start.2 < u
      · simp only [hlt, decide_true, if_true]
        obtain ⟨h1, h2, h3⟩ := ih (k, u) (Or.inr ⟨by simp only; omega, hv⟩)
        simp only at h2
        refine ⟨h1, by omega, ?_⟩
        intro j hj v hjv
        rcases List.mem_cons.mp hj with h | h
        · subst h; rw [hv] at hjv; simp at hjv; omega
        · exact h3 j h v hjv
      · simp only [hlt, decide_false, Bool.false_eq_true, if_false]
        obtain ⟨h1, h2, h3⟩ := ih start hs
        refine ⟨h1, h2, ?_⟩
        intro j hj v hjv
        rcases List.mem_cons.mp hj with h | h
        · subst h; rw [hv] at hjv; simp at hjv; omega
        · exact h3 j h v hjv

theorem search_rat (m : List (String × Rat)) (order : List String) (start : String × Rat)
    (hs : start = ("", 0) ∨ (0 < start.2 ∧ get? m start.1 = some start.2)) :
    search (fun a b => decide (a < b)) m start order = ("", 0) ∨
      (0 < (search (fun a b => decide (a < b)) m start order).2 ∧
        get? m (search (fun a b => decide (a < b)) m start order).1 =
          some (search (fun a b => decide (a < b)) m start order).2) := by
  induction order generalizing start with
  | nil => exact hs
  | cons k ks ih =>
    simp only [search]
    cases hv : get? m k with
    | none => exact ih start hs
    | some u =>
      simp only
      apply ih
      by_cases hlt : start.2 < u
      · simp only [hlt, decide_true, if_true]
        refine Or.inr ⟨?_, hv⟩
        rcases hs with h | h
        · rw [h] at hlt; exact hlt
        · exact Std.lt_trans h.1 hlt
      · simp only [hlt, decide_false, Bool.false_eq_true, if_false]
        exact hs

/-! ### Rebalancing -/

/-- Any iteration order. -/
def Order (ord : List String → List String) : Prop := ∀ l, (ord l).Perm l

theorem rebalance_sum (ord : List String → List String) (ho : Order ord) (total : Int) (r : List (String × Int))
    (hk : ∀ k ∈ keys r, k ≠ "") :
    sumI (rebalance ord total r) = total ∨ (rebalance ord total r = r ∧ ∀ x ∈ r, x.2 ≤ 0 ∨ get? r x.1 ≠ some x.2) := by
  unfold rebalance
  split
  · rename_i h; exact Or.inl h
  · have h := search_int r (ord (keys r)) ("", 0) (Or.inl rfl)
    generalize hb : largestInt r (ord (keys r)) = b
    have hb' : (b = ("", 0) ∨ (0 < b.2 ∧ get? r b.1 = some b.2)) ∧
        (∀ k ∈ ord (keys r), ∀ v, get? r k = some v → v ≤ b.2) := by
      rw [← hb]; exact ⟨h.1, h.2.2⟩
    simp only
    split
    · rename_i hne
      rcases hb'.1 with h1 | h1
      · rw [h1] at hne; simp at hne
      · left
        rw [sumI_put h1.2]; omega
    · rename_i hne
      refine Or.inr ⟨rfl, ?_⟩
      intro x hx
      rcases hb'.1 with h1 | h1
      · by_cases hg : get? r x.1 = some x.2
        · left
          have := hb'.2 x.1 ((ho _).mem_iff.mpr (List.mem_map.mpr ⟨x, hx, rfl⟩)) x.2 hg
          rw [h1] at this; exact this
        · exact Or.inr hg
      · simp only [ne_eq, Decidable.not_not] at hne
        exact absurd hne (hk b.1 (List.mem_map.mpr ⟨_, get?_mem h1.2, rfl⟩))

/-! ### Keys of the intermediate maps -/

theorem fixedPass_keys {prec : Int} {ds : List Dist} {s s' : Fixed} (h : fixedPass prec s ds = .ok s')
    (hn : (keys s.amounts).Nodup) :
    (keys s'.amounts).Nodup ∧ ∀ k ∈ keys s'.amounts, k ∈ keys s.amounts ∨ ∃ d ∈ ds, d.id = k := by
  induction ds generalizing s with
  | nil => simp [fixedPass] at h; subst h; exact ⟨hn, fun k hk => Or.inl hk⟩
  | cons d ds ih =>
    simp only [fixedPass] at h
    split at h
    · obtain ⟨h1, h2⟩ := ih h hn
      exact ⟨h1, fun k hk => (h2 k hk).imp id (fun ⟨d', hd', e⟩ => ⟨d', List.mem_cons_of_mem _ hd', e⟩)⟩
    · split at h
      · cases h
      · split at h
        · obtain ⟨h1, h2⟩ := ih h hn
          exact ⟨h1, fun k hk => (h2 k hk).imp id (fun ⟨d', hd', e⟩ => ⟨d', List.mem_cons_of_mem _ hd', e⟩)⟩
        · split at h
          · cases h
          · obtain ⟨h1, h2⟩ := ih h (nodup_put _ _ _ hn)
            refine ⟨h1, fun k hk => ?_⟩
            rcases h2 k hk with h3 | ⟨d', hd', e⟩
            · rcases (mem_keys_put _ _ _ _).mp h3 with h4 | h4
              · exact Or.inr ⟨d, by simp, h4.symm⟩
              · exact Or.inl h4
            · exact Or.inr ⟨d', List.mem_cons_of_mem _ hd', e⟩

theorem percentPass_keys {total : Rat} {ds : List Dist} {s s' : Percent} (h : percentPass total s ds = .ok s')
    (hn : (keys s.amounts).Nodup) :
    (keys s'.amounts).Nodup ∧ ∀ k ∈ keys s'.amounts, k ∈ keys s.amounts ∨ ∃ d ∈ ds, d.id = k := by
  induction ds generalizing s with
  | nil => simp [percentPass] at h; subst h; exact ⟨hn, fun k hk => Or.inl hk⟩
  | cons d ds ih =>
    simp only [percentPass] at h
    split at h
    · obtain ⟨h1, h2⟩ := ih h hn
      exact ⟨h1, fun k hk => (h2 k hk).imp id (fun ⟨d', hd', e⟩ => ⟨d', List.mem_cons_of_mem _ hd', e⟩)⟩
    · split at h
      · obtain ⟨h1, h2⟩ := ih h (nodup_put _ _ _ hn)
        refine ⟨h1, fun k hk => ?_⟩
        rcases h2 k hk with h3 | ⟨d', hd', e⟩
        · rcases (mem_keys_put _ _ _ _).mp h3 with h4 | h4
          · exact Or.inr ⟨d, by simp, h4.symm⟩
          · exact Or.inl h4
        · exact Or.inr ⟨d', List.mem_cons_of_mem _ hd', e⟩
      · cases h

theorem keys_put_mem {α : Type} (m : List (String × α)) (k : String) (v : α) (h : k ∈ keys m) : keys (put m k v) = keys m := by
  induction m with
  | nil => simp [keys] at h
  | cons x t ih =>
    obtain ⟨i, u⟩ := x
    simp only [put]
    split
    · rfl
    · rename_i hne
      simp only [keys, List.map_cons, List.mem_cons] at h
      rcases h with h | h
      · exact absurd h.symm hne
      · have := ih (by simpa [keys] using h)
        simp only [keys, List.map_cons] at this ⊢
        rw [this]

theorem adjust_keys (ord : List String → List String) (total : Rat) (s : Percent) :
    keys (adjust ord total s) = keys s.amounts := by
  unfold adjust
  split
  · rfl
  · simp only
    split
    · rfl
    · split
      · rename_i h
        have := search_rat s.amounts (ord (keys s.amounts)) ("", 0) (Or.inl rfl)
        change (largestRat s.amounts (ord (keys s.amounts)) = ("", 0) ∨ _) at this
        rcases this with h1 | h1
        · rw [h1] at h; simp at h
        · exact keys_put_mem _ _ _ (List.mem_map.mpr ⟨_, get?_mem h1.2, rfl⟩)
      · rfl

theorem combinePercent_keys (pa : List (String × Rat)) (r : List (String × Int)) (hn : (keys r).Nodup) :
    (keys (combinePercent r pa)).Nodup ∧ ∀ k, k ∈ keys (combinePercent r pa) ↔ (k ∈ keys r ∨ k ∈ keys pa) := by
  induction pa generalizing r with
  | nil => exact ⟨hn, by simp [combinePercent, keys]⟩
  | cons x t ih =>
    obtain ⟨i, a⟩ := x
    obtain ⟨h1, h2⟩ := ih (put r i (trunc a)) (nodup_put _ _ _ hn)
    refine ⟨h1, fun k => ?_⟩
    simp only [combinePercent]
    rw [h2, mem_keys_put]
    simp only [keys, List.map_cons, List.mem_cons]
    constructor
    · rintro ((h | h) | h)
      · exact Or.inr (Or.inl h)
      · exact Or.inl h
      · exact Or.inr (Or.inr h)
    · rintro (h | h | h)
      · exact Or.inl (Or.inr h)
      · exact Or.inl (Or.inl h)
      · exact Or.inr h

theorem leftPass_keys {left : Rat} {ds : List Dist} {r r' : List (String × Int)} (h : leftPass left r ds = .ok r')
    (hn : (keys r).Nodup) :
    (keys r').Nodup ∧ (∀ k ∈ keys r', k ∈ keys r ∨ ∃ d ∈ ds, d.id = k) ∧ ∀ k ∈ keys r, k ∈ keys r' := by
  induction ds with
  | nil => simp [leftPass] at h; subst h; exact ⟨hn, fun k hk => Or.inl hk, fun k hk => hk⟩
  | cons d ds ih =>
    simp only [leftPass] at h
    split at h
    · split at h
      · cases h
      · simp at h; subst h
        refine ⟨nodup_put _ _ _ hn, fun k hk => ?_, fun k hk => (mem_keys_put _ _ _ _).mpr (Or.inr hk)⟩
        rcases (mem_keys_put _ _ _ _).mp hk with h4 | h4
        · exact Or.inr ⟨d, by simp, h4.symm⟩
        · exact Or.inl h4
    · obtain ⟨h1, h2, h3⟩ := ih h
      exact ⟨h1, fun k hk => (h2 k hk).imp id (fun ⟨d', hd', e⟩ => ⟨d', List.mem_cons_of_mem _ hd', e⟩), h3⟩

theorem rebalance_keys (ord : List String → List String) (total : Int) (r : List (String × Int)) :
    keys (rebalance ord total r) = keys r := by
  unfold rebalance
  split
  · rfl
  · have h := search_int r (ord (keys r)) ("", 0) (Or.inl rfl)
    have h1 : largestInt r (ord (keys r)) = ("", 0) ∨ (0 < (largestInt r (ord (keys r))).2 ∧
      get? r (largestInt r (ord (keys r))).1 = some (largestInt r (ord (keys r))).2) := h.1
    simp only
    split
    · rename_i hne
      rcases h1 with h1 | h1
      · rw [h1] at hne; simp at hne
      · exact keys_put_mem _ _ _ (List.mem_map.mpr ⟨_, get?_mem h1.2, rfl⟩)
    · rfl

theorem zeros_keys (ds : List Dist) (r : List (String × Int)) (hn : (keys r).Nodup) :
    (keys (zeros r ds)).Nodup ∧ ∀ k, k ∈ keys (zeros r ds) ↔ (k ∈ keys r ∨ ∃ d ∈ ds, d.id = k) := by
  induction ds generalizing r with
  | nil => simp [zeros, hn]
  | cons d ds ih =>
    obtain ⟨h1, h2⟩ := ih (put r d.id 0) (nodup_put _ _ _ hn)
    refine ⟨h1, fun k => ?_⟩
    simp only [zeros]
    rw [h2, mem_keys_put]
    simp only [List.mem_cons, exists_eq_or_imp]
    constructor
    · rintro ((h | h) | h)
      · exact Or.inr (Or.inl h.symm)
      · exact Or.inl h
      · exact Or.inr (Or.inr h)
    · rintro (h | h | h)
      · exact Or.inl (Or.inr h)
      · exact Or.inl (Or.inl h.symm)
      · exact Or.inr h

/-- What a successful general computation goes through. -/
theorem distribute_ok {ord : List String → List String} {total : Int} {ds : List Dist} {prec : Int} {r : List (String × Int)}
    (h : distribute ord total ds prec = .ok r) (h0 : total ≠ 0) (h1 : total ≠ 1 ∨ ds = []) :
    ∃ f p r', fixedPass prec { left := total, total := 0, amounts := [] } ds = .ok f ∧
      percentPass total { total := 0, amounts := [] } ds = .ok p ∧ p.total ≤ 100 ∧ f.total ≤ total ∧
      leftPass (f.left - sumR (adjust ord total p)) (combinePercent (combineFixed f.amounts) (adjust ord total p)) ds = .ok r' ∧
      r = rebalance ord total r' := by
  unfold distribute at h
  rw [if_neg h0] at h
  split at h
  · rename_i d rest heq
    simp at heq
    rcases h1 with h1 | h1
    · exact absurd heq h1
    · cases h1
  · split at h
    · cases h
    · rename_i f hf
      split at h
      · cases h
      · rename_i p hp
        split at h
        · cases h
        · rename_i hv
          simp only [not_or] at hv
          simp only at h
          split at h
          · cases h
          · rename_i r' hr'
            simp at h
            exact ⟨f, p, r', hf, hp, Rat.not_lt.mp hv.1, Rat.not_lt.mp hv.2, hr', h.symm⟩

/-- The result has one entry per key, and every key is listed. -/
theorem distribute_keys {ord : List String → List String} {total : Int} {ds : List Dist} {prec : Int} {r : List (String × Int)}
    (h : distribute ord total ds prec = .ok r) : (keys r).Nodup ∧ ∀ k ∈ keys r, ∃ d ∈ ds, d.id = k := by
  by_cases h0 : total = 0
  · unfold distribute at h
    rw [if_pos h0] at h
    simp at h; subst h
    obtain ⟨a, b⟩ := zeros_keys ds [] (by simp [keys])
    exact ⟨a, fun k hk => by simpa [keys] using (b k).mp hk⟩
  · by_cases h1 : total = 1 ∧ ds ≠ []
    · unfold distribute at h
      rw [if_neg h0] at h
      cases ds with
      | nil => exact absurd rfl h1.2
      | cons d rest =>
        simp only [h1.1, decide_true] at h
        simp at h; subst h
        obtain ⟨a, b⟩ := zeros_keys rest [(d.id, 1)] (by simp [keys])
        refine ⟨a, fun k hk => ?_⟩
        rcases (b k).mp hk with h2 | ⟨d', hd', e⟩
        · simp [keys] at h2; exact ⟨d, by simp, h2.symm⟩
        · exact ⟨d', List.mem_cons_of_mem _ hd', e⟩
    · have h1' : total ≠ 1 ∨ ds = [] := by
        by_cases ht : total = 1
        · right; exact Decidable.not_not.mp (fun hh => h1 ⟨ht, hh⟩)
        · exact Or.inl ht
      obtain ⟨f, p, r', hf, hp, _, _, hl, he⟩ := distribute_ok h h0 h1'
      obtain ⟨f1, f2⟩ := fixedPass_keys hf (by simp [keys])
      obtain ⟨p1, p2⟩ := percentPass_keys hp (by simp [keys])
      have c0 : keys (combineFixed f.amounts) = keys f.amounts := by simp [keys, combineFixed]
      obtain ⟨c1, c2⟩ := combinePercent_keys (adjust ord total p) (combineFixed f.amounts) (by rw [c0]; exact f1)
      obtain ⟨l1, l2, _⟩ := leftPass_keys hl c1
      rw [he]
      rw [rebalance_keys]
      refine ⟨l1, fun k hk => ?_⟩
      rcases l2 k hk with h2 | h2
      · rw [c2, c0, adjust_keys] at h2
        rcases h2 with h2 | h2
        · rcases f2 k h2 with h3 | h3
          · simp [keys] at h3
          · exact h3
        · rcases p2 k h2 with h3 | h3
          · simp [keys] at h3
          · exact h3
      · exact h2

/-! ### C19 -/

theorem get?_put {α : Type} (m : List (String × α)) (k j : String) (v : α) :
    get? (put m k v) j = if j = k then some v else get? m j := by
  induction m with
  | nil => simp [put, get?, eq_comm]
  | cons x t ih =>
    obtain ⟨i, u⟩ := x
    simp only [put]
    by_cases hi : i = k
    · subst hi
      simp only [if_true, get?]
      by_cases hj : j = i
      · simp [hj]
      · simp [hj, Ne.symm hj]
    · simp only [if_neg hi, get?, ih]
      by_cases hj : i = j
      · subst hj; simp [hi]
      · simp [hj]

theorem zeros_sum (ds : List Dist) (r : List (String × Int)) (h : ∀ d ∈ ds, ∀ v, get? r d.id = some v → v = 0) :
    sumI (zeros r ds) = sumI r := by
  induction ds generalizing r with
  | nil => rfl
  | cons d ds ih =>
    simp only [zeros]
    rw [ih]
    · cases hg : get? r d.id with
      | none => rw [put_fresh _ _ _ (get?_none.mp hg)]; simp [sumI]
      | some v =>
        have := h d (by simp) v hg
        rw [sumI_put hg]; omega
    · intro d' hd' v hv
      rw [get?_put] at hv
      split at hv
      · simp at hv; exact hv.symm
      · exact h d' (List.mem_cons_of_mem _ hd') v hv

/-- C19 in full: whatever the list, an accepted split adds up. -/
def C19Full : Prop :=
  ∀ (ord : List String → List String), Order ord → ∀ (total : Int) (ds : List Dist) (prec : Int) (r : List (String × Int)),
    0 < total → ds ≠ [] → distribute ord total ds prec = .ok r → sumI r = total

/-- **C19** Whatever the order in which Go walks its maps: if the parties are distinct and named,
an accepted split adds up exactly, or else it has no positive leg at all (and then every leg is
refused when it is posted, see C06). -/
theorem c19_adds_up_or_nothing_positive_partial (ord : List String → List String) (ho : Order ord) (total : Int)
    (ds : List Dist) (prec : Int) (r : List (String × Int)) (hne : ds ≠ []) (hnamed : ∀ d ∈ ds, d.id ≠ "")
    (hdist : (ds.map (·.id)).Nodup) (h : distribute ord total ds prec = .ok r) :
    sumI r = total ∨ ∀ x ∈ r, x.2 ≤ 0 := by
  by_cases h0 : total = 0
  · left
    unfold distribute at h
    rw [if_pos h0] at h
    simp at h; subst h
    rw [zeros_sum _ _ (by intro d _ v hv; simp [get?] at hv)]
    simp [sumI, h0]
  · by_cases h1 : total = 1
    · left
      unfold distribute at h
      rw [if_neg h0] at h
      cases ds with
      | nil => exact absurd rfl hne
      | cons d rest =>
        simp only [h1, decide_true] at h
        simp at h; subst h
        simp only [List.map_cons, List.nodup_cons, List.mem_map, not_exists, not_and] at hdist
        rw [zeros_sum]
        · simp [sumI, h1]
        · intro d' hd' v hv
          simp only [get?] at hv
          split at hv
          · rename_i he; exact absurd he.symm (hdist.1 d' hd')
          · cases hv
    · have hk := distribute_keys h
      obtain ⟨f, p, r', hf, hp, _, _, hl, he⟩ := distribute_ok h h0 (Or.inl h1)
      have hk' : keys r = keys r' := by rw [he, rebalance_keys]
      rw [hk'] at hk
      have := rebalance_sum ord ho total r' (by
        intro k hkk
        obtain ⟨d, hd, e⟩ := hk.2 k hkk
        rw [← e]; exact hnamed d hd)
      rw [← he] at this
      rcases this with h2 | ⟨h2, h3⟩
      · exact Or.inl h2
      · right
        intro x hx
        rw [h2] at hx
        rcases h3 x hx with h4 | h4
        · exact h4
        · exact absurd (mem_get? hk.1 hx) h4

/-- A list with all three kinds of entry. -/
def demo : List Dist := [⟨"fee", .blank, .int 7⟩, ⟨"tax", .percent (15/2), .blank⟩, ⟨"half", .percent 50, .blank⟩, ⟨"rest", .left, .blank⟩]

example : Order id ∧ demo ≠ [] ∧ (∀ d ∈ demo, d.id ≠ "") ∧ (demo.map (·.id)).Nodup ∧
    distribute id 1001 demo 100 = .ok [("fee", 7), ("tax", 75), ("half", 501), ("rest", 418)] :=
  ⟨fun _ => List.Perm.refl _, by decide, by decide, by decide, by decide +kernel⟩

/-- **C19** fails as stated: an entry of nought percent takes everything and receives nothing. -/
theorem c19_full_fails : ¬ C19Full := by
  intro h
  have := h id (fun _ => List.Perm.refl _) 100 [⟨"a", .percent 0, .blank⟩] 1 [("a", 0)] (by decide) (by decide) (by decide +kernel)
  revert this; decide

/-- **C19** fails also with positive entries: the smallest amount split over a repeated party vanishes. -/
theorem c19_repeated_party_fails :
    ∃ (ds : List Dist) (r : List (String × Int)), (∀ d ∈ ds, d.share = .percent 50) ∧ distribute id 1 ds 100 = .ok r ∧ sumI r = 0 :=
  ⟨[⟨"a", .percent 50, .blank⟩, ⟨"a", .percent 50, .blank⟩], [("a", 0)], by decide, by decide +kernel, by decide⟩

/-! ### What the entries ask for -/

/-- Minor units a single entry asks for; entries marked `left` are treated apart. -/
def ask (prec total : Int) (d : Dist) : Rat :=
  match d.share, d.precise with
  | .percent p, _ => total * p / 100
  | _, .int a => a
  | .number a, _ => a * prec
  | _, _ => 0

/-- Minor units all entries other than `left` ask for. -/
def asked (prec total : Int) : List Dist → Rat
  | [] => 0
  | d :: ds => (if d.isLeft then 0 else ask prec total d) + asked prec total ds

def fixedAsked (prec total : Int) : List Dist → Rat
  | [] => 0
  | d :: ds => (if d.isLeft || d.isPercent then 0 else ask prec total d) + fixedAsked prec total ds

def percentAsked (prec total : Int) : List Dist → Rat
  | [] => 0
  | d :: ds => (if d.isLeft || !d.isPercent then 0 else ask prec total d) + percentAsked prec total ds

theorem asked_split (prec total : Int) (ds : List Dist) : asked prec total ds = fixedAsked prec total ds + percentAsked prec total ds := by
  induction ds with
  | nil => simp only [asked, fixedAsked, percentAsked]; grind
  | cons d ds ih =>
    simp only [asked, fixedAsked, percentAsked, ih]
    cases d.isLeft <;> cases d.isPercent <;> simp <;> grind

theorem parseFixed_ask {prec total : Int} {d : Dist} {a : Rat} (hp : d.isPercent = false) (h : parseFixed prec d = .ok a) :
    ask prec total d = a := by
  unfold parseFixed at h
  unfold ask
  cases hs : d.share <;> cases hq : d.precise <;> simp_all [Dist.isPercent]

/-- The fixed pass when nobody asks for a negative amount. -/
theorem fixedPass_nonneg {prec total : Int} {ds : List Dist} {s s' : Fixed} (h : fixedPass prec s ds = .ok s')
    (hd : ∀ d ∈ ds, d.isLeft = false → 0 ≤ ask prec total d)
    (hv : ∀ x ∈ s.amounts, 0 ≤ x.2) (hs : sumR s.amounts ≤ s.total) :
    (∀ x ∈ s'.amounts, 0 ≤ x.2) ∧ sumR s'.amounts ≤ s'.total ∧ s'.total = s.total + fixedAsked prec total ds ∧
      s'.left + s'.total = s.left + s.total := by
  induction ds generalizing s with
  | nil =>
    simp [fixedPass] at h; subst h
    exact ⟨hv, hs, by simp only [fixedAsked]; grind, rfl⟩
  | cons d ds ih =>
    have hd' : ∀ d ∈ ds, d.isLeft = false → 0 ≤ ask prec total d := fun x hx => hd x (List.mem_cons_of_mem _ hx)
    simp only [fixedPass] at h
    split at h
    · rename_i hc
      obtain ⟨h1, h2, h3, h4⟩ := ih h hd' hv hs
      refine ⟨h1, h2, ?_, h4⟩
      simp only [fixedAsked, hc, if_true]; grind
    · rename_i hc
      simp only [Bool.or_eq_true, not_or, Bool.not_eq_true] at hc
      split at h
      · cases h
      · rename_i a ha
        have hask := parseFixed_ask (total := total) hc.2 ha
        have hnn := hd d (by simp) hc.1
        rw [hask] at hnn
        split at h
        · rename_i hz
          obtain ⟨h1, h2, h3, h4⟩ := ih h hd' hv hs
          refine ⟨h1, h2, ?_, h4⟩
          simp only [fixedAsked, hc.1, hc.2, hask, hz]; simp; grind
        · split at h
          · cases h
          · obtain ⟨h1, h2, h3, h4⟩ := ih h hd' (by
                intro x hx
                rcases mem_put hx with e | e
                · rw [e]; exact hnn
                · exact hv x e) (by
                have := sumR_put_le (k := d.id) (v := a) hv
                simp only; grind)
            refine ⟨h1, h2, ?_, ?_⟩
            · rw [h3]
              simp only [fixedAsked, hc.1, hc.2, hask]; simp; grind
            · rw [h4]; simp only; grind

/-- The percentage pass when nobody asks for a negative amount. -/
theorem percentPass_nonneg {prec total : Int} {ds : List Dist} {s s' : Percent} (h : percentPass total s ds = .ok s')
    (hd : ∀ d ∈ ds, d.isLeft = false → 0 ≤ ask prec total d)
    (hv : ∀ x ∈ s.amounts, 0 ≤ x.2) (hs : sumR s.amounts ≤ total * s.total / 100) :
    (∀ x ∈ s'.amounts, 0 ≤ x.2) ∧ sumR s'.amounts ≤ total * s'.total / 100 ∧
      total * s'.total / 100 = total * s.total / 100 + percentAsked prec total ds := by
  induction ds generalizing s with
  | nil =>
    simp [percentPass] at h; subst h
    exact ⟨hv, hs, by simp only [percentAsked]; grind⟩
  | cons d ds ih =>
    have hd' : ∀ d ∈ ds, d.isLeft = false → 0 ≤ ask prec total d := fun x hx => hd x (List.mem_cons_of_mem _ hx)
    simp only [percentPass] at h
    split at h
    · rename_i hc
      obtain ⟨h1, h2, h3⟩ := ih h hd' hv hs
      refine ⟨h1, h2, ?_⟩
      simp only [percentAsked, hc, if_true]; grind
    · rename_i hc
      simp only [Bool.or_eq_true, not_or, Bool.not_eq_true, Bool.not_eq_true', Bool.not_eq_false] at hc
      split at h
      · rename_i q hq
        have hask : ask prec total d = total * q / 100 := by simp [ask, hq]
        have hnn := hd d (by simp) hc.1
        rw [hask] at hnn
        obtain ⟨h1, h2, h3⟩ := ih h hd' (by
            intro x hx
            rcases mem_put hx with e | e
            · rw [e]; simp only; split
              · exact Rat.le_refl
              · exact hnn
            · exact hv x e) (by
            refine Rat.le_trans (sumR_put_le hv) ?_
            simp only
            split <;> grind)
        refine ⟨h1, h2, ?_⟩
        rw [h3]
        simp only [percentAsked, hc.1, hc.2, hask]; simp; grind
      · cases h

theorem adjust_nonneg {ord : List String → List String} {total : Rat} {s : Percent} (hv : ∀ x ∈ s.amounts, 0 ≤ x.2)
    (hs : sumR s.amounts ≤ total * s.total / 100) :
    (∀ x ∈ adjust ord total s, 0 ≤ x.2) ∧ sumR (adjust ord total s) ≤ total * s.total / 100 ∧
      ∀ k v, get? s.amounts k = some v → ∃ v', get? (adjust ord total s) k = some v' ∧ v ≤ v' := by
  unfold adjust
  split
  · exact ⟨hv, hs, fun k v h => ⟨v, h, Rat.le_refl⟩⟩
  · simp only
    split
    · exact ⟨hv, hs, fun k v h => ⟨v, h, Rat.le_refl⟩⟩
    · split
      · rename_i hb
        have := search_rat s.amounts (ord (keys s.amounts)) ("", 0) (Or.inl rfl)
        change (largestRat s.amounts (ord (keys s.amounts)) = ("", 0) ∨ (0 < (largestRat s.amounts (ord (keys s.amounts))).2 ∧
          get? s.amounts (largestRat s.amounts (ord (keys s.amounts))).1 = some (largestRat s.amounts (ord (keys s.amounts))).2)) at this
        rcases this with h1 | h1
        · rw [h1] at hb; simp at hb
        · generalize largestRat s.amounts (ord (keys s.amounts)) = b at hb h1
          refine ⟨?_, ?_, ?_⟩
          · intro x hx
            rcases mem_put hx with e | e
            · rw [e]; simp only; grind
            · exact hv x e
          · rw [sumR_put h1.2]; grind
          · intro k v hk
            rw [get?_put]
            split
            · rename_i he
              subst he
              rw [h1.2] at hk
              simp at hk
              exact ⟨_, rfl, by grind⟩
            · exact ⟨v, hk, Rat.le_refl⟩
      · exact ⟨hv, hs, fun k v h => ⟨v, h, Rat.le_refl⟩⟩

theorem combineFixed_nonneg {m : List (String × Rat)} (hv : ∀ x ∈ m, 0 ≤ x.2) :
    (∀ x ∈ combineFixed m, 0 ≤ x.2) ∧ (sumI (combineFixed m) : Rat) ≤ sumR m := by
  induction m with
  | nil => simp [combineFixed, sumI, sumR]
  | cons x t ih =>
    obtain ⟨i, a⟩ := x
    obtain ⟨h1, h2⟩ := ih (fun y hy => hv y (List.mem_cons_of_mem _ hy))
    have ha : 0 ≤ a := hv (i, a) (by simp)
    refine ⟨?_, ?_⟩
    · intro y hy
      simp only [combineFixed, List.map_cons, List.mem_cons] at hy
      rcases hy with e | e
      · rw [e]; exact trunc_nonneg ha
      · exact h1 y e
    · have := trunc_le ha
      simp only [combineFixed, sumI, sumR, List.map_cons, List.sum_cons] at h2 ⊢
      rw [Rat.intCast_add]
      grind

theorem combinePercent_nonneg {pa : List (String × Rat)} {r : List (String × Int)} (hv : ∀ x ∈ pa, 0 ≤ x.2)
    (hr : ∀ x ∈ r, 0 ≤ x.2) :
    (∀ x ∈ combinePercent r pa, 0 ≤ x.2) ∧ (sumI (combinePercent r pa) : Rat) ≤ sumI r + sumR pa := by
  induction pa generalizing r with
  | nil =>
    refine ⟨hr, ?_⟩
    simp only [combinePercent, sumR, List.map_nil, List.sum_nil]; grind
  | cons x t ih =>
    obtain ⟨i, a⟩ := x
    have ha : 0 ≤ a := hv (i, a) (by simp)
    obtain ⟨h1, h2⟩ := ih (r := put r i (trunc a)) (fun y hy => hv y (List.mem_cons_of_mem _ hy)) (by
      intro y hy
      rcases mem_put hy with e | e
      · rw [e]; exact trunc_nonneg ha
      · exact hr y e)
    refine ⟨h1, ?_⟩
    simp only [combinePercent]
    have h3 : (sumI (put r i (trunc a)) : Rat) ≤ ((sumI r + trunc a : Int) : Rat) :=
      Rat.intCast_le_intCast.mpr (sumI_put_le hr)
    rw [Rat.intCast_add] at h3
    have := trunc_le ha
    simp only [sumR, List.map_cons, List.sum_cons] at h2 ⊢
    grind

theorem leftPass_nonneg {left : Rat} {ds : List Dist} {r r' : List (String × Int)} (h : leftPass left r ds = .ok r')
    (hl : 0 ≤ left) (hr : ∀ x ∈ r, 0 ≤ x.2) : (∀ x ∈ r', 0 ≤ x.2) ∧ (sumI r' : Rat) ≤ sumI r + left := by
  induction ds with
  | nil => simp [leftPass] at h; subst h; exact ⟨hr, by grind⟩
  | cons d ds ih =>
    simp only [leftPass] at h
    split at h
    · split at h
      · cases h
      · simp at h; subst h
        refine ⟨?_, ?_⟩
        · intro y hy
          rcases mem_put hy with e | e
          · rw [e]; exact trunc_nonneg hl
          · exact hr y e
        · have h3 : (sumI (put r d.id (trunc left)) : Rat) ≤ ((sumI r + trunc left : Int) : Rat) :=
            Rat.intCast_le_intCast.mpr (sumI_put_le hr)
          rw [Rat.intCast_add] at h3
          have := trunc_le hl
          grind
    · exact ih h

theorem rebalance_nonneg {ord : List String → List String} {total : Int} {r : List (String × Int)}
    (hr : ∀ x ∈ r, 0 ≤ x.2) (hs : sumI r ≤ total) : ∀ x ∈ rebalance ord total r, 0 ≤ x.2 := by
  unfold rebalance
  split
  · exact hr
  · have h := search_int r (ord (keys r)) ("", 0) (Or.inl rfl)
    have h1 : 0 ≤ (largestInt r (ord (keys r))).2 := h.2.1
    simp only
    split
    · intro x hx
      rcases mem_put hx with e | e
      · rw [e]; simp only; omega
      · exact hr x e
    · exact hr

theorem zeros_nonneg (ds : List Dist) (r : List (String × Int)) (hr : ∀ x ∈ r, 0 ≤ x.2) : ∀ x ∈ zeros r ds, 0 ≤ x.2 := by
  induction ds generalizing r with
  | nil => exact hr
  | cons d ds ih =>
    apply ih
    intro x hx
    rcases mem_put hx with e | e
    · rw [e]; simp
    · exact hr x e

/-! ### C20 -/

/-- C20 in full: an accepted split of non-negative entries has no negative leg. -/
def C20Full : Prop :=
  ∀ (ord : List String → List String), Order ord → ∀ (total : Int) (ds : List Dist) (prec : Int) (r : List (String × Int)),
    0 < total → (∀ d ∈ ds, d.isLeft = false → 0 ≤ ask prec total d) → distribute ord total ds prec = .ok r →
    ∀ x ∈ r, 0 ≤ x.2

/-- **C20** If no entry asks for a negative amount and the entries together do not ask for more
than the total, no leg is negative. Missing from C20: the code accepts lists that ask for more
than the total (`validateDistributions` compares the fixed amounts and the percentages with the
total separately), see `c20_full_fails`. -/
theorem c20_no_negative_leg_partial (ord : List String → List String) (total : Int) (ds : List Dist) (prec : Int)
    (r : List (String × Int)) (hd : ∀ d ∈ ds, d.isLeft = false → 0 ≤ ask prec total d)
    (hsum : asked prec total ds ≤ total) (h : distribute ord total ds prec = .ok r) : ∀ x ∈ r, 0 ≤ x.2 := by
  by_cases hz : total = 0
  · unfold distribute at h
    rw [if_pos hz] at h
    simp at h; subst h
    exact zeros_nonneg _ _ (by simp)
  · by_cases h1 : total = 1 ∧ ds ≠ []
    · unfold distribute at h
      rw [if_neg hz] at h
      cases ds with
      | nil => exact absurd rfl h1.2
      | cons d rest =>
        simp only [h1.1, decide_true] at h
        simp at h; subst h
        exact zeros_nonneg _ _ (by simp)
    · have h1' : total ≠ 1 ∨ ds = [] := by
        by_cases ht : total = 1
        · right; exact Decidable.not_not.mp (fun hh => h1 ⟨ht, hh⟩)
        · exact Or.inl ht
      obtain ⟨f, p, r', hf, hp, _, _, hl, he⟩ := distribute_ok h hz h1'
      obtain ⟨f1, f2, f3, f4⟩ := fixedPass_nonneg hf hd (by simp) (by simp [sumR])
      obtain ⟨p1, p2, p3⟩ := percentPass_nonneg hp hd (by simp) (by simp only [sumR, List.map_nil, List.sum_nil]; grind)
      obtain ⟨a1, a2, _⟩ := adjust_nonneg (ord := ord) p1 p2
      obtain ⟨c1, c2⟩ := combineFixed_nonneg f1
      obtain ⟨d1, d2⟩ := combinePercent_nonneg a1 c1
      simp only at f3 f4 p3
      have hasked := asked_split prec total ds
      have hleft : 0 ≤ f.left - sumR (adjust ord total p) := by grind
      obtain ⟨l1, l2⟩ := leftPass_nonneg hl hleft d1
      rw [he]
      apply rebalance_nonneg l1
      apply Rat.intCast_le_intCast.mp
      grind

example : (∀ d ∈ demo, d.isLeft = false → 0 ≤ ask 100 1001 d) ∧ asked 100 1001 demo ≤ (1001 : Int) ∧
    distribute List.reverse 1001 demo 100 = .ok [("fee", 7), ("tax", 75), ("half", 501), ("rest", 418)] := by
  decide +kernel

/-- **C20** fails as stated: eighty plus sixty percent plus the rest, of one hundred. -/
theorem c20_full_fails : ¬ C20Full := by
  intro h
  have := h id (fun _ => List.Perm.refl _) 100
    [⟨"a", .number 80, .blank⟩, ⟨"b", .percent 60, .blank⟩, ⟨"c", .left, .blank⟩] 1 [("a", 80), ("b", 60), ("c", -40)]
    (by decide) (by decide +kernel) (by decide +kernel) ("c", -40) (by decide)
  revert this; decide

/-- The same over-asking without a `left` entry: what is taken back comes off the largest leg. -/
theorem c20_overcommitted_without_left :
    distribute id 20 [⟨"a", .number 10, .blank⟩, ⟨"b", .number 10, .blank⟩, ⟨"c", .percent 50, .blank⟩, ⟨"d", .percent 50, .blank⟩] 1 =
      .ok [("a", -10), ("b", 10), ("c", 10), ("d", 10)] := by decide +kernel

/-! ### What each party gets -/

theorem id_inj {ds : List Dist} (h : (ds.map (·.id)).Nodup) {d d' : Dist} (hd : d ∈ ds) (hd' : d' ∈ ds) (e : d.id = d'.id) : d = d' := by
  induction ds with
  | nil => cases hd
  | cons x t ih =>
    simp only [List.map_cons, List.nodup_cons, List.mem_map, not_exists, not_and] at h
    rcases List.mem_cons.mp hd with h1 | h1 <;> rcases List.mem_cons.mp hd' with h2 | h2
    · rw [h1, h2]
    · subst h1; exact absurd e.symm (h.1 d' h2)
    · subst h2; exact absurd e (h.1 d h1)
    · exact ih h.2 h1 h2

theorem fixedPass_get_other {prec : Int} {ds : List Dist} {s s' : Fixed} {k : String} (h : fixedPass prec s ds = .ok s')
    (hk : ∀ d ∈ ds, d.isLeft = false → d.isPercent = false → d.id ≠ k) : get? s'.amounts k = get? s.amounts k := by
  induction ds generalizing s with
  | nil => simp [fixedPass] at h; subst h; rfl
  | cons d ds ih =>
    have hk' := fun x hx => hk x (List.mem_cons_of_mem d hx)
    simp only [fixedPass] at h
    split at h
    · exact ih h hk'
    · rename_i hc
      simp only [Bool.or_eq_true, not_or, Bool.not_eq_true] at hc
      split at h
      · cases h
      · split at h
        · exact ih h hk'
        · split at h
          · cases h
          · rw [ih h hk', get?_put, if_neg (Ne.symm (hk d (by simp) hc.1 hc.2))]

theorem fixedPass_get {prec total : Int} {ds : List Dist} {s s' : Fixed} (h : fixedPass prec s ds = .ok s')
    (hn : (ds.map (·.id)).Nodup) (d : Dist) (hd : d ∈ ds) (hl : d.isLeft = false) (hp : d.isPercent = false)
    (hz : ask prec total d ≠ 0) : get? s'.amounts d.id = some (ask prec total d) := by
  induction ds generalizing s with
  | nil => cases hd
  | cons x ds ih =>
    simp only [List.map_cons, List.nodup_cons, List.mem_map, not_exists, not_and] at hn
    simp only [fixedPass] at h
    rcases List.mem_cons.mp hd with e | e
    · subst e
      rw [if_neg (by simp [hl, hp])] at h
      split at h
      · cases h
      · rename_i a ha
        have := parseFixed_ask (total := total) hp ha
        rw [this] at hz ⊢
        rw [if_neg hz] at h
        split at h
        · cases h
        · rw [fixedPass_get_other h (fun d' hd' _ _ => hn.1 d' hd'), get?_put, if_pos rfl]
    · split at h
      · exact ih h hn.2 e
      · split at h
        · cases h
        · split at h
          · exact ih h hn.2 e
          · split at h
            · cases h
            · exact ih h hn.2 e

theorem percentPass_get_other {total : Rat} {ds : List Dist} {s s' : Percent} {k : String} (h : percentPass total s ds = .ok s')
    (hk : ∀ d ∈ ds, d.isLeft = false → d.isPercent = true → d.id ≠ k) : get? s'.amounts k = get? s.amounts k := by
  induction ds generalizing s with
  | nil => simp [percentPass] at h; subst h; rfl
  | cons d ds ih =>
    have hk' := fun x hx => hk x (List.mem_cons_of_mem d hx)
    simp only [percentPass] at h
    split at h
    · exact ih h hk'
    · rename_i hc
      simp only [Bool.or_eq_true, not_or, Bool.not_eq_true, Bool.not_eq_true', Bool.not_eq_false] at hc
      split at h
      · rw [ih h hk', get?_put, if_neg (Ne.symm (hk d (by simp) hc.1 hc.2))]
      · cases h

theorem percentPass_get {prec total : Int} {ds : List Dist} {s s' : Percent} (h : percentPass total s ds = .ok s')
    (hn : (ds.map (·.id)).Nodup) (d : Dist) (hd : d ∈ ds) (hl : d.isLeft = false) (hp : d.isPercent = true) :
    get? s'.amounts d.id =
      some (if 0 < ask prec total d ∧ ask prec total d < 1 then 0 else ask prec total d) := by
  induction ds generalizing s with
  | nil => cases hd
  | cons x ds ih =>
    simp only [List.map_cons, List.nodup_cons, List.mem_map, not_exists, not_and] at hn
    simp only [percentPass] at h
    rcases List.mem_cons.mp hd with e | e
    · subst e
      rw [if_neg (by simp [hl, hp])] at h
      split at h
      · rename_i q hq
        have hask : ask prec total d = total * q / 100 := by simp [ask, hq]
        rw [percentPass_get_other h (fun d' hd' _ _ => hn.1 d' hd'), get?_put, if_pos rfl, hask]
      · cases h
    · split at h
      · exact ih h hn.2 e
      · split at h
        · exact ih h hn.2 e
        · cases h

theorem combineFixed_get (m : List (String × Rat)) (k : String) : get? (combineFixed m) k = (get? m k).map trunc := by
  induction m with
  | nil => rfl
  | cons x t ih =>
    obtain ⟨i, a⟩ := x
    simp only [combineFixed, List.map_cons, get?] at ih ⊢
    split
    · rfl
    · exact ih

theorem combinePercent_get (pa : List (String × Rat)) (r : List (String × Int)) (k : String) (hn : (keys pa).Nodup) :
    get? (combinePercent r pa) k = match get? pa k with | some a => some (trunc a) | none => get? r k := by
  induction pa generalizing r with
  | nil => rfl
  | cons x t ih =>
    obtain ⟨i, a⟩ := x
    simp only [keys, List.map_cons, List.nodup_cons] at hn
    simp only [combinePercent, get?]
    rw [ih _ hn.2]
    by_cases hi : i = k
    · subst hi
      have : get? t i = none := get?_none.mpr hn.1
      simp [this, get?_put]
    · simp only [if_neg hi, get?_put, if_neg (Ne.symm hi)]

theorem leftPass_get {left : Rat} {ds : List Dist} {r r' : List (String × Int)} (h : leftPass left r ds = .ok r') :
    (∀ k v, get? r k = some v → get? r' k = some v) ∧
      ((∃ d ∈ ds, d.isLeft = true) → ∃ d ∈ ds, d.isLeft = true ∧ get? r' d.id = some (trunc left)) := by
  induction ds with
  | nil => simp [leftPass] at h; subst h; exact ⟨fun k v hk => hk, by simp⟩
  | cons d ds ih =>
    simp only [leftPass] at h
    split at h
    · rename_i hl
      split at h
      · cases h
      · rename_i hg
        simp at h; subst h
        refine ⟨?_, fun _ => ⟨d, by simp, hl, by simp [get?_put]⟩⟩
        intro k v hk
        rw [get?_put, if_neg]
        · exact hk
        · intro e; subst e; rw [hg] at hk; cases hk
    · rename_i hl
      obtain ⟨h1, h2⟩ := ih h
      refine ⟨h1, ?_⟩
      rintro ⟨x, hx, hxl⟩
      rcases List.mem_cons.mp hx with e | e
      · subst e; exact absurd hxl hl
      · obtain ⟨d', hd', a, b⟩ := h2 ⟨x, e, hxl⟩
        exact ⟨d', List.mem_cons_of_mem _ hd', a, b⟩

theorem rebalance_get {ord : List String → List String} {total : Int} {r : List (String × Int)} (hs : sumI r ≤ total) :
    ∀ k v, get? r k = some v → ∃ v', get? (rebalance ord total r) k = some v' ∧ v ≤ v' := by
  intro k v hk
  unfold rebalance
  split
  · exact ⟨v, hk, Int.le_refl _⟩
  · have h := search_int r (ord (keys r)) ("", 0) (Or.inl rfl)
    have h1 : largestInt r (ord (keys r)) = ("", 0) ∨ (0 < (largestInt r (ord (keys r))).2 ∧
      get? r (largestInt r (ord (keys r))).1 = some (largestInt r (ord (keys r))).2) := h.1
    simp only
    split
    · rename_i hne
      rcases h1 with h1 | h1
      · rw [h1] at hne; simp at hne
      · rw [get?_put]
        split
        · rename_i e; subst e
          rw [h1.2] at hk; simp at hk
          exact ⟨_, rfl, by omega⟩
        · exact ⟨v, hk, Int.le_refl _⟩
    · exact ⟨v, hk, Int.le_refl _⟩

theorem trunc_ge {q : Rat} (h : 0 ≤ q) : q.floor ≤ trunc q := by simp [trunc, h]

theorem floor_mono {a b : Rat} (h : a ≤ b) : a.floor ≤ b.floor :=
  Rat.le_floor_iff.mpr (Rat.le_trans (Rat.floor_le a) h)

theorem floor_small {a : Rat} (h0 : 0 < a) (h1 : a < 1) : a.floor = 0 := by
  have h2 : 0 ≤ a.floor := Rat.le_floor_iff.mpr (by simpa using Std.le_of_lt h0)
  have h3 : (a.floor : Rat) < ((1 : Int) : Rat) := Std.lt_of_le_of_lt (Rat.floor_le a) (by simpa using h1)
  have h4 : a.floor < 1 := Rat.intCast_lt_intCast.mp h3
  omega

/-- Lower bounds before the final rebalancing. -/
theorem before_rebalance {ord : List String → List String} {total : Int} {ds : List Dist} {prec : Int} {f : Fixed} {p : Percent}
    {r' : List (String × Int)} (hn : (ds.map (·.id)).Nodup)
    (hd : ∀ d ∈ ds, d.isLeft = false → 0 ≤ ask prec total d) (hsum : asked prec total ds ≤ total)
    (hf : fixedPass prec { left := total, total := 0, amounts := [] } ds = .ok f)
    (hp : percentPass total { total := 0, amounts := [] } ds = .ok p)
    (hl : leftPass (f.left - sumR (adjust ord total p)) (combinePercent (combineFixed f.amounts) (adjust ord total p)) ds = .ok r') :
    sumI r' ≤ total ∧
    (∀ d ∈ ds, d.isLeft = false → (d.isPercent = true ∨ ask prec total d ≠ 0) →
      ∃ v, get? r' d.id = some v ∧ (ask prec total d).floor ≤ v) ∧
    ((∃ d ∈ ds, d.isLeft = true) → ∃ d ∈ ds, d.isLeft = true ∧ ∃ v, get? r' d.id = some v ∧
      ((total : Rat) - asked prec total ds).floor ≤ v) := by
  obtain ⟨f1, f2, f3, f4⟩ := fixedPass_nonneg hf hd (by simp) (by simp [sumR])
  obtain ⟨p1, p2, p3⟩ := percentPass_nonneg hp hd (by simp) (by simp only [sumR, List.map_nil, List.sum_nil]; grind)
  obtain ⟨pk, _⟩ := percentPass_keys hp (by simp [keys])
  obtain ⟨a1, a2, a3⟩ := adjust_nonneg (ord := ord) p1 p2
  obtain ⟨c1, c2⟩ := combineFixed_nonneg f1
  obtain ⟨d1, d2⟩ := combinePercent_nonneg a1 c1
  simp only at f3 f4 p3
  have hasked := asked_split prec total ds
  have hleft : 0 ≤ f.left - sumR (adjust ord total p) := by grind
  obtain ⟨l1, l2⟩ := leftPass_nonneg hl hleft d1
  obtain ⟨g1, g2⟩ := leftPass_get hl
  refine ⟨?_, ?_, ?_⟩
  · apply Rat.intCast_le_intCast.mp
    grind
  · intro d hdm hdl hcase
    have hnn := hd d hdm hdl
    have hak : (keys (adjust ord total p)).Nodup := by rw [adjust_keys]; exact pk
    cases hpc : d.isPercent with
    | true =>
      have hg := percentPass_get (prec := prec) hp hn d hdm hdl hpc
      obtain ⟨v', hv', hle⟩ := a3 _ _ hg
      refine ⟨trunc v', ?_, ?_⟩
      · apply g1
        rw [combinePercent_get _ _ _ hak, hv']
      · split at hle
        · rename_i hs
          rw [floor_small hs.1 hs.2]
          exact trunc_nonneg (by simpa using hle)
        · exact Int.le_trans (floor_mono hle) (trunc_ge (Rat.le_trans hnn hle))
    | false =>
      have hz : ask prec total d ≠ 0 := by
        rcases hcase with h | h
        · rw [hpc] at h; cases h
        · exact h
      have hg := fixedPass_get hf hn d hdm hdl hpc hz
      refine ⟨trunc (ask prec total d), ?_, trunc_ge hnn⟩
      apply g1
      rw [combinePercent_get _ _ _ hak]
      have hnone : get? (adjust ord total p) d.id = none := by
        rw [get?_none, adjust_keys, ← get?_none, percentPass_get_other hp]
        · rfl
        · intro d' hd' _ hpc' e
          have := id_inj hn hd' hdm e
          subst this
          rw [hpc] at hpc'; cases hpc'
      rw [hnone, combineFixed_get, hg]; rfl
  · intro hex
    obtain ⟨d, hdm, hdl, hg⟩ := g2 hex
    exact ⟨d, hdm, hdl, _, hg, Int.le_trans (floor_mono (by grind)) (trunc_ge hleft)⟩

/-- Amount a party gets; nothing if it has no leg. -/
def gets (r : List (String × Int)) (k : String) : Int := (get? r k).getD 0

/-- **C62** Nobody gets less than it asked for, rounded down to a minor unit; and what is left
goes to a `left` entry. For distinct parties that do not ask for more than the total. -/
theorem c62_at_least_the_share (ord : List String → List String) (total : Int) (ds : List Dist) (prec : Int)
    (r : List (String × Int)) (ht : 2 ≤ total) (hn : (ds.map (·.id)).Nodup)
    (hd : ∀ d ∈ ds, d.isLeft = false → 0 ≤ ask prec total d) (hsum : asked prec total ds ≤ total)
    (h : distribute ord total ds prec = .ok r) :
    (∀ d ∈ ds, d.isLeft = false → (ask prec total d).floor ≤ gets r d.id) ∧
    ((∃ d ∈ ds, d.isLeft = true) → ∃ d ∈ ds, d.isLeft = true ∧ ((total : Rat) - asked prec total ds).floor ≤ gets r d.id) := by
  obtain ⟨f, p, r', hf, hp, _, _, hl, he⟩ := distribute_ok h (by omega) (Or.inl (by omega))
  obtain ⟨b1, b2, b3⟩ := before_rebalance hn hd hsum hf hp hl
  have hr := c20_no_negative_leg_partial ord total ds prec r hd hsum h
  have hpos : ∀ k, 0 ≤ gets r k := by
    intro k
    unfold gets
    cases hg : get? r k with
    | none => simp
    | some v => exact hr _ (get?_mem hg)
  refine ⟨?_, ?_⟩
  · intro d hdm hdl
    by_cases hc : d.isPercent = true ∨ ask prec total d ≠ 0
    · obtain ⟨v, hv, hle⟩ := b2 d hdm hdl hc
      obtain ⟨v', hv', hle'⟩ := rebalance_get (ord := ord) b1 _ _ hv
      rw [he]
      unfold gets
      rw [hv']
      exact Int.le_trans hle hle'
    · simp only [not_or, ne_eq, Decidable.not_not] at hc
      rw [hc.2]
      have : (0 : Rat).floor = 0 := by decide +kernel
      rw [this]; exact hpos _
  · intro hex
    obtain ⟨d, hdm, hdl, v, hv, hle⟩ := b3 hex
    obtain ⟨v', hv', hle'⟩ := rebalance_get (ord := ord) b1 _ _ hv
    refine ⟨d, hdm, hdl, ?_⟩
    rw [he]
    unfold gets
    rw [hv']
    exact Int.le_trans hle hle'

example : (demo.map (·.id)).Nodup ∧ (∀ d ∈ demo, d.isLeft = false → 0 ≤ ask 100 1001 d) ∧
    asked 100 1001 demo ≤ (1001 : Int) ∧ (distribute id 1001 demo 100).toOption.isSome ∧ (∃ d ∈ demo, d.isLeft = true) := by
  decide +kernel

/-- **C19** Adds up exactly as soon as one party asks for at least one minor unit, or a `left`
entry finds at least one minor unit left. For distinct, named parties that do not ask for
negative amounts nor for more than the total. -/
theorem c19_adds_up_partial (ord : List String → List String) (ho : Order ord) (total : Int) (ds : List Dist) (prec : Int)
    (r : List (String × Int)) (ht : 0 < total) (hne : ds ≠ []) (hnamed : ∀ d ∈ ds, d.id ≠ "") (hn : (ds.map (·.id)).Nodup)
    (hd : ∀ d ∈ ds, d.isLeft = false → 0 ≤ ask prec total d) (hsum : asked prec total ds ≤ total)
    (hone : (∃ d ∈ ds, d.isLeft = false ∧ 1 ≤ ask prec total d) ∨ ((∃ d ∈ ds, d.isLeft = true) ∧ asked prec total ds + 1 ≤ total))
    (h : distribute ord total ds prec = .ok r) : sumI r = total := by
  rcases c19_adds_up_or_nothing_positive_partial ord ho total ds prec r hne hnamed hn h with h1 | h1
  · exact h1
  · exfalso
    have hget : ∀ k, gets r k ≤ 0 := by
      intro k
      unfold gets
      cases hg : get? r k with
      | none => simp
      | some v => exact h1 _ (get?_mem hg)
    by_cases h2 : total = 1
    · cases ds with
      | nil => exact hne rfl
      | cons d rest =>
        unfold distribute at h
        simp only [h2] at h
        simp at h
        have hs : sumI r = 1 := by
          rw [← h, zeros_sum]
          · simp [sumI]
          · intro d' hd' v hv
            simp only [List.map_cons, List.nodup_cons, List.mem_map, not_exists, not_and] at hn
            simp only [get?] at hv
            split at hv
            · rename_i he; exact absurd he.symm (hn.1 d' hd')
            · cases hv
        have : ∀ (l : List (String × Int)), (∀ x ∈ l, x.2 ≤ 0) → sumI l ≤ 0 := by
          intro l hl
          induction l with
          | nil => simp [sumI]
          | cons x t ih =>
            have h3 := hl x (by simp)
            have h4 := ih (fun y hy => hl y (List.mem_cons_of_mem _ hy))
            simp only [sumI, List.map_cons, List.sum_cons] at h4 ⊢
            omega
        have := this r h1
        omega
    · obtain ⟨b1, b2⟩ := c62_at_least_the_share ord total ds prec r (by omega) hn hd hsum h
      rcases hone with ⟨d, hdm, hdl, ha⟩ | ⟨hex, ha⟩
      · have := b1 d hdm hdl
        have h3 : (1 : Int) ≤ (ask prec total d).floor := Rat.le_floor_iff.mpr (by simpa using ha)
        have := hget d.id
        omega
      · obtain ⟨d, hdm, hdl, hge⟩ := b2 hex
        have h3 : (1 : Int) ≤ ((total : Rat) - asked prec total ds).floor := Rat.le_floor_iff.mpr (by simp; grind)
        have := hget d.id
        omega

example : (∃ d ∈ demo, d.isLeft = false ∧ 1 ≤ ask 100 1001 d) ∧ ((∃ d ∈ demo, d.isLeft = true) ∧ asked 100 1001 demo + 1 ≤ (1001 : Int)) := by
  decide +kernel

/-! ### Upper bounds -/

/-- With distinct parties covering all keys, the legs' sum is the sum of what the parties get. -/
theorem sum_gets (ids : List String) (hn : ids.Nodup) (r : List (String × Int)) (hk : (keys r).Nodup) (hsub : ∀ k ∈ keys r, k ∈ ids) :
    (ids.map (gets r)).sum = sumI r := by
  induction r generalizing ids with
  | nil =>
    have : ∀ l : List String, (l.map (gets [])).sum = 0 := by
      intro l; induction l with
      | nil => rfl
      | cons a l ih => simp [gets, get?] at ih ⊢; exact ih
    simp [this, sumI]
  | cons x t ih =>
    obtain ⟨k, v⟩ := x
    simp only [keys, List.map_cons, List.nodup_cons] at hk
    have hmem : k ∈ ids := hsub k (by simp [keys])
    have key : ∀ l : List String, l.Nodup → k ∈ l → (l.map (gets ((k, v) :: t))).sum = v + ((l.erase k).map (gets t)).sum := by
      intro l hl hkl
      induction l with
      | nil => cases hkl
      | cons a l ihl =>
        simp only [List.nodup_cons] at hl
        have hother : ∀ l' : List String, k ∉ l' → l'.map (gets ((k, v) :: t)) = l'.map (gets t) := by
          intro l' hl'
          apply List.map_congr_left
          intro j hj
          simp only [gets, get?]
          rw [if_neg (fun e : k = j => hl' (e ▸ hj))]
        rcases List.mem_cons.mp hkl with e | e
        · subst e
          simp only [List.map_cons, List.sum_cons, List.erase_cons_head]
          rw [hother l hl.1]
          simp [gets, get?]
        · have hne : a ≠ k := fun e' => hl.1 (e' ▸ e)
          simp only [List.map_cons, List.sum_cons]
          rw [List.erase_cons_tail (by simp [hne]), List.map_cons, List.sum_cons, ihl hl.2 e]
          have : gets ((k, v) :: t) a = gets t a := by
            simp only [gets, get?]; rw [if_neg (Ne.symm hne)]
          omega
    rw [key ids hn hmem, ih (ids.erase k) (hn.erase k) hk.2 (by
      intro j hj
      have hjk : j ≠ k := by intro e; subst e; exact hk.1 hj
      have : j ∈ ids := hsub j (by simp only [keys, List.map_cons, List.mem_cons]; exact Or.inr hj)
      exact (List.mem_erase_of_ne hjk).mpr this)]
    simp [sumI]

/-- The share a party has a claim to: what it asked for, or for the `left` entry what is left. -/
def claim (prec total : Int) (ds : List Dist) (d : Dist) : Rat :=
  if d.isLeft then total - asked prec total ds else ask prec total d

theorem sum_floor_gt (l : List Dist) (g : Dist → Int) (c : Dist → Rat) (h : ∀ d ∈ l, (c d).floor ≤ g d) :
    (l.map c).sum ≤ ((l.map g).sum : Int) + (l.length : Rat) := by
  induction l with
  | nil => simp; decide +kernel
  | cons d l ih =>
    have h1 := ih (fun x hx => h x (List.mem_cons_of_mem _ hx))
    have h2 := h d (by simp)
    have h3 := Rat.lt_floor_add_one (c d)
    have h4 : ((c d).floor : Rat) ≤ (g d : Rat) := Rat.intCast_le_intCast.mpr h2
    simp only [List.map_cons, List.sum_cons, List.length_cons]
    rw [Rat.intCast_add] at h3 ⊢
    have h5 : ((l.length + 1 : Nat) : Rat) = (l.length : Rat) + 1 := by simp
    rw [h5]
    have h6 : ((1 : Int) : Rat) = 1 := by simp
    rw [h6] at h3
    grind

theorem sum_erase_int (l : List Dist) (g : Dist → Int) (d : Dist) (h : d ∈ l) : (l.map g).sum = g d + ((l.erase d).map g).sum := by
  induction l with
  | nil => cases h
  | cons x t ih =>
    by_cases e : x = d
    · subst e; simp
    · rcases List.mem_cons.mp h with h' | h'
      · exact absurd h'.symm e
      · rw [List.erase_cons_tail (by simp [e])]
        simp only [List.map_cons, List.sum_cons]
        rw [ih h']; omega

theorem sum_erase_rat (l : List Dist) (g : Dist → Rat) (d : Dist) (h : d ∈ l) : (l.map g).sum = g d + ((l.erase d).map g).sum := by
  induction l with
  | nil => cases h
  | cons x t ih =>
    by_cases e : x = d
    · subst e; simp
    · rcases List.mem_cons.mp h with h' | h'
      · exact absurd h'.symm e
      · rw [List.erase_cons_tail (by simp [e])]
        simp only [List.map_cons, List.sum_cons]
        rw [ih h']; grind

/-- The list says where everything goes: it has one `left` entry, or the amounts asked for are the whole. -/
def Covers (prec total : Int) (ds : List Dist) : Prop :=
  (ds.filter (·.isLeft)).length = 1 ∨ ((∀ d ∈ ds, d.isLeft = false) ∧ asked prec total ds = total)

theorem sum_claims_aux (prec total : Int) (x : Rat) (ds : List Dist) :
    (ds.map (fun d => if d.isLeft then x else ask prec total d)).sum =
      asked prec total ds + ((ds.filter (·.isLeft)).length : Rat) * x := by
  induction ds with
  | nil => simp [asked]; grind
  | cons d ds ih =>
    simp only [List.map_cons, List.sum_cons, asked]
    cases hl : d.isLeft with
    | true =>
      simp only [if_true, List.filter_cons, hl, List.length_cons]
      have h5 : (((ds.filter (·.isLeft)).length + 1 : Nat) : Rat) = ((ds.filter (·.isLeft)).length : Rat) + 1 := by simp
      rw [h5, ih]; grind
    | false =>
      simp only [Bool.false_eq_true, if_false, List.filter_cons, hl]
      rw [ih]; grind

theorem sum_claims {prec total : Int} {ds : List Dist} (h : Covers prec total ds) :
    (ds.map (claim prec total ds)).sum = total := by
  have := sum_claims_aux prec total (total - asked prec total ds) ds
  have e : ds.map (claim prec total ds) = ds.map (fun d => if d.isLeft then (total : Rat) - asked prec total ds else ask prec total d) := rfl
  rw [e, this]
  rcases h with h | ⟨h1, h2⟩
  · rw [h]; grind
  · have : ds.filter (·.isLeft) = [] := by
      apply List.filter_eq_nil_iff.mpr
      intro d hd; simp [h1 d hd]
    rw [this, h2]; simp; grind

/-- **C62** Nobody gets more than its claim plus one minor unit per other party: if the list says
where everything goes, each leg is within the number of parties of the exact share. -/
theorem c62_within_rounding_partial (ord : List String → List String) (ho : Order ord) (total : Int) (ds : List Dist) (prec : Int)
    (r : List (String × Int)) (ht : 2 ≤ total) (hnamed : ∀ d ∈ ds, d.id ≠ "") (hn : (ds.map (·.id)).Nodup)
    (hd : ∀ d ∈ ds, d.isLeft = false → 0 ≤ ask prec total d) (hsum : asked prec total ds ≤ total) (hcov : Covers prec total ds)
    (h : distribute ord total ds prec = .ok r) :
    ∀ d ∈ ds, claim prec total ds d - 1 < gets r d.id ∧ (gets r d.id : Rat) ≤ claim prec total ds d + ((ds.length - 1 : Nat) : Rat) := by
  intro d hdm
  have hne : ds ≠ [] := by intro e; subst e; cases hdm
  obtain ⟨lo, lol⟩ := c62_at_least_the_share ord total ds prec r ht hn hd hsum h
  have hclaim : ∀ x ∈ ds, (claim prec total ds x).floor ≤ gets r x.id := by
    intro x hx
    unfold claim
    split
    · rename_i hxl
      obtain ⟨y, hy, hyl, hle⟩ := lol ⟨x, hx, hxl⟩
      rcases hcov with hc | ⟨hc, _⟩
      · have hxy : x = y := by
          have hx' : x ∈ ds.filter (·.isLeft) := List.mem_filter.mpr ⟨hx, hxl⟩
          have hy' : y ∈ ds.filter (·.isLeft) := List.mem_filter.mpr ⟨hy, hyl⟩
          obtain ⟨z, hz⟩ := List.length_eq_one_iff.mp hc
          rw [hz] at hx' hy'
          simp at hx' hy'
          rw [hx', hy']
        rw [hxy]; exact hle
      · rw [hc x hx] at hxl; cases hxl
    · rename_i hxl
      exact lo x hx (by simpa using hxl)
  refine ⟨?_, ?_⟩
  · have h1 := hclaim d hdm
    have h2 := Rat.lt_floor_add_one (claim prec total ds d)
    have h3 : ((claim prec total ds d).floor : Rat) ≤ (gets r d.id : Rat) := Rat.intCast_le_intCast.mpr h1
    rw [Rat.intCast_add] at h2
    have h6 : ((1 : Int) : Rat) = 1 := by simp
    rw [h6] at h2
    grind
  · have hcnn : 0 ≤ claim prec total ds d := by
      unfold claim
      split
      · grind
      · rename_i hxl; exact hd d hdm (by simpa using hxl)
    have hlen : (0 : Rat) ≤ ((ds.length - 1 : Nat) : Rat) := Rat.natCast_nonneg
    rcases c19_adds_up_or_nothing_positive_partial ord ho total ds prec r hne hnamed hn h with h1 | h1
    · obtain ⟨k1, k2⟩ := distribute_keys h
      have hg := sum_gets (ds.map (·.id)) hn r k1 (by
        intro k hk
        obtain ⟨x, hx, e⟩ := k2 k hk
        exact List.mem_map.mpr ⟨x, hx, e⟩)
      rw [List.map_map, h1] at hg
      have e1 := sum_erase_int ds (gets r ∘ (·.id)) d hdm
      rw [hg] at e1
      have e2 := sum_erase_rat ds (claim prec total ds) d hdm
      rw [sum_claims hcov] at e2
      have e3 := sum_floor_gt (ds.erase d) (gets r ∘ (·.id)) (claim prec total ds) (by
        intro x hx
        exact hclaim x (List.mem_of_mem_erase hx))
      rw [List.length_erase_of_mem hdm] at e3
      have e4 : (total : Rat) = ((gets r d.id : Int) : Rat) + (((ds.erase d).map (gets r ∘ (·.id))).sum : Int) := by
        rw [← Rat.intCast_add]; exact congrArg _ e1
      grind
    · have : gets r d.id ≤ 0 := by
        unfold gets
        cases hg : get? r d.id with
        | none => simp
        | some v => exact h1 _ (get?_mem hg)
      have : (gets r d.id : Rat) ≤ ((0 : Int) : Rat) := Rat.intCast_le_intCast.mpr this
      have h6 : ((0 : Int) : Rat) = 0 := by simp
      rw [h6] at this
      grind

example : Covers 100 1001 demo := Or.inl (by decide)

/-- C62 in full: also when the list does not say where everything goes. -/
def C62Full : Prop :=
  ∀ (total : Int) (ds : List Dist) (prec : Int) (r : List (String × Int)), 0 < total → (∀ d ∈ ds, d.id ≠ "") →
    (ds.map (·.id)).Nodup → (∀ d ∈ ds, d.isLeft = false → 0 ≤ ask prec total d) → asked prec total ds ≤ total →
    distribute id total ds prec = .ok r →
    ∀ d ∈ ds, d.isLeft = false →
      ask prec total d - 1 < gets r d.id ∧ (gets r d.id : Rat) ≤ ask prec total d + ((ds.length - 1 : Nat) : Rat)

/-- **C62** fails as stated: ten and twenty percent are accepted, and the twenty percent becomes ninety. -/
theorem c62_full_fails : ¬ C62Full := by
  intro h
  have := h 100 [⟨"a", .percent 10, .blank⟩, ⟨"b", .percent 20, .blank⟩] 1 [("a", 10), ("b", 90)]
    (by decide) (by decide) (by decide) (by decide +kernel) (by decide +kernel) (by decide +kernel) ⟨"b", .percent 20, .blank⟩ (by decide) (by decide)
  revert this; decide +kernel

/-- **C62** A total of one minor unit goes to the first party even if its share is nought. -/
theorem c62_one_unit_goes_to_the_first :
    distribute id 1 [⟨"a", .percent 0, .blank⟩, ⟨"b", .percent 100, .blank⟩] 1 = .ok [("a", 1), ("b", 0)] := by
  decide +kernel

/-! ### C21 -/

theorem legs_mem {t : Txn} {b : Bool} {newId : Nat → String} {r : List (String × Int)} {n : Nat} {ks : List String} {x : Txn}
    (h : x ∈ legs t b newId r n ks) : ∃ m k a, n ≤ m ∧ k ∈ ks ∧ get? r k = some a ∧ x = leg t b (newId m) m k a := by
  induction ks generalizing n with
  | nil => simp [legs] at h
  | cons k ks ih =>
    simp only [legs] at h
    split at h
    · rename_i a ha
      rcases List.mem_cons.mp h with e | e
      · exact ⟨n, k, a, Nat.le_refl _, by simp, ha, e⟩
      · obtain ⟨m, k', a', h1, h2, h3, h4⟩ := ih e
        exact ⟨m, k', a', by omega, List.mem_cons_of_mem _ h2, h3, h4⟩
    · obtain ⟨m, k', a', h1, h2, h3, h4⟩ := ih h
      exact ⟨m, k', a', h1, List.mem_cons_of_mem _ h2, h3, h4⟩

theorem append_repr_inj {a : String} {m n : Nat} (h : a ++ Nat.repr m = a ++ Nat.repr n) : m = n := by
  apply Nat.repr_injective
  exact (String.append_right_inj a).mp h

theorem legs_refs {t : Txn} {b : Bool} {newId : Nat → String} {r : List (String × Int)} {n : Nat} {ks : List String} :
    ((legs t b newId r n ks).map (·.reference)).Nodup := by
  induction ks generalizing n with
  | nil => simp [legs]
  | cons k ks ih =>
    simp only [legs]
    split
    · simp only [List.map_cons, List.nodup_cons]
      refine ⟨?_, ih⟩
      intro hm
      obtain ⟨x, hx, e⟩ := List.mem_map.mp hm
      obtain ⟨m, k', a', h1, _, _, h4⟩ := legs_mem hx
      subst h4
      simp only [leg] at e
      have := append_repr_inj e
      omega
    · exact ih

/-- The party a leg is for. -/
def party (sources : List Dist) (x : Txn) : String := if sources.isEmpty then x.destination else x.source

theorem legs_parties {t : Txn} {newId : Nat → String} {r : List (String × Int)} {n : Nat} {ks : List String} {sources : List Dist}
    (hks : ∀ k ∈ ks, k ∈ keys r) : (legs t (!sources.isEmpty) newId r n ks).map (party sources) = ks := by
  induction ks generalizing n with
  | nil => simp [legs]
  | cons k ks ih =>
    simp only [legs]
    cases hg : get? r k with
    | none => exact absurd (hks k (by simp)) (get?_none.mp hg)
    | some a =>
      simp only [List.map_cons]
      rw [ih (fun j hj => hks j (List.mem_cons_of_mem _ hj))]
      congr 1
      unfold party leg
      cases sources.isEmpty <;> simp

/-- The list that is split: `sources` if there are any, else `destinations`. -/
def parties (sources destinations : List Dist) : List Dist := if sources.isEmpty then destinations else sources

/-- C21 in full: one leg per listed party, in order. -/
def C21Full : Prop :=
  ∀ (ord : List String → List String), Order ord → ∀ (t : Txn) (total : Int) (sources destinations : List Dist) (newId : Nat → String)
    (ts : List Txn), 0 < total → ((parties sources destinations).map (·.id)).Nodup →
    split ord t total sources destinations newId = .ok ts →
    ts.map (party sources) = (parties sources destinations).map (·.id)

/-- **C21** The legs are for distinct parties, all of them listed; every leg keeps the currency,
status, precision, flags and counterparty and has the original as parent; all references are
distinct, before and after the queue renumbers them; the amounts are those computed for the
parties. Missing from C21: order, and a leg for every listed party (see the next theorem and
`c21_full_fails`). -/
theorem c21_legs_distinct_and_traceable_partial (ord : List String → List String) (ho : Order ord) (t : Txn) (total : Int)
    (sources destinations : List Dist) (newId : Nat → String) (ts : List Txn)
    (h : split ord t total sources destinations newId = .ok ts) :
    (ts.map (party sources)).Nodup ∧
    (∀ x ∈ ts, ∃ d ∈ parties sources destinations, d.id = party sources x) ∧
    (∀ x ∈ ts, x.parent = t.id ∧ x.currency = t.currency ∧ x.status = t.status ∧ x.precision = t.precision ∧
      x.inflight = t.inflight ∧ x.atomic = t.atomic ∧ x.allowOverdraft = t.allowOverdraft ∧ x.overdraftLimit = t.overdraftLimit ∧
      x.scheduledFor = t.scheduledFor ∧ x.effectiveDate = t.effectiveDate ∧
      (if sources.isEmpty then x.source = t.source else x.destination = t.destination)) ∧
    (ts.map (·.reference)).Nodup ∧
    (∀ parent ref n, ((renumber parent ref n ts).map (·.reference)).Nodup) ∧
    (∃ r, distribute ord total (parties sources destinations) t.precision.floor = .ok r ∧
      (∀ x ∈ ts, ∃ a, x.preciseAmount = some a ∧ get? r (party sources x) = some a) ∧
      ((ts.map (fun x => x.preciseAmount.getD 0)).sum = sumI r)) := by
  unfold split at h
  have hpar : (if (!sources.isEmpty) = true then sources else destinations) = parties sources destinations := by
    unfold parties; cases sources.isEmpty <;> simp
  simp only [hpar] at h
  split at h
  · cases h
  · rename_i r hr
    simp at h; subst h
    obtain ⟨k1, k2⟩ := distribute_keys hr
    have hsub : ∀ k ∈ ord (keys r), k ∈ keys r := fun k hk => (ho _).mem_iff.mp hk
    have hp := legs_parties (t := t) (newId := newId) (n := 1) (sources := sources) hsub
    refine ⟨?_, ?_, ?_, legs_refs, ?_, r, hr, ?_, ?_⟩
    · rw [hp]; exact (ho _).symm.nodup k1
    · intro x hx
      have : party sources x ∈ ord (keys r) := by rw [← hp]; exact List.mem_map.mpr ⟨x, hx, rfl⟩
      exact k2 _ (hsub _ this)
    · intro x hx
      obtain ⟨m, k, a, _, _, _, e⟩ := legs_mem hx
      subst e
      unfold leg
      cases sources.isEmpty <;> simp
    · intro parent ref n
      generalize legs t (!sources.isEmpty) newId r 1 (ord (keys r)) = ts
      have hmem : ∀ (l : List Txn) (n : Nat), ∀ x ∈ renumber parent ref n l, ∃ m, n ≤ m ∧ x.reference = ref ++ "_" ++ Nat.repr m := by
        intro l
        induction l with
        | nil => intro n x hx; simp [renumber] at hx
        | cons y l ih =>
          intro n x hx
          simp only [renumber, List.mem_cons] at hx
          rcases hx with e | e
          · subst e; exact ⟨n, Nat.le_refl _, rfl⟩
          · obtain ⟨m, h1, h2⟩ := ih (n + 1) x e
            exact ⟨m, by omega, h2⟩
      induction ts generalizing n with
      | nil => simp [renumber]
      | cons y l ih =>
        simp only [renumber, List.map_cons, List.nodup_cons]
        refine ⟨?_, ih _⟩
        intro hm
        obtain ⟨x, hx, e⟩ := List.mem_map.mp hm
        obtain ⟨m, h1, h2⟩ := hmem l (n + 1) x hx
        rw [h2] at e
        have := append_repr_inj e
        omega
    · intro x hx
      obtain ⟨m, k, a, _, _, hg, e⟩ := legs_mem hx
      subst e
      refine ⟨a, rfl, ?_⟩
      have : party sources (leg t (!sources.isEmpty) (newId m) m k a) = k := by
        unfold party leg
        cases sources.isEmpty <;> simp
      rw [this]; exact hg
    · have hsum := sum_gets (ord (keys r)) ((ho _).symm.nodup k1) r k1 (fun k hk => (ho _).mem_iff.mpr hk)
      rw [← hsum]
      congr 1
      generalize ord (keys r) = ks at hsub ⊢
      clear hp hsum
      generalize 1 = n
      induction ks generalizing n with
      | nil => simp [legs]
      | cons k ks ih =>
        simp only [legs]
        cases hg : get? r k with
        | none => exact absurd (hsub k (by simp)) (get?_none.mp hg)
        | some a =>
          simp only [List.map_cons]
          rw [ih (fun j hj => hsub j (List.mem_cons_of_mem _ hj))]
          simp [gets, hg, leg]

/-- A payment to the four parties above. -/
def demoTxn : Txn := { id := "t", source := "alice", reference := "r", currency := "EUR", precision := 100, preciseAmount := some 1001, status := .queued }

example : (split List.reverse demoTxn 1001 [] demo (fun n => Nat.repr n)).toOption.any
    (fun ts => ts.map (fun x => (x.destination, x.preciseAmount, x.reference)) ==
      [("rest", some 418, "r-1"), ("half", some 501, "r-2"), ("tax", some 75, "r-3"), ("fee", some 7, "r-4")]) := by
  decide +kernel

/-- **C21** Every party that asks for a percentage or for a non-zero amount has a leg, and if
there is a `left` entry, some `left` entry has one. For distinct parties that ask for no
negative amounts and not for more than the total. -/
theorem c21_every_claimant_has_a_leg_partial (ord : List String → List String) (ho : Order ord) (t : Txn) (total : Int)
    (sources destinations : List Dist) (newId : Nat → String) (ts : List Txn) (ht : 2 ≤ total)
    (hn : ((parties sources destinations).map (·.id)).Nodup)
    (hd : ∀ d ∈ parties sources destinations, d.isLeft = false → 0 ≤ ask t.precision.floor total d)
    (hsum : asked t.precision.floor total (parties sources destinations) ≤ total)
    (h : split ord t total sources destinations newId = .ok ts) :
    (∀ d ∈ parties sources destinations, d.isLeft = false → (d.isPercent = true ∨ ask t.precision.floor total d ≠ 0) →
      d.id ∈ ts.map (party sources)) ∧
    ((∃ d ∈ parties sources destinations, d.isLeft = true) →
      ∃ d ∈ parties sources destinations, d.isLeft = true ∧ d.id ∈ ts.map (party sources)) := by
  unfold split at h
  have hpar : (if (!sources.isEmpty) = true then sources else destinations) = parties sources destinations := by
    unfold parties; cases sources.isEmpty <;> simp
  simp only [hpar] at h
  split at h
  · cases h
  · rename_i r hr
    simp at h; subst h
    rw [legs_parties (fun k hk => (ho _).mem_iff.mp hk)]
    obtain ⟨f, p, r', hf, hp, _, _, hl, he⟩ := distribute_ok hr (by omega) (Or.inl (by omega))
    obtain ⟨b1, b2, b3⟩ := before_rebalance hn hd hsum hf hp hl
    have hkey : ∀ k v, get? r' k = some v → k ∈ ord (keys r) := by
      intro k v hk
      rw [(ho _).mem_iff, he, rebalance_keys]
      exact List.mem_map.mpr ⟨_, get?_mem hk, rfl⟩
    refine ⟨?_, ?_⟩
    · intro d hdm hdl hc
      obtain ⟨v, hv, _⟩ := b2 d hdm hdl hc
      exact hkey _ _ hv
    · intro hex
      obtain ⟨d, hdm, hdl, v, hv, _⟩ := b3 hex
      exact ⟨d, hdm, hdl, hkey _ _ hv⟩

example : (parties [] demo = demo) ∧ demoTxn.precision.floor = 100 := by decide +kernel

/-- **C21** fails as stated: of two `left` entries the second gets no leg and no error. -/
theorem c21_full_fails : ¬ C21Full := by
  intro h
  have := h id (fun _ => List.Perm.refl _) demoTxn 100 [] [⟨"a", .left, .blank⟩, ⟨"b", .left, .blank⟩] (fun _ => "")
    [leg demoTxn false "" 1 "a" 100] (by decide) (by decide) (by decide +kernel)
  revert this; decide +kernel

/-- **C21** nor is the order kept: it is the order in which Go walks a map. -/
theorem c21_order_fails : ∃ (ord : List String → List String) (ds : List Dist) (ts : List Txn), Order ord ∧
    split ord demoTxn 100 [] ds (fun _ => "") = .ok ts ∧ ts.map (·.destination) = ["b", "a"] ∧ ds.map (·.id) = ["a", "b"] :=
  ⟨List.reverse, [⟨"a", .percent 50, .blank⟩, ⟨"b", .percent 50, .blank⟩],
   [leg demoTxn false "" 1 "b" 50, leg demoTxn false "" 2 "a" 50], List.reverse_perm, by decide +kernel, by decide +kernel, by decide⟩

end Blnk.Split
