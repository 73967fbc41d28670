import Verif.Model.Lineage
/-
C35–C37: allocation of a debit over providers, and retries of an interrupted debit.
-/
namespace Blnk.Lineage

/-! ### Sorting -/

/-- A comparison that orders all creation times. -/
structure Ordering (le : Nat → Nat → Bool) : Prop where
  total : ∀ a b, le a b = false → le b a = true
  trans : ∀ a b c, le a b = true → le b c = true → le a c = true

theorem before_ordering (st : Strategy) : Ordering (before st) := by
  constructor
  · intro a b; cases st <;> simp [before] <;> omega
  · intro a b c; cases st <;> simp [before] <;> omega

theorem insert_perm (le) (x : Src) : ∀ l, (insertSrc le x l).Perm (x :: l)
  | [] => .refl _
  | y :: ys => by
    unfold insertSrc; split
    · exact .refl _
    · exact ((insert_perm le x ys).cons y).trans (.swap x y ys)

theorem sort_perm (le) : ∀ l, (sortSrc le l).Perm l
  | [] => .refl _
  | x :: xs => (insert_perm le x _).trans ((sort_perm le xs).cons x)

/-- Sorted by the comparison. -/
abbrev Sorted (le : Nat → Nat → Bool) (l : List Src) : Prop := l.Pairwise (fun a b => le a.created b.created = true)

theorem insert_sorted {le} (o : Ordering le) (x : Src) : ∀ l, Sorted le l → Sorted le (insertSrc le x l)
  | [], _ => by simp [insertSrc, Sorted]
  | y :: ys, h => by
    have hy := (List.pairwise_cons.1 h)
    unfold insertSrc; split
    · rename_i hxy
      refine List.pairwise_cons.2 ⟨?_, h⟩
      intro z hz
      rcases List.mem_cons.1 hz with rfl | hz
      · exact hxy
      · exact o.trans _ _ _ hxy (hy.1 z hz)
    · rename_i hxy
      refine List.pairwise_cons.2 ⟨?_, insert_sorted o x ys hy.2⟩
      intro z hz
      rcases List.mem_cons.1 ((insert_perm le x ys).mem_iff.1 hz) with rfl | hz
      · exact o.total _ _ (by simpa using hxy)
      · exact hy.1 z hz

theorem sort_sorted {le} (o : Ordering le) : ∀ l, Sorted le (sortSrc le l)
  | [] => List.Pairwise.nil
  | x :: xs => insert_sorted o x _ (sort_sorted o xs)

theorem insert_front {le} (x : Src) : ∀ l, (∀ z ∈ l, le x.created z.created = true) → insertSrc le x l = x :: l
  | [], _ => rfl
  | y :: ys, h => by unfold insertSrc; simp [h y]

theorem insert_filter {le} (o : Ordering le) (q : Src → Bool) (x : Src) : ∀ l, Sorted le l →
    (insertSrc le x l).filter q = if q x then insertSrc le x (l.filter q) else l.filter q
  | [], _ => by simp only [insertSrc, List.filter]; split <;> simp_all
  | y :: ys, h => by
    have hy := (List.pairwise_cons.1 h)
    have ih := insert_filter o q x ys hy.2
    by_cases hxy : le x.created y.created = true
    · have hf : insertSrc le x (List.filter q (y :: ys)) = x :: List.filter q (y :: ys) := by
        apply insert_front
        intro z hz
        rcases List.mem_cons.1 (List.mem_filter.1 hz).1 with rfl | hz
        · exact hxy
        · exact o.trans _ _ _ hxy (hy.1 z hz)
      rw [hf]
      unfold insertSrc
      rw [if_pos hxy, List.filter_cons]
    · have e : ∀ zs, insertSrc le x (y :: zs) = y :: insertSrc le x zs := fun zs => by
        rw [insertSrc, if_neg hxy]
      rw [e, List.filter_cons, ih, List.filter_cons]
      cases hqy : q y <;> cases hqx : q x <;> simp [e]

/-- Dropping sources and sorting can be done in either order. -/
theorem sort_filter {le} (o : Ordering le) (q : Src → Bool) : ∀ l, sortSrc le (l.filter q) = (sortSrc le l).filter q
  | [] => rfl
  | x :: xs => by
    rw [List.filter_cons]
    have := insert_filter o q x _ (sort_sorted o xs)
    show _ = List.filter q (insertSrc le x (sortSrc le xs))
    rw [this, ← sort_filter o q xs]
    split <;> rfl

theorem insert_map {le} (f : Src → Src) (hf : ∀ s, (f s).created = s.created) (x : Src) :
    ∀ l, insertSrc le (f x) (l.map f) = (insertSrc le x l).map f
  | [] => rfl
  | y :: ys => by
    simp only [List.map_cons, insertSrc, hf, insert_map f hf x ys]
    split <;> rfl

theorem sort_map {le} (f : Src → Src) (hf : ∀ s, (f s).created = s.created) :
    ∀ l, sortSrc le (l.map f) = (sortSrc le l).map f
  | [] => rfl
  | x :: xs => by simp only [List.map_cons, sortSrc, sort_map f hf xs, insert_map f hf]

/-! ### C35 -/

theorem total_nil : total [] = 0 := rfl
theorem total_cons (x : Alloc) (l) : total (x :: l) = x.2 + total l := by simp [total]
theorem total_append (a b : List Alloc) : total (a ++ b) = total a + total b := by simp [total]
theorem held_cons (x : Src) (l) : held (x :: l) = x.avail + held l := by simp [held]

theorem takeSeq_nonpos : ∀ (l : List Src) (r : Int), r ≤ 0 → takeSeq l r = []
  | [], _, _ => rfl
  | _ :: _, _, h => by simp [takeSeq, h]

theorem takeSeq_cons {s : Src} {l : List Src} {r : Int} (hs : 0 < s.avail) (hr : 0 < r) :
    takeSeq (s :: l) r = (s.provider, min s.avail r) :: takeSeq l (r - min s.avail r) := by
  have e : (if s.avail ≥ r then r else s.avail) = min s.avail r := by split <;> omega
  rw [takeSeq]
  simp only [e]
  rw [if_neg (by omega), if_neg (by omega)]

theorem held_nonneg : ∀ l : List Src, (∀ s ∈ l, 0 < s.avail) → 0 ≤ held l
  | [], _ => by simp [held]
  | s :: l, h => by
    have := held_nonneg l (fun x hx => h x (List.mem_cons_of_mem _ hx))
    have := h s (List.mem_cons_self ..)
    rw [held_cons]; omega

theorem takeSeq_total : ∀ (l : List Src) (r : Int), (∀ s ∈ l, 0 < s.avail) → 0 ≤ r →
    total (takeSeq l r) = min r (held l)
  | [], r, _, hr => by simp [takeSeq, total, held]; omega
  | s :: l, r, h, hr => by
    have hs := h s (List.mem_cons_self ..)
    have hl := fun x hx => h x (List.mem_cons_of_mem _ hx)
    have hn := held_nonneg l hl
    by_cases h0 : r ≤ 0
    · rw [takeSeq_nonpos _ _ h0, total_nil, held_cons]; omega
    · rw [takeSeq_cons hs (by omega), total_cons, takeSeq_total l _ hl (by omega), held_cons]
      simp only
      omega

theorem takeSeq_mem : ∀ (l : List Src) (r : Int) (p : String) (a : Int), (∀ s ∈ l, 0 < s.avail) →
    (p, a) ∈ takeSeq l r → 0 < a ∧ a ≤ r ∧ ∃ s ∈ l, s.provider = p ∧ a ≤ s.avail
  | [], _, _, _, _, hm => by simp [takeSeq] at hm
  | s :: l, r, p, a, h, hm => by
    have hs := h s (List.mem_cons_self ..)
    by_cases h0 : r ≤ 0
    · rw [takeSeq_nonpos _ _ h0] at hm; simp at hm
    · rw [takeSeq_cons hs (by omega)] at hm
      rcases List.mem_cons.1 hm with e | hm
      · injection e with e1 e2
        exact ⟨by omega, by omega, s, List.mem_cons_self .., e1.symm, by omega⟩
      · obtain ⟨h1, h2, x, hx, h3⟩ := takeSeq_mem l _ p a (fun x hx => h x (List.mem_cons_of_mem _ hx)) hm
        exact ⟨h1, by omega, x, List.mem_cons_of_mem _ hx, h3⟩

theorem takeSeq_sublist : ∀ (l : List Src) (r : Int),
    ((takeSeq l r).map Prod.fst).Sublist (l.map Src.provider)
  | [], _ => by simp [takeSeq]
  | s :: l, r => by
    simp only [takeSeq]
    split
    · simp
    · generalize (if s.avail ≥ r then r else s.avail) = a
      split
      · exact (takeSeq_sublist l _).trans (List.sublist_cons_self _ _)
      · exact (takeSeq_sublist l _).cons_cons _

theorem takeSeq_order {le} (o : Ordering le) : ∀ (l : List Src) (r : Int), (∀ s ∈ l, 0 < s.avail) →
    (l.map Src.provider).Nodup → Sorted le l → ∀ s ∈ l, ∀ s' ∈ l, le s'.created s.created = false →
    ∀ a', (s'.provider, a') ∈ takeSeq l r → (s.provider, s.avail) ∈ takeSeq l r
  | [], _, _, _, _, _, hs, _, _, _, _, _ => by simp at hs
  | x :: l, r, h, hn, hsrt, s, hs, s', hs', hlt, a', hm => by
    have hx := h x (List.mem_cons_self ..)
    have hl := fun y hy => h y (List.mem_cons_of_mem x hy)
    rw [List.map_cons, List.nodup_cons] at hn
    rw [Sorted, List.pairwise_cons] at hsrt
    by_cases h0 : r ≤ 0
    · rw [takeSeq_nonpos _ _ h0] at hm; simp at hm
    rw [takeSeq_cons hx (by omega)] at hm ⊢
    rcases List.mem_cons.1 hs' with rfl | hs'
    · rcases List.mem_cons.1 hs with rfl | hs
      · have := o.total _ _ hlt; simp_all
      · rw [hsrt.1 s hs] at hlt; cases hlt
    · have hne : s'.provider ≠ x.provider := fun e => hn.1 (e ▸ List.mem_map_of_mem hs')
      rcases List.mem_cons.1 hm with e | hm
      · injection e with e1; exact absurd e1 hne
      · rcases List.mem_cons.1 hs with rfl | hs
        · have : 0 < r - min s.avail r := by
            have := takeSeq_mem l _ _ _ hl hm; omega
          rw [show min s.avail r = s.avail by omega]
          exact List.mem_cons_self ..
        · exact List.mem_cons_of_mem _ (takeSeq_order o l _ hl hn.2 hsrt.2 s hs s' hs' hlt a' hm)

theorem live_mem {l : List Src} {s : Src} : s ∈ live l ↔ s ∈ l ∧ 0 < s.avail := by simp [live]

theorem live_held : ∀ l : List Src, held (live l) = (l.map (fun s => max 0 s.avail)).sum
  | [] => rfl
  | s :: l => by
    have ih := live_held l
    unfold live at ih ⊢
    rw [List.filter_cons, List.map_cons, List.sum_cons, ← ih]
    by_cases h : 0 < s.avail
    · rw [if_pos (by simpa using h), held_cons]; omega
    · rw [if_neg (by simpa using h)]; omega

theorem held_perm {a b : List Src} (h : a.Perm b) : held a = held b := by
  induction h with
  | nil => rfl
  | cons x _ ih => rw [held_cons, held_cons, ih]
  | swap x y l => simp only [held_cons]; omega
  | trans _ _ h1 h2 => exact h1.trans h2

theorem same_provider : ∀ {l : List Src}, (l.map Src.provider).Nodup → ∀ {a b}, a ∈ l → b ∈ l →
    a.provider = b.provider → a = b
  | [], _, _, _, ha, _, _ => by simp at ha
  | x :: l, hn, a, b, ha, hb, he => by
    rw [List.map_cons, List.nodup_cons] at hn
    rcases List.mem_cons.1 ha with ea | ha' <;> rcases List.mem_cons.1 hb with eb | hb'
    · rw [ea, eb]
    · exact absurd (ea ▸ he ▸ List.mem_map_of_mem hb') hn.1
    · exact absurd (eb ▸ he ▸ List.mem_map_of_mem ha') hn.1
    · exact same_provider hn.2 ha' hb' he

theorem calculate_seq {st : Strategy} (hst : st ≠ .proportional) (l : List Src) (amt : Int) :
    calculate st l amt = takeSeq (sortSrc (before st) l) amt := by
  have hp := sort_perm (before st) l
  have hs : sequential (sortSrc (before st) l) amt = takeSeq (sortSrc (before st) l) amt := by
    unfold sequential; split
    · rw [takeSeq_nonpos _ _ (by assumption)]
    · rfl
  unfold calculate
  split
  · rename_i he
    rw [List.isEmpty_iff] at he
    subst he
    rfl
  · cases st
    · exact hs
    · exact hs
    · exact absurd rfl hst

theorem sort_live_pos (st : Strategy) (l : List Src) : ∀ s ∈ sortSrc (before st) (live l), 0 < s.avail := by
  intro s hs
  exact (live_mem.1 ((sort_perm _ _).mem_iff.1 hs)).2

theorem live_nodup {l : List Src} (h : (l.map Src.provider).Nodup) : ((live l).map Src.provider).Nodup :=
  h.sublist ((List.filter_sublist).map _)

/-- **C35** FIFO and LIFO allocation take exactly the debit, or everything there is if that
is less. -/
theorem c35_total (st : Strategy) (hst : st ≠ .proportional) (l : List Src) (amt : Int) (h : 0 ≤ amt) :
    ((calculate st (live l) amt).map Prod.snd).sum = min amt (l.map (fun s => max 0 s.avail)).sum := by
  rw [calculate_seq hst, ← live_held, ← held_perm (sort_perm (before st) (live l))]
  exact takeSeq_total _ _ (sort_live_pos st l) h

/-- **C35** Every provider is used at most once, for a positive amount not above what it
holds. -/
theorem c35_within (st : Strategy) (hst : st ≠ .proportional) (l : List Src) (amt : Int)
    (hn : (l.map Src.provider).Nodup) :
    ((calculate st (live l) amt).map Prod.fst).Nodup ∧
    ∀ p a, (p, a) ∈ calculate st (live l) amt → 0 < a ∧ ∃ s ∈ l, s.provider = p ∧ a ≤ s.avail := by
  rw [calculate_seq hst]
  have hp := sort_perm (before st) (live l)
  constructor
  · exact ((hp.map Src.provider).nodup_iff.2 (live_nodup hn)).sublist (takeSeq_sublist _ _)
  · intro p a hm
    obtain ⟨h1, _, s, hs, h3⟩ := takeSeq_mem _ _ _ _ (sort_live_pos st l) hm
    exact ⟨h1, s, (live_mem.1 (hp.mem_iff.1 hs)).1, h3⟩

/-- Shared part of the two ordering theorems. -/
theorem seq_order (st : Strategy) (hst : st ≠ .proportional) (l : List Src) (amt : Int)
    (hn : (l.map Src.provider).Nodup) (s s' : Src) (hs : s ∈ l) (hs' : s' ∈ l) (hpos : 0 < s.avail)
    (hlt : before st s'.created s.created = false) (a' : Int)
    (hm : (s'.provider, a') ∈ calculate st (live l) amt) : (s.provider, s.avail) ∈ calculate st (live l) amt := by
  rw [calculate_seq hst] at hm ⊢
  have hp := sort_perm (before st) (live l)
  have hn' := (hp.map Src.provider).nodup_iff.2 (live_nodup hn)
  obtain ⟨_, _, t, ht, h1, h2⟩ := takeSeq_mem _ _ _ _ (sort_live_pos st l) hm
  have hs'' : s' ∈ live l := by
    refine live_mem.2 ⟨hs', ?_⟩
    have htl := (live_mem.1 (hp.mem_iff.1 ht))
    have : t = s' := same_provider hn htl.1 hs' h1
    exact this ▸ htl.2
  exact takeSeq_order (before_ordering st) _ _ (sort_live_pos st l) hn' (sort_sorted (before_ordering st) _)
    s (hp.mem_iff.2 (live_mem.2 ⟨hs, hpos⟩)) s' (hp.mem_iff.2 hs'') hlt a' hm

/-- **C35** FIFO: if a provider gives anything, every provider whose mapping is older has
given all it had. -/
theorem c35_fifo_oldest_first (l : List Src) (amt : Int) (hn : (l.map Src.provider).Nodup) (s s' : Src)
    (hs : s ∈ l) (hs' : s' ∈ l) (hpos : 0 < s.avail) (hlt : s.created < s'.created) (a' : Int)
    (hm : (s'.provider, a') ∈ calculate .fifo (live l) amt) :
    (s.provider, s.avail) ∈ calculate .fifo (live l) amt :=
  seq_order .fifo (by decide) l amt hn s s' hs hs' hpos (by simp [before]; omega) a' hm

/-- **C35** LIFO: if a provider gives anything, every provider whose mapping is newer has
given all it had. -/
theorem c35_lifo_newest_first (l : List Src) (amt : Int) (hn : (l.map Src.provider).Nodup) (s s' : Src)
    (hs : s ∈ l) (hs' : s' ∈ l) (hpos : 0 < s.avail) (hlt : s'.created < s.created) (a' : Int)
    (hm : (s'.provider, a') ∈ calculate .lifo (live l) amt) :
    (s.provider, s.avail) ∈ calculate .lifo (live l) amt :=
  seq_order .lifo (by decide) l amt hn s s' hs hs' hpos (by simp [before]; omega) a' hm

/-- Three providers; the newest is listed first, one is empty. -/
def demoSrcs : List Src := [⟨"C", 50, 3⟩, ⟨"E", 0, 0⟩, ⟨"A", 100, 1⟩, ⟨"B", 40, 2⟩]

example : (demoSrcs.map Src.provider).Nodup ∧
    calculate .fifo (live demoSrcs) 120 = [("A", 100), ("B", 20)] ∧
    calculate .lifo (live demoSrcs) 120 = [("C", 50), ("B", 40), ("A", 30)] ∧
    calculate .fifo (live demoSrcs) 500 = [("A", 100), ("B", 40), ("C", 50)] := by decide +kernel

/-! ### C36 -/

/-- **C36 in full**: proportional allocation takes exactly the debit, or everything there is
if that is less. -/
def C36Full : Prop := ∀ (l : List Src) (amt : Int), 0 ≤ amt → (l.map Src.provider).Nodup →
  ((calculate .proportional (live l) amt).map Prod.snd).sum = min amt (l.map (fun s => max 0 s.avail)).sum

/-- **C36 is violated**: three providers with one unit each, a debit of two. The first two
shares round down to nothing and the last provider has only one, so one unit of the debit is
allocated to nobody although three are there. -/
theorem c36_full_fails : ¬ C36Full := by
  intro h
  have := h [⟨"A", 1, 1⟩, ⟨"B", 1, 2⟩, ⟨"C", 1, 3⟩] 2 (by decide) (by decide +kernel)
  revert this
  decide +kernel

theorem takeProp_spec (eff T : Int) (hT : 0 < T) (he0 : 0 ≤ eff) (he : eff ≤ T) :
    ∀ (l : List Src) (r : Int) (k : Nat), l ≠ [] → (∀ s ∈ l, 0 < s.avail) →
      eff * held l ≤ r * T → r * T ≤ eff * held l + k * (T - 1) →
      total (takeProp eff T l r) ≤ r ∧
      (r - total (takeProp eff T l r)) * T ≤ ((k + (l.length - 1) : Nat) : Int) * (T - 1)
  | [], _, _, h, _, _, _ => absurd rfl h
  | [s], r, k, _, hp, h1, h2 => by
    have hs := hp s (List.mem_cons_self ..)
    rw [held_cons, show held [] = 0 from rfl, Int.add_zero] at h1 h2
    have hev : 0 ≤ eff * s.avail := Int.mul_nonneg he0 (by omega)
    have hr : 0 ≤ r := by
      apply Classical.byContradiction; intro hc
      have : r * T < 0 := Int.mul_neg_of_neg_of_pos (by omega) hT
      omega
    have hcap : eff * s.avail ≤ T * s.avail := Int.mul_le_mul_of_nonneg_right he (by omega)
    have hk : (0:Int) ≤ k * (T - 1) := Int.mul_nonneg (by omega) (by omega)
    simp only [takeProp, List.isEmpty_nil, if_true, List.length_singleton, Nat.sub_self, Nat.add_zero]
    by_cases hc : r > s.avail
    · rw [if_pos hc, if_neg (by omega), total_cons, total_nil]
      refine ⟨by simp only; omega, ?_⟩
      simp only [Int.add_zero]
      rw [Int.sub_mul, Int.mul_comm s.avail T]; omega
    · rw [if_neg hc]
      by_cases h0 : r ≤ 0
      · rw [if_pos h0, total_nil]
        have : r = 0 := by omega
        subst this
        exact ⟨by omega, by simpa using hk⟩
      · rw [if_neg h0, total_cons, total_nil]
        exact ⟨by simp only; omega, by simpa using hk⟩
  | s :: s2 :: l, r, k, _, hp, h1, h2 => by
    have hs := hp s (List.mem_cons_self ..)
    have hl := fun x hx => hp x (List.mem_cons_of_mem s hx)
    have hev : 0 ≤ eff * s.avail := Int.mul_nonneg he0 (by omega)
    have hcap : eff * s.avail ≤ T * s.avail := Int.mul_le_mul_of_nonneg_right he (by omega)
    have ha0 : 0 ≤ eff * s.avail / T := Int.ediv_nonneg hev (by omega)
    have hle : eff * s.avail / T ≤ s.avail := by
      apply Int.le_of_lt_add_one
      apply Int.ediv_lt_of_lt_mul hT
      rw [Int.add_mul, Int.mul_comm s.avail T]; omega
    have hq1 : eff * s.avail / T * T ≤ eff * s.avail := Int.ediv_mul_le _ (by omega)
    have hq2 : eff * s.avail < eff * s.avail / T * T + T := by
      have := Int.lt_ediv_add_one_mul_self (eff * s.avail) hT
      rw [Int.add_mul] at this; omega
    rw [held_cons, Int.mul_add] at h1 h2
    have e : ∀ r', takeProp eff T (s :: s2 :: l) r' =
        if eff * s.avail / T ≤ 0 then takeProp eff T (s2 :: l) r'
        else (s.provider, eff * s.avail / T) :: takeProp eff T (s2 :: l) (r' - eff * s.avail / T) := by
      intro r'
      have : ¬ (eff * s.avail / T > s.avail) := by omega
      rw [takeProp]
      simp only [List.isEmpty_cons, Bool.false_eq_true, if_false, this]
    rw [e]
    have ih := takeProp_spec eff T hT he0 he (s2 :: l) (r - eff * s.avail / T) (k + 1) (by simp) hl
      (by rw [Int.sub_mul]; omega)
      (by rw [Int.sub_mul]; simp only [Int.natCast_add, Int.natCast_one, Int.add_mul]; omega)
    have hlen : k + ((s :: s2 :: l).length - 1) = k + 1 + ((s2 :: l).length - 1) := by simp; omega
    rw [hlen]
    split
    · have : eff * s.avail / T = 0 := by omega
      rw [this, Int.sub_zero] at ih
      exact ih
    · rw [total_cons]
      refine ⟨by simp only; omega, ?_⟩
      have : r - (eff * s.avail / T + total (takeProp eff T (s2 :: l) (r - eff * s.avail / T))) =
          r - eff * s.avail / T - total (takeProp eff T (s2 :: l) (r - eff * s.avail / T)) := by omega
      simp only [this]
      exact ih.2

theorem takeProp_mem (eff T : Int) : ∀ (l : List Src) (r : Int) (p : String) (a : Int),
    (p, a) ∈ takeProp eff T l r → 0 < a ∧ ∃ s ∈ l, s.provider = p ∧ a ≤ s.avail
  | [], _, _, _, hm => by simp [takeProp] at hm
  | s :: l, r, p, a, hm => by
    unfold takeProp at hm
    simp only at hm
    generalize hx : (if (if l.isEmpty then r else eff * s.avail / T) > s.avail then s.avail
      else if l.isEmpty then r else eff * s.avail / T) = x at hm
    have hxs : x ≤ s.avail := by rw [← hx]; split <;> omega
    split at hm
    · obtain ⟨h1, t, ht, h2⟩ := takeProp_mem eff T l _ p a hm
      exact ⟨h1, t, List.mem_cons_of_mem _ ht, h2⟩
    · rcases List.mem_cons.1 hm with e | hm
      · injection e with e1 e2
        exact ⟨by omega, s, List.mem_cons_self .., e1.symm, by omega⟩
      · obtain ⟨h1, t, ht, h2⟩ := takeProp_mem eff T l _ p a hm
        exact ⟨h1, t, List.mem_cons_of_mem _ ht, h2⟩

theorem takeProp_sublist (eff T : Int) : ∀ (l : List Src) (r : Int),
    ((takeProp eff T l r).map Prod.fst).Sublist (l.map Src.provider)
  | [], _ => by simp [takeProp]
  | s :: l, r => by
    unfold takeProp
    simp only
    generalize (if (if l.isEmpty then r else eff * s.avail / T) > s.avail then s.avail
      else if l.isEmpty then r else eff * s.avail / T) = x
    split
    · exact (takeProp_sublist eff T l _).trans (List.sublist_cons_self _ _)
    · exact (takeProp_sublist eff T l _).cons_cons _

theorem takeProp_exact (T : Int) (hT : 0 < T) : ∀ (l : List Src), (∀ s ∈ l, 0 < s.avail) →
    total (takeProp T T l (held l)) = held l
  | [], _ => by simp [takeProp, total, held]
  | s :: l, hp => by
    have hs := hp s (List.mem_cons_self ..)
    have hl := fun x hx => hp x (List.mem_cons_of_mem s hx)
    have e : T * s.avail / T = s.avail := Int.mul_ediv_cancel_left _ (by omega)
    have ih := takeProp_exact T hT l hl
    unfold takeProp
    simp only [e, held_cons]
    cases l with
    | nil =>
      have h1 : (if (s.avail + held []) > s.avail then s.avail else s.avail + held []) = s.avail := by
        simp [held]
      simp only [List.isEmpty_nil, if_true, h1]
      rw [if_neg (by omega), total_cons]
      simp [takeProp, held, total]
    | cons x l =>
      simp only [List.isEmpty_cons, Bool.false_eq_true, if_false]
      rw [if_neg (show ¬ s.avail > s.avail by omega), if_neg (by omega), total_cons]
      rw [show s.avail + held (x :: l) - s.avail = held (x :: l) by omega, ih]

theorem calculate_prop (l : List Src) (amt : Int) (h0 : 0 < amt) (hh : 0 < held l) :
    calculate .proportional l amt = takeProp (min amt (held l)) (held l) l (min amt (held l)) := by
  have e : (if amt > held l then held l else amt) = min amt (held l) := by split <;> omega
  unfold calculate
  rw [if_neg]
  · simp only [proportional, e]
    rw [if_neg (by omega), if_neg (by omega)]
  · intro he
    rw [List.isEmpty_iff] at he
    subst he
    simp [held] at hh

theorem live_pos (l : List Src) : ∀ s ∈ live l, 0 < s.avail := fun _ hs => (live_mem.1 hs).2

theorem held_zero {l : List Src} (hp : ∀ s ∈ l, 0 < s.avail) (h : ¬ 0 < held l) : l = [] := by
  cases l with
  | nil => rfl
  | cons s l =>
    have := hp s (List.mem_cons_self ..)
    have := held_nonneg l (fun x hx => hp x (List.mem_cons_of_mem s hx))
    rw [held_cons] at h; omega

/-- **C36** (partial). Proportional allocation never takes more in total than the debit or
than there is; it may take less, by at most the number of providers minus two. Missing from
the full statement: equality, which is false. -/
theorem c36_total_partial (l : List Src) (amt : Int) (h : 0 ≤ amt) :
    let taken := ((calculate .proportional (live l) amt).map Prod.snd).sum
    let want := min amt (l.map (fun s => max 0 s.avail)).sum
    taken ≤ want ∧ want - taken ≤ (((l.filter (fun s => 0 < s.avail)).length - 2 : Nat) : Int) := by
  intro taken want
  have hw : want = min amt (held (live l)) := by simp only [want, ← live_held]
  have ht : taken = total (calculate .proportional (live l) amt) := rfl
  have hpos := live_pos l
  have hn := held_nonneg _ hpos
  rw [hw, ht, show l.filter (fun s => decide (0 < s.avail)) = live l from rfl]
  by_cases h0 : 0 < amt ∧ 0 < held (live l)
  · rw [calculate_prop _ _ h0.1 h0.2]
    generalize hE : min amt (held (live l)) = E
    generalize hTT : held (live l) = T at *
    have hne : live l ≠ [] := by intro e; rw [e] at hTT; simp [held] at hTT; omega
    obtain ⟨h1, h2⟩ := takeProp_spec E T (by omega) (by omega) (by omega) (live l) E 0 hne hpos
      (by rw [hTT]; omega) (by rw [hTT]; omega)
    refine ⟨h1, ?_⟩
    generalize total (takeProp E T (live l) E) = t at *
    simp only [Nat.zero_add] at h2
    -- (E - t) * T ≤ (n - 1) * (T - 1) gives E - t < n - 1 unless n = 1
    generalize (live l).length = n at *
    by_cases hn2 : 2 ≤ n
    · have : E - t < ((n - 1 : Nat) : Int) := by
        apply Classical.byContradiction; intro hc
        have hm : ((n - 1 : Nat) : Int) * T ≤ (E - t) * T := Int.mul_le_mul_of_nonneg_right (by omega) (by omega)
        have : ((n - 1 : Nat) : Int) * (T - 1) = ((n - 1 : Nat) : Int) * T - ((n - 1 : Nat) : Int) := by
          rw [Int.mul_sub, Int.mul_one]
        omega
      omega
    · have : n - 1 = 0 := by omega
      rw [this] at h2
      have : E - t ≤ 0 := by
        apply Classical.byContradiction; intro hc
        have : 0 < (E - t) * T := Int.mul_pos (by omega) (by omega)
        simp at h2; omega
      omega
  · have hc : calculate .proportional (live l) amt = [] := by
      by_cases ha : 0 < amt
      · rw [held_zero hpos (fun hh => h0 ⟨ha, hh⟩)]; rfl
      · unfold calculate; split
        · rfl
        · simp only [proportional]; rw [if_pos (by omega)]
    rw [hc, total_nil]
    omega

/-- **C36** (partial). It is exact with up to two providers. -/
theorem c36_two_providers_partial (l : List Src) (amt : Int) (h : 0 ≤ amt)
    (h2 : (l.filter (fun s => 0 < s.avail)).length ≤ 2) :
    ((calculate .proportional (live l) amt).map Prod.snd).sum = min amt (l.map (fun s => max 0 s.avail)).sum := by
  have := c36_total_partial l amt h
  simp only at this
  omega

/-- **C36** (partial). It is exact when the debit needs everything. -/
theorem c36_all_partial (l : List Src) (amt : Int) (h : 0 ≤ amt) (hall : (l.map (fun s => max 0 s.avail)).sum ≤ amt) :
    ((calculate .proportional (live l) amt).map Prod.snd).sum = (l.map (fun s => max 0 s.avail)).sum := by
  have hpos := live_pos l
  rw [← live_held] at hall ⊢
  show total _ = _
  by_cases hh : 0 < held (live l)
  · rw [calculate_prop _ _ (by omega) hh, show min amt (held (live l)) = held (live l) by omega]
    exact takeProp_exact _ hh _ hpos
  · rw [held_zero hpos hh]; rfl

/-- **C36** Every provider is used at most once, for a positive amount not above what it
holds. -/
theorem c36_within (l : List Src) (amt : Int) (hn : (l.map Src.provider).Nodup) :
    ((calculate .proportional (live l) amt).map Prod.fst).Nodup ∧
    ∀ p a, (p, a) ∈ calculate .proportional (live l) amt → 0 < a ∧ ∃ s ∈ l, s.provider = p ∧ a ≤ s.avail := by
  unfold calculate
  split
  · simp
  · simp only [proportional]
    split
    · simp
    · split
      · simp
      · refine ⟨(live_nodup hn).sublist (takeProp_sublist _ _ _ _), ?_⟩
        intro p a hm
        obtain ⟨h1, s, hs, h2⟩ := takeProp_mem _ _ _ _ _ _ hm
        exact ⟨h1, s, (live_mem.1 hs).1, h2⟩

example : calculate .proportional (live demoSrcs) 95 = [("C", 25), ("A", 50), ("B", 20)] ∧
    calculate .proportional (live demoSrcs) 500 = [("C", 50), ("A", 100), ("B", 40)] ∧
    calculate .proportional (live [⟨"A", 60, 1⟩, ⟨"B", 59, 2⟩]) 60 = [("A", 30), ("B", 30)] ∧
    calculate .proportional [⟨"A", 1, 1⟩, ⟨"B", 1, 2⟩, ⟨"C", 1, 3⟩] 2 = [("C", 1)] := by decide +kernel

/-! ### C37 -/

/-- What is still to be released, in order. -/
def pendingAllocs (d : Debit) (st : LState) : List Alloc :=
  takeSeq (sortSrc (before d.strategy) (live st.sources)) (d.amount - total st.released)

/-- Lower one provider's holding. -/
def lower (p : String) (a : Int) (s : Src) : Src := if s.provider = p then { s with avail := s.avail - a } else s

theorem lower_other {p : String} {a : Int} : ∀ {l : List Src}, p ∉ l.map Src.provider → l.map (lower p a) = l
  | [], _ => rfl
  | x :: l, h => by
    simp only [List.map_cons, List.mem_cons, not_or] at h
    rw [List.map_cons, lower_other h.2, lower, if_neg (fun e => h.1 e.symm)]

theorem filter_lower {s : Src} {ss : List Src} {a : Int} : ∀ {L : List Src}, (L.map Src.provider).Nodup →
    L.filter (fun s => decide (0 < s.avail)) = s :: ss →
    (L.map (lower s.provider a)).filter (fun s => decide (0 < s.avail)) =
      if 0 < s.avail - a then { s with avail := s.avail - a } :: ss else ss
  | [], _, h => by simp at h
  | x :: L, hn, h => by
    rw [List.map_cons, List.nodup_cons] at hn
    rw [List.filter_cons] at h
    rw [List.map_cons, List.filter_cons]
    by_cases hx : 0 < x.avail
    · rw [if_pos (by simpa using hx)] at h
      injection h with h1 h2
      subst h1
      rw [lower_other hn.1, h2, lower, if_pos rfl]
      by_cases h0 : 0 < x.avail - a
      · rw [if_pos h0, if_pos (by simpa using h0)]
      · rw [if_neg h0, if_neg (by simpa using h0)]
    · rw [if_neg (by simpa using hx)] at h
      have hs : s ∈ L := (List.mem_filter.1 (h ▸ List.mem_cons_self ..)).1
      have hne : x.provider ≠ s.provider := fun e => hn.1 (e ▸ List.mem_map_of_mem hs)
      rw [lower, if_neg hne, if_neg (by simpa using hx)]
      exact filter_lower hn.2 h

theorem lower_created (p a) (s : Src) : (lower p a s).created = s.created := by unfold lower; split <;> rfl
theorem lower_provider (p a) (s : Src) : (lower p a s).provider = s.provider := by unfold lower; split <;> rfl

theorem release_sources (st : LState) (p a) : (st.release false p a).sources = st.sources.map (lower p a) := rfl

/-- The first pending allocation, released, leaves the others pending. -/
theorem pending_release (d : Debit) (st : LState) (hn : (st.sources.map Src.provider).Nodup)
    (p : String) (a : Int) (rest : List Alloc) (h : pendingAllocs d st = (p, a) :: rest) :
    pendingAllocs d (st.release false p a) = rest := by
  have o := before_ordering d.strategy
  unfold pendingAllocs at h ⊢
  rw [release_sources, show (st.release false p a).released = st.released ++ [(p, a)] from rfl, total_append,
    total_cons, total_nil]
  unfold live at h ⊢
  rw [sort_filter o] at h ⊢
  rw [sort_map _ (lower_created p a)]
  have hn' : ((sortSrc (before d.strategy) st.sources).map Src.provider).Nodup :=
    ((sort_perm _ _).map Src.provider).nodup_iff.2 hn
  generalize sortSrc (before d.strategy) st.sources = L at h hn' ⊢
  generalize hr : d.amount - total st.released = r at h
  cases hL : L.filter (fun s => decide (0 < s.avail)) with
  | nil => rw [hL] at h; simp [takeSeq] at h
  | cons s ss =>
    rw [hL] at h
    have hs : 0 < s.avail := by
      have : s ∈ L.filter (fun s => decide (0 < s.avail)) := hL ▸ List.mem_cons_self ..
      simpa using (List.mem_filter.1 this).2
    by_cases h0 : r ≤ 0
    · rw [takeSeq_nonpos _ _ h0] at h; cases h
    · rw [takeSeq_cons hs (by omega)] at h
      injection h with h1 h2
      injection h1 with hp ha
      subst hp
      rw [filter_lower hn' hL]
      simp only [Int.add_zero]
      rw [show d.amount - (total st.released + a) = r - a by omega]
      split
      · rw [takeSeq_nonpos _ _ (by omega)]
        rw [← h2, takeSeq_nonpos _ _ (by omega)]
      · rw [← h2, ha]

theorem pending_nodup (d : Debit) (st : LState) (hn : (st.sources.map Src.provider).Nodup) :
    ((pendingAllocs d st).map Prod.fst).Nodup :=
  (((sort_perm _ _).map Src.provider).nodup_iff.2 (live_nodup hn)).sublist (takeSeq_sublist _ _)

/-- Providers are distinct and none that is still pending has been released. -/
structure Fresh (d : Debit) (st : LState) : Prop where
  nodup : (st.sources.map Src.provider).Nodup
  open_ : ∀ x ∈ pendingAllocs d st, st.hasRelease x.1 = false

theorem hasRelease_release (st : LState) (i p a q) :
    (st.release i p a).hasRelease q = (st.hasRelease q || p == q) := by
  simp [LState.hasRelease, LState.release, List.any_append]

theorem fresh_release {d : Debit} {st : LState} (h : Fresh d st) {p a rest}
    (hp : pendingAllocs d st = (p, a) :: rest) : Fresh d (st.release false p a) := by
  constructor
  · rw [release_sources, List.map_map]
    have : (Src.provider ∘ lower p a) = Src.provider := funext fun s => lower_provider p a s
    rw [this]; exact h.nodup
  · intro x hx
    rw [pending_release d st h.nodup p a rest hp] at hx
    have hn := pending_nodup d st h.nodup
    rw [hp, List.map_cons, List.nodup_cons] at hn
    rw [hasRelease_release, h.open_ x (hp ▸ List.mem_cons_of_mem _ hx), Bool.false_or]
    simp only [beq_eq_false_iff_ne, ne_eq]
    intro e
    exact hn.1 (by rw [show (p, a).1 = x.1 from e]; exact List.mem_map_of_mem (f := Prod.fst) hx)

theorem process_seq (d : Debit) (rec : Bool) : ∀ (allocs : List Alloc) (n : Nat) (st : LState), Fresh d st →
    pendingAllocs d st = allocs →
    let r := process false rec allocs n st
    Fresh d r.1 ∧ r.1.released ++ pendingAllocs d r.1 = st.released ++ allocs ∧ (r.2 = true → pendingAllocs d r.1 = [])
  | [], _, st, h, hp => by
    simp only [process]
    exact ⟨h, by rw [hp], fun _ => hp⟩
  | (p, a) :: rest, n, st, h, hp => by
    have hno := h.open_ (p, a) (hp ▸ List.mem_cons_self ..)
    simp only at hno
    have h1 := fresh_release h hp
    have hp1 := pending_release d st h.nodup p a rest hp
    have keep : ∀ st' : LState, st'.released = st.released ++ [(p, a)] → ∀ X, X = st'.released ++ rest → X = st.released ++ (p, a) :: rest := by
      intro st' e X hX
      rw [hX, e, List.append_assoc]; rfl
    cases n with
    | zero =>
      simp only [process, hno, Bool.false_eq_true, if_false]
      exact ⟨h, by rw [hp], fun e => by cases e⟩
    | succ n =>
      simp only [process, hno, Bool.false_eq_true, if_false]
      cases rec with
      | false =>
        simp only [Bool.false_eq_true, if_false]
        have ih := process_seq d false rest n _ h1 hp1
        exact ⟨ih.1, keep _ rfl _ ih.2.1, ih.2.2⟩
      | true =>
        simp only [if_true]
        cases n with
        | zero =>
          refine ⟨h1, ?_, fun e => by cases e⟩
          rw [hp1]; exact keep _ rfl _ rfl
        | succ n =>
          have h2 : Fresh d ((st.release false p a).receive p a) := ⟨h1.nodup, h1.open_⟩
          have ih := process_seq d true rest n _ h2 hp1
          exact ⟨ih.1, keep _ rfl _ ih.2.1, ih.2.2⟩

theorem attempt_seq (d : Debit) (hst : d.strategy ≠ .proportional) (hi : d.inflight = false) (t : Attempt)
    (st : LState) (h : Fresh d st) :
    let r := attempt d t st
    Fresh d r.1 ∧ r.1.released ++ pendingAllocs d r.1 = st.released ++ pendingAllocs d st ∧
      (r.2 = true → pendingAllocs d r.1 = []) := by
  unfold attempt
  simp only
  split
  · rename_i h0
    exact ⟨h, rfl, fun _ => takeSeq_nonpos _ _ h0⟩
  · rw [hi, calculate_seq hst]
    exact process_seq d _ _ _ st h rfl

theorem attempts_seq (d : Debit) (hst : d.strategy ≠ .proportional) (hi : d.inflight = false) :
    ∀ (ts : List Attempt) (st : LState), Fresh d st → (attempts d ts st).2 = true →
      (attempts d ts st).1.released = st.released ++ pendingAllocs d st
  | [], _, _, h => by simp [attempts] at h
  | t :: ts, st, hf, h => by
    have ha := attempt_seq d hst hi t st hf
    simp only at ha
    unfold attempts at h ⊢
    simp only at h ⊢
    split
    · rename_i hok
      have := ha.2.1
      rw [ha.2.2 hok, List.append_nil] at this
      exact this
    · rename_i hok
      rw [if_neg hok] at h
      rw [attempts_seq d hst hi ts _ ha.1 h, ha.2.1]

/-- A debit nothing has been done for yet. -/
structure Untouched (st : LState) : Prop where
  released : st.released = []
  received : st.received = []
  nodup : (st.sources.map Src.provider).Nodup

theorem Untouched.fresh {st : LState} (h : Untouched st) (d : Debit) : Fresh d st :=
  ⟨h.nodup, fun x _ => by simp [LState.hasRelease, h.released]⟩

/-- **C37 in full**: interrupted anywhere and retried until it succeeds, a debit ends with
the releases of an undisturbed run, and if the destination tracks lineage, with everything
received there that was released. -/
def C37Full (d : Debit) : Prop := ∀ (st : LState) (ts : List Attempt) (u : Attempt), Untouched st → u.prepared = true →
  (attempts d ts st).2 = true → (attempt d u st).2 = true →
  (∀ p, total ((attempts d ts st).1.released.filter (fun x => x.1 == p)) =
        total ((attempt d u st).1.released.filter (fun x => x.1 == p))) ∧
  (d.tracks = true → (attempts d ts st).1.received = (attempts d ts st).1.released)

/-- **C37 is violated** for the proportional strategy. Providers A and B hold 60 each, the
debit is 60. The first run releases 30 of A and stops. The retry spreads the remaining 30
over A's 30 and B's 60: A's share of 10 is skipped because A already has a release, B gives
20, and the run ends well with 50 of 60 released. -/
theorem c37_proportional_fails : ¬ C37Full { amount := 60, strategy := .proportional } := by
  intro h
  have := (h { sources := [⟨"A", 60, 1⟩, ⟨"B", 60, 2⟩] } [⟨1, true⟩, ⟨9, true⟩] ⟨9, true⟩
    ⟨rfl, rfl, by decide +kernel⟩ rfl (by decide +kernel) (by decide +kernel)).1 "B"
  revert this
  decide +kernel

/-- **C37 is violated** for holds, even FIFO. An inflight release does not lower what the
provider is seen to hold: A and B hold 100 each, the debit is 150. After 100 of A are
released the retry allocates the remaining 50 to A again, skips it, and ends well. -/
theorem c37_hold_fails : ¬ C37Full { amount := 150, strategy := .fifo, inflight := true } := by
  intro h
  have := (h { sources := [⟨"A", 100, 1⟩, ⟨"B", 100, 2⟩] } [⟨1, true⟩, ⟨9, true⟩] ⟨9, true⟩
    ⟨rfl, rfl, by decide +kernel⟩ rfl (by decide +kernel) (by decide +kernel)).1 "B"
  revert this
  decide +kernel

/-- **C37 is violated** for the destination: a run that stops between the release and the
receive of a provider leaves that provider's money received nowhere, because the retry sees
the release and skips both. -/
theorem c37_receive_lost : ¬ C37Full { amount := 50, strategy := .fifo, tracks := true } := by
  intro h
  have := (h { sources := [⟨"A", 100, 1⟩] } [⟨1, true⟩, ⟨9, true⟩] ⟨9, true⟩
    ⟨rfl, rfl, by decide +kernel⟩ rfl (by decide +kernel) (by decide +kernel)).2 rfl
  revert this
  decide +kernel

/-- **C37 is violated** without any crash too: when the destination's lineage balances cannot
be prepared the run only logs it and releases everything. -/
theorem c37_unprepared_lost : ¬ C37Full { amount := 40, strategy := .lifo, tracks := true } := by
  intro h
  have := (h { sources := [⟨"A", 100, 1⟩] } [⟨9, false⟩] ⟨9, true⟩
    ⟨rfl, rfl, by decide +kernel⟩ rfl (by decide +kernel) (by decide +kernel)).2 rfl
  revert this
  decide +kernel

/-- **C37** Money that arrives from an already released provider before the retry makes the
retry end well with too little released: FIFO, A and B hold 100 each, debit 150; A's 100 are
released, the run stops, A is credited 50, and the retry allocates the remaining 50 to A. -/
theorem c37_late_credit_fails :
    let d : Debit := { amount := 150, strategy := .fifo }
    let st : LState := { sources := [⟨"A", 100, 1⟩, ⟨"B", 100, 2⟩] }
    let first := attempt d ⟨1, true⟩ st
    let again := attempt d ⟨9, true⟩ (first.1.credit "A" 50)
    first.2 = false ∧ again.2 = true ∧ again.1.released = [("A", 100)] ∧
      (attempt d ⟨9, true⟩ first.1).1.released = [("A", 100), ("B", 50)] := by
  decide +kernel

/-- **C37** (partial). For FIFO and LIFO debits that are not holds, with no other lineage
activity on the same source in between: however often and wherever the debit is interrupted,
once a retry succeeds the releases are those of an undisturbed run. Missing: proportional
debits, holds, late credits (false for all three), and the receives. -/
theorem c37_releases_partial (d : Debit) (hst : d.strategy ≠ .proportional) (hi : d.inflight = false)
    (st : LState) (h0 : Untouched st) (ts : List Attempt) (u : Attempt)
    (hts : (attempts d ts st).2 = true) (hu : (attempt d u st).2 = true) :
    (attempts d ts st).1.released = (attempt d u st).1.released ∧
    (attempts d ts st).1.released = calculate d.strategy (live st.sources) d.amount := by
  have h1 := attempts_seq d hst hi ts st (h0.fresh d) hts
  have h2 := attempt_seq d hst hi u st (h0.fresh d)
  simp only at h2
  have h3 := h2.2.1
  rw [h2.2.2 hu, List.append_nil] at h3
  refine ⟨h1.trans h3.symm, ?_⟩
  rw [h1, calculate_seq hst, h0.released, List.nil_append, pendingAllocs, h0.released, total_nil, Int.sub_zero]

example :
    let d : Debit := { amount := 150, strategy := .lifo, tracks := true }
    let st : LState := { sources := demoSrcs }
    let ts : List Attempt := [⟨0, true⟩, ⟨3, true⟩, ⟨2, true⟩, ⟨9, true⟩]
    (attempts d ts st).2 = true ∧ (attempt d ⟨9, true⟩ st).2 = true ∧
    (attempts d ts st).1.released = [("C", 50), ("B", 40), ("A", 60)] ∧
    (attempts d ts st).1.received = [("C", 50), ("A", 60)] := by decide +kernel

/-! Facts for every strategy, holds included. -/

theorem process_general (i rec : Bool) : ∀ (allocs : List Alloc) (n : Nat) (st : LState),
    (∀ x ∈ allocs, 0 < x.2) → (st.released.map Prod.fst).Nodup → st.received.Sublist st.released →
    let r := process i rec allocs n st
    (r.1.released.map Prod.fst).Nodup ∧ r.1.received.Sublist r.1.released ∧
    total r.1.released ≤ total st.released + total allocs
  | [], _, _, _, hn, hs => by simp only [process, total_nil]; exact ⟨hn, hs, by omega⟩
  | (p, a) :: rest, n, st, hp, hn, hs => by
    have ha := hp (p, a) (List.mem_cons_self ..)
    have hr := fun x hx => hp x (List.mem_cons_of_mem (p, a) hx)
    have hrest : 0 ≤ total rest := by
      clear hp ha
      induction rest with
      | nil => simp [total]
      | cons x l ih =>
        have := hr x (List.mem_cons_self ..)
        have := ih (fun y hy => hr y (List.mem_cons_of_mem _ hy))
        rw [total_cons]; omega
    simp only at ha
    rw [total_cons]
    by_cases hrel : st.hasRelease p = true
    · unfold process
      simp only [hrel, if_true]
      have ih := process_general i rec rest n st hr hn hs
      exact ⟨ih.1, ih.2.1, by have := ih.2.2; omega⟩
    · have hno : p ∉ st.released.map Prod.fst := by
        intro hm
        obtain ⟨x, hx, e⟩ := List.mem_map.1 hm
        exact hrel (by unfold LState.hasRelease; rw [List.any_eq_true]; exact ⟨x, hx, by simp [e]⟩)
      have e1 : (st.release i p a).released = st.released ++ [(p, a)] := rfl
      have hn1 : (((st.release i p a).released).map Prod.fst).Nodup := by
        rw [e1, List.map_append]
        refine List.nodup_append.2 ⟨hn, by simp, ?_⟩
        intro x hx y hy e
        simp only [List.map_cons, List.map_nil, List.mem_singleton] at hy
        exact hno (hy ▸ e ▸ hx)
      have ht1 : total (st.release i p a).released = total st.released + a := by
        rw [e1, total_append, total_cons, total_nil]; simp only; omega
      have hs1 : (st.release i p a).received.Sublist (st.release i p a).released :=
        hs.trans (by rw [e1]; exact List.sublist_append_left ..)
      unfold process
      simp only [hrel, Bool.false_eq_true, if_false]
      cases n with
      | zero => exact ⟨hn, hs, by simp only; omega⟩
      | succ n =>
        simp only
        cases rec with
        | false =>
          simp only [Bool.false_eq_true, if_false]
          have ih := process_general i false rest n _ hr hn1 hs1
          exact ⟨ih.1, ih.2.1, by have := ih.2.2; omega⟩
        | true =>
          simp only [if_true]
          cases n with
          | zero => exact ⟨hn1, hs1, by simp only; omega⟩
          | succ n =>
            have hs2 : ((st.release i p a).receive p a).received.Sublist ((st.release i p a).receive p a).released := by
              show (st.received ++ [(p, a)]).Sublist (st.released ++ [(p, a)])
              exact hs.append (.refl _)
            have ih := process_general i true rest n ((st.release i p a).receive p a) hr hn1 hs2
            have e : ((st.release i p a).receive p a).released = (st.release i p a).released := rfl
            rw [e] at ih
            refine ⟨ih.1, ih.2.1, ?_⟩
            have := ih.2.2
            show total (process i true rest n ((st.release i p a).receive p a)).1.released ≤ _
            omega

theorem calculate_pos (st : Strategy) (l : List Src) (amt : Int) : ∀ x ∈ calculate st (live l) amt, 0 < x.2 := by
  intro x hx
  cases st with
  | proportional =>
    unfold calculate at hx
    split at hx
    · simp at hx
    · simp only [proportional] at hx
      split at hx
      · simp at hx
      · split at hx
        · simp at hx
        · exact (takeProp_mem _ _ _ _ x.1 x.2 hx).1
  | fifo => rw [calculate_seq (by decide)] at hx; exact (takeSeq_mem _ _ x.1 x.2 (sort_live_pos _ l) hx).1
  | lifo => rw [calculate_seq (by decide)] at hx; exact (takeSeq_mem _ _ x.1 x.2 (sort_live_pos _ l) hx).1

theorem calculate_le (st : Strategy) (l : List Src) (amt : Int) (h : 0 ≤ amt) :
    total (calculate st (live l) amt) ≤ amt := by
  by_cases hst : st = .proportional
  · subst hst
    have := c36_total_partial l amt h
    simp only at this
    have := this.1
    unfold total
    omega
  · have := c35_total st hst l amt h
    unfold total
    omega

theorem attempt_general (d : Debit) (t : Attempt) (st : LState) (hn : (st.released.map Prod.fst).Nodup)
    (hs : st.received.Sublist st.released) (ht : total st.released ≤ max 0 d.amount) :
    let r := attempt d t st
    (r.1.released.map Prod.fst).Nodup ∧ r.1.received.Sublist r.1.released ∧ total r.1.released ≤ max 0 d.amount := by
  unfold attempt
  simp only
  split
  · exact ⟨hn, hs, ht⟩
  · have h := process_general d.inflight (d.tracks && t.prepared)
      (calculate d.strategy (live st.sources) (d.amount - total st.released)) t.writes st (calculate_pos _ _ _) hn hs
    have := calculate_le d.strategy st.sources (d.amount - total st.released) (by omega)
    exact ⟨h.1, h.2.1, by have := h.2.2; omega⟩

theorem attempts_general (d : Debit) : ∀ (ts : List Attempt) (st : LState), (st.released.map Prod.fst).Nodup →
    st.received.Sublist st.released → total st.released ≤ max 0 d.amount →
    let r := attempts d ts st
    (r.1.released.map Prod.fst).Nodup ∧ r.1.received.Sublist r.1.released ∧ total r.1.released ≤ max 0 d.amount
  | [], _, hn, hs, ht => ⟨hn, hs, ht⟩
  | t :: ts, st, hn, hs, ht => by
    have h := attempt_general d t st hn hs ht
    simp only at h
    unfold attempts
    simp only
    split
    · exact h
    · exact attempts_general d ts _ h.1 h.2.1 h.2.2

/-- **C37** (partial). For every strategy, hold or not, and at every point of every history of
interruptions: no provider is released twice, no more than the debit is released in total,
and what the destination received was released, provider by provider, in the same amounts. -/
theorem c37_never_too_much_partial (d : Debit) (st : LState) (h0 : Untouched st) (ts : List Attempt) :
    let r := (attempts d ts st).1
    (r.released.map Prod.fst).Nodup ∧ r.received.Sublist r.released ∧ (r.released.map Prod.snd).sum ≤ max 0 d.amount :=
  attempts_general d ts st (by simp [h0.released]) (by rw [h0.received]; exact List.nil_sublist _)
    (by rw [h0.released, total_nil]; omega)

theorem process_received (i : Bool) : ∀ (allocs : List Alloc) (n : Nat) (st : LState), n % 2 = 0 →
    st.received = st.released → (process i true allocs n st).1.received = (process i true allocs n st).1.released
  | [], _, _, _, h => h
  | (p, a) :: rest, n, st, hn, h => by
    unfold process
    split
    · exact process_received i rest n st hn h
    · match n with
      | 0 => exact h
      | 1 => omega
      | n + 2 =>
        simp only [if_true]
        apply process_received i rest n _ (by omega)
        show st.received ++ _ = st.released ++ _
        rw [h]

/-- **C37** (partial). If every attempt could prepare the destination's balances and none was
interrupted between the two rows of one provider, the destination receives exactly what was
released. -/
theorem c37_receives_partial (d : Debit) (ht : d.tracks = true) : ∀ (ts : List Attempt) (st : LState),
    st.received = st.released → (∀ t ∈ ts, t.prepared = true ∧ t.writes % 2 = 0) →
    (attempts d ts st).1.received = (attempts d ts st).1.released
  | [], _, h, _ => h
  | t :: ts, st, h, hg => by
    have hb := hg t (List.mem_cons_self ..)
    have h1 : (attempt d t st).1.received = (attempt d t st).1.released := by
      unfold attempt
      simp only
      split
      · exact h
      · rw [ht, hb.1]; exact process_received _ _ _ _ hb.2 h
    unfold attempts
    simp only
    split
    · exact h1
    · exact c37_receives_partial d ht ts _ h1 (fun x hx => hg x (List.mem_cons_of_mem _ hx))

example :
    let d : Debit := { amount := 150, strategy := .proportional, tracks := true, inflight := true }
    let r := attempts d [⟨2, true⟩, ⟨0, true⟩, ⟨8, true⟩] { sources := demoSrcs }
    r.2 = true ∧ r.1.received = r.1.released ∧ r.1.released.length = 3 := by decide +kernel

/-! ### C38 -/

/-- The entry can still be worked on: it has not reached a final state and has attempts left. -/
def Entry.Open (e : Entry) : Prop :=
  (e.status = .pending ∨ e.status = .processing) → e.attempts < e.maxAttempts

theorem ostep_open {s : OSys} (h : s.entry.Open) (ev : OEv) : (ostep s ev).entry.Open := by
  cases ev with
  | tick n => exact h
  | claim dur =>
    unfold ostep; simp only
    split
    · rename_i hc
      simp only [Entry.claimable, Bool.and_eq_true, decide_eq_true_eq] at hc
      intro _; exact hc.2
    · exact h
  | complete =>
    unfold ostep; simp only
    split
    · intro hp; simp [Entry.complete] at hp
    · exact h
  | fail =>
    unfold ostep; simp only
    split
    · intro hp
      simp only [Entry.fail] at hp ⊢
      split at hp
      · simp at hp
      · omega
    · exact h
  | crash =>
    unfold ostep; simp only
    split <;> exact h

theorem osteps_open : ∀ (evs : List OEv) {s : OSys}, s.entry.Open → (osteps s evs).entry.Open
  | [], _, h => h
  | e :: es, _, h => osteps_open es (ostep_open h e)

/-- A freshly stored work item (`lineage_outbox.go:96-106`). -/
def newEntry (max : Nat) : OSys := { entry := { maxAttempts := max } }

theorem newEntry_open (max : Nat) (h : 0 < max) : (newEntry max).entry.Open := fun _ => h

/-- **C38** (partial). No work item is ever stuck: whatever happened — crashes, lost answers,
overlapping workers — it is completed, or failed, or a poll from some time on claims it. -/
theorem c38_never_stuck_partial (max : Nat) (hm : 0 < max) (evs : List OEv) :
    let s := osteps (newEntry max) evs
    s.entry.status = .completed ∨ s.entry.status = .failed ∨
    ∃ t, ∀ now, t < now → s.entry.claimable now = true := by
  intro s
  have h : s.entry.Open := osteps_open evs (newEntry_open max hm)
  unfold Entry.Open at h
  have key : (s.entry.status = .pending ∨ s.entry.status = .processing) →
      ∃ t, ∀ now, t < now → s.entry.claimable now = true := by
    intro hp
    refine ⟨s.entry.lockedUntil.getD 0, fun now hnow => ?_⟩
    have h1 := h hp
    unfold Entry.claimable
    cases hl : s.entry.lockedUntil with
    | none => simp only [Bool.and_true, Bool.and_eq_true, Bool.or_eq_true, decide_eq_true_eq]; exact ⟨hp, h1⟩
    | some t =>
      rw [hl] at hnow
      simp only [Bool.and_eq_true, Bool.or_eq_true, decide_eq_true_eq]
      exact ⟨⟨hp, hnow⟩, h1⟩
  cases hs : s.entry.status with
  | pending => exact .inr (.inr (key (.inl hs)))
  | processing => exact .inr (.inr (key (.inr hs)))
  | completed => exact .inl rfl
  | failed => exact .inr (.inl rfl)

/-- No two workers hold the item at once: every claim happens when nobody holds it (the lock
outlives the work). -/
def Exclusive : OSys → List OEv → Prop
  | _, [] => True
  | s, e :: es => (∀ dur, e = .claim dur → s.entry.claimable s.now = true → s.working = 0) ∧ Exclusive (ostep s e) es

/-- Accounting of one item under exclusive claims. -/
structure OInv (s : OSys) : Prop where
  one : s.working ≤ 1
  busy : s.working = 1 → s.entry.status = .processing
  attempts : s.entry.attempts ≤ s.entry.maxAttempts
  failed : s.entry.status = .failed → s.entry.attempts = s.entry.maxAttempts
  openE : s.entry.Open
  count : s.claims = s.entry.attempts + s.lost + s.working + (if s.entry.status = .completed then 1 else 0)
  room : s.entry.status = .completed → s.entry.attempts < s.entry.maxAttempts

theorem ostep_inv {s : OSys} (h : OInv s) (ev : OEv)
    (hx : ∀ dur, ev = .claim dur → s.entry.claimable s.now = true → s.working = 0) : OInv (ostep s ev) := by
  have ho := ostep_open h.openE ev
  obtain ⟨h1, h2, h3, h4, h5, h6, h7⟩ := h
  cases ev with
  | tick n => exact ⟨h1, h2, h3, h4, h5, h6, h7⟩
  | claim dur =>
    unfold ostep at ho ⊢; simp only at ho ⊢
    split
    · rename_i hc
      have hw := hx dur rfl hc
      have hc' := hc
      simp only [Entry.claimable, Bool.and_eq_true, decide_eq_true_eq, Bool.or_eq_true] at hc'
      have hnc : s.entry.status ≠ .completed := by
        rcases hc'.1.1 with e | e <;> rw [e] <;> decide
      rw [if_pos hc] at ho
      refine ⟨by simp only; omega, fun _ => rfl, h3, ?_, ho, ?_, ?_⟩
      · intro e; simp [Entry.claim] at e
      · simp only [Entry.claim]; rw [if_neg hnc] at h6; simp; omega
      · intro e; simp [Entry.claim] at e
    · exact ⟨h1, h2, h3, h4, h5, h6, h7⟩
  | complete =>
    unfold ostep at ho ⊢; simp only at ho ⊢
    split
    · rename_i hw
      rw [if_pos hw] at ho
      have hp := h2 (by omega)
      have hlt := h5 (.inr hp)
      refine ⟨by simp only; omega, fun e => by simp only at e; omega, h3, fun e => by simp [Entry.complete] at e, ho, ?_, fun _ => hlt⟩
      simp only [Entry.complete, if_true]
      rw [hp] at h6; simp at h6; omega
    · exact ⟨h1, h2, h3, h4, h5, h6, h7⟩
  | fail =>
    unfold ostep at ho ⊢; simp only at ho ⊢
    split
    · rename_i hw
      rw [if_pos hw] at ho
      have hp := h2 (by omega)
      have hlt := h5 (.inr hp)
      rw [hp] at h6; simp at h6
      refine ⟨by simp only; omega, fun e => by simp only at e; omega, by simp only [Entry.fail]; omega, ?_, ho, ?_, ?_⟩
      · intro e; simp only [Entry.fail] at e ⊢
        split at e
        · omega
        · cases e
      · have hne : s.entry.fail.status ≠ .completed := by simp only [Entry.fail]; split <;> decide
        rw [if_neg hne]
        show s.claims = s.entry.attempts + 1 + s.lost + (s.working - 1) + 0
        omega
      · intro e; simp only [Entry.fail] at e; split at e <;> cases e
    · exact ⟨h1, h2, h3, h4, h5, h6, h7⟩
  | crash =>
    unfold ostep at ho ⊢; simp only at ho ⊢
    split
    · exact ⟨by simp only; omega, fun e => by simp only at e; omega, h3, h4, h5, by simp only; omega, h7⟩
    · exact ⟨h1, h2, h3, h4, h5, h6, h7⟩

theorem osteps_inv : ∀ (evs : List OEv) {s : OSys}, OInv s → Exclusive s evs → OInv (osteps s evs)
  | [], _, h, _ => h
  | e :: es, _, h, hx => osteps_inv es (ostep_inv h e hx.1) hx.2

theorem newEntry_inv (max : Nat) (hm : 0 < max) : OInv (newEntry max) :=
  ⟨Nat.zero_le _, fun h => by simp [newEntry] at h, Nat.zero_le _, fun h => by simp [newEntry] at h, newEntry_open max hm, rfl,
    fun h => by simp [newEntry] at h⟩

/-- **C38** (partial). When no two workers hold the item at once it is claimed at most its
maximum number of attempts plus once for every claim whose answer was lost, and it is marked
failed only after exactly its maximum number of failed attempts. -/
theorem c38_bounded_attempts_partial (max : Nat) (hm : 0 < max) (evs : List OEv) (hx : Exclusive (newEntry max) evs) :
    let s := osteps (newEntry max) evs
    s.claims ≤ max + s.lost ∧ (s.entry.status = .failed → s.entry.attempts = max) := by
  intro s
  have h : OInv s := osteps_inv evs (newEntry_inv max hm) hx
  have hmax : s.entry.maxAttempts = max := by
    suffices ∀ (evs : List OEv) (s : OSys), (osteps s evs).entry.maxAttempts = s.entry.maxAttempts from this evs _
    intro evs
    induction evs with
    | nil => intro s; rfl
    | cons e es ih =>
      intro s
      rw [osteps, ih]
      cases e <;> simp only [ostep] <;> (try split) <;> rfl
  obtain ⟨h1, h2, h3, h4, h5, h6, h7⟩ := h
  refine ⟨?_, fun e => hmax ▸ h4 e⟩
  rw [hmax] at h3 h7
  unfold Entry.Open at h5
  rw [hmax] at h5
  by_cases hc : s.entry.status = .completed
  · have := h7 hc
    rw [if_pos hc] at h6
    have : s.working = 0 := by
      apply Classical.byContradiction; intro hw
      have := h2 (by omega)
      rw [hc] at this; cases this
    omega
  · rw [if_neg hc] at h6
    by_cases hw : s.working = 1
    · have := h5 (.inr (h2 hw)); omega
    · omega

/-- **C38** (partial). When no two workers hold the item at once, a final state is final. -/
theorem c38_terminal_partial (max : Nat) (hm : 0 < max) (evs more : List OEv)
    (hx : Exclusive (newEntry max) (evs ++ more))
    (ht : (osteps (newEntry max) evs).entry.status = .completed ∨ (osteps (newEntry max) evs).entry.status = .failed) :
    (osteps (newEntry max) (evs ++ more)).entry = (osteps (newEntry max) evs).entry := by
  have app : ∀ (a b : List OEv) (s : OSys), osteps s (a ++ b) = osteps (osteps s a) b := by
    intro a; induction a with
    | nil => intro b s; rfl
    | cons e es ih => intro b s; exact ih b _
  have exA : ∀ (a b : List OEv) (s : OSys), Exclusive s (a ++ b) → Exclusive s a ∧ Exclusive (osteps s a) b := by
    intro a; induction a with
    | nil => intro b s h; exact ⟨trivial, h⟩
    | cons e es ih => intro b s h; exact ⟨⟨h.1, (ih b _ h.2).1⟩, (ih b _ h.2).2⟩
  obtain ⟨hx1, hx2⟩ := exA evs more _ hx
  have hinv := osteps_inv evs (newEntry_inv max hm) hx1
  rw [app]
  generalize osteps (newEntry max) evs = s at ht hinv hx2
  clear hx hx1 app exA evs
  have hw : s.working = 0 := by
    apply Classical.byContradiction; intro h
    have := hinv.busy (by have := hinv.one; omega)
    rw [this] at ht; simp at ht
  clear hinv hx2
  suffices ∀ (more : List OEv) (s' : OSys), s'.working = 0 →
      (s'.entry.status = .completed ∨ s'.entry.status = .failed) → (osteps s' more).entry = s'.entry from this more s hw ht
  intro more
  induction more with
  | nil => intros; rfl
  | cons e es ih =>
    intro s' hw' ht'
    have hstep : (ostep s' e).entry = s'.entry ∧ (ostep s' e).working = 0 := by
      have hnc : s'.entry.claimable s'.now = false := by
        unfold Entry.claimable
        rcases ht' with h | h <;> simp [h]
      cases e <;> simp [ostep, hw', hnc]
    rw [osteps, ih _ hstep.2 (hstep.1 ▸ ht'), hstep.1]

/-- **C38 in full**: a final state is never left, whoever holds the item. -/
def C38Full : Prop := ∀ (max : Nat) (evs : List OEv) (e : OEv), 0 < max →
  ((osteps (newEntry max) evs).entry.status = .completed ∨ (osteps (newEntry max) evs).entry.status = .failed) →
  (ostep (osteps (newEntry max) evs) e).entry.status = (osteps (newEntry max) evs).entry.status

/-- **C38 is violated**: the marking statements do not look at the status. A slow worker's
lock expires, a second worker claims and completes the item, then the first reports its
error: the completed item is pending again and its work is redone. -/
theorem c38_full_fails : ¬ C38Full := by
  intro h
  have := h 5 [.claim 10, .tick 11, .claim 10, .complete] .fail (by decide) (by decide +kernel)
  revert this
  decide +kernel

example : Exclusive (newEntry 2) [.claim 3, .crash, .tick 4, .claim 3, .fail, .claim 3, .fail] ∧
    (osteps (newEntry 2) [.claim 3, .crash, .tick 4, .claim 3, .fail, .claim 3, .fail]).entry.status = .failed ∧
    (osteps (newEntry 2) [.claim 3, .crash, .tick 4, .claim 3, .fail, .claim 3, .fail]).claims = 3 := by
  refine ⟨?_, by decide +kernel, by decide +kernel⟩
  simp [Exclusive, newEntry, ostep, Entry.claim, Entry.claimable, Entry.fail]

end Blnk.Lineage
