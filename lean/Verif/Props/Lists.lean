import Verif.Model.Lists
import Verif.Props.Paging
/-
C158-C162: paging through lists, page sizes, counts, empty lists and order.
-/
namespace Blnk.Lists
open Paging (page)

variable {R : Type}

/-! ### Specification -/

/-- A client that reads a whole list: it asks for `L` rows from `k * L` on, for `k = 0, 1, …`, and stops at
the first page with fewer than `L` rows. `ask k offset p`: the `k`-th request may be answered with `p`. -/
inductive Browse (ask : Nat → Nat → List R → Prop) (L : Nat) : Nat → List R → Prop
  | last {k p} : ask k (k * L) p → p.length < L → Browse ask L k p
  | next {k p rest} : ask k (k * L) p → L ≤ p.length → Browse ask L (k + 1) rest → Browse ask L k (p ++ rest)

/-- What the client asks over rows that change from request to request. -/
def asks (key : String → R → Int) (t : Table) (req : Req) (L : Nat) (rows : Nat → List R) : Nat → Nat → List R → Prop :=
  fun k offset p => Asked key t req (rows k) L offset p

/-- The page sizes that are honoured. -/
def Within : Table → Req → Nat → Prop
  | .transactions, .get false _ _, _ | .balances, .get false _ _, _ => True
  | .transactions, .get true _ _, L | .balances, .get true _ _, L => L ≤ 1000
  | .identities, .get false _ _, _ | .accounts, .get false _ _, _ => False
  | _, _, L => L ≤ 100

/-- The wanted order of two rows. -/
def before (key : String → R → Int) (o : Order) (a b : R) : Prop :=
  if o.asc then key o.column a ≤ key o.column b else key o.column b ≤ key o.column a

/-- No two rows agree in the column. -/
def Distinct (key : String → R → Int) (c : String) (rows : List R) : Prop := rows.Pairwise (fun a b => key c a ≠ key c b)

/-! ### Windows -/

theorem window_iff (t : Table) (req : Req) {L : Nat} (hL : 0 < L) (off : Nat) :
    window t req L off = some ⟨some L, off⟩ ↔ Within t req L := by
  rcases req with ⟨f, a, b⟩ | ⟨a, b⟩
  · cases f <;> cases t <;>
      simp [window, getWindow, Within, lenientLimit, lenientOffset, strictLimit, strictOffset, capped] <;>
      (repeat' split) <;> simp_all <;> omega
  · cases t <;> simp [window, bodyWindow, Within, capped] <;> (repeat' split) <;> simp_all <;> omega

/-! ### Sorted lists -/

theorem distinct_ne {key : String → R → Int} {c : String} {l : List R} (hd : Distinct key c l) {a b : R} (ha : a ∈ l) (hb : b ∈ l)
    (hne : a ≠ b) : key c a ≠ key c b := by
  induction l with
  | nil => simp at ha
  | cons x l ih =>
    have hx := List.pairwise_cons.1 hd
    rcases List.mem_cons.1 ha with rfl | ha' <;> rcases List.mem_cons.1 hb with rfl | hb'
    · exact absurd rfl hne
    · exact hx.1 _ hb'
    · exact (hx.1 _ ha').symm
    · exact ih hx.2 ha' hb'

theorem sorted_unique {key : String → R → Int} {o : Order} {l l' : List R} (hd : Distinct key o.column l)
    (h : l.Pairwise (before key o)) (h' : l'.Pairwise (before key o)) (p : l.Perm l') : l = l' := by
  refine List.Perm.eq_of_pairwise (le := before key o) ?_ h h' p
  intro a b ha hb hab hba
  have e : key o.column a = key o.column b := by
    unfold before at hab hba; split at hab <;> simp_all <;> omega
  have hb' : b ∈ l := p.symm.subset hb
  by_cases hne : a = b
  · exact hne
  · exact absurd e (distinct_ne hd ha hb' hne)

theorem Distinct.perm {key : String → R → Int} {c : String} {l l' : List R} (h : Distinct key c l) (p : l.Perm l') :
    Distinct key c l' :=
  List.Pairwise.perm h p (fun h => Ne.symm h)

/-- The rows in order. -/
def sorted (key : String → R → Int) (o : Order) (rows : List R) : List R :=
  rows.mergeSort (fun a b => if o.asc then decide (key o.column a ≤ key o.column b) else decide (key o.column b ≤ key o.column a))

theorem sorted_perm (key : String → R → Int) (o : Order) (rows : List R) : (sorted key o rows).Perm rows := List.mergeSort_perm ..

theorem sorted_before (key : String → R → Int) (o : Order) (rows : List R) : (sorted key o rows).Pairwise (before key o) := by
  have := List.pairwise_mergeSort (le := fun a b => if o.asc then decide (key o.column a ≤ key o.column b) else decide (key o.column b ≤ key o.column a))
    (by intro a b c; cases o.asc <;> simp <;> omega) (by intro a b; cases o.asc <;> simp <;> omega) rows
  refine this.imp ?_
  intro a b h
  unfold before
  cases ha : o.asc <;> simp_all

theorem asked_page {key : String → R → Int} {t : Table} {req : Req} {rows : List R} {L : Nat} (hL : 0 < L) (hw : Within t req L)
    (hd : Distinct key (order t req).column rows) {off : Nat} {p : List R} (h : Asked key t req rows L off p) :
    p = page (sorted key (order t req) rows) L off := by
  obtain ⟨w, hw', -, l, hp, hs, rfl⟩ := h
  rw [(window_iff t req hL off).2 hw] at hw'
  cases hw'
  have : l = sorted key (order t req) rows :=
    sorted_unique (hd.perm hp.symm) hs (sorted_before ..) (hp.trans (sorted_perm ..).symm)
  subst this
  rfl

theorem page_asked {key : String → R → Int} {t : Table} {req : Req} {rows : List R} {L : Nat} (hL : 0 < L) (hw : Within t req L)
    (hc : hasColumn t (order t req).column) (off : Nat) :
    Asked key t req rows L off (page (sorted key (order t req) rows) L off) :=
  ⟨_, (window_iff t req hL off).2 hw, hc, _, sorted_perm .., sorted_before .., rfl⟩

/-! ### C158 -/

/-- C158 in full: over rows that do not change, the pages together are the rows, each once. -/
def C158Full : Prop := ∀ (R : Type) (key : String → R → Int) (t : Table) (req : Req) (rows : List R) (L : Nat) (out : List R),
  0 < L → Browse (asks key t req L (fun _ => rows)) L 0 out → out.Perm rows

/-- Two balances of the same moment, read one at a time: one is shown twice and the other never. -/
theorem c158_ties : ¬ C158Full := by
  intro h
  have a0 : asks (fun _ (_ : Nat) => (0 : Int)) .balances (.get false) 1 (fun _ => [1, 2]) 0 (0 * 1) [1] :=
    ⟨⟨some 1, 0⟩, by decide +kernel, by decide +kernel, [1, 2], .refl _, by simp [order, getOrder], rfl⟩
  have a1 : asks (fun _ (_ : Nat) => (0 : Int)) .balances (.get false) 1 (fun _ => [1, 2]) 1 (1 * 1) [1] :=
    ⟨⟨some 1, 1⟩, by decide +kernel, by decide +kernel, [2, 1], by decide +kernel, by simp [order, getOrder], rfl⟩
  have a2 : asks (fun _ (_ : Nat) => (0 : Int)) .balances (.get false) 1 (fun _ => [1, 2]) 2 (2 * 1) [] :=
    ⟨⟨some 1, 2⟩, by decide +kernel, by decide +kernel, [1, 2], .refl _, by simp [order, getOrder], rfl⟩
  have := h Nat _ .balances (.get false) [1, 2] 1 [1, 1] (by decide)
    (.next (p := [1]) a0 (by decide) (.next (p := [1]) a1 (by decide) (.last a2 (by decide))))
  revert this
  decide +kernel

/-- The rows 0, …, n - 1, the newest first. -/
def countdown (n : Nat) : List Nat := (List.range n).reverse

/-- Thirty ledgers, read two hundred at a time: twenty are shown and the client stops. -/
theorem c158_capped : ∃ (out : List Nat), Browse (asks (fun _ (r : Nat) => (r : Int)) .ledgers (.get false) 200 (fun _ => countdown 30)) 200 0 out ∧
    ¬ out.Perm (countdown 30) := by
  refine ⟨page (countdown 30) 20 0, .last ⟨⟨some 20, 0⟩, by decide +kernel, by decide +kernel, countdown 30, .refl _, ?_, rfl⟩ (by decide +kernel), by decide +kernel⟩
  decide +kernel

/-- Identities without filters are listed whole, whatever is asked: with at least `L` of them the client
never comes to an end. -/
theorem c158_endless (key : String → R → Int) (t : Table) (ht : t = .identities ∨ t = .accounts) (rows : List R) (L : Nat)
    (h : L ≤ rows.length) (k : Nat) (out : List R) : ¬ Browse (asks key t (.get false) L (fun _ => rows)) L k out := by
  have whole : ∀ {off p}, Asked key t (.get false) rows L off p → p.length = rows.length := by
    rintro off p ⟨w, hw, -, l, hp, -, rfl⟩
    have : w = ⟨none, 0⟩ := by rcases ht with rfl | rfl <;> simp [window, getWindow] at hw <;> exact hw.symm
    subst this
    simpa [cut] using hp.length_eq
  intro hb
  induction hb with
  | last ha hl => have := whole ha; omega
  | next _ _ _ ih => exact ih

example : ∀ out, ¬ Browse (asks (fun _ (r : Nat) => (r : Int)) .identities (.get false) 2 (fun _ => [3, 2, 1])) 2 0 out :=
  fun out => c158_endless _ _ (.inl rfl) _ _ (by decide) 0 out

theorem browse_fixed {ask : Nat → Nat → List R → Prop} {L : Nat} {l : List R} (hask : ∀ {k off p}, ask k off p → p = page l L off)
    {k : Nat} {out : List R} (h : Browse ask L k out) : out = l.drop (k * L) := by
  induction h with
  | @last k p ha hl =>
    have e := hask ha
    subst e
    unfold page at hl ⊢
    rw [List.length_take, List.length_drop] at hl
    exact List.take_of_length_le (by simp; omega)
  | @next k p rest ha hl _ ih =>
    have e := hask ha
    have hp := Paging.page_drop l L (k * L)
    have hle : (page l L (k * L)).length ≤ L := by unfold page; exact List.length_take_le ..
    rw [← e] at hp hle
    have : p.length = L := by omega
    rw [this] at hp
    rw [ih, Nat.succ_mul, hp]

/-- C158, partially: when the page size is one that is honoured and no two rows agree in the column
sorted by, the pages over rows that do not change are all the rows, each once and in order. -/
theorem c158_at_rest_partial {key : String → R → Int} {t : Table} {req : Req} {rows : List R} {L : Nat} {out : List R} (hL : 0 < L)
    (hw : Within t req L) (hd : Distinct key (order t req).column rows)
    (h : Browse (asks key t req L (fun _ => rows)) L 0 out) :
    out.Perm rows ∧ out.Pairwise (before key (order t req)) := by
  have := browse_fixed (l := sorted key (order t req) rows) (fun ha => asked_page hL hw hd ha) h
  simp only [Nat.zero_mul, List.drop_zero] at this
  subst this
  exact ⟨sorted_perm .., sorted_before ..⟩

/-- And the client does come to an end. -/
theorem c158_ends {key : String → R → Int} {t : Table} {req : Req} {rows : List R} {L : Nat} (hL : 0 < L) (hw : Within t req L)
    (hc : hasColumn t (order t req).column) : ∃ out, Browse (asks key t req L (fun _ => rows)) L 0 out := by
  have go : ∀ n k, rows.length - k * L ≤ n → ∃ out, Browse (asks key t req L (fun _ => rows)) L k out := by
    intro n
    induction n with
    | zero =>
      intro k hk
      refine ⟨_, .last (page_asked hL hw hc (k * L)) ?_⟩
      unfold page
      rw [List.length_take, List.length_drop, (sorted_perm ..).length_eq]
      dsimp only
      omega
    | succ n ih =>
      intro k hk
      by_cases hs : (page (sorted key (order t req) rows) L (k * L)).length < L
      · exact ⟨_, .last (page_asked hL hw hc (k * L)) hs⟩
      · obtain ⟨out, ho⟩ := ih (k + 1) (by rw [Nat.succ_mul]; omega)
        exact ⟨_, .next (page_asked hL hw hc (k * L)) (Nat.le_of_not_lt hs) ho⟩
  exact go _ 0 (Nat.le_refl _)

example : ∃ out, Browse (asks (fun _ (r : Nat) => (r : Int)) .ledgers (.post "name" "asc") 2 (fun _ => [3, 1, 2])) 2 0 out ∧ out = [1, 2, 3] := by
  have hcol : order .ledgers (.post "name" "asc") = ⟨"name", true⟩ := by decide +kernel
  obtain ⟨out, h⟩ := c158_ends (key := fun _ (r : Nat) => (r : Int)) (t := .ledgers) (req := .post "name" "asc") (rows := [3, 1, 2]) (L := 2)
    (by decide) (by simp [Within]) (by decide +kernel)
  refine ⟨out, h, ?_⟩
  have := c158_at_rest_partial (by decide) (by simp [Within]) (by unfold Distinct; decide +kernel) h
  refine List.Perm.eq_of_pairwise (le := before (fun _ (r : Nat) => (r : Int)) (order .ledgers (.post "name" "asc"))) ?_ this.2 ?_ (this.1.trans (by decide +kernel))
  · intro a b _ _ h1 h2
    simp only [before, hcol, if_true] at h1 h2
    omega
  · simp [before, hcol]

/-- Later rows are newer rows: nothing is taken away and what is added compares greater in the column. -/
structure Growing (key : String → R → Int) (c : String) (rows : Nat → List R) : Prop where
  distinct : ∀ k, Distinct key c (rows k)
  grow : ∀ k, ∃ fresh, (rows (k + 1)).Perm (fresh ++ rows k) ∧ ∀ a ∈ fresh, ∀ b ∈ rows k, key c b < key c a

theorem growing_desc {key : String → R → Int} {o : Order} {rows : Nat → List R} (g : Growing key o.column rows) (ho : o.asc = false)
    (k : Nat) : ∃ pre, sorted key o (rows (k + 1)) = pre ++ sorted key o (rows k) := by
  obtain ⟨fresh, hp, hf⟩ := g.grow k
  refine ⟨sorted key o fresh, sorted_unique ((g.distinct (k + 1)).perm (sorted_perm ..).symm) (sorted_before ..) ?_ ?_⟩
  · refine List.pairwise_append.2 ⟨sorted_before .., sorted_before .., ?_⟩
    intro a ha b hb
    have := hf a ((sorted_perm ..).subset ha) b ((sorted_perm ..).subset hb)
    simp only [before, ho]
    exact Int.le_of_lt this
  · exact (sorted_perm ..).trans (hp.trans (List.Perm.append (sorted_perm ..).symm (sorted_perm ..).symm))

theorem growing_asc {key : String → R → Int} {o : Order} {rows : Nat → List R} (g : Growing key o.column rows) (ho : o.asc = true)
    (k : Nat) : ∃ suf, sorted key o (rows (k + 1)) = sorted key o (rows k) ++ suf := by
  obtain ⟨fresh, hp, hf⟩ := g.grow k
  refine ⟨sorted key o fresh, sorted_unique ((g.distinct (k + 1)).perm (sorted_perm ..).symm) (sorted_before ..) ?_ ?_⟩
  · refine List.pairwise_append.2 ⟨sorted_before .., sorted_before .., ?_⟩
    intro a ha b hb
    have := hf b ((sorted_perm ..).subset hb) a ((sorted_perm ..).subset ha)
    simp only [before, ho]
    exact Int.le_of_lt this
  · exact (sorted_perm ..).trans (hp.trans (List.perm_append_comm.trans (List.Perm.append (sorted_perm ..).symm (sorted_perm ..).symm)))

theorem drop_mem_append {pre l : List R} {n : Nat} {x : R} (h : x ∈ l.drop n) : x ∈ (pre ++ l).drop n := by
  rw [List.drop_append]
  refine List.mem_append_right _ ?_
  have : l.drop n = (l.drop (n - pre.length)).drop (n - (n - pre.length)) := by rw [List.drop_drop]; congr 1; omega
  rw [this] at h
  exact List.mem_of_mem_drop h

/-- C158 while records are created, the newest first: every row that was there when the client began is
shown. (Some may be shown twice.) -/
theorem c158_newest_first {key : String → R → Int} {t : Table} {req : Req} {rows : Nat → List R} {L : Nat} {out : List R} (hL : 0 < L)
    (hw : Within t req L) (ho : (order t req).asc = false) (g : Growing key (order t req).column rows)
    (h : Browse (asks key t req L rows) L 0 out) : ∀ r ∈ rows 0, r ∈ out := by
  have go : ∀ {k out}, Browse (asks key t req L rows) L k out → ∀ x ∈ (sorted key (order t req) (rows k)).drop (k * L), x ∈ out := by
    intro k out h
    induction h with
    | @last k p ha hl =>
      intro x hx
      have e := asked_page hL hw (g.distinct k) ha
      subst e
      unfold page at hl ⊢
      rw [List.length_take, List.length_drop] at hl
      rwa [List.take_of_length_le (by simp; omega)]
    | @next k p rest ha hl _ ih =>
      intro x hx
      have e := asked_page hL hw (g.distinct k) ha
      have hp := Paging.page_drop (sorted key (order t req) (rows k)) L (k * L)
      have hle : (page (sorted key (order t req) (rows k)) L (k * L)).length ≤ L := by unfold page; exact List.length_take_le ..
      rw [← e] at hp hle
      have hlen : p.length = L := by omega
      rw [hlen] at hp
      rw [← hp] at hx
      rcases List.mem_append.1 hx with hx | hx
      · exact List.mem_append_left _ hx
      · refine List.mem_append_right _ (ih x ?_)
        obtain ⟨pre, hpre⟩ := growing_desc g ho k
        rw [hpre, Nat.succ_mul]
        exact drop_mem_append hx
  intro r hr
  refine go h r ?_
  rw [Nat.zero_mul, List.drop_zero]
  exact (sorted_perm ..).symm.subset hr

/-- C158 while records are created, the oldest first: what is shown are the rows of some moment, each
once and in order, and every row that was there when the client began is among them. -/
theorem c158_oldest_first {key : String → R → Int} {t : Table} {req : Req} {rows : Nat → List R} {L : Nat} {out : List R} (hL : 0 < L)
    (hw : Within t req L) (ho : (order t req).asc = true) (g : Growing key (order t req).column rows)
    (h : Browse (asks key t req L rows) L 0 out) : (∃ K, out.Perm (rows K)) ∧ out.Pairwise (before key (order t req)) ∧ ∀ r ∈ rows 0, r ∈ out := by
  have later : ∀ {k K}, k ≤ K → ∃ suf, sorted key (order t req) (rows K) = sorted key (order t req) (rows k) ++ suf := by
    intro k K hk
    induction hk with
    | refl => exact ⟨[], by simp⟩
    | @step K _ ih =>
      obtain ⟨s, hs⟩ := ih
      obtain ⟨s', hs'⟩ := growing_asc g ho K
      exact ⟨s ++ s', by rw [hs', hs, List.append_assoc]⟩
  have go : ∀ {k out}, Browse (asks key t req L rows) L k out → ∃ K, k ≤ K ∧ out = (sorted key (order t req) (rows K)).drop (k * L) := by
    intro k out h
    induction h with
    | @last k p ha hl =>
      have e := asked_page hL hw (g.distinct k) ha
      subst e
      refine ⟨k, Nat.le_refl _, ?_⟩
      unfold page at hl ⊢
      rw [List.length_take, List.length_drop] at hl
      exact List.take_of_length_le (by simp; omega)
    | @next k p rest ha hl _ ih =>
      obtain ⟨K, hK, hr⟩ := ih
      obtain ⟨suf, hs⟩ := later (k := k) (K := K) (by omega)
      have e := asked_page hL hw (g.distinct k) ha
      refine ⟨K, by omega, ?_⟩
      have hp : p = page (sorted key (order t req) (rows K)) L (k * L) := by
        rw [hs, e]
        rw [e] at hl
        unfold page at hl ⊢
        rw [List.length_take, List.length_drop] at hl
        rw [List.drop_append_of_le_length (by omega), List.take_append_of_le_length (by rw [List.length_drop]; omega)]
      have hd := Paging.page_drop (sorted key (order t req) (rows K)) L (k * L)
      have hle : (page (sorted key (order t req) (rows K)) L (k * L)).length ≤ L := by unfold page; exact List.length_take_le ..
      rw [← hp] at hd hle
      have hlen : p.length = L := by omega
      rw [hlen] at hd
      rw [hr, Nat.succ_mul, hd]
  obtain ⟨K, -, e⟩ := go h
  rw [Nat.zero_mul, List.drop_zero] at e
  subst e
  refine ⟨⟨K, sorted_perm ..⟩, sorted_before .., ?_⟩
  intro r hr
  obtain ⟨s, hs⟩ := later (k := 0) (K := K) (Nat.zero_le _)
  rw [hs]
  exact List.mem_append_left _ ((sorted_perm ..).symm.subset hr)

/-- One row created after each of the first two requests. -/
def growth (k : Nat) : List Nat := countdown (3 + min k 2)

theorem growth_growing : Growing (fun _ (r : Nat) => (r : Int)) "created_at" growth where
  distinct k := by
    have : (List.range (3 + min k 2)).Nodup := List.nodup_range
    refine List.Pairwise.imp ?_ (List.pairwise_reverse.2 this)
    intro a b h e
    exact h (Int.ofNat.inj e).symm
  grow k := by
    by_cases hk : k < 2
    · refine ⟨[3 + k], ?_, ?_⟩
      · rw [growth, growth, countdown, countdown, show min (k + 1) 2 = k + 1 by omega, show min k 2 = k by omega, ← Nat.add_assoc, List.range_succ]
        simp
      · intro a ha b hb
        simp [growth, countdown] at ha hb
        omega
    · refine ⟨[], ?_, by simp⟩
      rw [growth, growth, show min (k + 1) 2 = 2 by omega, show min k 2 = 2 by omega]
      exact .refl _

example : Browse (asks (fun _ (r : Nat) => (r : Int)) .transactions (.get false) 2 growth) 2 0 [2, 1, 1, 0, 0] ∧
    ∀ r ∈ growth 0, r ∈ [2, 1, 1, 0, 0] := by
  have h : Browse (asks (fun _ (r : Nat) => (r : Int)) .transactions (.get false) 2 growth) 2 0 [2, 1, 1, 0, 0] :=
    .next (p := [2, 1]) ⟨⟨some 2, 0⟩, by decide +kernel, by decide +kernel, growth 0, .refl _, by decide +kernel, by decide +kernel⟩ (by decide)
      (.next (p := [1, 0]) ⟨⟨some 2, 2⟩, by decide +kernel, by decide +kernel, growth 1, .refl _, by decide +kernel, by decide +kernel⟩ (by decide)
        (.last ⟨⟨some 2, 4⟩, by decide +kernel, by decide +kernel, growth 2, .refl _, by decide +kernel, by decide +kernel⟩ (by decide)))
  exact ⟨h, c158_newest_first (by decide) (by simp [Within]) rfl growth_growing h⟩

example : Browse (asks (fun _ (r : Nat) => (r : Int)) .transactions (.post "" "asc") 2 growth) 2 0 [0, 1, 2, 3, 4] ∧
    ∀ r ∈ growth 0, r ∈ [0, 1, 2, 3, 4] := by
  have h : Browse (asks (fun _ (r : Nat) => (r : Int)) .transactions (.post "" "asc") 2 growth) 2 0 [0, 1, 2, 3, 4] :=
    .next (p := [0, 1]) ⟨⟨some 2, 0⟩, by decide +kernel, by decide +kernel, (growth 0).reverse, by decide +kernel, by decide +kernel, by decide +kernel⟩ (by decide)
      (.next (p := [2, 3]) ⟨⟨some 2, 2⟩, by decide +kernel, by decide +kernel, (growth 1).reverse, by decide +kernel, by decide +kernel, by decide +kernel⟩ (by decide)
        (.last ⟨⟨some 2, 4⟩, by decide +kernel, by decide +kernel, (growth 2).reverse, by decide +kernel, by decide +kernel, by decide +kernel⟩ (by decide)))
  exact ⟨h, (c158_oldest_first (by decide) (by simp [Within]) (by decide +kernel) (by have := growth_growing; exact this) h).2.2⟩

/-! ### C159 -/

/-- A number that cannot be a page size. -/
def BadLimit : Param → Prop
  | .absent => False
  | .unreadable => True
  | .num n => n ≤ 0

def BadOffset : Param → Prop
  | .absent => False
  | .unreadable => True
  | .num n => n < 0

/-- C159 in full: a request for `L` rows from `off` on shows `L` rows, or as many as there are from there on; and
a number that makes no sense is refused. -/
def C159Full : Prop :=
  (∀ (R : Type) (key : String → R → Int) (t : Table) (req : Req) (rows : List R) (L off : Nat) (out : List R),
    0 < L → Asked key t req rows L off out → out.length = min L (rows.length - off)) ∧
  ∀ (t : Table) (f : Bool) (limit offset : Param), BadLimit limit ∨ BadOffset offset → getWindow t f limit offset = none

/-- Any order of rows that all agree. -/
theorem asked_const {t : Table} {req : Req} {rows : List R} {L off : Int} {w : Window} (hc : hasColumn t (order t req).column)
    (hw : window t req L off = some w) : Asked (fun _ _ => 0) t req rows L off (cut w rows) :=
  ⟨w, hw, hc, rows, .refl _, List.pairwise_of_forall (by simp), rfl⟩

/-- Which requests show as many rows as asked, whatever there is: those of page sizes within the limit
of their list. -/
theorem c159_size_iff_partial (t : Table) (req : Req) {L : Nat} (hL : 0 < L) (hc : hasColumn t (order t req).column) :
    (∀ (R : Type) (key : String → R → Int) (rows : List R) (off : Nat) (out : List R), Asked key t req rows L off out →
      out.length = min L (rows.length - off)) ↔ Within t req L := by
  constructor
  · intro h
    refine Classical.byContradiction fun hn => ?_
    obtain ⟨w, hw, hbad⟩ : ∃ w, window t req L 1 = some w ∧ ((∃ m, w.limit = some m ∧ m < L) ∨ (w.limit = none ∧ w.offset = 0)) := by
      rcases req with ⟨f, a, b⟩ | ⟨a, b⟩
      · cases f <;> cases t <;>
          simp [window, getWindow, Within, lenientLimit, lenientOffset, strictLimit, strictOffset, capped] at hn ⊢ <;>
          (repeat' split) <;> simp_all <;> omega
      · cases t <;> simp [window, bodyWindow, Within, capped] at hn ⊢ <;> (repeat' split) <;> simp_all <;> omega
    have := h Nat (fun _ _ => 0) (List.replicate (L + 1) 0) 1 _ (asked_const hc hw)
    rcases hbad with ⟨m, hm, hlt⟩ | ⟨hn', ho⟩
    · have hle : (cut w (List.replicate (L + 1) 0)).length ≤ m := by
        unfold cut; rw [hm]; unfold page; exact List.length_take_le ..
      simp at this
      omega
    · unfold cut at this
      rw [hn', ho] at this
      simp at this
  · intro hw R key rows off out ⟨w, hw', _, l, hp, _, he⟩
    rw [(window_iff t req hL off).2 hw] at hw'
    cases hw'
    subst he
    simp [cut, page, hp.length_eq]

/-- Which numbers are refused: those that make no sense, for balances and for ledgers. -/
theorem c159_refused_iff (t : Table) (f : Bool) (limit offset : Param) :
    getWindow t f limit offset = none ↔ (t = .balances ∨ t = .ledgers) ∧ (BadLimit limit ∨ BadOffset offset) := by
  have hl : strictLimit limit = none ↔ BadLimit limit := by
    cases limit <;> simp [strictLimit, BadLimit]
  have ho : strictOffset offset = none ↔ BadOffset offset := by
    cases offset <;> simp [strictOffset, BadOffset]
  rw [← hl, ← ho]
  obtain ⟨x, hx⟩ : ∃ x, strictLimit limit = x := ⟨_, rfl⟩
  obtain ⟨y, hy⟩ : ∃ y, strictOffset offset = y := ⟨_, rfl⟩
  cases t <;> cases f <;> cases x <;> cases y <;> simp [getWindow, hx, hy]

/-- Twenty ledgers are shown of thirty when a hundred and one are asked for; and a limit of minus one
transactions shows twenty. -/
theorem c159_violated : ¬ C159Full := by
  intro h
  have := (c159_size_iff_partial .ledgers (.get false) (L := 101) (by decide) (by decide +kernel)).1
    (fun R key rows off out ha => h.1 R key .ledgers (.get false) rows 101 off out (by decide) ha)
  exact absurd this (by simp [Within])

theorem c159_nonsense_accepted : getWindow .transactions true (.num (-1)) .unreadable = some ⟨some 20, 0⟩ := by decide +kernel

/-- Never more rows than asked for, except identities and accounts without filters, which are all shown. -/
theorem c159_never_more {key : String → R → Int} {t : Table} {req : Req} {rows : List R} {L off : Nat} {out : List R} (hL : 0 < L)
    (hx : ¬ ((t = .identities ∨ t = .accounts) ∧ ∃ a b, req = .get false a b)) (h : Asked key t req rows L off out) : out.length ≤ L := by
  obtain ⟨w, hw, -, l, -, -, rfl⟩ := h
  have : ∃ m, w.limit = some m ∧ m ≤ L := by
    rcases req with ⟨f, a, b⟩ | ⟨a, b⟩
    · cases f <;> cases t <;>
        simp [window, getWindow, lenientLimit, lenientOffset, strictLimit, strictOffset, capped] at hw hx <;>
        (try (repeat' split at hw)) <;> simp_all <;> subst hw <;> simp <;> omega
    · cases t <;> simp [window, bodyWindow, capped] at hw <;> subst hw <;> simp <;> (repeat' split) <;> omega
  obtain ⟨m, hm, hle⟩ := this
  unfold cut
  rw [hm]
  unfold page
  exact Nat.le_trans (List.length_take_le ..) hle

theorem c159_all_shown {key : String → R → Int} {t : Table} (ht : t = .identities ∨ t = .accounts) {rows : List R} {L off : Int} {a b : String}
    {out : List R} (h : Asked key t (.get false a b) rows L off out) : out.Perm rows := by
  obtain ⟨w, hw, -, l, hp, -, rfl⟩ := h
  have : w = ⟨none, 0⟩ := by rcases ht with rfl | rfl <;> simp [window, getWindow] at hw <;> exact hw.symm
  subst this
  simpa [cut] using hp

example : Asked (fun _ (r : Nat) => (r : Int)) .accounts (.get true) [3, 2, 1] 2 1 [2, 1] ∧ Within .accounts (.get true) 2 :=
  ⟨⟨⟨some 2, 1⟩, by decide +kernel, by decide +kernel, [3, 2, 1], .refl _, by decide +kernel, rfl⟩, by simp [Within]⟩

/-! ### C160 -/

/-- C160 in full: the count that comes with a page is the number of rows that match. -/
def C160Full : Prop := ∀ (R : Type) (key : String → R → Int) (t : Table) (a b : String) (rows : List R) (L off : Int) (out : List R),
  Asked key t (.post a b) rows L off out → total rows out = some rows.length

/-- Nothing matches, and no count is given. -/
theorem c160_violated : ¬ C160Full := by
  intro h
  have := h Nat (fun _ _ => 0) .balances "" "" [] 10 0 _ (asked_const (w := ⟨some 10, 0⟩) (by decide +kernel) (by decide +kernel))
  exact absurd this (by decide +kernel)

/-- C160, partially: a count that is given is right, and it is given unless the page is empty. What is
missing is the count of a page beyond the last row, and the count zero. -/
theorem c160_count_partial {key : String → R → Int} {t : Table} {a b : String} {rows : List R} {L off : Nat} {out : List R} (hL : 0 < L)
    (h : Asked key t (.post a b) rows L off out) :
    (∀ n, total rows out = some n → n = rows.length) ∧ (total rows out = some rows.length ↔ off < rows.length) := by
  obtain ⟨w, hw, -, l, hp, -, rfl⟩ := h
  have hwo : ∃ m, 0 < m ∧ w = ⟨some m, off⟩ := by
    simp only [window, bodyWindow, Option.some.injEq] at hw
    subst hw
    refine ⟨_, ?_, by rw [show (if (off : Int) < 0 then 0 else (off : Int)).toNat = off by split <;> omega]⟩
    cases t <;> simp only [capped] <;> (repeat' split) <;> omega
  obtain ⟨m, hm, rfl⟩ := hwo
  have hne : cut ⟨some m, off⟩ l = [] ↔ rows.length ≤ off := by
    rw [← hp.length_eq]
    simp only [cut, page, List.take_eq_nil_iff, List.drop_eq_nil_iff]
    omega
  unfold total
  constructor
  · intro n hn
    split at hn
    · simp at hn
    · simpa using hn.symm
  · by_cases hc : cut ⟨some m, off⟩ l = []
    · simp [hc]; exact hne.1 hc
    · simp [hc]; exact Nat.lt_of_not_le (fun hle => hc (hne.2 hle))

example : Asked (fun _ (r : Nat) => (r : Int)) .balances (.post "" "") [3, 2, 1] 2 2 [1] ∧ total [3, 2, 1] [1] = some 3 := by
  have h : Asked (fun _ (r : Nat) => (r : Int)) .balances (.post "" "") [3, 2, 1] 2 2 [1] :=
    ⟨⟨some 2, 2⟩, by decide +kernel, by decide +kernel, [3, 2, 1], .refl _, by decide +kernel, rfl⟩
  exact ⟨h, (c160_count_partial (L := 2) (off := 2) (by decide) h).2.2 (by decide)⟩

/-! ### C161 -/

/-- C161 in full: a list is answered with a JSON array. -/
def C161Full : Prop := ∀ (R : Type) (t : Table) (out : List R), body t out = .list out

theorem c161_violated : ¬ C161Full := fun h => absurd (h Nat .balances []) (by decide +kernel)

/-- Which lists are arrays: all but the empty ones of balances, identities and accounts, which are `null`. -/
theorem c161_array_iff_partial (t : Table) (out : List R) :
    (body t out = .list out ↔ out ≠ [] ∨ t = .transactions ∨ t = .ledgers) ∧ (body t out = .null ↔ out = [] ∧ (t = .balances ∨ t = .identities ∨ t = .accounts)) := by
  cases out <;> cases t <;> simp [body]

/-! ### C162 -/

/-- The column and the direction a request names. -/
def Names (req : Req) (c : String) (asc : Bool) : Prop :=
  ∃ d, d = (if asc then "asc" else "desc") ∧ ((∃ f, req = .get f c d) ∨ req = .post c d)

/-- C162 in full: a request that names a field one may sort by and a direction is answered, and the rows
come in that order. -/
def C162Full : Prop := ∀ (R : Type) (key : String → R → Int) (t : Table) (req : Req) (c : String) (asc : Bool) (rows : List R) (L off : Nat),
  0 < L → (Filter.validFields t.name).contains c → Names req c asc →
    (∃ out, Asked key t req rows L off out) ∧ ∀ out, Asked key t req rows L off out → out.Pairwise (before key ⟨c, asc⟩)

/-- The oldest ledgers first, asked by URL: the newest come first. -/
theorem c162_url_ignored : ¬ C162Full := by
  intro h
  have := (h Nat (fun _ r => (r : Int)) .ledgers (.get false "created_at" "asc") "created_at" true [2, 1] 10 0 (by decide) (by decide +kernel)
    ⟨"asc", rfl, .inl ⟨false, rfl⟩⟩).2 [2, 1] ⟨⟨some 10, 0⟩, by decide +kernel, by decide +kernel, [2, 1], .refl _, by decide +kernel, by decide +kernel⟩
  simp [before] at this

/-- Nothing in a URL has any effect on the order. -/
theorem c162_url_order (t : Table) (f : Bool) (a b : String) : order t (.get f a b) = ⟨"created_at", false⟩ := rfl

/-- Transactions sorted by balance, by body: the field is accepted, there is no such column, and there is
no answer. -/
theorem c162_no_column : (Filter.validFields Table.transactions.name).contains "balance_id" ∧
    ∀ (R : Type) (key : String → R → Int) (d : String) (rows : List R) (L off : Int) (out : List R),
      ¬ Asked key .transactions (.post "balance_id" d) rows L off out := by
  refine ⟨by decide +kernel, ?_⟩
  rintro R key d rows L off out ⟨w, -, hc, -⟩
  exact absurd hc (by show ¬ hasColumn .transactions (Filter.sortColumn "transactions" "balance_id") = true; decide +kernel)

/-- A field one may not sort by is passed over without a word. -/
theorem c162_unknown (t : Table) (c d : String) (h : (Filter.validFields t.name).contains c = false) :
    (order t (.post c d)).column = "created_at" := by
  simp only [order, bodyOrder, Filter.sortColumn, h]
  rfl

/-- C162, partially: by body, with a field that is a column of the table. -/
theorem c162_body_order_partial {key : String → R → Int} {t : Table} {c : String} {asc : Bool} {rows : List R} {L off : Nat}
    (hf : (Filter.validFields t.name).contains c) (hc : hasColumn t c) :
    (∃ out, Asked key t (.post c (if asc then "asc" else "desc")) rows L off out) ∧
    ∀ out, Asked key t (.post c (if asc then "asc" else "desc")) rows L off out → out.Pairwise (before key ⟨c, asc⟩) := by
  have ho : order t (.post c (if asc then "asc" else "desc")) = ⟨c, asc⟩ := by
    have h1 : Filter.safeColumn t.name c = some c := by
      have : c ∈ Filter.safeColumns t.name := by
        cases t <;> simp only [hasColumn, Bool.and_eq_true, List.contains_iff_mem] at hc
        · exact hc.1.1
        all_goals exact hc
      simp [Filter.safeColumn, this]
    simp only [order, bodyOrder, Filter.sortColumn, hf, h1]
    cases asc <;> rfl
  constructor
  · exact ⟨_, _, rfl, by rw [ho]; exact hc, _, sorted_perm key _ rows, sorted_before .., rfl⟩
  · rintro out ⟨w, -, -, l, -, hs, rfl⟩
    rw [ho] at hs
    have : (cut w l).Sublist l := by
      unfold cut page
      split
      · exact (List.take_sublist ..).trans (List.drop_sublist ..)
      · exact List.drop_sublist ..
    exact hs.sublist this

example : (Filter.validFields Table.accounts.name).contains "bank_name" ∧ hasColumn .accounts "bank_name" := by decide +kernel

end Blnk.Lists
