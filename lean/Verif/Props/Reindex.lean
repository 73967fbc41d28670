import Verif.Model.Reindex
/-!
Rebuilding the search index.

C109: a completed rebuild holds every record. C110: the progress report counts right. C111: only
one rebuild runs at a time. C112: a restart takes nothing away from search. C113: a rebuilt
document is no older than the rebuild.
-/
namespace Blnk.Reidx
open Srch (Coll)

/-- Search finds something under a key. -/
def found (l : List Item) (k : Coll × String) : Prop := ∃ x ∈ l, key x = k

instance (l : List Item) (k : Coll × String) : Decidable (found l k) := inferInstanceAs (Decidable (∃ x ∈ l, key x = k))

/-- What `GET /reindex` reports is that the rebuild is completed. -/
def Sys.completed (s : Sys) : Prop := ∃ i j, s.cur = some i ∧ s.jobs[i]? = some j ∧ j.ph = .done

instance (s : Sys) : Decidable s.completed :=
  match h : s.cur with
  | none => isFalse (by rintro ⟨i, j, h1, -⟩; rw [h] at h1; cases h1)
  | some i =>
    match h2 : s.jobs[i]? with
    | none => isFalse (by rintro ⟨i', j, h1, h3, -⟩; rw [h] at h1; cases h1; rw [h2] at h3; cases h3)
    | some j =>
      if h4 : j.ph = .done then isTrue ⟨i, j, h, h2, h4⟩
      else isFalse (by rintro ⟨i', j', h1, h3, h5⟩; rw [h] at h1; cases h1; rw [h2] at h3; cases h3; exact h4 h5)

/-! ### C109 -/

/-- C109 in full: a server starts with any records and documents, rebuilds are requested; whenever
the rebuild is reported as completed, every record that existed from the beginning and still
exists is found. -/
def C109Full : Prop := ∀ (rows idx : List Item) (evs : List Ev), (run { rows := rows, idx := idx } evs).completed →
  ∀ k, found rows k → found (run { rows := rows, idx := idx } evs).rows k → found (run { rows := rows, idx := idx } evs).idx k

/-- The steps up to the first page. -/
def opening (i : Nat) : List Ev := .job i .begin :: (List.replicate 6 (.job i .drop) ++ [.job i (.create 9)])

/-- Nothing to index. -/
def passOver (i n : Nat) : List Ev := List.replicate n (.job i (.page []))

/-- Reconciliations are dropped and not rebuilt. -/
theorem c109_recon_fails : ¬ C109Full := by
  intro h
  have := h [(.reconciliations, ⟨"recon_1", 1, 1⟩)] [(.reconciliations, ⟨"recon_1", 1, 1⟩)] (.post 0 :: (opening 0 ++ passOver 0 4))
    (by decide +kernel) (.reconciliations, "recon_1") (by decide +kernel) (by decide +kernel)
  exact absurd this (by decide +kernel)

def idt (id : String) (born : Int) : Item := (.identities, ⟨id, born, 1⟩)

/-- An identity deleted between two pages makes the rebuild skip another one. -/
theorem c109_deleted_fails : ¬ C109Full := by
  intro h
  have := h [idt "a" 1, idt "b" 2, idt "c" 3] []
    (.post 1 :: (opening 0 ++ passOver 0 1 ++ [.job 0 (.page [⟨"c", 3, 1⟩, ⟨"b", 2, 1⟩, ⟨"a", 1, 1⟩]), .job 0 (.put true), .gone "c",
      .job 0 (.page [⟨"b", 2, 1⟩, ⟨"a", 1, 1⟩]), .job 0 (.put true), .job 0 (.page [⟨"b", 2, 1⟩, ⟨"a", 1, 1⟩])] ++ passOver 0 2))
    (by decide +kernel) (.identities, "b") (by decide +kernel) (by decide +kernel)
  exact absurd this (by decide +kernel)

/-- Of two identities made at the same time, one comes twice and the other never. -/
theorem c109_ties_fails : ¬ C109Full := by
  intro h
  have := h [idt "a" 1, idt "b" 1] []
    (.post 1 :: (opening 0 ++ passOver 0 1 ++ [.job 0 (.page [⟨"a", 1, 1⟩, ⟨"b", 1, 1⟩]), .job 0 (.put true),
      .job 0 (.page [⟨"b", 1, 1⟩, ⟨"a", 1, 1⟩]), .job 0 (.put true), .job 0 (.page [⟨"a", 1, 1⟩, ⟨"b", 1, 1⟩])] ++ passOver 0 2))
    (by decide +kernel) (.identities, "b") (by decide +kernel) (by decide +kernel)
  exact absurd this (by decide +kernel)

/-- A document that is refused is left out of a completed rebuild. -/
theorem c109_refused_fails : ¬ C109Full := by
  intro h
  have := h [idt "a" 1] []
    (.post 0 :: (opening 0 ++ passOver 0 1 ++ [.job 0 (.page [⟨"a", 1, 1⟩]), .job 0 (.put false), .job 0 (.page [⟨"a", 1, 1⟩])] ++ passOver 0 2))
    (by decide +kernel) (.identities, "a") (by decide +kernel) (by decide +kernel)
  exact absurd this (by decide +kernel)

/-- Two requests are accepted, the second rebuild is completed, and then the first begins by
dropping everything. -/
theorem c109_second_fails : ¬ C109Full := by
  intro h
  have := h [idt "a" 1] []
    ([.post 0, .post 0] ++ (opening 1 ++ passOver 1 1 ++ [.job 1 (.page [⟨"a", 1, 1⟩]), .job 1 (.put true), .job 1 (.page [⟨"a", 1, 1⟩])] ++
      passOver 1 2 ++ opening 0))
    (by decide +kernel) (.identities, "a") (by decide +kernel) (by decide +kernel)
  exact absurd this (by decide +kernel)

/-- No two records of a collection were made at the same time. -/
def Distinct (rows : List Item) : Prop := rows.Pairwise (fun x y => x.1 = y.1 → x.2.born ≠ y.2.born)

/-- Nothing is deleted, and only rebuild `i` empties collections. -/
def Alone (i : Nat) : Ev → Prop
  | .gone _ => False
  | .job j .drop => j = i
  | _ => True

/-- Not yet at collection `c`. -/
def Before (c : Coll) : Ph → Prop
  | .pending | .drop _ | .create => True
  | .index c' => c' ≠ c ∧ match c', c with
      | .ledgers, _ => True
      | .identities, .balances | .identities, .transactions => True
      | .balances, .transactions => True
      | _, _ => False
  | _ => False

/-- The collections a rebuild indexes. -/
def indexed (c : Coll) : Prop := c ≠ .reconciliations

/-- How many rows come before those made at a time. -/
def rank (l : List Row) (b : Int) : Nat := l.countP (fun r => decide (b < r.born))

theorem rank_perm {l l' : List Row} (h : l.Perm l') (b : Int) : rank l b = rank l' b := h.countP_eq _

/-- The position of a row in a strictly ordered list is its rank. -/
theorem rank_index {l : List Row} (hs : l.Pairwise (fun a b => b.born < a.born)) {p : Nat} {r : Row} (h : l[p]? = some r) :
    rank l r.born = p := by
  induction l generalizing p with
  | nil => simp at h
  | cons x l ih =>
    rw [List.pairwise_cons] at hs
    unfold rank at ih ⊢
    cases p with
    | zero =>
      simp only [List.getElem?_cons_zero, Option.some.injEq] at h
      subst h
      rw [List.countP_cons]
      have : l.countP (fun r => decide (x.born < r.born)) = 0 := by
        rw [List.countP_eq_zero]
        intro y hy
        have := hs.1 y hy
        simp; omega
      rw [this]; simp
    | succ p =>
      simp only [List.getElem?_cons_succ] at h
      rw [List.countP_cons, ih hs.2 h]
      have := hs.1 r (List.mem_of_getElem? h)
      simp [this]

theorem mem_table {rows : List Item} {c : Coll} {r : Row} : r ∈ table rows c ↔ (c, r) ∈ rows := by
  unfold table
  simp only [List.mem_map, List.mem_filter, beq_iff_eq]
  constructor
  · rintro ⟨x, ⟨h1, h2⟩, rfl⟩
    rw [← h2]; exact h1
  · intro h
    exact ⟨(c, r), ⟨h, rfl⟩, rfl⟩

theorem distinct_table {rows : List Item} (h : Distinct rows) (c : Coll) : (table rows c).Pairwise (fun a b => a.born ≠ b.born) := by
  unfold table Distinct at *
  rw [List.pairwise_map]
  refine List.Pairwise.imp_of_mem ?_ (h.sublist List.filter_sublist)
  intro a b ha hb hab
  have h1 : a.1 = c := by have := (List.mem_filter.1 ha).2; simpa using this
  have h2 : b.1 = c := by have := (List.mem_filter.1 hb).2; simpa using this
  exact hab (h1.trans h2.symm)

theorem strict_of_ordered {order tbl : List Row} (ho : ordered order tbl = true) (hd : tbl.Pairwise (fun a b => a.born ≠ b.born)) :
    order.Pairwise (fun a b => b.born < a.born) ∧ order.Perm tbl := by
  unfold ordered at ho
  rw [Bool.and_eq_true, decide_eq_true_eq, List.isPerm_iff] at ho
  refine ⟨?_, ho.1⟩
  have h1 := (ho.1.pairwise_iff (R := fun a b : Row => a.born ≠ b.born) (fun h => h.symm)).2 hd
  exact (h1.and ho.2).imp (by intro a b ⟨h2, h3⟩; omega)

theorem distinct_step {s : Sys} {e : Ev} {i : Nat} (ha : Alone i e) (h : Distinct (step s e).rows) : Distinct s.rows := by
  cases e with
  | ins c r =>
    simp only [step] at h
    split at h
    · exact h
    · exact h.sublist (List.sublist_append_left _ _)
  | upd c id =>
    have h' : Distinct (s.rows.map (bump c id)) := h
    unfold Distinct at h' ⊢
    rw [List.pairwise_map] at h'
    refine h'.imp ?_
    intro a b hab
    unfold bump at hab
    split at hab <;> split at hab <;> exact hab
  | gone id => exact ha.elim
  | sync x => exact h
  | post b => simp only [step] at h; split at h <;> exact h
  | startup => simp only [step] at h; split at h <;> exact h
  | job j e =>
    simp only [step] at h
    split at h <;> exact h

/-- The record is still there, made when it was, and at most rows came before it. -/
structure Stays (c : Coll) (r : Row) (s : Sys) : Prop where
  here : ∃ v, r.ver ≤ v ∧ (c, { r with ver := v }) ∈ s.rows

theorem stays_step {c : Coll} {r : Row} {s : Sys} {e : Ev} {i : Nat} (ha : Alone i e) (h : Stays c r s) : Stays c r (step s e) := by
  obtain ⟨v, hv, hm⟩ := h.here
  cases e with
  | ins c' r' =>
    refine ⟨v, hv, ?_⟩
    simp only [step]
    split
    · exact hm
    · exact List.mem_append_left _ hm
  | upd c' id =>
    refine ⟨?_⟩
    show ∃ v, r.ver ≤ v ∧ (c, { r with ver := v }) ∈ s.rows.map (bump c' id)
    by_cases hc : c = c' ∧ r.id = id
    · refine ⟨v + 1, by omega, List.mem_map.2 ⟨_, hm, ?_⟩⟩
      unfold bump
      rw [if_pos hc]
    · refine ⟨v, hv, List.mem_map.2 ⟨_, hm, ?_⟩⟩
      unfold bump
      rw [if_neg hc]
  | gone id => exact ha.elim
  | sync x => exact ⟨v, hv, hm⟩
  | post b => refine ⟨v, hv, ?_⟩; simp only [step]; split <;> exact hm
  | startup => refine ⟨v, hv, ?_⟩; simp only [step]; split <;> exact hm
  | job j e => refine ⟨v, hv, ?_⟩; simp only [step]; split <;> exact hm

theorem table_map_bump (rows : List Item) (c' : Coll) (id : String) (c : Coll) :
    (table (rows.map (bump c' id)) c).map (·.born) = (table rows c).map (·.born) := by
  unfold table
  induction rows with
  | nil => rfl
  | cons x rows ih =>
    rw [List.map_cons]
    have h1 : (bump c' id x).1 = x.1 := by unfold bump; split <;> rfl
    have h2 : (bump c' id x).2.born = x.2.born := by unfold bump; split <;> rfl
    rw [List.filter_cons, List.filter_cons, h1]
    split
    · rw [List.map_cons, List.map_cons, List.map_cons, List.map_cons, h2, ih]
    · exact ih

theorem rank_map {l l' : List Row} (h : l.map (·.born) = l'.map (·.born)) (b : Int) : rank l b = rank l' b := by
  have key : ∀ l : List Row, rank l b = (l.map (·.born)).countP (fun x => decide (b < x)) := by
    intro l; unfold rank; rw [List.countP_map]; rfl
  rw [key, key, h]

/-- Rows are only added before and after. -/
theorem rank_step {s : Sys} {e : Ev} {i : Nat} (ha : Alone i e) (c : Coll) (b : Int) :
    rank (table s.rows c) b ≤ rank (table (step s e).rows c) b := by
  cases e with
  | ins c' r' =>
    simp only [step]
    split
    · exact Nat.le_refl _
    · show rank (table s.rows c) b ≤ rank (table (s.rows ++ [(c', r')]) c) b
      unfold table rank
      rw [List.filter_append, List.map_append, List.countP_append]
      omega
  | upd c' id =>
    show rank (table s.rows c) b ≤ rank (table (s.rows.map (bump c' id)) c) b
    rw [rank_map (table_map_bump s.rows c' id c)]
    exact Nat.le_refl _
  | gone id => exact ha.elim
  | sync x => exact Nat.le_refl _
  | post _ => simp only [step]; split <;> exact Nat.le_refl _
  | startup => simp only [step]; split <;> exact Nat.le_refl _
  | job j e => simp only [step]; split <;> exact Nat.le_refl _

/-- Search finds a state at least as new as version `v` under a key. -/
def fresh (l : List Item) (k : Coll × String) (v : Nat) : Prop := ∃ x ∈ l, key x = k ∧ v ≤ x.2.ver

theorem fresh_store {l : List Item} {k : Coll × String} {v : Nat} (x : Item) (h : fresh l k v) (hx : key x = k → v ≤ x.2.ver) :
    fresh (store l x) k v := by
  obtain ⟨y, hy, hk, hv⟩ := h
  unfold store
  by_cases hxk : key x = k
  · exact ⟨x, List.mem_cons_self, hxk, hx hxk⟩
  · refine ⟨y, List.mem_cons_of_mem _ (List.mem_filter.2 ⟨hy, ?_⟩), hk, hv⟩
    rw [← hk] at hxk
    simpa using fun h => hxk h.symm

/-- What is known of a record (of version at least `v`) and of a rebuild. -/
inductive Covered (c : Coll) (r : Row) (v : Nat) (rows idx : List Item) (j : Job) : Prop
  | before (h : Before c j.ph)
  | failed (h : j.ph = .failed)
  | paged (h : j.ph = .index c) (x : Row) (hx : x ∈ j.page) (hi : x.id = r.id) (hv : v ≤ x.ver)
  | ahead (h : j.ph = .index c) (ho : j.offset ≤ rank (table rows c) r.born)
  | over (h : j.ph = .done ∨ ∃ c', j.ph = .index c') (hf : fresh idx (c, r.id) v ∨ (c, r.id) ∈ j.errors)

theorem counted_ph (j : Job) (c : Coll) : (j.counted c).ph = j.ph ∧ (j.counted c).page = j.page ∧ (j.counted c).offset = j.offset ∧
    (j.counted c).errors = j.errors ∧ (j.counted c).batch = j.batch := by
  unfold Job.counted; split <;> exact ⟨rfl, rfl, rfl, rfl, rfl⟩

theorem next_cases {c c' : Coll} (hc : indexed c) (h : Before c (.index c')) : Ph.next c' = .index c ∨ Before c (Ph.next c') := by
  unfold Before at h
  cases c' <;> cases c <;> simp_all [Ph.next, Before, indexed]

theorem next_form (c' : Coll) : Ph.next c' = .done ∨ ∃ c'', Ph.next c' = .index c'' := by
  cases c' <;> simp [Ph.next]

theorem limit_pos (c : Coll) {b : Nat} (h : b ≠ 0) : limit c b ≠ 0 := by
  unfold limit; split <;> omega

/-- A row known to be ahead of the offset is on the next page or stays ahead. -/
theorem on_page {order : List Row} {rows : List Item} {c : Coll} {r : Row} {v : Nat} {off lim : Nat} (hd : Distinct rows)
    (ho : ordered order (table rows c) = true) (hm : ∃ w, v ≤ w ∧ (c, { r with ver := w }) ∈ rows)
    (hr : off ≤ rank (table rows c) r.born) (hl : lim ≠ 0) :
    (∃ x ∈ (order.drop off).take lim, x.id = r.id ∧ v ≤ x.ver) ∨
      ((order.drop off).take lim ≠ [] ∧ off + ((order.drop off).take lim).length ≤ rank (table rows c) r.born) := by
  obtain ⟨hs, hp⟩ := strict_of_ordered ho (distinct_table hd c)
  obtain ⟨w, hw, hmem⟩ := hm
  have h1 : { r with ver := w } ∈ order := hp.mem_iff.2 (mem_table.2 hmem)
  obtain ⟨p, hpx⟩ := List.mem_iff_getElem?.1 h1
  have h2 : rank (table rows c) r.born = p := by
    rw [← rank_perm hp]; exact rank_index (r := { r with ver := w }) hs hpx
  rw [h2] at hr ⊢
  have hlen : p < order.length := by
    rcases Nat.lt_or_ge p order.length with h | h
    · exact h
    · rw [List.getElem?_eq_none h] at hpx; cases hpx
  by_cases hin : p < off + lim
  · refine .inl ⟨{ r with ver := w }, ?_, rfl, hw⟩
    rw [List.mem_iff_getElem?]
    refine ⟨p - off, ?_⟩
    rw [List.getElem?_take, if_pos (by omega), List.getElem?_drop, show off + (p - off) = p by omega]
    exact hpx
  · have hlen' : ((order.drop off).take lim).length = lim := by
      rw [List.length_take, List.length_drop]; omega
    refine .inr ⟨?_, by omega⟩
    intro he
    rw [he] at hlen'
    exact hl hlen'.symm

/-- One step of the rebuild itself. -/
theorem covered_job {c : Coll} {r : Row} {v : Nat} {rows idx : List Item} {j : Job} (hc : indexed c) (hd : Distinct rows)
    (hb : j.batch ≠ 0) (hm : ∃ w, v ≤ w ∧ (c, { r with ver := w }) ∈ rows)
    (hw : ∀ x ∈ j.page, j.ph = .index c → x.id = r.id → v ≤ x.ver) (h : Covered c r v rows idx j) (e : JEv) :
    Covered c r v rows (j.step rows idx e).1 (j.step rows idx e).2 := by
  cases e with
  | begin =>
    simp only [Job.step]
    split
    · exact .before trivial
    · exact h
  | drop =>
    simp only [Job.step]
    split
    · exact .before trivial
    · exact .before trivial
    · exact h
  | create now =>
    simp only [Job.step]
    split
    · by_cases he : c = .ledgers
      · subst he
        exact .ahead rfl (Nat.zero_le _)
      · exact .before ⟨fun h => he h.symm, (by cases c <;> trivial)⟩
    · exact h
  | page order =>
    simp only [Job.step]
    split
    · rename_i c' hph
      split
      · rename_i hg
        obtain ⟨hg1, hg2⟩ := hg
        split
        · rename_i hpe
          cases h with
          | before h =>
            rw [hph] at h
            rcases next_cases hc h with h1 | h1
            · exact .ahead h1 (Nat.zero_le _)
            · exact .before h1
          | failed h => rw [hph] at h; cases h
          | paged h x hx hi hv => rw [hg1] at hx; cases hx
          | ahead h ho =>
            rw [hph] at h
            cases h
            rcases on_page hd hg2 hm ho (limit_pos c hb) with ⟨x, hx, -⟩ | ⟨hne, -⟩
            · rw [hpe] at hx; cases hx
            · exact absurd hpe hne
          | over h hf => exact .over (next_form c') hf
        · rename_i hpe
          cases h with
          | before h => exact .before h
          | failed h => exact .failed h
          | paged h x hx hi hv => rw [hg1] at hx; cases hx
          | ahead h ho =>
            have h' := h
            rw [hph] at h'
            cases h'
            rcases on_page hd hg2 hm ho (limit_pos c hb) with ⟨x, hx, hi, hv⟩ | ⟨-, hle⟩
            · exact .paged h x hx hi hv
            · exact .ahead h hle
          | over h hf => exact .over h hf
      · exact h
    · exact h
  | put ok =>
    simp only [Job.step]
    split
    · rename_i c' r' rest hph hpg
      have key : ∀ j' : Job, j'.ph = j.ph → j'.page = rest → j'.offset = j.offset →
          j'.errors = (if ok then j.errors else j.errors ++ [(c', r'.id)]) →
          Covered c r v rows (if ok then store idx (c', r') else idx) j' := by
        intro j' h1 h2 h3 h4
        cases h with
        | before h => exact .before (by rw [h1]; exact h)
        | failed h => exact .failed (by rw [h1]; exact h)
        | paged h x hx hi hv =>
          rw [hpg, List.mem_cons] at hx
          rcases hx with rfl | hx
          · have hcc : c' = c := by rw [hph] at h; cases h; rfl
            subst hcc
            refine .over (.inr ⟨c', by rw [h1]; exact h⟩) ?_
            cases ok with
            | true => exact .inl ⟨(c', x), List.mem_cons_self, by show (c', x.id) = _; rw [hi], hv⟩
            | false => right; rw [h4, ← hi]; simp
          · exact .paged (by rw [h1]; exact h) x (by rw [h2]; exact hx) hi hv
        | ahead h ho => exact .ahead (by rw [h1]; exact h) (by rw [h3]; exact ho)
        | over h hf =>
          refine .over (by rw [h1]; exact h) ?_
          rcases hf with hf | hf
          · left
            cases ok with
            | true =>
              refine fresh_store _ hf ?_
              intro hk
              have hcc : c' = c := congrArg Prod.fst hk
              have hii : r'.id = r.id := congrArg Prod.snd hk
              exact hw r' (by rw [hpg]; exact List.mem_cons_self) (by rw [hph, hcc]) hii
            | false => exact hf
          · right
            rw [h4]; cases ok
            · exact List.mem_append_left _ hf
            · exact hf
      have key2 : ∀ j' : Job, j'.ph = j.ph → j'.page = rest → j'.offset = j.offset →
          j'.errors = (if ok then j.errors else j.errors ++ [(c', r'.id)]) →
          Covered c r v rows (if ok then store idx (c', r') else idx) (if rest = [] then j'.counted c' else j') := by
        intro j' h1 h2 h3 h4
        obtain ⟨g1, g2, g3, g4, -⟩ := counted_ph j' c'
        by_cases hr : rest = []
        · rw [if_pos hr]; exact key _ (g1.trans h1) (g2.trans h2) (g3.trans h3) (g4.trans h4)
        · rw [if_neg hr]; exact key _ h1 h2 h3 h4
      exact key2 (if ok then { j with page := rest, total := j.total + 1, written := j.written + 1 }
        else { j with page := rest, errors := j.errors ++ [(c', r'.id)] })
        (by cases ok <;> rfl) (by cases ok <;> rfl) (by cases ok <;> rfl) (by cases ok <;> rfl)
    · exact h
  | memory => exact h
  | stop =>
    simp only [Job.step]
    split
    · exact .failed rfl
    · exact h

theorem batch_step (rows idx : List Item) (j : Job) (e : JEv) : (j.step rows idx e).2.batch = j.batch := by
  cases e with
  | begin => simp only [Job.step]; split <;> rfl
  | drop => simp only [Job.step]; split <;> rfl
  | create now => simp only [Job.step]; split <;> rfl
  | page order =>
    simp only [Job.step]
    split
    · split
      · split <;> rfl
      · rfl
    · rfl
  | put ok =>
    simp only [Job.step]
    split
    · by_cases hr : (‹List Row› : List Row) = []
      · rw [if_pos hr, (counted_ph _ _).2.2.2.2]; cases ok <;> rfl
      · rw [if_neg hr]; cases ok <;> rfl
    · rfl
  | memory => rfl
  | stop => simp only [Job.step]; split <;> rfl

/-- What is on the page was read from the table. -/
theorem page_step {c : Coll} {id : String} {v : Nat} {rows : List Item} (idx : List Item) {j : Job} (e : JEv)
    (hr : ∀ x ∈ rows, key x = (c, id) → v ≤ x.2.ver)
    (hw : ∀ x ∈ j.page, j.ph = .index c → x.id = id → v ≤ x.ver) :
    ∀ x ∈ (j.step rows idx e).2.page, (j.step rows idx e).2.ph = .index c → x.id = id → v ≤ x.ver := by
  cases e with
  | begin =>
    simp only [Job.step]
    split
    · intro x hx; cases hx
    · exact hw
  | drop =>
    simp only [Job.step]
    split
    · intro x hx h; cases h
    · intro x hx h; cases h
    · exact hw
  | create now =>
    simp only [Job.step]
    split
    · intro x hx; cases hx
    · exact hw
  | page order =>
    simp only [Job.step]
    split
    · rename_i c' hph
      split
      · rename_i hg
        split
        · intro x hx; cases hx
        · intro x hx hi hid
          have hi' : j.ph = .index c := hi
          rw [hph] at hi'
          cases hi'
          have hx' : x ∈ (order.drop j.offset).take (limit c j.batch) := hx
          have h1 : x ∈ order := List.mem_of_mem_drop (List.mem_of_mem_take hx')
          have h2 : order.Perm (table rows c) := by
            have := hg.2
            unfold ordered at this
            rw [Bool.and_eq_true, List.isPerm_iff] at this
            exact this.1
          exact hr (c, x) (mem_table.1 (h2.mem_iff.1 h1)) (by show (c, x.id) = _; rw [hid])
      · exact hw
    · exact hw
  | put ok =>
    simp only [Job.step]
    split
    · rename_i c' r' rest hph hpg
      have key2 : ∀ j' : Job, j'.ph = j.ph → j'.page = rest →
          ∀ x ∈ (if rest = [] then j'.counted c' else j').page, (if rest = [] then j'.counted c' else j').ph = .index c → x.id = id → v ≤ x.ver := by
        intro j' h1 h2 x hx hi hid
        obtain ⟨g1, g2, -⟩ := counted_ph j' c'
        have hx' : x ∈ j'.page := by
          by_cases hr : rest = []
          · rw [if_pos hr, g2] at hx; exact hx
          · rw [if_neg hr] at hx; exact hx
        have hi' : j'.ph = .index c := by
          by_cases hr : rest = []
          · rw [if_pos hr, g1] at hi; exact hi
          · rw [if_neg hr] at hi; exact hi
        exact hw x (by rw [hpg, ← h2]; exact List.mem_cons_of_mem _ hx') (by rw [← h1]; exact hi') hid
      exact key2 (if ok then { j with page := rest, total := j.total + 1, written := j.written + 1 }
        else { j with page := rest, errors := j.errors ++ [(c', r'.id)] })
        (by cases ok <;> rfl) (by cases ok <;> rfl)
    · exact hw
  | memory => exact hw
  | stop =>
    simp only [Job.step]
    split
    · intro x hx h; cases h
    · exact hw

/-- Documents from elsewhere are not older than `v`. -/
def Guarded (c : Coll) (id : String) (v i : Nat) : Ev → Prop
  | .sync x => key x = (c, id) → v ≤ x.2.ver
  | .job j _ => j = i ∨ v = 0
  | _ => True

structure Inv (c : Coll) (r : Row) (v i : Nat) (s : Sys) : Prop where
  rows : ∀ x ∈ s.rows, key x = (c, r.id) → v ≤ x.2.ver
  stays : Stays c r s
  job : ∃ j, s.jobs[i]? = some j ∧ j.batch ≠ 0 ∧ (∀ x ∈ j.page, j.ph = .index c → x.id = r.id → v ≤ x.ver) ∧
    Covered c r v s.rows s.idx j

theorem rows_step {c : Coll} {r : Row} {v i : Nat} {s : Sys} {e : Ev} (ha : Alone i e) (hst : Stays c r s)
    (h : ∀ x ∈ s.rows, key x = (c, r.id) → v ≤ x.2.ver) : ∀ x ∈ (step s e).rows, key x = (c, r.id) → v ≤ x.2.ver := by
  cases e with
  | ins c' r' =>
    simp only [step]
    split
    · exact h
    · rename_i hn
      intro x hx hk
      rcases List.mem_append.1 hx with hx | hx
      · exact h x hx hk
      · rw [List.mem_singleton] at hx
        subst hx
        obtain ⟨w, -, hm⟩ := hst.here
        exact absurd (List.any_eq_true.2 ⟨_, hm, by simpa [key] using hk.symm⟩) hn
  | upd c' id =>
    intro x hx hk
    have hx' : x ∈ s.rows.map (bump c' id) := hx
    obtain ⟨y, hy, rfl⟩ := List.mem_map.1 hx'
    have h1 : key (bump c' id y) = key y := by unfold bump; split <;> rfl
    have h2 : y.2.ver ≤ (bump c' id y).2.ver := by unfold bump; split <;> simp
    exact Nat.le_trans (h y hy (h1.symm.trans hk)) h2
  | gone id => exact ha.elim
  | sync x => exact h
  | post b => simp only [step]; split <;> exact h
  | startup => simp only [step]; split <;> exact h
  | job j e => simp only [step]; split <;> exact h

theorem covered_mono {c : Coll} {r : Row} {v : Nat} {rows rows' idx idx' : List Item} {j : Job}
    (h : Covered c r v rows idx j) (hr : rank (table rows c) r.born ≤ rank (table rows' c) r.born)
    (hf : fresh idx (c, r.id) v → (j.ph = .done ∨ ∃ c', j.ph = .index c') → fresh idx' (c, r.id) v) : Covered c r v rows' idx' j := by
  cases h with
  | before h => exact .before h
  | failed h => exact .failed h
  | paged h x hx hi hv => exact .paged h x hx hi hv
  | ahead h ho => exact .ahead h (Nat.le_trans ho hr)
  | over h hg => exact .over h (hg.imp_left (fun hg => hf hg h))

/-- A step of another rebuild, which does not empty collections. -/
theorem other_step {k : Coll × String} {rows idx : List Item} {j : Job} {e : JEv} (he : e ≠ .drop) (h : fresh idx k 0) :
    fresh (j.step rows idx e).1 k 0 := by
  cases e with
  | begin => simp only [Job.step]; split <;> exact h
  | drop => exact absurd rfl he
  | create now =>
    simp only [Job.step]
    split
    · exact fresh_store _ h (fun _ => Nat.zero_le _)
    · exact h
  | page order =>
    simp only [Job.step]
    split
    · split
      · split <;> exact h
      · exact h
    · exact h
  | put ok =>
    simp only [Job.step]
    split
    · cases ok
      · exact h
      · exact fresh_store _ h (fun _ => Nat.zero_le _)
    · exact h
  | memory => exact h
  | stop => simp only [Job.step]; split <;> exact h

theorem inv_step {c : Coll} {r : Row} {v i : Nat} (hc : indexed c) (hv : v ≤ r.ver) {s : Sys} {e : Ev} (ha : Alone i e)
    (hg : Guarded c r.id v i e) (hd : Distinct s.rows) (h : Inv c r v i s) : Inv c r v i (step s e) := by
  obtain ⟨j, hj, hb, hw, hcov⟩ := h.job
  have hrk := rank_step (s := s) ha c r.born
  have hstay := stays_step ha h.stays
  refine ⟨rows_step ha h.stays h.rows, hstay, ?_⟩
  have hlt : i < s.jobs.length := by
    rcases Nat.lt_or_ge i s.jobs.length with h | h
    · exact h
    · rw [List.getElem?_eq_none h] at hj; cases hj
  cases e with
  | ins c' r' =>
    simp only [step] at hrk ⊢
    split at hrk
    · rename_i hn; rw [if_pos hn]; exact ⟨j, hj, hb, hw, hcov⟩
    · rename_i hn; rw [if_neg hn]
      exact ⟨j, hj, hb, hw, covered_mono hcov hrk (fun h _ => h)⟩
  | upd c' id => exact ⟨j, hj, hb, hw, covered_mono hcov hrk (fun h _ => h)⟩
  | gone id => exact ha.elim
  | sync x => exact ⟨j, hj, hb, hw, covered_mono hcov hrk (fun h _ => fresh_store x h hg)⟩
  | post b =>
    simp only [step]
    split
    · exact ⟨j, by rw [List.getElem?_append_left hlt]; exact hj, hb, hw, hcov⟩
    · exact ⟨j, hj, hb, hw, hcov⟩
  | startup =>
    simp only [step]
    split
    · exact ⟨j, by rw [List.getElem?_append_left hlt]; exact hj, hb, hw, hcov⟩
    · exact ⟨j, hj, hb, hw, hcov⟩
  | job k e =>
    simp only [step]
    cases hk : s.jobs[k]? with
    | none => exact ⟨j, hj, hb, hw, hcov⟩
    | some jk =>
      have hklt : k < s.jobs.length := by
        rcases Nat.lt_or_ge k s.jobs.length with h | h
        · exact h
        · rw [List.getElem?_eq_none h] at hk; cases hk
      by_cases hki : k = i
      · subst hki
        rw [hj] at hk
        cases hk
        refine ⟨(j.step s.rows s.idx e).2, ?_, by rw [batch_step]; exact hb, page_step _ e h.rows hw, ?_⟩
        · rw [List.getElem?_set_self hklt]
        · obtain ⟨w, hwv, hm⟩ := h.stays.here
          exact covered_job hc hd hb ⟨w, Nat.le_trans hv hwv, hm⟩ hw hcov e
      · refine ⟨j, ?_, hb, hw, ?_⟩
        · rw [List.getElem?_set_ne hki]; exact hj
        · refine covered_mono hcov (Nat.le_refl _) ?_
          intro hf _
          have hv0 : v = 0 := hg.resolve_left hki
          subst hv0
          refine other_step ?_ hf
          intro he
          subst he
          exact hki ha

theorem inv_run {c : Coll} {r : Row} {v i : Nat} (hc : indexed c) (hv : v ≤ r.ver) (evs : List Ev) : ∀ (s : Sys), (∀ e ∈ evs, Alone i e) →
    (∀ e ∈ evs, Guarded c r.id v i e) → Distinct (run s evs).rows → Inv c r v i s → Distinct s.rows ∧ Inv c r v i (run s evs) := by
  induction evs with
  | nil => intro s _ _ hd h; exact ⟨hd, h⟩
  | cons e es ih =>
    intro s ha hg hd h
    have hds : ∀ (es : List Ev) (s : Sys), (∀ e ∈ es, Alone i e) → Distinct (run s es).rows → Distinct s.rows := by
      intro es
      induction es with
      | nil => intro s _ h; exact h
      | cons e es ih =>
        intro s ha h
        exact distinct_step (ha e List.mem_cons_self) (ih _ (fun x hx => ha x (List.mem_cons_of_mem _ hx)) h)
    have hd0 := hds (e :: es) s ha hd
    refine ⟨hd0, ?_⟩
    exact (ih _ (fun x hx => ha x (List.mem_cons_of_mem _ hx)) (fun x hx => hg x (List.mem_cons_of_mem _ hx)) hd
      (inv_step hc hv (ha e List.mem_cons_self) (hg e List.mem_cons_self) hd0 h)).2

/-- While nothing is deleted, no two records of a collection were made at the same time, and no
other rebuild empties collections: from any state in which rebuild `i` has not come to collection
`c`, whatever is added and changed meanwhile and however pages are cut, once it is completed every
record `c` had then is found, or named among the errors. -/
theorem c109_complete_partial (s : Sys) (evs : List Ev) (i : Nat) (j : Job) (hj : s.jobs[i]? = some j) (hb : j.batch ≠ 0)
    (c : Coll) (hc : indexed c) (hbef : Before c j.ph) (ha : ∀ e ∈ evs, Alone i e) (hd : Distinct (run s evs).rows)
    (j' : Job) (hj' : (run s evs).jobs[i]? = some j') (hdone : j'.ph = .done) (id : String) (h : found s.rows (c, id)) :
    found (run s evs).idx (c, id) ∨ (c, id) ∈ j'.errors := by
  obtain ⟨⟨c', r⟩, hr, hk⟩ := h
  have h1 : c' = c := congrArg Prod.fst hk
  have h2 : r.id = id := congrArg Prod.snd hk
  subst h1 h2
  have hinv := (inv_run (v := 0) (r := r) hc (Nat.zero_le _) evs s ha
    (by intro e _; cases e <;> simp [Guarded]) hd
    ⟨fun _ _ _ => Nat.zero_le _, ⟨r.ver, Nat.le_refl _, hr⟩, j, hj, hb, fun _ _ _ _ => Nat.zero_le _, .before hbef⟩).2
  obtain ⟨j2, hj2, -, -, hcov⟩ := hinv.job
  rw [hj'] at hj2
  cases hj2
  cases hcov with
  | before h => rw [hdone] at h; exact h.elim
  | failed h => rw [hdone] at h; cases h
  | paged h => rw [hdone] at h; cases h
  | ahead h => rw [hdone] at h; cases h
  | over h hf =>
    refine hf.imp_left ?_
    rintro ⟨x, hx, hk, -⟩
    exact ⟨x, hx, hk⟩

/-- An identity is made between two pages, another one changed, and one document is refused. -/
def busyRebuild : List Ev :=
  opening 0 ++ passOver 0 1 ++ [.job 0 (.page [⟨"c", 3, 1⟩, ⟨"b", 2, 1⟩, ⟨"a", 1, 1⟩]), .job 0 (.put true), .ins .identities ⟨"d", 4, 1⟩,
    .upd .identities "a", .job 0 .memory, .job 0 (.page [⟨"d", 4, 1⟩, ⟨"c", 3, 1⟩, ⟨"b", 2, 1⟩, ⟨"a", 1, 2⟩]), .job 0 (.put true),
    .job 0 (.page [⟨"d", 4, 1⟩, ⟨"c", 3, 1⟩, ⟨"b", 2, 1⟩, ⟨"a", 1, 2⟩]), .job 0 (.put false),
    .job 0 (.page [⟨"d", 4, 1⟩, ⟨"c", 3, 1⟩, ⟨"b", 2, 1⟩, ⟨"a", 1, 2⟩]), .job 0 (.put true),
    .job 0 (.page [⟨"d", 4, 1⟩, ⟨"c", 3, 1⟩, ⟨"b", 2, 1⟩, ⟨"a", 1, 2⟩])] ++ passOver 0 2

def threeIdentities : Sys := { rows := [idt "a" 1, idt "b" 2, idt "c" 3], jobs := [Job.new 1], cur := some 0 }

example : (∀ e ∈ busyRebuild, Alone 0 e) ∧ Distinct (run threeIdentities busyRebuild).rows ∧
    (run threeIdentities busyRebuild).completed ∧
    ((run threeIdentities busyRebuild).jobs.map (·.errors) = [[(.identities, "b")]]) ∧
    (table (run threeIdentities busyRebuild).idx .identities = [⟨"a", 1, 2⟩, ⟨"c", 3, 1⟩]) := by
  refine ⟨?_, by unfold Distinct; decide +kernel, by decide +kernel, by decide +kernel, by decide +kernel⟩
  simp [busyRebuild, opening, passOver, Alone, List.replicate]

/-! ### C113 -/

/-- Every change is followed by the index task for it before anything else happens, and there are
no other index tasks. -/
def Prompt (s : Sys) : List Ev → Prop
  | [] => True
  | .upd c id :: .sync x :: es =>
    x ∈ (step s (.upd c id)).rows ∧ key x = (c, id) ∧ Prompt (step (step s (.upd c id)) (.sync x)) es
  | .upd _ _ :: _ => False
  | .sync _ :: _ => False
  | e :: es => Prompt (step s e) es

/-- C113 in full: even if every change is indexed at once, a completed rebuild leaves every record
it holds as it is. -/
def C113Full : Prop := ∀ (rows : List Item) (evs : List Ev), rows.Pairwise (fun x y => key x ≠ key y) →
  Prompt { rows := rows } evs → (run { rows := rows } evs).completed →
  ∀ x ∈ (run { rows := rows } evs).idx, found (run { rows := rows } evs).rows (key x) → x ∈ (run { rows := rows } evs).rows

def overtakenRebuild : List Ev :=
  .post 0 :: (opening 0 ++ passOver 0 2 ++ [.job 0 (.page [⟨"bln_1", 1, 1⟩]), .upd .balances "bln_1",
    .sync (.balances, ⟨"bln_1", 1, 2⟩), .job 0 (.put true), .job 0 (.page [⟨"bln_1", 1, 2⟩])] ++ passOver 0 1)

/-- A balance changes after the rebuild has read it: the document of the index task is overwritten
with the old state. -/
theorem c113_overtaken_fails : ¬ C113Full := by
  intro h
  have := h [(.balances, ⟨"bln_1", 1, 1⟩)] overtakenRebuild (by decide +kernel)
    (by simp only [overtakenRebuild, opening, passOver, List.replicate, List.cons_append, List.nil_append, Prompt]
        exact ⟨by decide +kernel, by decide +kernel, trivial⟩)
    (by decide +kernel) (.balances, ⟨"bln_1", 1, 1⟩) (by decide +kernel) (by decide +kernel)
  exact absurd this (by decide +kernel)

/-- No two documents under one key. -/
def Uniq (l : List Item) : Prop := l.Pairwise (fun x y => key x ≠ key y)

theorem uniq_store {l : List Item} (x : Item) (h : Uniq l) : Uniq (store l x) := by
  unfold store Uniq at *
  rw [List.pairwise_cons]
  refine ⟨?_, h.sublist List.filter_sublist⟩
  intro y hy
  have := (List.mem_filter.1 hy).2
  intro he
  rw [he] at this
  simp at this

theorem uniq_job {rows idx : List Item} (j : Job) (e : JEv) (h : Uniq idx) : Uniq (j.step rows idx e).1 := by
  cases e with
  | begin => simp only [Job.step]; split <;> exact h
  | drop =>
    simp only [Job.step]
    split
    · exact h.sublist List.filter_sublist
    · exact h
    · exact h
  | create now =>
    simp only [Job.step]
    split
    · exact uniq_store _ h
    · exact h
  | page order =>
    simp only [Job.step]
    split
    · split
      · split <;> exact h
      · exact h
    · exact h
  | put ok =>
    simp only [Job.step]
    split
    · cases ok
      · exact h
      · exact uniq_store _ h
    · exact h
  | memory => exact h
  | stop => simp only [Job.step]; split <;> exact h

theorem uniq_run (evs : List Ev) : ∀ s : Sys, Uniq s.idx → Uniq (run s evs).idx := by
  induction evs with
  | nil => intro s h; exact h
  | cons e es ih =>
    intro s h
    refine ih _ ?_
    cases e with
    | ins c r => simp only [step]; split <;> exact h
    | upd c id => exact h
    | gone id => exact h
    | sync x => exact uniq_store x h
    | post b => simp only [step]; split <;> exact h
    | startup => simp only [step]; split <;> exact h
    | job i e =>
      simp only [step]
      split
      · exact h
      · exact uniq_job _ e h

theorem uniq_eq {l : List Item} (h : Uniq l) {x y : Item} (hx : x ∈ l) (hy : y ∈ l) (hk : key x = key y) : x = y := by
  induction l with
  | nil => cases hx
  | cons z l ih =>
    unfold Uniq at h
    rw [List.pairwise_cons] at h
    rcases List.mem_cons.1 hx with rfl | hx'
    · rcases List.mem_cons.1 hy with rfl | hy'
      · rfl
      · exact absurd hk (h.1 y hy')
    · rcases List.mem_cons.1 hy with rfl | hy'
      · exact absurd hk.symm (h.1 x hx')
      · exact ih h.2 hx' hy'

/-- If besides this rebuild only documents at least as new as the record was are written: what a
completed rebuild shows of the record is no older than the record was at its beginning. -/
theorem c113_fresh_partial (s : Sys) (hu : Uniq s.rows) (hi : Uniq s.idx) (evs : List Ev) (i : Nat) (j : Job) (hj : s.jobs[i]? = some j)
    (hb : j.batch ≠ 0) (c : Coll) (hc : indexed c) (hbef : Before c j.ph) (ha : ∀ e ∈ evs, Alone i e) (hd : Distinct (run s evs).rows)
    (r : Row) (hr : (c, r) ∈ s.rows) (hjobs : ∀ k e, Ev.job k e ∈ evs → k = i)
    (hsync : ∀ x, Ev.sync x ∈ evs → key x = (c, r.id) → r.ver ≤ x.2.ver)
    (j' : Job) (hj' : (run s evs).jobs[i]? = some j') (hdone : j'.ph = .done) (he : (c, r.id) ∉ j'.errors) :
    ∀ x ∈ (run s evs).idx, key x = (c, r.id) → r.ver ≤ x.2.ver := by
  have hinv := (inv_run (v := r.ver) (r := r) hc (Nat.le_refl _) evs s ha
    (by
      intro e hm
      cases e with
      | sync x => exact hsync x hm
      | job k e => exact .inl (hjobs k e hm)
      | _ => trivial) hd
    ⟨by intro x hx hk; rw [uniq_eq hu hx hr hk]; exact Nat.le_refl _, ⟨r.ver, Nat.le_refl _, hr⟩, j, hj, hb,
      by intro x _ hp; rw [hp] at hbef; exact absurd rfl hbef.1, .before hbef⟩).2
  obtain ⟨j2, hj2, -, -, hcov⟩ := hinv.job
  rw [hj'] at hj2
  cases hj2
  cases hcov with
  | before h => rw [hdone] at h; exact h.elim
  | failed h => rw [hdone] at h; cases h
  | paged h => rw [hdone] at h; cases h
  | ahead h => rw [hdone] at h; cases h
  | over h hf =>
    obtain ⟨y, hy, hk, hv⟩ := hf.resolve_right he
    intro x hx hkx
    rw [uniq_eq (uniq_run evs s hi) hx hy (hkx.trans hk.symm)]
    exact hv

/-- The balance of `overtakenRebuild`: shown as it was at the beginning, not later. -/
example : run { rows := [(.balances, ⟨"bln_1", 1, 1⟩)] } overtakenRebuild =
    { rows := [(.balances, ⟨"bln_1", 1, 2⟩)], idx := [(.balances, ⟨"bln_1", 1, 1⟩), (.ledgers, ⟨"general_ledger_id", 9, 0⟩)],
      jobs := [{ batch := 1000, ph := .done, processed := 1, all := 1, written := 1 }], cur := some 0 } := by decide +kernel

/-- `busyRebuild` meets the other hypotheses for the identity "a". -/
example : Uniq threeIdentities.rows ∧ Uniq threeIdentities.idx ∧ (.identities, (⟨"a", 1, 1⟩ : Row)) ∈ threeIdentities.rows ∧
    (∀ k e, Ev.job k e ∈ busyRebuild → k = 0) ∧ (∀ x, Ev.sync x ∉ busyRebuild) ∧
    ((run threeIdentities busyRebuild).jobs.map (fun j => decide ((Coll.identities, "a") ∉ j.errors)) = [true]) := by
  refine ⟨by unfold Uniq; decide +kernel, by unfold Uniq; decide +kernel, by decide +kernel, ?_, ?_, by decide +kernel⟩
  · intro k e h
    simp [busyRebuild, opening, passOver, List.replicate] at h
    omega
  · intro x h
    simp [busyRebuild, opening, passOver, List.replicate] at h

end Blnk.Reidx
