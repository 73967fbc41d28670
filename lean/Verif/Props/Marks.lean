import Verif.Model.Marks
import Verif.Props.Metadata
/-
C213: a transaction that says it was reconciled was matched with the record it names.
-/
namespace Blnk.Marks
open Blnk.Meta (Obj Row get keys concat mergeRows)

/-! ### Specification -/

/-- The row says that it was reconciled. -/
def Says (r : Row) : Prop := get (r.data.getD []) "reconciled" = some "true"

/-- What it says is this match. -/
def Names (r : Row) (m : Matched) : Prop :=
  get (r.data.getD []) "reconciliation_id" = some m.recon ∧ get (r.data.getD []) "external_txn_id" = some m.external ∧
  get (r.data.getD []) "reconciliation_amount" = some m.amount

/-- Clients leave the keys of the marks alone. -/
def Ev.honest : Ev → Prop
  | .insert _ data => ∀ k ∈ names, get (data.getD []) k = none
  | .copy _ _ extra => ∀ k ∈ names, get extra k = none
  | .client _ new => ∀ k ∈ names, get new k = none
  | _ => True

/-- C213: a transaction that says it was reconciled was matched, as it says; and one that was matched says
so, once the marks are written. -/
def C213Full : Prop := ∀ es : List Ev, (∀ e ∈ es, e.honest) →
  (∀ r ∈ (run {} es).rows, Says r → ∃ m ∈ (run {} es).matches_, m.internal = r.id ∧ Names r m) ∧
  ((∀ l ∈ (run {} es).todo, l = []) → ∀ m ∈ (run {} es).matches_, ∀ r ∈ (run {} es).rows, r.id = m.internal → Says r)

/-- `a` is `b` or stands above it. -/
inductive Above (rows : List Row) (a : String) : String → Prop
  | self : Above rows a a
  | under {r : Row} : r ∈ rows → Above rows a r.parent → Above rows a r.id

/-! ### Keys -/

theorem get_concat (cur : Option Obj) (new : Obj) (k : String) :
    get (concat cur new) k = match get new k with | some v => some v | none => get (cur.getD []) k :=
  Meta.concat_merged cur new k

theorem get_concat_none {cur : Option Obj} {new : Obj} {k : String} (h : get new k = none) :
    get (concat cur new) k = get (cur.getD []) k := by
  rw [get_concat, h]

theorem get_inherit {data : Option Obj} {extra : Obj} {k : String} (h : get extra k = none) (hk : k ≠ "inflight") :
    get (inherit data extra) k = get (data.getD []) k := by
  unfold inherit
  rw [get_concat_none h]
  cases data with
  | none => rfl
  | some d =>
    rw [Option.map_some, Option.getD_some, Option.getD_some]
    have := Meta.get_filter d (fun s => decide (s ≠ "inflight")) k
    simpa [hk] using this

theorem says_congr {r q : Row} (h : ∀ k ∈ names, get (q.data.getD []) k = get (r.data.getD []) k) :
    (Says q ↔ Says r) ∧ ∀ m, Names q m ↔ Names r m := by
  have h1 := h "reconciled" (by simp [names])
  have h2 := h "reconciliation_id" (by simp [names])
  have h3 := h "external_txn_id" (by simp [names])
  have h4 := h "reconciliation_amount" (by simp [names])
  constructor
  · unfold Says; rw [h1]
  · intro m; unfold Names; rw [h2, h3, h4]

theorem merged_mark (cur : Option Obj) (time : String) (m : Matched) (r : Row) (hr : r.data = some (concat cur (mark time m))) :
    Says r ∧ Names r m := by
  unfold Says Names
  rw [hr]
  refine ⟨?_, ?_, ?_, ?_⟩ <;> · rw [Option.getD_some, get_concat]; rfl

/-! ### The first half -/

/-- What a row says is a match of a transaction above it. -/
def Backed (s : State) (r : Row) (id : String) : Prop :=
  Says r → ∃ m ∈ s.matches_, Above s.rows m.internal id ∧ Names r m

structure Inv (s : State) : Prop where
  kinds : ∀ r ∈ s.rows, r.kind = .transactions
  rows : ∀ r ∈ s.rows, Backed s r r.id
  copies : ∀ r ∈ s.copies, r.kind = .transactions ∧ Backed s r r.parent
  todo : ∀ l ∈ s.todo, ∀ m ∈ l, m ∈ s.matches_

theorem above_mono {rows rows' : List Row} {a b : String}
    (h : ∀ r ∈ rows, ∃ r' ∈ rows', r'.id = r.id ∧ r'.parent = r.parent) (hab : Above rows a b) : Above rows' a b := by
  induction hab with
  | self => exact .self
  | under hr _ ih =>
    obtain ⟨r', hr', hid, hp⟩ := h _ hr
    rw [← hid]
    exact .under hr' (by rw [hp]; exact ih)

theorem mem_merge {rows : List Row} {id : String} {new : Obj} {q : Row} (h : q ∈ mergeRows rows id new) :
    ∃ r ∈ rows, q.id = r.id ∧ q.parent = r.parent ∧ q.kind = r.kind ∧
      (q = r ∨ (r.id = id ∨ r.parent = id) ∧ q.data = some (concat r.data new)) := by
  obtain ⟨r, hr, rfl⟩ := List.mem_map.1 h
  refine ⟨r, hr, ?_⟩
  by_cases hc : r.kind = .transactions ∧ (r.id = id ∨ r.parent = id)
  · rw [if_pos hc]; exact ⟨rfl, rfl, rfl, Or.inr ⟨hc.2, rfl⟩⟩
  · rw [if_neg hc]; exact ⟨rfl, rfl, rfl, Or.inl rfl⟩

theorem merge_rows {rows : List Row} (id : String) (new : Obj) {r : Row} (h : r ∈ rows) :
    ∃ q ∈ mergeRows rows id new, q.id = r.id ∧ q.parent = r.parent := by
  refine ⟨_, List.mem_map_of_mem h, ?_⟩
  split <;> exact ⟨rfl, rfl⟩

theorem backed_mono {s t : State} {r : Row} {id : String} (hb : Backed s r id) (hm : ∀ m ∈ s.matches_, m ∈ t.matches_)
    (hr : ∀ r ∈ s.rows, ∃ r' ∈ t.rows, r'.id = r.id ∧ r'.parent = r.parent) : Backed t r id := by
  intro hs
  obtain ⟨m, hmm, ha, hn⟩ := hb hs
  exact ⟨m, hm m hmm, above_mono hr ha, hn⟩

theorem backed_congr {s : State} {r q : Row} {id : String} (hb : Backed s r id)
    (h : ∀ k ∈ names, get (q.data.getD []) k = get (r.data.getD []) k) : Backed s q id := by
  intro hs
  obtain ⟨m, hmm, ha, hn⟩ := hb ((says_congr h).1.1 hs)
  exact ⟨m, hmm, ha, ((says_congr h).2 m).2 hn⟩

theorem inv_add {s : State} (h : Inv s) {c : Row} (hk : c.kind = .transactions)
    (hb : Backed { s with rows := s.rows ++ [c] } c c.id) : Inv { s with rows := s.rows ++ [c] } := by
  have hmono : ∀ r ∈ s.rows, ∃ r' ∈ s.rows ++ [c], r'.id = r.id ∧ r'.parent = r.parent :=
    fun r hr => ⟨r, List.mem_append_left _ hr, rfl, rfl⟩
  refine ⟨?_, ?_, ?_, h.todo⟩
  · intro r hr
    rcases List.mem_append.1 hr with hr | hr
    · exact h.kinds r hr
    · rw [List.mem_singleton] at hr; subst hr; exact hk
  · intro r hr
    rcases List.mem_append.1 hr with hr | hr
    · exact backed_mono (h.rows r hr) (fun _ hm => hm) hmono
    · rw [List.mem_singleton] at hr; subst hr; exact hb
  · intro r hr
    exact ⟨(h.copies r hr).1, backed_mono (h.copies r hr).2 (fun _ hm => hm) hmono⟩

theorem step_inv {s : State} (h : Inv s) (e : Ev) (he : e.honest) : Inv (step s e) := by
  cases e with
  | insert id data =>
    simp only [step]
    split
    · exact h
    · refine inv_add h rfl ?_
      intro hs
      have := he "reconciled" (by simp [names])
      unfold Says at hs
      dsimp only at hs
      rw [this] at hs
      cases hs
  | copy o id extra =>
    simp only [step]
    split
    · exact h
    · rename_i r hr
      have hro : r.id = o := by simpa using List.find?_some hr
      refine ⟨h.kinds, h.rows, ?_, h.todo⟩
      intro c hc
      rcases List.mem_append.1 hc with hc | hc
      · exact h.copies c hc
      · rw [List.mem_singleton] at hc
        subst hc
        refine ⟨rfl, ?_⟩
        have hb := h.rows r (List.mem_of_find?_eq_some hr)
        rw [hro] at hb
        refine backed_congr (r := r) hb ?_
        intro k hk
        refine get_inherit (he k hk) ?_
        intro hki
        subst hki
        simp [names] at hk
  | store k =>
    simp only [step]
    split
    · exact h
    · rename_i c hc
      split
      · exact h
      · obtain ⟨hk, hb⟩ := h.copies c (List.mem_of_getElem? hc)
        refine inv_add h hk ?_
        intro hs
        obtain ⟨m, hm, ha, hn⟩ := hb hs
        refine ⟨m, hm, .under (List.mem_append_right _ (List.mem_singleton.2 rfl)) ?_, hn⟩
        exact above_mono (fun r hr => ⟨r, List.mem_append_left _ hr, rfl, rfl⟩) ha
  | record dry ms stored =>
    simp only [step]
    split
    · exact h
    · have hm : ∀ m ∈ s.matches_, m ∈ s.matches_ ++ ms := fun m hm => List.mem_append_left _ hm
      have hr : ∀ r ∈ s.rows, ∃ r' ∈ s.rows, r'.id = r.id ∧ r'.parent = r.parent := fun r hr => ⟨r, hr, rfl, rfl⟩
      refine ⟨h.kinds, ?_, ?_, ?_⟩
      · intro r hr'; exact backed_mono (h.rows r hr') hm hr
      · intro r hr'; exact ⟨(h.copies r hr').1, backed_mono (h.copies r hr').2 hm hr⟩
      · intro l hl m hml
        rcases List.mem_append.1 hl with hl | hl
        · exact hm m (h.todo l hl m hml)
        · rw [List.mem_singleton] at hl; subst hl; exact List.mem_append_right _ hml
  | write k time ok =>
    simp only [step]
    split
    · rename_i m ms hk
      have hmem := List.mem_of_getElem? hk
      have htodo : ∀ l ∈ s.todo.set k ms, ∀ x ∈ l, x ∈ s.matches_ := by
        intro l hl x hx
        rcases List.mem_or_eq_of_mem_set hl with hl | rfl
        · exact h.todo l hl x hx
        · exact h.todo _ hmem x (List.mem_cons_of_mem _ hx)
      split
      · have hmono : ∀ r ∈ s.rows, ∃ r' ∈ mergeRows s.rows m.internal (mark time m), r'.id = r.id ∧ r'.parent = r.parent :=
          fun r hr => merge_rows _ _ hr
        refine ⟨?_, ?_, ?_, htodo⟩
        · intro q hq
          obtain ⟨r, hr, _, _, hkd, _⟩ := mem_merge hq
          rw [hkd]; exact h.kinds r hr
        · intro q hq
          obtain ⟨r, hr, hid, hp, _, hd⟩ := mem_merge hq
          rcases hd with rfl | ⟨hor, hd⟩
          · exact backed_mono (h.rows q hr) (fun _ hm => hm) hmono
          · intro _
            refine ⟨m, h.todo _ hmem m (by simp), ?_, (merged_mark _ _ _ _ hd).2⟩
            rcases hor with hi | hi
            · rw [hid, hi]; exact .self
            · exact .under hq (by rw [hp, hi]; exact .self)
        · intro r hr
          exact ⟨(h.copies r hr).1, backed_mono (h.copies r hr).2 (fun _ hm => hm) hmono⟩
      · exact ⟨h.kinds, h.rows, h.copies, htodo⟩
    · exact h
  | client id new =>
    have hmono : ∀ r ∈ s.rows, ∃ r' ∈ mergeRows s.rows id new, r'.id = r.id ∧ r'.parent = r.parent :=
      fun r hr => merge_rows _ _ hr
    refine ⟨?_, ?_, ?_, h.todo⟩
    · intro q hq
      obtain ⟨r, hr, _, _, hkd, _⟩ := mem_merge hq
      rw [hkd]; exact h.kinds r hr
    · intro q hq
      obtain ⟨r, hr, hid, _, _, hd⟩ := mem_merge hq
      have hb := backed_mono (t := step s (.client id new)) (h.rows r hr) (fun _ hm => hm) hmono
      rw [hid]
      refine backed_congr hb ?_
      intro k hk
      rcases hd with rfl | ⟨_, hd⟩
      · rfl
      · rw [hd, Option.getD_some, get_concat_none (he k hk)]
    · intro r hr
      exact ⟨(h.copies r hr).1, backed_mono (h.copies r hr).2 (fun _ hm => hm) hmono⟩
  | crash => exact ⟨h.kinds, h.rows, h.copies, fun _ hl => by cases hl⟩

theorem run_inv (es : List Ev) : ∀ {s : State}, Inv s → (∀ e ∈ es, e.honest) → Inv (run s es) := by
  induction es with
  | nil => intro s h _; exact h
  | cons e es ih => intro s h he; exact ih (step_inv h e (he e (by simp))) (fun x hx => he x (List.mem_cons_of_mem _ hx))

theorem inv_empty : Inv {} :=
  ⟨fun _ h => (by cases h), fun _ h => (by cases h), fun _ h => (by cases h), fun _ h => (by cases h)⟩

/-- First half: what a transaction says of its reconciliation is a stored match, of itself or of a
transaction above it. -/
theorem c213_family {es : List Ev} (he : ∀ e ∈ es, e.honest) {r : Row} (hr : r ∈ (run {} es).rows) (hs : Says r) :
    ∃ m ∈ (run {} es).matches_, Above (run {} es).rows m.internal r.id ∧ Names r m :=
  (run_inv es inv_empty he).rows r hr hs

/-- First half as stated, for transactions with no matched transaction above them. Missing: rows under a
matched transaction (`c213_refund`, `c213_child`). -/
theorem c213_own_partial {es : List Ev} (he : ∀ e ∈ es, e.honest) {r : Row} (hr : r ∈ (run {} es).rows) (hs : Says r)
    (ht : ∀ m ∈ (run {} es).matches_, Above (run {} es).rows m.internal r.id → m.internal = r.id) :
    ∃ m ∈ (run {} es).matches_, m.internal = r.id ∧ Names r m := by
  obtain ⟨m, hm, ha, hn⟩ := c213_family he hr hs
  exact ⟨m, hm, ht m hm ha, hn⟩

/-! ### Dry runs -/

theorem no_matches {es : List Ev} : ∀ {s : State}, s.matches_ = [] →
    (∀ e ∈ es, ∀ dry ms stored, e = .record dry ms stored → dry = true) → (run s es).matches_ = [] := by
  induction es with
  | nil => intro s h _; exact h
  | cons e es ih =>
    intro s h he
    refine ih ?_ (fun x hx => he x (List.mem_cons_of_mem _ hx))
    cases e with
    | insert id data => simp only [step]; split <;> exact h
    | copy o id extra => simp only [step]; split <;> exact h
    | store k => simp only [step]; split; · exact h
                 split <;> exact h
    | record dry ms stored =>
      have := he _ (by simp) dry ms stored rfl
      subst this
      simpa [step] using h
    | write k time ok =>
      simp only [step]
      split
      · split <;> exact h
      · exact h
    | client id new => exact h
    | crash => exact h

/-- Dry runs leave no transaction saying that it was reconciled. -/
theorem c213_dry {es : List Ev} (he : ∀ e ∈ es, e.honest)
    (hd : ∀ e ∈ es, ∀ dry ms stored, e = .record dry ms stored → dry = true) {r : Row} (hr : r ∈ (run {} es).rows) : ¬ Says r := by
  intro hs
  obtain ⟨m, hm, _⟩ := c213_family he hr hs
  rw [no_matches rfl hd] at hm
  cases hm

/-! ### The second half -/

/-- A match is marked, will be, or its mark was given up. -/
structure Inv2 (s : State) : Prop where
  kinds : ∀ r ∈ s.rows, r.kind = .transactions
  copies : ∀ r ∈ s.copies, r.kind = .transactions
  known : ∀ m ∈ s.matches_, known s m.internal = true
  marked : ∀ m ∈ s.matches_, (∃ l ∈ s.todo, m ∈ l) ∨ m ∈ s.lost ∨ ∀ r ∈ s.rows, r.id = m.internal → Says r

theorem known_iff {s : State} {id : String} : known s id = true ↔ ∃ r ∈ s.rows, r.id = id := by
  simp [known]

theorem inv2_add {s : State} (h : Inv2 s) {c : Row} (hk : c.kind = .transactions) (hnew : ¬ known s c.id = true) :
    Inv2 { s with rows := s.rows ++ [c] } := by
  refine ⟨?_, h.copies, ?_, ?_⟩
  · intro r hr
    rcases List.mem_append.1 hr with hr | hr
    · exact h.kinds r hr
    · rw [List.mem_singleton] at hr; subst hr; exact hk
  · intro m hm
    obtain ⟨r, hr, hid⟩ := known_iff.1 (h.known m hm)
    exact known_iff.2 ⟨r, List.mem_append_left _ hr, hid⟩
  · intro m hm
    rcases h.marked m hm with h' | h' | h'
    · exact Or.inl h'
    · exact Or.inr (Or.inl h')
    · refine Or.inr (Or.inr ?_)
      intro r hr hid
      rcases List.mem_append.1 hr with hr | hr
      · exact h' r hr hid
      · rw [List.mem_singleton] at hr
        subst hr
        exact absurd (by rw [hid]; exact h.known m hm) hnew

theorem merge_known {s : State} {id x : String} {new : Obj} (h : known s x = true) :
    known { s with rows := mergeRows s.rows id new } x = true := by
  obtain ⟨r, hr, hid⟩ := known_iff.1 h
  obtain ⟨q, hq, hqi, _⟩ := merge_rows id new hr
  exact known_iff.2 ⟨q, hq, by rw [hqi, hid]⟩

theorem step_inv2 {s : State} (h : Inv2 s) (e : Ev) (he : e.honest) : Inv2 (step s e) := by
  cases e with
  | insert id data =>
    simp only [step]
    split
    · exact h
    · rename_i hn; exact inv2_add h rfl hn
  | copy o id extra =>
    simp only [step]
    split
    · exact h
    · refine ⟨h.kinds, ?_, h.known, h.marked⟩
      intro c hc
      rcases List.mem_append.1 hc with hc | hc
      · exact h.copies c hc
      · rw [List.mem_singleton] at hc; subst hc; rfl
  | store k =>
    simp only [step]
    split
    · exact h
    · rename_i c hc
      split
      · exact h
      · rename_i hn; exact inv2_add h (h.copies c (List.mem_of_getElem? hc)) hn
  | record dry ms stored =>
    simp only [step]
    split
    · exact h
    · rename_i hc
      simp only [Bool.or_eq_true, Bool.not_eq_true', not_or, Bool.not_eq_true, Bool.not_eq_false] at hc
      refine ⟨h.kinds, h.copies, ?_, ?_⟩
      · intro m hm
        rcases List.mem_append.1 hm with hm | hm
        · exact h.known m hm
        · exact List.all_eq_true.1 hc.2 m hm
      · intro m hm
        rcases List.mem_append.1 hm with hm | hm
        · rcases h.marked m hm with ⟨l, hl, hml⟩ | h' | h'
          · exact Or.inl ⟨l, List.mem_append_left _ hl, hml⟩
          · exact Or.inr (Or.inl h')
          · exact Or.inr (Or.inr h')
        · exact Or.inl ⟨ms, List.mem_append_right _ (List.mem_singleton.2 rfl), hm⟩
  | write k time ok =>
    simp only [step]
    split
    · rename_i x ms hk
      have keep : ∀ m, (∃ l ∈ s.todo, m ∈ l) → m = x ∨ ∃ l ∈ s.todo.set k ms, m ∈ l := by
        rintro m ⟨l, hl, hml⟩
        obtain ⟨j, hj⟩ := List.getElem?_of_mem hl
        by_cases hjk : j = k
        · subst hjk
          rw [hk, Option.some.injEq] at hj
          subst hj
          rcases List.mem_cons.1 hml with rfl | hml
          · exact Or.inl rfl
          · refine Or.inr ⟨ms, ?_, hml⟩
            apply List.mem_of_getElem? (i := j)
            rw [List.getElem?_set_self (by
              have := List.getElem?_eq_some_iff.1 hk
              exact this.1)]
        · refine Or.inr ⟨l, ?_, hml⟩
          apply List.mem_of_getElem? (i := j)
          rw [List.getElem?_set_ne (fun h => hjk h.symm)]
          exact hj
      split
      · refine ⟨?_, h.copies, fun m hm => merge_known (h.known m hm), ?_⟩
        · intro q hq
          obtain ⟨r, hr, _, _, hkd, _⟩ := mem_merge hq
          rw [hkd]; exact h.kinds r hr
        · intro m hm
          have done : (m = x ∨ ∀ r ∈ s.rows, r.id = m.internal → Says r) →
              ∀ r ∈ mergeRows s.rows x.internal (mark time x), r.id = m.internal → Says r := by
            intro hor q hq hid
            obtain ⟨r, hr, hqi, _, _, hd⟩ := mem_merge hq
            rcases hd with rfl | ⟨_, hd⟩
            · rcases hor with rfl | hor
              · obtain ⟨r0, _, hqe⟩ := List.mem_map.1 hq
                by_cases hc : r0.kind = .transactions ∧ (r0.id = m.internal ∨ r0.parent = m.internal)
                · rw [if_pos hc] at hqe
                  exact (merged_mark r0.data time m q (by rw [← hqe])).1
                · rw [if_neg hc] at hqe
                  subst hqe
                  exact absurd ⟨h.kinds _ hr, Or.inl hid⟩ hc
              · exact hor q hr hid
            · exact (merged_mark _ _ _ _ hd).1
          rcases h.marked m hm with h' | h' | h'
          · rcases keep m h' with rfl | h'
            · exact Or.inr (Or.inr (done (Or.inl rfl)))
            · exact Or.inl h'
          · exact Or.inr (Or.inl h')
          · exact Or.inr (Or.inr (done (Or.inr h')))
      · refine ⟨h.kinds, h.copies, h.known, ?_⟩
        intro m hm
        rcases h.marked m hm with h' | h' | h'
        · rcases keep m h' with rfl | h'
          · exact Or.inr (Or.inl (by simp))
          · exact Or.inl h'
        · exact Or.inr (Or.inl (List.mem_cons_of_mem _ h'))
        · exact Or.inr (Or.inr h')
    · exact h
  | client id new =>
    refine ⟨?_, h.copies, fun m hm => merge_known (h.known m hm), ?_⟩
    · intro q hq
      obtain ⟨r, hr, _, _, hkd, _⟩ := mem_merge hq
      rw [hkd]; exact h.kinds r hr
    · intro m hm
      rcases h.marked m hm with h' | h' | h'
      · exact Or.inl h'
      · exact Or.inr (Or.inl h')
      · refine Or.inr (Or.inr ?_)
        intro q hq hid
        obtain ⟨r, hr, hqi, _, _, hd⟩ := mem_merge hq
        have hsr := h' r hr (by rw [← hqi, hid])
        rcases hd with rfl | ⟨_, hd⟩
        · exact hsr
        · unfold Says
          rw [hd, Option.getD_some, get_concat_none (he "reconciled" (by simp [names]))]
          exact hsr
  | crash =>
    refine ⟨h.kinds, h.copies, h.known, ?_⟩
    intro m hm
    rcases h.marked m hm with ⟨l, hl, hml⟩ | h' | h'
    · exact Or.inr (Or.inl (List.mem_append_left _ (List.mem_flatten.2 ⟨l, hl, hml⟩)))
    · exact Or.inr (Or.inl (List.mem_append_right _ h'))
    · exact Or.inr (Or.inr h')

theorem run_inv2 (es : List Ev) : ∀ {s : State}, Inv2 s → (∀ e ∈ es, e.honest) → Inv2 (run s es) := by
  induction es with
  | nil => intro s h _; exact h
  | cons e es ih => intro s h he; exact ih (step_inv2 h e (he e (by simp))) (fun x hx => he x (List.mem_cons_of_mem _ hx))

/-- Nothing that was to be marked is given up when no mark fails and the process lives on. -/
theorem lost_nil {es : List Ev} : ∀ {s : State}, s.lost = [] →
    (∀ e ∈ es, e ≠ .crash ∧ ∀ k time, e ≠ .write k time false) → (run s es).lost = [] := by
  induction es with
  | nil => intro s h _; exact h
  | cons e es ih =>
    intro s h he
    refine ih ?_ (fun x hx => he x (List.mem_cons_of_mem _ hx))
    cases e with
    | insert id data => simp only [step]; split <;> exact h
    | copy o id extra => simp only [step]; split <;> exact h
    | store k => simp only [step]; split; · exact h
                 split <;> exact h
    | record dry ms stored => simp only [step]; split <;> exact h
    | write k time ok =>
      cases ok with
      | false => exact absurd rfl ((he _ (by simp)).2 k time)
      | true => simp only [step]; split <;> exact h
    | client id new => exact h
    | crash => exact absurd rfl (he _ (by simp)).1

/-- Second half as stated, when no mark fails and no process ends before its marks are written: every
matched transaction says so, whatever else happens to its metadata. Missing: marks are not tried again
(`c213_lost`). -/
theorem c213_marked_partial {es : List Ev} (he : ∀ e ∈ es, e.honest)
    (hf : ∀ e ∈ es, e ≠ .crash ∧ ∀ k time, e ≠ .write k time false) (hd : ∀ l ∈ (run {} es).todo, l = [])
    {m : Matched} (hm : m ∈ (run {} es).matches_) {r : Row} (hr : r ∈ (run {} es).rows) (hid : r.id = m.internal) : Says r := by
  have h : Inv2 (run {} es) := run_inv2 es
    ⟨fun _ h => (by cases h), fun _ h => (by cases h), fun _ h => (by cases h), fun _ h => (by cases h)⟩ he
  rcases h.marked m hm with ⟨l, hl, hml⟩ | h' | h'
  · rw [hd l hl] at hml; cases hml
  · rw [lost_nil rfl hf] at h'; cases h'
  · exact h' r hr hid

/-! ### Where it fails -/

def sale : Matched := { recon := "recon_1", external := "bank_7", internal := "txn_1", amount := "50" }

/-- A payment is matched and later refunded. -/
def refunded : List Ev :=
  [.insert "txn_1" none, .record false [sale] true, .write 0 "t" true, .copy "txn_1" "txn_2" [], .store 0]

/-- A payment is refunded and later matched. -/
def matchedLate : List Ev :=
  [.insert "txn_1" none, .copy "txn_1" "txn_2" [], .store 0, .record false [sale] true, .write 0 "t" true]

/-- The process ends before the mark is written. -/
def stopped : List Ev := [.insert "txn_1" none, .record false [sale] true, .crash]

instance (r : Row) : Decidable (Says r) := inferInstanceAs (Decidable (_ = _))

/-- The refund of a matched payment says that it was matched with the bank's record of the payment. -/
theorem c213_refund : (run {} refunded).rows.map (fun r => (r.id, decide (Says r))) = [("txn_1", true), ("txn_2", true)] ∧
    (run {} refunded).matches_ = [sale] := by decide +kernel

/-- So does a refund that was made before. -/
theorem c213_child : (run {} matchedLate).rows.map (fun r => (r.id, decide (Says r))) = [("txn_1", true), ("txn_2", true)] ∧
    (run {} matchedLate).matches_ = [sale] := by decide +kernel

/-- A match without a mark. -/
theorem c213_lost : (run {} stopped).rows.map (fun r => decide (Says r)) = [false] ∧ (run {} stopped).matches_ = [sale] ∧
    (run {} stopped).todo = [] := by decide +kernel

theorem honest_refunded : ∀ e ∈ refunded, e.honest := by
  intro e he
  simp only [refunded, List.mem_cons, List.not_mem_nil, or_false] at he
  rcases he with rfl | rfl | rfl | rfl | rfl <;> simp [Ev.honest, Meta.get]

/-- C213 does not hold as stated. -/
theorem c213_full_fails : ¬ C213Full := by
  intro h
  obtain ⟨h1, _⟩ := h refunded honest_refunded
  have hrow : ∃ r ∈ (run {} refunded).rows, r.id = "txn_2" ∧ Says r := by decide +kernel
  obtain ⟨r, hr, hid, hs⟩ := hrow
  obtain ⟨m, hm, hmi, _⟩ := h1 r hr hs
  rw [c213_refund.2, List.mem_singleton] at hm
  subst hm
  rw [hid] at hmi
  exact absurd hmi (by decide)

/-! ### Cases -/

/-- Two records of the bank for one payment: the payment names the later one only. -/
def twice : List Ev :=
  [.insert "txn_1" (some [("order", "9")]), .insert "txn_3" none,
   .record false [sale, { sale with external := "bank_8" }] true, .client "txn_1" [("note", "x")], .write 0 "t" true, .write 0 "t" true]

example : (run {} twice).rows.map (fun r => (decide (Says r), Meta.get (r.data.getD []) "external_txn_id", Meta.get (r.data.getD []) "order")) =
    [(true, some "bank_8", some "9"), (false, none, none)] := by decide +kernel

/-- It meets the hypotheses of both halves. -/
example : (∀ e ∈ twice, e ≠ .crash ∧ ∀ k time, e ≠ .write k time false) ∧ (run {} twice).todo = [[]] := by
  constructor
  · intro e he
    simp only [twice, List.mem_cons, List.not_mem_nil, or_false] at he
    rcases he with rfl | rfl | rfl | rfl | rfl | rfl <;> simp
  · rfl

end Blnk.Marks
