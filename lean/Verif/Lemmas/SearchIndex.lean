import Verif.Model.SearchIndex
/-! Facts about storing and finding records and about single steps of the index. -/
namespace Blnk.Srch

theorem find_store (l : List Rec) (r : Rec) (k : Coll × String) :
    find (store l r) k = if r.key = k then some r else find l k := by
  unfold find store
  rw [List.find?_cons]
  by_cases h : r.key = k
  · simp [h]
  · simp only [show (r.key == k) = false by simpa using h, h, if_false]
    induction l with
    | nil => rfl
    | cons x l ih =>
      by_cases hx : x.key = r.key
      · rw [List.filter_cons_of_neg (by simp [hx]), ih, List.find?_cons]
        rw [hx, show (r.key == k) = false by simpa using h]
      · rw [List.filter_cons_of_pos (by simp [hx]), List.find?_cons, List.find?_cons, ih]

theorem mem_store {l : List Rec} {r x : Rec} (h : x ∈ store l r) : x = r ∨ x ∈ l := by
  unfold store at h
  simp only [List.mem_cons, List.mem_filter] at h
  rcases h with h | h
  · exact Or.inl h
  · exact Or.inr h.1

theorem find_some {l : List Rec} {k : Coll × String} {r : Rec} (h : find l k = some r) : r ∈ l ∧ r.key = k := by
  unfold find at h
  have h1 := List.find?_some h
  exact ⟨List.mem_of_find?_eq_some h, by simpa using h1⟩

theorem find_of_mem {l : List Rec} {r : Rec} (h : r ∈ l) : ∃ r', find l r.key = some r' := by
  unfold find
  cases h' : l.find? (fun x => x.key == r.key) with
  | some r' => exact ⟨r', rfl⟩
  | none =>
    rw [List.find?_eq_none] at h'
    exact absurd (h' r h) (by simp)

theorem find_nil (k : Coll × String) : find [] k = none := rfl

theorem find_append (a b : List Rec) (k : Coll × String) : find (a ++ b) k = (find a k).or (find b k) := by
  unfold find; rw [List.find?_append]

theorem find_cons (r : Rec) (l : List Rec) (k : Coll × String) :
    find (r :: l) k = if r.key = k then some r else find l k := by
  unfold find
  rw [List.find?_cons]
  by_cases h : r.key = k
  · simp [h]
  · simp [h, show (r.key == k) = false by simpa using h]

theorem getElem?_set' {α : Type} (l : List α) (k : Nat) (x : α) (j : Nat) (hk : k < l.length) :
    (l.set k x)[j]? = if j = k then some x else l[j]? := by
  rw [List.getElem?_set]
  by_cases h : j = k
  · subst h; simp [hk]
  · simp [h, Ne.symm h]

theorem lt_of_some {α : Type} {l : List α} {i : Nat} {x : α} (h : l[i]? = some x) : i < l.length := by
  rw [List.getElem?_eq_some_iff] at h; exact h.1

theorem run_append (s : Sys) (a b : List Ev) : run s (a ++ b) = run (run s a) b := by
  induction a generalizing s with
  | nil => rfl
  | cons e a ih => exact ih _

/-- An invariant of single steps is one of runs. -/
theorem run_inv {P : Sys → Prop} (h : ∀ s e, P s → P (step s e)) (s : Sys) (evs : List Ev) (hs : P s) : P (run s evs) := by
  induction evs generalizing s with
  | nil => exact hs
  | cons e es ih => exact ih _ (h s e hs)

theorem run_inv_of {P : Sys → Prop} {Q : Ev → Prop} (h : ∀ s e, Q e → P s → P (step s e)) (s : Sys) (evs : List Ev)
    (hq : ∀ e ∈ evs, Q e) (hs : P s) : P (run s evs) := by
  induction evs generalizing s with
  | nil => exact hs
  | cons e es ih =>
    exact ih _ (fun e' he => hq e' (List.mem_cons_of_mem _ he)) (h s e (hq e List.mem_cons_self) hs)

/-- What a step does to the tasks and the index, apart from deeds: one task moves on, and
what comes into the index is an item of a task or the general ledger. -/
theorem mem_tasks_set {l : List Task} {i : Nat} {t t' : Task} (h : t' ∈ l.set i t) : t' = t ∨ t' ∈ l := by
  rcases List.mem_or_eq_of_mem_set h with h | h
  · exact Or.inr h
  · exact Or.inl h

theorem items_failed (t : Task) (m : Bool) : (t.failed m).items = t.items := by
  unfold Task.failed; split
  · rfl
  · split <;> rfl

theorem deps_sub {a b : BalanceRec} {r : Rec} (h : r ∈ deps a b) : r = .balance a ∨ r = .balance b := by
  unfold deps at h
  split at h <;> simp at h
  · exact Or.inl h
  · exact h

/-- The steps that do something. -/
inductive Moved (s : Sys) : Ev → Sys → Prop
  | deed (d : Deed) (sent : Bool) : Moved s (.deed d sent) (s.deed sent d)
  | stay (e : Ev) : Moved s e s
  | gone (i : Nat) (sent : Bool) (k : Coll × String) (hk : s.rereads[i]? = some k) (hf : find s.db k = none) :
      Moved s (.reread i sent) { s with rereads := s.rereads.eraseIdx i }
  | read (i : Nat) (sent : Bool) (k : Coll × String) (r : Rec) (hk : s.rereads[i]? = some k) (hf : find s.db k = some r) :
      Moved s (.reread i sent) ({ s with rereads := s.rereads.eraseIdx i }.queue [r] sent)
  | start (i : Nat) (now : Int) (t : Task) (ht : s.tasks[i]? = some t) (hw : t.st = .waiting) (hp : t.pos = none) :
      Moved s (.start i now) ({ s with idx := store s.idx (general now) }.setTask i { t with pos := some 0 })
  | put (i : Nat) (t : Task) (n : Nat) (r : Rec) (ht : s.tasks[i]? = some t) (hp : t.pos = some n) (hr : t.items[n]? = some r) :
      Moved s (.put i) ({ s with idx := store s.idx r }.setTask i { t with pos := some (n + 1) })
  | finish (i : Nat) (t : Task) (ht : s.tasks[i]? = some t) (hp : t.pos = some t.items.length) :
      Moved s (.finish i) (s.setTask i { t with st := .done, pos := none })
  | fail (i : Nat) (m : Bool) (t : Task) (n : Nat) (ht : s.tasks[i]? = some t) (hp : t.pos = some n) :
      Moved s (.fail i m) (s.setTask i (t.failed m))
  | drop : Moved s .drop { s with idx := [] }

theorem moved (s : Sys) (e : Ev) : Moved s e (step s e) := by
  cases e with
  | deed d sent => exact .deed d sent
  | reread i sent =>
    unfold step
    dsimp only
    split
    · exact .stay _
    · rename_i k hk
      split
      · rename_i hf; exact .gone i sent k hk hf
      · rename_i r hf; exact .read i sent k r hk hf
  | start i now =>
    unfold step
    dsimp only
    split
    · exact .stay _
    · rename_i t ht
      split
      · rename_i h; exact .start i now t ht h.1 h.2
      · exact .stay _
  | put i =>
    unfold step
    dsimp only
    split
    · exact .stay _
    · rename_i t ht
      split
      · exact .stay _
      · rename_i n hp
        split
        · exact .stay _
        · rename_i r hr; exact .put i t n r ht hp hr
  | finish i =>
    unfold step
    dsimp only
    split
    · exact .stay _
    · rename_i t ht
      split
      · rename_i h; exact .finish i t ht h
      · exact .stay _
  | fail i m =>
    unfold step
    dsimp only
    split
    · exact .stay _
    · rename_i t ht
      split
      · rename_i h
        obtain ⟨n, hn⟩ := Option.isSome_iff_exists.1 h
        exact .fail i m t n ht hn
      · exact .stay _
  | drop => exact .drop

end Blnk.Srch
