import Verif.Props.HookCalls
/-
C94, for requests that come one after the other: the lists of both stages.
-/
namespace Blnk.Hooks

/-- A request from beginning to end, with nothing between its commands; `n` is its number. Four
commands are the most a request has. -/
def whole (n : Nat) (r : Req) : List Ev := [.ask r, .go n .ok, .go n .ok, .go n .ok, .go n .ok]

/-- Requests one after the other. -/
def oneByOne (s : Sys) : List Req → Sys
  | [] => s
  | r :: rs => oneByOne (hsteps s (whole s.procs.length r)) rs

/-- No registration takes an id that is in use, and nothing is fired. -/
def Orderly (s : Sys) : List Req → Prop
  | [] => True
  | r :: rs => (match r with | .register h => s.get h.id = none | .fire _ => False | _ => True) ∧
      Orderly (hsteps s (whole s.procs.length r)) rs

/-- The set of a type holds the ids of the hooks of that type and no others. -/
structure Neat (s : Sys) : Prop where
  sets : ∀ key id, id ∈ s.sets key ↔ ∃ h, s.store id = some h ∧ typeKey h.typ = key
  ids : ∀ id h, s.store id = some h → h.id = id

/-- A request seen as four moves of its process. -/
def moves (s : Sys) (p : Proc) : Nat → Sys × Proc
  | 0 => (s, p)
  | n + 1 => let r := advance s .ok p; moves r.1 r.2 n

theorem advance_frame (s : Sys) (o : Out) (p : Proc) (ps : List Proc) :
    (advance { s with procs := ps } o p).1 = { (advance s o p).1 with procs := ps } ∧
    (advance { s with procs := ps } o p).2 = (advance s o p).2 := by
  cases p <;> simp only [advance, write, Sys.put, Sys.sadd, Sys.srem, Sys.del, Sys.ack]
  case updGet => split <;> (try split) <;> exact ⟨rfl, rfl⟩
  case delGet => split <;> (try split) <;> exact ⟨rfl, rfl⟩
  case fireList => split <;> exact ⟨rfl, rfl⟩
  case fireGet f ids acc =>
    cases ids <;> dsimp only <;> split <;> (try exact ⟨rfl, rfl⟩)
    split <;> exact ⟨rfl, rfl⟩
  case fireQueue ws =>
    cases ws with
    | nil => exact ⟨rfl, rfl⟩
    | cons w ws => cases o <;> exact ⟨rfl, rfl⟩
  case idle => exact ⟨trivial, trivial⟩
  all_goals cases o <;> exact ⟨rfl, rfl⟩

theorem go_last (s : Sys) (ps : List Proc) (p : Proc) :
    hstep { s with procs := ps ++ [p] } (.go ps.length .ok) =
      { (advance s .ok p).1 with procs := ps ++ [(advance s .ok p).2] } := by
  have h : (ps ++ [p])[ps.length]? = some p := by simp
  simp only [hstep, h]
  obtain ⟨h1, h2⟩ := advance_frame s .ok p (ps ++ [p])
  rw [h1, h2]
  simp

/-- What a whole request leaves. -/
theorem whole_moves (s : Sys) (r : Req) :
    hsteps s (whole s.procs.length r) =
      { (moves s (r.start s.now) 4).1 with procs := s.procs ++ [(moves s (r.start s.now) 4).2] } := by
  have h0 : hstep s (.ask r) = { s with procs := s.procs ++ [r.start s.now] } := rfl
  simp only [whole, hsteps, h0, go_last, moves]

theorem idle_moves (s : Sys) (n : Nat) : moves s .idle n = (s, .idle) := by
  induction n with
  | zero => rfl
  | succ n ih => exact ih

theorem neat_of {s s' : Sys} (h1 : s'.store = s.store) (h2 : s'.sets = s.sets) (h : Neat s) : Neat s' :=
  ⟨by rw [h1, h2]; exact h.sets, by rw [h1]; exact h.ids⟩

theorem mem_sadd {s : Sys} {key k id x : String} : x ∈ (s.sadd key id).sets k ↔ x ∈ s.sets k ∨ (k = key ∧ x = id) := by
  simp only [Sys.sadd]
  by_cases hk : k = key
  · rw [if_pos hk]
    by_cases hi : id ∈ s.sets k
    · rw [if_pos hi]; exact ⟨.inl, fun h => h.elim (fun h => h) fun e => by rw [e.2]; exact hi⟩
    · rw [if_neg hi]; simp [hk]
  · rw [if_neg hk]; simp [hk]

theorem mem_srem {s : Sys} {key k id x : String} : x ∈ (s.srem key id).sets k ↔ x ∈ s.sets k ∧ ¬ (k = key ∧ x = id) := by
  simp only [Sys.srem]
  by_cases hk : k = key
  · rw [if_pos hk]; simp [hk]
  · rw [if_neg hk]; simp [hk]

/-- A stored hook replaces one of the same type, or comes with its entry in the sets. -/
theorem neat_put {s : Sys} (x : Hook) (sets : String → List String) (h : Neat s)
    (hs : ∀ key id, id ∈ sets key ↔ (id ≠ x.id ∧ id ∈ s.sets key) ∨ (id = x.id ∧ key = typeKey x.typ)) :
    Neat { s.put x with sets := sets } := by
  refine ⟨fun key id => ?_, fun id y hy => ?_⟩
  · show id ∈ sets key ↔ ∃ y, (if id = x.id then some x else s.store id) = some y ∧ typeKey y.typ = key
    rw [hs]
    by_cases hi : id = x.id
    · rw [if_pos hi]
      simp only [hi, ne_eq, not_true_eq_false, false_and, true_and, false_or, Option.some.injEq]
      exact ⟨fun e => ⟨x, rfl, e.symm⟩, fun ⟨y, h1, h2⟩ => by rw [h1]; exact h2.symm⟩
    · rw [if_neg hi]
      simp only [ne_eq, hi, not_false_eq_true, true_and, false_and, or_false]
      exact h.sets key id
  · have hy' : (if id = x.id then some x else s.store id) = some y := hy
    by_cases hi : id = x.id
    · rw [if_pos hi] at hy'; simp only [Option.some.injEq] at hy'; rw [← hy', hi]
    · rw [if_neg hi] at hy'; exact h.ids id y hy'

theorem neat_whole {s : Sys} (h : Neat s) (r : Req)
    (hr : match r with | .register h => s.get h.id = none | .fire _ => False | _ => True) :
    Neat (hsteps s (whole s.procs.length r)) := by
  rw [whole_moves]
  refine neat_of rfl rfl (s := (moves s (r.start s.now) 4).1) ?_
  cases r with
  | fire f => exact hr.elim
  | register x =>
    simp only [Req.start]
    cases hv : validate { x with created := s.now } with
    | none => rw [idle_moves]; exact h
    | some y =>
      obtain ⟨h1, -⟩ := validate_keeps hv
      have hn : s.store y.id = none := by rw [h1]; exact hr
      show Neat (moves (((s.put y).sadd (typeKey y.typ) y.id).ack _) .idle 2).1
      rw [idle_moves]
      refine neat_of (s := { s.put y with sets := ((s.put y).sadd (typeKey y.typ) y.id).sets }) rfl rfl (neat_put y _ h fun key id => ?_)
      rw [mem_sadd]
      have hnot : y.id ∉ s.sets key := fun hm => by
        obtain ⟨z, hz, _⟩ := (h.sets key y.id).1 hm
        rw [hn] at hz; simp at hz
      show id ∈ s.sets key ∨ _ ↔ _
      constructor
      · rintro (hm | ⟨h1, h2⟩)
        · exact .inl ⟨fun e => hnot (e ▸ hm), hm⟩
        · exact .inr ⟨h2, h1⟩
      · rintro (⟨_, hm⟩ | ⟨h1, h2⟩)
        · exact .inl hm
        · exact .inr ⟨h2, h1⟩
  | update id x =>
    simp only [Req.start]
    cases hg : s.store id with
    | none =>
      have : moves s (.updGet id x) 4 = moves s .idle 3 := by
        show moves (advance s .ok (.updGet id x)).1 (advance s .ok (.updGet id x)).2 3 = _
        simp only [advance, if_true, hg]
      rw [this, idle_moves]; exact h
    | some old =>
      have hid := h.ids id old hg
      have hmi : (merged old x).id = id := hid
      have hmt : (merged old x).typ = x.typ := rfl
      by_cases ht : old.typ = x.typ
      · have : moves s (.updGet id x) 4 = moves ((s.put (merged old x)).ack (.updated (merged old x))) .idle 2 := by
          show moves (advance s .ok (.updGet id x)).1 (advance s .ok (.updGet id x)).2 3 = _
          simp only [advance, if_true, hg, ht, ne_eq, not_true_eq_false, if_false]
          rfl
        rw [this, idle_moves]
        refine neat_of (s := { s.put (merged old x) with sets := s.sets }) rfl rfl (neat_put _ _ h fun key i => ?_)
        rw [hmi, hmt]
        by_cases hi : i = id
        · simp only [hi, ne_eq, not_true_eq_false, false_and, true_and, false_or]
          rw [h.sets key id, hg]
          simp only [Option.some.injEq]
          exact ⟨fun ⟨z, h1, h2⟩ => by rw [← h2, ← h1, ht], fun e => ⟨old, rfl, by rw [ht]; exact e.symm⟩⟩
        · simp [hi]
      · have : moves s (.updGet id x) 4 =
            ((((s.srem (typeKey old.typ) id).sadd (typeKey x.typ) id).put (merged old x)).ack (.updated (merged old x)), .idle) := by
          show moves (advance s .ok (.updGet id x)).1 (advance s .ok (.updGet id x)).2 3 = _
          simp only [advance, if_true, hg, ne_eq, ht, not_false_eq_true]
          simp only [moves, advance, write, hmi, hmt]
        rw [this]
        refine neat_of (s := { s.put (merged old x) with sets := ((s.srem (typeKey old.typ) id).sadd (typeKey x.typ) id).sets }) rfl rfl
          (neat_put _ _ h fun key i => ?_)
        rw [hmi, hmt, mem_sadd, mem_srem]
        by_cases hi : i = id
        · simp only [hi, and_true, ne_eq, not_true_eq_false, false_and, true_and, false_or]
          rw [h.sets key id, hg]
          simp only [Option.some.injEq]
          constructor
          · rintro (⟨⟨z, h1, h2⟩, h3⟩ | h1)
            · exact absurd (by rw [h1, h2]) h3
            · exact h1
          · exact .inr
        · simp [hi]
  | delete id =>
    simp only [Req.start]
    cases hg : s.store id with
    | none =>
      have : moves s (.delGet id) 4 = moves s .idle 3 := by
        show moves (advance s .ok (.delGet id)).1 (advance s .ok (.delGet id)).2 3 = _
        simp only [advance, if_true, hg]
      rw [this, idle_moves]; exact h
    | some old =>
      have : moves s (.delGet id) 4 = (((s.del id).srem (typeKey old.typ) id).ack (.deleted id), .idle) := by
        show moves (advance s .ok (.delGet id)).1 (advance s .ok (.delGet id)).2 3 = _
        simp only [advance, if_true, hg]
        simp only [moves, advance, write]
      rw [this]
      refine ⟨fun key i => ?_, fun i y hy => ?_⟩
      · show i ∈ ((s.del id).srem (typeKey old.typ) id).sets key ↔ ∃ y, (if i = id then none else s.store i) = some y ∧ _
        rw [mem_srem]
        show i ∈ s.sets key ∧ _ ↔ _
        by_cases hi : i = id
        · simp only [hi, and_true, if_true, reduceCtorEq, false_and, exists_false, iff_false, not_and, Classical.not_not]
          intro hm
          obtain ⟨z, h1, h2⟩ := (h.sets key id).1 hm
          rw [hg] at h1; simp only [Option.some.injEq] at h1
          rw [h1, h2]
        · simp only [hi, and_false, not_false_eq_true, and_true, if_false]
          exact h.sets key i
      · have hy' : (if i = id then none else s.store i) = some y := hy
        split at hy'
        · simp at hy'
        · exact h.ids i y hy'

theorem neat_oneByOne : ∀ (rs : List Req) (s : Sys), Neat s → Orderly s rs → Neat (oneByOne s rs)
  | [], _, h, _ => h
  | r :: rs, _, h, ho => neat_oneByOne rs _ (neat_whole h r ho.1) ho.2

/-- **C94** (partial) If requests come one after the other, Redis does not fail and no id is
registered twice, then after any registrations, changes of type and removals the list of a
stage, from which the hooks to call are taken, has exactly the hooks whose type is that stage. Missing from the full
statement: ids registered again, requests that overlap and failing commands. -/
theorem c94_lists_partial (rs : List Req) (ho : Orderly {} rs) (typ : String) (ht : typ = preType ∨ typ = postType) (h : Hook) :
    h ∈ (oneByOne {} rs).list typ ↔ (oneByOne {} rs).get h.id = some h ∧ h.typ = typ := by
  have n : Neat (oneByOne {} rs) := neat_oneByOne rs {} ⟨by simp, by simp⟩ ho
  simp only [Sys.list, Sys.get, List.mem_filterMap, n.sets]
  constructor
  · rintro ⟨id, ⟨x, h1, h2⟩, h3⟩
    rw [h1] at h3; simp only [Option.some.injEq] at h3; subst h3
    rw [n.ids id x h1]
    exact ⟨h1, key_inj h2 ht⟩
  · rintro ⟨h1, h2⟩
    exact ⟨h.id, ⟨h, h1, by rw [h2]⟩, h1⟩

/-- A hook is registered, moved to the other stage, removed and registered again. -/
def lifeOf : List Req := [.register bell, .update "hook_1" { bell with typ := preType }, .delete "hook_1", .register bell,
  .register { bell with id := "hook_2", typ := preType }]

example : Orderly {} lifeOf ∧ (oneByOne {} lifeOf).list postType = [bell] ∧
    ((oneByOne {} lifeOf).list preType).map Hook.id = ["hook_2"] := by
  refine ⟨?_, by decide +kernel, by decide +kernel⟩
  simp only [lifeOf, Orderly, and_true, true_and]
  exact ⟨by decide +kernel, by decide +kernel, by decide +kernel⟩

end Blnk.Hooks
