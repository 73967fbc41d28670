import Verif.Props.Rules
/-
C173, C175, C176, C177, C180: what the record of a reconciliation shows of its run.
-/
namespace Blnk.Rules
open Errs

/-- The record of a reconciliation. -/
def row (s : Sys) (id : Text) : Option ReconRow := s.recons.find? fun r => r.id = id

theorem get_ok {s : Sys} {id : Text} {v : ReconView} : get s id = .ok v ↔ ∃ r, row s id = some r ∧ v = view r := by
  unfold get row
  constructor
  · intro h
    split at h
    · next r hr => cases h; exact ⟨r, hr, rfl⟩
    · split at h
      · split at h <;> cases h
      · cases h
  · rintro ⟨r, hr, rfl⟩
    rw [hr]

theorem row_id {s : Sys} {id : Text} {r : ReconRow} (h : row s id = some r) : r.id = id := by
  have := List.find?_some h
  simpa using this

theorem row_mem {s : Sys} {id : Text} {r : ReconRow} (h : row s id = some r) : r ∈ s.recons := List.mem_of_find?_eq_some h

theorem find_map (l : List ReconRow) (f : ReconRow → ReconRow) (hf : ∀ r, (f r).id = r.id) (id : Text) :
    (l.map f).find? (fun r => decide (r.id = id)) = (l.find? fun r => decide (r.id = id)).map f := by
  induction l with
  | nil => rfl
  | cons x l ih =>
    rw [List.map_cons, List.find?_cons, List.find?_cons, ih, hf]
    split <;> rfl

theorem setStatus_id (id : Text) (st : Status) (m u now : Nat) (r : ReconRow) : (setStatus id st m u now r).id = r.id := by
  unfold setStatus
  split <;> rfl

theorem setStatus_other {id : Text} {st : Status} {m u now : Nat} {r : ReconRow} (h : r.id ≠ id) : setStatus id st m u now r = r := by
  unfold setStatus
  rw [if_neg h]

/-- What a statement does to the records. -/
theorem update_row (s : Sys) (id i : Text) (st : Status) (m u now : Nat) (rep : Reply) :
    row (update s id st m u now rep).1 i = (row s i).map (if rep = .refused then fun r => r else setStatus id st m u now) := by
  cases rep with
  | done => exact find_map _ _ (setStatus_id id st m u now) i
  | refused => simp [update]
  | lost => exact find_map _ _ (setStatus_id id st m u now) i

theorem update_jobs (s : Sys) (id : Text) (st : Status) (m u now : Nat) (rep : Reply) : (update s id st m u now rep).1.jobs = s.jobs := by
  cases rep <;> rfl

theorem update_rules (s : Sys) (id : Text) (st : Status) (m u now : Nat) (rep : Reply) : (update s id st m u now rep).1.rules = s.rules := by
  cases rep <;> rfl

theorem update_exts (s : Sys) (id : Text) (st : Status) (m u now : Nat) (rep : Reply) : (update s id st m u now rep).1.exts = s.exts := by
  cases rep <;> rfl

theorem update_err (s : Sys) (id : Text) (st : Status) (m u now : Nat) (rep : Reply) :
    (update s id st m u now rep).2 = decide (rep ≠ .done) := by
  cases rep <;> rfl

theorem storeAll_rest (up : Text) (es : List Ext) : ∀ s : Sys, (storeAll s up es).1.recons = s.recons ∧ (storeAll s up es).1.jobs = s.jobs ∧
    (storeAll s up es).1.rules = s.rules := by
  induction es with
  | nil => exact fun s => ⟨rfl, rfl, rfl⟩
  | cons e es ih =>
    intro s
    unfold storeAll
    cases h : storeExt s up e with
    | none => exact ⟨rfl, rfl, rfl⟩
    | some s' =>
      dsimp only
      unfold storeExt at h
      split at h
      · cases h
        exact ih _
      · cases h

/-- A generated id is new. -/
def Fresh (s : Sys) : Ev → Prop
  | .start _ id _ => ∀ r ∈ s.recons, r.id ≠ id
  | .instant _ id _ _ _ => ∀ r ∈ s.recons, r.id ≠ id
  | _ => True

/-- All ids generated along an execution are new. -/
def FreshRun (s : Sys) : List Ev → Prop
  | [] => True
  | e :: es => Fresh s e ∧ FreshRun (step s e) es

theorem freshRun_append {s : Sys} {es fs : List Ev} : FreshRun s (es ++ fs) ↔ FreshRun s es ∧ FreshRun (run s es) fs := by
  induction es generalizing s with
  | nil => simp [FreshRun, run]
  | cons e es ih => simp only [List.cons_append, FreshRun, run, ih, and_assoc]

theorem run_append (s : Sys) (es fs : List Ev) : run s (es ++ fs) = run (run s es) fs := by
  induction es generalizing s with
  | nil => rfl
  | cons e es ih => exact ih _

instance (s : Sys) (e : Ev) : Decidable (Fresh s e) := by
  unfold Fresh
  split <;> infer_instance

def decFreshRun : (s : Sys) → (es : List Ev) → Decidable (FreshRun s es)
  | _, [] => isTrue trivial
  | s, e :: es =>
    have := decFreshRun (step s e) es
    inferInstanceAs (Decidable (Fresh s e ∧ FreshRun (step s e) es))

instance (s : Sys) (es : List Ev) : Decidable (FreshRun s es) := decFreshRun s es

/-! ### What one step does -/

/-- What a request or a run can do to the records and to the runs. -/
inductive Effect (s : Sys) (e : Ev) : Sys → Prop
  /-- neither records nor runs change -/
  | none {s'} : s'.recons = s.recons → s'.jobs = s.jobs → Effect s e s'
  /-- a record with its run is added -/
  | started {s'} (r : ReconRow) (j : Job) : s'.recons = s.recons ++ [r] → s'.jobs = s.jobs ++ [j] →
      r.status = .started → r.matched = 0 → r.unmatched = 0 → r.completed = Option.none → j.recon = r.id → j.phase = .waiting →
      (Fresh s e → ∀ x ∈ s.recons, x.id ≠ r.id) → Effect s e s'
  /-- a record without a run is added -/
  | stillborn {s'} (r : ReconRow) (q : InstantReq) (id up : Text) (now : Nat) (rep : Reply) : e = .instant q id up now rep →
      s'.recons = s.recons.map (if rep = .refused then fun r => r else setStatus id .failed 0 0 now) ++ [r] → s'.jobs = s.jobs →
      r.status = (if rep = .refused then .started else .failed) → r.matched = 0 → r.unmatched = 0 → r.completed = Option.none →
      r.id = id → Effect s e s'
  /-- a run goes on, with a statement on its record or without -/
  | ran {s'} (k : Nat) (j : Job) (p : Phase) (f : ReconRow → ReconRow) : s.jobs[k]? = some j →
      s'.recons = s.recons.map f → s'.jobs = s.jobs.modify k (fun j => { j with phase := p }) →
      (f = (fun r => r) ∧
          ((j.phase = .waiting ∧ p = .failing) ∨ (j.phase = .begun ∧ (p = .failing ∨ ∃ rs, p = .working rs ∧ loadRules s j.rules = some rs)) ∨
            (∃ rs, j.phase = .working rs ∧ p = .failing)) ∨
        (j.phase = .waiting ∧ f = setStatus j.recon .inProgress 0 0 0 ∧ (p = .begun ∨ p = .failing)) ∨
        (∃ rs m u now rep, e = .finish k m u now rep ∧ j.phase = .working rs ∧
          f = (if rep = .refused then fun r => r else setStatus j.recon .completed (found s j m u).1 (found s j m u).2 now) ∧
          p = if rep = .done then .over else .failing) ∨
        (∃ rep, e = .giveUp k rep ∧ j.phase = .failing ∧ p = .over ∧
          f = (if rep = .refused then fun r => r else setStatus j.recon .failed 0 0 0))) → Effect s e s'
  /-- the server stops -/
  | crash {s'} : e = .crash → s'.recons = s.recons → s'.jobs = s.jobs.map (fun j => { j with phase := .over }) → Effect s e s'

theorem update_recons (s : Sys) (id : Text) (st : Status) (m u now : Nat) (rep : Reply) :
    (update s id st m u now rep).1.recons = s.recons.map (if rep = .refused then fun r => r else setStatus id st m u now) := by
  cases rep <;> simp [update]

theorem effect_instant (s : Sys) (q : InstantReq) (id up : Text) (now : Nat) (rep : Reply) :
    Effect s (.instant q id up now rep) (instant s q id up now rep).1 := by
  unfold instant
  split
  · exact .none rfl rfl
  split
  · exact .none rfl rfl
  split
  · exact .none rfl rfl
  dsimp only
  generalize hs1 : ({ s with recons := s.recons ++ [{ id := id, upload := up, status := .started, started := now }] } : Sys) = s1
  have hr1 : s1.recons = s.recons ++ [{ id := id, upload := up, status := .started, started := now }] := by rw [← hs1]
  have hj1 : s1.jobs = s.jobs := by rw [← hs1]
  obtain ⟨h1, h2, -⟩ := storeAll_rest up q.exts s1
  split
  · next s2 heq =>
    rw [heq] at h1 h2
    exact .started { id := id, upload := up, status := .started, started := now }
      { recon := id, upload := up, strategy := q.strategy, rules := q.rules, dry := q.dry } (h1.trans hr1)
      (by show s2.jobs ++ _ = _; rw [h2, hj1]) rfl rfl rfl rfl rfl rfl (fun h => h)
  · next s2 heq =>
    rw [heq] at h1 h2
    show Effect s _ (update s2 id .failed 0 0 now rep).1
    refine .stillborn ((if rep = .refused then fun r => r else setStatus id .failed 0 0 now)
      { id := id, upload := up, status := .started, started := now }) q id up now rep rfl ?_ ?_ ?_ ?_ ?_ ?_ ?_
    · rw [update_recons, h1, hr1, List.map_append]; rfl
    · rw [update_jobs, h2, hj1]
    · cases rep <;> simp [setStatus]
    · cases rep <;> simp [setStatus]
    · cases rep <;> simp [setStatus]
    · cases rep <;> simp [setStatus]
    · cases rep <;> simp [setStatus]

theorem step_effect (s : Sys) (e : Ev) : Effect s e (step s e) := by
  cases e with
  | create b id now =>
    have : (createRule s b id now).1.recons = s.recons ∧ (createRule s b id now).1.jobs = s.jobs := by
      unfold createRule
      split
      · exact ⟨rfl, rfl⟩
      · split <;> exact ⟨rfl, rfl⟩
    exact .none this.1 this.2
  | update id b now =>
    have : (updateRule s id b now).1.recons = s.recons ∧ (updateRule s id b now).1.jobs = s.jobs := by
      unfold updateRule
      split
      · exact ⟨rfl, rfl⟩
      · split
        · exact ⟨rfl, rfl⟩
        · split <;> exact ⟨rfl, rfl⟩
    exact .none this.1 this.2
  | delete id =>
    have : (deleteRule s id).1.recons = s.recons ∧ (deleteRule s id).1.jobs = s.jobs := by
      unfold deleteRule
      split <;> exact ⟨rfl, rfl⟩
    exact .none this.1 this.2
  | start q id now =>
    show Effect s _ (start s q id now).1
    unfold start
    split
    · exact .none rfl rfl
    · split
      · exact .started { id := id, upload := q.upload, status := .started, started := now }
          { recon := id, upload := q.upload, strategy := q.strategy, rules := q.rules, dry := q.dry } rfl rfl rfl rfl rfl rfl rfl rfl (fun h => h)
      · exact .none rfl rfl
  | instant q id up now rep => exact effect_instant s q id up now rep
  | uploaded up x =>
    show Effect s _ (match storeExt s up x with | some s' => s' | none => s)
    cases h : storeExt s up x with
    | none => exact .none rfl rfl
    | some s' =>
      unfold storeExt at h
      split at h
      · cases h
        exact .none rfl rfl
      · cases h
  | begin k rep =>
    simp only [step]
    split
    · next id up st is dry heq =>
      refine .ran k _ (if (update s id .inProgress 0 0 0 rep).2 then .failing else .begun) _ heq (update_recons ..) ?_ ?_
      · show (setJob _ _ _).jobs = _
        unfold setJob
        dsimp only
        rw [update_jobs]
      · cases rep with
        | refused => exact Or.inl ⟨rfl, Or.inl ⟨rfl, rfl⟩⟩
        | done => exact Or.inr (Or.inl ⟨rfl, rfl, Or.inl rfl⟩)
        | lost => exact Or.inr (Or.inl ⟨rfl, rfl, Or.inr rfl⟩)
    · exact .none rfl rfl
  | load k =>
    simp only [step]
    split
    · next id up st is dry heq =>
      split
      · next rs hl =>
        exact .ran k _ (.working rs) (fun r => r) heq (by simp [setJob]) rfl (Or.inl ⟨rfl, Or.inr (Or.inl ⟨rfl, Or.inr ⟨rs, rfl, hl⟩⟩)⟩)
      · exact .ran k _ .failing (fun r => r) heq (by simp [setJob]) rfl (Or.inl ⟨rfl, Or.inr (Or.inl ⟨rfl, Or.inl rfl⟩)⟩)
    · exact .none rfl rfl
  | finish k m u now rep =>
    simp only [step]
    split
    · next id up st is dry rs heq =>
      refine .ran k _ (if (update s id .completed (found s ⟨id, up, st, is, dry, .working rs⟩ m u).1
        (found s ⟨id, up, st, is, dry, .working rs⟩ m u).2 now rep).2 then .failing else .over) _ heq (update_recons ..) ?_
        (Or.inr (Or.inr (Or.inl ⟨rs, m, u, now, rep, rfl, rfl, rfl, ?_⟩)))
      · show (setJob _ _ _).jobs = _
        unfold setJob
        dsimp only
        rw [update_jobs]
      · rw [update_err]
        cases rep <;> rfl
    · exact .none rfl rfl
  | fail k =>
    simp only [step]
    split
    · next id up st is dry rs heq =>
      exact .ran k _ .failing (fun r => r) heq (by simp [setJob]) rfl (Or.inl ⟨rfl, Or.inr (Or.inr ⟨rs, rfl, rfl⟩)⟩)
    · exact .none rfl rfl
  | giveUp k rep =>
    simp only [step]
    split
    · next id up st is dry heq =>
      refine .ran k _ .over _ heq (update_recons ..) ?_ (Or.inr (Or.inr (Or.inr ⟨rep, rfl, rfl, rfl, rfl⟩)))
      show (setJob _ _ _).jobs = _
      unfold setJob
      rw [update_jobs]
    · exact .none rfl rfl
  | crash => exact .crash rfl rfl rfl

/-! ### Invariants -/

/-- Every run belongs to a record, and no two to the same. -/
structure Base (s : Sys) : Prop where
  own : ∀ j ∈ s.jobs, ∃ r ∈ s.recons, r.id = j.recon
  apart : (s.jobs.map Job.recon).Nodup

theorem map_recon_modify (l : List Job) (k : Nat) (p : Phase) :
    (l.modify k fun j => { j with phase := p }).map Job.recon = l.map Job.recon := by
  induction l generalizing k with
  | nil => cases k <;> rfl
  | cons x l ih =>
    cases k with
    | zero => rfl
    | succ k => rw [List.modify_succ_cons, List.map_cons, List.map_cons, ih]

theorem Base.same {s : Sys} (h : Base s) {k k' : Nat} {j j' : Job} (hk : s.jobs[k]? = some j) (hk' : s.jobs[k']? = some j')
    (e : j.recon = j'.recon) : k = k' := by
  have h1 : (s.jobs.map Job.recon)[k]? = some j.recon := by rw [List.getElem?_map, hk]; rfl
  have h2 : (s.jobs.map Job.recon)[k']? = some j.recon := by rw [List.getElem?_map, hk', e]; rfl
  obtain ⟨l1, e1⟩ := List.getElem?_eq_some_iff.1 h1
  obtain ⟨l2, e2⟩ := List.getElem?_eq_some_iff.1 h2
  exact (List.getElem?_inj l1 h.apart).1 (h1.trans h2.symm)

theorem map_ids (l : List ReconRow) (f : ReconRow → ReconRow) (hf : ∀ r, (f r).id = r.id) {i : Text} :
    (∃ r ∈ l.map f, r.id = i) ↔ ∃ r ∈ l, r.id = i := by
  constructor
  · rintro ⟨r, hr, e⟩
    obtain ⟨x, hx, rfl⟩ := List.mem_map.1 hr
    exact ⟨x, hx, (hf x).symm.trans e⟩
  · rintro ⟨r, hr, e⟩
    exact ⟨f r, List.mem_map.2 ⟨r, hr, rfl⟩, (hf r).trans e⟩

/-- What the statements of a run do to a record. -/
inductive Sets (id : Text) : (ReconRow → ReconRow) → Prop
  | none : Sets id fun r => r
  | set (st : Status) (m u now : Nat) : Sets id (setStatus id st m u now)

theorem Sets.ids {id : Text} {f : ReconRow → ReconRow} (h : Sets id f) (r : ReconRow) : (f r).id = r.id := by
  cases h with
  | none => rfl
  | set => exact setStatus_id ..

theorem Sets.other {id : Text} {f : ReconRow → ReconRow} (h : Sets id f) {r : ReconRow} (hr : r.id ≠ id) : f r = r := by
  cases h with
  | none => rfl
  | set => exact setStatus_other hr

theorem sets_ite (id : Text) (st : Status) (m u now : Nat) (rep : Reply) :
    Sets id (if rep = .refused then fun r => r else setStatus id st m u now) := by
  split
  · exact .none
  · exact .set ..

theorem ran_sets {s : Sys} {e : Ev} {k : Nat} {j : Job} {p : Phase} {f : ReconRow → ReconRow}
    (h : (f = (fun r => r) ∧
          ((j.phase = .waiting ∧ p = .failing) ∨ (j.phase = .begun ∧ (p = .failing ∨ ∃ rs, p = .working rs ∧ loadRules s j.rules = some rs)) ∨
            (∃ rs, j.phase = .working rs ∧ p = .failing)) ∨
        (j.phase = .waiting ∧ f = setStatus j.recon .inProgress 0 0 0 ∧ (p = .begun ∨ p = .failing)) ∨
        (∃ rs m u now rep, e = .finish k m u now rep ∧ j.phase = .working rs ∧
          f = (if rep = .refused then fun r => r else setStatus j.recon .completed (found s j m u).1 (found s j m u).2 now) ∧
          p = if rep = .done then .over else .failing) ∨
        (∃ rep, e = .giveUp k rep ∧ j.phase = .failing ∧ p = .over ∧
          f = (if rep = .refused then fun r => r else setStatus j.recon .failed 0 0 0)))) : Sets j.recon f := by
  rcases h with ⟨rfl, -⟩ | ⟨-, rfl, -⟩ | ⟨rs, m, u, now, rep, -, -, rfl, -⟩ | ⟨rep, -, -, -, rfl⟩
  · exact .none
  · exact .set ..
  · exact sets_ite ..
  · exact sets_ite ..

theorem base_step {s : Sys} {e : Ev} (h : Base s) (hf : Fresh s e) : Base (step s e) := by
  have eff := step_effect s e
  generalize step s e = s' at eff
  cases eff with
  | none h1 h2 => exact ⟨by rw [h1, h2]; exact h.own, by rw [h2]; exact h.apart⟩
  | started r j h1 h2 _ _ _ _ hj _ hn =>
    have hn := hn hf
    constructor
    · intro x hx
      rw [h2, List.mem_append, List.mem_singleton] at hx
      rw [h1]
      rcases hx with hx | rfl
      · obtain ⟨r', hr', e'⟩ := h.own x hx
        exact ⟨r', List.mem_append_left _ hr', e'⟩
      · exact ⟨r, by simp, hj.symm⟩
    · rw [h2, List.map_append, List.nodup_append]
      refine ⟨h.apart, by simp, ?_⟩
      intro a ha b hb
      simp only [List.map_cons, List.map_nil, List.mem_singleton] at hb
      subst hb
      obtain ⟨x, hx, rfl⟩ := List.mem_map.1 ha
      obtain ⟨r', hr', e'⟩ := h.own x hx
      rw [← e', hj]
      exact hn r' hr'
  | stillborn r q id up now rep _ h1 h2 _ _ _ _ _ =>
    refine ⟨?_, by rw [h2]; exact h.apart⟩
    intro x hx
    rw [h2] at hx
    obtain ⟨r', hr', e'⟩ := (map_ids _ _ (sets_ite id .failed 0 0 now rep).ids).2 (h.own x hx)
    exact ⟨r', by rw [h1]; exact List.mem_append_left _ hr', e'⟩
  | ran k j p f hk h1 h2 h3 =>
    have hs := ran_sets h3
    constructor
    · intro x hx
      have : x.recon ∈ s.jobs.map Job.recon := by
        rw [← map_recon_modify s.jobs k p, ← h2]
        exact List.mem_map.2 ⟨x, hx, rfl⟩
      obtain ⟨y, hy, e⟩ := List.mem_map.1 this
      rw [h1, map_ids _ _ hs.ids, ← e]
      exact h.own y hy
    · rw [h2, map_recon_modify]
      exact h.apart
  | crash _ h1 h2 =>
    constructor
    · intro x hx
      rw [h2] at hx
      obtain ⟨y, hy, rfl⟩ := List.mem_map.1 hx
      rw [h1]
      exact h.own y hy
    · rw [h2, List.map_map]
      exact h.apart

theorem base_run {s : Sys} {es : List Ev} (h : Base s) (hf : FreshRun s es) : Base (run s es) := by
  induction es generalizing s with
  | nil => exact h
  | cons e es ih => exact ih (base_step h hf.1) hf.2

theorem base_empty : Base {} := ⟨by simp, by simp⟩

/-- What a step does to a record that is there: nothing, or what its run does. -/
theorem row_step {s : Sys} {e : Ev} {id : Text} {r : ReconRow} (hf : Fresh s e) (hr : row s id = some r) :
    ∃ r', row (step s e) id = some r' ∧ (r' = r ∨ ∃ k j, s.jobs[k]? = some j ∧ j.recon = id ∧
      ((j.phase = .waiting ∧ r' = setStatus id .inProgress 0 0 0 r) ∨
       (∃ rs m u now rep, e = .finish k m u now rep ∧ j.phase = .working rs ∧
          r' = setStatus id .completed (found s j m u).1 (found s j m u).2 now r) ∨
       (j.phase = .failing ∧ r' = setStatus id .failed 0 0 0 r))) := by
  have eff := step_effect s e
  generalize step s e = s' at eff
  have old : ∀ x, (s.recons ++ x).find? (fun r => decide (r.id = id)) = some r := by
    intro x
    rw [List.find?_append]
    show (row s id).or _ = _
    rw [hr]
    rfl
  cases eff with
  | none h1 h2 => exact ⟨r, by unfold row; rw [h1]; exact hr, Or.inl rfl⟩
  | started r1 j h1 h2 _ _ _ _ hj _ hn => exact ⟨r, by unfold row; rw [h1]; exact old _, Or.inl rfl⟩
  | stillborn r1 q i up now rep he h1 h2 _ _ _ _ _ =>
    refine ⟨r, ?_, Or.inl rfl⟩
    have hs := sets_ite i .failed 0 0 now rep
    unfold row
    rw [h1, List.find?_append, find_map _ _ hs.ids]
    show ((row s id).map _).or _ = _
    rw [hr, Option.map_some, hs.other]
    · rfl
    · subst he
      exact hf r (row_mem hr)
  | ran k j p f hk h1 h2 h3 =>
    have hs := ran_sets h3
    refine ⟨f r, ?_, ?_⟩
    · unfold row
      rw [h1, find_map _ _ hs.ids]
      show (row s id).map _ = _
      rw [hr]
      rfl
    · by_cases hid : j.recon = id
      · rcases h3 with ⟨rfl, -⟩ | ⟨hw, rfl, -⟩ | ⟨rs, m, u, now, rep, he, hw, rfl, -⟩ | ⟨rep, he, hw, -, rfl⟩
        · exact Or.inl rfl
        · exact Or.inr ⟨k, j, hk, hid, Or.inl ⟨hw, by rw [hid]⟩⟩
        · cases rep with
          | refused => exact Or.inl rfl
          | done => exact Or.inr ⟨k, j, hk, hid, Or.inr (Or.inl ⟨rs, m, u, now, _, he, hw, by rw [← hid]; rfl⟩)⟩
          | lost => exact Or.inr ⟨k, j, hk, hid, Or.inr (Or.inl ⟨rs, m, u, now, _, he, hw, by rw [← hid]; rfl⟩)⟩
        · cases rep with
          | refused => exact Or.inl rfl
          | done => exact Or.inr ⟨k, j, hk, hid, Or.inr (Or.inr ⟨hw, by rw [← hid]; rfl⟩)⟩
          | lost => exact Or.inr ⟨k, j, hk, hid, Or.inr (Or.inr ⟨hw, by rw [← hid]; rfl⟩)⟩
      · exact Or.inl (hs.other (by rw [row_id hr]; exact fun h => hid h.symm))
  | crash _ h1 h2 => exact ⟨r, by unfold row; rw [h1]; exact hr, Or.inl rfl⟩

/-! ### C177 -/

/-- Which status can follow which, at any later time. -/
def Later (a b : Status) : Prop :=
  a = b ∨ a = .started ∨ (a = .inProgress ∧ (b = .completed ∨ b = .failed))

/-- What a reconciliation that is not complete shows, and one that is. -/
def Shown (v : ReconView) : Prop :=
  (v.status = .completed → v.completed ≠ none) ∧ (v.status ≠ .completed → v.matched = 0 ∧ v.unmatched = 0 ∧ v.completed = none)

/-- **C177 in full**: a reconciliation moves from started over in progress to completed or failed and
never back, what has ended stays as it is, and it shows figures and a time of completion exactly when
it is complete. -/
def C177Full : Prop := ∀ (es fs : List Ev), FreshRun {} (es ++ fs) → ∀ (id : Text) (v : ReconView), get (run {} es) id = .ok v →
  Shown v ∧ ∃ v', get (run {} (es ++ fs)) id = .ok v' ∧ v'.upload = v.upload ∧ v'.started = v.started ∧ Later v.status v'.status ∧
    (v.status = .completed ∨ v.status = .failed → v' = v)

/-- Shape of a record. -/
def Shape (r : ReconRow) : Prop := Shown (view r)

theorem shape_set {id : Text} {st : Status} {m u now : Nat} {r : ReconRow} (h : Shape r) (hz : st ≠ .completed → m = 0 ∧ u = 0) :
    Shape (setStatus id st m u now r) := by
  unfold setStatus
  split
  · unfold Shape Shown view
    dsimp only
    by_cases hst : st = .completed
    · subst hst
      exact ⟨fun _ => by simp, fun h => absurd rfl h⟩
    · exact ⟨fun h => absurd h hst, fun _ => ⟨(hz hst).1, (hz hst).2, by rw [if_neg hst]⟩⟩
  · exact h

theorem shape_step {s : Sys} {e : Ev} (h : ∀ r ∈ s.recons, Shape r) : ∀ r ∈ (step s e).recons, Shape r := by
  have eff := step_effect s e
  generalize step s e = s' at eff
  have new : ∀ r : ReconRow, r.status ≠ .completed → r.matched = 0 → r.unmatched = 0 → r.completed = none → Shape r :=
    fun r h1 h2 h3 h4 => ⟨fun h => absurd h h1, fun _ => ⟨h2, h3, h4⟩⟩
  cases eff with
  | none h1 h2 => rw [h1]; exact h
  | started r1 j h1 _ a b c d _ _ _ =>
    rw [h1]
    intro r hr
    rcases List.mem_append.1 hr with hr | hr
    · exact h r hr
    · rw [List.mem_singleton.1 hr]
      exact new r1 (by rw [a]; decide) b c d
  | stillborn r1 q i up now rep he h1 h2 a b c d _ =>
    rw [h1]
    intro r hr
    rcases List.mem_append.1 hr with hr | hr
    · obtain ⟨x, hx, rfl⟩ := List.mem_map.1 hr
      split
      · exact h x hx
      · exact shape_set (h x hx) (fun _ => ⟨rfl, rfl⟩)
    · rw [List.mem_singleton.1 hr]
      exact new r1 (by rw [a]; split <;> decide) b c d
  | ran k j p f hk h1 h2 h3 =>
    rw [h1]
    intro r hr
    obtain ⟨x, hx, rfl⟩ := List.mem_map.1 hr
    rcases h3 with ⟨rfl, -⟩ | ⟨hw, rfl, -⟩ | ⟨rs, m, u, now, rep, he, hw, rfl, -⟩ | ⟨rep, he, hw, -, rfl⟩
    · exact h x hx
    · exact shape_set (h x hx) (fun _ => ⟨rfl, rfl⟩)
    · split
      · exact h x hx
      · exact shape_set (h x hx) (fun h => absurd rfl h)
    · split
      · exact h x hx
      · exact shape_set (h x hx) (fun _ => ⟨rfl, rfl⟩)
  | crash _ h1 h2 => rw [h1]; exact h

theorem shape_run {s : Sys} {es : List Ev} (h : ∀ r ∈ s.recons, Shape r) : ∀ r ∈ (run s es).recons, Shape r := by
  induction es generalizing s with
  | nil => exact h
  | cons e es ih => exact ih (shape_step h)

/-- C177: whatever happens, figures and a time of completion are shown exactly when it is complete. -/
theorem c177_shown (es : List Ev) (id : Text) (v : ReconView) (h : get (run {} es) id = .ok v) : Shown v := by
  obtain ⟨r, hr, rfl⟩ := get_ok.1 h
  exact shape_run (s := {}) (by simp) r (row_mem hr)

/-- A run and its record agree. -/
def agree : Phase → Status → Prop
  | .waiting, st => st = .started
  | .begun, st => st = .inProgress
  | .working _, st => st = .inProgress
  | .failing, st => st = .started ∨ st = .inProgress
  | .over, _ => True

/-- The answer to the statement that completes a reconciliation is not lost. -/
def Answered : Ev → Prop
  | .finish _ _ _ _ .lost => False
  | _ => True

def Phases (s : Sys) : Prop := ∀ (k : Nat) (j : Job) (r : ReconRow), s.jobs[k]? = some j → row s j.recon = some r → agree j.phase r.status

theorem phases_step {s : Sys} {e : Ev} (hb : Base s) (h : Phases s) (hf : Fresh s e) (ha : Answered e) : Phases (step s e) := by
  have rows : ∀ j ∈ s.jobs, ∃ r, row s j.recon = some r := by
    intro j hj
    cases hr : row s j.recon with
    | some r => exact ⟨r, rfl⟩
    | none =>
      obtain ⟨r, hr', e⟩ := hb.own j hj
      unfold row at hr
      rw [List.find?_eq_none] at hr
      exact absurd (by simpa using e) (hr r hr')
  have eff := step_effect s e
  generalize step s e = s' at eff
  intro k' j' r' hk' hr'
  cases eff with
  | none h1 h2 =>
    unfold row at hr'
    rw [h2] at hk'
    rw [h1] at hr'
    exact h k' j' r' hk' hr'
  | started r1 j h1 h2 hst _ _ _ hj hw hn =>
    unfold row at hr'
    rw [h1, List.find?_append] at hr'
    rw [h2] at hk'
    have hmem := List.mem_of_getElem? hk'
    rcases List.mem_append.1 hmem with hm | hm
    · obtain ⟨r0, hr0⟩ := rows j' hm
      have hlt : ∃ i, s.jobs[i]? = some j' := List.mem_iff_getElem?.1 hm
      obtain ⟨i, hi⟩ := hlt
      have e0 : (row s j'.recon).or ([r1].find? fun r => decide (r.id = j'.recon)) = some r' := hr'
      rw [hr0] at e0
      have e0 : r0 = r' := Option.some.inj e0
      rw [← e0]
      exact h i j' r0 hi hr0
    · have ej : j' = j := List.mem_singleton.1 hm
      subst ej
      have e0 : s.recons.find? (fun r => decide (r.id = j'.recon)) = none := by
        rw [List.find?_eq_none]
        intro x hx
        simp only [decide_eq_true_eq]
        rw [hj]
        exact hn hf x hx
      rw [e0, Option.none_or, List.find?_cons_of_pos (by simp [hj])] at hr'
      cases hr'
      rw [hw, hst]
      exact rfl
  | stillborn r1 q i up now rep he h1 h2 _ _ _ _ _ =>
    rw [h2] at hk'
    obtain ⟨r0, hr0⟩ := rows j' (List.mem_of_getElem? hk')
    have hs := sets_ite i .failed 0 0 now rep
    unfold row at hr'
    rw [h1, List.find?_append, find_map _ _ hs.ids] at hr'
    have e0 : ((row s j'.recon).map _).or _ = some r' := hr'
    rw [hr0, Option.map_some, hs.other (by subst he; exact hf r0 (row_mem hr0))] at e0
    have e0 : r0 = r' := Option.some.inj e0
    rw [← e0]
    exact h k' j' r0 hk' hr0
  | ran k j p f hk h1 h2 h3 =>
    have hs := ran_sets h3
    rw [h2, List.getElem?_modify] at hk'
    obtain ⟨j0, hj0, e0⟩ : ∃ j0, s.jobs[k']? = some j0 ∧ (if k = k' then { j0 with phase := p } else j0) = j' := by
      cases hj0 : s.jobs[k']? with
      | none => rw [hj0] at hk'; cases hk'
      | some j0 =>
        rw [hj0] at hk'
        refine ⟨j0, rfl, ?_⟩
        have := Option.some.inj hk'
        rw [← this]
    have hrec : j'.recon = j0.recon := by rw [← e0]; split <;> rfl
    rw [hrec] at hr'
    obtain ⟨r0, hr0⟩ := rows j0 (List.mem_of_getElem? hj0)
    unfold row at hr'
    rw [h1, find_map _ _ hs.ids] at hr'
    have e1 : (row s j0.recon).map f = some r' := hr'
    rw [hr0] at e1
    have e1 := Option.some.inj e1
    have old := h k' j0 r0 hj0 hr0
    by_cases hkk : k = k'
    · subst hkk
      rw [hk] at hj0
      cases hj0
      rw [if_pos rfl] at e0
      have hp : j'.phase = p := by rw [← e0]
      rw [hp, ← e1]
      have hid := row_id hr0
      rcases h3 with ⟨rfl, hc⟩ | ⟨hw, rfl, hc⟩ | ⟨rs, m, u, now, rep, he, hw, rfl, rfl⟩ | ⟨rep, he, hw, rfl, rfl⟩
      · rcases hc with ⟨hw, rfl⟩ | ⟨hw, rfl | ⟨rs, rfl, -⟩⟩ | ⟨rs, hw, rfl⟩
        · rw [hw] at old; exact Or.inl old
        · rw [hw] at old; exact Or.inr old
        · rw [hw] at old; exact old
        · rw [hw] at old; exact Or.inr old
      · have hst : (setStatus j.recon .inProgress 0 0 0 r0).status = .inProgress := by
          unfold setStatus; rw [if_pos hid]
        rw [hst]
        rcases hc with rfl | rfl
        · exact rfl
        · exact Or.inr rfl
      · cases rep with
        | done => exact trivial
        | refused => rw [hw] at old; exact Or.inr old
        | lost => subst he; exact absurd ha (fun h => h)
      · exact trivial
    · rw [if_neg hkk] at e0
      subst e0
      have : j0.recon ≠ j.recon := fun h' => hkk (hb.same hk hj0 h'.symm)
      rw [hs.other (by rw [row_id hr0]; exact this)] at e1
      subst e1
      exact old
  | crash _ h1 h2 =>
    rw [h2] at hk'
    have : j'.phase = .over := by
      obtain ⟨x, -, rfl⟩ := List.mem_map.1 (List.mem_of_getElem? hk')
      rfl
    rw [this]
    exact trivial

theorem phases_run {s : Sys} {es : List Ev} (hb : Base s) (h : Phases s) (hf : FreshRun s es) (ha : ∀ e ∈ es, Answered e) :
    Phases (run s es) := by
  induction es generalizing s with
  | nil => exact h
  | cons e es ih =>
    exact ih (base_step hb hf.1) (phases_step hb h hf.1 (ha e List.mem_cons_self)) hf.2 fun e he => ha e (List.mem_cons_of_mem _ he)

theorem later_trans {a b c : Status} (h : Later a b) (h' : Later b c) : Later a c := by
  rcases h with rfl | rfl | ⟨rfl, rfl | rfl⟩
  · exact h'
  · exact Or.inr (Or.inl rfl)
  · rcases h' with rfl | h' | ⟨h', -⟩
    · exact Or.inr (Or.inr ⟨rfl, Or.inl rfl⟩)
    · cases h'
    · cases h'
  · rcases h' with rfl | h' | ⟨h', -⟩
    · exact Or.inr (Or.inr ⟨rfl, Or.inr rfl⟩)
    · cases h'
    · cases h'

theorem setStatus_fixed (id : Text) (st : Status) (m u now : Nat) (r : ReconRow) :
    (setStatus id st m u now r).upload = r.upload ∧ (setStatus id st m u now r).started = r.started := by
  unfold setStatus
  split <;> exact ⟨rfl, rfl⟩

theorem setStatus_status {id : Text} {r : ReconRow} (h : r.id = id) (st : Status) (m u now : Nat) : (setStatus id st m u now r).status = st := by
  unfold setStatus
  rw [if_pos h]

theorem row_later {s : Sys} {es : List Ev} (hb : Base s) (h : Phases s) (hf : FreshRun s es) (ha : ∀ e ∈ es, Answered e)
    {id : Text} {r : ReconRow} (hr : row s id = some r) :
    ∃ r', row (run s es) id = some r' ∧ r'.upload = r.upload ∧ r'.started = r.started ∧ Later r.status r'.status ∧
      (r.status = .completed ∨ r.status = .failed → r' = r) := by
  induction es generalizing s r with
  | nil => exact ⟨r, hr, rfl, rfl, Or.inl rfl, fun _ => rfl⟩
  | cons e es ih =>
    obtain ⟨r1, hr1, hc⟩ := row_step hf.1 hr
    have h1 := base_step hb hf.1
    have h2 := phases_step hb h hf.1 (ha e List.mem_cons_self)
    obtain ⟨r2, hr2, u2, s2, l2, e2⟩ := ih h1 h2 hf.2 (fun e he => ha e (List.mem_cons_of_mem _ he)) hr1
    refine ⟨r2, hr2, ?_⟩
    have hid := row_id hr
    rcases hc with rfl | ⟨k, j, hk, hj, hc⟩
    · exact ⟨u2, s2, l2, e2⟩
    · subst hj
      have ag := h k j r hk hr
      rcases hc with ⟨hw, rfl⟩ | ⟨rs, m, u, now, rep, -, hw, rfl⟩ | ⟨hw, rfl⟩
      · rw [hw] at ag
        have ag : r.status = .started := ag
        refine ⟨u2.trans (setStatus_fixed ..).1, s2.trans (setStatus_fixed ..).2, Or.inr (Or.inl ag), ?_⟩
        rw [ag]
        rintro (h | h) <;> cases h
      · rw [hw] at ag
        have ag : r.status = .inProgress := ag
        refine ⟨u2.trans (setStatus_fixed ..).1, s2.trans (setStatus_fixed ..).2, ?_, ?_⟩
        · refine later_trans ?_ l2
          rw [ag, setStatus_status hid]
          exact Or.inr (Or.inr ⟨rfl, Or.inl rfl⟩)
        · rw [ag]
          rintro (h | h) <;> cases h
      · rw [hw] at ag
        have ag : r.status = .started ∨ r.status = .inProgress := ag
        refine ⟨u2.trans (setStatus_fixed ..).1, s2.trans (setStatus_fixed ..).2, ?_, ?_⟩
        · refine later_trans ?_ l2
          rw [setStatus_status hid]
          rcases ag with ag | ag
          · exact Or.inr (Or.inl ag)
          · exact Or.inr (Or.inr ⟨ag, Or.inr rfl⟩)
        · rcases ag with ag | ag <;> rw [ag] <;> rintro (h | h) <;> cases h

/-- C177, partially: unless the answer to the statement that completes a reconciliation is lost. -/
theorem c177_partial (es fs : List Ev) (hf : FreshRun {} (es ++ fs)) (ha : ∀ e ∈ es ++ fs, Answered e) (id : Text) (v : ReconView)
    (h : get (run {} es) id = .ok v) :
    Shown v ∧ ∃ v', get (run {} (es ++ fs)) id = .ok v' ∧ v'.upload = v.upload ∧ v'.started = v.started ∧ Later v.status v'.status ∧
      (v.status = .completed ∨ v.status = .failed → v' = v) := by
  refine ⟨c177_shown es id v h, ?_⟩
  obtain ⟨r, hr, rfl⟩ := get_ok.1 h
  rw [freshRun_append] at hf
  have hb := base_run base_empty hf.1
  have hp := phases_run base_empty (by intro k j r hk; cases hk) hf.1 fun e he => ha e (List.mem_append_left _ he)
  obtain ⟨r', hr', u, st, l, e⟩ := row_later hb hp hf.2 (fun e he => ha e (List.mem_append_right _ he)) hr
  refine ⟨view r', get_ok.2 ⟨r', by rw [run_append]; exact hr', rfl⟩, u, st, l, fun h' => ?_⟩
  rw [e h']

/-- A rule, and a reconciliation by it that begins and reads it. -/
def underway : List Ev :=
  [.create byReference (t! "rule_1") 0,
   .start { upload := t! "u", strategy := t! "one_to_one", rules := [t! "rule_1"] } (t! "recon_1") 1,
   .begin 0 .done, .load 0]

/-- The same with a record in the upload. -/
def withRecord : List Ev := .uploaded (t! "u") { id := t! "e1", amount := 5 } :: underway

/-- C177 fails: the answer to the statement that completes a reconciliation is lost; it was completed
with seven matches and is then recorded as failed with none. -/
theorem c177_full_fails : ¬ C177Full := by
  intro h
  obtain ⟨-, v', hv', -, -, -, hs⟩ := h (withRecord ++ [.finish 0 7 1 9 .lost]) [.giveUp 0 .done] (by decide +kernel) (t! "recon_1")
    ⟨t! "recon_1", t! "u", .completed, 7, 1, false, 1, some 9⟩ (by decide +kernel)
  have hv := hs (Or.inl rfl)
  subst hv
  revert hv'
  decide +kernel

example : get (run {} (withRecord ++ [.finish 0 7 1 9 .done])) (t! "recon_1") = .ok ⟨t! "recon_1", t! "u", .completed, 7, 1, false, 1, some 9⟩ := by
  decide +kernel

example : FreshRun {} (withRecord ++ [.finish 0 7 1 9 .done]) ∧ ∀ e ∈ withRecord ++ [.finish 0 7 1 9 .done], Answered e := by
  refine ⟨by decide +kernel, ?_⟩
  simp [withRecord, underway, Answered]

end Blnk.Rules
