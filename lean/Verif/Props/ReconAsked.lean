import Verif.Props.ReconRuns
/-
C173, C175, C176, C180: what a reconciliation is asked for with, what is made of it, and whether it
ends.
-/
namespace Blnk.Rules
open Errs

/-! ### Runs -/

theorem jobs_step (s : Sys) (e : Ev) {k : Nat} {j : Job} (hk : s.jobs[k]? = some j) :
    ∃ p, (step s e).jobs[k]? = some { j with phase := p } ∧
      (∀ rs, p = .working rs → j.phase = .working rs ∨ (j.phase = .begun ∧ loadRules s j.rules = some rs)) := by
  have eff := step_effect s e
  generalize step s e = s' at eff
  have keep : s'.jobs[k]? = some j → ∃ p, s'.jobs[k]? = some { j with phase := p } ∧
      (∀ rs, p = .working rs → j.phase = .working rs ∨ (j.phase = .begun ∧ loadRules s j.rules = some rs)) :=
    fun h => ⟨j.phase, h, fun rs h => Or.inl h⟩
  cases eff with
  | none h1 h2 => exact keep (by rw [h2]; exact hk)
  | started r1 j1 h1 h2 _ _ _ _ _ _ _ =>
    apply keep
    obtain ⟨l, -⟩ := List.getElem?_eq_some_iff.1 hk
    rw [h2, List.getElem?_append_left l]
    exact hk
  | stillborn r1 q i up now rep _ h1 h2 _ _ _ _ _ => exact keep (by rw [h2]; exact hk)
  | ran k' j1 p f hk' h1 h2 h3 =>
    by_cases hkk : k' = k
    · subst hkk
      rw [hk] at hk'
      cases hk'
      refine ⟨p, by rw [h2, List.getElem?_modify, hk]; simp, ?_⟩
      rintro rs rfl
      rcases h3 with ⟨-, hc⟩ | ⟨-, -, hc⟩ | ⟨rs', m, u, now, rep, -, hw, -, hc⟩ | ⟨rep, -, -, hc, -⟩
      · rcases hc with ⟨-, hc⟩ | ⟨hw, hc | ⟨rs', hc, hl⟩⟩ | ⟨-, -, hc⟩
        · cases hc
        · cases hc
        · cases hc; exact Or.inr ⟨hw, hl⟩
        · cases hc
      · rcases hc with hc | hc <;> cases hc
      · cases rep <;> cases hc
      · cases hc
    · apply keep
      rw [h2, List.getElem?_modify, hk]
      simp [hkk]
  | crash _ h1 h2 =>
    refine ⟨.over, ?_, fun rs h => by cases h⟩
    rw [h2, List.getElem?_map, hk]
    rfl

/-! ### C173 -/

/-- The event leaves these rules alone. -/
def Leaves (is : List Text) : Ev → Prop
  | .create _ id _ => id ∉ is
  | .update id _ _ => id ∉ is
  | .delete id => id ∉ is
  | _ => True

theorem step_rules (s : Sys) (e : Ev) (h : ∀ b i n, e ≠ .create b i n ∧ e ≠ .update i b n ∧ e ≠ .delete i) : (step s e).rules = s.rules := by
  cases e with
  | create b i n => exact absurd rfl (h b i n).1
  | update i b n => exact absurd rfl (h b i n).2.1
  | delete i => exact absurd rfl (h ⟨[], [], []⟩ i 0).2.2
  | start q id now =>
    simp only [step]
    unfold start
    split
    · rfl
    · split <;> rfl
  | instant q id up now rep =>
    simp only [step]
    unfold instant
    split
    · rfl
    split
    · rfl
    split
    · rfl
    dsimp only
    have := (storeAll_rest up q.exts
      { s with recons := s.recons ++ [{ id := id, upload := up, status := .started, started := now }] }).2.2
    split
    · next s2 heq => rw [heq] at this; exact this
    · next s2 heq =>
      rw [heq] at this
      show (update s2 id .failed 0 0 now rep).1.rules = _
      rw [update_rules]
      exact this
  | uploaded up x =>
    simp only [step]
    cases h' : storeExt s up x with
    | none => rfl
    | some s' =>
      unfold storeExt at h'
      split at h'
      · cases h'; rfl
      · cases h'
  | begin k rep =>
    simp only [step]
    split
    · show (update ..).1.rules = _
      rw [update_rules]
    · rfl
  | load k =>
    simp only [step]
    split
    · split <;> rfl
    · rfl
  | finish k m u now rep =>
    simp only [step]
    split
    · show (update ..).1.rules = _
      rw [update_rules]
    · rfl
  | fail k =>
    simp only [step]
    split <;> rfl
  | giveUp k rep =>
    simp only [step]
    split
    · show (update ..).1.rules = _
      rw [update_rules]
    · rfl
  | crash => rfl

theorem find_rules_map (l : List RuleRow) (b : Body) {id i : Text} (h : i ≠ id) :
    (l.map fun x => if x.id = id then setRule b x else x).find? (fun r => decide (r.id = i)) = l.find? fun r => decide (r.id = i) := by
  induction l with
  | nil => rfl
  | cons x xs ih =>
    rw [List.map_cons, List.find?_cons, List.find?_cons, ih]
    by_cases hx : x.id = id
    · rw [if_pos hx]
      have h1 : ¬ (setRule b x).id = i := by show ¬ x.id = i; rw [hx]; exact fun h' => h h'.symm
      have h2 : ¬ x.id = i := h1
      simp only [h1, h2, decide_false]
    · rw [if_neg hx]

theorem find_rules_filter (l : List RuleRow) {id i : Text} (h : i ≠ id) :
    (l.filter fun x => decide (x.id ≠ id)).find? (fun r => decide (r.id = i)) = l.find? fun r => decide (r.id = i) := by
  induction l with
  | nil => rfl
  | cons x xs ih =>
    by_cases hx : x.id = id
    · have h2 : ¬ x.id = i := by rw [hx]; exact fun h' => h h'.symm
      rw [List.filter_cons_of_neg (by simp [hx]), ih, List.find?_cons_of_neg (by simp [h2])]
    · rw [List.filter_cons_of_pos (by simp [hx]), List.find?_cons, List.find?_cons, ih]

theorem findRule_step {s : Sys} {e : Ev} {is : List Text} (h : Leaves is e) {i : Text} (hi : i ∈ is) : findRule (step s e) i = findRule s i := by
  by_cases hc : ∀ b i n, e ≠ .create b i n ∧ e ≠ .update i b n ∧ e ≠ .delete i
  · unfold findRule
    rw [step_rules s e hc]
  · cases e with
    | create b id n =>
      have hne : i ≠ id := fun h' => h (h' ▸ hi)
      simp only [step]
      unfold createRule
      split
      · rfl
      · split
        · unfold findRule
          dsimp only
          rw [List.find?_append, List.find?_cons_of_neg (by simpa using fun h' => hne h'.symm)]
          simp
        · rfl
    | update id b n =>
      have hne : i ≠ id := fun h' => h (h' ▸ hi)
      simp only [step]
      unfold updateRule
      split
      · rfl
      · split
        · rfl
        · split
          · exact find_rules_map _ _ hne
          · rfl
    | delete id =>
      have hne : i ≠ id := fun h' => h (h' ▸ hi)
      simp only [step]
      unfold deleteRule
      split
      · rfl
      · exact find_rules_filter _ hne
    | _ => exact absurd (by intros; simp) hc

theorem loadRules_congr {s s' : Sys} {is : List Text} (h : ∀ i ∈ is, findRule s i = findRule s' i) : loadRules s is = loadRules s' is := by
  induction is with
  | nil => rfl
  | cons i is ih =>
    unfold loadRules
    rw [h i List.mem_cons_self, ih fun i hi => h i (List.mem_cons_of_mem _ hi)]

/-- What an accepted request leaves. -/
theorem start_accepted {s : Sys} {q : StartReq} {id : Text} {now : Nat} (h : (start s q id now).2 = .ok id) :
    (start s q id now).1 =
      { s with recons := s.recons ++ [{ id := id, upload := q.upload, status := .started, started := now }]
               jobs := s.jobs ++ [{ recon := id, upload := q.upload, strategy := q.strategy, rules := q.rules, dry := q.dry }] } := by
  unfold start at h ⊢
  split at h
  · cases h
  · next h1 =>
    rw [if_neg h1]
    split at h
    · next h2 => rw [if_pos h2]
    · cases h

/-- **C173 in full**: a reconciliation works with its rules as they were when it was asked for. -/
def C173Full : Prop := ∀ (es fs : List Ev) (q : StartReq) (id : Text) (now : Nat) (j : Job) (rs : List RuleRow),
  FreshRun {} (es ++ .start q id now :: fs) → (start (run {} es) q id now).2 = .ok id →
  j ∈ (run {} (es ++ .start q id now :: fs)).jobs → j.recon = id → j.phase = .working rs →
  loadRules (run {} es) q.rules = some rs

theorem c173_run {s0 : Sys} {is : List Text} {k : Nat} {fs : List Ev} : ∀ {s : Sys} {j : Job}, s.jobs[k]? = some j → j.rules = is →
    (∀ rs, j.phase = .working rs → loadRules s0 is = some rs) → (∀ i ∈ is, findRule s i = findRule s0 i) → (∀ e ∈ fs, Leaves is e) →
    ∃ j', (run s fs).jobs[k]? = some j' ∧ j'.recon = j.recon ∧ (∀ rs, j'.phase = .working rs → loadRules s0 is = some rs) := by
  induction fs with
  | nil => exact fun hk _ hw _ _ => ⟨_, hk, rfl, hw⟩
  | cons e fs ih =>
    intro s j hk hj hw hr hl
    obtain ⟨p, hp, hc⟩ := jobs_step s e hk
    have := ih (s := step s e) (j := { j with phase := p }) hp hj (by
      intro rs hrs
      rcases hc rs hrs with h | ⟨-, h⟩
      · exact hw rs h
      · rw [hj] at h
        rw [← h]
        exact (loadRules_congr hr).symm)
      (fun i hi => (findRule_step (hl e List.mem_cons_self) hi).trans (hr i hi))
      (fun e he => hl e (List.mem_cons_of_mem _ he))
    exact this

/-- C173, partially: when its rules are not changed in between. -/
theorem c173_partial (es fs : List Ev) (q : StartReq) (id : Text) (now : Nat) (j : Job) (rs : List RuleRow)
    (hf : FreshRun {} (es ++ .start q id now :: fs)) (ha : (start (run {} es) q id now).2 = .ok id)
    (hj : j ∈ (run {} (es ++ .start q id now :: fs)).jobs) (hid : j.recon = id) (hw : j.phase = .working rs)
    (hl : ∀ e ∈ fs, Leaves q.rules e) : loadRules (run {} es) q.rules = some rs := by
  have hb := base_run base_empty hf
  rw [run_append] at hj hb
  generalize run {} es = s at *
  have e1 := start_accepted ha
  obtain ⟨j', hk', hid', hc⟩ := c173_run (s0 := s) (is := q.rules) (k := s.jobs.length) (fs := fs) (s := (start s q id now).1)
    (j := { recon := id, upload := q.upload, strategy := q.strategy, rules := q.rules, dry := q.dry })
    (by rw [e1]; simp) rfl (by intro rs h; cases h) (by intro i hi; unfold findRule; rw [e1]) hl
  obtain ⟨k, hk⟩ := List.mem_iff_getElem?.1 hj
  have hk0 : (run s (.start q id now :: fs)).jobs[s.jobs.length]? = some j' := hk'
  have := hb.same hk hk0 (by rw [hid, hid'])
  subst this
  rw [hk] at hk0
  cases hk0
  exact hc rs hw

/-- The rule changes after the reconciliation was accepted and before it reads its rules. -/
def changed : List Ev := [.update (t! "rule_1") above 2, .begin 0 .done, .load 0]

/-- C173 fails: the rule is changed after the request was accepted, and the changed rule is used. -/
theorem c173_full_fails : ¬ C173Full := by
  intro h
  have := h [.create byReference (t! "rule_1") 0] changed
    { upload := t! "u", strategy := t! "one_to_one", rules := [t! "rule_1"] } (t! "recon_1") 1
    { recon := t! "recon_1", upload := t! "u", strategy := t! "one_to_one", rules := [t! "rule_1"], dry := false,
      phase := .working [⟨t! "rule_1", above.name, [], above.criteria, 0, 0⟩] }
    [⟨t! "rule_1", above.name, [], above.criteria, 0, 0⟩] (by decide +kernel) (by decide +kernel) (by decide +kernel) rfl rfl
  revert this
  decide +kernel

example : loadRules (run {} [.create byReference (t! "rule_1") 0]) [t! "rule_1"] =
    some [⟨t! "rule_1", byReference.name, [], byReference.criteria, 0, 0⟩] :=
  c173_partial [.create byReference (t! "rule_1") 0] [.begin 0 .done, .delete (t! "rule_2"), .load 0]
    { upload := t! "u", strategy := t! "one_to_one", rules := [t! "rule_1"] } (t! "recon_1") 1
    { recon := t! "recon_1", upload := t! "u", strategy := t! "one_to_one", rules := [t! "rule_1"], dry := false,
      phase := .working [⟨t! "rule_1", byReference.name, [], byReference.criteria, 0, 0⟩] }
    _ (by decide +kernel) (by decide +kernel) (by decide +kernel) rfl rfl (by simp [Leaves])

/-! ### C175 -/

/-- **C175 in full**: a reconciliation that names a strategy, a rule or an upload that is not there is refused. -/
def C175Full : Prop := ∀ (s : Sys) (q : StartReq) (id : Text) (now : Nat), (start s q id now).2 = .ok id →
  q.strategy ∈ [t! "one_to_one", t! "one_to_many", t! "many_to_one"] ∧ (∀ i ∈ q.rules, i ∈ s.rules.map RuleRow.id) ∧
  (∃ x ∈ s.exts, x.1 = q.upload)

/-- C175 fails in each respect: a request with nothing there is accepted. -/
theorem c175_full_fails : ¬ C175Full := by
  intro h
  have := (h {} { upload := t! "nowhere", strategy := t! "guess", rules := [t! "rule_9"] } (t! "recon_1") 0 (by decide +kernel)).1
  revert this
  decide +kernel

theorem findRule_none {s : Sys} {i : Text} : findRule s i = none ↔ ∀ r ∈ s.rules, r.id ≠ i := by
  unfold findRule
  rw [List.find?_eq_none]
  simp

theorem findRule_none_step {s : Sys} {e : Ev} {i : Text} (h : findRule s i = none) (hc : ∀ b n, e ≠ .create b i n) : findRule (step s e) i = none := by
  by_cases hl : Leaves [i] e
  · rw [findRule_step hl List.mem_cons_self]; exact h
  · rw [findRule_none] at h ⊢
    cases e with
    | create b id n =>
      have : id = i := by
        simp only [Leaves, List.mem_singleton, Decidable.not_not] at hl
        exact hl
      subst this
      exact absurd rfl (hc b n)
    | update id b n =>
      have hid : id = i := by
        simp only [Leaves, List.mem_singleton, Decidable.not_not] at hl
        exact hl
      subst hid
      simp only [step]
      unfold updateRule
      rw [findRule_none.2 h]
      exact h
    | delete id =>
      have hid : id = i := by
        simp only [Leaves, List.mem_singleton, Decidable.not_not] at hl
        exact hl
      subst hid
      simp only [step]
      unfold deleteRule
      rw [findRule_none.2 h]
      exact h
    | _ => exact absurd trivial hl

theorem loadRules_none {s : Sys} {is : List Text} {i : Text} (hi : i ∈ is) (h : findRule s i = none) : loadRules s is = none := by
  induction is with
  | nil => cases hi
  | cons x is ih =>
    unfold loadRules
    rcases List.mem_cons.1 hi with rfl | hi
    · rw [h]
    · cases findRule s x with
      | none => rfl
      | some r => dsimp only; rw [ih hi]; rfl

theorem c175_rules_run {id i : Text} {k : Nat} {fs : List Ev} : ∀ {s : Sys} {j : Job} {r : ReconRow}, Base s → FreshRun s fs →
    s.jobs[k]? = some j → j.recon = id → i ∈ j.rules → (∀ rs, j.phase ≠ .working rs) → findRule s i = none → row s id = some r → r.status ≠ .completed →
    (∀ e ∈ fs, ∀ b n, e ≠ .create b i n) → ∃ r', row (run s fs) id = some r' ∧ r'.status ≠ .completed := by
  induction fs with
  | nil => exact fun _ _ _ _ _ _ _ hr hs _ => ⟨_, hr, hs⟩
  | cons e fs ih =>
    intro s j r hb hf hk hj hi hw hn hr hs hc
    obtain ⟨p, hp, hpw⟩ := jobs_step s e hk
    obtain ⟨r1, hr1, h1⟩ := row_step hf.1 hr
    refine ih (j := { j with phase := p }) (base_step hb hf.1) hf.2 hp hj hi ?_ (findRule_none_step hn (hc e List.mem_cons_self)) hr1 ?_
      fun e he => hc e (List.mem_cons_of_mem _ he)
    · intro rs h
      rcases hpw rs h with h' | ⟨-, h'⟩
      · exact hw rs h'
      · rw [loadRules_none hi hn] at h'
        cases h'
    · have hid := row_id hr
      rcases h1 with rfl | ⟨k', j', hk', hj', ⟨-, rfl⟩ | ⟨rs, m, u, now, rep, -, hw', -⟩ | ⟨-, rfl⟩⟩
      · exact hs
      · rw [setStatus_status hid]; decide
      · have := hb.same hk hk' (hj.trans hj'.symm)
        subst this
        rw [hk] at hk'
        cases hk'
        exact absurd hw' (hw rs)
      · rw [setStatus_status hid]; decide

/-- C175, partially: with a rule that is not there, and that is not made later under this id, a
reconciliation is never completed. -/
theorem c175_rules_partial (es fs : List Ev) (q : StartReq) (id i : Text) (now : Nat) (hf : FreshRun {} (es ++ .start q id now :: fs))
    (ha : (start (run {} es) q id now).2 = .ok id) (hi : i ∈ q.rules) (hn : i ∉ (run {} es).rules.map RuleRow.id)
    (hc : ∀ e ∈ fs, ∀ b n, e ≠ .create b i n) :
    ∃ v, get (run {} (es ++ .start q id now :: fs)) id = .ok v ∧ v.status ≠ .completed := by
  rw [freshRun_append] at hf
  have hb := base_step (base_run base_empty hf.1) hf.2.1
  rw [run_append]
  generalize run {} es = s at *
  have e1 := start_accepted ha
  have hrow : row (start s q id now).1 id = some { id := id, upload := q.upload, status := .started, started := now } := by
    unfold row
    rw [e1]
    dsimp only
    have : s.recons.find? (fun r => decide (r.id = id)) = none := by
      rw [List.find?_eq_none]
      intro r hr
      simp only [decide_eq_true_eq]
      exact hf.2.1 r hr
    rw [List.find?_append, this, Option.none_or, List.find?_cons_of_pos (by simp)]
  obtain ⟨r', hr', hs⟩ := c175_rules_run (k := s.jobs.length) (id := id) (i := i) (fs := fs) (s := (start s q id now).1)
    (j := { recon := id, upload := q.upload, strategy := q.strategy, rules := q.rules, dry := q.dry }) hb hf.2.2
    (by rw [e1]; simp) rfl hi (by intro rs h; cases h)
    (by rw [findRule_none, e1]; exact fun r hr h => hn (List.mem_map.2 ⟨r, hr, h⟩)) hrow (fun h => by cases h) hc
  exact ⟨view r', get_ok.2 ⟨r', hr', rfl⟩, hs⟩

/-- What is stored under an upload stays as it is. -/
def Spares (up : Text) : Ev → Prop
  | .instant _ _ up' _ _ => up' ≠ up
  | .uploaded up' _ => up' ≠ up
  | _ => True

theorem storeExt_exts {s s' : Sys} {up : Text} {x : Ext} (h : storeExt s up x = some s') : s'.exts = s.exts ++ [(up, x)] := by
  unfold storeExt at h
  split at h
  · cases h; rfl
  · cases h

theorem storeAll_under {up up' : Text} (h : up' ≠ up) (xs : List Ext) : ∀ s : Sys, (∀ x ∈ s.exts, x.1 ≠ up) →
    ∀ x ∈ (storeAll s up' xs).1.exts, x.1 ≠ up := by
  induction xs with
  | nil => exact fun s hs => hs
  | cons e xs ih =>
    intro s hs
    unfold storeAll
    cases hx : storeExt s up' e with
    | none => exact hs
    | some s' =>
      apply ih
      rw [storeExt_exts hx]
      intro x hx
      rcases List.mem_append.1 hx with hx | hx
      · exact hs x hx
      · rw [List.mem_singleton.1 hx]; exact h

theorem exts_step {s : Sys} {e : Ev} {up : Text} (h : ∀ x ∈ s.exts, x.1 ≠ up) (hs : Spares up e) : ∀ x ∈ (step s e).exts, x.1 ≠ up := by
  cases e with
  | create b id now =>
    simp only [step]
    unfold createRule
    split
    · exact h
    · split <;> exact h
  | update id b now =>
    simp only [step]
    unfold updateRule
    split
    · exact h
    · split
      · exact h
      · split <;> exact h
  | delete id =>
    simp only [step]
    unfold deleteRule
    split <;> exact h
  | start q id now =>
    simp only [step]
    unfold start
    split
    · exact h
    · split <;> exact h
  | instant q id up' now rep =>
    simp only [step]
    unfold instant
    split
    · exact h
    split
    · exact h
    split
    · exact h
    dsimp only
    have := storeAll_under (up := up) (show up' ≠ up from hs) q.exts
      { s with recons := s.recons ++ [{ id := id, upload := up', status := .started, started := now }] } h
    split
    · next s2 heq => rw [heq] at this; exact this
    · next s2 heq =>
      rw [heq] at this
      show ∀ x ∈ (update s2 id .failed 0 0 now rep).1.exts, _
      rw [update_exts]
      exact this
  | uploaded up' x =>
    simp only [step]
    cases h' : storeExt s up' x with
    | none => exact h
    | some s' =>
      dsimp only
      rw [storeExt_exts h']
      intro y hy
      rcases List.mem_append.1 hy with hy | hy
      · exact h y hy
      · rw [List.mem_singleton.1 hy]; exact hs
  | begin k rep =>
    simp only [step]
    split
    · show ∀ x ∈ (update ..).1.exts, _
      rw [update_exts]; exact h
    · exact h
  | load k =>
    simp only [step]
    split
    · split <;> exact h
    · exact h
  | finish k m u now rep =>
    simp only [step]
    split
    · show ∀ x ∈ (update ..).1.exts, _
      rw [update_exts]; exact h
    · exact h
  | fail k =>
    simp only [step]
    split <;> exact h
  | giveUp k rep =>
    simp only [step]
    split
    · show ∀ x ∈ (update ..).1.exts, _
      rw [update_exts]; exact h
    · exact h
  | crash => exact h

theorem c175_nothing_run {id st up : Text} {k : Nat} {fs : List Ev}
    (hcond : st ∉ [t! "one_to_one", t! "one_to_many", t! "many_to_one"] ∨ (st ≠ t! "many_to_one" ∧ ∀ e ∈ fs, Spares up e)) :
    ∀ {s : Sys} {j : Job} {r : ReconRow}, Base s → FreshRun s fs →
    s.jobs[k]? = some j → j.recon = id → j.strategy = st → j.upload = up →
    (st ∉ [t! "one_to_one", t! "one_to_many", t! "many_to_one"] ∨ ∀ x ∈ s.exts, x.1 ≠ up) →
    row s id = some r → r.matched = 0 → r.unmatched = 0 →
    ∃ r', row (run s fs) id = some r' ∧ r'.matched = 0 ∧ r'.unmatched = 0 := by
  induction fs with
  | nil => exact fun _ _ _ _ _ _ _ hr hm hu => ⟨_, hr, hm, hu⟩
  | cons e fs ih =>
    intro s j r hb hf hk hj hst hup hx hr hm hu
    obtain ⟨p, hp, hpw⟩ := jobs_step s e hk
    obtain ⟨r1, hr1, h1⟩ := row_step hf.1 hr
    have zero : ∀ m u, found s j m u = (0, 0) := by
      intro m u
      unfold found
      have h3 : j.strategy ≠ t! "many_to_one" := by
        rw [hst]
        rcases hcond with h | h
        · intro h'; exact h (by rw [h']; decide +kernel)
        · exact h.1
      rw [if_neg h3, if_neg]
      rw [Bool.and_eq_true]
      rintro ⟨ha, hb'⟩
      rcases hx with hx | hx
      · apply hx
        rw [← hst]
        simpa [strategies] using ha
      · obtain ⟨y, hy, e⟩ := List.any_eq_true.1 hb'
        exact hx y hy (by rw [← hup]; simpa using e)
    have hz : r1.matched = 0 ∧ r1.unmatched = 0 := by
      have hid := row_id hr
      have set0 : ∀ st' now, (setStatus id st' 0 0 now r).matched = 0 ∧ (setStatus id st' 0 0 now r).unmatched = 0 := by
        intro st' now
        unfold setStatus
        rw [if_pos hid]
        exact ⟨rfl, rfl⟩
      rcases h1 with rfl | ⟨k', j', hk', hj', ⟨-, rfl⟩ | ⟨rs, m, u, now, rep, -, hw', rfl⟩ | ⟨-, rfl⟩⟩
      · exact ⟨hm, hu⟩
      · exact set0 _ _
      · have := hb.same hk hk' (hj.trans hj'.symm)
        subst this
        rw [hk] at hk'
        cases hk'
        rw [zero]
        exact set0 _ _
      · exact set0 _ _
    refine ih ?_ (j := { j with phase := p }) (base_step hb hf.1) hf.2 hp hj hst hup ?_ hr1 hz.1 hz.2
    · rcases hcond with h | ⟨h, h'⟩
      · exact Or.inl h
      · exact Or.inr ⟨h, fun e he => h' e (List.mem_cons_of_mem _ he)⟩
    · rcases hx with hx | hx
      · exact Or.inl hx
      · rcases hcond with h | ⟨-, h'⟩
        · exact Or.inl h
        · exact Or.inr (exts_step hx (h' e List.mem_cons_self))

/-- C175, partially: with a strategy that is not there, or for an upload nothing is stored under (unless
the strategy starts from the internal transactions), a reconciliation never shows anything matched or
unmatched. -/
theorem c175_nothing_partial (es fs : List Ev) (q : StartReq) (id : Text) (now : Nat) (hf : FreshRun {} (es ++ .start q id now :: fs))
    (ha : (start (run {} es) q id now).2 = .ok id)
    (h : q.strategy ∉ [t! "one_to_one", t! "one_to_many", t! "many_to_one"] ∨
      (q.strategy ≠ t! "many_to_one" ∧ (∀ x ∈ (run {} es).exts, x.1 ≠ q.upload) ∧ ∀ e ∈ fs, Spares q.upload e)) :
    ∃ v, get (run {} (es ++ .start q id now :: fs)) id = .ok v ∧ v.matched = 0 ∧ v.unmatched = 0 := by
  rw [freshRun_append] at hf
  have hb := base_step (base_run base_empty hf.1) hf.2.1
  rw [run_append]
  generalize run {} es = s at *
  have e1 := start_accepted ha
  have hrow : row (start s q id now).1 id = some { id := id, upload := q.upload, status := .started, started := now } := by
    unfold row
    rw [e1]
    dsimp only
    have : s.recons.find? (fun r => decide (r.id = id)) = none := by
      rw [List.find?_eq_none]
      intro r hr
      simp only [decide_eq_true_eq]
      exact hf.2.1 r hr
    rw [List.find?_append, this, Option.none_or, List.find?_cons_of_pos (by simp)]
  obtain ⟨r', hr', hm, hu⟩ := c175_nothing_run (k := s.jobs.length) (id := id) (st := q.strategy) (up := q.upload) (fs := fs)
    (by rcases h with h | ⟨h, -, h'⟩; exact Or.inl h; exact Or.inr ⟨h, h'⟩)
    (s := (start s q id now).1)
    (j := { recon := id, upload := q.upload, strategy := q.strategy, rules := q.rules, dry := q.dry }) hb hf.2.2
    (by rw [e1]; simp) rfl rfl rfl (by rcases h with h | ⟨-, h, -⟩; exact Or.inl h; exact Or.inr (by rw [e1]; exact h)) hrow rfl rfl
  exact ⟨view r', get_ok.2 ⟨r', hr', rfl⟩, hm, hu⟩

/-- A run by a strategy that does not exist is completed, with nothing found. -/
example : get (run {} [.create byReference (t! "rule_1") 0, .uploaded (t! "u") { id := t! "e1", amount := 5 },
    .start { upload := t! "u", strategy := t! "guess", rules := [t! "rule_1"] } (t! "recon_1") 1, .begin 0 .done, .load 0, .finish 0 3 4 9 .done])
    (t! "recon_1") = .ok ⟨t! "recon_1", t! "u", .completed, 0, 0, false, 1, some 9⟩ := by decide +kernel

example : ∃ v, get (run {} ([] ++ .start { upload := t! "u", strategy := t! "one_to_one", rules := [t! "rule_1"] } (t! "recon_1") 1 ::
    [.begin 0 .done, .load 0, .giveUp 0 .done])) (t! "recon_1") = .ok v ∧ v.status ≠ .completed :=
  c175_rules_partial [] _ _ _ (t! "rule_1") 1 (by decide +kernel) (by decide +kernel) (by decide +kernel) (by decide +kernel) (by simp)

/-! ### C176 -/

/-- **C176 in full**: an instant reconciliation that is refused stored nothing. -/
def C176Full : Prop := ∀ (s : Sys) (q : InstantReq) (id up : Text) (now : Nat) (rep : Reply) (r : Resp),
  (instant s q id up now rep).2 = .error r → (instant s q id up now rep).1 = s

/-- A record is in the way of another: the other does not fit its columns or has an id that is taken. -/
def Barred (taken : List Text) (x : Ext) : Prop := x.fits = false ∨ x.id ∈ taken

theorem storeExt_none {s : Sys} {up : Text} {x : Ext} : storeExt s up x = none ↔ Barred (s.exts.map fun y => y.2.id) x := by
  unfold storeExt Barred
  constructor
  · intro h
    split at h
    · cases h
    · next hn =>
      cases hx : x.fits with
      | false => exact Or.inl rfl
      | true =>
        simp only [hx, Bool.true_and, Bool.not_eq_true, Bool.not_eq_false', List.any_eq_true, decide_eq_true_eq] at hn
        obtain ⟨y, hy, e⟩ := hn
        exact Or.inr (List.mem_map.2 ⟨y, hy, e⟩)
  · intro h
    rw [if_neg]
    rcases h with h | h
    · simp [h]
    · obtain ⟨y, hy, e⟩ := List.mem_map.1 h
      simp only [Bool.and_eq_true, not_and, Bool.not_eq_true, Bool.not_eq_false', List.any_eq_true, decide_eq_true_eq]
      exact fun _ => ⟨y, hy, e⟩

/-- The loop: either everything is stored, or what stands before the first record in whose way something is. -/
theorem storeAll_spec (up : Text) (xs : List Ext) : ∀ s : Sys,
    ((storeAll s up xs).2 = true ∧ (storeAll s up xs).1.exts = s.exts ++ xs.map fun x => (up, x)) ∨
    ((storeAll s up xs).2 = false ∧ ∃ a x b, xs = a ++ x :: b ∧ (storeAll s up xs).1.exts = s.exts ++ a.map (fun x => (up, x)) ∧
      Barred ((s.exts ++ a.map fun x => (up, x)).map fun y => y.2.id) x) := by
  induction xs with
  | nil => exact fun s => Or.inl ⟨rfl, by simp [storeAll]⟩
  | cons x xs ih =>
    intro s
    unfold storeAll
    cases h : storeExt s up x with
    | none => exact Or.inr ⟨rfl, [], x, xs, rfl, by simp, by simpa using storeExt_none.1 h⟩
    | some s' =>
      have he := storeExt_exts h
      dsimp only
      rcases ih s' with ⟨h1, h2⟩ | ⟨h1, a, y, b, hxs, h2, h3⟩
      · exact Or.inl ⟨h1, by rw [h2, he]; simp⟩
      · exact Or.inr ⟨h1, x :: a, y, b, by rw [hxs]; rfl, by rw [h2, he]; simp, by rw [he] at h3; simpa using h3⟩

/-- C176, partially: when it is accepted, all records are stored and its run is started; when it is
refused, no run is started, and the records stored are those before the first one that does not fit or
whose id is taken: none if the request itself is malformed. -/
theorem c176_partial (s : Sys) (q : InstantReq) (id up : Text) (now : Nat) (rep : Reply) :
    ((instant s q id up now rep).2 = .ok id ∧ (instant s q id up now rep).1.exts = s.exts ++ q.exts.map (fun x => (up, x)) ∧
      (instant s q id up now rep).1.jobs = s.jobs ++ [⟨id, up, q.strategy, q.rules, q.dry, .waiting⟩]) ∨
    ((∃ r, (instant s q id up now rep).2 = .error r) ∧ (instant s q id up now rep).1.jobs = s.jobs ∧
      ((instant s q id up now rep).1 = s ∧ (q.exts = [] ∨ 10000 < q.exts.length ∨ q.rules = []) ∨
        ∃ a x b, q.exts = a ++ x :: b ∧ (instant s q id up now rep).1.exts = s.exts ++ a.map (fun x => (up, x)) ∧
          Barred ((s.exts ++ a.map fun x => (up, x)).map fun y => y.2.id) x)) := by
  unfold instant
  split
  · next h => exact Or.inr ⟨⟨_, rfl⟩, rfl, Or.inl ⟨rfl, Or.inl h⟩⟩
  split
  · next h => exact Or.inr ⟨⟨_, rfl⟩, rfl, Or.inl ⟨rfl, Or.inr (Or.inl h)⟩⟩
  split
  · next h => exact Or.inr ⟨⟨_, rfl⟩, rfl, Or.inl ⟨rfl, Or.inr (Or.inr h)⟩⟩
  dsimp only
  have hs := storeAll_spec up q.exts
    { s with recons := s.recons ++ [{ id := id, upload := up, status := .started, started := now }] }
  have hj := (storeAll_rest up q.exts
    { s with recons := s.recons ++ [{ id := id, upload := up, status := .started, started := now }] }).2.1
  split
  · next s2 heq =>
    rw [heq] at hs hj
    rcases hs with ⟨-, h2⟩ | ⟨h1, -⟩
    · refine Or.inl ⟨rfl, h2, ?_⟩
      show s2.jobs ++ _ = _
      rw [hj]
    · cases h1
  · next s2 heq =>
    rw [heq] at hs hj
    rcases hs with ⟨h1, -⟩ | ⟨-, a, x, b, h2, h3, h4⟩
    · cases h1
    · refine Or.inr ⟨⟨_, rfl⟩, ?_, Or.inr ⟨a, x, b, h2, ?_, h4⟩⟩
      · show (update s2 id .failed 0 0 now rep).1.jobs = _
        rw [update_jobs]; exact hj
      · show (update s2 id .failed 0 0 now rep).1.exts = _
        rw [update_exts]; exact h3

theorem instant_barred {s : Sys} {q : InstantReq} {id up : Text} {now : Nat} {rep : Reply} {a : List Ext} {x : Ext} {b : List Ext}
    (hq : q.exts = a ++ x :: b) (hx : Barred (s.exts.map fun y => y.2.id) x) : ∃ r, (instant s q id up now rep).2 = .error r := by
  rcases c176_partial s q id up now rep with ⟨h, -, -⟩ | ⟨h, -⟩
  · exfalso
    unfold instant at h
    split at h
    · cases h
    split at h
    · cases h
    split at h
    · cases h
    dsimp only at h
    have hs : ∀ (c : List Ext) (s : Sys), Barred (s.exts.map fun y => y.2.id) x → (storeAll s up (c ++ x :: b)).2 = false := by
      intro c
      induction c with
      | nil =>
        intro s hx
        show (storeAll s up (x :: b)).2 = false
        unfold storeAll
        rw [storeExt_none.2 hx]
      | cons y c ih =>
        intro s hx
        show (storeAll s up (y :: (c ++ x :: b))).2 = false
        unfold storeAll
        cases hy : storeExt s up y with
        | none => rfl
        | some s' =>
          apply ih
          rw [storeExt_exts hy]
          rcases hx with hx | hx
          · exact Or.inl hx
          · right
            rw [List.map_append]
            exact List.mem_append_left _ hx
    have := hs a { s with recons := s.recons ++ [{ id := id, upload := up, status := .started, started := now }] } hx
    rw [← hq] at this
    split at h
    · next s2 heq => rw [heq] at this; cases this
    · cases h
  · exact h

/-- C176: what was refused is refused again, whoever sends it and whatever ids are generated: what was
stored of it the first time, or what stood in its way, stands in its way. -/
theorem c176_retry (s : Sys) (q : InstantReq) (id up id' up' : Text) (now now' : Nat) (rep rep' : Reply)
    (h : ∃ r, (instant s q id up now rep).2 = .error r) : ∃ r, (instant (instant s q id up now rep).1 q id' up' now' rep').2 = .error r := by
  rcases c176_partial s q id up now rep with ⟨h', -, -⟩ | ⟨-, -, ⟨hs, hq⟩ | ⟨a, x, b, hq, he, hx⟩⟩
  · obtain ⟨r, hr⟩ := h
    rw [hr] at h'
    cases h'
  · rw [hs]
    unfold instant
    by_cases h1 : q.exts = []
    · rw [if_pos h1]; exact ⟨_, rfl⟩
    · rw [if_neg h1]
      by_cases h2 : maxInstant < q.exts.length
      · rw [if_pos h2]; exact ⟨_, rfl⟩
      · rw [if_neg h2]
        rcases hq with hq | hq | hq
        · exact absurd hq h1
        · exact absurd hq h2
        · rw [if_pos hq]; exact ⟨_, rfl⟩
  · exact instant_barred hq (by rw [he]; exact hx)

/-- C176: a record that does not fit or whose id is taken is answered in the same way whichever it is and
whatever is wrong with it. -/
theorem c176_cause (s s' : Sys) (q q' : InstantReq) (id up id' up' : Text) (now now' : Nat) (rep : Reply) (r r' : Resp)
    (hq : q.exts ≠ [] ∧ q.exts.length ≤ 10000 ∧ q.rules ≠ []) (hq' : q'.exts ≠ [] ∧ q'.exts.length ≤ 10000 ∧ q'.rules ≠ [])
    (h : (instant s q id up now rep).2 = .error r) (h' : (instant s' q' id' up' now' rep).2 = .error r') : r = r' ∧ r.status = 500 := by
  have fixed : ∀ (s : Sys) (q : InstantReq) (id up : Text) (now : Nat) (r : Resp), q.exts ≠ [] → q.exts.length ≤ 10000 → q.rules ≠ [] →
      (instant s q id up now rep).2 = .error r → r = respondError instantOpts (storeErr (decide (rep ≠ .done))) := by
    intro s q id up now r h1 h2 h3 h
    unfold instant at h
    rw [if_neg h1, if_neg (by show ¬ 10000 < _; omega), if_neg h3] at h
    dsimp only at h
    split at h
    · cases h
    · next s2 _ =>
      have e : Except.error (respondError instantOpts (storeErr (update s2 id .failed 0 0 now rep).2)) = (.error r : Except Resp Text) := h
      rw [update_err] at e
      exact (Except.error.inj e).symm
  have e1 := fixed _ _ _ _ _ _ hq.1 hq.2.1 hq.2.2 h
  have e2 := fixed _ _ _ _ _ _ hq'.1 hq'.2.1 hq'.2.2 h'
  refine ⟨e1.trans e2.symm, ?_⟩
  rw [e1]
  cases rep <;> decide +kernel

/-- Two records, the second with the id of the first. -/
def twice : InstantReq :=
  { exts := [{ id := t! "e1", amount := 5 }, { id := t! "e1", amount := 6 }], strategy := t! "one_to_one", rules := [t! "rule_1"] }

/-- C176 fails: the first of two records with the same id is stored, and so is a failed reconciliation
whose id nobody is told. -/
theorem c176_full_fails : ¬ C176Full := by
  intro h
  have := h {} twice (t! "recon_1") (t! "instant_1") 0 .done
    ⟨500, "RECON_START_FAILED", t! "Failed to start instant reconciliation", none⟩ (by decide +kernel)
  revert this
  decide +kernel

example : (instant {} { twice with exts := [{ id := t! "e1", amount := 5 }] } (t! "recon_1") (t! "instant_1") 0 .done).2 = .ok (t! "recon_1") := by
  decide +kernel

/-! ### C180 -/

/-- A reconciliation has ended. -/
def Ended (st : Status) : Prop := st = .completed ∨ st = .failed

/-- What the server does by itself. -/
def Own : Ev → Prop
  | .begin _ _ | .load _ | .finish _ _ _ _ _ | .fail _ | .giveUp _ _ => True
  | _ => False

/-- **C180 in full**: a reconciliation that was accepted can always still end, by what the server does by
itself. -/
def C180Full : Prop := ∀ (es : List Ev) (id : Text) (v : ReconView), FreshRun {} es → get (run {} es) id = .ok v →
  ∃ fs, (∀ e ∈ fs, Own e) ∧ ∃ v', get (run {} (es ++ fs)) id = .ok v' ∧ Ended v'.status

/-- The run of a record that has not ended goes on. -/
def Going (s : Sys) : Prop := ∀ id r, row s id = some r → Ended r.status ∨ ∃ (k : Nat) (j : Job), s.jobs[k]? = some j ∧ j.recon = id ∧ j.phase ≠ .over

/-- Nothing that takes a run away: a stop of the server, or a failure that cannot be recorded. -/
def Steady : Ev → Prop
  | .crash => False
  | .giveUp _ .refused => False
  | .instant _ _ _ _ .refused => False
  | _ => True

theorem going_step {s : Sys} {e : Ev} (h : Going s) (hst : Steady e) : Going (step s e) := by
  have eff := step_effect s e
  generalize step s e = s' at eff
  intro id r hr
  cases eff with
  | none h1 h2 =>
    unfold row at hr
    rw [h1] at hr
    rw [h2]
    exact h id r hr
  | started r1 j h1 h2 hs _ _ _ hj hw hn =>
    unfold row at hr
    rw [h1, List.find?_append] at hr
    cases h0 : s.recons.find? (fun r => decide (r.id = id)) with
    | some r0 =>
      rw [h0] at hr
      cases hr
      rcases h id r h0 with h' | ⟨k, j0, hk, hj0, hp⟩
      · exact Or.inl h'
      · refine Or.inr ⟨k, j0, ?_, hj0, hp⟩
        obtain ⟨l, -⟩ := List.getElem?_eq_some_iff.1 hk
        rw [h2, List.getElem?_append_left l]
        exact hk
    | none =>
      rw [h0, Option.none_or] at hr
      have e1 := List.mem_singleton.1 (List.mem_of_find?_eq_some hr)
      have e2 : r.id = id := by simpa using List.find?_some hr
      refine Or.inr ⟨s.jobs.length, j, by rw [h2]; simp, by rw [hj, ← e1, e2], by rw [hw]; exact fun h => by cases h⟩
  | stillborn r1 q i up now rep he h1 h2 hs _ _ _ _ =>
    have hrep : rep ≠ .refused := by
      rintro rfl
      subst he
      exact hst
    rw [if_neg hrep] at h1 hs
    unfold row at hr
    rw [h1, List.find?_append, find_map _ _ (setStatus_id i .failed 0 0 now)] at hr
    rw [h2]
    cases h0 : s.recons.find? (fun r => decide (r.id = id)) with
    | some r0 =>
      rw [h0] at hr
      have e0 : setStatus i .failed 0 0 now r0 = r := Option.some.inj hr
      rcases h id r0 h0 with h' | h'
      · left
        rw [← e0]
        unfold setStatus
        split
        · exact Or.inr rfl
        · exact h'
      · exact Or.inr h'
    | none =>
      rw [h0, Option.map_none, Option.none_or] at hr
      rw [List.mem_singleton.1 (List.mem_of_find?_eq_some hr), hs]
      exact Or.inl (Or.inr rfl)
  | ran k j p f hk h1 h2 h3 =>
    have hset := ran_sets h3
    unfold row at hr
    rw [h1, find_map _ _ hset.ids] at hr
    cases h0 : s.recons.find? (fun r => decide (r.id = id)) with
    | none => rw [h0] at hr; cases hr
    | some r0 =>
      rw [h0] at hr
      have e0 : f r0 = r := Option.some.inj hr
      have hid : r0.id = id := by simpa using List.find?_some h0
      by_cases hj : j.recon = id
      · rcases h3 with ⟨-, hc⟩ | ⟨-, -, hc⟩ | ⟨rs, m, u, now, rep, he, hw, rfl, rfl⟩ | ⟨rep, he, hw, rfl, rfl⟩
        · refine Or.inr ⟨k, { j with phase := p }, by rw [h2, List.getElem?_modify, hk]; simp, hj, ?_⟩
          rcases hc with ⟨-, rfl⟩ | ⟨-, rfl | ⟨rs, rfl, -⟩⟩ | ⟨rs, -, rfl⟩ <;> exact fun h => by cases h
        · refine Or.inr ⟨k, { j with phase := p }, by rw [h2, List.getElem?_modify, hk]; simp, hj, ?_⟩
          rcases hc with rfl | rfl <;> exact fun h => by cases h
        · cases rep with
          | done =>
            left
            rw [← e0]
            show Ended (setStatus _ _ _ _ _ r0).status
            rw [setStatus_status (hid.trans hj.symm)]
            exact Or.inl rfl
          | refused => exact Or.inr ⟨k, { j with phase := .failing }, by rw [h2, List.getElem?_modify, hk]; simp, hj, fun h => by cases h⟩
          | lost => exact Or.inr ⟨k, { j with phase := .failing }, by rw [h2, List.getElem?_modify, hk]; simp, hj, fun h => by cases h⟩
        · have hrep : rep ≠ .refused := by
            rintro rfl
            subst he
            exact hst
          left
          rw [← e0, if_neg hrep, setStatus_status (hid.trans hj.symm)]
          exact Or.inr rfl
      · rw [hset.other (by rw [hid]; exact fun h => hj h.symm)] at e0
        subst e0
        rcases h id r0 h0 with h' | ⟨k0, j0, hk0, hj0, hp⟩
        · exact Or.inl h'
        · refine Or.inr ⟨k0, j0, ?_, hj0, hp⟩
          have : k ≠ k0 := by
            rintro rfl
            rw [hk] at hk0
            cases hk0
            exact hj hj0
          rw [h2, List.getElem?_modify, hk0]
          simp [this]
  | crash he _ _ => subst he; exact absurd hst (fun h => h)

theorem going_run {s : Sys} {es : List Ev} (h : Going s) (hst : ∀ e ∈ es, Steady e) : Going (run s es) := by
  induction es generalizing s with
  | nil => exact h
  | cons e es ih => exact ih (going_step h (hst e List.mem_cons_self)) fun e he => hst e (List.mem_cons_of_mem _ he)

theorem end_failing {s : Sys} {k : Nat} {j : Job} {r : ReconRow} (hk : s.jobs[k]? = some j) (hp : j.phase = .failing) (hr : row s j.recon = some r) :
    ∃ r', row (step s (.giveUp k .done)) j.recon = some r' ∧ r'.status = .failed := by
  obtain ⟨i, up, st, is, dry, p⟩ := j
  dsimp only at hp hr
  subst hp
  refine ⟨setStatus i .failed 0 0 0 r, ?_, setStatus_status (row_id hr) ..⟩
  simp only [step, hk]
  show row (update s i .failed 0 0 0 .done).1 i = _
  rw [update_row, hr]
  rfl

theorem end_working {s : Sys} {k : Nat} {j : Job} {r : ReconRow} {rs : List RuleRow} (hk : s.jobs[k]? = some j) (hp : j.phase = .working rs)
    (hr : row s j.recon = some r) : ∃ r', row (step s (.finish k 0 0 0 .done)) j.recon = some r' ∧ r'.status = .completed := by
  obtain ⟨i, up, st, is, dry, p⟩ := j
  dsimp only at hp hr
  subst hp
  refine ⟨setStatus i .completed (found s ⟨i, up, st, is, dry, .working rs⟩ 0 0).1 (found s ⟨i, up, st, is, dry, .working rs⟩ 0 0).2 0 r, ?_,
    setStatus_status (row_id hr) ..⟩
  simp only [step, hk]
  show row (update s i .completed _ _ 0 .done).1 i = _
  rw [update_row, hr]
  rfl

theorem end_begun {s : Sys} {k : Nat} {j : Job} {r : ReconRow} (hk : s.jobs[k]? = some j) (hp : j.phase = .begun)
    (hr : row s j.recon = some r) : ∃ e, Own e ∧ ∃ r', row (run s [.load k, e]) j.recon = some r' ∧ Ended r'.status := by
  obtain ⟨i, up, st, is, dry, p⟩ := j
  dsimp only at hp hr
  subst hp
  cases hl : loadRules s is with
  | none =>
    have hs : step s (.load k) = setJob s k .failing := by simp only [step, hk, hl]
    obtain ⟨r', hr', e'⟩ := end_failing (s := step s (.load k)) (k := k) (j := ⟨i, up, st, is, dry, .failing⟩) (r := r)
      (by rw [hs]; simp [setJob, hk]) rfl (by rw [hs]; exact hr)
    exact ⟨.giveUp k .done, trivial, r', hr', Or.inr e'⟩
  | some rs =>
    have hs : step s (.load k) = setJob s k (.working rs) := by simp only [step, hk, hl]
    obtain ⟨r', hr', e'⟩ := end_working (s := step s (.load k)) (k := k) (j := ⟨i, up, st, is, dry, .working rs⟩) (rs := rs) (r := r)
      (by rw [hs]; simp [setJob, hk]) rfl (by rw [hs]; exact hr)
    exact ⟨.finish k 0 0 0 .done, trivial, r', hr', Or.inl e'⟩

/-- C180, partially: while the server does not stop and no failure goes unrecorded. -/
theorem c180_partial (es : List Ev) (id : Text) (v : ReconView) (hs : ∀ e ∈ es, Steady e) (h : get (run {} es) id = .ok v) :
    ∃ fs, (∀ e ∈ fs, Own e) ∧ ∃ v', get (run {} (es ++ fs)) id = .ok v' ∧ Ended v'.status := by
  have hg := going_run (s := {}) (by intro id r hr; cases hr) hs
  obtain ⟨r, hr, rfl⟩ := get_ok.1 h
  suffices ∃ fs, (∀ e ∈ fs, Own e) ∧ ∃ r', row (run (run {} es) fs) id = some r' ∧ Ended r'.status by
    obtain ⟨fs, h1, r', h2, h3⟩ := this
    exact ⟨fs, h1, view r', get_ok.2 ⟨r', by rw [run_append]; exact h2, rfl⟩, h3⟩
  generalize run {} es = s at *
  rcases hg id r hr with h' | ⟨k, j, hk, rfl, hp⟩
  · exact ⟨[], by simp, r, hr, h'⟩
  · cases hph : j.phase with
    | over => exact absurd hph hp
    | failing =>
      obtain ⟨r', h1, h2⟩ := end_failing hk hph hr
      exact ⟨[.giveUp k .done], by simp [Own], r', h1, Or.inr h2⟩
    | working rs =>
      obtain ⟨r', h1, h2⟩ := end_working hk hph hr
      exact ⟨[.finish k 0 0 0 .done], by simp [Own], r', h1, Or.inl h2⟩
    | begun =>
      obtain ⟨e, he, r', h1, h2⟩ := end_begun hk hph hr
      refine ⟨[.load k, e], ?_, r', h1, h2⟩
      intro x hx
      rcases List.mem_cons.1 hx with rfl | hx
      · exact trivial
      · rw [List.mem_singleton.1 hx]; exact he
    | waiting =>
      obtain ⟨i, up, st, is, dry, p⟩ := j
      dsimp only at hph hr hp
      subst hph
      have hst : step s (.begin k .done) = setJob (update s i .inProgress 0 0 0 .done).1 k .begun := by
        simp only [step, hk]
        rfl
      obtain ⟨e, he, r', h1, h2⟩ := end_begun (s := step s (.begin k .done)) (k := k) (j := ⟨i, up, st, is, dry, .begun⟩)
        (r := setStatus i .inProgress 0 0 0 r)
        (by rw [hst]; simp [setJob, update_jobs, hk]) rfl
        (by
          rw [hst]
          show row (update s i .inProgress 0 0 0 .done).1 i = _
          rw [update_row, hr]
          rfl)
      refine ⟨[.begin k .done, .load k, e], ?_, r', h1, h2⟩
      intro x hx
      rcases List.mem_cons.1 hx with rfl | hx
      · exact trivial
      rcases List.mem_cons.1 hx with rfl | hx
      · exact trivial
      · rw [List.mem_singleton.1 hx]; exact he

/-- C180: after the server stopped, what its records show does not change any more, whatever happens:
what had not ended never ends. -/
theorem c180_stuck (es fs : List Ev) (id : Text) (v : ReconView) (hf : FreshRun {} (es ++ .crash :: fs)) (h : get (run {} es) id = .ok v) :
    get (run {} (es ++ .crash :: fs)) id = .ok v := by
  rw [freshRun_append] at hf
  have hb := base_run base_empty hf.1
  obtain ⟨r, hr, rfl⟩ := get_ok.1 h
  refine get_ok.2 ⟨r, ?_, rfl⟩
  rw [run_append]
  generalize run {} es = s at *
  have key : ∀ (fs : List Ev) (s : Sys), Base s → FreshRun s fs → row s id = some r →
      (∀ (k : Nat) (j : Job), s.jobs[k]? = some j → j.recon = id → j.phase = .over) → row (run s fs) id = some r := by
    intro fs
    induction fs with
    | nil => exact fun s _ _ hr _ => hr
    | cons e fs ih =>
      intro s hb hf hr hj
      obtain ⟨r1, hr1, hc⟩ := row_step hf.1 hr
      have e1 : r1 = r := by
        rcases hc with rfl | ⟨k, j, hk, hid, hc⟩
        · rfl
        · have := hj k j hk hid
          rcases hc with ⟨hw, -⟩ | ⟨rs, m, u, now, rep, -, hw, -⟩ | ⟨hw, -⟩ <;> rw [this] at hw <;> cases hw
      subst e1
      refine ih _ (base_step hb hf.1) hf.2 hr1 ?_
      intro k j hk hid
      have eff := step_effect s e
      generalize step s e = s' at eff hk
      cases eff with
      | none h1 h2 => rw [h2] at hk; exact hj k j hk hid
      | started r0 j0 h1 h2 _ _ _ _ hj0 _ hn =>
        rw [h2] at hk
        rcases List.mem_append.1 (List.mem_of_getElem? hk) with hm | hm
        · obtain ⟨i, hi⟩ := List.mem_iff_getElem?.1 hm
          exact hj i j hi hid
        · rw [List.mem_singleton.1 hm, hj0] at hid
          exact absurd ((row_id hr).trans hid.symm) (hn hf.1 _ (row_mem hr))
      | stillborn r0 q i up now rep _ h1 h2 _ _ _ _ _ => rw [h2] at hk; exact hj k j hk hid
      | ran k0 j0 p f hk0 h1 h2 h3 =>
        rw [h2, List.getElem?_modify] at hk
        cases hx : s.jobs[k]? with
        | none => rw [hx] at hk; cases hk
        | some x =>
          rw [hx] at hk
          have e0 : (if k0 = k then { x with phase := p } else x) = j := Option.some.inj hk
          by_cases hkk : k0 = k
          · subst hkk
            rw [hx] at hk0
            cases hk0
            rw [if_pos rfl] at e0
            have : j0.phase = .over := hj k0 j0 hx (by rw [← hid, ← e0])
            rcases h3 with ⟨-, ⟨hw, -⟩ | ⟨hw, -⟩ | ⟨rs, hw, -⟩⟩ | ⟨hw, -⟩ | ⟨rs, m, u, now, rep, -, hw, -⟩ | ⟨rep, -, hw, -⟩ <;>
              rw [this] at hw <;> cases hw
          · rw [if_neg hkk] at e0
            subst e0
            exact hj k x hx hid
      | crash _ h1 h2 =>
        rw [h2] at hk
        obtain ⟨x, -, rfl⟩ := List.mem_map.1 (List.mem_of_getElem? hk)
        rfl
  refine key fs (step s .crash) (base_step hb hf.2.1) hf.2.2 hr ?_
  intro k j hk _
  have hk : (s.jobs.map fun j => { j with phase := .over })[k]? = some j := hk
  obtain ⟨x, -, rfl⟩ := List.mem_map.1 (List.mem_of_getElem? hk)
  rfl

/-- C180 fails: the server stops in the middle of a reconciliation, which stays in progress for ever. -/
theorem c180_full_fails : ¬ C180Full := by
  intro h
  obtain ⟨fs, hown, v', hv', he⟩ := h (underway ++ [.crash]) (t! "recon_1") ⟨t! "recon_1", t! "u", .inProgress, 0, 0, false, 1, none⟩
    (by decide +kernel) (by decide +kernel)
  have hfr : ∀ (fs : List Ev) (s : Sys), (∀ e ∈ fs, Own e) → FreshRun s fs := by
    intro fs
    induction fs with
    | nil => exact fun _ _ => trivial
    | cons e fs ih =>
      refine fun s h => ⟨?_, ih _ fun e he => h e (List.mem_cons_of_mem _ he)⟩
      have := h e List.mem_cons_self
      cases e <;> first | exact trivial | exact absurd this (fun h => h)
  have e1 : underway ++ [.crash] ++ fs = underway ++ .crash :: fs := by simp
  rw [e1] at hv'
  have := c180_stuck underway fs (t! "recon_1") ⟨t! "recon_1", t! "u", .inProgress, 0, 0, false, 1, none⟩
    (freshRun_append.2 ⟨by decide +kernel, trivial, hfr _ _ hown⟩) (by decide +kernel)
  rw [hv'] at this
  cases this
  rcases he with h | h <;> cases h

example : ∃ fs, (∀ e ∈ fs, Own e) ∧ ∃ v', get (run {} (underway ++ fs)) (t! "recon_1") = .ok v' ∧ Ended v'.status :=
  c180_partial underway (t! "recon_1") ⟨t! "recon_1", t! "u", .inProgress, 0, 0, false, 1, none⟩ (by simp [underway, Steady]) (by decide +kernel)

end Blnk.Rules
