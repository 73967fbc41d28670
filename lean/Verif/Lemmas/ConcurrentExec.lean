import Verif.Model.Concurrent
/-
A computable scheduler for the concurrent model, used to exhibit concrete executions.
Only `cexecAll_reach` matters: whatever the scheduler produces is an execution of the model.
-/
namespace Blnk

/-- One scheduling decision. -/
inductive Cmd
  | create (id ind cur : String)
  | start (k : Nat) (j : Job)
  | step (k : Nat)
  | abort (k : Nat)

/-- `step k` advances worker `k`. Workers `n` and above never start. -/
def cexec (cfg : Cfg) (ob : Txn → Option String) (n : Nat) (W : World) : Cmd → Option World
  | .create id ind cur => match W.db.createBalance id ind cur with
    | .ok db' => some { W with db := db', log := W.log ++ [.create id ind cur] }
    | .error _ => none
  | .start k j => match W.phase k, j with
    | .idle, .single t =>
      if k < n ∧ isIndicator t.source = false ∧ isIndicator t.destination = false ∧ W.db.hasRef t.reference = false then
        some (W.set k (.reading j W.db j.ids []))
      else none
    | .idle, .batch _ => if k < n then some (W.set k (.reading j W.db j.ids [])) else none
    | _, _ => none
  | .step k => match W.phase k with
    | .idle => none
    | .reading j seen (i :: todo) got => match W.db.load cfg i with
      | .ok b => if k < n then some (W.set k (.reading j seen todo (got ++ [b]))) else none
      | .error _ => none
    | .reading j seen [] got => match j.compute seen got with
      | .ok (some w) => if k < n then some (W.set k (.writing j w [] w.balances)) else none
      | _ => none
    | .writing j w done (b :: todo) =>
      if k < n ∧ ((List.range n).all fun k' => k' = k || !((W.phase k').locked.contains b.id)) = true ∧
          (done.map (·.id)).contains b.id = false ∧
          W.db.balances.any (fun r => r.id = b.id && r.version = b.version) = true then
        some (W.set k (.writing j w (done ++ [b]) todo))
      else none
    | .writing j w _ [] => if k < n then some (W.set k (.inserting j w [] w.rows)) else none
    | .inserting j w done (t :: todo) =>
      if k < n ∧ ((List.range n).all fun k' => k' = k ||
            (W.phase k').pending.all (fun u => u.id ≠ t.id ∧ u.reference ≠ t.reference)) = true ∧
          done.all (fun u => u.id ≠ t.id ∧ u.reference ≠ t.reference) = true ∧
          W.db.hasTxnId t.id = false ∧ W.db.hasRef t.reference = false then
        some (W.set k (.inserting j w (done ++ [t]) todo))
      else none
    | .inserting j w done [] => if k < n then some (W.set k (.ready j w (done.filterMap ob))) else none
    | .ready j w o => some { (W.set k .idle) with
        db := { balances := writeAll W.db.balances w.balances, txns := W.db.txns ++ w.rows }
        outbox := W.outbox ++ o
        log := W.log ++ [j.op]
        posted := W.posted ++ w.rows }
  | .abort k => some (W.set k .idle)

theorem set_idle {W : World} {n k : Nat} {p : Phase} (h : ∀ i, n ≤ i → W.phase i = .idle) (hk : k < n) :
    ∀ i, n ≤ i → (W.set k p).phase i = .idle := by
  intro i hi
  simp only [World.set]
  rw [if_neg (by omega)]
  exact h i hi

theorem set_idle' {W : World} {n k : Nat} (h : ∀ i, n ≤ i → W.phase i = .idle) :
    ∀ i, n ≤ i → (W.set k .idle).phase i = .idle := by
  intro i hi
  simp only [World.set]
  split
  · rfl
  · exact h i hi

theorem cexec_sound {cfg : Cfg} {ob : Txn → Option String} {n : Nat} {W W' : World} {c : Cmd}
    (hn : ∀ i, n ≤ i → W.phase i = .idle) (h : cexec cfg ob n W c = some W') :
    CStep cfg ob W W' ∧ ∀ i, n ≤ i → W'.phase i = .idle := by
  cases c with
  | create id ind cur =>
    simp only [cexec] at h
    split at h
    · rename_i db' hc
      simp at h; subst h
      exact ⟨.create id ind cur hc, hn⟩
    · cases h
  | start k j =>
    simp only [cexec] at h
    split at h
    · rename_i hp
      split at h
      · rename_i hc
        simp at h; subst h
        exact ⟨.start k _ hp ⟨hc.2.1, hc.2.2.1⟩ hc.2.2.2, set_idle hn hc.1⟩
      · cases h
    · rename_i hp
      split at h
      · rename_i hc
        simp at h; subst h
        exact ⟨.start k _ hp trivial trivial, set_idle hn hc⟩
      · cases h
    · cases h
  | step k =>
    simp only [cexec] at h
    split at h
    · cases h
    · rename_i hp
      split at h
      · rename_i hl
        split at h
        · simp at h; subst h
          exact ⟨.read k hp hl, set_idle hn (by assumption)⟩
        · cases h
      · cases h
    · rename_i hp
      split at h
      · rename_i hl
        split at h
        · simp at h; subst h
          exact ⟨.compute k hp hl, set_idle hn (by assumption)⟩
        · cases h
      · cases h
    · rename_i hp
      split at h
      · rename_i hc
        obtain ⟨h1, h2, h3, h4⟩ := hc
        simp at h; subst h
        refine ⟨.write k hp ?_ (by simpa using h3) h4, set_idle hn h1⟩
        intro k' hk'
        by_cases hlt : k' < n
        · have := List.all_eq_true.1 h2 k' (List.mem_range.2 hlt)
          simpa [hk'] using this
        · rw [hn k' (by omega)]; simp [Phase.locked]
      · cases h
    · rename_i hp
      split at h
      · simp at h; subst h
        exact ⟨.written k hp, set_idle hn (by assumption)⟩
      · cases h
    · rename_i hp
      split at h
      · rename_i hc
        obtain ⟨h1, h2, h3, h4, h5⟩ := hc
        simp at h; subst h
        refine ⟨.insert k hp ?_ (by simpa using h3) h4 h5, set_idle hn h1⟩
        intro k' hk'
        by_cases hlt : k' < n
        · have := List.all_eq_true.1 h2 k' (List.mem_range.2 hlt)
          simpa [hk'] using this
        · rw [hn k' (by omega)]; simp [Phase.pending]
      · cases h
    · rename_i hp
      split at h
      · simp at h; subst h
        exact ⟨.outbox k hp, set_idle hn (by assumption)⟩
      · cases h
    · rename_i hp
      simp at h; subst h
      exact ⟨.commit k hp, set_idle' hn⟩
  | abort k =>
    simp [cexec] at h; subst h
    exact ⟨.abort k, set_idle' hn⟩

def cexecAll (cfg : Cfg) (ob : Txn → Option String) (n : Nat) : World → List Cmd → Option World
  | W, [] => some W
  | W, c :: cs => match cexec cfg ob n W c with
    | none => none
    | some W' => cexecAll cfg ob n W' cs

theorem cexecAll_reach {cfg : Cfg} {ob : Txn → Option String} {n : Nat} : ∀ {cs : List Cmd} {W W' : World},
    (∀ i, n ≤ i → W.phase i = .idle) → CReach cfg ob W → cexecAll cfg ob n W cs = some W' → CReach cfg ob W' := by
  intro cs
  induction cs with
  | nil => intro W W' _ h he; simp [cexecAll] at he; subst he; exact h
  | cons c cs ih =>
    intro W W' hn h he
    simp only [cexecAll] at he
    split at he
    · cases he
    · rename_i W1 h1
      obtain ⟨h2, h3⟩ := cexec_sound hn h1
      exact ih h3 (.step h h2) he

theorem cexec_reach {cfg : Cfg} {ob : Txn → Option String} {n : Nat} {cs : List Cmd} {W : World}
    (h : cexecAll cfg ob n {} cs = some W) : CReach cfg ob W :=
  cexecAll_reach (fun _ _ => rfl) .init h

end Blnk
