import Verif.Model.KeyCache
/-
C46: when a revoked key stops working.
-/
namespace Blnk.KeyCache

/-- **C46 in full.** A request that begins after the revocation was acknowledged is refused. -/
def C46Full (t : Ttl) : Prop := ∀ evs, ∀ a ∈ (run t {} evs).2, a.late = true → a.accepted = false

/-- The lifetimes of the code, in seconds. -/
def codeTtl : Ttl := ⟨300, 60⟩

/-- **C46** (violated) One server: a lookup reads the row, the key is revoked and the cache
cleared, the lookup then fills the cache with its old copy; the next request is accepted. -/
theorem c46_race_fails : (run codeTtl {} [.request 0, .read 0, .revokeRow, .ack 0 true, .fill 0, .request 0]).2 =
    [⟨false, true⟩, ⟨true, true⟩] := by decide +kernel

/-- **C46** (violated) Two servers, nothing overlapping: the other server still has its own
copy. -/
theorem c46_two_servers_fails : (run codeTtl {} [.request 1, .read 0, .fill 0, .revokeRow, .ack 0 true, .request 1]).2 =
    [⟨false, true⟩, ⟨true, true⟩] := by decide +kernel

/-- **C46** (violated) One server: the cache deletion fails, which is only logged. -/
theorem c46_failed_deletion_fails : (run codeTtl {} [.request 0, .read 0, .fill 0, .revokeRow, .ack 0 false, .request 0]).2 =
    [⟨false, true⟩, ⟨true, true⟩] := by decide +kernel

theorem c46_full_fails : ¬ C46Full codeTtl := by
  intro h
  have := h [.request 0, .read 0, .revokeRow, .ack 0 true, .fill 0, .request 0] ⟨true, true⟩ (by rw [c46_race_fails]; decide) rfl
  cases this

/-! ### When nothing stale is left -/

/-- No usable copy from before the revocation is left anywhere. -/
def Clean (s : State) : Prop :=
  s.revoked = true ∧ (∀ e, s.redis = some e → e.revoked = true) ∧ (∀ p ∈ s.local_, p.2.revoked = true) ∧
    ∀ l ∈ s.pending, l.got ≠ some false

theorem setLocal_mem {l : List (Nat × Entry)} {v : Nat} {e : Entry} {p : Nat × Entry} (h : p ∈ setLocal l v e) :
    p = (v, e) ∨ p ∈ l := by
  rcases List.mem_cons.1 h with h | h
  · exact .inl h
  · exact .inr (List.mem_filter.1 h).1

theorem fresh_mem {s : State} {v : Nat} {e : Entry} (h : s.fresh v = some e) : ∃ w, (w, e) ∈ s.local_ ∧ s.now < e.exp := by
  unfold State.fresh at h
  rw [Option.filter_eq_some_iff] at h
  obtain ⟨h1, h2⟩ := h
  rw [Option.map_eq_some_iff] at h1
  obtain ⟨⟨w, e'⟩, h3, h4⟩ := h1
  simp only at h4
  subst h4
  exact ⟨w, List.mem_of_find?_eq_some h3, by simpa using h2⟩

theorem modify_mem {α : Type} (f : α → α) : ∀ (l : List α) (i : Nat) (x : α), x ∈ l.modify i f → x ∈ l ∨ ∃ y ∈ l, x = f y
  | [], i, x, h => by cases i <;> simp at h
  | a :: as, 0, x, h => by
    rw [List.modify_zero_cons] at h
    rcases List.mem_cons.1 h with h | h
    · exact .inr ⟨a, List.mem_cons_self .., h⟩
    · exact .inl (List.mem_cons_of_mem _ h)
  | a :: as, i + 1, x, h => by
    rw [List.modify_succ_cons] at h
    rcases List.mem_cons.1 h with h | h
    · exact .inl (h ▸ List.mem_cons_self ..)
    · rcases modify_mem f as i x h with h | ⟨y, hy, e⟩
      · exact .inl (List.mem_cons_of_mem _ h)
      · exact .inr ⟨y, List.mem_cons_of_mem _ hy, e⟩

theorem clean_step {t : Ttl} {s : State} (h : Clean s) (e : Ev) :
    Clean (step t s e).1 ∧ ∀ a ∈ (step t s e).2, a.accepted = false := by
  obtain ⟨h1, h2, h3, h4⟩ := h
  cases e with
  | tick n => exact ⟨⟨h1, h2, h3, h4⟩, by simp [step]⟩
  | request v =>
    unfold step; simp only
    split
    · rename_i e he
      obtain ⟨w, hm, _⟩ := fresh_mem he
      have hr : e.revoked = true := h3 _ hm
      refine ⟨⟨h1, h2, h3, h4⟩, ?_⟩
      intro a ha
      rw [List.mem_singleton] at ha
      subst ha; simp [hr]
    · split
      · rename_i e he
        rw [Option.filter_eq_some_iff] at he
        have hr := h2 e he.1
        refine ⟨⟨h1, h2, ?_, h4⟩, ?_⟩
        · intro p hp
          rcases setLocal_mem hp with rfl | hp
          · exact hr
          · exact h3 p hp
        · intro a ha
          rw [List.mem_singleton] at ha
          subst ha; simp [hr]
      · refine ⟨⟨h1, h2, h3, ?_⟩, by simp⟩
        intro l hl
        rcases List.mem_append.1 hl with hl | hl
        · exact h4 l hl
        · rw [List.mem_singleton] at hl; subst hl; simp
  | read i =>
    refine ⟨⟨h1, h2, h3, ?_⟩, by simp [step]⟩
    intro l hl
    rcases modify_mem _ _ _ _ hl with hl | ⟨y, hy, e⟩
    · exact h4 l hl
    · subst e
      have := h4 y hy
      simp only [ne_eq, Option.some.injEq]
      cases hg : y.got with
      | none => simp [h1]
      | some b => cases b <;> simp_all
  | fill i =>
    unfold step; simp only
    split
    · rename_i v late r hp
      have hm := List.mem_of_getElem? hp
      have hr : r = true := by
        have := h4 _ hm
        cases r <;> simp_all
      subst hr
      refine ⟨⟨h1, ?_, ?_, ?_⟩, ?_⟩
      · intro e he; injection he with he; subst he; rfl
      · intro p hp
        rcases setLocal_mem hp with rfl | hp
        · rfl
        · exact h3 p hp
      · intro l hl; exact h4 l (List.mem_of_mem_eraseIdx hl)
      · intro a ha
        rw [List.mem_singleton] at ha
        subst ha; rfl
    · exact ⟨⟨h1, h2, h3, h4⟩, by simp⟩
  | revokeRow => exact ⟨⟨rfl, h2, h3, h4⟩, by simp [step]⟩
  | ack v deleted =>
    unfold step; simp only [h1, if_true]
    split
    · refine ⟨⟨rfl, by simp, ?_, h4⟩, by simp⟩
      intro p hp; exact h3 p (List.mem_filter.1 hp).1
    · exact ⟨⟨rfl, h2, h3, h4⟩, by simp⟩

theorem clean_run {t : Ttl} : ∀ (evs : List Ev) {s : State}, Clean s → ∀ a ∈ (run t s evs).2, a.accepted = false
  | [], _, _, a, ha => by simp [run] at ha
  | e :: es, s, h, a, ha => by
    have := clean_step (t := t) h e
    unfold run at ha
    simp only [List.mem_append] at ha
    rcases ha with ha | ha
    · exact this.2 a ha
    · exact clean_run es this.1 a ha

/-- **C46, partial.** If the revocation clears the cache of the only server that holds a copy
while no lookup is between its read of the old row and its cache write, no request is accepted
ever after, whatever happens. Missing: overlapping lookups, other servers, failed deletions
(the three `_fails` above). -/
theorem c46_quiet_partial {t : Ttl} {s : State} (hrow : s.revoked = true) (v : Nat) (hloc : ∀ p ∈ s.local_, p.1 = v)
    (hpend : ∀ l ∈ s.pending, l.got ≠ some false) (evs : List Ev) :
    ∀ a ∈ (run t (step t s (.ack v true)).1 evs).2, a.accepted = false := by
  apply clean_run
  simp only [step, hrow, if_true]
  refine ⟨rfl, by simp, ?_, hpend⟩
  intro p hp
  obtain ⟨h1, h2⟩ := List.mem_filter.1 hp
  simp [hloc p h1] at h2

example : let s := (run codeTtl {} [.request 0, .read 0, .fill 0, .request 0, .revokeRow]).1
    s.revoked = true ∧ s.local_.all (fun p => p.1 == 0) = true ∧ s.local_.length = 1 ∧ s.pending = [] ∧
    (run codeTtl (step codeTtl s (.ack 0 true)).1 [.request 0, .read 0, .fill 0, .request 0, .request 1]).2 =
      [⟨true, false⟩, ⟨true, false⟩, ⟨true, false⟩] := by decide +kernel

/-! ### Stale copies die out -/

/-- Every entry expires within its lifetime. -/
def Timely (t : Ttl) (s : State) : Prop :=
  (∀ e, s.redis = some e → e.exp ≤ s.now + t.redis) ∧ ∀ p ∈ s.local_, p.2.exp ≤ s.now + t.local_

theorem timely_step {t : Ttl} {s : State} (h : Timely t s) (e : Ev) : Timely t (step t s e).1 := by
  obtain ⟨h1, h2⟩ := h
  cases e with
  | tick n =>
    refine ⟨fun e he => ?_, fun p hp => ?_⟩
    · have := h1 e he; simp only [step]; omega
    · have := h2 p hp; simp only [step]; omega
  | request v =>
    unfold step; simp only
    split
    · exact ⟨h1, h2⟩
    · split
      · refine ⟨h1, fun p hp => ?_⟩
        rcases setLocal_mem hp with rfl | hp
        · exact Nat.le_refl _
        · exact h2 p hp
      · exact ⟨h1, h2⟩
  | read i => exact ⟨h1, h2⟩
  | fill i =>
    unfold step; simp only
    split
    · refine ⟨fun e he => ?_, fun p hp => ?_⟩
      · injection he with he; subst he; exact Nat.le_refl _
      · rcases setLocal_mem hp with rfl | hp
        · exact Nat.le_refl _
        · exact h2 p hp
    · exact ⟨h1, h2⟩
  | revokeRow => exact ⟨h1, h2⟩
  | ack v deleted =>
    unfold step; simp only
    split
    · split
      · exact ⟨by simp, fun p hp => h2 p (List.mem_filter.1 hp).1⟩
      · exact ⟨h1, h2⟩
    · exact ⟨h1, h2⟩

theorem timely_run {t : Ttl} : ∀ (evs : List Ev) {s : State}, Timely t s → Timely t (run t s evs).1
  | [], _, h => h
  | e :: es, _, h => by unfold run; exact timely_run es (timely_step h e)

/-- After the last old lookup has written its copy at time `T`, old copies live in Redis until
`T + redis` and locally until `T + redis + local`. -/
def Dying (t : Ttl) (T : Nat) (s : State) : Prop :=
  s.revoked = true ∧ (∀ e, s.redis = some e → e.revoked = false → e.exp ≤ T + t.redis) ∧
    (∀ p ∈ s.local_, p.2.revoked = false → p.2.exp ≤ T + t.redis + t.local_) ∧ ∀ l ∈ s.pending, l.got ≠ some false

theorem dying_step {t : Ttl} {T : Nat} {s : State} (h : Dying t T s) (e : Ev) :
    Dying t T (step t s e).1 ∧ ∀ a ∈ (step t s e).2, a.accepted = true → s.now < T + t.redis + t.local_ := by
  obtain ⟨h1, h2, h3, h4⟩ := h
  cases e with
  | tick n => exact ⟨⟨h1, h2, h3, h4⟩, by simp [step]⟩
  | request v =>
    unfold step; simp only
    split
    · rename_i e he
      obtain ⟨w, hm, hlt⟩ := fresh_mem he
      refine ⟨⟨h1, h2, h3, h4⟩, ?_⟩
      intro a ha hacc
      rw [List.mem_singleton] at ha
      subst ha
      have := h3 _ hm (by simpa using hacc)
      simp only at this; omega
    · split
      · rename_i e he
        rw [Option.filter_eq_some_iff] at he
        have hlt : s.now < e.exp := by simpa using he.2
        refine ⟨⟨h1, h2, ?_, h4⟩, ?_⟩
        · intro p hp hr
          rcases setLocal_mem hp with rfl | hp
          · have := h2 e he.1 hr; simp only; omega
          · exact h3 p hp hr
        · intro a ha hacc
          rw [List.mem_singleton] at ha
          subst ha
          have := h2 e he.1 (by simpa using hacc); omega
      · refine ⟨⟨h1, h2, h3, ?_⟩, by simp⟩
        intro l hl
        rcases List.mem_append.1 hl with hl | hl
        · exact h4 l hl
        · rw [List.mem_singleton] at hl; subst hl; simp
  | read i =>
    refine ⟨⟨h1, h2, h3, ?_⟩, by simp [step]⟩
    intro l hl
    rcases modify_mem _ _ _ _ hl with hl | ⟨y, hy, e⟩
    · exact h4 l hl
    · subst e
      have := h4 y hy
      simp only [ne_eq, Option.some.injEq]
      cases hg : y.got with
      | none => simp [h1]
      | some b => cases b <;> simp_all
  | fill i =>
    unfold step; simp only
    split
    · rename_i v late r hp
      have hm := List.mem_of_getElem? hp
      have hr : r = true := by
        have := h4 _ hm
        cases r <;> simp_all
      subst hr
      refine ⟨⟨h1, ?_, ?_, ?_⟩, ?_⟩
      · intro e he hf; injection he with he; subst he; cases hf
      · intro p hp hf
        rcases setLocal_mem hp with rfl | hp
        · cases hf
        · exact h3 p hp hf
      · intro l hl; exact h4 l (List.mem_of_mem_eraseIdx hl)
      · intro a ha hacc
        rw [List.mem_singleton] at ha
        subst ha; cases hacc
    · exact ⟨⟨h1, h2, h3, h4⟩, by simp⟩
  | revokeRow => exact ⟨⟨rfl, h2, h3, h4⟩, by simp [step]⟩
  | ack v deleted =>
    unfold step; simp only [h1, if_true]
    split
    · refine ⟨⟨rfl, by simp, ?_, h4⟩, by simp⟩
      intro p hp; exact h3 p (List.mem_filter.1 hp).1
    · exact ⟨⟨rfl, h2, h3, h4⟩, by simp⟩

theorem dying_run {t : Ttl} {T : Nat} : ∀ (evs : List Ev) {s : State}, Dying t T s → Dying t T (run t s evs).1
  | [], _, h => h
  | e :: es, _, h => by unfold run; exact dying_run es (dying_step h e).1

/-- **C46, partial.** However many servers, whatever fails: once the row is marked and the
lookups that read it before have finished, every answer later than the two lifetimes together
(five minutes plus one) is a refusal. -/
theorem c46_bounded_partial (t : Ttl) (evs more : List Ev) (e : Ev)
    (hrow : (run t {} evs).1.revoked = true) (hpend : ∀ l ∈ (run t {} evs).1.pending, l.got ≠ some false)
    (hlate : (run t {} evs).1.now + t.redis + t.local_ ≤ (run t (run t {} evs).1 more).1.now) :
    ∀ a ∈ (step t (run t (run t {} evs).1 more).1 e).2, a.accepted = false := by
  have ht : Timely t (run t {} evs).1 := timely_run evs (s := {}) ⟨by simp, by simp⟩
  generalize run t {} evs = r at *
  obtain ⟨s, _⟩ := r
  simp only at *
  have hd : Dying t s.now s := by
    refine ⟨hrow, fun e he _ => ht.1 e he, fun p hp _ => ?_, hpend⟩
    have := ht.2 p hp
    omega
  have := (dying_step (dying_run more hd) e).2
  intro a ha
  cases hacc : a.accepted with
  | false => rfl
  | true => have := this a ha hacc; omega

example : let evs : List Ev := [.request 0, .read 0, .revokeRow, .ack 0 true, .fill 0, .request 1]
    (run codeTtl {} evs).1.pending = [] ∧ (run codeTtl {} evs).1.revoked = true ∧
    (run codeTtl {} (evs ++ [.tick 359, .request 0])).2.length = 2 ∧
    (run codeTtl {} (evs ++ [.tick 360, .request 0, .read 0, .fill 0])).2 = [⟨false, true⟩, ⟨true, true⟩, ⟨true, false⟩] := by decide +kernel

end Blnk.KeyCache
