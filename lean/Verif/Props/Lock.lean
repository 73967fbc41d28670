import Verif.Model.Lock
/-
Locks: exclusion until the time-to-live elapses (C16), no deadlock between multi-locks (C17),
clean failure and release of multi-locks (C18).
-/
namespace Blnk.Lock

/-! ### Facts about the store -/

theorem live_put_self (s : Store) (k : String) (v e : Nat) :
    (s.put k (some (v, e))).live k = if s.now < e then some v else none := by
  simp only [Store.live, Store.put, if_true]; rfl

theorem live_put_none (s : Store) (k : String) : (s.put k none).live k = none := by
  simp [Store.live, Store.put]

theorem live_put_other (s : Store) (k j : String) (x : Option (Nat × Nat)) (h : j ≠ k) :
    (s.put k x).live j = s.live j := by
  simp only [Store.live, Store.put, if_neg h]; rfl

theorem live_some {s : Store} {k : String} {v : Nat} (h : s.live k = some v) :
    ∃ e, s.ent k = some (v, e) ∧ s.now < e := by
  unfold Store.live at h
  split at h
  · rename_i v' e he
    split at h
    · exact ⟨e, by simp_all, by assumption⟩
    · cases h
  · cases h

theorem live_of_ent {s : Store} {k : String} {v e : Nat} (h : s.ent k = some (v, e)) (hn : s.now < e) :
    s.live k = some v := by
  simp [Store.live, h, hn]

/-! ### C16 -/

/-- Whether a command is one of client `v` on key `k`. -/
def Cmd.by (k : String) (v : Nat) : Cmd → Prop
  | .lock j u _ => j = k ∧ u = v
  | .unlock j u => j = k ∧ u = v
  | .extend j u _ => j = k ∧ u = v
  | .tick _ => False

/-- Time that passes during a command. -/
def Cmd.time : Cmd → Nat
  | .tick n => n
  | _ => 0

/-- Time that passes during a sequence. -/
def time (cs : List Cmd) : Nat := (cs.map Cmd.time).sum

/-- A command aimed at key `k` (not mere passage of time). -/
def Cmd.on (k : String) : Cmd → Prop
  | .lock j _ _ => j = k
  | .unlock j _ => j = k
  | .extend j _ _ => j = k
  | .tick _ => False

theorem exec_keeps {s : Store} {c : Cmd} {k : String} {v e : Nat} (he : s.ent k = some (v, e))
    (hn : s.now + c.time < e) (hby : ¬ c.by k v) :
    (exec s c).1.ent k = some (v, e) ∧ (exec s c).1.now = s.now + c.time := by
  have hnow : s.now < e := by omega
  have hl := live_of_ent he hnow
  cases c with
  | lock j u ttl =>
    simp only [exec, setNX, Cmd.time]
    by_cases hj : j = k
    · subst hj; simp [hl, he]
    · cases h : s.live j <;> simp [Store.put, he, Ne.symm hj]
  | unlock j u =>
    simp only [exec, delIf, Cmd.time]
    by_cases hj : j = k
    · subst hj
      have : u ≠ v := fun hu => hby ⟨rfl, hu⟩
      simp [hl, he, Ne.symm this]
    · split <;> simp [Store.put, he, Ne.symm hj]
  | extend j u ttl =>
    simp only [exec, expireIf, Cmd.time]
    by_cases hj : j = k
    · subst hj
      have : u ≠ v := fun hu => hby ⟨rfl, hu⟩
      simp [hl, he, Ne.symm this]
    · split <;> simp [Store.put, he, Ne.symm hj]
  | tick n => simp [exec, he, Cmd.time]

theorem execs_keeps {cs : List Cmd} {s : Store} {k : String} {v e : Nat} (he : s.ent k = some (v, e))
    (hn : s.now + time cs < e) (hby : ∀ c ∈ cs, ¬ c.by k v) :
    (execs s cs).ent k = some (v, e) ∧ (execs s cs).now = s.now + time cs := by
  induction cs generalizing s with
  | nil => simp [execs, he, time]
  | cons c cs ih =>
    simp only [time, List.map_cons, List.sum_cons] at hn
    obtain ⟨h1, h2⟩ := exec_keeps (c := c) he (by omega) (hby c (by simp))
    have := ih h1 (by rw [h2]; unfold time; omega) (fun d hd => hby d (by simp [hd]))
    simp only [execs, time, List.map_cons, List.sum_cons]
    refine ⟨this.1, ?_⟩
    rw [this.2, h2]; unfold time; omega

/-- **C16** After a client takes a lock, then for every sequence of commands by other clients and
of clock ticks that takes less than the time-to-live: the lock still belongs to that client,
every further attempt by another client to lock, extend or release it fails, and a failing
attempt changes nothing at all. -/
theorem c16_exclusive_until_expiry (s : Store) (k : String) (v ttl : Nat) (cs : List Cmd)
    (hok : (setNX s k v ttl).2 = true) (hothers : ∀ c ∈ cs, ¬ c.by k v) (htime : time cs < ttl) :
    (execs (setNX s k v ttl).1 cs).live k = some v ∧
    ∀ c : Cmd, c.on k → ¬ c.by k v →
      (exec (execs (setNX s k v ttl).1 cs) c) = (execs (setNX s k v ttl).1 cs, false) := by
  have hset : (setNX s k v ttl).1 = s.put k (some (v, s.now + ttl)) := by
    unfold setNX at hok ⊢
    split <;> simp_all
  obtain ⟨h1, h2⟩ := execs_keeps (cs := cs) (s := (setNX s k v ttl).1) (k := k) (v := v) (e := s.now + ttl)
    (by rw [hset]; simp [Store.put]) (by rw [hset]; simp [Store.put]; omega) hothers
  have hl : (execs (setNX s k v ttl).1 cs).live k = some v := by
    apply live_of_ent h1
    rw [h2, hset]; simp [Store.put]; omega
  refine ⟨hl, ?_⟩
  generalize execs (setNX s k v ttl).1 cs = t at hl ⊢
  intro c hon hby
  cases c with
  | lock j u t => cases hon; simp [exec, setNX, hl]
  | unlock j u =>
    cases hon
    have : u ≠ v := fun hu => hby ⟨rfl, hu⟩
    simp [exec, delIf, hl, Ne.symm this]
  | extend j u t =>
    cases hon
    have : u ≠ v := fun hu => hby ⟨rfl, hu⟩
    simp [exec, expireIf, hl, Ne.symm this]
  | tick n => cases hon

/-- A store in which client 2 holds another key. -/
def someStore : Store := { now := 7, ent := fun k => if k = "b" then some (2, 1000) else none }

/-- Others try everything on the key for 9 units of time. -/
def someTraffic : List Cmd :=
  [.lock "a" 2 50, .tick 4, .unlock "a" 3, .extend "a" 2 100, .unlock "b" 2, .tick 5, .lock "a" 3 1]

example : (setNX someStore "a" 1 10).2 = true ∧ (∀ c ∈ someTraffic, ¬ c.by "a" 1) ∧ time someTraffic < 10 := by
  refine ⟨by decide +kernel, ?_, by decide⟩
  intro c hc
  simp only [someTraffic, List.mem_cons, List.not_mem_nil, or_false] at hc
  rcases hc with h | h | h | h | h | h | h <;> subst h <;> simp [Cmd.by]

/-- **C16** Once the time-to-live has elapsed, or the holder has released, the key can be
taken by anybody: locks cannot be held for ever. -/
theorem c16_free_after_expiry_or_release (s : Store) (k : String) (v ttl : Nat) (hok : (setNX s k v ttl).2 = true)
    (u ttl' : Nat) :
    (∀ n, ttl ≤ n → (setNX (exec (setNX s k v ttl).1 (.tick n)).1 k u ttl').2 = true) ∧
    (0 < ttl → (delIf (setNX s k v ttl).1 k v).2 = true ∧
      (setNX (delIf (setNX s k v ttl).1 k v).1 k u ttl').2 = true) := by
  have hset : (setNX s k v ttl).1 = s.put k (some (v, s.now + ttl)) := by
    unfold setNX at hok ⊢
    split <;> simp_all
  rw [hset]
  refine ⟨?_, ?_⟩
  · intro n hn
    have : (exec (s.put k (some (v, s.now + ttl))) (.tick n)).1.live k = none := by
      simp [exec, Store.live, Store.put]; omega
    simp [setNX, this]
  · intro h0
    have h1 : (s.put k (some (v, s.now + ttl))).live k = some v := by
      rw [live_put_self, if_pos (by omega)]
    refine ⟨by simp [delIf, h1], ?_⟩
    simp only [delIf, h1, if_true]
    simp [setNX, live_put_none]

example : (setNX someStore "a" 1 10).2 = true ∧ (10 : Nat) ≤ 12 := by decide +kernel

/-! ### Keys of a multi-lock -/

theorem mem_dedup (k : String) (ks : List String) : k ∈ dedup ks ↔ k ∈ ks := by
  induction ks with
  | nil => simp [dedup]
  | cons j js ih =>
    simp only [dedup, List.mem_cons, List.mem_filter, ih]
    by_cases h : k = j <;> simp [h]

theorem nodup_dedup (ks : List String) : (dedup ks).Nodup := by
  induction ks with
  | nil => simp [dedup]
  | cons j js ih =>
    simp only [dedup, List.nodup_cons]
    exact ⟨by simp, ih.filter _⟩

theorem mem_insertKey (j k : String) (ks : List String) : j ∈ insertKey k ks ↔ j = k ∨ j ∈ ks := by
  induction ks with
  | nil => simp [insertKey]
  | cons a l ih =>
    simp only [insertKey]
    split <;> simp [ih]
    exact or_left_comm

theorem mem_sortKeys (j : String) (ks : List String) : j ∈ sortKeys ks ↔ j ∈ ks := by
  induction ks with
  | nil => simp [sortKeys]
  | cons a l ih => simp [sortKeys, mem_insertKey, ih]

theorem lt_of_le_ne {a b : String} (h : a ≤ b) (hne : a ≠ b) : a < b := by
  rw [← String.not_le]
  exact fun hba => hne (String.le_antisymm h hba)

theorem lt_of_lt_le {a b c : String} (h : a < b) (h' : b ≤ c) : a < c := by
  refine lt_of_le_ne (String.le_trans (String.not_lt.mp (String.lt_asymm h)) h') ?_
  rintro rfl
  exact String.not_lt.mpr h' h

theorem sorted_insertKey (k : String) (ks : List String) (h : ks.Pairwise (· < ·)) (hk : k ∉ ks) :
    (insertKey k ks).Pairwise (· < ·) := by
  induction ks with
  | nil => simp [insertKey]
  | cons a l ih =>
    simp only [List.mem_cons, not_or] at hk
    simp only [List.pairwise_cons] at h
    simp only [insertKey]
    split
    · rename_i hle
      have hlt := lt_of_le_ne hle hk.1
      simp only [List.pairwise_cons, List.mem_cons, forall_eq_or_imp]
      exact ⟨⟨hlt, fun b hb => String.lt_trans hlt (h.1 b hb)⟩, h⟩
    · rename_i hle
      simp only [List.pairwise_cons, mem_insertKey, forall_eq_or_imp]
      exact ⟨⟨String.not_le.mp hle, h.1⟩, ih h.2 hk.2⟩

theorem sorted_sortKeys (ks : List String) (h : ks.Nodup) : (sortKeys ks).Pairwise (· < ·) := by
  induction ks with
  | nil => simp [sortKeys]
  | cons a l ih =>
    simp only [List.nodup_cons] at h
    exact sorted_insertKey _ _ (ih h.2) (by rw [mem_sortKeys]; exact h.1)

/-- **C18** The keys locked are exactly the distinct non-blank keys asked for, in strictly
increasing order. -/
theorem c18_keys_normalised (ks : List String) :
    (normalize ks).Pairwise (· < ·) ∧ ∀ k, k ∈ normalize ks ↔ (k ∈ ks ∧ k ≠ "") := by
  refine ⟨?_, ?_⟩
  · exact sorted_sortKeys _ (nodup_dedup _)
  · intro k
    simp [normalize, mem_sortKeys, mem_dedup]

example : normalize ["b", "", "a", "b", "a"] = ["a", "b"] := by decide +kernel

/-! ### Invariants -/

/-- Keys that a client's current attempt has taken and not yet released. -/
def Phase.has : Phase → List String
  | .acquiring _ got _ _ => got
  | .rollback _ got _ => got
  | .holding keys _ => keys
  | .unlocking _ got => got
  | _ => []

/-- The client's list of keys. -/
def Phase.keys : Phase → List String
  | .acquiring keys _ _ _ => keys
  | .rollback keys _ _ => keys
  | .sleeping keys => keys
  | .holding keys _ => keys
  | .unlocking keys _ => keys
  | _ => []

/-- Internal consistency of a phase. -/
def Phase.wf : Phase → Prop
  | .acquiring keys got todo _ => keys = got ++ todo
  | .rollback keys got _ => ∃ rest, keys = got ++ rest
  | .unlocking keys got => ∃ rest, keys = got ++ rest
  | _ => True

/-- Until its time runs out, the client owns what it has taken. -/
def Phase.owns (s : Store) (c : Nat) : Phase → Prop
  | .acquiring _ got _ due => s.now < due → ∀ k ∈ got, ∃ e, s.ent k = some (c, e) ∧ due ≤ e
  | .holding keys due => s.now < due → ∀ k ∈ keys, ∃ e, s.ent k = some (c, e) ∧ due ≤ e
  | _ => True

/-- Holds in every reachable state, also with a lossy connection. -/
structure Inv (w : World) : Prop where
  sorted : ∀ c, (w.phase c).keys.Pairwise (· < ·)
  wf : ∀ c, (w.phase c).wf
  owns : ∀ c, (w.phase c).owns w.store c
  finite : ∃ l : List String, ∀ k, w.store.ent k ≠ none → k ∈ l

theorem init_inv : Inv World.init :=
  ⟨by intro c; simp [World.init, Phase.keys], by intro c; simp [World.init, Phase.wf],
   by intro c; simp [World.init, Phase.owns], ⟨[], by simp [World.init]⟩⟩

theorem set_phase (w : World) (c d : Nat) (p : Phase) :
    (w.set c p).phase d = if d = c then p else w.phase d := rfl

theorem set_store (w : World) (c : Nat) (p : Phase) : (w.set c p).store = w.store := rfl

/-- Changing only the client's phase. -/
theorem inv_set {w : World} {c : Nat} {p : Phase} (h : Inv w) (h1 : p.keys.Pairwise (· < ·)) (h2 : p.wf)
    (h3 : p.owns w.store c) : Inv (w.set c p) := by
  refine ⟨?_, ?_, ?_, h.finite⟩
  · intro d; rw [set_phase]; split
    · exact h1
    · exact h.sorted d
  · intro d; rw [set_phase]; split
    · exact h2
    · exact h.wf d
  · intro d; rw [set_phase, set_store]; split
    · rename_i hd; subst hd; exact h3
    · exact h.owns d

/-- Taking a free key, or deleting one of our own, leaves what others own. -/
theorem owns_setNX {s : Store} {k : String} {c d ttl : Nat} {p : Phase} (hfree : s.live k = none)
    (h : p.owns s d) : p.owns (setNX s k c ttl).1 d := by
  have key : ∀ (l : List String) (due : Nat), (s.now < due → ∀ j ∈ l, ∃ e, s.ent j = some (d, e) ∧ due ≤ e) →
      ((setNX s k c ttl).1.now < due → ∀ j ∈ l, ∃ e, (setNX s k c ttl).1.ent j = some (d, e) ∧ due ≤ e) := by
    intro l due hh hn j hj
    simp only [setNX, hfree, Store.put] at hn ⊢
    obtain ⟨e, he, hle⟩ := hh hn j hj
    by_cases hjk : j = k
    · subst hjk
      rw [live_of_ent he (by omega)] at hfree; cases hfree
    · exact ⟨e, by simp [hjk, he], hle⟩
  cases p <;> simp only [Phase.owns] at h ⊢ <;> first | exact key _ _ h | trivial

theorem owns_delIf {s : Store} {k : String} {c d : Nat} {p : Phase} (hd : d ≠ c)
    (h : p.owns s d) : p.owns (delIf s k c).1 d := by
  have key : ∀ (l : List String) (due : Nat), (s.now < due → ∀ j ∈ l, ∃ e, s.ent j = some (d, e) ∧ due ≤ e) →
      ((delIf s k c).1.now < due → ∀ j ∈ l, ∃ e, (delIf s k c).1.ent j = some (d, e) ∧ due ≤ e) := by
    intro l due hh hn j hj
    unfold delIf at hn ⊢
    split at hn
    · rename_i hl
      rw [if_pos hl]
      simp only [Store.put] at hn ⊢
      obtain ⟨e, he, hle⟩ := hh hn j hj
      by_cases hjk : j = k
      · subst hjk
        obtain ⟨e', he', _⟩ := live_some hl
        rw [he] at he'; simp at he'; exact absurd he'.1 hd
      · exact ⟨e, by simp [hjk, he], hle⟩
    · rename_i hl
      rw [if_neg hl]
      exact hh hn j hj
  cases p <;> simp only [Phase.owns] at h ⊢ <;> first | exact key _ _ h | trivial

theorem finite_put {s : Store} (h : ∃ l : List String, ∀ k, s.ent k ≠ none → k ∈ l) (k : String) (x : Option (Nat × Nat)) :
    ∃ l : List String, ∀ j, (s.put k x).ent j ≠ none → j ∈ l := by
  obtain ⟨l, hl⟩ := h
  refine ⟨k :: l, ?_⟩
  intro j hj
  by_cases hjk : j = k
  · simp [hjk]
  · simp only [Store.put, hjk, if_false] at hj
    exact List.mem_cons_of_mem _ (hl j hj)

theorem setNX_free {s : Store} {k : String} {c ttl : Nat} (h : s.live k = none) :
    (setNX s k c ttl).1 = s.put k (some (c, s.now + ttl)) := by
  simp [setNX, h]

theorem inv_take {w : World} {c : Nat} {p : Phase} {k : String} {ttl : Nat} (h : Inv w)
    (hfree : w.store.live k = none) (h1 : p.keys.Pairwise (· < ·)) (h2 : p.wf)
    (h3 : p.owns (setNX w.store k c ttl).1 c) : Inv ((w.with (setNX w.store k c ttl).1).set c p) := by
  apply inv_set _ h1 h2 h3
  refine ⟨h.sorted, h.wf, fun d => owns_setNX hfree (h.owns d), ?_⟩
  show ∃ l : List String, ∀ k', (setNX w.store k c ttl).1.ent k' ≠ none → k' ∈ l
  rw [setNX_free hfree]
  exact finite_put h.finite _ _

theorem inv_del {w : World} {c : Nat} {p : Phase} {k : String} (h : Inv w)
    (h1 : p.keys.Pairwise (· < ·)) (h2 : p.wf)
    (h3 : p.owns (delIf w.store k c).1 c) : Inv ((w.with (delIf w.store k c).1).set c p) := by
  refine ⟨?_, ?_, ?_, ?_⟩
  · intro d; rw [set_phase]; split
    · exact h1
    · exact h.sorted d
  · intro d; rw [set_phase]; split
    · exact h2
    · exact h.wf d
  · intro d; rw [set_phase, set_store]; split
    · rename_i hd; subst hd; exact h3
    · rename_i hd; exact owns_delIf hd (h.owns d)
  · show ∃ l : List String, ∀ k', (delIf w.store k c).1.ent k' ≠ none → k' ∈ l
    unfold delIf
    split
    · exact finite_put h.finite _ _
    · exact h.finite

theorem step_inv {lossy : Bool} {a b : World} (s : WStep lossy a b) (h : Inv a) : Inv b := by
  cases s with
  | start c ks ttl hp =>
    exact inv_set h (c18_keys_normalised ks).1 (by simp [Phase.wf]) (by simp [Phase.owns])
  | take c keys got todo k due ttl hp hfree httl =>
    have hs := h.sorted c; have hw := h.wf c; have ho := owns_setNX (c := c) (ttl := ttl) hfree (h.owns c)
    rw [hp] at hs hw ho
    refine inv_take (p := .acquiring keys (got ++ [k]) todo due) h hfree hs (by simpa [Phase.wf] using hw) ?_
    intro hn j hj
    simp only [List.mem_append, List.mem_singleton] at hj
    rcases hj with hj | hj
    · exact ho hn j hj
    · subst hj
      rw [setNX_free hfree]
      exact ⟨a.store.now + ttl, by simp [Store.put], httl⟩
  | busy c keys got todo k due v hp hheld =>
    have hs := h.sorted c; have hw := h.wf c
    rw [hp] at hs hw
    exact inv_set h hs ⟨_, hw⟩ trivial
  | fail c keys got todo due hp =>
    have hs := h.sorted c; have hw := h.wf c
    rw [hp] at hs hw
    exact inv_set h hs ⟨_, hw⟩ trivial
  | enter c keys got due hp =>
    have hs := h.sorted c; have hw := h.wf c; have ho := h.owns c
    rw [hp] at hs hw ho
    simp only [Phase.wf, List.append_nil] at hw
    subst hw
    exact inv_set h hs trivial ho
  | undo c keys got k again hp =>
    have hs := h.sorted c; have hw := h.wf c
    rw [hp] at hs hw
    obtain ⟨r, hr⟩ := hw
    exact inv_del h hs ⟨k :: r, by simp [hr]⟩ trivial
  | undone c keys again hp =>
    have hs := h.sorted c
    rw [hp] at hs
    cases again
    · exact inv_set h (by simp [Phase.keys]) trivial trivial
    · exact inv_set h hs trivial trivial
  | retry c keys ttl hp =>
    have hs := h.sorted c
    rw [hp] at hs
    exact inv_set h hs (by simp [Phase.wf]) (by simp [Phase.owns])
  | timeout c keys hp => exact inv_set h (by simp [Phase.keys]) trivial trivial
  | leave c keys due hp =>
    have hs := h.sorted c
    rw [hp] at hs
    exact inv_set h hs ⟨[], by simp⟩ trivial
  | release c keys got k hp =>
    have hs := h.sorted c; have hw := h.wf c
    rw [hp] at hs hw
    obtain ⟨r, hr⟩ := hw
    exact inv_del h hs ⟨k :: r, by simp [hr]⟩ trivial
  | released c keys hp => exact inv_set h (by simp [Phase.keys]) trivial trivial
  | lost c keys got todo k due ttl hl hp hfree =>
    have hs := h.sorted c; have hw := h.wf c
    rw [hp] at hs hw
    exact inv_take h hfree hs ⟨_, hw⟩ trivial
  | undoLost c keys got k again hl hp =>
    have hs := h.sorted c; have hw := h.wf c
    rw [hp] at hs hw
    obtain ⟨r, hr⟩ := hw
    exact inv_set h hs ⟨k :: r, by simp [hr]⟩ trivial
  | releaseLost c keys got k hl hp =>
    have hs := h.sorted c; have hw := h.wf c
    rw [hp] at hs hw
    obtain ⟨r, hr⟩ := hw
    exact inv_set h hs ⟨k :: r, by simp [hr]⟩ trivial
  | crash c => exact inv_set h (by simp [Phase.keys]) trivial trivial
  | tick n =>
    refine ⟨h.sorted, h.wf, ?_, h.finite⟩
    intro d
    have := h.owns d
    show Phase.owns { a.store with now := a.store.now + n } d (a.phase d)
    generalize a.phase d = p at this ⊢
    cases p <;> simp only [Phase.owns] at this ⊢ <;> first | (intro hn; exact this (by omega)) | trivial

theorem run_inv {lossy : Bool} {a b : World} (r : WRun lossy a b) (h : Inv a) : Inv b := by
  induction r with
  | refl => exact h
  | tail b c _ s ih => exact step_inv s ih

/-- **C16** Critical sections exclude each other: in every reachable state, also when replies
get lost and processes die, two clients inside their critical section within their
time-to-live have no key in common. -/
theorem c16_critical_sections_disjoint (lossy : Bool) (w : World) (r : WRun lossy World.init w)
    (c d : Nat) (kc kd : List String) (tc td : Nat) (hne : c ≠ d)
    (hc : w.phase c = .holding kc tc) (hd : w.phase d = .holding kd td)
    (hct : w.store.now < tc) (hdt : w.store.now < td) (k : String) : ¬ (k ∈ kc ∧ k ∈ kd) := by
  rintro ⟨h1, h2⟩
  have hi := run_inv r init_inv
  have oc := hi.owns c; have od := hi.owns d
  rw [hc] at oc; rw [hd] at od
  obtain ⟨e, he, _⟩ := oc hct k h1
  obtain ⟨e', he', _⟩ := od hdt k h2
  rw [he] at he'
  simp at he'
  exact hne he'.1

/-! ### With a reliable connection, what a client owns is what it has taken -/

/-- A key may be owned by a client in this phase. -/
def Phase.may (k : String) : Phase → Prop
  | .crashed => True
  | p => k ∈ p.has

/-- Every live lock belongs to a client whose current attempt took it, or to a dead process. -/
def OwnInv (w : World) : Prop := ∀ k c, w.store.live k = some c → (w.phase c).may k

theorem ownInv_set {w : World} {c : Nat} {p : Phase} (h : OwnInv w)
    (hp : ∀ k, (w.phase c).may k → p.may k) : OwnInv (w.set c p) := by
  intro k d hk
  rw [set_phase]
  split
  · rename_i hd; subst hd; exact hp k (h k d hk)
  · exact h k d hk

theorem live_setNX {s : Store} {k j : String} {c d ttl : Nat} (hfree : s.live k = none)
    (h : (setNX s k c ttl).1.live j = some d) : (j = k ∧ d = c) ∨ s.live j = some d := by
  rw [setNX_free hfree] at h
  by_cases hj : j = k
  · subst hj
    rw [live_put_self] at h
    split at h
    · simp at h; exact Or.inl ⟨rfl, h.symm⟩
    · cases h
  · rw [live_put_other _ _ _ _ hj] at h
    exact Or.inr h

theorem live_delIf {s : Store} {k j : String} {c d : Nat} (h : (delIf s k c).1.live j = some d) :
    s.live j = some d ∧ ¬ (j = k ∧ d = c) := by
  unfold delIf at h
  split at h
  · by_cases hj : j = k
    · subst hj; rw [live_put_none] at h; cases h
    · rw [live_put_other _ _ _ _ hj] at h
      exact ⟨h, fun hh => hj hh.1⟩
  · rename_i hn
    refine ⟨h, ?_⟩
    rintro ⟨rfl, rfl⟩
    exact hn h

theorem ownInv_del {w : World} {c : Nat} {p : Phase} {k : String} (h : OwnInv w)
    (hp : ∀ j, j ≠ k → (w.phase c).may j → p.may j) : OwnInv ((w.with (delIf w.store k c).1).set c p) := by
  intro j d hj
  obtain ⟨h1, h2⟩ := live_delIf hj
  rw [set_phase]
  split
  · rename_i hd; subst hd
    exact hp j (fun hjk => h2 ⟨hjk, rfl⟩) (h j d h1)
  · exact h j d h1

theorem step_ownInv {a b : World} (s : WStep false a b) (hi : Inv a) (h : OwnInv a) : OwnInv b := by
  cases s with
  | start c ks ttl hp => exact ownInv_set h (by simp [hp, Phase.may, Phase.has])
  | take c keys got todo k due ttl hp hfree httl =>
    intro j d hj
    rw [set_phase]
    split
    · rename_i hd; subst hd
      rcases live_setNX hfree hj with h1 | h1
      · simp [Phase.may, Phase.has, h1.1]
      · have := h j d h1
        rw [hp] at this
        simp only [Phase.may, Phase.has] at this ⊢
        simp [this]
    · rename_i hd
      rcases live_setNX hfree hj with h1 | h1
      · exact absurd h1.2 hd
      · exact h j d h1
  | busy c keys got todo k due v hp hheld => exact ownInv_set h (by simp [hp, Phase.may, Phase.has])
  | fail c keys got todo due hp => exact ownInv_set h (by simp [hp, Phase.may, Phase.has])
  | enter c keys got due hp =>
    have hw := hi.wf c
    rw [hp] at hw
    simp only [Phase.wf, List.append_nil] at hw
    exact ownInv_set h (by simp [hp, Phase.may, Phase.has, hw])
  | undo c keys got k again hp =>
    exact ownInv_del h (by intro j hj; simp [hp, Phase.may, Phase.has, hj])
  | undone c keys again hp => exact ownInv_set h (by simp [hp, Phase.may, Phase.has])
  | retry c keys ttl hp => exact ownInv_set h (by simp [hp, Phase.may, Phase.has])
  | timeout c keys hp => exact ownInv_set h (by simp [hp, Phase.may, Phase.has])
  | leave c keys due hp => exact ownInv_set h (by simp [hp, Phase.may, Phase.has])
  | release c keys got k hp =>
    exact ownInv_del h (by intro j hj; simp [hp, Phase.may, Phase.has, hj])
  | released c keys hp => exact ownInv_set h (by simp [hp, Phase.may, Phase.has])
  | lost c keys got todo k due ttl hl hp hfree => cases hl
  | undoLost c keys got k again hl hp => cases hl
  | releaseLost c keys got k hl hp => cases hl
  | crash c => exact ownInv_set h (by simp [Phase.may])
  | tick n =>
    intro j d hj
    obtain ⟨e, he, hn⟩ := live_some hj
    exact h j d (live_of_ent he (by simp [World.with] at hn; omega))

theorem run_ownInv {a b : World} (r : WRun false a b) (hi : Inv a) (h : OwnInv a) : OwnInv b := by
  induction r with
  | refl => exact h
  | tail b c r' s ih => exact step_ownInv s (run_inv r' hi) ih

theorem init_ownInv : OwnInv World.init := by
  intro k c h; simp [World.init, Store.live] at h

/-! ### C17 -/

/-- The client's next lock attempt would find the key held. -/
def Blocked (w : World) (c : Nat) : Prop :=
  ∃ keys got k todo due v, w.phase c = .acquiring keys got (k :: todo) due ∧ w.store.live k = some v

/-- The client owns a lock. -/
def Owner (w : World) (c : Nat) : Prop := ∃ k, w.store.live k = some c

theorem exists_max (p : String → Prop) (l : List String) (h : ∃ k ∈ l, p k) :
    ∃ k, p k ∧ ∀ j ∈ l, p j → j ≤ k := by
  induction l with
  | nil => obtain ⟨k, hk, _⟩ := h; cases hk
  | cons a l ih =>
    by_cases hl : ∃ k ∈ l, p k
    · obtain ⟨m, hm, hmax⟩ := ih hl
      by_cases ha : p a ∧ m ≤ a
      · refine ⟨a, ha.1, ?_⟩
        intro j hj hpj
        rcases List.mem_cons.mp hj with h' | h'
        · subst h'; exact String.le_total j j |>.elim id id
        · exact String.le_trans (hmax j h' hpj) ha.2
      · refine ⟨m, hm, ?_⟩
        intro j hj hpj
        rcases List.mem_cons.mp hj with h' | h'
        · subst h'
          rcases String.le_total j m with h2 | h2
          · exact h2
          · exact absurd ⟨hpj, h2⟩ ha
        · exact hmax j h' hpj
    · obtain ⟨k, hk, hpk⟩ := h
      rcases List.mem_cons.mp hk with h' | h'
      · subst h'
        refine ⟨k, hpk, ?_⟩
        intro j hj hpj
        rcases List.mem_cons.mp hj with h2 | h2
        · subst h2; exact String.le_total j j |>.elim id id
        · exact absurd ⟨j, h2, hpj⟩ hl
      · exact absurd ⟨k, h', hpk⟩ hl

/-- C17 in full: in every reachable state in which a client is blocked, some owner of a lock is not blocked. -/
def C17Full (lossy : Bool) : Prop :=
  ∀ w, WRun lossy World.init w → ∀ c, Blocked w c → ∃ d, Owner w d ∧ ¬ Blocked w d

/-- **C17** With a reliable connection to Redis: whatever sets of keys the clients ask for, in
whatever order their commands interleave, wherever processes die, if somebody is blocked then
some owner of a lock is not blocked. So there is no cycle of clients each waiting for the next.
This holds even while an attempt is under way and still keeps the keys it has taken. -/
theorem c17_no_deadlock_partial : C17Full false := by
  intro w r c hb
  have hi := run_inv r init_inv
  have ho := run_ownInv r init_inv init_ownInv
  obtain ⟨keys, got, k, todo, due, v, _, hk⟩ := hb
  obtain ⟨l, hl⟩ := hi.finite
  have hmem : ∀ j u, w.store.live j = some u → j ∈ l := by
    intro j u hj
    obtain ⟨e, he, _⟩ := live_some hj
    exact hl j (by rw [he]; simp)
  obtain ⟨m, ⟨u, hu⟩, hmax⟩ := exists_max (fun j => ∃ u, w.store.live j = some u) l ⟨k, hmem k v hk, v, hk⟩
  refine ⟨u, ⟨m, hu⟩, ?_⟩
  rintro ⟨keys', got', k', todo', due', v', hp, hk'⟩
  have hm := ho m u hu
  have hw := hi.wf u
  have hs := hi.sorted u
  rw [hp] at hm hw hs
  simp only [Phase.may, Phase.has] at hm
  simp only [Phase.wf] at hw
  simp only [Phase.keys] at hs
  rw [hw] at hs
  have hlt : m < k' := (List.pairwise_append.mp hs).2.2 m hm k' (by simp)
  have hle := hmax k' (hmem k' v' hk') ⟨v', hk'⟩
  exact (String.not_lt.mpr hle) hlt

/-- **C17** A client that waits between two attempts owns no lock at all, so nobody ever waits for it. -/
theorem c17_waiting_owns_nothing (w : World) (r : WRun false World.init w) (c : Nat) (keys : List String)
    (h : w.phase c = .sleeping keys) : ¬ Owner w c := by
  rintro ⟨k, hk⟩
  have := run_ownInv r init_inv init_ownInv k c hk
  rw [h] at this
  simp [Phase.may, Phase.has] at this

/-! ### C18 -/

/-- **C18** With a reliable connection, once an attempt has failed (and the client sleeps before
the next, gave up, or timed out) or the multi-lock has been released, the client owns no lock
on any key. -/
theorem c18_failed_or_released_owns_nothing_partial (w : World) (r : WRun false World.init w) (c : Nat)
    (h : w.phase c = .done ∨ ∃ keys, w.phase c = .sleeping keys) : ¬ Owner w c := by
  rintro ⟨k, hk⟩
  have := run_ownInv r init_inv init_ownInv k c hk
  rcases h with h | ⟨keys, h⟩ <;> rw [h] at this <;> simp [Phase.may, Phase.has] at this

/-- **C18** No step of the system ends another client's lock before its time: if a lock is live
and is not live any more after a step that takes no time, the step released it on behalf of
its owner, who was rolling back or unlocking and had that key in its list. -/
theorem c18_only_owner_ends_a_lock (lossy : Bool) (a b : World) (r : WRun lossy World.init a) (s : WStep lossy a b)
    (k : String) (c : Nat) (hk : a.store.live k = some c) (hnow : b.store.now = a.store.now)
    (hb : b.store.live k ≠ some c) :
    b.store.live k = none ∧ k ∈ (a.phase c).keys ∧
      ((∃ keys got again, a.phase c = .rollback keys got again) ∨ ∃ keys got, a.phase c = .unlocking keys got) := by
  have hi := run_inv r init_inv
  have hset : ∀ (j : String) (d ttl : Nat), a.store.live j = none → (setNX a.store j d ttl).1.live k = some c := by
    intro j d ttl hj
    rw [setNX_free hj]
    have : k ≠ j := by intro h; subst h; rw [hk] at hj; cases hj
    rw [live_put_other _ _ _ _ this]; exact hk
  have hdel : ∀ (j : String) (d : Nat), (delIf a.store j d).1.live k ≠ some c →
      (delIf a.store j d).1.live k = none ∧ j = k ∧ d = c := by
    intro j d hne
    unfold delIf at hne ⊢
    split at hne
    · rename_i hl
      rw [if_pos hl]
      by_cases hj : k = j
      · subst hj
        rw [hk] at hl
        simp at hl
        exact ⟨live_put_none _ _, rfl, hl.symm⟩
      · rw [live_put_other _ _ _ _ hj] at hne; exact absurd hk hne
    · exact absurd hk hne
  cases s with
  | start | busy | fail | enter | undone | retry | timeout | leave | released | undoLost | releaseLost | crash =>
    exact absurd hk hb
  | take d keys got todo j due ttl hp hfree httl => exact absurd (hset j d ttl hfree) hb
  | lost d keys got todo j due ttl hl hp hfree => exact absurd (hset j d ttl hfree) hb
  | undo d keys got j again hp =>
    obtain ⟨h1, h2, h3⟩ := hdel j d hb
    subst h2; subst h3
    have hw := hi.wf d
    rw [hp] at hw
    obtain ⟨rest, hrest⟩ := hw
    exact ⟨h1, by rw [hp]; simp [Phase.keys, hrest], Or.inl ⟨_, _, _, hp⟩⟩
  | release d keys got j hp =>
    obtain ⟨h1, h2, h3⟩ := hdel j d hb
    subst h2; subst h3
    have hw := hi.wf d
    rw [hp] at hw
    obtain ⟨rest, hrest⟩ := hw
    exact ⟨h1, by rw [hp]; simp [Phase.keys, hrest], Or.inr ⟨_, _, hp⟩⟩
  | tick n =>
    exfalso
    apply hb
    obtain ⟨e, he, hn⟩ := live_some hk
    simp only [World.with] at hnow
    exact live_of_ent he (by simp only [World.with]; omega)

/-- **C18** A client only ever locks keys it was asked to lock. -/
theorem c18_locks_only_its_keys (lossy : Bool) (a b : World) (r : WRun lossy World.init a) (s : WStep lossy a b)
    (k : String) (c : Nat) (ha : a.store.live k ≠ some c) (hb : b.store.live k = some c) : k ∈ (a.phase c).keys := by
  have hi := run_inv r init_inv
  cases s with
  | start | busy | fail | enter | undone | retry | timeout | leave | released | undoLost | releaseLost | crash =>
    exact absurd hb ha
  | take d keys got todo j due ttl hp hfree httl =>
    rcases live_setNX hfree hb with h | h
    · obtain ⟨h1, h2⟩ := h
      subst h1; subst h2
      have hw := hi.wf c
      rw [hp] at hw ⊢
      simp only [Phase.wf] at hw
      simp [Phase.keys, hw]
    · exact absurd h ha
  | lost d keys got todo j due ttl hl hp hfree =>
    rcases live_setNX hfree hb with h | h
    · obtain ⟨h1, h2⟩ := h
      subst h1; subst h2
      have hw := hi.wf c
      rw [hp] at hw ⊢
      simp only [Phase.wf] at hw
      simp [Phase.keys, hw]
    · exact absurd h ha
  | undo d keys got j again hp => exact absurd (live_delIf hb).1 ha
  | release d keys got j hp => exact absurd (live_delIf hb).1 ha
  | tick n =>
    obtain ⟨e, he, hn⟩ := live_some hb
    simp only [World.with] at he hn
    exact absurd (live_of_ent he (by omega)) ha

/-! ### Reachable states with contention -/

/-- Two clients ask for the same two keys in opposite order; the second takes the first key. -/
def w1 : World := World.init.set 0 (.acquiring (normalize ["b", "a"]) [] (normalize ["b", "a"]) (0 + 10))
def w2 : World := w1.set 1 (.acquiring (normalize ["a", "b"]) [] (normalize ["a", "b"]) (0 + 10))
def w3 : World := (w2.with (setNX w2.store "a" 1 10).1).set 1 (.acquiring ["a", "b"] ["a"] ["b"] 10)

theorem norm1 : normalize ["b", "a"] = ["a", "b"] := by decide +kernel
theorem norm2 : normalize ["a", "b"] = ["a", "b"] := by decide +kernel

theorem run3 (lossy : Bool) : WRun lossy World.init w3 := by
  have r1 : WRun lossy World.init w1 := .tail _ _ _ (.refl _) (.start World.init 0 ["b", "a"] 10 rfl)
  have r2 : WRun lossy World.init w2 := .tail _ _ _ r1 (.start w1 1 ["a", "b"] 10 (by simp [w1, World.set, World.init]))
  exact .tail _ _ _ r2 (.take w2 1 ["a", "b"] [] ["b"] "a" 10 10 (by simp [w2, World.set, norm2])
    (by decide +kernel) (by decide +kernel))

/-- The first client is blocked and the second, which blocks it, is not. -/
example : WRun false World.init w3 ∧ Blocked w3 0 ∧ Owner w3 1 :=
  ⟨run3 false, ⟨["a", "b"], [], "a", ["b"], 10, 1, by simp [w3, w2, w1, World.set, World.with, norm1], by decide +kernel⟩,
   ⟨"a", by decide +kernel⟩⟩

/-- The first client finds the key held and sleeps. -/
def w4 : World := w3.set 0 (.rollback ["a", "b"] [] true)
def w5 : World := w4.set 0 (.sleeping ["a", "b"])

theorem run5 (lossy : Bool) : WRun lossy World.init w5 := by
  have r4 : WRun lossy World.init w4 :=
    .tail _ _ _ (run3 lossy) (.busy w3 0 ["a", "b"] [] ["b"] "a" 10 1
      (by simp [w3, w2, w1, World.set, World.with, norm1]) (by decide +kernel))
  exact .tail _ _ _ r4 (.undone w4 0 ["a", "b"] true (by simp [w4, World.set]))

example : WRun false World.init w5 ∧ w5.phase 0 = .sleeping ["a", "b"] ∧ Owner w5 1 :=
  ⟨run5 false, by simp [w5, World.set], ⟨"a", by decide +kernel⟩⟩

/-- Meanwhile the second client enters its critical section. -/
def w6 : World := (w5.with (setNX w5.store "b" 1 10).1).set 1 (.acquiring ["a", "b"] ["a", "b"] [] 10)
def w7 : World := w6.set 1 (.holding ["a", "b"] 10)

theorem run7 (lossy : Bool) : WRun lossy World.init w7 := by
  have r6 : WRun lossy World.init w6 :=
    .tail _ _ _ (run5 lossy) (.take w5 1 ["a", "b"] ["a"] [] "b" 10 10
      (by simp [w5, w4, w3, World.set, World.with]) (by decide +kernel) (by decide +kernel))
  exact .tail _ _ _ r6 (.enter w6 1 ["a", "b"] ["a", "b"] 10 (by simp [w6, World.set, World.with]))

/-- A third client, with other keys, is inside its critical section at the same time. -/
def w8 : World := w7.set 2 (.acquiring (normalize ["c"]) [] (normalize ["c"]) (0 + 10))
def w9 : World := (w8.with (setNX w8.store "c" 2 10).1).set 2 (.acquiring ["c"] ["c"] [] 10)
def w10 : World := w9.set 2 (.holding ["c"] 10)

example : ∃ w : World, WRun true World.init w ∧ w.phase 1 = .holding ["a", "b"] 10 ∧ w.phase 2 = .holding ["c"] 10 ∧
    w.store.now < 10 := by
  have r8 : WRun true World.init w8 := .tail _ _ _ (run7 true) (.start w7 2 ["c"] 10
    (by simp [w7, w6, w5, w4, w3, w2, w1, World.set, World.with, World.init]))
  have r9 : WRun true World.init w9 := .tail _ _ _ r8 (.take w8 2 ["c"] [] [] "c" 10 10
    (by simp [w8, World.set, show normalize ["c"] = ["c"] from by decide +kernel]) (by decide +kernel) (by decide +kernel))
  have r10 : WRun true World.init w10 := .tail _ _ _ r9 (.enter w9 2 ["c"] ["c"] 10 (by simp [w9, World.set, World.with]))
  exact ⟨w10, r10, by simp [w10, w9, w8, w7, World.set, World.with], by simp [w10, World.set], by decide +kernel⟩

/-- The second client unlocks: its last key is released first. -/
def w11 : World := w7.set 1 (.unlocking ["a", "b"] ["a", "b"])
def w12 : World := (w11.with (delIf w11.store "b" 1).1).set 1 (.unlocking ["a", "b"] ["a"])

theorem run11 : WRun false World.init w11 := .tail _ _ _ (run7 false) (.leave w7 1 ["a", "b"] 10 (by simp [w7, World.set]))

theorem step12 : WStep false w11 w12 := .release w11 1 ["a", "b"] ["a"] "b" (by simp [w11, World.set])

example : WRun false World.init w11 ∧ WStep false w11 w12 ∧ w11.store.live "b" = some 1 ∧
    w12.store.now = w11.store.now ∧ w12.store.live "b" ≠ some 1 :=
  ⟨run11, step12, by decide +kernel, by decide +kernel, by decide +kernel⟩

/-- … and the other key next; then it is done. -/
def w13 : World := (w12.with (delIf w12.store "a" 1).1).set 1 (.unlocking ["a", "b"] [])
def w14 : World := w13.set 1 .done

example : WRun false World.init w14 ∧ w14.phase 1 = .done := by
  have r12 : WRun false World.init w12 := .tail _ _ _ run11 step12
  have r13 : WRun false World.init w13 := .tail _ _ _ r12 (.release w12 1 ["a", "b"] [] "a" (by simp [w12, World.set]))
  exact ⟨.tail _ _ _ r13 (.released w13 1 ["a", "b"] (by simp [w13, World.set])), by simp [w14, World.set]⟩

/-! ### Lost messages -/

/-- The second client holds the key "b" only and the first has taken "a" and is rolling back. -/
def l1 : World := World.init.set 1 (.acquiring (normalize ["b"]) [] (normalize ["b"]) (0 + 10))
def l2 : World := (l1.with (setNX l1.store "b" 1 10).1).set 1 (.acquiring ["b"] ["b"] [] 10)
def l3 : World := l2.set 0 (.acquiring (normalize ["a", "b"]) [] (normalize ["a", "b"]) (0 + 10))
def l4 : World := (l3.with (setNX l3.store "a" 0 10).1).set 0 (.acquiring ["a", "b"] ["a"] ["b"] 10)
def l5 : World := l4.set 0 (.rollback ["a", "b"] ["a"] true)
/-- The unlock of the rollback never reaches Redis. -/
def l6 : World := l5.set 0 (.rollback ["a", "b"] [] true)
def l7 : World := l6.set 0 (.sleeping ["a", "b"])
/-- The second client finishes. -/
def l8 : World := l7.set 1 (.holding ["b"] 10)
def l9 : World := l8.set 1 (.unlocking ["b"] ["b"])
def l10 : World := (l9.with (delIf l9.store "b" 1).1).set 1 (.unlocking ["b"] [])
/-- The first client tries again. -/
def l11 : World := l10.set 0 (.acquiring ["a", "b"] [] ["a", "b"] (0 + 10))

theorem lrun7 : WRun true World.init l7 := by
  have nb : normalize ["b"] = ["b"] := by decide +kernel
  have r1 : WRun true World.init l1 := .tail _ _ _ (.refl _) (.start World.init 1 ["b"] 10 rfl)
  have r2 : WRun true World.init l2 := .tail _ _ _ r1 (.take l1 1 ["b"] [] [] "b" 10 10 (by simp [l1, World.set, nb])
    (by decide +kernel) (by decide +kernel))
  have r3 : WRun true World.init l3 := .tail _ _ _ r2 (.start l2 0 ["a", "b"] 10
    (by simp [l2, l1, World.set, World.with, World.init]))
  have r4 : WRun true World.init l4 := .tail _ _ _ r3 (.take l3 0 ["a", "b"] [] ["b"] "a" 10 10 (by simp [l3, World.set, norm2])
    (by decide +kernel) (by decide +kernel))
  have r5 : WRun true World.init l5 := .tail _ _ _ r4 (.busy l4 0 ["a", "b"] ["a"] [] "b" 10 1 (by simp [l4, World.set])
    (by decide +kernel))
  have r6 : WRun true World.init l6 := .tail _ _ _ r5 (.undoLost l5 0 ["a", "b"] [] "a" true rfl (by simp [l5, World.set]))
  exact .tail _ _ _ r6 (.undone l6 0 ["a", "b"] true (by simp [l6, World.set]))

theorem lrun11 : WRun true World.init l11 := by
  have r8 : WRun true World.init l8 := .tail _ _ _ lrun7 (.enter l7 1 ["b"] ["b"] 10
    (by simp [l7, l6, l5, l4, l3, l2, World.set, World.with]))
  have r9 : WRun true World.init l9 := .tail _ _ _ r8 (.leave l8 1 ["b"] 10 (by simp [l8, World.set]))
  have r10 : WRun true World.init l10 := .tail _ _ _ r9 (.release l9 1 ["b"] [] "b" (by simp [l9, World.set]))
  exact .tail _ _ _ r10 (.retry l10 0 ["a", "b"] 10 (by simp [l10, l9, l8, l7, World.set, World.with]))

theorem l11_ent (k : String) : l11.store.ent k = if k = "a" then some (0, 10) else none := by
  by_cases ha : k = "a"
  · subst ha; decide +kernel
  · by_cases hb : k = "b"
    · subst hb; decide +kernel
    · have h : l9.store.live "b" = some 1 := by decide +kernel
      simp [l11, l10, World.set, World.with, delIf, h, Store.put, hb, ha]
      have h2 : l3.store.live "a" = none := by decide +kernel
      have h3 : l1.store.live "b" = none := by decide +kernel
      simp [l9, l8, l7, l6, l5, l4, l3, l2, l1, World.set, World.with, World.init, setNX, Store.put, ha, hb, Store.live]

/-- **C17, C18** If an unlock of a rollback is lost (`rollback` ignores the error), the client
keeps the lock until it expires, and its own next attempt is refused because of it: it is
blocked by itself and nobody else owns any lock. -/
theorem c17_full_fails : ¬ C17Full true := by
  intro h
  obtain ⟨d, ⟨k, hk⟩, hnb⟩ := h l11 lrun11 0
    ⟨["a", "b"], [], "a", ["b"], 10, 0, by simp [l11, World.set], by decide +kernel⟩
  apply hnb
  obtain ⟨e, he, _⟩ := live_some hk
  rw [l11_ent] at he
  split at he
  · simp at he
    have : d = 0 := he.1.symm
    subst this
    exact ⟨["a", "b"], [], "a", ["b"], 10, 0, by simp [l11, World.set], by decide +kernel⟩
  · cases he

/-- C18 in full: after a failed attempt the client owns no lock. -/
def C18Full (lossy : Bool) : Prop :=
  ∀ w, WRun lossy World.init w → ∀ c, (w.phase c = .done ∨ ∃ keys, w.phase c = .sleeping keys) → ¬ Owner w c

theorem c18_full_fails : ¬ C18Full true := by
  intro h
  exact h l7 lrun7 0 (Or.inr ⟨["a", "b"], by simp [l7, World.set]⟩) ⟨"a", by decide +kernel⟩

/-- **C18** What remains of it with a lossy connection: a lock that was left behind is free
once its time has elapsed, whoever left it. -/
theorem c18_leak_is_bounded (s : Store) (k : String) (n : Nat) (h : ∀ v e, s.ent k = some (v, e) → e ≤ s.now + n) :
    ({ s with now := s.now + n } : Store).live k = none := by
  unfold Store.live
  split
  · rename_i v e he
    have := h v e he
    rw [if_neg]
    simp only [] at *
    omega
  · rfl

example : ∀ v e, l7.store.ent "a" = some (v, e) → e ≤ l7.store.now + 10 := by
  have h : l7.store.ent "a" = some (0, 10) := by decide +kernel
  intro v e he
  rw [h] at he; simp at he; omega

end Blnk.Lock
