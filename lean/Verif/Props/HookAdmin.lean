import Verif.Model.HookAdmin
/-
C212: transaction data is sent to a hook receiver only at an address that was given with the master key.
-/
namespace Blnk.HookAdmin
open Blnk.Hooks

/-! ### Specification -/

/-- The event is a request that names the address and carries the master key, in secure mode. -/
def Gives (url : String) : Ev → Prop
  | .http cfg _ _ a r => (∃ c, cfg = some c ∧ c.secure = true ∧ c.secretKey ≠ "" ∧ a.key = c.secretKey) ∧
      ((∃ h, r = .register h ∧ h.url = url) ∨ (∃ id h, r = .update id h ∧ h.url = url))
  | _ => False

/-- Some event in the history gives the address. -/
def Given (es : List Ev) (url : String) : Prop := ∃ e ∈ es, Gives url e

/-- C212. -/
def C212 : Prop := ∀ (es : List Ev), ∀ c ∈ (run {} es).calls, Given es c.url

/-! ### The master key -/

/-- Only the master key gets through to the hooks, and only in secure mode. -/
theorem c212_master {cfg : Option Auth.Cfg} {lookup : String → Option Auth.Key} {now : Nat} {a : Auth.Req}
    (h : allowed (Auth.authenticate cfg lookup now a) = true) :
    ∃ c, cfg = some c ∧ c.secure = true ∧ c.secretKey ≠ "" ∧ a.key = c.secretKey := by
  unfold allowed Auth.authenticate at h
  split at h
  · simp [Auth.Decision.caller] at h
  · split at h
    · simp [Auth.Decision.caller] at h
    · rename_i hsec
      split at h
      · simp [Auth.Decision.caller] at h
      · split at h
        · rename_i hm
          cases cfg with
          | none => simp at hm
          | some c =>
            simp at hm hsec
            exact ⟨c, rfl, hsec, hm.1, hm.2.symm⟩
        · split at h
          · simp [Auth.Decision.caller] at h
          · split at h
            · simp [Auth.Decision.caller] at h
            · split at h
              · simp [Auth.Decision.caller] at h
              · split at h <;> simp [Auth.Decision.caller] at h

/-- With the master key, in secure mode, hooks can be managed. -/
theorem c212_may {c : Auth.Cfg} (lookup : String → Option Auth.Key) (now : Nat) {a : Auth.Req}
    (hp : a.path ∉ ["/", "/health", "/metrics"]) (hs : c.secure = true) (hk : c.secretKey ≠ "")
    (ha : a.key = c.secretKey) : allowed (Auth.authenticate (some c) lookup now a) = true := by
  simp only [List.mem_cons, List.not_mem_nil, or_false, not_or] at hp
  have hne : a.key ≠ "" := by rw [ha]; exact hk
  unfold allowed Auth.authenticate
  rw [if_neg (by simp [hp.1, hp.2.1, hp.2.2]), if_neg (by simp [hs]), if_neg hne, if_pos (by simp [hk, ha])]
  rfl

/-! ### Invariant -/

/-- The addresses a process has in hand. -/
def procUrls : Proc → List String
  | .regSet h | .regAdd h | .updGet _ h | .updRem _ h | .updAdd h | .updSet h => [h.url]
  | .fireGet _ _ acc => acc.map Hook.url
  | .fireQueue w => w.map fun x => x.1.url
  | _ => []

/-- Every address anywhere is one of `U`. -/
structure Inv (U : String → Prop) (s : Sys) : Prop where
  store : ∀ id h, s.store id = some h → U h.url
  procs : ∀ p ∈ s.procs, ∀ u ∈ procUrls p, U u
  tasks : ∀ t ∈ s.tasks, U t.hook.url
  calls : ∀ c ∈ s.calls, U c.url

theorem put_inv {U : String → Prop} {s : Sys} (h : Inv U s) {k : Hook} (hk : U k.url) : Inv U (s.put k) := by
  refine ⟨?_, h.procs, h.tasks, h.calls⟩
  intro id x hx
  simp only [Sys.put] at hx
  split at hx
  · cases hx; exact hk
  · exact h.store id x hx

theorem del_inv {U : String → Prop} {s : Sys} (h : Inv U s) (id : String) : Inv U (s.del id) := by
  refine ⟨?_, h.procs, h.tasks, h.calls⟩
  intro k x hx
  simp only [Sys.del] at hx
  split at hx
  · cases hx
  · exact h.store k x hx

theorem sadd_inv {U : String → Prop} {s : Sys} (h : Inv U s) (k id : String) : Inv U (s.sadd k id) :=
  ⟨h.store, h.procs, h.tasks, h.calls⟩

theorem srem_inv {U : String → Prop} {s : Sys} (h : Inv U s) (k id : String) : Inv U (s.srem k id) :=
  ⟨h.store, h.procs, h.tasks, h.calls⟩

theorem ack_inv {U : String → Prop} {s : Sys} (h : Inv U s) (a : Ack) : Inv U (s.ack a) :=
  ⟨h.store, h.procs, h.tasks, h.calls⟩

theorem enqueue_inv {U : String → Prop} {s : Sys} (h : Inv U s) {w : Hook × String × String × String}
    (hw : U w.1.url) : Inv U (s.enqueue w) := by
  refine ⟨h.store, h.procs, ?_, h.calls⟩
  intro t ht
  simp only [Sys.enqueue, List.mem_append, List.mem_singleton] at ht
  rcases ht with ht | rfl
  · exact h.tasks t ht
  · exact hw

/-- A process, and the state it leaves, have only addresses of `U`. -/
def Good (U : String → Prop) (r : Sys × Proc) : Prop := Inv U r.1 ∧ ∀ u ∈ procUrls r.2, U u

theorem good_idle {U : String → Prop} {s : Sys} (h : Inv U s) : Good U (s, .idle) := ⟨h, by intro u hu; cases hu⟩

theorem write_good {U : String → Prop} {o : Out} {s s' : Sys} {next : Sys → Sys × Proc} (h : Inv U s) (h' : Inv U s')
    (hn : Good U (next s')) : Good U (write o s s' next) := by
  cases o
  · exact hn
  · exact good_idle h
  · exact good_idle h'
  · exact good_idle h

theorem jobs_urls {U : String → Prop} (f : Fire) {hs : List Hook} (h : ∀ u ∈ hs.map Hook.url, U u) :
    ∀ u ∈ (jobs f hs).map (fun x => x.1.url), U u := by
  intro u hu
  obtain ⟨x, hx, rfl⟩ := List.mem_map.1 hu
  obtain ⟨t, _, ht⟩ := List.mem_flatMap.1 hx
  obtain ⟨k, hk, rfl⟩ := List.mem_map.1 ht
  exact h _ (List.mem_map_of_mem (f := Hook.url) (List.mem_filter.1 hk).1)

theorem advance_good {U : String → Prop} {s : Sys} (h : Inv U s) (o : Out) {p : Proc} (hp : ∀ u ∈ procUrls p, U u) :
    Good U (advance s o p) := by
  cases p with
  | regSet k =>
    have hk : U k.url := hp _ (by simp [procUrls])
    exact write_good h (put_inv h hk) ⟨put_inv h hk, hp⟩
  | regAdd k => exact write_good h (sadd_inv h _ _) (good_idle (ack_inv (sadd_inv h _ _) _))
  | updGet id k =>
    have hk : U k.url := hp _ (by simp [procUrls])
    simp only [advance]
    split
    · split
      · exact good_idle h
      · refine ⟨h, ?_⟩
        dsimp only
        split <;> · intro u hu; simp only [procUrls, List.mem_singleton] at hu; subst hu; exact hk
    · exact good_idle h
  | updRem old k => exact write_good h (srem_inv h _ _) ⟨srem_inv h _ _, hp⟩
  | updAdd k => exact write_good h (sadd_inv h _ _) ⟨sadd_inv h _ _, hp⟩
  | updSet k =>
    have hk : U k.url := hp _ (by simp [procUrls])
    exact write_good h (put_inv h hk) (good_idle (ack_inv (put_inv h hk) _))
  | delGet id =>
    simp only [advance]
    split
    · split
      · exact good_idle h
      · exact ⟨h, by intro u hu; cases hu⟩
    · exact good_idle h
  | delDel id typ =>
    cases o
    · exact ⟨del_inv h _, by intro u hu; cases hu⟩
    · exact good_idle h
    · exact good_idle (del_inv h _)
    · exact good_idle h
  | delRem id typ => exact write_good h (srem_inv h _ _) (good_idle (ack_inv (srem_inv h _ _) _))
  | fireList f =>
    simp only [advance]
    split
    · exact ⟨h, by intro u hu; cases hu⟩
    · exact good_idle h
  | fireGet f ids acc =>
    cases ids with
    | nil =>
      simp only [advance]
      split
      · exact good_idle h
      · exact ⟨h, jobs_urls f hp⟩
    | cons id ids =>
      simp only [advance]
      split
      · exact good_idle h
      · generalize hx : (if o = .ok then s.store id else none) = x
        cases x with
        | none => exact ⟨h, hp⟩
        | some k =>
          refine ⟨h, ?_⟩
          intro u hu
          simp only [procUrls, List.map_append, List.mem_append, List.map_cons, List.map_nil,
            List.mem_singleton] at hu
          rcases hu with hu | rfl
          · exact hp u hu
          · split at hx
            · exact h.store id k hx
            · cases hx
  | fireQueue w =>
    cases w with
    | nil => exact good_idle h
    | cons w ws =>
      have hw : U w.1.url := hp _ (by simp [procUrls])
      have hws : ∀ u ∈ procUrls (.fireQueue ws), U u := fun u hu => hp u (by
        simp only [procUrls, List.map_cons, List.mem_cons] at hu ⊢
        exact Or.inr hu)
      cases o
      · exact ⟨enqueue_inv h hw, hws⟩
      · exact ⟨h, hws⟩
      · exact ⟨enqueue_inv h hw, hws⟩
      · exact good_idle h
  | idle => exact good_idle h

theorem set_tasks_inv {U : String → Prop} {s : Sys} (h : Inv U s) (k : Nat) {t : Task} (ht : U t.hook.url) :
    Inv U { s with tasks := s.tasks.set k t } := by
  refine ⟨h.store, h.procs, ?_, h.calls⟩
  intro x hx
  rcases List.mem_or_eq_of_mem_set hx with hx | rfl
  · exact h.tasks x hx
  · exact ht

theorem over_hook (t : Task) (ok : Bool) : (t.over ok).hook = t.hook := rfl

/-- What the hook manager and the worker do brings in no address; a request brings in its own. -/
theorem hstep_inv {U : String → Prop} {s : Sys} (h : Inv U s) (e : Hooks.Ev)
    (he : ∀ r, e = .ask r → ∀ u ∈ procUrls (r.start s.now), U u) : Inv U (hstep s e) := by
  cases e with
  | ask r =>
    refine ⟨h.store, ?_, h.tasks, h.calls⟩
    intro p hp
    simp only [hstep, List.mem_append, List.mem_singleton] at hp
    rcases hp with hp | rfl
    · exact h.procs p hp
    · exact he r rfl
  | go i o =>
    simp only [hstep]
    split
    · exact h
    · rename_i p hp
      obtain ⟨h1, h2⟩ := advance_good h o (h.procs p (List.mem_of_getElem? hp))
      refine ⟨h1.store, ?_, h1.tasks, h1.calls⟩
      intro q hq
      rcases List.mem_or_eq_of_mem_set hq with hq | rfl
      · exact h1.procs q hq
      · exact h2
  | take k =>
    simp only [hstep]
    split
    · rename_i t ht
      split
      · exact set_tasks_inv h k (t := { t with st := .calling }) (h.tasks t (List.mem_of_getElem? ht))
      · exact h
    · exact h
  | call k a =>
    simp only [hstep]
    split
    · rename_i t ht
      have hu := h.tasks t (List.mem_of_getElem? ht)
      split
      · unfold callTask
        dsimp only
        refine ⟨h.store, h.procs, ?_, ?_⟩
        · intro x hx
          rcases List.mem_or_eq_of_mem_set hx with hx | rfl
          · exact h.tasks x hx
          · exact hu
        · intro c hc
          dsimp only at hc
          generalize (if t.hook.timeout ≤ 0 then Answer.unsent else a) = a' at hc
          split at hc
          · exact h.calls c hc
          · rcases List.mem_append.1 hc with hc | hc
            · exact h.calls c hc
            · rw [List.mem_singleton] at hc
              subst hc
              exact hu
      · exact h
    · exact h
  | report k o =>
    simp only [hstep]
    split
    · rename_i t ht
      have hu := h.tasks t (List.mem_of_getElem? ht)
      split
      · rename_i ok _
        unfold Hooks.report
        dsimp only
        split
        · exact set_tasks_inv (put_inv (k := { t.hook with lastRun := s.now, lastOk := ok }) h hu) k (t := t.over _) hu
        · exact set_tasks_inv h k (t := t.over _) hu
      · split
        · exact set_tasks_inv h k (t := t.over false) hu
        · exact h
      · exact h
    · exact h
  | tick => exact ⟨h.store, h.procs, h.tasks, h.calls⟩

theorem start_urls (r : Req) (now : Nat) : ∀ u ∈ procUrls (r.start now),
    (∃ h, r = .register h ∧ h.url = u) ∨ (∃ id h, r = .update id h ∧ h.url = u) := by
  intro u hu
  cases r with
  | register h =>
    simp only [Req.start] at hu
    split at hu
    · cases hu
    · rename_i k hk
      simp only [procUrls, List.mem_singleton] at hu
      subst hu
      refine Or.inl ⟨h, rfl, ?_⟩
      unfold validate at hk
      split at hk
      · cases hk
      · split at hk
        · cases hk
        · cases hk; rfl
  | update id h =>
    simp only [Req.start, procUrls, List.mem_singleton] at hu
    exact Or.inr ⟨id, h, rfl, hu.symm⟩
  | delete id => cases hu
  | fire f => cases hu

theorem step_inv {U : String → Prop} {s : Sys} (h : Inv U s) (e : Ev) (he : ∀ u, Gives u e → U u) : Inv U (step s e) := by
  cases e with
  | http cfg lookup now a r =>
    simp only [step]
    split
    · rename_i hc
      simp only [Bool.and_eq_true] at hc
      refine hstep_inv h _ ?_
      intro r' hr u hu
      cases hr
      exact he u ⟨c212_master hc.2, start_urls r s.now u hu⟩
    · exact h
  | fire f => exact hstep_inv h (.ask (.fire f)) (fun r hr u hu => by cases hr; cases hu)
  | go i o => exact hstep_inv h (.go i o) (fun r hr => by cases hr)
  | take k => exact hstep_inv h (.take k) (fun r hr => by cases hr)
  | call k a => exact hstep_inv h (.call k a) (fun r hr => by cases hr)
  | report k o => exact hstep_inv h (.report k o) (fun r hr => by cases hr)
  | tick => exact hstep_inv h .tick (fun r hr => by cases hr)

theorem run_inv {U : String → Prop} (es : List Ev) : ∀ {s : Sys}, Inv U s → (∀ e ∈ es, ∀ u, Gives u e → U u) →
    Inv U (run s es) := by
  induction es with
  | nil => intro s h _; exact h
  | cons e es ih =>
    intro s h he
    exact ih (step_inv h e (he e (by simp))) (fun x hx => he x (List.mem_cons_of_mem _ hx))

theorem inv_empty (U : String → Prop) : Inv U {} :=
  ⟨fun _ _ h => (by cases h), fun _ h => (by cases h), fun _ h => (by cases h), fun _ h => (by cases h)⟩

/-! ### C212 -/

/-- C212: whatever requests come in with whatever keys and under whatever settings, however work and
failures are interleaved, every receiver that was sent a transaction was named in a request with the
master key. -/
theorem c212_calls : C212 := by
  intro es c hc
  exact (run_inv (U := Given es) es (inv_empty _) (fun e he _ hu => ⟨e, he, hu⟩)).calls c hc

/-- So was the address of every hook that is stored. -/
theorem c212_stored (es : List Ev) (id : String) (h : Hook) (hs : (run {} es).store id = some h) : Given es h.url :=
  (run_inv (U := Given es) es (inv_empty _) (fun e he _ hu => ⟨e, he, hu⟩)).store id h hs

/-- With secure mode off there are no hooks and nothing is sent: they cannot be managed at all then, also
with the master key. -/
theorem c212_insecure (es : List Ev) (h : ∀ e ∈ es, ∀ cfg l n a r, e = .http cfg l n a r → cfg.any (fun c => c.secure) = false) :
    (run {} es).calls = [] ∧ ∀ id, (run {} es).store id = none := by
  have none_given : ∀ u, ¬ Given es u := by
    rintro u ⟨e, he, hg⟩
    cases e with
    | http cfg l n a r =>
      obtain ⟨⟨c, rfl, hs, _⟩, _⟩ := hg
      have := h _ he _ _ _ _ _ rfl
      simp [hs] at this
    | _ => exact hg
  constructor
  · apply List.eq_nil_iff_forall_not_mem.2
    intro c hc
    exact none_given _ (c212_calls es c hc)
  · intro id
    cases hx : (run {} es).store id with
    | none => rfl
    | some k => exact absurd (c212_stored es id k hx) (none_given _)

/-! ### Cases -/

def cfg : Auth.Cfg := { secure := true, secretKey := "master" }
def shop : Auth.Key := { id := "k1", secret := "shop", owner := "shop", scopes := ["*:*"], expiresAt := 100 }
def keys : String → Option Auth.Key := fun s => if s = "shop" then some shop else none

def hook (url : String) : Hook := { id := "h", url := url, typ := postType }

/-- One request with the master key, another with a key that has every scope. -/
def story : List Ev :=
  [.http (some cfg) keys 0 { path := "/hooks", method := "POST", key := "master" } (.register (hook "https://ours")),
   .go 0 .ok, .go 0 .ok,
   .http (some cfg) keys 0 { path := "/hooks/h", method := "PUT", key := "shop" } (.update "h" (hook "https://theirs")),
   .go 1 .ok, .go 1 .ok,
   .fire { pre := false, txns := [("txn_1", "{}")] }, .go 1 .ok, .go 1 .ok, .go 1 .ok, .go 1 .ok,
   .take 0, .call 0 (.heard { status := 200, body := .json true })]

/-- Something is sent, to the address that was given. -/
example : (run {} story).calls.map Call.url = ["https://ours"] := by decide +kernel

/-- The key with every scope passes the check of keys, and is turned away by the handler. -/
example : (Auth.authenticate (some cfg) keys 0 { path := "/hooks/h", method := "PUT", key := "shop" }).allowed = true ∧
    allowed (Auth.authenticate (some cfg) keys 0 { path := "/hooks/h", method := "PUT", key := "shop" }) = false := by
  decide +kernel

end Blnk.HookAdmin
