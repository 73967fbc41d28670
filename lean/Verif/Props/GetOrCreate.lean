import Verif.Model.GetOrCreate
import Verif.Lemmas.Names
import Verif.Props.Worker
/-
C55: an indicator names one balance.
-/
namespace Blnk.Indicator

/-- The balances called so. -/
def called (db : DB) (ind cur : String) : List Balance := db.balances.filter (fun b => b.indicator = ind && b.currency = cur)

theorem lookup_some {db : DB} {ind cur : String} {b : Balance} (h : lookup db ind cur = some b) : (b.id, ind, cur) ∈ names db := by
  have h1 := List.mem_of_find?_eq_some h
  have h2 := List.find?_some h
  simp only [Bool.and_eq_true, decide_eq_true_eq] at h2
  exact List.mem_map.2 ⟨b, h1, by simp [Balance.name, h2]⟩

theorem lookup_of_mem {db : DB} {i ind cur : String} (h : (i, ind, cur) ∈ names db) : ∃ b, lookup db ind cur = some b := by
  obtain ⟨b, hb, e⟩ := List.mem_map.1 h
  cases hl : lookup db ind cur with
  | some b => exact ⟨b, rfl⟩
  | none =>
    have := List.find?_eq_none.1 hl b hb
    simp only [Balance.name, Prod.mk.injEq] at e
    simp [e.2.1, e.2.2] at this

/-- What holds of a call at any time. -/
def CallOk (db : DB) (c : Call) : Prop :=
  match c.phase with
  | .looking => c.fresh ∉ ids db.balances
  | .missed => c.fresh ∉ ids db.balances
  | .created => ∃ i, (i, c.indicator, c.currency) ∈ names db
  | .returned i => (i, c.indicator, c.currency) ∈ names db
  | .failed => False

structure Good (s : State) : Prop where
  inv : Inv s.db
  one : OneEach (names s.db)
  calls : ∀ c ∈ s.calls, c.indicator ≠ "" ∧ CallOk s.db c
  fresh : s.calls.Pairwise fun a b => a.fresh ≠ b.fresh

/-- The generated ids are new: nothing else uses them. -/
def Apart (s : State) (es : List Ev) : Prop := ∀ e ∈ es, ∀ a, e = .act a → ∀ c ∈ s.calls, c.fresh ∉ a.newBalances

theorem ids_names (db : DB) : ids db.balances = (names db).map (·.1) := by
  simp [ids, names, Balance.name]

theorem callOk_grow {db db' : DB} {g : List String} {c : Call} (hg : NamesGrow g (names db) (names db')) (hf : c.fresh ∉ g) (h : CallOk db c) :
    CallOk db' c := by
  obtain ⟨new, e, hn⟩ := hg.ext
  have hids : c.fresh ∉ ids db.balances → c.fresh ∉ ids db'.balances := by
    intro h1 h2
    rw [ids_names, e, List.map_append, List.mem_append] at h2
    rcases h2 with h2 | h2
    · exact h1 (by rw [ids_names]; exact h2)
    · obtain ⟨n, hm, e2⟩ := List.mem_map.1 h2
      exact hf (by rw [← e2]; exact hn n hm)
  have hmem : ∀ x, x ∈ names db → x ∈ names db' := fun x hx => by rw [e]; exact List.mem_append.2 (.inl hx)
  unfold CallOk at h ⊢
  cases hp : c.phase with
  | looking => rw [hp] at h; exact hids h
  | missed => rw [hp] at h; exact hids h
  | created => rw [hp] at h; obtain ⟨i, hi⟩ := h; exact ⟨i, hmem _ hi⟩
  | returned i => rw [hp] at h; exact hmem _ h
  | failed => rw [hp] at h; exact h

theorem createBalance_error {db : DB} {i ind cur : String} {e : OpErr} (h : db.createBalance i ind cur = .error e) (hi : i ∉ ids db.balances) :
    ∃ j, (j, ind, cur) ∈ names db := by
  unfold DB.createBalance at h
  split at h
  · rename_i h1
    obtain ⟨b, hb, e⟩ := List.any_eq_true.1 h1
    simp only [decide_eq_true_eq] at e
    exact absurd (List.mem_map.2 ⟨b, hb, e⟩) hi
  · split at h
    · rename_i h2
      simp only [Bool.and_eq_true] at h2
      obtain ⟨b, hb, e⟩ := List.any_eq_true.1 h2.2
      simp only [Bool.and_eq_true, decide_eq_true_eq] at e
      exact ⟨b.id, List.mem_map.2 ⟨b, hb, by simp [Balance.name, e]⟩⟩
    · cases h

theorem advance_fields (db : DB) (c : Call) : (advance db c).2.indicator = c.indicator ∧ (advance db c).2.currency = c.currency ∧
    (advance db c).2.fresh = c.fresh := by
  unfold advance
  split
  · split <;> exact ⟨rfl, rfl, rfl⟩
  · split <;> exact ⟨rfl, rfl, rfl⟩
  · split <;> exact ⟨rfl, rfl, rfl⟩
  · exact ⟨rfl, rfl, rfl⟩
  · exact ⟨rfl, rfl, rfl⟩

theorem advance_names {db : DB} (c : Call) : NamesGrow [c.fresh] (names db) (names (advance db c).1) := by
  unfold advance
  split
  · split <;> exact .refl _
  · split
    · rename_i db' h; exact (createBalance_names h).2
    · exact .refl _
  · split <;> exact .refl _
  · exact .refl _
  · exact .refl _

theorem advance_inv {db : DB} (c : Call) (hi : Inv db) : Inv (advance db c).1 := by
  unfold advance
  split
  · split <;> exact hi
  · split
    · rename_i db' h; exact createBalance_inv hi h
    · exact hi
  · split <;> exact hi
  · exact hi
  · exact hi

theorem advance_ok {db : DB} {c : Call} (h : CallOk db c) : CallOk (advance db c).1 (advance db c).2 := by
  unfold advance
  unfold CallOk at h
  split
  · rename_i hp
    rw [hp] at h
    split
    · rename_i b hb; exact lookup_some hb
    · exact h
  · rename_i hp
    rw [hp] at h
    split
    · rename_i db' hc
      exact ⟨c.fresh, by show _ ∈ names db'; rw [(createBalance_names hc).1]; simp⟩
    · rename_i e hc
      exact createBalance_error hc h
  · rename_i hp
    rw [hp] at h
    obtain ⟨i, hi⟩ := h
    obtain ⟨b, hb⟩ := lookup_of_mem hi
    rw [hb]
    exact lookup_some hb
  · rename_i hp
    rw [hp] at h
    unfold CallOk
    rw [hp]
    exact h
  · rename_i hp
    rw [hp] at h
    exact h.elim

theorem pairwise_ne_get {l : List Call} (h : l.Pairwise fun a b => a.fresh ≠ b.fresh) {i j : Nat} {a b : Call} (ha : l[i]? = some a) (hb : l[j]? = some b)
    (hij : i ≠ j) : a.fresh ≠ b.fresh := by
  obtain ⟨hi, rfl⟩ := List.getElem?_eq_some_iff.1 ha
  obtain ⟨hj, rfl⟩ := List.getElem?_eq_some_iff.1 hb
  rw [List.pairwise_iff_getElem] at h
  rcases Nat.lt_or_gt_of_ne hij with h1 | h1
  · exact h i j hi hj h1
  · exact Ne.symm (h j i hj hi h1)

theorem pairwise_set {l : List Call} (h : l.Pairwise fun a b => a.fresh ≠ b.fresh) {n : Nat} {c c' : Call} (hc : l[n]? = some c) (e : c'.fresh = c.fresh) :
    (l.set n c').Pairwise fun a b => a.fresh ≠ b.fresh := by
  have hm : ∀ l : List Call, (l.Pairwise fun a b => a.fresh ≠ b.fresh) ↔ (l.map (·.fresh)).Nodup := by
    intro l; rw [List.Nodup, List.pairwise_map]
  rw [hm] at h ⊢
  rw [List.map_set]
  obtain ⟨hn, rfl⟩ := List.getElem?_eq_some_iff.1 hc
  have : (l.map (·.fresh)).set n c'.fresh = l.map (·.fresh) := by
    rw [e]
    have : l[n].fresh = (l.map (·.fresh))[n]'(by simpa using hn) := by simp
    rw [this, List.set_getElem_self]
  rw [this]
  exact h

theorem step_good {cfg : Cfg} {s : State} {e : Ev} (h : Good s) (ha : Apart s [e]) : Good (step cfg s e) := by
  cases e with
  | act a =>
    have hg := act_names (cfg := cfg) (a := a) h.inv
    refine ⟨Queue.act_inv h.inv, hg.one h.one, ?_, h.fresh⟩
    intro c hc
    exact ⟨(h.calls c hc).1, callOk_grow hg (ha _ (by simp) a rfl c hc) (h.calls c hc).2⟩
  | call n =>
    simp only [step]
    cases hn : s.calls[n]? with
    | none => exact h
    | some c =>
      have hcm : c ∈ s.calls := List.mem_of_getElem? hn
      obtain ⟨hf1, hf2, hf3⟩ := advance_fields s.db c
      refine ⟨advance_inv c h.inv, (advance_names c).one h.one, ?_, pairwise_set h.fresh hn hf3⟩
      intro d hd
      obtain ⟨j, hj⟩ := List.mem_iff_getElem?.1 hd
      by_cases hjn : j = n
      · subst hjn
        rw [List.getElem?_set_self (by exact (List.getElem?_eq_some_iff.1 hn).1)] at hj
        cases hj
        exact ⟨by rw [hf1]; exact (h.calls c hcm).1, advance_ok (h.calls c hcm).2⟩
      · rw [List.getElem?_set_ne (Ne.symm hjn)] at hj
        have hdm := List.mem_of_getElem? hj
        refine ⟨(h.calls d hdm).1, callOk_grow (advance_names c) ?_ (h.calls d hdm).2⟩
        simp only [List.mem_singleton]
        exact pairwise_ne_get h.fresh hj hn hjn

theorem step_apart {cfg : Cfg} {s : State} {e : Ev} {es : List Ev} (h : Apart s (e :: es)) : Apart (step cfg s e) es := by
  intro x hx a hxa c hc
  have : ∃ c0 ∈ s.calls, c0.fresh = c.fresh := by
    cases e with
    | act a => exact ⟨c, hc, rfl⟩
    | call n =>
      simp only [step] at hc
      cases hn : s.calls[n]? with
      | none => rw [hn] at hc; exact ⟨c, hc, rfl⟩
      | some d =>
        rw [hn] at hc
        rcases List.mem_or_eq_of_mem_set hc with h1 | rfl
        · exact ⟨c, h1, rfl⟩
        · exact ⟨d, List.mem_of_getElem? hn, (advance_fields s.db d).2.2.symm⟩
  obtain ⟨c0, h0, e0⟩ := this
  rw [← e0]
  exact h x (by simp [hx]) a hxa c0 h0

theorem exec_good {cfg : Cfg} : ∀ {es : List Ev} {s : State}, Good s → Apart s es → Good (exec cfg s es) := by
  intro es
  induction es with
  | nil => intro s h _; exact h
  | cons e es ih =>
    intro s h ha
    exact ih (step_good h (fun x hx => ha x (by simp at hx; simp [hx]))) (step_apart ha)

theorem oneEach_eq {l : List (String × String × String)} (h : OneEach l) {i j ind cur : String} (hi : ind ≠ "") (h1 : (i, ind, cur) ∈ l)
    (h2 : (j, ind, cur) ∈ l) : i = j := by
  induction l with
  | nil => cases h1
  | cons x l ih =>
    have h' := List.pairwise_cons.1 h
    rcases List.mem_cons.1 h1 with rfl | h3 <;> rcases List.mem_cons.1 h2 with e | h4
    · exact (Prod.mk.inj e).1.symm
    · exact absurd ⟨hi, rfl, rfl⟩ (h'.1 _ h4)
    · rw [← e] at h'; exact absurd ⟨hi, rfl, rfl⟩ (h'.1 _ h3)
    · exact ih h'.2 h3 h4

/-- At most one balance is called so. -/
theorem called_le {db : DB} (h : OneEach (names db)) {ind cur : String} (hi : ind ≠ "") : (called db ind cur).length ≤ 1 := by
  unfold names OneEach at h
  rw [List.pairwise_map] at h
  unfold called
  generalize db.balances = l at h ⊢
  induction l with
  | nil => simp
  | cons x l ih =>
    have h' := List.pairwise_cons.1 h
    by_cases hx : (decide (x.indicator = ind) && decide (x.currency = cur)) = true
    · rw [List.filter_cons_of_pos (p := fun b : Balance => decide (b.indicator = ind) && decide (b.currency = cur)) hx]
      simp only [Bool.and_eq_true, decide_eq_true_eq] at hx
      have : l.filter (fun b : Balance => decide (b.indicator = ind) && decide (b.currency = cur)) = [] := by
        rw [List.filter_eq_nil_iff]
        intro y hy hc
        simp only [Bool.and_eq_true, decide_eq_true_eq] at hc
        exact h'.1 y hy ⟨by simp only [Balance.name]; rw [hx.1]; exact hi, by simp only [Balance.name]; rw [hx.1, hc.1], by simp only [Balance.name]; rw [hx.2, hc.2]⟩
      rw [this]
      simp
    · rw [List.filter_cons_of_neg (p := fun b : Balance => decide (b.indicator = ind) && decide (b.currency = cur)) hx]
      exact ih h'.2

theorem called_of_name {db : DB} {i ind cur : String} (h : (i, ind, cur) ∈ names db) : ∃ b ∈ called db ind cur, b.id = i := by
  obtain ⟨b, hb, e⟩ := List.mem_map.1 h
  simp only [Balance.name, Prod.mk.injEq] at e
  exact ⟨b, List.mem_filter.2 ⟨hb, by simp [e]⟩, e.1⟩

/-- A ledger as calls find it, with calls about to start. -/
structure Begins (cfg : Cfg) (s : State) : Prop where
  ledger : ∃ as, s.db = acts cfg {} as
  calls : ∀ c ∈ s.calls, c.indicator ≠ "" ∧ c.phase = .looking ∧ c.fresh ∉ ids s.db.balances
  fresh : s.calls.Pairwise fun a b => a.fresh ≠ b.fresh

theorem begins_good {cfg : Cfg} {s : State} (h : Begins cfg s) : Good s := by
  obtain ⟨as, e⟩ := h.ledger
  refine ⟨by rw [e]; exact Queue.acts_inv init_inv, by rw [e]; exact acts_oneEach init_inv List.Pairwise.nil, ?_, h.fresh⟩
  intro c hc
  obtain ⟨h1, h2, h3⟩ := h.calls c hc
  refine ⟨h1, ?_⟩
  unfold CallOk
  rw [h2]
  exact h3

/-- **C55: one balance.** However the statements of any number of get-or-create calls interleave, with
each other and with anything else, a returned call names the only balance of its indicator and
currency. -/
theorem c55_one_balance {cfg : Cfg} {s : State} {es : List Ev} (h : Begins cfg s) (ha : Apart s es) {c : Call} {i : String}
    (hc : c ∈ (exec cfg s es).calls) (hr : c.phase = .returned i) :
    ∃ b, called (exec cfg s es).db c.indicator c.currency = [b] ∧ b.id = i := by
  have hg := exec_good (cfg := cfg) (begins_good h) ha
  obtain ⟨h1, h2⟩ := hg.calls c hc
  unfold CallOk at h2
  rw [hr] at h2
  obtain ⟨b, hb, e⟩ := called_of_name h2
  have hl := called_le hg.one (cur := c.currency) h1
  cases hcl : called (exec cfg s es).db c.indicator c.currency with
  | nil => rw [hcl] at hb; cases hb
  | cons x l =>
    rw [hcl] at hl hb
    cases l with
    | nil => simp only [List.mem_singleton] at hb; exact ⟨x, rfl, by rw [← hb]; exact e⟩
    | cons y l => simp at hl

/-- **C55: all return it.** Two returned calls for the same indicator and currency return the same balance. -/
theorem c55_same_balance {cfg : Cfg} {s : State} {es : List Ev} (h : Begins cfg s) (ha : Apart s es) {c d : Call} {i j : String}
    (hc : c ∈ (exec cfg s es).calls) (hd : d ∈ (exec cfg s es).calls) (h1 : c.phase = .returned i) (h2 : d.phase = .returned j)
    (hi : d.indicator = c.indicator) (hk : d.currency = c.currency) : i = j := by
  obtain ⟨b, hb, e⟩ := c55_one_balance h ha hc h1
  obtain ⟨b', hb', e'⟩ := c55_one_balance h ha hd h2
  rw [hi, hk, hb] at hb'
  injection hb' with hb'
  rw [← e, ← e', hb']

/-- How far a call is. -/
def rank : Phase → Nat
  | .looking => 0
  | .missed => 1
  | .created => 2
  | _ => 3

theorem advance_rank (db : DB) (c : Call) : rank (advance db c).2.phase = 3 ∨ rank (advance db c).2.phase = rank c.phase + 1 := by
  unfold advance
  split
  · rename_i hp; split <;> simp [rank, hp]
  · rename_i hp; split <;> simp [rank, hp]
  · split <;> simp [rank]
  · rename_i hp; simp [rank, hp]
  · rename_i hp; simp [rank, hp]

/-- How often a call was scheduled. -/
def turns (n : Nat) : List Ev → Nat
  | [] => 0
  | .call m :: es => (if m = n then 1 else 0) + turns n es
  | .act _ :: es => turns n es

theorem exec_rank {cfg : Cfg} {n : Nat} : ∀ {es : List Ev} {s : State} {c : Call}, s.calls[n]? = some c →
    ∃ c', (exec cfg s es).calls[n]? = some c' ∧ (rank c'.phase = 3 ∨ rank c.phase + turns n es ≤ rank c'.phase) := by
  intro es
  induction es with
  | nil => intro s c h; exact ⟨c, h, .inr (by simp [turns])⟩
  | cons e es ih =>
    intro s c h
    rw [exec]
    cases e with
    | act a => exact ih (s := step cfg s (.act a)) h
    | call m =>
      by_cases hm : m = n
      · subst hm
        have h1 : (step cfg s (.call m)).calls[m]? = some (advance s.db c).2 := by
          simp only [step, h]
          rw [List.getElem?_set_self (List.getElem?_eq_some_iff.1 h).1]
        obtain ⟨c', h2, h3⟩ := ih h1
        refine ⟨c', h2, ?_⟩
        have h4 : ∀ p, rank p ≤ 3 := by intro p; cases p <;> simp [rank]
        have := h4 c'.phase
        simp only [turns, if_true]
        rcases h3 with h3 | h3
        · exact .inl h3
        · rcases advance_rank s.db c with h5 | h5 <;> omega
      · have h1 : (step cfg s (.call m)).calls[n]? = some c := by
          simp only [step]
          split
          · exact h
          · simp only
            rw [List.getElem?_set_ne hm]; exact h
        obtain ⟨c', h2, h3⟩ := ih h1
        exact ⟨c', h2, by simp only [turns, if_neg hm]; simpa using h3⟩

/-- **C55: every call returns** once it had three turns; none fails, also when its insert met another's. -/
theorem c55_returns {cfg : Cfg} {s : State} {es : List Ev} (h : Begins cfg s) (ha : Apart s es) {n : Nat} (hn : n < s.calls.length)
    (ht : 3 ≤ turns n es) : ∃ c i, (exec cfg s es).calls[n]? = some c ∧ c.phase = .returned i := by
  obtain ⟨c, h1, h2⟩ := exec_rank (cfg := cfg) (es := es) (List.getElem?_eq_getElem hn)
  have hg := exec_good (cfg := cfg) (begins_good h) ha
  have hok := (hg.calls c (List.mem_of_getElem? h1)).2
  refine ⟨c, ?_⟩
  have hr : rank c.phase = 3 := by
    have : rank c.phase ≤ 3 := by cases c.phase <;> simp [rank]
    rcases h2 with h2 | h2 <;> omega
  unfold CallOk at hok
  cases hp : c.phase with
  | looking => rw [hp] at hr; simp [rank] at hr
  | missed => rw [hp] at hr; simp [rank] at hr
  | created => rw [hp] at hr; simp [rank] at hr
  | returned i => exact ⟨i, h1, rfl⟩
  | failed => rw [hp] at hok; exact hok.elim

/-- Three racing calls, one in another currency, while a posting opens an indicator of its own: the
first two both look before either inserts. -/
def race : State :=
  { db := {}, calls := [{ indicator := "@w", currency := "USD", fresh := "b1" }, { indicator := "@w", currency := "USD", fresh := "b2" },
      { indicator := "@w", currency := "EUR", fresh := "b3" }] }

def raceEvents : List Ev :=
  [.call 0, .call 1, .call 2, .call 1, .call 0,
    .act (.base (.post { id := "t", source := "@x", destination := "@w", reference := "r", amount := 5, precision := 1, allowOverdraft := true
                         status := .queued } "n1" "n2")), .call 0, .call 2, .call 1, .call 2]

example : (exec {} race raceEvents).calls.map (·.phase) = [.returned "b2", .returned "b2", .returned "b3"] ∧
    names (exec {} race raceEvents).db = [("b2", "@w", "USD"), ("n1", "@x", "USD"), ("b3", "@w", "EUR")] ∧
    turns 0 raceEvents = 3 := by decide +kernel

example : Begins {} race ∧ Apart race raceEvents := by
  refine ⟨⟨⟨[], rfl⟩, by decide, by decide⟩, ?_⟩
  intro e he a hea c hc
  subst hea
  simp only [raceEvents, List.mem_cons, reduceCtorEq, Ev.act.injEq, List.not_mem_nil, or_false, false_or] at he
  subst he
  revert c
  decide

end Blnk.Indicator
