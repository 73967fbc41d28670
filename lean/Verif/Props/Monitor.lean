import Verif.Model.Monitor
/-
C52 (monitors fire exactly on their condition), C72 (changes to monitors take effect).
-/
namespace Blnk.Mon

/-! ### Specification -/

/-- The figure of a balance a field names. -/
def figure (b : Balance) : String → Option Int
  | "debit_balance" => some b.debit
  | "credit_balance" => some b.credit
  | "balance" => some b.balance
  | "inflight_debit_balance" => some b.inflightDebit
  | "inflight_credit_balance" => some b.inflightCredit
  | "inflight_balance" => some b.inflightBalance
  | _ => none

/-- What an operator means. -/
inductive Rel : String → Rat → Rat → Prop
  | gt {v t} : t < v → Rel ">" v t
  | lt {v t} : v < t → Rel "<" v t
  | ge {v t} : t ≤ v → Rel ">=" v t
  | le {v t} : v ≤ t → Rel "<=" v t
  | ne {v t} : v ≠ t → Rel "!=" v t
  | eq {v} : Rel "=" v v
  | eqeq {v} : Rel "==" v v

/-- The condition of a monitor: the named figure, in minor units, compares as asked with
`value × precision`. -/
def Meets (m : Monitor) (b : Balance) : Prop := ∃ v, figure b m.field = some v ∧ Rel m.op v (m.value * m.precision)

/-! ### The check -/

theorem compare_iff (v t : Int) (op : String) : compare v op t = true ↔ op ≠ "=" ∧ Rel op (v : Rat) (t : Rat) := by
  unfold compare
  have hlt : ∀ a b : Int, ((a : Rat) < (b : Rat)) ↔ a < b := fun a b => Rat.intCast_lt_intCast
  have hle : ∀ a b : Int, ((a : Rat) ≤ (b : Rat)) ↔ a ≤ b := fun a b => Rat.intCast_le_intCast
  have heq : ∀ a b : Int, ((a : Rat) = (b : Rat)) ↔ a = b := fun a b => Rat.intCast_inj
  constructor
  · intro h
    split at h
    · rename_i e; subst e; exact ⟨by decide, .gt ((hlt _ _).2 (by simpa using h))⟩
    · split at h
      · rename_i e; subst e; exact ⟨by decide, .lt ((hlt _ _).2 (by simpa using h))⟩
      · split at h
        · rename_i e; subst e; exact ⟨by decide, .ge ((hle _ _).2 (by simpa using h))⟩
        · split at h
          · rename_i e; subst e; exact ⟨by decide, .le ((hle _ _).2 (by simpa using h))⟩
          · split at h
            · rename_i e; subst e; exact ⟨by decide, .ne (fun c => (by simpa using h : v ≠ t) ((heq _ _).1 c))⟩
            · split at h
              · rename_i e; subst e
                have : v = t := by simpa using h
                subst this
                exact ⟨by decide, .eqeq⟩
              · cases h
  · rintro ⟨hne, h⟩
    generalize hx : (v : Rat) = x at h
    generalize hy : (t : Rat) = y at h
    cases h with
    | gt h => subst hx hy; simpa using (hlt _ _).1 h
    | lt h => subst hx hy; simpa using (hlt _ _).1 h
    | ge h => subst hx hy; simpa using (hle _ _).1 h
    | le h => subst hx hy; simpa using (hle _ _).1 h
    | ne h => subst hx hy; simpa using fun c => h ((heq _ _).2 c)
    | eq => exact (hne rfl).elim
    | eqeq => subst hx; simpa using ((heq _ _).1 hy).symm

theorem check_iff (m : Monitor) (b : Balance) :
    check m b = true ↔ ∃ v, figure b m.field = some v ∧ compare v m.op m.precise = true := by
  unfold check figure
  split
  · rename_i e; simp [e]
  · split
    · rename_i e; simp [e]
    · split
      · rename_i e; simp [e]
      · split
        · rename_i e; simp [e]
        · split
          · rename_i e; simp [e]
          · split
            · rename_i e; simp [e]
            · split <;> simp_all

/-- **C52.** The check itself, for every monitor and balance: it fires if and only if the named
figure compares as the operator says with the stored threshold - except for the operator `=`, which
never fires; an unknown field or operator never fires. -/
theorem c52_check_exact (m : Monitor) (b : Balance) :
    check m b = true ↔ m.op ≠ "=" ∧ ∃ v, figure b m.field = some v ∧ Rel m.op (v : Rat) (m.precise : Rat) := by
  rw [check_iff]
  constructor
  · rintro ⟨v, h1, h2⟩
    have := (compare_iff _ _ _).1 h2
    exact ⟨this.1, v, h1, this.2⟩
  · rintro ⟨h0, v, h1, h2⟩
    exact ⟨v, h1, (compare_iff _ _ _).2 ⟨h0, h2⟩⟩

example : check { id := "m", balanceId := "b", field := "inflight_balance", op := ">=", value := 5, precision := 100, precise := 500 }
    { id := "b", inflightBalance := 500 } = true := by decide +kernel

theorem c52_unknown_field_never_fires (m : Monitor) (h : m.field ∉ fields) (b : Balance) : check m b = false := by
  cases hc : check m b with
  | false => rfl
  | true =>
    obtain ⟨v, hv, _⟩ := (check_iff m b).1 hc
    unfold figure at hv
    split at hv <;> first | (rename_i e; exact absurd (by rw [e]; decide) h) | cases hv

theorem c52_unknown_operator_never_fires (m : Monitor) (h : m.op ∉ ["==", ">", "<", ">=", "<=", "!="]) (b : Balance) :
    check m b = false := by
  cases hc : check m b with
  | false => rfl
  | true =>
    obtain ⟨hne, v, _, hr⟩ := (c52_check_exact m b).1 hc
    generalize hop : m.op = o at hr h hne
    cases hr <;> simp_all

/-! ### Thresholds -/

/-- A whole number of minor units within the 64-bit range converts exactly. -/
theorem toInt64_int (n : Int) (h : -(2 ^ 63) ≤ n ∧ n < 2 ^ 63) : toInt64 (n : Rat) = n := by
  unfold toInt64
  have h1 : ((n : Rat).floor) = n := Rat.floor_intCast n
  have h2 : ((n : Rat).ceil) = n := Rat.ceil_intCast n
  simp only [h1, h2, ite_self]
  rw [if_pos h]

/-- Whole thresholds within range. -/
def Whole (m : Monitor) : Prop := ∃ n : Int, m.value * m.precision = (n : Rat) ∧ -(2 ^ 63) ≤ n ∧ n < 2 ^ 63

/-- A monitor's stored threshold is the one asked for. -/
def Exact (m : Monitor) : Prop := (m.precise : Rat) = m.value * m.precision

/-! ### The cache -/

/-- Every cache entry shows what the table holds. -/
def Coherent (p : Nat) (st : State) : Prop :=
  (∀ k l, st.redis k = some l → l = stored st k) ∧ (∀ k l, st.locals p k = some l → l = stored st k)

theorem lookup_coherent {p : Nat} {st : State} (h : Coherent p st) (bal : String) :
    Coherent p (lookup st p bal).1 ∧ (lookup st p bal).2 = stored st bal ∧ (lookup st p bal).1.table = st.table := by
  unfold lookup
  split
  · rename_i l hl; exact ⟨h, h.2 _ _ hl, rfl⟩
  · split
    · rename_i l hl
      refine ⟨⟨h.1, ?_⟩, h.1 _ _ hl, rfl⟩
      intro k l' hk
      simp only [decide_true, Bool.true_and, decide_eq_true_eq] at hk
      split at hk
      · rename_i e; subst e; cases hk; exact h.1 _ _ hl
      · exact h.2 _ _ hk
    · refine ⟨⟨?_, ?_⟩, rfl, rfl⟩
      · intro k l' hk
        simp only at hk
        split at hk
        · rename_i e; subst e; cases hk; rfl
        · exact h.1 _ _ hk
      · intro k l' hk
        simp only [decide_true, Bool.true_and, decide_eq_true_eq] at hk
        split at hk
        · rename_i e; subst e; cases hk; rfl
        · exact h.2 _ _ hk

theorem drop_coherent {p : Nat} {st st' : State} (h : Coherent p st) (bal : String)
    (hr : st'.redis = st.redis) (hl : st'.locals = st.locals) (ht : ∀ k, k ≠ bal → stored st' k = stored st k) :
    Coherent p (drop st' p bal) := by
  constructor
  · intro k l hk
    simp only [drop] at hk
    split at hk
    · cases hk
    · rename_i hne; rw [hr] at hk; rw [h.1 k l hk]; exact (ht k hne).symm
  · intro k l hk
    simp only [drop, decide_true, Bool.true_and, decide_eq_true_eq] at hk
    split at hk
    · cases hk
    · rename_i hne; rw [hl] at hk; rw [h.2 k l hk]; exact (ht k hne).symm

/-- Everything is served by process `p`, and updates leave a monitor with its balance. -/
def Plain (p : Nat) (st : State) : Ev → Prop
  | .create q _ => q = p
  | .update q m => q = p ∧ ∀ x ∈ st.table, x.id = m.id → x.balanceId = m.balanceId
  | .delete q _ => q = p
  | .post q _ => q = p
  | .expireLocal q _ => q = p
  | .expireRedis _ => True

theorem stored_snoc (st : State) (m : Monitor) (k : String) (h : k ≠ m.balanceId) :
    stored { st with table := st.table ++ [m] } k = stored st k := by
  unfold stored
  rw [List.filter_append]
  have : m.balanceId ≠ k := fun e => h e.symm
  simp [this]

theorem step_coherent {p : Nat} {st : State} (h : Coherent p st) (hid : (st.table.map (·.id)).Nodup) {e : Ev}
    (he : Plain p st e) : Coherent p (step st e) := by
  cases e with
  | create q m =>
    cases he
    simp only [step, insert]
    split
    · rename_i st' hs
      split at hs
      · cases hs
        exact drop_coherent h _ rfl rfl (fun k hk => stored_snoc st _ k hk)
      · cases hs
    · exact h
  | update q m =>
    obtain ⟨rfl, hm⟩ := he
    simp only [step, overwrite]
    split
    · rename_i st' hs
      split at hs
      · cases hs
        refine drop_coherent h _ rfl rfl (fun k hk => ?_)
        unfold stored
        have : ∀ l : List Monitor, (∀ x ∈ l, x.id = m.id → x.balanceId = m.balanceId) →
            (l.map fun x => if x.id = m.id then { x with balanceId := m.balanceId, field := m.field, op := m.op, value := m.value } else x).filter
              (fun x => decide (x.balanceId = k)) = l.filter (fun x => decide (x.balanceId = k)) := by
          intro l
          induction l with
          | nil => intro _; rfl
          | cons x l ih =>
            intro hx
            have ih := ih (fun y hy => hx y (List.mem_cons_of_mem _ hy))
            rw [List.map_cons, List.filter_cons, List.filter_cons, ih]
            by_cases e : x.id = m.id
            · have hb := hx x (by simp) e
              have : m.balanceId ≠ k := fun c => hk c.symm
              simp [e, hb, this]
            · simp [e]
        exact this _ hm
      · cases hs
    · exact h
  | delete q id =>
    cases he
    simp only [step]
    split
    · exact h
    · rename_i m hm
      refine drop_coherent h _ rfl rfl (fun k hk => ?_)
      have hmem := List.mem_of_find?_eq_some hm
      have hmid : m.id = id := by simpa using List.find?_some hm
      unfold stored
      simp only
      rw [List.filter_filter]
      apply List.filter_congr
      intro x hx
      by_cases e : x.id = id
      · have : x = m := by
          have hpw := hid
          rw [List.Nodup, List.pairwise_map] at hpw
          rcases Decidable.em (x = m) with h | h
          · exact h
          · exfalso
            obtain ⟨i, hi, ei⟩ := List.mem_iff_getElem.1 hx
            obtain ⟨j, hj, ej⟩ := List.mem_iff_getElem.1 hmem
            rcases Nat.lt_trichotomy i j with hlt | heq | hgt
            · exact (List.pairwise_iff_getElem.1 hpw i j hi hj hlt) (by rw [ei, ej, e, hmid])
            · subst heq; exact h (by rw [← ei, ← ej])
            · exact (List.pairwise_iff_getElem.1 hpw j i hj hi hgt) (by rw [ei, ej, e, hmid])
        subst this
        have : x.balanceId ≠ k := fun c => hk c.symm
        simp [this]
      · simp [e]
  | post q b => cases he; exact (lookup_coherent h b.id).1
  | expireLocal q bal =>
    cases he
    refine ⟨h.1, ?_⟩
    intro k l hk
    simp only [step, decide_true, Bool.true_and, decide_eq_true_eq] at hk
    split at hk
    · cases hk
    · exact h.2 _ _ hk
  | expireRedis bal =>
    refine ⟨?_, h.2⟩
    intro k l hk
    simp only [step] at hk
    split at hk
    · cases hk
    · exact h.1 _ _ hk

/-- Generated ids are new. -/
def Fresh (st : State) : Ev → Prop
  | .create _ m => m.id ∉ st.table.map (·.id)
  | _ => True

theorem step_table_ids {st : State} (h : (st.table.map (·.id)).Nodup) {e : Ev} (hf : Fresh st e) :
    ((step st e).table.map (·.id)).Nodup := by
  cases e with
  | create q m =>
    simp only [step, insert]
    split
    · rename_i st' hs
      split at hs
      · cases hs
        show (List.map _ (st.table ++ [_])).Nodup
        rw [List.map_append, List.nodup_append]
        refine ⟨h, by simp, ?_⟩
        rintro a ha b hb rfl
        simp at hb
        subst hb
        exact hf ha
      · cases hs
    · exact h
  | update q m =>
    simp only [step, overwrite]
    split
    · rename_i st' hs
      split at hs
      · cases hs
        show (List.map _ (List.map _ st.table)).Nodup
        rw [List.map_map]
        have : (Monitor.id ∘ fun x => if x.id = m.id then { x with balanceId := m.balanceId, field := m.field, op := m.op, value := m.value } else x) = Monitor.id := by
          funext x; simp only [Function.comp]; split <;> rfl
        rw [this]; exact h
      · cases hs
    · exact h
  | delete q id =>
    simp only [step]
    split
    · exact h
    · show (List.map _ (List.filter _ st.table)).Nodup
      exact (List.filter_sublist.map _).nodup h
  | post q b =>
    simp only [step, lookup]
    split
    · exact h
    · split <;> exact h
  | expireLocal => exact h
  | expireRedis => exact h

/-- An execution all of whose events satisfy a condition in the state they meet. -/
def Along (P : State → Ev → Prop) : State → List Ev → Prop
  | _, [] => True
  | st, e :: es => P st e ∧ Along P (step st e) es

/-- Requests whose threshold is a whole number of minor units in range, no equality, no change of
value; served by one process. -/
def Good (p : Nat) (st : State) (e : Ev) : Prop :=
  Plain p st e ∧ Fresh st e ∧
  (match e with
   | .create _ m => Whole m ∧ m.op ≠ "="
   | .update _ m => (∀ x ∈ st.table, x.id = m.id → x.value = m.value) ∧ m.op ≠ "="
   | _ => True)

structure Ok (p : Nat) (st : State) : Prop where
  coherent : Coherent p st
  ids : (st.table.map (·.id)).Nodup
  exact : ∀ m ∈ st.table, Exact m ∧ m.op ≠ "="

theorem step_ok {p : Nat} {st : State} (h : Ok p st) {e : Ev} (he : Good p st e) : Ok p (step st e) := by
  obtain ⟨h1, h2, h3⟩ := he
  refine ⟨step_coherent h.coherent h.ids h1, step_table_ids h.ids h2, ?_⟩
  cases e with
  | create q m =>
    simp only [step, insert]
    split
    · rename_i st' hs
      split at hs
      · cases hs
        intro x hx
        rcases List.mem_append.1 hx with hx | hx
        · exact h.exact x hx
        · simp at hx
          subst hx
          obtain ⟨⟨n, hn, hr⟩, hop⟩ := h3
          refine ⟨?_, hop⟩
          show ((toInt64 (m.value * m.precision) : Int) : Rat) = m.value * m.precision
          rw [hn, toInt64_int n hr]
      · cases hs
    · exact h.exact
  | update q m =>
    simp only [step, overwrite]
    split
    · rename_i st' hs
      split at hs
      · cases hs
        intro y hy
        obtain ⟨x, hx, rfl⟩ := List.mem_map.1 hy
        split
        · rename_i e
          refine ⟨?_, h3.2⟩
          show (x.precise : Rat) = m.value * x.precision
          rw [← h3.1 x hx e]; exact (h.exact x hx).1
        · exact h.exact x hx
      · cases hs
    · exact h.exact
  | delete q id =>
    simp only [step]
    split
    · exact h.exact
    · intro x hx
      exact h.exact x (List.mem_filter.1 hx).1
  | post q b =>
    simp only [step, lookup]
    split
    · exact h.exact
    · split <;> exact h.exact
  | expireLocal => exact h.exact
  | expireRedis => exact h.exact

theorem exec_ok {p : Nat} {es : List Ev} : ∀ {st : State}, Ok p st → Along (Good p) st es → Ok p (exec st es) := by
  induction es with
  | nil => intro st h _; exact h
  | cons e es ih => intro st h ha; exact ih (step_ok h ha.1) ha.2

theorem init_ok (p : Nat) : Ok p {} := ⟨⟨by simp, by simp⟩, by simp, by simp⟩

/-- **C52**, end to end. Through every sequence of creations, updates, deletions, postings and cache
expiries, a posting notifies exactly the monitors stored for its balance whose condition - figure,
operator, `value × precision` - holds. For one process, whole thresholds, and requests that neither
use `=` nor change a monitor's value or balance; what goes wrong otherwise is proved below. -/
theorem c52_partial (p : Nat) (es : List Ev) (h : Along (Good p) {} es) (b : Balance) (m : Monitor) :
    m ∈ fired (exec {} es) p b ↔ m ∈ (exec {} es).table ∧ m.balanceId = b.id ∧ Meets m b := by
  have hok := exec_ok (init_ok p) h
  obtain ⟨_, h2, _⟩ := lookup_coherent hok.coherent b.id
  unfold fired
  rw [h2, List.mem_filter, stored, List.mem_filter]
  constructor
  · rintro ⟨⟨hm, hb⟩, hc⟩
    obtain ⟨_, v, hv, hr⟩ := (c52_check_exact m b).1 hc
    refine ⟨hm, by simpa using hb, v, hv, ?_⟩
    rw [← (hok.exact m hm).1]; exact hr
  · rintro ⟨hm, hb, v, hv, hr⟩
    refine ⟨⟨hm, by simpa using hb⟩, (c52_check_exact m b).2 ⟨(hok.exact m hm).2, v, hv, ?_⟩⟩
    rw [show (m.precise : Rat) = m.value * m.precision from (hok.exact m hm).1]; exact hr

def low : Monitor := { id := "m1", balanceId := "b", field := "balance", op := "<", value := 5, precision := 100, precise := 0 }
def account (n : Int) : Balance := { id := "b", balance := n }

/-- Create, post, retarget the same monitor, post again, delete. -/
def usual : List Ev := [.create 0 low, .post 0 (account 700), .update 0 { low with op := "<=" }, .expireRedis "b",
  .post 0 (account 500), .create 0 { low with id := "m2", field := "credit_balance", op := "!=" }]

theorem usual_good : Along (Good 0) {} usual := by
  have e : (({} : State).table.map (·.id)) = [] := rfl
  refine ⟨⟨rfl, ?_, ⟨500, by decide +kernel, by decide, by decide⟩, by decide⟩, ⟨rfl, trivial, trivial⟩,
    ⟨⟨rfl, ?_⟩, trivial, ?_, by decide⟩, ⟨trivial, trivial, trivial⟩, ⟨rfl, trivial, trivial⟩,
    ⟨rfl, ?_, ⟨500, by decide +kernel, by decide, by decide⟩, by decide⟩, trivial⟩
  · show "m1" ∉ _
    decide +kernel
  · intro x hx _
    have : (x.balanceId = "b") := by
      have := List.all_eq_true.1 (show ((step (step {} (.create 0 low)) (.post 0 (account 700))).table.all (fun x => x.balanceId = "b")) = true
        by decide +kernel) x hx
      simpa using this
    exact this
  · intro x hx _
    have := List.all_eq_true.1 (show ((step (step {} (.create 0 low)) (.post 0 (account 700))).table.all (fun x => x.value = 5)) = true
      by decide +kernel) x hx
    simpa [low] using this
  · show "m2" ∉ _
    decide +kernel

example : (fired (exec {} usual) 0 (account 500)).map (·.id) = ["m1", "m2"] ∧
    (fired (exec {} usual) 0 (account 501)).map (·.id) = ["m2"] := by decide +kernel

/-! ### What goes wrong: equality -/

/-- **C52** fails for equality: every monitor the table accepts with an equality never fires (`=` is
not an operator of the check), and the spelling the check understands, `==`, is not accepted. -/
theorem c52_equality_never_fires (m : Monitor) (hs : storable m = true) (hne : m.op ∉ [">", "<", ">=", "<=", "!="])
    (b : Balance) : check m b = false := by
  apply c52_unknown_operator_never_fires
  intro hm
  have hop : m.op = "==" := by
    simp only [List.mem_cons, List.not_mem_nil, or_false] at hm hne
    rcases hm with h | h | h | h | h | h
    · exact h
    all_goals exact (hne (by simp [h])).elim
  unfold storable at hs
  rw [hop] at hs
  simp [operators] at hs

def C52Full : Prop := ∀ (es : List Ev) (p : Nat) (b : Balance) (m : Monitor),
  Along (fun st e => Plain p st e ∧ Fresh st e) {} es →
  (m ∈ fired (exec {} es) p b ↔ m ∈ (exec {} es).table ∧ m.balanceId = b.id ∧ Meets m b)

def exactly : Monitor := { low with op := "=", precise := 500 }

theorem c52_full_fails : ¬ C52Full := by
  intro h
  have h1 := (h [.create 0 exactly] 0 (account 500) exactly ⟨⟨rfl, by show "m1" ∉ _; decide +kernel⟩, trivial⟩).2
    ⟨by decide +kernel, rfl, 500, rfl, by
      have : exactly.value * exactly.precision = ((500 : Int) : Rat) := by decide +kernel
      rw [this]; exact .eq⟩
  exact absurd h1 (by decide +kernel)

/-- A fractional threshold cannot be stored at all: `value` is an integer column. -/
theorem c52_fraction_refused (st : State) (m : Monitor) (h : m.value.den ≠ 1) : insert st m = none := by
  unfold insert
  have : storable { m with precise := toInt64 (m.value * m.precision) } = false := by
    unfold storable
    simp [h]
  simp [this]

/-- Neither can a threshold of zero: "tell me when the balance is negative" is refused. -/
theorem c52_zero_refused (st : State) (m : Monitor) (h : m.value = 0) : insert st m = none := by
  unfold insert
  have : validRequest { m with precise := toInt64 (m.value * m.precision) } = false := by
    unfold validRequest
    simp [h]
  simp [this]

/-! ### C72: changes take effect -/

/-- **C72**, creation and deletion, for one process: after a monitor was created or deleted, the next
posting is judged by the table as it is then. A special case of `Coherent`. -/
theorem c72_create_delete (p : Nat) (es : List Ev) (h : Along (fun st e => Plain p st e ∧ Fresh st e) {} es) (b : Balance) :
    fired (exec {} es) p b = ((exec {} es).table.filter (fun m => m.balanceId = b.id)).filter (fun m => check m b) := by
  have main : ∀ (es : List Ev) (st : State), Coherent p st → (st.table.map (·.id)).Nodup →
      Along (fun st e => Plain p st e ∧ Fresh st e) st es → Coherent p (exec st es) := by
    intro es
    induction es with
    | nil => intro st h _ _; exact h
    | cons e es ih =>
      intro st hc hi ha
      exact ih _ (step_coherent hc hi ha.1.1) (step_table_ids hi ha.1.2) ha.2
  have hc := main es {} ⟨by simp, by simp⟩ (by simp) h
  unfold fired
  rw [(lookup_coherent hc b.id).2.1]; rfl

/-- The full claim: after an update was accepted, whoever posts next, the monitors notified are those
the table holds and they are judged by the threshold asked for last. -/
def C72Full : Prop := ∀ (es : List Ev) (p : Nat) (b : Balance) (m : Monitor), m ∈ fired (exec {} es) p b ↔
  m ∈ (exec {} es).table ∧ m.balanceId = b.id ∧ m.op ≠ "=" ∧ Meets m b

/-- **C72** fails for thresholds: an accepted update never changes the threshold the check uses. -/
theorem c72_update_keeps_threshold (st : State) (m : Monitor) (st' : State) (h : overwrite st m = some st') :
    ∀ y ∈ st'.table, ∃ x ∈ st.table, x.id = y.id ∧ y.precise = x.precise ∧ y.precision = x.precision := by
  unfold overwrite at h
  split at h
  · cases h
    intro y hy
    obtain ⟨x, hx, rfl⟩ := List.mem_map.1 hy
    refine ⟨x, hx, ?_⟩
    split <;> simp
  · cases h

/-- Raise the threshold from 5.00 to 10.00: the table says 10, a balance of 7.00 does not notify. -/
theorem c72_threshold_fails : let st := exec {} [.create 0 low, .update 0 { low with value := 10 }]
    st.table.map (fun m => (m.value, m.precision, m.precise)) = [(10, 100, 500)] ∧ fired st 0 (account 700) = [] := by
  decide +kernel

theorem c72_full_fails : ¬ C72Full := by
  intro h
  have h1 := (h [.create 0 low, .update 0 { low with value := 10 }] 0 (account 700) { low with value := 10, precise := 500 }).2
    ⟨by decide +kernel, rfl, by decide, 700, rfl, by
      refine .lt ?_
      show ((700 : Int) : Rat) < (10 : Rat) * 100
      decide +kernel⟩
  exact absurd h1 (by decide +kernel)

/-- Moved to another balance, the monitor still notifies for the old one: only the new balance's cache
entry is dropped. -/
theorem c72_moved_fails :
    let st := exec {} [.create 0 low, .post 0 (account 700), .update 0 { low with balanceId := "c" }]
    st.table.map (·.balanceId) = ["c"] ∧ (fired st 0 (account 100)).map (·.id) = ["m1"] := by decide +kernel

/-- Another process keeps notifying from its local copy after a deletion, and keeps missing a new
monitor. -/
theorem c72_other_process_fails :
    (let st := exec {} [.create 0 low, .post 1 (account 700), .delete 0 "m1"]
     st.table = [] ∧ (fired st 1 (account 100)).map (·.id) = ["m1"] ∧ fired st 0 (account 100) = []) ∧
    (let st := exec {} [.post 1 (account 700), .create 0 low]
     st.table.map (·.id) = ["m1"] ∧ fired st 1 (account 100) = [] ∧ (fired st 0 (account 100)).map (·.id) = ["m1"]) := by
  decide +kernel

/-- One process, one posting overlapping a creation: what the posting read before the creation is put
into the cache after it, and the new monitor is missed until the entry expires. -/
theorem c72_race_fails :
    let st0 : State := {}
    let read := stored st0 "b"
    let st := fill (exec st0 [.create 0 low]) 0 "b" read
    st.table.map (·.id) = ["m1"] ∧ fired st 0 (account 100) = [] := by decide +kernel

end Blnk.Mon
