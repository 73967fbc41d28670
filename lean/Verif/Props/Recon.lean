import Verif.Model.Recon
import Verif.Props.Paging
/-
C58: one-to-one reconciliation finds what its rules allow. C74: it pairs records and transactions.
-/
namespace Blnk.Recon

/-- What a criterion asks of an external record and an internal transaction. -/
def Criterion.Asks (x : Text) (c : Criterion) (e t : Rec) : Prop :=
  match c.field, c.operator with
  | .amount, .equals => t.amount - Rat.size t.amount * c.drift ≤ e.amount ∧ e.amount ≤ t.amount + Rat.size t.amount * c.drift
  | .amount, .greaterThan => t.amount < e.amount
  | .amount, .lessThan => e.amount < t.amount
  | .amount, .contains => False
  | .date, .equals => t.date - c.drift ≤ e.date ∧ e.date ≤ t.date + c.drift
  | .date, .greaterThan => t.date < e.date
  | .date, .lessThan => e.date < t.date
  | .date, .contains => False
  | .description, .equals => ∃ p ∈ x.parts t.description, x.same e.description p = true
  | .description, .contains => ∃ p ∈ x.parts t.description, x.near c.drift e.description p = true
  | .reference, .equals => ∃ p ∈ x.parts t.reference, x.same e.reference p = true
  | .reference, .contains => ∃ p ∈ x.parts t.reference, x.near c.drift e.reference p = true
  | .currency, .equals => t.currency = "MIXED" ∨ ∃ p ∈ x.parts t.currency, x.same e.currency p = true
  | .currency, .contains => t.currency = "MIXED" ∨ ∃ p ∈ x.parts t.currency, x.near c.drift e.currency p = true
  | .currency, _ => t.currency = "MIXED"
  | _, _ => False

/-- A rule holds of a record and a transaction if all its criteria do. -/
def Rule.Holds (x : Text) (r : Rule) (e t : Rec) : Prop := ∀ c ∈ r.criteria, c.Asks x e t

theorem dist_le {a b d : Rat} : Rat.dist a b ≤ d ↔ b - d ≤ a ∧ a ≤ b + d := by
  unfold Rat.dist
  split <;> constructor <;> intro h <;> (try constructor) <;> grind

theorem size_nonneg (a : Rat) : 0 ≤ Rat.size a := by
  unfold Rat.size; split <;> grind

theorem meets_iff {x : Text} {c : Criterion} {e t : Rec} : meets x c e t = true ↔ c.Asks x e t := by
  obtain ⟨f, o, d⟩ := c
  cases f <;> cases o <;>
    simp [meets, Criterion.Asks, matchesAmount, matchesDate, matchesString, matchesCurrency, dist_le]

theorem matchesRules_iff {x : Text} {rules : List Rule} {e t : Rec} : matchesRules x rules e t = true ↔ ∃ r ∈ rules, r.Holds x e t := by
  simp [matchesRules, List.any_eq_true, List.all_eq_true, meets_iff, Rule.Holds]

/-- An interval contains another. -/
def Wider (b : Option (Rat × Rat)) (lo hi : Rat) : Prop := ∃ l h, b = some (l, h) ∧ l ≤ lo ∧ hi ≤ h

theorem widen_self (b : Option (Rat × Rat)) (lo hi : Rat) : Wider (widen b lo hi) lo hi := by
  unfold widen
  split
  · exact ⟨_, _, rfl, by grind, by grind⟩
  · exact ⟨_, _, rfl, by split <;> grind, by split <;> grind⟩

theorem widen_keeps {b : Option (Rat × Rat)} {lo hi : Rat} (l' h' : Rat) (h : Wider b lo hi) : Wider (widen b l' h') lo hi := by
  obtain ⟨l, hh, rfl, h1, h2⟩ := h
  unfold widen
  exact ⟨_, _, rfl, by split <;> grind, by split <;> grind⟩

theorem amountBounds_keeps {e : Rec} {lo hi : Rat} : ∀ {cs : List Criterion} {b : Option (Rat × Rat)}, Wider b lo hi → Wider (amountBounds e cs b) lo hi := by
  intro cs
  induction cs with
  | nil => intro b h; exact h
  | cons c cs ih =>
    intro b h
    rw [amountBounds]
    split
    · exact ih (widen_keeps _ _ h)
    · exact ih h

theorem amountBounds_mem {e : Rec} {c : Criterion} (hf : c.field = .amount) (ho : c.operator = .equals) : ∀ {cs : List Criterion} {b : Option (Rat × Rat)},
    c ∈ cs → Wider (amountBounds e cs b) (e.amount - Rat.size e.amount * c.drift) (e.amount + Rat.size e.amount * c.drift) := by
  intro cs
  induction cs with
  | nil => intro b h; cases h
  | cons d cs ih =>
    intro b h
    rw [amountBounds]
    rcases List.mem_cons.1 h with rfl | h
    · rw [if_pos ⟨hf, ho⟩]; exact amountBounds_keeps (widen_self _ _ _)
    · split <;> exact ih h

theorem amountBounds_none {e : Rec} : ∀ {cs : List Criterion} {b : Option (Rat × Rat)}, (∀ c ∈ cs, ¬ (c.field = .amount ∧ c.operator = .equals)) →
    amountBounds e cs b = b := by
  intro cs
  induction cs with
  | nil => intro b _; rfl
  | cons d cs ih =>
    intro b h
    rw [amountBounds, if_neg (h d (by simp))]
    exact ih (fun c hc => h c (by simp [hc]))

theorem dateBounds_keeps {e : Rec} {lo hi : Rat} : ∀ {cs : List Criterion} {b : Option (Rat × Rat)}, Wider b lo hi → Wider (dateBounds e cs b) lo hi := by
  intro cs
  induction cs with
  | nil => intro b h; exact h
  | cons c cs ih =>
    intro b h
    rw [dateBounds]
    split
    · exact ih (widen_keeps _ _ h)
    · exact ih h

theorem dateBounds_mem {e : Rec} {c : Criterion} (hf : c.field = .date) (ho : c.operator = .equals) : ∀ {cs : List Criterion} {b : Option (Rat × Rat)},
    c ∈ cs → Wider (dateBounds e cs b) (e.date - (c.drift.floor : Rat)) (e.date + (c.drift.floor : Rat)) := by
  intro cs
  induction cs with
  | nil => intro b h; cases h
  | cons d cs ih =>
    intro b h
    rw [dateBounds]
    rcases List.mem_cons.1 h with rfl | h
    · rw [if_pos ⟨hf, ho⟩]; exact dateBounds_keeps (widen_self _ _ _)
    · split <;> exact ih h

theorem dateBounds_none {e : Rec} : ∀ {cs : List Criterion} {b : Option (Rat × Rat)}, (∀ c ∈ cs, ¬ (c.field = .date ∧ c.operator = .equals)) →
    dateBounds e cs b = b := by
  intro cs
  induction cs with
  | nil => intro b _; rfl
  | cons d cs ih =>
    intro b h
    rw [dateBounds, if_neg (h d (by simp))]
    exact ih (fun c hc => h c (by simp [hc]))

theorem within_of_wider {b : Option (Rat × Rat)} {lo hi v : Rat} (h : Wider b lo hi) (h1 : lo ≤ v) (h2 : v ≤ hi) : within b v = true := by
  obtain ⟨l, hh, rfl, h3, h4⟩ := h
  simp only [within, Bool.and_eq_true, decide_eq_true_eq]
  exact ⟨by grind, by grind⟩

/-- The amount of this transaction cannot keep it from being looked at for this rule: no rule asks for
equal amounts, or this one does and the transaction is not larger than the record, or not by more
than the drift allows counted from the record's amount. -/
def AmountSeen (rules : List Rule) (r : Rule) (e t : Rec) : Prop :=
  (∀ r' ∈ rules, ∀ c ∈ r'.criteria, ¬ (c.field = .amount ∧ c.operator = .equals)) ∨
    ∃ c ∈ r.criteria, c.field = .amount ∧ c.operator = .equals ∧ 0 ≤ c.drift ∧
      (Rat.size t.amount ≤ Rat.size e.amount ∨ Rat.dist e.amount t.amount ≤ Rat.size e.amount * c.drift)

/-- The same of its date: no rule asks for equal dates, or this one does with a drift of whole seconds. -/
def DateSeen (rules : List Rule) (r : Rule) : Prop :=
  (∀ r' ∈ rules, ∀ c ∈ r'.criteria, ¬ (c.field = .date ∧ c.operator = .equals)) ∨
    ∃ c ∈ r.criteria, c.field = .date ∧ c.operator = .equals ∧ (c.drift.floor : Rat) = c.drift

/-- The same of its currency. -/
def CurrencySeen (e t : Rec) : Prop := e.currency = "" ∨ t.currency = e.currency

theorem selects_of_seen {x : Text} {rules : List Rule} {r : Rule} {e t : Rec} (hr : r ∈ rules) (hh : r.Holds x e t)
    (ha : AmountSeen rules r e t) (hd : DateSeen rules r) (hc : CurrencySeen e t) : selects rules e t = true := by
  have hmem : ∀ c ∈ r.criteria, c ∈ criteriaOf rules := fun c hc => List.mem_flatMap.2 ⟨r, hr, hc⟩
  have hall : ∀ P : Criterion → Prop, (∀ r' ∈ rules, ∀ c ∈ r'.criteria, P c) → ∀ c ∈ criteriaOf rules, P c := by
    intro P h c hc
    obtain ⟨r', h1, h2⟩ := List.mem_flatMap.1 hc
    exact h r' h1 c h2
  have h1 : within (amountBounds e (criteriaOf rules) none) t.amount = true := by
    rcases ha with h | ⟨c, hcm, hf, ho, hd0, hcase⟩
    · rw [amountBounds_none (hall _ h)]; rfl
    · have hw := amountBounds_mem (e := e) (b := none) hf ho (hmem c hcm)
      have hs := hh c hcm
      obtain ⟨f, o, d⟩ := c
      simp only at hf ho hd0 hcase hw
      subst hf ho
      simp only [Criterion.Asks] at hs
      have hbound : Rat.dist e.amount t.amount ≤ Rat.size e.amount * d := by
        rcases hcase with h | h
        · have : Rat.dist e.amount t.amount ≤ Rat.size t.amount * d := dist_le.2 hs
          have h2 : Rat.size t.amount * d ≤ Rat.size e.amount * d := Rat.mul_le_mul_of_nonneg_right h hd0
          exact Rat.le_trans this h2
        · exact h
      have := dist_le.1 hbound
      exact within_of_wider hw (by grind) (by grind)
  have h2 : within (dateBounds e (criteriaOf rules) none) t.date = true := by
    rcases hd with h | ⟨c, hcm, hf, ho, hfl⟩
    · rw [dateBounds_none (hall _ h)]; rfl
    · have hw := dateBounds_mem (e := e) (b := none) hf ho (hmem c hcm)
      have hs := hh c hcm
      obtain ⟨f, o, d⟩ := c
      simp only at hf ho hfl hw
      subst hf ho
      simp only [Criterion.Asks] at hs
      rw [hfl] at hw
      exact within_of_wider hw (by grind) (by grind)
  unfold selects
  rw [h1, h2]
  rcases hc with h | h <;> simp [h]

/-- Internal transactions are only added while a record is looked at. -/
def Grows (q : Nat → List Rec) : Prop := ∀ k, (q k).Sublist (q (k + 1))

theorem grows_sublist {q : Nat → List Rec} (h : Grows q) (p : Rec → Bool) (k : Nat) : ((q k).filter p).Sublist ((q (k + 1)).filter p) := (h k).filter p

/-- **C58 as stated.** -/
def C58Full : Prop := ∀ (x : Text) (size workers : Nat) (rules : List Rule) (q : Nat → List Rec) (e : Rec) (o : Outcome),
  0 < size → 0 < workers → (∀ r ∈ rules, r.ok = true) → Grows q → OneToOne x size workers rules q e o →
    e.id ∈ o.unmatched → ∀ t ∈ q 0, ∀ r ∈ rules, ¬ r.Holds x e t

/-- **C58, for the transactions its bounds let it look at.** If every page could be read, a record
reported unmatched satisfies no rule with any internal transaction that was there at the start,
is in the record's currency, and whose amount and date are seen. -/
theorem c58_unmatched_partial {x : Text} {size workers : Nat} {rules : List Rule} {q : Nat → List Rec} {e : Rec} {o : Outcome} {rows : List Rec}
    (hs : 0 < size) (hw : 0 < workers) (hg : Grows q)
    (hwalk : Paging.Walk size (fun k => (q k).filter (selects rules e)) 0 0 rows)
    (ho : o = verdict x workers rules e rows)
    (hu : e.id ∈ o.unmatched) {t : Rec} (ht : t ∈ q 0) {r : Rule} (hr : r ∈ rules)
    (ha : AmountSeen rules r e t) (hd : DateSeen rules r) (hc : CurrencySeen e t) : ¬ r.Holds x e t := by
  intro hh
  have hsel := selects_of_seen hr hh ha hd hc
  have hcov := Paging.walk_covers hs (fun k => grows_sublist hg (selects rules e) k) hwalk
  have hmem : t ∈ rows := hcov t (by simpa using ⟨ht, hsel⟩)
  have hm : matchesRules x rules e t = true := matchesRules_iff.2 ⟨r, hr, hh⟩
  have hf : t ∈ rows.filter (matchesRules x rules e) := List.mem_filter.2 ⟨hmem, hm⟩
  have hne : (reported x workers rules e rows).isEmpty = false := by
    unfold reported
    cases hfl : rows.filter (matchesRules x rules e) with
    | nil => rw [hfl] at hf; cases hf
    | cons a l =>
      cases workers with
      | zero => omega
      | succ w => rfl
  rw [ho, verdict, hne] at hu
  simp at hu

/-- Rules that lose nothing: all of them ask for exactly equal amounts or none does; all ask for equal
dates within whole seconds or none does. -/
def Exact (rules : List Rule) : Prop :=
  ((∀ r ∈ rules, ∀ c ∈ r.criteria, ¬ (c.field = .amount ∧ c.operator = .equals)) ∨
    ∀ r ∈ rules, ∃ c ∈ r.criteria, c.field = .amount ∧ c.operator = .equals ∧ c.drift = 0) ∧
  ((∀ r ∈ rules, ∀ c ∈ r.criteria, ¬ (c.field = .date ∧ c.operator = .equals)) ∨
    ∀ r ∈ rules, ∃ c ∈ r.criteria, c.field = .date ∧ c.operator = .equals ∧ (c.drift.floor : Rat) = c.drift)

/-- **C58, for exact rules**: whatever the amounts, a record reported unmatched satisfies no rule with
any transaction of its currency. -/
theorem c58_exact_rules_partial {x : Text} {size workers : Nat} {rules : List Rule} {q : Nat → List Rec} {e : Rec} {o : Outcome} {rows : List Rec}
    (hs : 0 < size) (hw : 0 < workers) (hg : Grows q) (hx : Exact rules)
    (hwalk : Paging.Walk size (fun k => (q k).filter (selects rules e)) 0 0 rows)
    (ho : o = verdict x workers rules e rows)
    (hu : e.id ∈ o.unmatched) {t : Rec} (ht : t ∈ q 0) (hc : CurrencySeen e t) {r : Rule} (hr : r ∈ rules) : ¬ r.Holds x e t := by
  intro hh
  refine c58_unmatched_partial hs hw hg hwalk ho hu ht hr ?_ ?_ hc hh
  · rcases hx.1 with h | h
    · exact .inl h
    · obtain ⟨c, hcm, hf, hop, h0⟩ := h r hr
      refine .inr ⟨c, hcm, hf, hop, by rw [h0]; exact Rat.le_refl, .inr ?_⟩
      have hs' := hh c hcm
      obtain ⟨f, o', d⟩ := c
      simp only at hf hop h0
      subst hf hop h0
      simp only [Criterion.Asks] at hs'
      rw [dist_le]
      simp only [Rat.mul_zero] at hs' ⊢
      exact hs'
  · rcases hx.2 with h | h
    · exact .inl h
    · exact .inr (h r hr)

theorem cut_mem {α : Type} {size : Nat} {q : Nat → List α} {k off : Nat} {rows : List α} (h : Cut size q k off rows) : ∀ {t : α}, t ∈ rows → ∃ n, t ∈ q n := by
  induction h with
  | fail => intro t ht; cases ht
  | @next k off out _ _ ih =>
    intro t ht
    rcases List.mem_append.1 ht with h | h
    · exact ⟨k, List.mem_of_mem_drop (List.mem_of_mem_take h)⟩
    · exact ih h

theorem walk_mem {α : Type} {size : Nat} {q : Nat → List α} {k off : Nat} {rows : List α} (h : Paging.Walk size q k off rows) : ∀ {t : α}, t ∈ rows → ∃ n, t ∈ q n := by
  induction h with
  | stop => intro t ht; cases ht
  | @next k off out _ _ ih =>
    intro t ht
    rcases List.mem_append.1 ht with h | h
    · exact ⟨k, List.mem_of_mem_drop (List.mem_of_mem_take h)⟩
    · exact ih h

theorem reported_mem {x : Text} {workers : Nat} {rules : List Rule} {e : Rec} {rows : List Rec} {m : Match} (h : m ∈ reported x workers rules e rows) :
    ∃ t ∈ rows, m = { external := e.id, internal := t.id, amount := e.amount, date := e.date } ∧ ∃ r ∈ rules, r.Holds x e t := by
  unfold reported at h
  obtain ⟨t, ht, rfl⟩ := List.mem_map.1 h
  have := List.mem_filter.1 (List.mem_of_mem_take ht)
  exact ⟨t, this.1, rfl, matchesRules_iff.1 this.2⟩

/-- **C58, the other direction**: every reported match is of this record and an internal transaction
that satisfy one of the rules, also when a page could not be read. -/
theorem c58_matches_hold {x : Text} {size workers : Nat} {rules : List Rule} {q : Nat → List Rec} {e : Rec} {o : Outcome}
    (h : OneToOne x size workers rules q e o) {m : Match} (hm : m ∈ o.matched) :
    m.external = e.id ∧ m.amount = e.amount ∧ ∃ n, ∃ t ∈ q n, m.internal = t.id ∧ ∃ r ∈ rules, r.Holds x e t := by
  cases h with
  | done hw =>
    obtain ⟨t, ht, rfl, hr⟩ := reported_mem hm
    obtain ⟨n, hn⟩ := walk_mem hw ht
    exact ⟨rfl, rfl, n, t, (List.mem_filter.1 hn).1, rfl, hr⟩
  | lost hc =>
    obtain ⟨t, ht, rfl, hr⟩ := reported_mem hm
    obtain ⟨n, hn⟩ := cut_mem hc ht
    exact ⟨rfl, rfl, n, t, (List.mem_filter.1 hn).1, rfl, hr⟩

/-- If every page could be read, a record is reported matched or unmatched, never both. -/
theorem c58_one_verdict_partial {x : Text} {workers : Nat} {rules : List Rule} {e : Rec} {rows : List Rec} {o : Outcome}
    (ho : o = verdict x workers rules e rows) :
    (o.matched = [] ∧ o.unmatched = [e.id]) ∨ (o.matched ≠ [] ∧ o.unmatched = []) := by
  subst ho
  unfold verdict
  cases h : reported x workers rules e rows with
  | nil => exact .inl ⟨rfl, rfl⟩
  | cons a l => exact .inr ⟨by simp, rfl⟩

/-! ### C74 -/

/-- **C74 as stated**, for the records of one run and a table that stays as it is. -/
def C74Full : Prop := ∀ (x : Text) (size workers : Nat) (rules : List Rule) (table : List Rec) (es : List (Rec × Outcome)),
  0 < size → 0 < workers → (∀ r ∈ rules, r.ok = true) → (es.map (·.1.id)).Nodup → (table.map (·.id)).Nodup →
    (∀ p ∈ es, OneToOne x size workers rules (fun _ => table) p.1 p.2) →
      ((es.flatMap (·.2.matched)).map (·.external)).Nodup ∧ ((es.flatMap (·.2.matched)).map (·.internal)).Nodup

/-- **C74, what is true**: a record is matched at most as often as there are workers. -/
theorem c74_at_most_workers_partial {x : Text} {size workers : Nat} {rules : List Rule} {q : Nat → List Rec} {e : Rec} {o : Outcome}
    (h : OneToOne x size workers rules q e o) : o.matched.length ≤ workers := by
  have : ∀ rows, (reported x workers rules e rows).length ≤ workers := by
    intro rows; unfold reported; simp only [List.length_map, List.length_take]; omega
  cases h <;> exact this _

/-- **C74 for unambiguous records**: if at most one transaction satisfies the rules, the record is
matched at most once, however many workers there are. -/
theorem c74_unambiguous_partial {x : Text} {size workers : Nat} (hs : 0 < size) {rules : List Rule} {table : List Rec} {e : Rec} {o : Outcome}
    (hn : table.Nodup) (h1 : ∀ t ∈ table, ∀ u ∈ table, (∃ r ∈ rules, r.Holds x e t) → (∃ r ∈ rules, r.Holds x e u) → t = u)
    {rows : List Rec} (hwalk : Paging.Walk size (fun _ => table.filter (selects rules e)) 0 0 rows)
    (ho : o = verdict x workers rules e rows) :
    o.matched.length ≤ 1 := by
  have hrows := Paging.walk_fixed hs (q := fun _ => table.filter (selects rules e)) (fun _ => rfl) hwalk
  simp only [List.drop_zero] at hrows
  subst ho hrows
  have hnd : ((table.filter (selects rules e)).filter (matchesRules x rules e)).Nodup := (hn.filter _).filter _
  have hall : ∀ t ∈ (table.filter (selects rules e)).filter (matchesRules x rules e), ∀ u ∈ (table.filter (selects rules e)).filter (matchesRules x rules e), t = u := by
    intro t ht u hu
    have ht := List.mem_filter.1 ht
    have hu := List.mem_filter.1 hu
    exact h1 t (List.mem_filter.1 ht.1).1 u (List.mem_filter.1 hu.1).1 (matchesRules_iff.1 ht.2) (matchesRules_iff.1 hu.2)
  unfold verdict reported
  simp only [List.length_map, List.length_take]
  cases hl : (table.filter (selects rules e)).filter (matchesRules x rules e) with
  | nil => simp
  | cons a l =>
    cases l with
    | nil => simp; omega
    | cons b l =>
      rw [hl] at hall hnd
      have := hall a (by simp) b (by simp)
      simp [this] at hnd

/-! ### Cases -/

theorem walk_all (size : Nat) (l : List Rec) (hs : 0 < size) : Paging.Walk size (fun _ => l) 0 0 l := by
  obtain ⟨out, h⟩ := Paging.walk_exists (size := size) l l.length 0 0 (by omega)
  have := Paging.walk_fixed hs (q := fun _ => l) (fun _ => rfl) h
  simp only [List.drop_zero] at this
  subst this
  exact h

theorem oneToOne_fixed (x : Text) (size workers : Nat) (hs : 0 < size) (rules : List Rule) (table : List Rec) (e : Rec) :
    OneToOne x size workers rules (fun _ => table) e (verdict x workers rules e (table.filter (selects rules e))) :=
  .done (walk_all size _ hs)

theorem grows_fixed (table : List Rec) : Grows (fun _ => table) := fun _ => List.Sublist.refl _

instance (x : Text) (c : Criterion) (e t : Rec) : Decidable (c.Asks x e t) := decidable_of_iff _ meets_iff

instance (x : Text) (r : Rule) (e t : Rec) : Decidable (r.Holds x e t) :=
  inferInstanceAs (Decidable (∀ c ∈ r.criteria, c.Asks x e t))

/-- Amounts within a half of each other. -/
def half : Rule := { name := "half", criteria := [{ field := .amount, operator := .equals, drift := 1 / 2 }] }
/-- Equal amounts on the same day. -/
def exactDay : Rule := { name := "exact", criteria := [{ field := .amount, operator := .equals }, { field := .date, operator := .equals, drift := 86400 }] }
def byReference : Rule := { name := "reference", criteria := [{ field := .reference, operator := .equals }] }
def nearly : Rule := { name := "soon", criteria := [{ field := .date, operator := .equals, drift := 9 / 10 }] }
def byCurrency : Rule := { name := "currency", criteria := [{ field := .reference, operator := .equals }, { field := .currency, operator := .equals }] }

def bank : Rec := { id := "e1", amount := 100, date := 1000, reference := "inv-7" }
def booked : List Rec :=
  [{ id := "t1", amount := 100, date := 90000, reference := "other" }, { id := "t2", amount := 100, date := 2000, reference := "inv-7" },
    { id := "t3", amount := 60, date := 1000, reference := "x" }]

/-- The hypotheses of `c58_unmatched_partial`: a record no rule fits, though all rows are looked at. -/
example : (verdict ascii 10 [half] { bank with amount := 300 } (booked.filter (selects [half] { bank with amount := 300 }))).unmatched = ["e1"] ∧
    booked.filter (selects [half] { bank with amount := 140 }) = booked.take 2 ∧ half.ok = true ∧ exactDay.ok = true := by decide +kernel

/-- The hypotheses of `c58_exact_rules_partial`. -/
example : Exact [exactDay] ∧ (verdict ascii 10 [exactDay] bank (booked.filter (selects [exactDay] bank))).matched.map (·.internal) = ["t2"] ∧
    (verdict ascii 10 [exactDay] { bank with date := 200000 } (booked.filter (selects [exactDay] { bank with date := 200000 }))).unmatched = ["e1"] := by
  refine ⟨⟨.inr ?_, .inr ?_⟩, by decide +kernel⟩ <;>
  · intro r hr
    simp only [List.mem_singleton] at hr
    subst hr
    decide +kernel

/-- The hypotheses of `c74_unambiguous_partial`. -/
example : booked.Nodup ∧ ∀ t ∈ booked, ∀ u ∈ booked, (∃ r ∈ [exactDay], r.Holds ascii bank t) → (∃ r ∈ [exactDay], r.Holds ascii bank u) → t = u := by
  decide +kernel

theorem c58_fails_by {rules : List Rule} {table : List Rec} {e : Rec} (ho : rules.all Rule.ok = true)
    (hu : e.id ∈ (verdict ascii 10 rules e (table.filter (selects rules e))).unmatched)
    (hh : ∃ t ∈ table, ∃ r ∈ rules, r.Holds ascii e t) : ¬ C58Full := by
  intro h
  obtain ⟨t, ht, r, hr, hh⟩ := hh
  exact h ascii 1000 10 rules (fun _ => table) e _ (by omega) (by omega) (by simpa using ho) (grows_fixed _)
    (oneToOne_fixed ascii 1000 10 (by omega) rules table e) hu t ht r hr hh

/-- **C58 fails for larger amounts**: the rule counts its drift from the transaction's amount, the query
from the record's. The rule holds of 100 and 160 (60 is within half of 160); the query stops at 150. -/
theorem c58_full_fails : ¬ C58Full :=
  c58_fails_by (rules := [half]) (table := [{ id := "t", amount := 160 }]) (e := { bank with amount := 100 }) (by decide +kernel) (by decide +kernel) (by decide +kernel)

/-- **C58 fails when one rule names the amount and another does not**: the first one's bounds apply to both. -/
theorem c58_two_rules_fail : ¬ C58Full :=
  c58_fails_by (rules := [exactDay, byReference]) (table := [{ id := "t", amount := 99, date := 1000, reference := "INV-7" }]) (e := bank)
    (by decide +kernel) (by decide +kernel) (by decide +kernel)

/-- **C58 fails for currencies written differently**: the rule ignores case, the query does not. -/
theorem c58_currency_fails : ¬ C58Full :=
  c58_fails_by (rules := [byCurrency]) (table := [{ id := "t", amount := 5, reference := "inv-7", currency := "usd" }]) (e := bank)
    (by decide +kernel) (by decide +kernel) (by decide +kernel)

/-- **C58 fails for drifts below a second**: the query drops the fraction. -/
theorem c58_subsecond_fails : ¬ C58Full :=
  c58_fails_by (rules := [nearly]) (table := [{ id := "t", amount := 5, date := 1000 + 1 / 2 }]) (e := bank)
    (by decide +kernel) (by decide +kernel) (by decide +kernel)

/-- **C58 fails when a page cannot be read**: the record is reported unmatched, and matched too if a
row of an earlier page fits. -/
theorem c58_unreadable_page_fails : ∃ o, OneToOne ascii 1 10 [exactDay] (fun _ => booked) bank o ∧ "e1" ∈ o.unmatched ∧ o.matched.map (·.internal) = ["t2"] := by
  refine ⟨_, .lost (.next (k := 0) (off := 0) (out := []) (by decide +kernel) .fail), ?_⟩
  decide +kernel

/-- **C74 fails: one record, several transactions.** Every worker reports the first match it meets. -/
theorem c74_one_record_fails : ¬ C74Full := by
  intro h
  have := (h ascii 1000 10 [byReference] [{ id := "t1", amount := 1, reference := "r" }, { id := "t2", amount := 2, reference := "r" }]
    [({ id := "e", amount := 1, reference := "r" }, verdict ascii 10 [byReference] { id := "e", amount := 1, reference := "r" }
      [{ id := "t1", amount := 1, reference := "r" }, { id := "t2", amount := 2, reference := "r" }])] (by omega) (by omega) (by decide +kernel) (by decide +kernel) (by decide +kernel)
    (by simp only [List.mem_singleton, forall_eq]; exact oneToOne_fixed ascii 1000 10 (by omega) _ _ _)).1
  revert this
  decide +kernel

/-- **C74 fails: several records, one transaction.** Nothing marks a transaction as taken. -/
theorem c74_full_fails : ¬ C74Full := by
  intro h
  have := (h ascii 1000 10 [byReference] [{ id := "t1", amount := 1, reference := "r" }]
    [({ id := "e1", amount := 1, reference := "r" }, verdict ascii 10 [byReference] { id := "e1", amount := 1, reference := "r" } [{ id := "t1", amount := 1, reference := "r" }]),
     ({ id := "e2", amount := 1, reference := "r" }, verdict ascii 10 [byReference] { id := "e2", amount := 1, reference := "r" } [{ id := "t1", amount := 1, reference := "r" }])]
    (by omega) (by omega) (by decide +kernel) (by decide +kernel) (by decide +kernel)
    (by
      simp only [List.mem_cons, List.not_mem_nil, or_false, forall_eq_or_imp, forall_eq]
      exact ⟨oneToOne_fixed ascii 1000 10 (by omega) _ _ _, oneToOne_fixed ascii 1000 10 (by omega) _ _ _⟩)).2
  revert this
  decide +kernel

end Blnk.Recon
