import Verif.Model.Metadata
/-
C56: metadata updates merge.
-/
namespace Blnk.Meta

/-- What a reader of the row sees under a key. -/
def Row.val (r : Row) (k : String) : Option String := get (r.data.getD []) k

theorem get_nil (k : String) : get [] k = none := rfl

theorem get_cons (p : String × String) (m : Obj) (k : String) : get (p :: m) k = if p.1 = k then some p.2 else get m k := by
  unfold get
  rw [List.find?_cons]
  by_cases h : p.1 = k <;> simp [h]

theorem get_put (m : Obj) (k v k' : String) : get (put m k v) k' = if k = k' then some v else get m k' := by
  induction m with
  | nil => rw [put, get_cons]
  | cons p m ih =>
    rw [put]
    by_cases h : p.1 = k
    · rw [if_pos h, get_cons, get_cons]
      dsimp only
      subst h
      by_cases h' : p.1 = k' <;> simp [h']
    · rw [if_neg h, get_cons, get_cons, ih]
      by_cases h' : p.1 = k'
      · rw [if_pos h', if_pos h', if_neg (by intro e; exact h (h'.trans e.symm))]
      · rw [if_neg h', if_neg h']

theorem get_none {m : Obj} {k : String} : get m k = none ↔ k ∉ keys m := by
  induction m with
  | nil => simp [get_nil, keys]
  | cons p m ih =>
    rw [get_cons]
    by_cases h : p.1 = k
    · simp [h, keys]
    · rw [if_neg h, ih]; simp [keys, Ne.symm h]

/-- The specification of a merge: given keys as given, the others as before. -/
def Merged (before : Option Obj) (new after : Obj) : Prop :=
  ∀ k, get after k = match get new k with
    | some v => some v
    | none => get (before.getD []) k

theorem get_putAll : ∀ (new cur : Obj) (k : String), (keys new).Nodup → get (putAll cur new) k = match get new k with
    | some v => some v
    | none => get cur k := by
  intro new
  induction new with
  | nil => intro cur k _; rfl
  | cons p new ih =>
    intro cur k hn
    obtain ⟨k0, v0⟩ := p
    have hn' : k0 ∉ keys new ∧ (keys new).Nodup := List.nodup_cons.1 hn
    rw [putAll, ih _ _ hn'.2, get_cons, get_put]
    dsimp only
    by_cases h : k0 = k
    · subst h
      rw [get_none.2 hn'.1]
      simp
    · simp [h]

theorem merge_merged (cur : Option Obj) {new : Obj} (hn : (keys new).Nodup) : Merged cur new (merge cur new) :=
  fun k => get_putAll new _ k hn

theorem get_append (a b : Obj) (k : String) : get (a ++ b) k = match get a k with
    | some v => some v
    | none => get b k := by
  induction a with
  | nil => rfl
  | cons p a ih =>
    rw [List.cons_append, get_cons, get_cons, ih]
    by_cases h : p.1 = k <;> simp [h]

theorem get_filter (m : Obj) (f : String → Bool) (k : String) : get (m.filter (fun p => f p.1)) k = if f k then get m k else none := by
  induction m with
  | nil => simp [get_nil]
  | cons p m ih =>
    by_cases hf : f p.1 = true
    · rw [List.filter_cons_of_pos (p := fun p : String × String => f p.1) hf, get_cons, get_cons, ih]
      by_cases h : p.1 = k
      · subst h; simp [hf]
      · simp [h]
    · rw [List.filter_cons_of_neg (p := fun p : String × String => f p.1) hf, ih, get_cons]
      by_cases h : p.1 = k
      · subst h; simp [hf]
      · simp [h]

theorem concat_merged (cur : Option Obj) (new : Obj) : Merged cur new (concat cur new) := by
  intro k
  unfold concat
  rw [get_append, get_filter _ (fun s => !(keys new).contains s)]
  by_cases h : k ∈ keys new
  · have : get new k ≠ none := fun hn => get_none.1 hn h
    simp only [List.contains_eq_mem, h, decide_true, Bool.not_true, Bool.false_eq_true, if_false]
    cases hg : get new k with
    | none => exact absurd hg this
    | some v => rfl
  · rw [get_none.2 h]
    simp only [List.contains_eq_mem, h, decide_false, Bool.not_false, if_true]
    cases get (cur.getD []) k <;> rfl

/-! ### One request at a time -/

/-- Which rows an update of this id concerns. -/
def Concerns (id : String) (r : Row) : Prop :=
  kindOf id = some r.kind ∧ (r.id = id ∨ (r.kind = .transactions ∧ r.parent = id))

/-- The update does not ask for a reconciliation of the balance, nor was one left pending in its
metadata. -/
def NoReconcile (id : String) (new : Obj) (r : Row) : Prop :=
  kindOf id = some .balances → get (merge r.data new) "BLNK_RUN_RECONCILIATION" ≠ some "\"SOURCE\""

/-- Two tables agree row by row. -/
def RowsRel (R : Row → Row → Prop) : List Row → List Row → Prop
  | [], [] => True
  | a :: as, b :: bs => R a b ∧ RowsRel R as bs
  | _, _ => False

theorem rowsRel_map {R : Row → Row → Prop} {f : Row → Row} : ∀ {rows : List Row}, (∀ r ∈ rows, R r (f r)) → RowsRel R rows (rows.map f) := by
  intro rows
  induction rows with
  | nil => intro _; trivial
  | cons r rows ih => intro h; exact ⟨h r (by simp), ih (fun x hx => h x (by simp [hx]))⟩

/-- The specification of one update for one row: a concerned row gets the merged metadata, any other
stays as it is. -/
def RowUpdated (id : String) (new : Obj) (r r' : Row) : Prop :=
  (r'.kind = r.kind ∧ r'.id = r.id ∧ r'.parent = r.parent) ∧
  (Concerns id r → Merged r.data new (r'.data.getD [])) ∧ (¬ Concerns id r → r' = r)

/-- Row ids are unique within a table (primary keys). -/
def Unique (rows : List Row) : Prop := rows.Pairwise fun a b => ¬ (a.kind = b.kind ∧ a.id = b.id)

theorem unique_eq {rows : List Row} (h : Unique rows) {a b : Row} (ha : a ∈ rows) (hb : b ∈ rows) (hk : a.kind = b.kind) (hi : a.id = b.id) : a = b := by
  induction rows with
  | nil => cases ha
  | cons r rows ih =>
    have h' := List.pairwise_cons.1 h
    rcases List.mem_cons.1 ha with rfl | ha' <;> rcases List.mem_cons.1 hb with rfl | hb'
    · rfl
    · exact absurd ⟨hk, hi⟩ (h'.1 b hb')
    · exact absurd ⟨hk.symm, hi.symm⟩ (h'.1 a ha')
    · exact ih h'.2 ha' hb'

theorem fire_plain {res : String} {k : Kind} {m : Obj} (h : k = .balances → get m "BLNK_RUN_RECONCILIATION" ≠ some "\"SOURCE\"") :
    fire res k m = m := by
  unfold fire
  rw [if_neg]
  intro hc
  exact h hc.1 hc.2

theorem start_ok {rows : List Row} {id : String} {rd : Read} (h : start rows id = .ok rd) :
    (kindOf id = some .transactions ∧ rd = .transactions) ∨
    ∃ k r, kindOf id = some k ∧ k ≠ .transactions ∧ r ∈ rows ∧ r.kind = k ∧ r.id = id ∧ rd = .entity k r.data := by
  unfold start at h
  split at h
  · cases h
  · rename_i hk
    split at h
    · cases h; exact .inl ⟨hk, rfl⟩
    · cases h
  · rename_i k hne hk
    split at h
    · cases h
    · rename_i r hf
      cases h
      have h1 := List.mem_of_find?_eq_some hf
      have h2 := List.find?_some hf
      simp only [Bool.and_eq_true, decide_eq_true_eq] at h2
      exact .inr ⟨k, r, hk, hne, h1, h2.1, h2.2, rfl⟩

/-- The effect of the writing half on what was read from the same table. -/
theorem finish_rows {res : String} {rows : List Row} (hu : Unique rows) {id : String} {new : Obj} (hn : (keys new).Nodup) {rd : Read}
    (hr : ∀ r ∈ rows, Concerns id r → NoReconcile id new r)
    (h : (kindOf id = some .transactions ∧ rd = .transactions) ∨
      ∃ k r, kindOf id = some k ∧ k ≠ .transactions ∧ r ∈ rows ∧ r.kind = k ∧ r.id = id ∧ rd = .entity k r.data) :
    RowsRel (RowUpdated id new) rows (finish res rows id new rd).1 := by
  rcases h with ⟨hk, rfl⟩ | ⟨k, r0, hk, hkt, h0, rfl, rfl, rfl⟩
  · apply rowsRel_map
    intro r hrm
    by_cases hc : r.kind = .transactions ∧ (r.id = id ∨ r.parent = id)
    · rw [if_pos hc]
      refine ⟨⟨rfl, rfl, rfl⟩, fun _ => concat_merged _ _, fun hnc => absurd ?_ hnc⟩
      exact ⟨by rw [hk, hc.1], hc.2.imp_right (fun h => ⟨hc.1, h⟩)⟩
    · rw [if_neg hc]
      refine ⟨⟨rfl, rfl, rfl⟩, fun hcc => absurd ?_ hc, fun _ => rfl⟩
      have : r.kind = .transactions := by have := hcc.1; rw [hk] at this; exact (Option.some.inj this).symm
      exact ⟨this, hcc.2.imp_right (·.2)⟩
  · apply rowsRel_map
    intro r hrm
    by_cases hc : r.kind = r0.kind ∧ r.id = r0.id
    · have e : r = r0 := unique_eq hu hrm h0 hc.1 hc.2
      subst e
      rw [if_pos hc]
      refine ⟨⟨rfl, rfl, rfl⟩, fun hcc => ?_, fun hnc => absurd ⟨hk, .inl rfl⟩ hnc⟩
      show Merged r.data new (fire res r.kind (merge r.data new))
      rw [fire_plain]
      · exact merge_merged _ hn
      · intro hb
        exact hr r hrm hcc (by rw [hk, hb])
    · rw [if_neg hc]
      refine ⟨⟨rfl, rfl, rfl⟩, fun hcc => absurd ?_ hc, fun _ => rfl⟩
      have hkk : r.kind = r0.kind := by have := hcc.1; rw [hk] at this; exact (Option.some.inj this).symm
      rcases hcc.2 with h | h
      · exact ⟨hkk, h⟩
      · exact absurd (hkk.symm.trans h.1) hkt

/-- **C56: an update sets exactly the given keys and keeps every other key**, on the entity, or on the transaction and
every transaction under it; no other row changes. Missing: balances whose metadata asks for a
reconciliation (`c56_reconcile_fails`), overlapping updates (`c56_lost_update`). -/
theorem c56_merges_partial {res : String} {rows rows' : List Row} {id : String} {new m : Obj} (hu : Unique rows) (hn : (keys new).Nodup)
    (hr : ∀ r ∈ rows, Concerns id r → NoReconcile id new r) (h : update res rows id new = (rows', .ok m)) :
    RowsRel (RowUpdated id new) rows rows' := by
  unfold update at h
  split at h
  · cases h
  · rename_i rd hs
    injection h with h1 h2
    subst h1
    exact finish_rows hu hn hr (start_ok hs)

/-- A refused update changes nothing. -/
theorem c56_refused {res : String} {rows rows' : List Row} {id : String} {new : Obj} {e : Err}
    (h : update res rows id new = (rows', .error e)) : rows' = rows := by
  unfold update at h
  split at h
  · injection h with h1 _; exact h1.symm
  · injection h with _ h2; cases h2

theorem rowsRel_get {R : Row → Row → Prop} : ∀ {as bs : List Row}, RowsRel R as bs → ∀ b ∈ bs, ∃ a ∈ as, R a b := by
  intro as
  induction as with
  | nil => intro bs h b hb; cases bs with
    | nil => cases hb
    | cons _ _ => exact h.elim
  | cons a as ih =>
    intro bs h b hb
    cases bs with
    | nil => exact h.elim
    | cons b0 bs =>
      rcases List.mem_cons.1 hb with rfl | hb
      · exact ⟨a, by simp, h.1⟩
      · obtain ⟨x, hx, hR⟩ := ih h.2 b hb
        exact ⟨x, by simp [hx], hR⟩

theorem rowsRel_get' {R : Row → Row → Prop} : ∀ {as bs : List Row}, RowsRel R as bs → ∀ a ∈ as, ∃ b ∈ bs, R a b := by
  intro as
  induction as with
  | nil => intro bs _ a ha; cases ha
  | cons a0 as ih =>
    intro bs h a ha
    cases bs with
    | nil => exact h.elim
    | cons b0 bs =>
      rcases List.mem_cons.1 ha with rfl | ha
      · exact ⟨b0, by simp, h.1⟩
      · obtain ⟨x, hx, hR⟩ := ih h.2 a ha
        exact ⟨x, by simp [hx], hR⟩

theorem rowsRel_unique {id : String} {new : Obj} : ∀ {as bs : List Row}, RowsRel (RowUpdated id new) as bs → Unique as → Unique bs := by
  intro as
  induction as with
  | nil => intro bs h _; cases bs with
    | nil => exact List.Pairwise.nil
    | cons _ _ => exact h.elim
  | cons a as ih =>
    intro bs h hu
    cases bs with
    | nil => exact h.elim
    | cons b bs =>
      have hu' := List.pairwise_cons.1 hu
      refine List.pairwise_cons.2 ⟨?_, ih h.2 hu'.2⟩
      intro x hx hc
      obtain ⟨y, hy, hR⟩ := rowsRel_get h.2 x hx
      refine hu'.1 y hy ?_
      rw [← h.1.1.1, ← h.1.1.2.1, ← hR.1.1, ← hR.1.2.1]
      exact hc

theorem rowsRel_trans {R S T : Row → Row → Prop} (hRST : ∀ a b c, R a b → S b c → T a c) : ∀ {as bs cs : List Row},
    RowsRel R as bs → RowsRel S bs cs → RowsRel T as cs := by
  intro as
  induction as with
  | nil => intro bs cs h1 h2; cases bs with
    | nil => cases cs with
      | nil => trivial
      | cons _ _ => exact h2.elim
    | cons _ _ => exact h1.elim
  | cons a as ih =>
    intro bs cs h1 h2
    cases bs with
    | nil => exact h1.elim
    | cons b bs => cases cs with
      | nil => exact h2.elim
      | cons c cs => exact ⟨hRST a b c h1.1 h2.1, ih h1.2 h2.2⟩

/-- Readers cannot tell the rows apart. -/
def SameRow (r r' : Row) : Prop := (r'.kind = r.kind ∧ r'.id = r.id ∧ r'.parent = r.parent) ∧ ∀ k, r'.val k = r.val k

/-- A row updated twice reads as updated once. -/
theorem updated_twice {id : String} {new : Obj} {a b c : Row} (h1 : RowUpdated id new a b) (h2 : RowUpdated id new b c) : SameRow b c := by
  refine ⟨h2.1, ?_⟩
  intro k
  have hc : Concerns id a ↔ Concerns id b := by
    unfold Concerns
    rw [h1.1.1, h1.1.2.1, h1.1.2.2]
  by_cases hb : Concerns id b
  · have e1 := h1.2.1 (hc.2 hb) k
    have e2 := h2.2.1 hb k
    unfold Row.val
    rw [e2]
    cases hg : get new k with
    | none => rfl
    | some v => rw [hg] at e1; rw [e1]
  · rw [h2.2.2 hb]

theorem noReconcile_again {id : String} {new : Obj} (hn : (keys new).Nodup) {a b : Row} (h : RowUpdated id new a b) (hc : Concerns id a) (hr : NoReconcile id new a) :
    NoReconcile id new b := by
  intro hk
  have e1 := merge_merged a.data hn "BLNK_RUN_RECONCILIATION"
  have e2 := merge_merged b.data hn "BLNK_RUN_RECONCILIATION"
  have e3 := h.2.1 hc "BLNK_RUN_RECONCILIATION"
  have := hr hk
  rw [e2, e3]
  rw [e1] at this
  cases hg : get new "BLNK_RUN_RECONCILIATION" with
  | none => rw [hg] at this; exact this
  | some v => rw [hg] at this; exact this

/-- **C56: repeating an update changes nothing more.** Every row reads the same after the second
identical request. Same restriction. -/
theorem c56_repeat_partial {res : String} {rows rows' rows'' : List Row} {id : String} {new m m' : Obj} (hu : Unique rows) (hn : (keys new).Nodup)
    (hr : ∀ r ∈ rows, Concerns id r → NoReconcile id new r) (h : update res rows id new = (rows', .ok m))
    (h' : update res rows' id new = (rows'', .ok m')) : RowsRel SameRow rows' rows'' := by
  have r1 := c56_merges_partial hu hn hr h
  have r2 := c56_merges_partial (rowsRel_unique r1 hu) hn (by
    intro b hb hc
    obtain ⟨a, ha, hR⟩ := rowsRel_get r1 b hb
    have hca : Concerns id a := by
      unfold Concerns at hc ⊢
      rw [← hR.1.1, ← hR.1.2.1, ← hR.1.2.2]
      exact hc
    exact noReconcile_again hn hR hca (hr a ha hca)) h'
  clear h h' hr hu
  revert r1 r2
  generalize rows' = bs
  generalize rows'' = cs
  induction rows generalizing bs cs with
  | nil => intro h1 h2; cases bs with
    | nil => cases cs with
      | nil => trivial
      | cons _ _ => exact h2.elim
    | cons _ _ => exact h1.elim
  | cons a as ih =>
    intro h1 h2
    cases bs with
    | nil => exact h1.elim
    | cons b bs => cases cs with
      | nil => exact h2.elim
      | cons c cs => exact ⟨updated_twice h1.1 h2.1, ih bs cs h1.2 h2.2⟩

/-- **C56: what the answer shows**: for a ledger, balance or identity the metadata as read and merged. -/
theorem c56_answer_partial {res : String} {rows rows' : List Row} {id : String} {new m : Obj} (hu : Unique rows) (hn : (keys new).Nodup)
    (hk : kindOf id ≠ some .transactions)
    (h : update res rows id new = (rows', .ok m)) : ∀ r ∈ rows, Concerns id r → Merged r.data new m := by
  intro r hr hc
  unfold update at h
  split at h
  · cases h
  · rename_i rd hs
    injection h with h1 h2
    injection h2 with h2
    rcases start_ok hs with ⟨hk', _⟩ | ⟨k, r0, hk', hkt, h0, rfl, rfl, rfl⟩
    · exact absurd hk' hk
    · have hkk : r.kind = r0.kind := by have := hc.1; rw [hk'] at this; exact (Option.some.inj this).symm
      have e : r = r0 := unique_eq hu hr h0 hkk (by
        rcases hc.2 with h | h
        · exact h
        · exact absurd (hkk.symm.trans h.1) hkt)
      subst e h2
      exact merge_merged _ hn

/-! ### Concurrent requests -/

/-- The update an event writes, with the id it is for. -/
def writes (s : State) : Ev → List (String × Obj)
  | .write i => match s.pending.find? (fun p => p.req = i) with
    | some p => [(p.id, p.new)]
    | none => []
  | .read _ _ _ => []

/-- The updates written, in the order of their writes. -/
def written (res : String) (s : State) : List Ev → List (String × Obj)
  | [] => []
  | e :: es => writes s e ++ written res (step res s e) es

/-- Specification: the value left by a series of updates, the last one naming the key winning. -/
def lastValue (before : Option String) (k : String) : List Obj → Option String
  | [] => before
  | new :: rest => lastValue (match get new k with | some v => some v | none => before) k rest

/-- The writes that concern a transaction row. -/
def concerning (r : Row) (ws : List (String × Obj)) : List Obj :=
  (ws.filter (fun w => kindOf w.1 = some .transactions && (r.id = w.1 || r.parent = w.1))).map (·.2)

/-- A pending request read what its id calls for. -/
def WellRead (p : Pending) : Prop :=
  (kindOf p.id = some .transactions ∧ p.rd = .transactions) ∨ ∃ k c, kindOf p.id = some k ∧ k ≠ .transactions ∧ p.rd = .entity k c

theorem start_wellRead {rows : List Row} {id : String} {rd : Read} (h : start rows id = .ok rd) (i : Nat) (new : Obj) :
    WellRead { req := i, id, new, rd } := by
  rcases start_ok h with h | ⟨k, r, hk, hkt, _, _, _, e⟩
  · exact .inl h
  · exact .inr ⟨k, _, hk, hkt, e⟩

theorem step_wellRead {res : String} {s : State} (h : ∀ p ∈ s.pending, WellRead p) (e : Ev) : ∀ p ∈ (step res s e).pending, WellRead p := by
  cases e with
  | read i id new =>
    simp only [step]
    split
    · exact h
    · rename_i rd hs
      intro p hp
      rcases List.mem_cons.1 hp with rfl | hp
      · exact start_wellRead hs i new
      · exact h p hp
  | write i =>
    simp only [step]
    split
    · exact h
    · intro p hp
      exact h p (List.mem_filter.1 hp).1

/-- **C56 for transactions, all interleavings**: whatever overlaps, each transaction row shows under
every key the value of the last update naming it, and its earlier value if none did. No update is
lost and no other key is touched. -/
theorem c56_transactions_concurrent {res : String} : ∀ (es : List Ev) (s : State), (∀ p ∈ s.pending, WellRead p) →
    RowsRel (fun r r' => r.kind = .transactions → (r'.kind = r.kind ∧ r'.id = r.id ∧ r'.parent = r.parent) ∧
      ∀ k, r'.val k = lastValue (r.val k) k (concerning r (written res s es))) s.rows (exec res s es).rows := by
  intro es
  induction es with
  | nil =>
    intro s _
    have := rowsRel_map (R := fun r r' => r.kind = .transactions → (r'.kind = r.kind ∧ r'.id = r.id ∧ r'.parent = r.parent) ∧
      ∀ k, r'.val k = lastValue (r.val k) k (concerning r (written res s []))) (f := id) (rows := s.rows) (fun r _ _ => ⟨⟨rfl, rfl, rfl⟩, fun k => rfl⟩)
    simpa [exec] using this
  | cons e es ih =>
    intro s hp
    have h2 := ih (step res s e) (step_wellRead hp e)
    have h1 : RowsRel (fun r r' => r.kind = .transactions → (r'.kind = r.kind ∧ r'.id = r.id ∧ r'.parent = r.parent) ∧
        ∀ k, r'.val k = lastValue (r.val k) k (concerning r (writes s e))) s.rows (step res s e).rows := by
      cases e with
      | read i id new =>
        have e : (step res s (.read i id new)).rows = s.rows.map (fun r => r) := by
          simp only [step]
          split <;> simp
        rw [e]
        exact rowsRel_map (fun r _ _ => ⟨⟨rfl, rfl, rfl⟩, fun k => rfl⟩)
      | write i =>
        simp only [step, writes]
        cases hf : s.pending.find? (fun p => p.req = i) with
        | none =>
          have e : s.rows = s.rows.map (fun r => r) := by simp
          dsimp only
          conv => rhs; rw [e]
          exact rowsRel_map (fun r _ _ => ⟨⟨rfl, rfl, rfl⟩, fun k => rfl⟩)
        | some p =>
          have hw := hp p (List.mem_of_find?_eq_some hf)
          dsimp only
          rcases hw with ⟨hk, hrd⟩ | ⟨k, c, hk, hkt, hrd⟩
          · rw [hrd]
            apply rowsRel_map
            intro r _ hrk
            by_cases hc : r.kind = .transactions ∧ (r.id = p.id ∨ r.parent = p.id)
            · rw [if_pos hc]
              refine ⟨⟨rfl, rfl, rfl⟩, ?_⟩
              intro k
              have : concerning r [(p.id, p.new)] = [p.new] := by simp [concerning, hk, hc.2]
              rw [this]
              exact concat_merged r.data p.new k
            · rw [if_neg hc]
              refine ⟨⟨rfl, rfl, rfl⟩, ?_⟩
              intro k
              have hc' : ¬ (r.id = p.id ∨ r.parent = p.id) := fun h => hc ⟨hrk, h⟩
              have : concerning r [(p.id, p.new)] = [] := by simp [concerning, hk]; exact not_or.1 hc'
              rw [this]
              rfl
          · rw [hrd]
            apply rowsRel_map
            intro r _ hrk
            rw [if_neg (by rintro ⟨h, _⟩; exact hkt (h.symm.trans hrk))]
            refine ⟨⟨rfl, rfl, rfl⟩, ?_⟩
            intro k'
            have : concerning r [(p.id, p.new)] = [] := by simp [concerning, hk, hkt]
            rw [this]
            rfl
    rw [exec]
    refine rowsRel_trans ?_ h1 h2
    intro a b c hab hbc hk
    obtain ⟨⟨k1, i1, p1⟩, v1⟩ := hab hk
    obtain ⟨⟨k2, i2, p2⟩, v2⟩ := hbc (k1.trans hk)
    refine ⟨⟨k2.trans k1, i2.trans i1, p2.trans p1⟩, ?_⟩
    intro k
    rw [v2, v1, written]
    have ec : ∀ ws, concerning b ws = concerning a ws := by intro ws; simp only [concerning, i1, p1]
    have lv : ∀ (l1 l2 : List Obj) x, lastValue (lastValue x k l1) k l2 = lastValue x k (l1 ++ l2) := by
      intro l1
      induction l1 with
      | nil => intro l2 x; rfl
      | cons n l1 ih => intro l2 x; exact ih l2 _
    rw [ec, lv, concerning, concerning, concerning, ← List.map_append, ← List.filter_append]

theorem step_other {res : String} {s : State} (hp : ∀ p ∈ s.pending, WellRead p) (e : Ev) {r : Row} (hr : r ∈ s.rows) (hkt : r.kind ≠ .transactions)
    (ho : ∀ w ∈ writes s e, w.1 ≠ r.id) : r ∈ (step res s e).rows := by
  cases e with
  | read i id new =>
    simp only [step]
    split <;> exact hr
  | write i =>
    simp only [step]
    simp only [writes] at ho
    cases hf : s.pending.find? (fun p => p.req = i) with
    | none => exact hr
    | some p =>
      rw [hf] at ho
      have hw := hp p (List.mem_of_find?_eq_some hf)
      have hne := ho (p.id, p.new) (by simp)
      dsimp only at hne ⊢
      rcases hw with ⟨hk, hrd⟩ | ⟨k, c, hk, hkt', hrd⟩
      · rw [hrd]
        exact List.mem_map.2 ⟨r, hr, by rw [if_neg (fun h => hkt h.1)]⟩
      · rw [hrd]
        exact List.mem_map.2 ⟨r, hr, by rw [if_neg (fun h => hne h.2.symm)]⟩

theorem exec_other {res : String} : ∀ (es : List Ev) {s : State}, (∀ p ∈ s.pending, WellRead p) → ∀ {r : Row}, r ∈ s.rows → r.kind ≠ .transactions →
    (∀ w ∈ written res s es, w.1 ≠ r.id) → r ∈ (exec res s es).rows := by
  intro es
  induction es with
  | nil => intro s _ r hr _ _; exact hr
  | cons e es ih =>
    intro s hp r hr hk ho
    rw [exec]
    exact ih (step_wellRead hp e) (step_other hp e hr hk (fun w hw => ho w (List.mem_append.2 (.inl hw)))) hk
      (fun w hw => ho w (List.mem_append.2 (.inr hw)))

theorem step_unique {res : String} {s : State} (hu : Unique s.rows) (e : Ev) : Unique (step res s e).rows := by
  have hm : ∀ (f : Row → Row), (∀ r, (f r).kind = r.kind ∧ (f r).id = r.id) → Unique (s.rows.map f) := by
    intro f hf
    unfold Unique
    rw [List.pairwise_map]
    refine hu.imp ?_
    intro a b h
    rw [(hf a).1, (hf b).1, (hf a).2, (hf b).2]
    exact h
  cases e with
  | read i id new => simp only [step]; split <;> exact hu
  | write i =>
    simp only [step]
    split
    · exact hu
    · rename_i p _
      cases p.rd with
      | entity k c => exact hm _ (fun r => by split <;> simp)
      | transactions => exact hm _ (fun r => by split <;> simp)

theorem exec_unique {res : String} : ∀ (es : List Ev) {s : State}, Unique s.rows → Unique (exec res s es).rows := by
  intro es
  induction es with
  | nil => intro s h; exact h
  | cons e es ih => intro s h; exact ih (step_unique h e)

theorem find_kept {res : String} {i : Nat} : ∀ (es : List Ev) {s : State} {p : Pending}, s.pending.find? (fun p => p.req = i) = some p →
    (∀ e ∈ es, e ≠ .write i ∧ ∀ id new, e ≠ .read i id new) → (exec res s es).pending.find? (fun p => p.req = i) = some p := by
  intro es
  induction es with
  | nil => intro s p h _; exact h
  | cons e es ih =>
    intro s p h he
    rw [exec]
    refine ih ?_ (fun x hx => he x (by simp [hx]))
    have h0 := he e (by simp)
    cases e with
    | read j id new =>
      simp only [step]
      split
      · exact h
      · have : j ≠ i := fun e => h0.2 id new (by rw [e])
        simp only [List.find?_cons, this, decide_false]
        exact h
    | write j =>
      have hj : j ≠ i := fun e => h0.1 (by rw [e])
      simp only [step]
      split
      · exact h
      · simp only
        rw [List.find?_filter]
        rw [← h]
        congr 1
        funext p
        by_cases hp : p.req = i
        · simp [hp, Ne.symm hj]
        · simp [hp]

/-- **C56 for ledgers, balances and identities among other requests**: if no other update of the entity is
written between the read and the write of this one, the row ends with exactly the given keys set
on what it held. -/
theorem c56_entity_concurrent_partial {res : String} {s : State} {i : Nat} {id : String} {new : Obj} {mid : List Ev} {r : Row}
    (hp : ∀ p ∈ s.pending, WellRead p) (hu : Unique s.rows) (hn : (keys new).Nodup) (hr : r ∈ s.rows) (hc : Concerns id r)
    (hk : r.kind ≠ .transactions) (hnr : NoReconcile id new r)
    (hm : ∀ e ∈ mid, e ≠ .write i ∧ ∀ id new, e ≠ .read i id new)
    (ho : ∀ w ∈ written res (step res s (.read i id new)) mid, w.1 ≠ id) :
    ∃ r' ∈ (exec res s (.read i id new :: mid ++ [.write i])).rows, r'.kind = r.kind ∧ r'.id = r.id ∧ Merged r.data new (r'.data.getD []) := by
  have hid : r.id = id := by
    rcases hc.2 with h | h
    · exact h
    · exact absurd h.1 hk
  have hs : start s.rows id = .ok (.entity r.kind r.data) := by
    unfold start
    rw [hc.1]
    have hf : s.rows.find? (fun x => x.kind = r.kind && x.id = id) = some r := by
      cases hf : s.rows.find? (fun x => x.kind = r.kind && x.id = id) with
      | none =>
        have := List.find?_eq_none.1 hf r hr
        simp [hid] at this
      | some x =>
        have h1 := List.mem_of_find?_eq_some hf
        have h2 := List.find?_some hf
        simp only [Bool.and_eq_true, decide_eq_true_eq] at h2
        rw [unique_eq hu h1 hr h2.1 (h2.2.trans hid.symm)]
    cases hk' : r.kind with
    | transactions => exact absurd hk' hk
    | ledgers => rw [hk'] at hf; simp only [hf]
    | balances => rw [hk'] at hf; simp only [hf]
    | identities => rw [hk'] at hf; simp only [hf]
  have e1 : step res s (.read i id new) = { s with pending := { req := i, id, new, rd := .entity r.kind r.data } :: s.pending } := by
    simp only [step, hs]
  have hp1 : ∀ p ∈ (step res s (.read i id new)).pending, WellRead p := step_wellRead hp _
  have hr1 : r ∈ (step res s (.read i id new)).rows := by rw [e1]; exact hr
  have hf1 : (step res s (.read i id new)).pending.find? (fun p => p.req = i) = some { req := i, id, new, rd := .entity r.kind r.data } := by
    rw [e1]; simp
  have hf2 := find_kept (res := res) mid hf1 hm
  have hr2 := exec_other (res := res) mid hp1 hr1 hk (by rw [hid]; exact ho)
  have ea : ∀ (xs : List Ev) (t : State), exec res t (xs ++ [.write i]) = step res (exec res t xs) (.write i) := by
    intro xs
    induction xs with
    | nil => intro t; rfl
    | cons x xs ih => intro t; exact ih _
  have ee : exec res s (.read i id new :: mid ++ [.write i]) = step res (exec res (step res s (.read i id new)) mid) (.write i) := by
    rw [List.cons_append, exec, ea]
  rw [ee]
  simp only [step] at hf2 hr2 ⊢
  rw [hf2]
  refine ⟨_, List.mem_map.2 ⟨r, hr2, rfl⟩, ?_⟩
  rw [if_pos ⟨rfl, hid⟩]
  refine ⟨rfl, rfl, ?_⟩
  show Merged r.data new (fire res r.kind (merge r.data new))
  rw [fire_plain (fun hb => hnr (by rw [hc.1, hb]))]
  exact merge_merged _ hn

/-! ### Concrete cases and what fails -/

instance : DecidableEq (Except Err Obj)
  | .ok a, .ok b => if h : a = b then isTrue (by rw [h]) else isFalse (fun e => h (by injection e))
  | .error a, .error b => if h : a = b then isTrue (by rw [h]) else isFalse (fun e => h (by injection e))
  | .ok _, .error _ => isFalse (fun e => by cases e)
  | .error _, .ok _ => isFalse (fun e => by cases e)

def demo : List Row :=
  [{ kind := .ledgers, id := "ldg_1", data := some [("owner", "\"x\"")] },
   { kind := .balances, id := "bln_1" },
   { kind := .transactions, id := "txn_1", data := some [("a", "1"), ("b", "2")] },
   { kind := .transactions, id := "txn_2", parent := "txn_1" },
   { kind := .transactions, id := "txn_3" }]

instance (id : String) (r : Row) : Decidable (Concerns id r) := by unfold Concerns; infer_instance
instance (id : String) (new : Obj) (r : Row) : Decidable (NoReconcile id new r) := by unfold NoReconcile; infer_instance
instance (rows : List Row) : Decidable (Unique rows) := by unfold Unique; infer_instance

example : Unique demo ∧ (keys [("b", "3"), ("c", "4")]).Nodup ∧ (∀ r ∈ demo, Concerns "txn_1" r → NoReconcile "txn_1" [("b", "3"), ("c", "4")] r) ∧
    (update "" demo "txn_1" [("b", "3"), ("c", "4")]).1.map (·.data) = [some [("owner", "\"x\"")], none,
      some [("a", "1"), ("b", "3"), ("c", "4")], some [("b", "3"), ("c", "4")], none] ∧
    (update "" demo "txn_1" [("b", "3"), ("c", "4")]).2 = .ok [("b", "3"), ("c", "4")] := by decide +kernel

example : (update "" demo "ldg_1" [("tier", "2")]).2 = .ok [("owner", "\"x\""), ("tier", "2")] ∧
    (∀ r ∈ demo, Concerns "ldg_1" r → NoReconcile "ldg_1" [("tier", "2")] r) ∧
    (update "" demo "x_1" [("tier", "2")]).2 = .error .invalidId ∧ (update "" demo "idt_1" [("tier", "2")]).2 = .error .notFound := by decide +kernel

/-- Two overlapping updates of a transaction: both stay. -/
example : ((exec "" { rows := demo } [.read 1 "txn_1" [("a", "5")], .read 2 "txn_1" [("b", "6")], .write 2, .write 1]).rows.map (·.data))[2]? =
    some (some [("b", "6"), ("a", "5")]) := by decide +kernel

/-- The hypotheses of `c56_entity_concurrent_partial` hold with an update of a transaction in between. -/
example : let mid : List Ev := [.read 2 "txn_1" [("a", "5")], .write 2]
    (∀ e ∈ mid, e ≠ .write 1 ∧ ∀ id new, e ≠ .read 1 id new) ∧
    (∀ w ∈ written "" (step "" { rows := demo } (.read 1 "ldg_1" [("tier", "2")])) mid, w.1 ≠ "ldg_1") := by
  refine ⟨?_, by decide +kernel⟩
  intro e he
  simp only [List.mem_cons, List.not_mem_nil, or_false] at he
  rcases he with rfl | rfl
  · exact ⟨by simp, by intro id new h; injection h with h; exact absurd h (by decide)⟩
  · exact ⟨by simp, by intro id new h; cases h⟩

/-- The full claim: after any interleaving of updates in which every update is written, every row
shows, for each key, the value of the last update of it that names the key. -/
def C56Full : Prop := ∀ (res : String) (rows : List Row) (es : List Ev), Unique rows → (exec res { rows } es).pending = [] →
  RowsRel (fun r r' => ∀ k, r'.val k = lastValue (r.val k) k
    (((written res { rows } es).filter (fun w => kindOf w.1 = some r.kind && (r.id = w.1 || r.parent = w.1))).map (·.2))) rows (exec res { rows } es).rows

/-- Two overlapping updates of one ledger, balance or identity: the second writes back what it read,
and a key the first one set, and whose setting it confirmed, is gone. -/
theorem c56_lost_update :
    (exec "" { rows := demo } [.read 1 "ldg_1" [("tier", "2")], .read 2 "ldg_1" [("region", "3")], .write 1, .write 2]).rows.head?.map (·.data) =
      some (some [("owner", "\"x\""), ("region", "3")]) := by decide +kernel

theorem c56_full_fails : ¬ C56Full := by
  intro h
  have := h "" demo [.read 1 "ldg_1" [("tier", "2")], .read 2 "ldg_1" [("region", "3")], .write 1, .write 2] (by decide +kernel) (by decide +kernel)
  obtain ⟨b, hb, hR⟩ := rowsRel_get' this { kind := .ledgers, id := "ldg_1", data := some [("owner", "\"x\"")] } (by decide +kernel)
  have h2 := hR "tier"
  have h3 : ((exec "" { rows := demo } [.read 1 "ldg_1" [("tier", "2")], .read 2 "ldg_1" [("region", "3")], .write 1, .write 2]).rows.all
      (fun r => r.val "tier" = none)) = true := by decide +kernel
  have h4 := List.all_eq_true.1 h3 b hb
  simp only [decide_eq_true_eq] at h4
  rw [h4] at h2
  revert h2
  decide +kernel

/-- A balance update naming the reconciliation key: the key is not there afterwards, and a key that was not
given appears. -/
theorem c56_reconcile_fails :
    (update "{}" demo "bln_1" [("BLNK_RUN_RECONCILIATION", "\"SOURCE\"")]).2 = .ok [("BLNK_RUN_RECONCILIATION", "\"SOURCE\"")] ∧
    ((update "{}" demo "bln_1" [("BLNK_RUN_RECONCILIATION", "\"SOURCE\"")]).1.map (·.data))[1]? =
      some (some [("BLNK_RECONCILIATION_RESULT", "{}")]) := by decide +kernel

/-- The answer for a transaction shows only the keys given, not the merged metadata. -/
theorem c56_answer_fails : ¬ ∀ (rows rows' : List Row) (id : String) (new m : Obj), Unique rows → (keys new).Nodup →
    update "" rows id new = (rows', .ok m) → ∀ r ∈ rows, r.id = id → Concerns id r → Merged r.data new m := by
  intro h
  have := h demo (update "" demo "txn_1" [("b", "3")]).1 "txn_1" [("b", "3")] [("b", "3")] (by decide +kernel) (by decide +kernel)
    (by decide +kernel) { kind := .transactions, id := "txn_1", data := some [("a", "1"), ("b", "2")] } (by decide +kernel) rfl (by decide +kernel) "a"
  revert this
  decide +kernel

end Blnk.Meta
