import Verif.Model.ReconRun
import Verif.Props.ReconGroup
/-
C75: a reconciliation handles the records of its upload. C78: its figures are what it stored.
C79: a stored match carries the record's amount.
-/
namespace Blnk.Recon

/-! ### C75 -/

theorem rec_strict_sublist : ∀ {l m : List Rec}, l.Pairwise (fun a b => b.date < a.date) →
    m.Pairwise (fun a b => b.date < a.date) → (∀ x ∈ l, x ∈ m) → l.Sublist m := by
  intro l m
  induction m generalizing l with
  | nil =>
    intro _ _ h
    cases l with
    | nil => exact .slnil
    | cons x l => exact absurd (h x (by simp)) (by simp)
  | cons y m ih =>
    intro hl hm h
    cases l with
    | nil => exact List.nil_sublist _
    | cons x l =>
      have hl' := List.pairwise_cons.1 hl
      have hm' := List.pairwise_cons.1 hm
      rcases List.mem_cons.1 (h x (by simp)) with rfl | hx
      · refine .cons_cons _ (ih hl'.2 hm'.2 ?_)
        intro z hz
        rcases List.mem_cons.1 (h z (List.mem_cons_of_mem _ hz)) with rfl | h
        · exact absurd (hl'.1 _ hz) (Rat.lt_irrefl)
        · exact h
      · refine .cons _ (ih hl hm'.2 ?_)
        intro z hz
        rcases List.mem_cons.1 (h z hz) with rfl | h
        · exfalso
          have h1 := hm'.1 x hx
          rcases List.mem_cons.1 hz with rfl | h2
          · grind
          · have := hl'.1 _ h2; grind
        · exact h

/-- No two records have the same date. -/
def Undoubled (rows : List Rec) : Prop := rows.Pairwise fun a b => a.date ≠ b.date

theorem listing_strict {rows l : List Rec} (h : Listing rows l) (hu : Undoubled rows) : l.Pairwise fun a b => b.date < a.date := by
  have h2 : l.Pairwise fun a b => a.date ≠ b.date := (h.perm.pairwise_iff (fun h => Ne.symm h)).2 hu
  refine (h.sorted.and h2).imp ?_
  intro a b hab
  have := hab.1
  have := hab.2
  grind

theorem listing_unique {rows l m : List Rec} (hl : Listing rows l) (hm : Listing rows m) (hu : Undoubled rows) : l = m := by
  have h1 := rec_strict_sublist (listing_strict hl hu) (listing_strict hm hu) (fun x hx => hm.perm.symm.subset (hl.perm.subset hx))
  exact h1.eq_of_length (hl.perm.length_eq.trans hm.perm.length_eq.symm)

/-- **C75 as stated**: whatever else is uploaded and reconciled, a finished reading has handed out the
records of its upload, each once. -/
def C75Full : Prop := ∀ (size : Nat) (s : Shop) (es : List ShopEv), 0 < size → s.cache = [] → s.readings = [] → Answers size s es →
  (∀ e ∈ es, ∀ u r, e ≠ .store u r) → ∀ r ∈ (shopRun size s es).readings, r.done = true → r.seen.Perm (uploaded s.stored r.upload)

structure ReadInv (size : Nat) (u : String) (L : List Rec) (s : Shop) : Prop where
  stored : Listing (uploaded s.stored u) L
  cache : ∀ e ∈ s.cache, e.1.1 = size → e.2 = Paging.page L size e.1.2
  readings : ∀ r ∈ s.readings, r.upload = u ∧ r.seen = L.take r.off ∧ (r.done = true → L.drop r.off = [])

/-- Events of one upload's reconciliations: nothing is added to it, no other upload is reconciled. -/
def Only (u : String) : ShopEv → Prop
  | .store u' _ => u' ≠ u
  | .start u' => u' = u
  | _ => True

theorem take_page (l : List Rec) (size off : Nat) : l.take off ++ Paging.page l size off = l.take (off + (Paging.page l size off).length) := by
  have h := Paging.page_drop l size off
  have e1 : l.take off ++ (Paging.page l size off ++ l.drop (off + (Paging.page l size off).length)) = l := by
    rw [h, List.take_append_drop]
  have e2 : l.take (off + (Paging.page l size off).length) ++ l.drop (off + (Paging.page l size off).length) = l := List.take_append_drop _ _
  rw [← List.append_assoc] at e1
  exact List.append_cancel_right (e1.trans e2.symm)

theorem cached_mem {c : PageCache} {key : Nat × Nat} (h : cached c key ≠ []) : (key, cached c key) ∈ c := by
  unfold cached at h ⊢
  cases hf : c.find? (fun e => decide (e.1 = key)) with
  | none => rw [hf] at h; exact absurd rfl h
  | some e =>
    have h1 := List.find?_some hf
    simp only [decide_eq_true_eq] at h1
    subst h1
    exact List.mem_of_find?_eq_some hf

theorem readPage_inv {size : Nat} (hs : 0 < size) {u : String} {L answer : List Rec} {cache : PageCache} {r : Reading} (ha : answer = L)
    (hc : ∀ e ∈ cache, e.1.1 = size → e.2 = Paging.page L size e.1.2)
    (hr : r.upload = u ∧ r.seen = L.take r.off ∧ (r.done = true → L.drop r.off = [])) :
    (∀ e ∈ (readPage size cache answer r).2, e.1.1 = size → e.2 = Paging.page L size e.1.2) ∧
      (readPage size cache answer r).1.upload = u ∧ (readPage size cache answer r).1.seen = L.take (readPage size cache answer r).1.off ∧
      ((readPage size cache answer r).1.done = true → L.drop (readPage size cache answer r).1.off = []) := by
  subst ha
  obtain ⟨h1, h2, h3⟩ := hr
  unfold readPage
  split
  · exact ⟨hc, h1, h2, h3⟩
  · rename_i hd
    split
    · rename_i hne
      have e := hc _ (cached_mem hne) rfl
      simp only at e
      refine ⟨hc, h1, ?_, fun hd' => absurd hd' hd⟩
      simp only
      rw [h2, e, take_page]
    · split
      · rename_i hp
        exact ⟨hc, h1, h2, fun _ => Paging.page_nil hs hp⟩
      · refine ⟨?_, h1, ?_, fun hd' => absurd hd' hd⟩
        · intro e he hes
          rcases List.mem_cons.1 he with rfl | he
          · rfl
          · exact hc e he hes
        · simp only
          rw [h2, take_page]

theorem shopStep_inv {size : Nat} (hs : 0 < size) {u : String} {L : List Rec} {s : Shop} {e : ShopEv} (hi : ReadInv size u L s) (hu : Undoubled L)
    (ho : Only u e) (ha : ∀ n answer r, e = .page n answer → s.readings[n]? = some r → Listing (uploaded s.stored r.upload) answer) :
    ReadInv size u L (shopStep size s e) := by
  cases e with
  | store u' r =>
    refine ⟨?_, hi.cache, hi.readings⟩
    have : uploaded (s.stored ++ [(u', r)]) u = uploaded s.stored u := by
      unfold uploaded
      rw [List.filter_append]
      have : ¬ u' = u := ho
      simp [this]
    simp only [shopStep]
    rw [this]
    exact hi.stored
  | start u' =>
    refine ⟨hi.stored, hi.cache, ?_⟩
    intro r hr
    simp only [shopStep, List.mem_append, List.mem_singleton] at hr
    rcases hr with hr | rfl
    · exact hi.readings r hr
    · exact ⟨ho, by simp, by simp⟩
  | expire key => exact ⟨hi.stored, fun e he => hi.cache e (List.mem_filter.1 he).1, hi.readings⟩
  | page n answer =>
    simp only [shopStep]
    cases hn : s.readings[n]? with
    | none => exact hi
    | some r =>
      have hr := hi.readings r (List.mem_of_getElem? hn)
      have hL : answer = L := by
        have hl := ha n answer r rfl hn
        rw [hr.1] at hl
        refine listing_unique hl hi.stored ?_
        exact (hi.stored.perm.pairwise_iff (fun h => Ne.symm h)).1 hu
      obtain ⟨h1, h2⟩ := readPage_inv hs hL hi.cache hr
      refine ⟨hi.stored, h1, ?_⟩
      intro x hx
      rcases List.mem_or_eq_of_mem_set hx with h | rfl
      · exact hi.readings x h
      · exact h2

theorem shopRun_inv {size : Nat} (hs : 0 < size) {u : String} {L : List Rec} (hu : Undoubled L) : ∀ {es : List ShopEv} {s : Shop}, ReadInv size u L s →
    (∀ e ∈ es, Only u e) → Answers size s es → ReadInv size u L (shopRun size s es) := by
  intro es
  induction es with
  | nil => intro s h _ _; exact h
  | cons e es ih =>
    intro s h ho ha
    exact ih (shopStep_inv hs h hu (ho e (by simp)) ha.1) (fun x hx => ho x (by simp [hx])) ha.2

/-- **C75 while one upload is reconciled**: as long as only this upload is reconciled, however often and
however the pages of the runs and the expiry of cached pages interleave, and its records have
different dates, every finished reading handed out each of its records once, and no other. -/
theorem c75_one_upload_partial {size : Nat} (hs : 0 < size) {s : Shop} {es : List ShopEv} {u : String} {L : List Rec} (hc : s.cache = []) (hr : s.readings = [])
    (hL : Listing (uploaded s.stored u) L) (hu : Undoubled L) (ho : ∀ e ∈ es, Only u e) (ha : Answers size s es) {r : Reading}
    (hm : r ∈ (shopRun size s es).readings) (hd : r.done = true) : r.upload = u ∧ r.seen.Perm (uploaded s.stored u) := by
  have hi := shopRun_inv hs hu (s := s) (es := es) ⟨hL, by rw [hc]; simp, by rw [hr]; simp⟩ ho ha
  obtain ⟨h1, h2, h3⟩ := hi.readings r hm
  refine ⟨h1, ?_⟩
  have h4 := h3 hd
  have : L.take r.off = L := by
    have := List.take_append_drop r.off L
    rw [h4, List.append_nil] at this
    exact this
  rw [h2, this]
  exact hL.perm

/-- **C75 fails for every second upload.** Reconciled within the cache's lifetime of another upload that
filled the first page, a run is handed that other upload's page, whatever is in its own. -/
theorem c75_second_upload_gets_first {size : Nat} {s : Shop} {n : Nat} {r : Reading} {first answer : List Rec}
    (hn : s.readings[n]? = some r) (h0 : r.off = 0) (hs : r.seen = []) (hd : r.done = false)
    (hc : cached s.cache (size, 0) = first) (hf : first ≠ []) :
    ∃ r', (shopStep size s (.page n answer)).readings[n]? = some r' ∧ r'.upload = r.upload ∧ r'.seen = first := by
  have hlt := (List.getElem?_eq_some_iff.1 hn).1
  refine ⟨(readPage size s.cache answer r).1, ?_, ?_⟩
  · simp only [shopStep, hn]
    rw [List.getElem?_set_self hlt]
  · unfold readPage
    rw [hd, h0, hc, hs]
    simp [hf]

def recA : List Rec := [{ id := "a2", amount := 2, date := 2 }, { id := "a1", amount := 1, date := 1 }]
def recB : List Rec := [{ id := "b1", amount := 7, date := 5 }]
def shop : Shop := { stored := recA.map (fun r => ("A", r)) ++ recB.map (fun r => ("B", r)) }
/-- A is reconciled, then B. -/
def thenB : List ShopEv := [.start "A", .page 0 recA, .page 0 recA, .start "B", .page 1 recB, .page 1 recB]

theorem listA : Listing (uploaded shop.stored "A") recA := ⟨by decide +kernel, by decide +kernel⟩
theorem listB : Listing (uploaded shop.stored "B") recB := ⟨by decide +kernel, by decide +kernel⟩

theorem thenB_answers : Answers 1000 shop thenB := by
  have hA : uploaded shop.stored "A" = recA := by decide +kernel
  refine ⟨?_, ?_, ?_, ?_, ?_, ?_, trivial⟩ <;> intro n answer r h1 h2 <;> cases h1
  · have : r.upload = "A" := by
      have h3 : (shopRun 1000 shop (thenB.take 1)).readings[0]?.map (·.upload) = some "A" := by decide +kernel
      have h2' : (shopRun 1000 shop (thenB.take 1)).readings[0]? = some r := h2
      rw [h2'] at h3; simpa using h3
    rw [this]; exact listA
  · have : r.upload = "A" := by
      have h3 : (shopRun 1000 shop (thenB.take 2)).readings[0]?.map (·.upload) = some "A" := by decide +kernel
      have h2' : (shopRun 1000 shop (thenB.take 2)).readings[0]? = some r := h2
      rw [h2'] at h3; simpa using h3
    rw [this]; exact listA
  · have : r.upload = "B" := by
      have h3 : (shopRun 1000 shop (thenB.take 4)).readings[1]?.map (·.upload) = some "B" := by decide +kernel
      have h2' : (shopRun 1000 shop (thenB.take 4)).readings[1]? = some r := h2
      rw [h2'] at h3; simpa using h3
    rw [this]; exact listB
  · have : r.upload = "B" := by
      have h3 : (shopRun 1000 shop (thenB.take 5)).readings[1]?.map (·.upload) = some "B" := by decide +kernel
      have h2' : (shopRun 1000 shop (thenB.take 5)).readings[1]? = some r := h2
      rw [h2'] at h3; simpa using h3
    rw [this]; exact listB

/-- **C75 fails**: the run of upload B handles the records of upload A and none of its own. -/
theorem c75_full_fails : ¬ C75Full := by
  intro h
  have hp := h 1000 shop thenB (by omega) rfl rfl thenB_answers (by intro e he u r hc; subst hc; simp [thenB] at he)
    { upload := "B", off := 2, seen := recA, done := true } (by decide +kernel) rfl
  have := hp.length_eq
  revert this
  decide +kernel

/-- The hypotheses of `c75_one_upload_partial`: the upload A is reconciled twice at once, two records
to a page. -/
def twice : List ShopEv := [.start "A", .start "A", .page 0 recA, .page 1 recA, .page 1 recA, .expire (1, 0), .page 0 recA, .page 1 recA, .page 0 recA]

example : (shopRun 1 shop twice).readings.map (fun r => (r.done, r.seen)) = [(true, recA), (true, recA)] ∧ Undoubled recA ∧ Listing (uploaded shop.stored "A") recA := by
  refine ⟨by decide +kernel, ?_, listA⟩
  unfold Undoubled
  decide +kernel

/-- **C75 fails for records of one date**: the pages of the same upload need not fit together; here one
record is handed out twice and the other not at all. -/
theorem c75_same_date_fails : ¬ C75Full := by
  intro h
  let x : Rec := { id := "x", amount := 1, date := 1 }
  let y : Rec := { id := "y", amount := 2, date := 1 }
  have hp := h 1 { stored := [("A", x), ("A", y)] } [.start "A", .page 0 [x, y], .page 0 [y, x], .page 0 [x, y]] (by omega) rfl rfl
    (by
      have hl1 : Listing (uploaded [("A", x), ("A", y)] "A") [x, y] := ⟨by decide +kernel, by decide +kernel⟩
      have hl2 : Listing (uploaded [("A", x), ("A", y)] "A") [y, x] := ⟨by decide +kernel, by decide +kernel⟩
      refine ⟨?_, ?_, ?_, ?_, trivial⟩ <;> intro n answer r h1 h2 <;> cases h1
      · have : r.upload = "A" := by
          have h2' : (some { upload := "A" } : Option Reading) = some r := h2
          rw [← Option.some.inj h2']
        rw [this]; exact hl1
      · have : r.upload = "A" := by
          have h2' : (some { upload := "A", off := 1, seen := [x] } : Option Reading) = some r := h2
          rw [← Option.some.inj h2']
        rw [this]; exact hl2
      · have : r.upload = "A" := by
          have h2' : (some { upload := "A", off := 2, seen := [x, x] } : Option Reading) = some r := h2
          rw [← Option.some.inj h2']
        rw [this]; exact hl1)
    (by intro e he u r hc; subst hc; simp at he)
    { upload := "A", off := 2, seen := [x, x], done := true } (by decide +kernel) rfl
  have := hp.symm.subset (a := y) (by decide +kernel)
  revert this
  decide +kernel

/-! ### C78 and C79 -/

theorem processAll_spec {dry : Bool} : ∀ {os : List Outcome} {t : Tally}, (processAll dry t os).failed = false →
    t.failed = false ∧ (processAll dry t os).matched = t.matched + (os.flatMap (·.matched)).length ∧
      (processAll dry t os).unmatched = t.unmatched + (os.flatMap (·.unmatched)).length ∧
      (processAll dry t os).rows = t.rows ++ (if dry then [] else (os.flatMap (·.matched)).map matchRow) ∧
      (processAll dry t os).misses = t.misses ++ (if dry then [] else os.flatMap (·.unmatched)) := by
  intro os
  induction os with
  | nil => intro t h; exact ⟨h, by simp [processAll], by simp [processAll], by cases dry <;> simp [processAll], by cases dry <;> simp [processAll]⟩
  | cons o os ih =>
    intro t h
    rw [processAll] at h ⊢
    obtain ⟨h1, h2, h3, h4, h5⟩ := ih h
    rw [h2, h3, h4, h5]
    unfold process at h1 ⊢
    cases dry with
    | true =>
      simp only [if_true] at h1 ⊢
      exact ⟨h1, by simp [Nat.add_assoc], by simp [Nat.add_assoc], by simp, by simp⟩
    | false =>
      simp only [Bool.false_eq_true, if_false] at h1 ⊢
      split
      · rename_i hc
        rw [if_pos hc] at h1
        exact ⟨h1, by simp [Nat.add_assoc], by simp [Nat.add_assoc], by simp, by simp⟩
      · rename_i hc
        rw [if_neg hc] at h1
        simp at h1

theorem processAll_dry : ∀ {os : List Outcome} {t : Tally}, (processAll true t os).rows = t.rows ∧ (processAll true t os).misses = t.misses ∧
    (processAll true t os).failed = t.failed := by
  intro os
  induction os with
  | nil => intro t; exact ⟨rfl, rfl, rfl⟩
  | cons o os ih =>
    intro t
    rw [processAll]
    obtain ⟨h1, h2, h3⟩ := ih (t := process true t o)
    exact ⟨h1.trans rfl, h2.trans rfl, h3.trans rfl⟩

/-- **C78: the figures are what was stored.** A completed reconciliation that is no dry run stored every
match and every unmatched report of its records, and its two figures are their numbers. -/
theorem c78_figures {os : List Outcome} (hc : (finish (processAll false {} os)).completed = true) :
    (finish (processAll false {} os)).matched = (processAll false {} os).rows.length ∧
      (finish (processAll false {} os)).unmatched = (processAll false {} os).misses.length ∧
      (processAll false {} os).rows.map (fun r => (r.external, r.internal)) = (os.flatMap (·.matched)).map (fun m => (m.external, m.internal)) ∧
      (processAll false {} os).misses = os.flatMap (·.unmatched) := by
  have hf : (processAll false {} os).failed = false := by
    unfold finish at hc
    split at hc
    · simp at hc
    · rename_i h; simpa using h
  obtain ⟨_, h2, h3, h4, h5⟩ := processAll_spec hf
  simp only [Bool.false_eq_true, if_false, List.nil_append, Nat.zero_add] at h2 h3 h4 h5
  unfold finish
  rw [hf]
  simp only [Bool.false_eq_true, if_false]
  rw [h2, h3, h4, h5]
  refine ⟨by simp, rfl, ?_, rfl⟩
  rw [List.map_map]
  rfl

/-- **C78: a dry run stores nothing**, completes, and gives the figures a real run of the same records
gives if that one completes. -/
theorem c78_dry_run {os : List Outcome} : (processAll true {} os).rows = [] ∧ (processAll true {} os).misses = [] ∧
    (finish (processAll true {} os)).completed = true ∧
    ((finish (processAll false {} os)).completed = true → finish (processAll true {} os) = finish (processAll false {} os)) := by
  obtain ⟨h1, h2, h3⟩ := processAll_dry (os := os) (t := {})
  refine ⟨h1, h2, by unfold finish; rw [h3]; rfl, ?_⟩
  intro hc
  have hf : (processAll false {} os).failed = false := by
    unfold finish at hc
    split at hc
    · simp at hc
    · rename_i h; simpa using h
  obtain ⟨_, a2, a3, _⟩ := processAll_spec hf
  obtain ⟨_, b2, b3, _⟩ := processAll_spec (dry := true) (os := os) (t := {}) h3
  unfold finish
  rw [h3, hf, a2, a3, b2, b3]

/-- An amount with two decimals, of at most ten digits before them. -/
def TwoDecimals (a : Rat) : Prop := ∃ z : Int, a = (z : Rat) / 100 ∧ z.natAbs < 10 ^ 12

theorem floor_add_half (z : Int) : ((z : Rat) + 1 / 2).floor = z := by
  apply Int.le_antisymm
  · have h : (((z : Rat) + 1 / 2).floor : Rat) ≤ (z : Rat) + 1 / 2 := Rat.floor_le _
    have h2 : (((z : Rat) + 1 / 2).floor : Rat) < ((z + 1 : Int) : Rat) := by
      rw [Rat.intCast_add]
      have h3 : ((1 : Int) : Rat) = 1 := rfl
      rw [h3]
      grind
    have := Rat.intCast_lt_intCast.1 h2
    omega
  · rw [Rat.le_floor_iff]
    grind

theorem cents_two {z : Int} : cents ((z : Rat) / 100) = z := by
  unfold cents
  split
  · have : (z : Rat) / 100 * 100 = z := by grind
    rw [this, floor_add_half]
  · have : -((z : Rat) / 100) * 100 = ((-z : Int) : Rat) := by rw [Rat.intCast_neg]; grind
    rw [this, floor_add_half]
    omega

/-- **C79 for amounts with two decimals**: if all amounts have at most two decimals and ten digits
before them, the run completes and every stored match carries the amount reported. -/
theorem c79_amounts_partial {os : List Outcome} (h : ∀ o ∈ os, ∀ m ∈ o.matched, TwoDecimals m.amount) :
    (finish (processAll false {} os)).completed = true ∧
      (processAll false {} os).rows.map (·.amount) = (os.flatMap (·.matched)).map (·.amount) := by
  have hok : ∀ (os : List Outcome) (t : Tally), (∀ o ∈ os, ∀ m ∈ o.matched, TwoDecimals m.amount) → t.failed = false → (processAll false t os).failed = false := by
    intro os
    induction os with
    | nil => intro t _ h; exact h
    | cons o os ih =>
      intro t h ht
      rw [processAll]
      refine ih _ (fun o ho => h o (by simp [ho])) ?_
      unfold process
      simp only [Bool.false_eq_true, if_false]
      rw [if_pos]
      · exact ht
      · rw [List.all_eq_true]
        intro m hm
        obtain ⟨z, hz, hl⟩ := h o (by simp) m hm
        unfold storable
        rw [hz, cents_two]
        simpa using hl
  have hf := hok os {} h rfl
  refine ⟨by unfold finish; rw [hf]; rfl, ?_⟩
  obtain ⟨_, _, _, h4, _⟩ := processAll_spec hf
  rw [h4]
  simp only [Bool.false_eq_true, if_false, List.nil_append, List.map_map]
  apply List.map_congr_left
  intro m hm
  obtain ⟨o, ho, hm'⟩ := List.mem_flatMap.1 hm
  obtain ⟨z, hz, _⟩ := h o ho m hm'
  simp only [Function.comp_apply, matchRow]
  rw [hz, cents_two]

/-- **C79 as stated.** -/
def C79Full : Prop := ∀ os : List Outcome, (finish (processAll false {} os)).completed = true ∧
  (processAll false {} os).rows.map (·.amount) = (os.flatMap (·.matched)).map (·.amount)

/-- **C79 fails**: the third decimal is rounded away. -/
theorem c79_full_fails : ¬ C79Full := by
  intro h
  have := (h [{ matched := [{ external := "e", internal := "t", amount := 1235 / 1000, date := 0 }], unmatched := [] }]).2
  revert this
  decide +kernel

/-- **C79 fails: one large match fails the run**, though its amount could be uploaded
(`sql/1765154909.sql:17` widened only the external records). What other records stored stays. -/
theorem c79_large_fails : ∃ os : List Outcome, (finish (processAll false {} os)) = { completed := false, matched := 0, unmatched := 0 } ∧
    (processAll false {} os).rows.length = 1 ∧ os.length = 2 := by
  refine ⟨[{ matched := [{ external := "e", internal := "t", amount := 5, date := 0 }], unmatched := [] },
    { matched := [{ external := "f", internal := "u", amount := 10 ^ 10, date := 0 }], unmatched := [] }], ?_⟩
  decide +kernel

/-- A run of three records: one matched with two transactions, one unmatched, one matched. -/
example : let os : List Outcome := [{ matched := [{ external := "e", internal := "t", amount := 5, date := 0 }, { external := "e", internal := "u", amount := 5, date := 0 }], unmatched := [] },
    { matched := [], unmatched := ["f"] }, { matched := [{ external := "g", internal := "v", amount := 1 / 4, date := 0 }], unmatched := [] }]
    finish (processAll false {} os) = { completed := true, matched := 3, unmatched := 1 } ∧ (processAll false {} os).rows.map (·.amount) = [5, 5, 1 / 4] ∧
    finish (processAll true {} os) = { completed := true, matched := 3, unmatched := 1 } ∧ TwoDecimals (1 / 4) ∧ TwoDecimals 5 := by
  refine ⟨by decide +kernel, by decide +kernel, by decide +kernel, ⟨25, by decide +kernel, by decide⟩, ⟨500, by decide +kernel, by decide⟩⟩

end Blnk.Recon
