import Verif.Model.Window
import Verif.Props.QueuedSplit
/-
C196: every stuck row is dealt with by recovery in the end.
C197: what a call to recover answers.
-/
namespace Blnk.Window
open Queue

/-! ### Specification -/

/-- Another transaction has the reference a copy of this row would get. -/
def refTaken (db : DB) (row : Txn) : Bool :=
  db.txns.any fun c => decide (c.reference = row.reference ++ "_q") && decide (c.parent ≠ row.id)

/-- The row is part of an atomic request with a REJECTED row under its mark. -/
def passedOver (db : DB) (row : Txn) : Bool :=
  decide (row.metaAtomic = some true) && decide (row.metaQueuedParent ≠ "") &&
    db.txns.any fun c => decide (c.parent = row.metaQueuedParent) && decide (c.status = .rejected)

/-- Recovery can do something about the row. -/
def free (reads : Txn → Bool) (db : DB) (row : Txn) : Bool := reads row && !refTaken db row && !passedOver db row

/-- The other rows that stand before or beside `r` in the order of the query. -/
def ahead (db : DB) (r : Txn) : List Txn :=
  db.txns.filter fun x => decide (x.status = .queued) && decide (x.createdAt ≤ r.createdAt) && decide (x ≠ r)

/-! ### One row -/

theorem refTaken_mono {db db' : DB} (h : Grown db db') {row : Txn} (hf : refTaken db' row = false) : refTaken db row = false := by
  unfold refTaken at *
  rw [List.any_eq_false] at *
  exact fun c hc => hf c (h.subset hc)

theorem passedOver_mono {db db' : DB} (h : Grown db db') {row : Txn} (hf : passedOver db' row = false) : passedOver db row = false := by
  unfold passedOver at *
  rw [Bool.and_eq_false_iff] at *
  rcases hf with hf | hf
  · exact .inl hf
  · right
    rw [List.any_eq_false] at *
    exact fun c hc => hf c (h.subset hc)

theorem free_mono {reads : Txn → Bool} {db db' : DB} (h : Grown db db') {row : Txn} (hf : free reads db' row = true) :
    reads row = true ∧ refTaken db row = false ∧ passedOver db row = false := by
  unfold free at hf
  simp only [Bool.and_eq_true, Bool.not_eq_true'] at hf
  exact ⟨hf.1.1, refTaken_mono h hf.1.2, passedOver_mono h hf.2⟩

/-- The row has a child. -/
def Done (db : DB) (row : Txn) : Prop := ∃ c ∈ db.txns, c.parent = row.id

theorem isStuck_iff {db : DB} {row : Txn} : isStuck db row = true ↔ row.status = .queued ∧ ¬ Done db row := by
  unfold isStuck Done
  simp

theorem recordSingle_grown {cfg : Cfg} {db : DB} {t : Txn} {n1 n2 : String} : Grown db (recordSingle cfg db t n1 n2).1 := by
  unfold recordSingle
  split
  · exact List.prefix_refl _
  · rename_i db1 sid h1
    have e1 := (resolve_balances h1).1
    split
    · rw [Grown, e1]; exact List.prefix_refl _
    · rename_i db2 did h2
      have e2 := (resolve_balances h2).1.trans e1
      unfold postResolved
      split
      · rw [Grown, e2]; exact List.prefix_refl _
      · rw [Grown, e2]; exact List.prefix_refl _
      · split
        · rename_i hp
          obtain ⟨_, _, _, rfl⟩ := persist_ok hp
          exact ⟨_, by simp [e2]; rfl⟩
        · rw [Grown, e2]; exact List.prefix_refl _

theorem recordSingle_child {cfg : Cfg} {db db' : DB} {t : Txn} {n1 n2 : String} {rows : List Txn}
    (h : recordSingle cfg db t n1 n2 = (db', .posted rows)) : ∃ c ∈ db'.txns, c.parent = t.parent := by
  unfold recordSingle at h
  split at h
  · cases h
  · split at h
    · cases h
    · unfold postResolved at h
      split at h
      · cases h
      · cases h
      · rename_i w hw
        split at h
        · rename_i hp
          cases h
          obtain ⟨_, _, _, rfl⟩ := persist_ok hp
          unfold prepareSingle at hw
          split at hw
          · cases hw
          · split at hw
            · split at hw
              · cases hw
              · split at hw
                · cases hw
                · cases hw
                  exact ⟨_, List.mem_append_right _ (List.mem_singleton.2 rfl), (finalRow_keeps _).2.2.2.2.2⟩
            · cases hw
        · cases h

theorem recordBatch_grown {cfg : Cfg} {db : DB} {ts : List Txn} : Grown db (recordBatch cfg db ts).1 := by
  unfold recordBatch
  split
  · exact List.prefix_refl _
  · split
    · rename_i hp
      obtain ⟨_, _, _, rfl⟩ := persist_ok hp
      exact List.prefix_append _ _
    · exact List.prefix_refl _

theorem recordBatch_child {cfg : Cfg} {db db' : DB} {t : Txn} {ts rows : List Txn}
    (h : recordBatch cfg db (t :: ts) = (db', .posted rows)) : ∃ c ∈ db'.txns, c.parent = t.parent := by
  unfold recordBatch at h
  split at h
  · cases h
  · rename_i w hw
    split at h
    · rename_i hp
      cases h
      obtain ⟨_, _, _, rfl⟩ := persist_ok hp
      unfold prepareBatch at hw
      split at hw
      · cases hw
      · split at hw
        · cases hw
        · split at hw
          · cases hw
          · rename_i rows' bs' hm
            cases hw
            rw [prepareMembers_rows hm]
            exact ⟨finalRow (batchMember t), by simp, (finalRow_keeps _).2.2.2.2.2⟩
    · cases h

theorem tryBatch_grown {cfg : Cfg} {db : DB} {t : Txn} {sibs : List Txn} : Grown db (tryBatch cfg db t sibs).1 := by
  unfold tryBatch
  split
  · exact List.prefix_refl _
  · have := recordBatch_grown (cfg := cfg) (db := db) (ts := t :: sibs)
    split
    · rename_i h; rw [h] at this; exact this
    · rename_i h; rw [h] at this; exact this

theorem tryBatch_child {cfg : Cfg} {db db' : DB} {t : Txn} {sibs : List Txn} (h : tryBatch cfg db t sibs = (db', true)) :
    ∃ c ∈ db'.txns, c.parent = t.parent := by
  unfold tryBatch at h
  split at h
  · cases h
  · split at h
    · rename_i hb; cases h; exact recordBatch_child hb
    · cases h

theorem copy_fields (row : Txn) (i : String) : (queueCopy (restore (scan row)) i).parent = row.id ∧
    (queueCopy (restore (scan row)) i).reference = row.reference ++ "_q" ∧ (queueCopy (restore (scan row)) i).id = i := by
  have k := applyPrecision_keeps ({ row with allowOverdraft := false, overdraftLimit := 0, inflight := false, atomic := false, skipQueue := false, effectiveDate := 0 } : Txn)
  simp [queueCopy, restore, scan, k]

theorem recover_grown {cfg : Cfg} {e : REnv} {s : RSys} {row : Txn} : Grown s.db (recoverRow cfg 3 e s row).1.db := by
  unfold recoverRow
  simp only
  split
  · simp only [step]
    split
    · rename_i h
      obtain ⟨_, _, rfl⟩ := insertTxn_ok h
      exact List.prefix_append _ _
    · exact List.prefix_refl _
  · split
    · exact List.prefix_refl _
    · simp only
      split
      · exact List.prefix_refl _
      · split
        · rename_i h
          have := tryBatch_grown (cfg := cfg) (db := s.db) (t := queueCopy (restore (scan row)) e.newId) (sibs := e.sibs)
          rw [h] at this
          exact this
        · rename_i db1 h
          have h1 := tryBatch_grown (cfg := cfg) (db := s.db) (t := queueCopy (restore (scan row)) e.newId) (sibs := e.sibs)
          rw [h] at h1
          have h2 := recordSingle_grown (cfg := cfg) (db := db1) (t := queueCopy (restore (scan row)) e.newId) (n1 := e.n1) (n2 := e.n2)
          split
          · rename_i h3; rw [h3] at h2; exact h1.trans h2
          · rename_i h3; rw [h3] at h2; exact h1.trans h2

theorem recover_attempts {cfg : Cfg} {e : REnv} {s : RSys} {row : Txn} (i : String) :
    s.attempts i ≤ (recoverRow cfg 3 e s row).1.attempts i := by
  unfold recoverRow
  simp only
  split
  · exact Int.le_refl _
  · split
    · exact Int.le_refl _
    · simp only
      split
      · exact Int.le_refl _
      · show s.attempts i ≤ if i = row.id then s.attempts row.id + 1 else s.attempts i
        split
        · rename_i h; rw [h]; omega
        · exact Int.le_refl _

/-- **C196, one pass.** A pass over a row that recovery can do something about leaves a child of the row, or the
count one higher and at most three. -/
theorem recover_progress {cfg : Cfg} {e : REnv} {s : RSys} {row : Txn} (hn : s.db.hasTxnId e.newId = false)
    (hl : e.metaLost = false) (h1 : refTaken s.db row = false) (h2 : passedOver s.db row = false) :
    Done (recoverRow cfg 3 e s row).1.db row ∨
    ((recoverRow cfg 3 e s row).1.attempts row.id = s.attempts row.id + 1 ∧ s.attempts row.id ≤ 2) := by
  obtain ⟨cp, cr, ci⟩ := copy_fields row e.newId
  obtain ⟨ra, rm⟩ := Halves.restored (row := row)
  unfold recoverRow
  simp only
  by_cases h3 : 3 < s.attempts row.id + 1
  · rw [if_pos h3]
    left
    simp only [step]
    cases hi : s.db.insertTxn (rejectedRow (queueCopy (restore (scan row)) e.newId)) with
    | ok db' =>
      obtain ⟨_, _, rfl⟩ := insertTxn_ok hi
      exact ⟨_, List.mem_append_right _ (List.mem_singleton.2 rfl), cp⟩
    | error er =>
      unfold DB.insertTxn at hi
      have e1 : (rejectedRow (queueCopy (restore (scan row)) e.newId)).id = e.newId := ci
      have e2 : (rejectedRow (queueCopy (restore (scan row)) e.newId)).reference = row.reference ++ "_q" := cr
      rw [e1, e2, hn] at hi
      simp only [Bool.false_eq_true, if_false] at hi
      split at hi
      · rename_i hr
        unfold DB.hasRef at hr
        rw [List.any_eq_true] at hr
        obtain ⟨c, hc, hr⟩ := hr
        refine ⟨c, hc, ?_⟩
        unfold refTaken at h1
        rw [List.any_eq_false] at h1
        have := h1 c hc
        simp only [of_decide_eq_true hr, decide_true, Bool.true_and, decide_eq_true_eq, Decidable.not_not] at this
        exact this
      · cases hi
  · rw [if_neg h3, if_neg]
    · simp only
      split
      · right
        simp only [hl, Bool.false_eq_true, if_false, if_true]
        exact ⟨trivial, by omega⟩
      · split
        · rename_i h
          left
          obtain ⟨c, hc, hp⟩ := tryBatch_child h
          exact ⟨c, hc, hp.trans cp⟩
        · split
          · rename_i h
            left
            obtain ⟨c, hc, hp⟩ := recordSingle_child h
            exact ⟨c, hc, hp.trans cp⟩
          · right
            simp only [hl, Bool.false_eq_true, if_false, if_true]
            exact ⟨trivial, by omega⟩
    · simp only [ra, rm, Bool.and_eq_true, decide_eq_true_eq, List.any_eq_true]
      rintro ⟨⟨a, b⟩, c, hc, d⟩
      unfold passedOver at h2
      rw [Bool.and_eq_false_iff, Bool.and_eq_false_iff] at h2
      have a' : row.metaAtomic = some true := by
        cases hm : row.metaAtomic with
        | none => rw [hm] at a; cases a
        | some v => rw [hm] at a; exact congrArg some a
      rcases h2 with (h2 | h2) | h2
      · exact absurd a' (of_decide_eq_false h2)
      · exact (of_decide_eq_false h2) (by simpa using b)
      · rw [List.any_eq_false] at h2
        exact h2 c hc (by simp [d.1, d.2])

/-! ### One sweep -/

/-- How many more passes the row may need. -/
def need (s : RSys) (row : Txn) : Nat :=
  if isStuck s.db row = true then max 1 (4 - s.attempts row.id).toNat else 0

theorem stuck_back {db db' : DB} (h : Grown db db') {row : Txn} (hs : isStuck db' row = true) : isStuck db row = true := by
  rw [isStuck_iff] at *
  exact ⟨hs.1, fun ⟨c, hc, e⟩ => hs.2 ⟨c, h.subset hc, e⟩⟩

theorem need_mono {s s' : RSys} (h : Grown s.db s'.db) (ha : ∀ i, s.attempts i ≤ s'.attempts i) (row : Txn) : need s' row ≤ need s row := by
  unfold need
  split
  · rename_i hs
    rw [if_pos (stuck_back h hs)]
    have := ha row.id
    omega
  · exact Nat.zero_le _

theorem loop_mono {cfg : Cfg} {reads : Txn → Bool} {others : DB → DB → Prop} (ho : ∀ a b, others a b → Grown a b) {s s' : RSys} {rows : List Txn} (h : Loop cfg reads others s rows s') :
    Grown s.db s'.db ∧ ∀ i, s.attempts i ≤ s'.attempts i := by
  induction h with
  | nil s db hg => exact ⟨ho _ _ hg, fun i => Int.le_refl _⟩
  | skip _ _ ih => exact ih
  | @row s s' row rows db e _ hg _ _ _ ih =>
    have hg := ho _ _ hg
    refine ⟨(List.IsPrefix.trans hg (recover_grown (s := { s with db := db }))).trans ih.1, fun i => ?_⟩
    exact Int.le_trans (recover_attempts (s := { s with db := db }) i) (ih.2 i)

/-- A sweep that comes over a stuck row recovery can do something about brings it closer. -/
theorem loop_progress {cfg : Cfg} {reads : Txn → Bool} {others : DB → DB → Prop} (ho : ∀ a b, others a b → Grown a b) {s s' : RSys} {rows : List Txn} (h : Loop cfg reads others s rows s')
    {x : Txn} (hx : x ∈ rows) (hf : free reads s'.db x = true) (hs : isStuck s.db x = true) : need s' x + 1 ≤ need s x := by
  induction h with
  | nil s db hg => cases hx
  | @skip s s' row rows hr _ ih =>
    rcases List.mem_cons.1 hx with rfl | hx
    · rw [(free_mono (List.prefix_refl _) hf).1] at hr; cases hr
    · exact ih hx hf hs
  | @row s s' row rows db e hr hg hn hl hrest ih =>
    have hg := ho _ _ hg
    have g1 : Grown db (recoverRow cfg 3 e { s with db := db } row).1.db := recover_grown (s := { s with db := db })
    have m := loop_mono ho hrest
    by_cases hst : isStuck s'.db x = true
    · have hdb : isStuck db x = true := stuck_back g1 (stuck_back m.1 hst)
      have start : need { s with db := db } x ≤ need s x := need_mono (s' := { s with db := db }) hg (fun _ => Int.le_refl _) x
      rcases List.mem_cons.1 hx with rfl | hx
      · obtain ⟨_, f1, f2⟩ := free_mono (g1.trans m.1) hf
        rcases recover_progress (cfg := cfg) (e := e) (s := { s with db := db }) hn hl f1 f2 with hd | ⟨ha, hb⟩
        · exact absurd hd (isStuck_iff.1 (stuck_back m.1 hst)).2
        · have h1 := need_mono m.1 m.2 x
          have h2 : need (recoverRow cfg 3 e { s with db := db } x).1 x + 1 ≤ need { s with db := db } x := by
            unfold need
            rw [if_pos (stuck_back m.1 hst), if_pos hdb, ha]
            show max 1 (4 - (s.attempts x.id + 1)).toNat + 1 ≤ max 1 (4 - s.attempts x.id).toNat
            have : s.attempts x.id ≤ 2 := hb
            omega
          omega
      · have h1 := ih hx hf (stuck_back m.1 hst)
        have h2 := need_mono (s := { s with db := db }) g1 (fun i => recover_attempts i) x
        omega
    · have e1 : need s' x = 0 := by unfold need; rw [if_neg hst]
      have e2 : 1 ≤ need s x := by unfold need; rw [if_pos hs]; omega
      omega

/-! ### Counting -/

theorem sum_drop {α : Type} [DecidableEq α] {f g : α → Nat} : ∀ {G Q : List α}, Q.Nodup → (∀ x ∈ Q, x ∈ G) → (∀ x, f x ≤ g x) →
    (∀ x ∈ Q, f x + 1 ≤ g x) → (G.map f).sum + Q.length ≤ (G.map g).sum := by
  intro G
  induction G with
  | nil =>
    intro Q _ hs _ _
    cases Q with
    | nil => simp
    | cons q Q => exact absurd (hs q (by simp)) (by simp)
  | cons y G ih =>
    intro Q hn hs hle hq
    simp only [List.map_cons, List.sum_cons]
    by_cases hy : y ∈ Q
    · have h1 := ih (Q := Q.erase y) (hn.erase y)
        (fun x hx => by
          have hx' := (List.Nodup.mem_erase_iff hn).1 hx
          rcases List.mem_cons.1 (hs x hx'.2) with h | h
          · exact absurd h hx'.1
          · exact h) hle (fun x hx => hq x (List.mem_of_mem_erase hx))
      have h2 := hq y hy
      have h3 : (Q.erase y).length + 1 = Q.length := by
        rw [List.length_erase_of_mem hy]
        have := List.length_pos_of_mem hy
        omega
      omega
    · have h1 := ih (Q := Q) hn (fun x hx => by
          rcases List.mem_cons.1 (hs x hx) with rfl | h
          · exact absurd hx hy
          · exact h) hle hq
      have h2 := hle y
      omega

theorem nodup_subset_length {α : Type} [DecidableEq α] {P Q : List α} (hn : P.Nodup) (hs : ∀ x ∈ P, x ∈ Q) : P.length ≤ Q.length := by
  have := sum_drop (f := fun _ => 0) (g := fun _ => 1) hn hs (fun _ => Nat.zero_le _) (fun _ _ => Nat.le_refl _)
  have one : ∀ l : List α, (l.map (fun _ => 1)).sum = l.length := by
    intro l
    induction l with
    | nil => rfl
    | cons x l ih => simp only [List.map_cons, List.sum_cons, List.length_cons, ih]; omega
  rw [one] at this
  omega

theorem filter_split {α : Type} (p : α → Bool) (l : List α) :
    l.length = (l.filter p).length + (l.filter (fun x => !p x)).length := by
  induction l with
  | nil => rfl
  | cons x l ih => cases h : p x <;> simp [h] <;> omega

/-! ### Many sweeps -/

theorem sweeping_mono {cfg : Cfg} {reads : Txn → Bool} {others : DB → DB → Prop} (ho : ∀ a b, others a b → Grown a b) {b cut n : Nat} {s s' : RSys} (h : Sweeping cfg reads others b cut n s s') :
    Grown s.db s'.db := by
  induction h with
  | zero => exact List.prefix_refl _
  | succ _ h _ ih => exact (loop_mono ho h.2).1.trans ih

/-- What is left to do for `r`: the passes the rows ahead of it may need, and its own, weighted. -/
def load (reads : Txn → Bool) (F : DB) (c : Nat) (L : List Txn) (r : Txn) (s : RSys) : Nat :=
  ((L.filter (free reads F)).map (need s)).sum + c * need s r

theorem round_drop {cfg : Cfg} {reads : Txn → Bool} {others : DB → DB → Prop} (ho : ∀ a b, others a b → Grown a b) {b cutoff : Nat} {s s1 : RSys} {picked : List Txn} {F : DB} {L : List Txn} {r : Txn}
    (h : Sweeps1 cfg reads others b cutoff s picked s1) (hF : Grown s1.db F) (hn : s.db.txns.Nodup)
    (hL : ∀ x ∈ s.db.txns, x.status = .queued → x.createdAt ≤ r.createdAt → x ≠ r → x ∈ L)
    (hblock : (L.filter (fun x => !free reads F x)).length < b) (hr : r ∈ s.db.txns) (hcut : r.createdAt < cutoff)
    (hrf : free reads F r = true) (hst : isStuck s1.db r = true) :
    load reads F (b - (L.filter (fun x => !free reads F x)).length) L r s1 + (b - (L.filter (fun x => !free reads F x)).length) ≤
      load reads F (b - (L.filter (fun x => !free reads F x)).length) L r s := by
  obtain ⟨⟨⟨rest, hp, hord, hlen⟩, hsize⟩, hl⟩ := h
  have m := loop_mono ho hl
  have hsb := stuck_back m.1 hst
  have freeAt : ∀ x, free reads F x = true → free reads s1.db x = true := by
    intro x hx
    obtain ⟨a, b, c⟩ := free_mono hF hx
    simp [free, a, b, c]
  have hraged : r ∈ aged s.db cutoff := by
    unfold aged
    rw [List.mem_filter]
    exact ⟨hr, by simp [hsb, hcut]⟩
  have hrp := (hp.mem_iff).2 hraged
  have hmem : ∀ p ∈ picked, p ∈ s.db.txns ∧ isStuck s.db p = true := by
    intro p hpp
    have := (hp.mem_iff).1 (List.mem_append_left rest hpp)
    unfold aged at this
    rw [List.mem_filter] at this
    exact ⟨this.1, by simpa using (Bool.and_eq_true_iff.1 this.2).1⟩
  have hnd : picked.Nodup := by
    have : (aged s.db cutoff).Nodup := hn.filter _
    exact (List.nodup_append.1 (hp.nodup_iff.2 this)).1
  unfold load
  generalize hc : b - (L.filter (fun x => !free reads F x)).length = c
  rcases List.mem_append.1 hrp with hin | hout
  · have h1 := loop_progress ho hl hin (freeAt r hrf) hsb
    have h2 := sum_drop (f := need s1) (g := need s) (G := L.filter (free reads F)) (Q := []) List.nodup_nil (by simp)
      (need_mono m.1 m.2) (by simp)
    simp only [List.length_nil, Nat.add_zero] at h2
    have h3 : c * need s1 r + c ≤ c * need s r := by
      have := Nat.mul_le_mul_left c h1
      rw [Nat.mul_add, Nat.mul_one] at this
      exact this
    omega
  · by_cases hrin : r ∈ picked
    · have h1 := loop_progress ho hl hrin (freeAt r hrf) hsb
      have h2 := sum_drop (f := need s1) (g := need s) (G := L.filter (free reads F)) (Q := []) List.nodup_nil (by simp)
        (need_mono m.1 m.2) (by simp)
      simp only [List.length_nil, Nat.add_zero] at h2
      have h3 : c * need s1 r + c ≤ c * need s r := by
        have := Nat.mul_le_mul_left c h1
        rw [Nat.mul_add, Nat.mul_one] at this
        exact this
      omega
    · have hb : picked.length = b := by
        rcases hlen with h | h
        · exact h
        · rw [h] at hout; cases hout
      have inL : ∀ p ∈ picked, p ∈ L := by
        intro p hpp
        obtain ⟨a1, a2⟩ := hmem p hpp
        exact hL p a1 (isStuck_iff.1 a2).1 (hord p hpp r hout) (fun e => hrin (e ▸ hpp))
      have split1 : picked.length = (picked.filter (free reads F)).length + (picked.filter (fun x => !free reads F x)).length := filter_split _ _
      have few : (picked.filter (fun x => !free reads F x)).length ≤ (L.filter (fun x => !free reads F x)).length := by
        refine nodup_subset_length (hnd.filter _) ?_
        intro x hx
        rw [List.mem_filter] at hx ⊢
        exact ⟨inL x hx.1, hx.2⟩
      have h2 := sum_drop (f := need s1) (g := need s) (G := L.filter (free reads F)) (Q := picked.filter (free reads F)) (hnd.filter _)
        (fun x hx => by
          rw [List.mem_filter] at hx ⊢
          exact ⟨inL x hx.1, hx.2⟩)
        (need_mono m.1 m.2)
        (fun x hx => by
          rw [List.mem_filter] at hx
          exact loop_progress ho hl hx.1 (freeAt x hx.2) (hmem x hx.1).2)
      have h3 : c * need s1 r ≤ c * need s r := Nat.mul_le_mul_left c (need_mono m.1 m.2 r)
      omega

theorem rounds_drop {cfg : Cfg} {reads : Txn → Bool} {others : DB → DB → Prop} (ho : ∀ a b, others a b → Grown a b) {b cut n : Nat} {s s' : RSys} {L : List Txn} {r : Txn}
    (h : Sweeping cfg reads others b cut n s s') (F : DB) (hF : Grown s'.db F) (hn : F.txns.Nodup)
    (hL : ∀ x ∈ F.txns, x.status = .queued → x.createdAt ≤ r.createdAt → x ≠ r → x ∈ L)
    (hblock : (L.filter (fun x => !free reads F x)).length < b) (hr : r ∈ s.db.txns) (hcut : r.createdAt < cut)
    (hrf : free reads F r = true) (hst : isStuck s'.db r = true) :
    load reads F (b - (L.filter (fun x => !free reads F x)).length) L r s' + n * (b - (L.filter (fun x => !free reads F x)).length) ≤
      load reads F (b - (L.filter (fun x => !free reads F x)).length) L r s := by
  induction h with
  | zero => simp
  | @succ n cutoff s s1 s' picked hc h1 h2 ih =>
    have g2 := sweeping_mono ho h2
    have g1 := (loop_mono ho h1.2).1
    have i1 := ih hF (g1.subset hr) hst
    have i2 := round_drop ho h1 (g2.trans hF) (List.Nodup.sublist ((g1.trans (g2.trans hF)).sublist) hn)
      (fun x hx => hL x ((g1.trans (g2.trans hF)).subset hx)) hblock hr (by omega) hrf (stuck_back g2 hst)
    rw [Nat.succ_mul]
    omega

/-- **C196, proved part.** A stuck row that recovery can do something about has left after finitely many sweeps,
however many rows are added meanwhile: with `k` rows ahead of it, `m < b` of which recovery can do nothing about,
after `n` sweeps as soon as `n·(b−m) > 4·k + 4·(b−m)`. Missing are states in which the rows recovery can do nothing
about fill the limit. -/
theorem c196_leaves_partial (cfg : Cfg) (reads : Txn → Bool) (others : DB → DB → Prop) (ho : ∀ a b, others a b → Grown a b) (b cut n : Nat) (s s' : RSys) (r : Txn)
    (h : Sweeping cfg reads others b cut n s s') (hn : s'.db.txns.Nodup)
    (hnew : ∀ x ∈ s'.db.txns, x.status = .queued → x.createdAt ≤ r.createdAt → x ∈ s.db.txns)
    (ha : ∀ i, 0 ≤ s.attempts i) (hr : r ∈ s.db.txns) (hcut : r.createdAt < cut) (hrf : free reads s'.db r = true)
    (hblock : ((ahead s.db r).filter (fun x => !free reads s'.db x)).length < b)
    (hlong : 4 * (ahead s.db r).length + 4 * (b - ((ahead s.db r).filter (fun x => !free reads s'.db x)).length) <
      n * (b - ((ahead s.db r).filter (fun x => !free reads s'.db x)).length)) :
    isStuck s'.db r = false := by
  cases hst : isStuck s'.db r with
  | false => rfl
  | true =>
    exfalso
    have hL : ∀ x ∈ s'.db.txns, x.status = .queued → x.createdAt ≤ r.createdAt → x ≠ r → x ∈ ahead s.db r := by
      intro x hx h1 h2 h3
      unfold ahead
      rw [List.mem_filter]
      exact ⟨hnew x hx h1 h2, by simp [h1, h2, h3]⟩
    have := rounds_drop ho h s'.db (List.prefix_refl _) hn hL hblock hr hcut hrf hst
    have four : ∀ x, need s x ≤ 4 := by
      intro x
      unfold need
      have := ha x.id
      split <;> omega
    have hsum : (((ahead s.db r).filter (free reads s'.db)).map (need s)).sum ≤ 4 * (ahead s.db r).length := by
      have h1 : ∀ l : List Txn, (l.map (need s)).sum ≤ 4 * l.length := by
        intro l
        induction l with
        | nil => simp
        | cons x l ih => simp only [List.map_cons, List.sum_cons, List.length_cons]; have := four x; omega
      exact Nat.le_trans (h1 _) (Nat.mul_le_mul_left 4 (List.length_filter_le _ _))
    have hown : (b - ((ahead s.db r).filter (fun x => !free reads s'.db x)).length) * need s r ≤
        (b - ((ahead s.db r).filter (fun x => !free reads s'.db x)).length) * 4 := Nat.mul_le_mul_left _ (four r)
    unfold load at this
    omega

/-! ### Starvation -/

theorem recover_passed {cfg : Cfg} {e : REnv} {s : RSys} {row : Txn} (h : passedOver s.db row = true) (ha : s.attempts row.id ≤ 2) :
    recoverRow cfg 3 e s row = (s, .sibling) := by
  obtain ⟨ra, rm⟩ := Halves.restored (row := row)
  unfold passedOver at h
  simp only [Bool.and_eq_true, decide_eq_true_eq, List.any_eq_true] at h
  obtain ⟨⟨h1, h2⟩, c, hc, h3, h4⟩ := h
  unfold recoverRow
  simp only [ra, rm, h1]
  rw [if_neg (by omega), if_pos]
  simp only [Option.getD_some, Bool.true_and, Bool.and_eq_true, decide_eq_true_eq, List.any_eq_true]
  exact ⟨by simpa using h2, c, hc, by simp [h3, h4]⟩

theorem loop_passed {cfg : Cfg} {reads : Txn → Bool} {s s' : RSys} {rows : List Txn} (h : Loop cfg reads Eq s rows s')
    (hp : ∀ x ∈ rows, passedOver s.db x = true ∧ s.attempts x.id ≤ 2) : s' = s := by
  induction h with
  | nil s db hg => subst hg; rfl
  | skip _ _ ih => exact ih (fun x hx => hp x (by simp [hx]))
  | @row s s' row rows db e _ hg _ _ _ ih =>
    subst hg
    obtain ⟨h1, h2⟩ := hp row (by simp)
    have e1 : (recoverRow cfg 3 e { s with db := s.db } row).1 = s := by
      rw [show ({ s with db := s.db } : RSys) = s from rfl, recover_passed h1 h2]
    rw [e1] at ih
    exact ih (fun x hx => hp x (by simp [hx]))

/-- **C196 fails.** When as many rows as the limit are passed over, and they are the oldest, no number of sweeps does
anything: nothing younger is ever looked at. -/
theorem c196_starved (cfg : Cfg) (reads : Txn → Bool) (b cut n : Nat) (s s' : RSys) (S : List Txn)
    (h : Sweeping cfg reads Eq b cut n s s') (hn : s.db.txns.Nodup) (hS : S.Nodup) (hlen : S.length = b)
    (hin : ∀ x ∈ S, x ∈ s.db.txns ∧ isStuck s.db x = true ∧ x.createdAt < cut ∧ passedOver s.db x = true ∧ s.attempts x.id ≤ 2)
    (hold : ∀ x ∈ S, ∀ y ∈ s.db.txns, isStuck s.db y = true → y ∉ S → x.createdAt < y.createdAt) : s' = s := by
  induction h with
  | zero => rfl
  | @succ n cutoff s s1 s' picked hc h1 h2 ih =>
    obtain ⟨⟨⟨rest, hp, hord, _⟩, hsize⟩, hl⟩ := h1
    have hnd : picked.Nodup := (List.nodup_append.1 (hp.nodup_iff.2 (hn.filter _))).1
    have hsub : ∀ p ∈ picked, p ∈ S := by
      intro p hpp
      refine Decidable.byContradiction fun hno => ?_
      have : ∃ q ∈ S, q ∉ picked := by
        refine Decidable.byContradiction fun hall => ?_
        have hall' : ∀ q ∈ p :: S, q ∈ picked := by
          intro q hq
          rcases List.mem_cons.1 hq with rfl | hq
          · exact hpp
          · exact Decidable.byContradiction fun hh => hall ⟨q, hq, hh⟩
        have := nodup_subset_length (List.nodup_cons.2 ⟨hno, hS⟩) hall'
        simp only [List.length_cons] at this
        omega
      obtain ⟨q, hq, hqn⟩ := this
      obtain ⟨a1, a2, a3, _⟩ := hin q hq
      have hqa : q ∈ aged s.db cutoff := by
        unfold aged
        rw [List.mem_filter]
        exact ⟨a1, by simp [a2]; omega⟩
      have hpa := (hp.mem_iff).1 (List.mem_append_left rest hpp)
      unfold aged at hpa
      rw [List.mem_filter] at hpa
      rcases List.mem_append.1 ((hp.mem_iff).2 hqa) with hh | hh
      · exact hqn hh
      · have b1 := hord p hpp q hh
        have b2 := hold q hq p hpa.1 (Bool.and_eq_true_iff.1 hpa.2).1 hno
        omega
    have e : s1 = s := loop_passed hl (fun x hx => ⟨(hin x (hsub x hx)).2.2.2.1, (hin x (hsub x hx)).2.2.2.2⟩)
    subst e
    exact ih hn hin hold

/-- **C196, full claim.** Whatever else is stuck, a stuck row that recovery can do something about has left after
finitely many sweeps. -/
def C196Full : Prop := ∀ (cfg : Cfg) (reads : Txn → Bool) (others : DB → DB → Prop) (cut : Nat) (s : RSys) (r : Txn),
    (∀ a b, others a b → Grown a b) → s.db.txns.Nodup → (∀ i, 0 ≤ s.attempts i) → r ∈ s.db.txns → isStuck s.db r = true →
    r.createdAt < cut →
    ∃ n, ∀ s', Sweeping cfg reads others batchSize cut n s s' → free reads s'.db r = true → isStuck s'.db r = false

/-- One of a hundred items of an atomic bulk. -/
def waits (i : Nat) : Txn :=
  { id := "w" ++ Nat.repr i, reference := "wr" ++ Nat.repr i, parent := "bulk_1", source := "alice", destination := "bob", amount := 1,
    precision := 100, preciseAmount := some 100, status := .queued, metaAtomic := some true, metaQueuedParent := "bulk_1", createdAt := i }

def waiting100 : List Txn := (List.range 100).map waits

/-- The item of the bulk that was rejected under it. -/
def refusedItem : Txn := { id := "bad", reference := "badr", parent := "bulk_1", status := .rejected, metaAtomic := some true }

/-- A payment of somebody else, younger than the bulk. -/
def late : Txn :=
  { id := "late", reference := "lr", source := "alice", destination := "bob", amount := 1, precision := 100, preciseAmount := some 100,
    status := .queued, createdAt := 1000 }

def jam : RSys := { db := { Halves.books with txns := refusedItem :: (waiting100 ++ [late]) } }

theorem loop_through {cfg : Cfg} {s : RSys} (hid : s.db.hasTxnId "fresh" = false) : ∀ {rows : List Txn},
    (∀ x ∈ rows, passedOver s.db x = true ∧ s.attempts x.id ≤ 2) → Loop cfg (fun _ => true) Eq s rows s := by
  intro rows
  induction rows with
  | nil => intro _; exact .nil s s.db rfl
  | cons x rows ih =>
    intro h
    obtain ⟨h1, h2⟩ := h x (by simp)
    refine .row s.db { newId := "fresh" } rfl rfl hid rfl ?_
    rw [show ({ s with db := s.db } : RSys) = s from rfl, recover_passed h1 h2]
    exact ih (fun y hy => h y (by simp [hy]))

theorem jam_facts : jam.db.txns.Nodup ∧ (∀ x ∈ waiting100, isStuck jam.db x = true ∧ x.createdAt < 2000 ∧ passedOver jam.db x = true) ∧
    isStuck jam.db late = true ∧ free (fun _ => true) jam.db late = true ∧ jam.db.hasTxnId "fresh" = false ∧
    aged jam.db 2000 = waiting100 ++ [late] := by decide +kernel

theorem jam_sweep : Sweeps1 {} (fun _ => true) Eq batchSize 2000 jam waiting100 jam := by
  obtain ⟨_, hw, _, _, hid, hag⟩ := jam_facts
  refine ⟨⟨⟨[late], by rw [hag], ?_, .inl (by decide +kernel)⟩, by decide +kernel⟩, ?_⟩
  · decide +kernel
  · exact loop_through hid (fun x hx => ⟨(hw x hx).2.2, by show (0 : Int) ≤ 2; decide⟩)

theorem jam_sweeping : ∀ n, Sweeping {} (fun _ => true) Eq batchSize 2000 n jam jam := by
  intro n
  induction n with
  | zero => exact .zero _
  | succ n ih => exact .succ (Nat.le_refl _) jam_sweep ih

/-- **C196 fails in full.** A hundred items of one rejected atomic bulk keep recovery from every younger transaction. -/
theorem c196_full_fails : ¬ C196Full := by
  intro h
  obtain ⟨hn, _, hl, hf, _⟩ := jam_facts
  obtain ⟨n, hh⟩ := h {} (fun _ => true) Eq 2000 jam late (by rintro a _ rfl; exact List.prefix_refl _) hn (fun _ => Int.le_refl _)
    (by simp [jam]) hl (by decide)
  have := hh jam (jam_sweeping n) hf
  rw [hl] at this
  cases this

/-- The hypotheses of `c196_starved` in this case, and what it says. -/
example (n : Nat) (s' : RSys) (h : Sweeping {} (fun _ => true) Eq batchSize 2000 n jam s') : s' = jam := by
  obtain ⟨hn, hw, _⟩ := jam_facts
  refine c196_starved {} _ batchSize 2000 n jam s' waiting100 h hn (by decide +kernel) (by decide +kernel) ?_ (by decide +kernel)
  intro x hx
  obtain ⟨a, b, c⟩ := hw x hx
  exact ⟨List.mem_cons_of_mem _ (List.mem_append_left _ hx), a, b, c, by show (0 : Int) ≤ 2; decide⟩

theorem idle {cfg : Cfg} {s : RSys} {cut : Nat} (h : aged s.db cut = []) : ∀ n, Sweeping cfg (fun _ => true) Eq batchSize cut n s s := by
  intro n
  induction n with
  | zero => exact .zero _
  | succ n ih =>
    refine .succ (Nat.le_refl _) (picked := []) ⟨⟨⟨[], by rw [h]; exact List.Perm.refl _, by simp, .inr rfl⟩, by simp⟩, .nil s s.db rfl⟩ ih

/-- One stuck payment: applied by the first of five sweeps. -/
def oneLate : RSys := { db := { Halves.books with txns := [late] } }

def afterOne : RSys := (recoverRow {} 3 { newId := "again" } oneLate late).1

example : Sweeping {} (fun _ => true) Eq batchSize 2000 5 oneLate afterOne ∧ isStuck oneLate.db late = true ∧
    isStuck afterOne.db late = false := by
  have hag : aged oneLate.db 2000 = [late] := by decide +kernel
  have hx : Sweeping {} (fun _ => true) Eq batchSize 2000 5 oneLate afterOne := by
    refine .succ (Nat.le_refl _) (picked := [late]) (s1 := afterOne) ⟨⟨⟨[], by rw [hag]; exact List.Perm.refl _, by simp, .inr rfl⟩, by decide⟩, ?_⟩
      (idle (by decide +kernel) 4)
    exact .row oneLate.db { newId := "again" } rfl rfl (by decide +kernel) rfl (.nil _ _ rfl)
  refine ⟨hx, by decide +kernel, ?_⟩
  exact c196_leaves_partial {} _ Eq (by rintro a _ rfl; exact List.prefix_refl _) batchSize 2000 5 oneLate afterOne late hx (by decide +kernel)
    (by decide +kernel) (fun _ => Int.le_refl _) (by decide +kernel) (by decide) (by decide +kernel) (by decide +kernel) (by decide +kernel)

/-! ### C197: the answer -/

/-- What a call at time `now` reads: the rows the query picked whose metadata can be read, or nothing if the database
did not answer. -/
def Reads (reads : Txn → Bool) (db : DB) (now : Nat) (threshold : Option Int) (read : Option (List Txn)) : Prop :=
  read = none ∨ ∃ picked, Picks batchSize (now - (inForce (threshold.getD 120)).toNat) db picked ∧ read = some (picked.filter reads)

/-- **C197, full claim.** A call that answers `recovered: 0` says that nothing older than the threshold it names is
stuck. -/
def C197Full : Prop := ∀ (reads : Txn → Bool) (db : DB) (now : Nat) (threshold : Option Int) (read : Option (List Txn)),
    Reads reads db now threshold read → (answer threshold read).recovered = 0 →
    aged db (now - (answer threshold read).threshold.toNat) = []

/-- **C197, proved part.** It does if the threshold was not below two minutes, the database answered and all metadata
can be read. -/
theorem c197_none_partial (reads : Txn → Bool) (db : DB) (now : Nat) (threshold : Option Int) (rows : List Txn)
    (h : Reads reads db now threshold (some rows)) (ht : 120 ≤ threshold.getD 120) (hr : ∀ x ∈ db.txns, reads x = true)
    (h0 : (answer threshold (some rows)).recovered = 0) :
    aged db (now - (answer threshold (some rows)).threshold.toNat) = [] := by
  rcases h with h | ⟨picked, ⟨⟨rest, hp, _, hl⟩, _⟩, h⟩
  · cases h
  · have e1 : inForce (threshold.getD 120) = threshold.getD 120 := by unfold inForce; rw [if_neg (by omega)]
    rw [e1] at hp
    have hall : picked.filter reads = picked := by
      rw [List.filter_eq_self]
      intro x hx
      have := (hp.mem_iff).1 (List.mem_append_left rest hx)
      unfold aged at this
      exact hr x (List.mem_filter.1 this).1
    have hlen : picked.length = 0 := by
      have e2 : rows = picked := (Option.some.inj h).trans hall
      rw [← e2]
      exact h0
    have hp0 : picked = [] := List.eq_nil_of_length_eq_zero hlen
    subst hp0
    rcases hl with hl | hl
    · cases hl
    · subst hl
      exact (List.Perm.nil_eq hp).symm

example : Reads (fun _ => true) Halves.books 500 (some 180) (some []) ∧ (answer (some 180) (some [])).recovered = 0 :=
  ⟨.inr ⟨[], ⟨⟨[], by decide +kernel, by simp, .inr rfl⟩, by decide⟩, rfl⟩, rfl⟩

/-- **C197 fails in full**, when the database does not answer: the call answers 200 with `recovered: 0`. -/
theorem c197_failed_fails : ¬ C197Full := by
  intro h
  have := h (fun _ => true) oneLate.db 5000 none none (.inl rfl) rfl
  revert this
  decide +kernel

/-- It fails for a threshold below two minutes too: the threshold named is the one asked for, not the one used. -/
theorem c197_threshold_fails : ∃ (db : DB) (now : Nat) (read : Option (List Txn)), Reads (fun _ => true) db now (some 1) read ∧
    read ≠ none ∧ answer (some 1) read = ⟨0, 1⟩ ∧ aged db (now - 1) ≠ [] :=
  ⟨oneLate.db, 1060, some [], .inr ⟨[], ⟨⟨[], by decide +kernel, by simp, .inr rfl⟩, by decide⟩, rfl⟩, by decide, rfl, by decide +kernel⟩

/-- And a call that keeps answering a number need not do anything: in the jam above every call answers 100. -/
theorem c197_busy_fails : Reads (fun _ => true) jam.db 2120 none (some waiting100) ∧ (answer none (some waiting100)).recovered = 100 ∧
    Sweeps1 {} (fun _ => true) Eq batchSize 2000 jam waiting100 jam := by
  refine ⟨.inr ⟨waiting100, jam_sweep.1, ?_⟩, by decide +kernel, jam_sweep⟩
  rw [List.filter_eq_self.2 (fun _ _ => rfl)]

end Blnk.Window
