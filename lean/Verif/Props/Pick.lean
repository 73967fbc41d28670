import Verif.Model.Pick
import Verif.Props.Queue
/-
C185, C186: what a coalesced batch takes along, and whom it overtakes.
-/
namespace Blnk.Pick
open Blnk Queue

/-! ### Specification -/

/-- The row waits in the queue: it is stored as QUEUED and nothing that came of it is stored. -/
def Waits (db : DB) (r : Txn) : Prop := r ∈ db.txns ∧ r.status = .queued ∧ ∀ c ∈ db.txns, c.parent ≠ r.id

/-- What the members of a batch have in common with its leader. -/
def Shares : Scope → Txn → Txn → Prop
  | .pair, l, r => r.source = l.source ∧ r.destination = l.destination
  | .source, l, r => r.source = l.source
  | .destination, l, r => r.destination = l.destination

/-- The row may travel with others: it is not part of an atomic bulk, has no date, and names its
accounts and its currency. -/
structure Free (r : Txn) : Prop where
  atomic : r.metaAtomic ≠ some true
  dated : r.scheduledFor = none
  source : r.source ≠ ""
  destination : r.destination ≠ ""
  currency : r.currency ≠ ""

/-- The member `m` stands for the row `r`. -/
structure StandsFor (m r : Txn) : Prop where
  parent : m.parent = r.id
  reference : m.reference = r.reference ++ "_q"
  source : m.source = r.source
  destination : m.destination = r.destination
  currency : m.currency = r.currency
  age : m.createdAt = r.createdAt
  hold : m.inflight = (r.metaInflight == some true)

/-! ### Lemmas -/

theorem precision_keeps (t : Txn) : t.applyPrecision.id = t.id ∧ t.applyPrecision.status = t.status ∧
    t.applyPrecision.source = t.source ∧ t.applyPrecision.destination = t.destination ∧
    t.applyPrecision.currency = t.currency ∧ t.applyPrecision.reference = t.reference ∧
    t.applyPrecision.createdAt = t.createdAt ∧ t.applyPrecision.scheduledFor = t.scheduledFor ∧
    t.applyPrecision.metaAtomic = t.metaAtomic ∧ t.applyPrecision.metaInflight = t.metaInflight ∧
    t.applyPrecision.atomic = t.atomic ∧ t.applyPrecision.skipQueue = t.skipQueue ∧ t.applyPrecision.inflight = t.inflight := by
  unfold Txn.applyPrecision
  by_cases hp : t.precision = 0
  · simp only [hp, if_true]
    split
    · split <;> exact ⟨rfl, rfl, rfl, rfl, rfl, rfl, rfl, rfl, rfl, rfl, rfl, rfl, rfl⟩
    · exact ⟨rfl, rfl, rfl, rfl, rfl, rfl, rfl, rfl, rfl, rfl, rfl, rfl, rfl⟩
  · simp only [hp, if_false]
    split
    · split <;> exact ⟨rfl, rfl, rfl, rfl, rfl, rfl, rfl, rfl, rfl, rfl, rfl, rfl, rfl⟩
    · exact ⟨rfl, rfl, rfl, rfl, rfl, rfl, rfl, rfl, rfl, rfl, rfl, rfl, rfl⟩

theorem standsFor (r : Txn) (i : String) : StandsFor (queueCopy (restore (scan r)) i) r := by
  obtain ⟨h1, h2, h3, h4, h5, h6, h7, h8, h9, h10, h11, h12, h13⟩ := precision_keeps
    ({ r with allowOverdraft := false, overdraftLimit := 0, inflight := false, atomic := false, skipQueue := false, effectiveDate := 0 } : Txn)
  constructor <;> simp only [queueCopy, restore, scan, h1, h3, h4, h5, h6, h7, h10, h13]
  cases r.metaInflight with
  | none => rfl
  | some b => cases b <;> rfl

theorem canFollow_iff (r : Txn) (hq : r.status = .queued) : canFollow (restore (scan r)) = true ↔ Free r := by
  obtain ⟨h1, h2, h3, h4, h5, h6, h7, h8, h9, h10, h11, h12, h13⟩ := precision_keeps
    ({ r with allowOverdraft := false, overdraftLimit := 0, inflight := false, atomic := false, skipQueue := false, effectiveDate := 0 } : Txn)
  have ha : (r.metaAtomic.getD false = false) ↔ r.metaAtomic ≠ some true := by
    cases r.metaAtomic with
    | none => simp
    | some b => cases b <;> simp
  constructor
  · intro h
    simp only [canFollow, restore, scan, h2, h3, h4, h5, h8, h9, h11, h12, Bool.and_eq_true, decide_eq_true_eq, Bool.not_eq_true',
      Option.isNone_iff_eq_none, ne_eq, decide_not] at h
    obtain ⟨⟨⟨⟨⟨⟨_, a⟩, _⟩, d⟩, s⟩, de⟩, c⟩ := h
    exact ⟨ha.1 a, d, by simpa using s, by simpa using de, by simpa using c⟩
  · intro h
    simp only [canFollow, restore, scan, h2, h3, h4, h5, h8, h9, h11, h12, Bool.and_eq_true, decide_eq_true_eq, Bool.not_eq_true',
      Option.isNone_iff_eq_none, ne_eq, decide_not]
    exact ⟨⟨⟨⟨⟨⟨hq, ha.2 h.atomic⟩, trivial⟩, h.dated⟩, by simpa using h.source⟩, by simpa using h.destination⟩, by simpa using h.currency⟩

theorem covers_iff (s : Scope) (l t : Txn) : s.covers l t = true ↔ Shares s l t := by
  cases s <;> simp [Scope.covers, Shares]

/-- What a row must be to be found by the query. -/
theorem fits_iff {db : DB} {s : Scope} {l t : Txn} (h : t ∈ db.txns) : fits db s l t = true ↔
    Waits db t ∧ Shares s l t ∧ t.currency = l.currency ∧ t.id ≠ l.parent ∧ l.createdAt ≤ t.createdAt := by
  unfold fits Waits
  rw [← covers_iff]
  simp only [Bool.and_eq_true, decide_eq_true_eq, Bool.not_eq_true', List.any_eq_false, ne_eq, decide_not, h, true_and]
  constructor
  · rintro ⟨⟨⟨⟨⟨a, b⟩, c⟩, d⟩, e⟩, f⟩
    exact ⟨⟨a, fun x hx => by simpa using f x hx⟩, b, c, by simpa using d, e⟩
  · rintro ⟨⟨a, f⟩, b, c, d, e⟩
    exact ⟨⟨⟨⟨⟨a, b⟩, c⟩, by simpa using d⟩, e⟩, fun x hx => by simpa using f x hx⟩

theorem rows_mem {db : DB} {s : Scope} {l : Txn} {n : Nat} {xs : List Txn} (h : Rows db s l n xs) {r : Txn} (hr : r ∈ xs) :
    Waits db r ∧ Shares s l r ∧ r.currency = l.currency ∧ r.id ≠ l.parent ∧ l.createdAt ≤ r.createdAt := by
  obtain ⟨ys, hp, _, rfl⟩ := h
  have := hp.mem_iff.1 (List.mem_of_mem_take hr)
  rw [List.mem_filter] at this
  exact (fits_iff this.1).1 this.2

theorem rows_sorted {db : DB} {s : Scope} {l : Txn} {n : Nat} {xs : List Txn} (h : Rows db s l n xs) :
    xs.Pairwise (fun a b => a.createdAt ≤ b.createdAt) := by
  obtain ⟨ys, _, ho, rfl⟩ := h
  exact ho.sublist (List.take_sublist _ _)

theorem rows_length {db : DB} {s : Scope} {l : Txn} {n : Nat} {xs : List Txn} (h : Rows db s l n xs) : xs.length ≤ n := by
  obtain ⟨ys, _, _, rfl⟩ := h
  simp only [List.length_take]; omega

theorem rows_nodup {db : DB} {s : Scope} {l : Txn} {n : Nat} {xs : List Txn} (h : Rows db s l n xs)
    (hu : (db.txns.map (·.id)).Nodup) : (xs.map (·.id)).Nodup := by
  obtain ⟨ys, hp, _, rfl⟩ := h
  have h1 : (ys.map (·.id)).Nodup := (hp.map _).nodup_iff.2 (hu.sublist (List.filter_sublist.map _))
  exact h1.sublist ((List.take_sublist _ _).map _)

/-- A prefix of a sorted list holds everything older than one of its members. -/
theorem take_older {ys : List Txn} (ho : ys.Pairwise (fun a b => a.createdAt ≤ b.createdAt)) {n : Nat} {r m : Txn} (hr : r ∈ ys)
    (hm : m ∈ ys.take n) (hl : r.createdAt < m.createdAt) : r ∈ ys.take n := by
  rw [← List.take_append_drop n ys] at hr ho
  rcases List.mem_append.1 hr with h | h
  · exact h
  · have := (List.pairwise_append.1 ho).2.2 m hm r h
    omega

theorem rows_older {db : DB} {s : Scope} {l : Txn} {n : Nat} {xs : List Txn} (h : Rows db s l n xs) {r m : Txn}
    (hw : Waits db r) (hs : Shares s l r) (hc : r.currency = l.currency) (hi : r.id ≠ l.parent) (ha : l.createdAt ≤ r.createdAt)
    (hm : m ∈ xs) (hl : r.createdAt < m.createdAt) : r ∈ xs := by
  obtain ⟨ys, hp, ho, rfl⟩ := h
  exact take_older ho (hp.mem_iff.2 (List.mem_filter.2 ⟨hw.1, (fits_iff hw.1).2 ⟨hw, hs, hc, hi, ha⟩⟩)) hm hl

/-- The copies are those of the rows that may travel with others, in their order. -/
theorem copies_rel (fresh : Nat → String) : ∀ (k : Nat) (rs : List Txn), (∀ r ∈ rs, r.status = .queued) →
    ∃ fs : List Txn, fs.Sublist rs ∧ (∀ r, r ∈ fs ↔ r ∈ rs ∧ Free r) ∧ (copies fresh k rs).length = fs.length ∧
      ∀ (i : Nat) (m r : Txn), (copies fresh k rs)[i]? = some m → fs[i]? = some r → StandsFor m r
  | _, [], _ => ⟨[], by simp, by simp, by simp [copies], by simp [copies]⟩
  | k, r :: rs, hq => by
    have hqs : ∀ x ∈ rs, x.status = .queued := fun x hx => hq x (List.mem_cons_of_mem _ hx)
    have hf := canFollow_iff r (hq r (List.mem_cons_self ..))
    unfold copies
    by_cases hc : canFollow (restore (scan r)) = true
    · rw [if_pos hc]
      obtain ⟨fs, h1, h2, h3, h4⟩ := copies_rel fresh (k + 1) rs hqs
      refine ⟨r :: fs, h1.cons_cons r, ?_, by simp [h3], ?_⟩
      · intro x
        simp only [List.mem_cons, h2]
        constructor
        · rintro (rfl | ⟨a, b⟩)
          · exact ⟨.inl rfl, hf.1 hc⟩
          · exact ⟨.inr a, b⟩
        · rintro ⟨rfl | a, b⟩
          · exact .inl rfl
          · exact .inr ⟨a, b⟩
      · intro i m x hm hx
        cases i with
        | zero =>
          simp only [List.getElem?_cons_zero, Option.some.injEq] at hm hx
          subst hm; subst hx; exact standsFor r _
        | succ i => exact h4 i m x (by simpa using hm) (by simpa using hx)
    · rw [if_neg hc]
      obtain ⟨fs, h1, h2, h3, h4⟩ := copies_rel fresh k rs hqs
      refine ⟨fs, h1.cons r, ?_, h3, h4⟩
      intro x
      simp only [List.mem_cons, h2]
      constructor
      · rintro ⟨a, b⟩; exact ⟨.inr a, b⟩
      · rintro ⟨rfl | a, b⟩
        · exact absurd (hf.2 b) hc
        · exact ⟨a, b⟩

/-- A batch consists of the leader and the copies of what one query returned. -/
theorem tried_rows {force coalescing : Bool} {size : Int} {dbs : Scope → DB} {l : Txn} {fresh : Nat → String} {s : Scope} {batch : List Txn}
    (h : Tried force coalescing size dbs l fresh (some (s, batch))) :
    canLead l = true ∧ 2 ≤ batchSize force coalescing size ∧
    ∃ xs, Rows (dbs s) s l ((batchSize force coalescing size).toNat - 1) xs ∧ batch = l :: copies fresh 0 xs ∧ copies fresh 0 xs ≠ [] := by
  cases h with
  | built h1 h2 h3 =>
    refine ⟨h1, h2, ?_⟩
    cases h3 with
    | pair a b => exact ⟨_, a, rfl, b⟩
    | source _ _ a b => exact ⟨_, a, rfl, b⟩
    | destination _ _ _ _ a b => exact ⟨_, a, rfl, b⟩

/-- The rows behind the members that follow the leader. -/
theorem tried_members {force coalescing : Bool} {size : Int} {dbs : Scope → DB} {l : Txn} {fresh : Nat → String} {s : Scope} {batch : List Txn}
    (h : Tried force coalescing size dbs l fresh (some (s, batch))) :
    ∃ xs ms fs : List Txn, Rows (dbs s) s l ((batchSize force coalescing size).toNat - 1) xs ∧ batch = l :: ms ∧ ms ≠ [] ∧
      fs.Sublist xs ∧ (∀ r, r ∈ fs ↔ r ∈ xs ∧ Free r) ∧ ms.length = fs.length ∧
      ∀ (i : Nat) (m r : Txn), ms[i]? = some m → fs[i]? = some r → StandsFor m r := by
  obtain ⟨_, _, xs, hx, rfl, hne⟩ := tried_rows h
  obtain ⟨fs, h1, h2, h3, h4⟩ := copies_rel fresh 0 xs (fun r hr => (rows_mem hx hr).1.2.1)
  exact ⟨xs, _, fs, hx, rfl, hne, h1, h2, h3, h4⟩

theorem map_eq_of_get {α β γ : Type} {f : α → γ} {g : β → γ} : ∀ {xs : List α} {ys : List β}, xs.length = ys.length →
    (∀ (i : Nat) (x : α) (y : β), xs[i]? = some x → ys[i]? = some y → f x = g y) → xs.map f = ys.map g
  | [], [], _, _ => rfl
  | x :: xs, y :: ys, hl, h => by
    simp only [List.map_cons, List.cons.injEq]
    exact ⟨h 0 x y rfl rfl, map_eq_of_get (by simpa using hl) (fun i a b ha hb => h (i + 1) a b (by simpa using ha) (by simpa using hb))⟩

theorem get_of_mem {α β : Type} {xs : List α} {ys : List β} (hl : xs.length = ys.length) {x : α} (hx : x ∈ xs) :
    ∃ (i : Nat) (y : β), xs[i]? = some x ∧ ys[i]? = some y := by
  obtain ⟨i, hi, rfl⟩ := List.getElem_of_mem hx
  exact ⟨i, ys[i]'(hl ▸ hi), by simp [hi], by simp [hl ▸ hi]⟩

/-! ### C185 -/

/-- **C185.** Apart from the leader, which comes first, every member of a batch stands for a row that
waits in the queue, has the leader's currency and its source, its destination or both, was not
submitted before the leader, is not the leader's own row and may travel with others. -/
theorem c185_members (force coalescing : Bool) (size : Int) (dbs : Scope → DB) (l : Txn) (fresh : Nat → String) (s : Scope)
    (batch : List Txn) (h : Tried force coalescing size dbs l fresh (some (s, batch))) :
    ∃ ms, batch = l :: ms ∧ ∀ m ∈ ms, ∃ r, StandsFor m r ∧ Waits (dbs s) r ∧ Shares s l r ∧ r.currency = l.currency ∧
      r.id ≠ l.parent ∧ l.createdAt ≤ r.createdAt ∧ Free r := by
  obtain ⟨xs, ms, fs, hx, rfl, _, _, hm, hl, hs⟩ := tried_members h
  refine ⟨ms, rfl, fun m hmem => ?_⟩
  obtain ⟨i, r, hi, hr⟩ := get_of_mem hl hmem
  obtain ⟨hrx, hf⟩ := (hm r).1 (List.mem_of_getElem? hr)
  obtain ⟨a, b, c, d, e⟩ := rows_mem hx hrx
  exact ⟨r, hs i m r hi hr, a, b, c, d, e, hf⟩

/-- **C185.** No submission is in a batch twice. -/
theorem c185_once (cfg : Cfg) (force coalescing : Bool) (size : Int) (dbs : Scope → DB) (l : Txn) (fresh : Nat → String) (s : Scope)
    (batch : List Txn) (hd : ∃ S, Queue.Reach cfg S ∧ dbs s = S.db) (h : Tried force coalescing size dbs l fresh (some (s, batch))) :
    (batch.map (·.parent)).Nodup := by
  obtain ⟨S, hS, hdb⟩ := hd
  obtain ⟨xs, ms, fs, hx, rfl, _, hsub, hm, hl, hs⟩ := tried_members h
  have hn := rows_nodup hx (by rw [hdb]; exact (reach_qinv hS).inv.unique.txnIds)
  have he : ms.map (·.parent) = fs.map (·.id) := map_eq_of_get hl (fun i m r a b => (hs i m r a b).parent)
  rw [List.map_cons, he, List.nodup_cons]
  refine ⟨?_, hn.sublist (hsub.map _)⟩
  intro hmem
  obtain ⟨r, hr, e⟩ := List.mem_map.1 hmem
  exact (rows_mem hx ((hm r).1 hr).1).2.2.2.1 e

/-- **C185.** A batch has at least two members and at most as many as configured, and never more than
ten thousand. -/
theorem c185_size (force coalescing : Bool) (size : Int) (dbs : Scope → DB) (l : Txn) (fresh : Nat → String) (s : Scope)
    (batch : List Txn) (h : Tried force coalescing size dbs l fresh (some (s, batch))) :
    (force = true ∨ coalescing = true) ∧ 2 ≤ batch.length ∧ (batch.length : Int) ≤ size ∧ batch.length ≤ 10000 := by
  have h2 := (tried_rows h).2.1
  obtain ⟨xs, ms, fs, hx, rfl, hne, hsub, _, hl, _⟩ := tried_members h
  have h3 := hsub.length_le
  have h4 := rows_length hx
  have h5 : 0 < ms.length := List.length_pos_iff.2 hne
  have hb : batchSize force coalescing size ≤ size ∧ batchSize force coalescing size ≤ 10000 ∧ (force = true ∨ coalescing = true) := by
    revert h2
    unfold batchSize
    cases force <;> cases coalescing <;> simp <;> (repeat' split) <;> omega
  simp only [List.length_cons]
  refine ⟨hb.2.2, ?_, ?_, ?_⟩ <;> omega

/-- **C185.** The members come in the order they were submitted. -/
theorem c185_order (force coalescing : Bool) (size : Int) (dbs : Scope → DB) (l : Txn) (fresh : Nat → String) (s : Scope)
    (batch : List Txn) (h : Tried force coalescing size dbs l fresh (some (s, batch))) :
    batch.Pairwise (fun a b => a.createdAt ≤ b.createdAt) := by
  obtain ⟨xs, ms, fs, hx, rfl, _, hsub, hm, hl, hs⟩ := tried_members h
  have he : ms.map (·.createdAt) = fs.map (·.createdAt) := map_eq_of_get hl (fun i m r a b => (hs i m r a b).age)
  have h1 : (fs.map (·.createdAt)).Pairwise (· ≤ ·) := List.pairwise_map.2 ((rows_sorted hx).sublist hsub)
  rw [List.pairwise_cons]
  refine ⟨fun m hmem => ?_, List.pairwise_map.1 (he ▸ h1)⟩
  obtain ⟨i, r, hi, hr⟩ := get_of_mem hl hmem
  rw [(hs i m r hi hr).age]
  exact (rows_mem hx ((hm r).1 (List.mem_of_getElem? hr)).1).2.2.2.2

/-- **C185.** Nothing of its kind is passed over: a row that waits, shares what the members share, may
travel with others, was submitted no earlier than the leader and earlier than some member, is a
member itself. -/
theorem c185_no_gap (force coalescing : Bool) (size : Int) (dbs : Scope → DB) (l : Txn) (fresh : Nat → String) (s : Scope)
    (batch : List Txn) (h : Tried force coalescing size dbs l fresh (some (s, batch))) (r m : Txn) (hw : Waits (dbs s) r) (hf : Free r)
    (hs : Shares s l r) (hc : r.currency = l.currency) (ha : l.createdAt ≤ r.createdAt) (hm : m ∈ batch) (hl : r.createdAt < m.createdAt) :
    r.id = l.parent ∨ ∃ m' ∈ batch, StandsFor m' r := by
  by_cases hi : r.id = l.parent
  · exact .inl hi
  · obtain ⟨xs, ms, fs, hx, rfl, _, hsub, hmem, hlen, hst⟩ := tried_members h
    right
    rcases List.mem_cons.1 hm with rfl | hm'
    · omega
    · obtain ⟨i, x, h1, h2⟩ := get_of_mem hlen hm'
      have hxm := (hmem x).1 (List.mem_of_getElem? h2)
      have hr := rows_older hx hw hs hc hi ha hxm.1 (by rw [← (hst i m x h1 h2).age]; exact hl)
      obtain ⟨j, m', h3, h4⟩ := get_of_mem hlen.symm ((hmem r).2 ⟨hr, hf⟩)
      exact ⟨m', List.mem_cons_of_mem _ (List.mem_of_getElem? h4), hst j m' r h4 h3⟩

/-- **C185.** Once a batch is applied, nothing that was taken along waits any longer, and no later batch
takes it again, whatever happened in between (other rows are only added). -/
theorem c185_done (cfg : Cfg) (db : DB) (hd : ∃ S, Queue.Reach cfg S ∧ db = S.db) (batch rows : List Txn)
    (h : (recordBatch cfg db batch).2 = .posted rows) (m r : Txn) (hm : m ∈ batch) (hs : StandsFor m r) (dbs : Scope → DB)
    (hg : ∀ s, (recordBatch cfg db batch).1.txns <+: (dbs s).txns) (force coalescing : Bool) (size : Int) (l : Txn) (fresh : Nat → String)
    (s : Scope) (batch' : List Txn) (h' : Tried force coalescing size dbs l fresh (some (s, batch'))) :
    ¬ Waits (dbs s) r ∧ ∀ m' ∈ batch', m'.parent = r.id → m' = l := by
  obtain ⟨S, hS, rfl⟩ := hd
  obtain ⟨h1, h2, _⟩ := recordBatch_effect (reach_qinv hS).inv h
  have hc : finalRow (batchMember m) ∈ (dbs s).txns := by
    refine (hg s).subset ?_
    rw [h2, h1]
    exact List.mem_append_right _ (List.mem_map.2 ⟨_, List.mem_map.2 ⟨m, hm, rfl⟩, rfl⟩)
  have hp : (finalRow (batchMember m)).parent = r.id := by
    rw [(finalRow_keeps (batchMember m)).2.2.2.2.2]; exact hs.parent
  refine ⟨fun hw => hw.2.2 _ hc hp, ?_⟩
  obtain ⟨ms, rfl, hms⟩ := c185_members force coalescing size dbs l fresh s batch' h'
  intro m' hm' he
  rcases List.mem_cons.1 hm' with e | hmem
  · exact e
  · obtain ⟨r', hs', hw', _⟩ := hms m' hmem
    exact absurd (hp.trans (he.symm.trans hs'.parent)) (hw'.2.2 _ hc)

/-! ### A queue with three payments of one account -/

/-- A payment of `n` as the client sends it, at the time `at_`. -/
def pay (id src dst : String) (n : Rat) (at_ : Nat) : Txn :=
  { id := id, source := src, destination := dst, reference := id, amount := n, precision := 1, createdAt := at_ }

/-- The request, its row and its task. -/
def lay (S : Sys) (t : Txn) (copy : String) : Sys :=
  { S with
    accepted := submit t :: S.accepted
    db := (persistQueued {} S.db (submit t) "" "").1
    tasks := (keyOf (submit t), queueCopy (persistQueued {} S.db (submit t) "" "").2.1 copy) :: S.tasks }

theorem lay_reach {S : Sys} (h : Queue.Reach {} S) (t : Txn) (copy : String) (hb : t.status = .blank)
    (hp : (persistQueued {} S.db (submit t) "" "").2.2 = true) : Queue.Reach {} (lay S t copy) :=
  (h.step (.accept S t hb)).step (.persist _ (submit t) "" "" copy .copy (List.mem_cons_self ..) (fun _ => hp))

/-- Three accounts, and 100 for `a`. -/
def opened : Sys :=
  { db := act {} (act {} (act {} (act {} (act {} {} (.base (.create "w" "" "USD"))) (.base (.create "a" "" "USD")))
      (.base (.create "b" "" "USD"))) (.base (.create "c" "" "USD")))
      (.base (.post { pay "f" "w" "a" 100 0 with allowOverdraft := true, status := .queued } "" ""))
    others := [.base (.post { pay "f" "w" "a" 100 0 with allowOverdraft := true, status := .queued } "" ""), .base (.create "c" "" "USD"),
      .base (.create "b" "" "USD"), .base (.create "a" "" "USD"), .base (.create "w" "" "USD")] }

/-- 50 from `a` to `b`, then 50 from `a` to `c`, then 50 from `a` to `b`. -/
def waiting3 : Sys := lay (lay (lay opened (pay "p1" "a" "b" 50 1) "q1") (pay "p2" "a" "c" 50 2) "q2") (pay "p3" "a" "b" 50 3) "q3"

theorem waiting3_reach : Queue.Reach {} waiting3 := by
  have h : Queue.Reach {} opened :=
    ((((Reach.init.step (.other {} (.base (.create "w" "" "USD")))).step (.other _ (.base (.create "a" "" "USD")))).step
      (.other _ (.base (.create "b" "" "USD")))).step (.other _ (.base (.create "c" "" "USD")))).step
      (.other _ (.base (.post { pay "f" "w" "a" 100 0 with allowOverdraft := true, status := .queued } "" "")))
  exact lay_reach (lay_reach (lay_reach h _ _ rfl (by decide +kernel)) _ _ rfl (by decide +kernel)) _ _ rfl (by decide +kernel)

/-- A task. -/
def task (S : Sys) (id : String) : Txn := ((S.tasks.map (·.2)).find? (fun t => t.id = id)).getD { id := "" }

/-- What the pair query finds for the first payment. -/
def found : List Txn := waiting3.db.txns.filter (fits waiting3.db .pair (task waiting3 "q1"))

/-- The batch of the first and the third payment. -/
def built : List Txn := task waiting3 "q1" :: copies (fun _ => "n3") 0 found

theorem built_tried : Tried false true 100 (fun _ => waiting3.db) (task waiting3 "q1") (fun _ => "n3") (some (.pair, built)) :=
  .built (by decide +kernel) (by decide +kernel)
    (.pair ⟨found, .refl _, by decide +kernel, by decide +kernel⟩ (by decide +kernel))

/-- The hypotheses of C185 met by a batch of two. -/
example : Tried false true 100 (fun _ => waiting3.db) (task waiting3 "q1") (fun _ => "n3") (some (.pair, built)) ∧
    built.map (fun t => (t.id, t.parent, t.reference)) = [("q1", "p1", "p1_q"), ("n3", "p3", "p3_q")] ∧
    ∃ S, Queue.Reach {} S ∧ (fun _ => waiting3.db) Scope.pair = S.db :=
  ⟨built_tried, by decide +kernel, waiting3, waiting3_reach, rfl⟩

/-- The batch of two is applied, and neither row waits afterwards. -/
example : (recordBatch {} waiting3.db built).2 ≠ .discarded ∧
    ((recordBatch {} waiting3.db built).1.txns.map (fun t => (t.id, t.parent, t.status))) =
      [("f", "", .applied), ("p1", "", .queued), ("p2", "", .queued), ("p3", "", .queued), ("q1", "p1", .applied), ("n3", "p3", .applied)] := by
  decide +kernel

/-! ### C186 -/

/-- **C186**, the claim in full: no member of a batch overtakes a payment that left the same account
with the same currency, was submitted earlier, still waits and may travel with others. -/
def C186Full : Prop := ∀ (cfg : Cfg) (force coalescing : Bool) (size : Int) (S : Sys) (k : Key) (l : Txn) (fresh : Nat → String) (s : Scope)
    (batch : List Txn), Queue.Reach cfg S → (k, l) ∈ S.tasks → Tried force coalescing size (fun _ => S.db) l fresh (some (s, batch)) →
    ∀ r m, Waits S.db r → Free r → r.source = l.source → r.currency = l.currency → m ∈ batch → r.createdAt < m.createdAt →
      r.id = l.parent ∨ ∃ m' ∈ batch, StandsFor m' r

/-- **C186** fails: payments of the same pair are looked for first, so a payment of the same account to
somebody else that was submitted between two of them is overtaken. -/
theorem c186_full_fails : ¬ C186Full := by
  intro h
  have hw : (waiting3.db.txns[2]?.getD { id := "" }) ∈ waiting3.db.txns := by decide +kernel
  have := h {} false true 100 waiting3 ⟨"p1", "p1"⟩ (task waiting3 "q1") (fun _ => "n3") .pair built waiting3_reach (by decide +kernel) built_tried
    (waiting3.db.txns[2]?.getD { id := "" }) (built[1]?.getD { id := "" })
    ⟨hw, by decide +kernel, by decide +kernel⟩
    ⟨by decide +kernel, by decide +kernel, by decide +kernel, by decide +kernel, by decide +kernel⟩
    (by decide +kernel) (by decide +kernel) (by decide +kernel) (by decide +kernel)
  rcases this with h | ⟨m, hm, hs⟩
  · revert h; decide +kernel
  · have h2 : ∀ m ∈ built, m.parent ≠ (waiting3.db.txns[2]?.getD ({ id := "" } : Txn)).id := by decide +kernel
    exact h2 m hm hs.parent

/-- The payment went through. -/
def through : Outcome → Bool
  | .posted _ => true
  | _ => false

/-- What comes of it: with 100 in the account, the payments submitted first and second go through one
after the other and the third finds no money. Taken along by the first, the third goes through
and the second finds no money. -/
theorem c186_outcome_fails :
    through (recordSingle {} waiting3.db (task waiting3 "q1") "" "").2 ∧
    through (recordSingle {} (recordSingle {} waiting3.db (task waiting3 "q1") "" "").1 (task waiting3 "q2") "" "").2 ∧
    (recordSingle {} (recordSingle {} (recordSingle {} waiting3.db (task waiting3 "q1") "" "").1 (task waiting3 "q2") "" "").1
      (task waiting3 "q3") "" "").2 = .refused (.bal .insufficientFunds) ∧
    through (recordBatch {} waiting3.db built).2 ∧
    (recordSingle {} (recordBatch {} waiting3.db built).1 (task waiting3 "q2") "" "").2 = .refused (.bal .insufficientFunds) := by
  decide +kernel

/-- **C186**, proved part: whatever the scope, no payment between the same two accounts that was
submitted since the leader is overtaken. Missing: payments of the source to others, and those
submitted before the leader. -/
theorem c186_same_pair_partial (force coalescing : Bool) (size : Int) (dbs : Scope → DB) (l : Txn) (fresh : Nat → String) (s : Scope)
    (batch : List Txn) (h : Tried force coalescing size dbs l fresh (some (s, batch))) (r m : Txn) (hw : Waits (dbs s) r) (hf : Free r)
    (h1 : r.source = l.source) (h2 : r.destination = l.destination) (hc : r.currency = l.currency) (ha : l.createdAt ≤ r.createdAt)
    (hm : m ∈ batch) (hl : r.createdAt < m.createdAt) : r.id = l.parent ∨ ∃ m' ∈ batch, StandsFor m' r :=
  c185_no_gap force coalescing size dbs l fresh s batch h r m hw hf (by cases s <;> simp [Shares, h1, h2]) hc ha hm hl

/-- **C186**, proved part: a batch of payments of the same account to several others overtakes no
payment of that account submitted since the leader. -/
theorem c186_source_partial (force coalescing : Bool) (size : Int) (dbs : Scope → DB) (l : Txn) (fresh : Nat → String)
    (batch : List Txn) (h : Tried force coalescing size dbs l fresh (some (.source, batch))) (r m : Txn) (hw : Waits (dbs .source) r) (hf : Free r)
    (h1 : r.source = l.source) (hc : r.currency = l.currency) (ha : l.createdAt ≤ r.createdAt)
    (hm : m ∈ batch) (hl : r.createdAt < m.createdAt) : r.id = l.parent ∨ ∃ m' ∈ batch, StandsFor m' r :=
  c185_no_gap force coalescing size dbs l fresh .source batch h r m hw hf h1 hc ha hm hl

/-- The second payment leads: nobody else pays `c`, so the third, from the same account, is taken along. -/
example : Tried false true 100 (fun _ => waiting3.db) (task waiting3 "q2") (fun _ => "n3")
    (some (.source, task waiting3 "q2" :: copies (fun _ => "n3") 0 (waiting3.db.txns.filter (fits waiting3.db .source (task waiting3 "q2"))))) ∧
    (task waiting3 "q2" :: copies (fun _ => "n3") 0 (waiting3.db.txns.filter (fits waiting3.db .source (task waiting3 "q2")))).map (·.parent) = ["p2", "p3"] :=
  ⟨.built (by decide +kernel) (by decide +kernel)
    (.source (xs := []) ⟨[], by decide +kernel, .nil, rfl⟩ rfl ⟨_, .refl _, by decide +kernel, by decide +kernel⟩ (by decide +kernel)),
    by decide +kernel⟩

end Blnk.Pick
