import Verif.Model.QueuedSplit
import Verif.Props.Worker
import Verif.Lemmas.Schedule
/-
C194: what becomes of a split request that goes through the queue.
C195: what recovery knows about the other legs of an atomic request.
-/
namespace Blnk.Halves
open Queue
open Sched (submit_fields)

/-! ### C194: the goroutine -/

/-- A transaction without its two parties: what storing a leg must keep. -/
def core (t : Txn) : Txn := { t with source := "", destination := "" }

theorem storeLeg_some {cfg : Cfg} {db db' : DB} {l row : Txn} {i : Ids} (h : storeLeg cfg db l i = (db', some row)) :
    db'.txns = db.txns ++ [row] ∧ core row = core l := by
  unfold storeLeg at h
  split at h
  · cases h
  · rename_i db1 sid h1
    split at h
    · cases h
    · rename_i db2 did h2
      split at h
      · split at h
        · rename_i db3 h3
          obtain ⟨_, _, rfl⟩ := insertTxn_ok h3
          cases h
          refine ⟨?_, rfl⟩
          rw [(resolve_balances h2).1, (resolve_balances h1).1]
        · cases h
      · cases h

theorem storeLeg_none {cfg : Cfg} {db db' : DB} {l : Txn} {i : Ids} (h : storeLeg cfg db l i = (db', none)) :
    db'.txns = db.txns := by
  unfold storeLeg at h
  split at h
  · cases h; rfl
  · rename_i db1 sid h1
    split at h
    · cases h; exact (resolve_balances h1).1
    · rename_i db2 did h2
      have e : db2.txns = db.txns := (resolve_balances h2).1.trans (resolve_balances h1).1
      split at h
      · split at h
        · cases h
        · cases h; exact e
      · cases h; exact e

/-- What the loop leaves. -/
theorem storeLegs_spec {cfg : Cfg} : ∀ {ls : List (Txn × Ids)} {db : DB},
    (storeLegs cfg db ls).1.txns = db.txns ++ (storeLegs cfg db ls).2.1.map (·.1) ∧
    ∃ done rest, ls = done ++ rest ∧ ((storeLegs cfg db ls).2.2 = true ↔ rest = []) ∧
      ((storeLegs cfg db ls).2.1.map (·.1)).map core = (done.map (·.1)).map core ∧
      (storeLegs cfg db ls).2.1.map (·.2) =
        List.zipWith queueCopy ((storeLegs cfg db ls).2.1.map (·.1)) (done.map (·.2.copy)) := by
  intro ls
  induction ls with
  | nil => intro db; exact ⟨by simp [storeLegs], [], [], by simp [storeLegs]⟩
  | cons x ls ih =>
    obtain ⟨l, i⟩ := x
    intro db
    simp only [storeLegs]
    split
    · rename_i db1 h
      exact ⟨by simp [storeLeg_none h], [], (l, i) :: ls, by simp⟩
    · rename_i db1 row h
      obtain ⟨e1, e2⟩ := storeLeg_some h
      obtain ⟨a, done, rest, hl, hb, hc, hd⟩ := ih (db := db1)
      refine ⟨by simp [a, e1], (l, i) :: done, rest, by simp [hl], by simpa using hb, ?_, ?_⟩
      · simpa [e2] using hc
      · simpa using hd

/-- **C194, the goroutine.** Of the legs of a split request a first part is stored, in order, each with
the amount, reference, status and parent it was given, and nothing else is stored. When all are stored,
the tasks are one queue copy for each row; otherwise the only task is the request itself, and the rows
that were stored have none. -/
theorem c194_taken (cfg : Cfg) (db : DB) (t : Txn) (ls : List (Txn × Ids)) (hne : ls ≠ []) :
    (take cfg db t ls).db.txns = db.txns ++ (take cfg db t ls).rows ∧
    ∃ done rest, ls = done ++ rest ∧ (take cfg db t ls).rows.map core = (done.map (·.1)).map core ∧
      (rest = [] → (take cfg db t ls).tasks = List.zipWith queueCopy (take cfg db t ls).rows (done.map (·.2.copy))) ∧
      (rest ≠ [] → (take cfg db t ls).tasks = [t]) := by
  obtain ⟨a, done, rest, hl, hb, hc, hd⟩ := storeLegs_spec (cfg := cfg) (ls := ls) (db := db)
  refine ⟨a, done, rest, hl, hc, ?_, ?_⟩
  · intro hr
    have ht := hb.2 hr
    have hlen : (storeLegs cfg db ls).2.1 ≠ [] := by
      intro h0
      rw [h0] at hc
      rw [hr, List.append_nil] at hl
      rw [hl] at hne
      exact hne (by simpa using hc.symm)
    simp only [take, ht, if_true]
    rw [if_neg (by simpa using hlen)]
    exact hd
  · intro hr
    have hf : (storeLegs cfg db ls).2.2 = false := by
      cases h : (storeLegs cfg db ls).2.2 with
      | false => rfl
      | true => exact absurd (hb.1 h) hr
    simp [take, hf]

theorem renumber_length {p r : String} : ∀ {n : Nat} {ts : List Txn}, (Split.renumber p r n ts).length = ts.length := by
  intro n ts
  induction ts generalizing n with
  | nil => rfl
  | cons t ts ih => simp [Split.renumber, ih]

theorem renumber_mem {p r : String} {x : Txn} : ∀ {n : Nat} {ts : List Txn}, x ∈ Split.renumber p r n ts →
    ∃ l ∈ ts, ∃ k, x = { l with parent := p, reference := r ++ "_" ++ Nat.repr k } := by
  intro n ts
  induction ts generalizing n with
  | nil => intro h; cases h
  | cons t ts ih =>
    intro h
    simp only [Split.renumber, List.mem_cons] at h
    rcases h with rfl | h
    · exact ⟨t, by simp, n, rfl⟩
    · obtain ⟨l, hl, k, e⟩ := ih h
      exact ⟨l, by simp [hl], k, e⟩

theorem precision_atomic (t : Txn) : t.applyPrecision.atomic = t.atomic := by
  unfold Txn.applyPrecision
  by_cases h : t.precision = 0
  · simp only [h, if_true]
    split
    · split <;> rfl
    · rfl
  · simp only [h, if_false]
    split
    · split <;> rfl
    · rfl

theorem ready_mem {t : Txn} {m : String} {legs : List Txn} {x : Txn} (h : x ∈ ready t m legs) :
    ∃ l ∈ legs, x.id = l.id ∧ x.parent = t.id ∧ x.metaQueuedParent = m ∧
      (l.status = .queued → l.scheduledFor = none → x.status = .queued) ∧ (l.atomic = true → x.metaAtomic = some true) := by
  unfold ready at h
  obtain ⟨y, hy, rfl⟩ := List.mem_map.1 h
  obtain ⟨l, hl, k, rfl⟩ := renumber_mem hy
  have f := submit_fields { l with parent := t.id, reference := t.reference ++ "_" ++ Nat.repr k }
  refine ⟨l, hl, f.1, f.2.1, rfl, ?_, ?_⟩
  · intro h1 h2
    have := f.2.2.2.2.2.2
    simpa [readyLeg, h1, h2] using this
  · intro h1
    have k' := precision_atomic { l with parent := t.id, reference := t.reference ++ "_" ++ Nat.repr k }
    have k2 : ({ l with parent := t.id, reference := t.reference ++ "_" ++ Nat.repr k } : Txn).applyPrecision.atomic = true := k'.trans h1
    simp only [readyLeg, submit]
    rw [if_pos k2]

/-- A stored row is one of the legs. -/
theorem rows_mem {cfg : Cfg} {db : DB} {t : Txn} {ls : List (Txn × Ids)} {row : Txn} (h : row ∈ (take cfg db t ls).rows) :
    ∃ x ∈ ls, core row = core x.1 := by
  obtain ⟨_, done, rest, hl, _, hc, _⟩ := storeLegs_spec (cfg := cfg) (ls := ls) (db := db)
  have h1 : core row ∈ ((storeLegs cfg db ls).2.1.map (·.1)).map core := List.mem_map.2 ⟨row, h, rfl⟩
  rw [hc] at h1
  obtain ⟨y, hy, e⟩ := List.mem_map.1 h1
  obtain ⟨x, hx, rfl⟩ := List.mem_map.1 hy
  exact ⟨x, by rw [hl]; exact List.mem_append_left _ hx, e.symm⟩

theorem core_fields {a b : Txn} (h : core a = core b) : a.id = b.id ∧ a.parent = b.parent ∧ a.status = b.status ∧
    a.metaQueuedParent = b.metaQueuedParent ∧ a.metaAtomic = b.metaAtomic ∧ a.reference = b.reference ∧
    a.preciseAmount = b.preciseAmount := by
  refine ⟨?_, ?_, ?_, ?_, ?_, ?_, ?_⟩
  · exact congrArg (·.id) h
  · exact congrArg (·.parent) h
  · exact congrArg (·.status) h
  · exact congrArg (·.metaQueuedParent) h
  · exact congrArg (·.metaAtomic) h
  · exact congrArg (·.reference) h
  · exact congrArg (·.preciseAmount) h

/-! ### C194: the request as a task -/

/-- No account has an empty id. -/
def NoBlank (db : DB) : Prop := ∀ b ∈ db.balances, b.id ≠ ""

/-- The request names no source or no destination: it has lists of them instead. -/
def OneSided (t : Txn) : Prop := t.source = "" ∨ t.destination = ""

theorem find_blank {db : DB} (h : NoBlank db) : db.find "" = none := by
  unfold DB.find
  rw [List.find?_eq_none]
  intro b hb
  simpa using h b hb

theorem loadAll_ids {cfg : Cfg} {db : DB} (h : NoBlank db) : ∀ {ids : List String} {bs : List Balance},
    loadAll cfg db ids = .ok bs → ∀ b ∈ bs, b.id ≠ "" := by
  intro ids
  induction ids with
  | nil => intro bs h1; cases h1; simp
  | cons i ids ih =>
    intro bs h1
    simp only [loadAll] at h1
    split at h1
    · cases h1
    · rename_i b hb
      split at h1
      · cases h1
      · rename_i bs' hbs
        cases h1
        intro x hx
        rcases List.mem_cons.1 hx with rfl | hx
        · unfold DB.load at hb
          split at hb
          · cases hb
          · rename_i b0 hf
            cases hb
            exact h b0 (List.mem_of_find?_eq_some hf)
        · exact ih hbs x hx

theorem find_none {bs : List Balance} (h : ∀ b ∈ bs, b.id ≠ "") : bs.find? (fun b => b.id = "") = none := by
  rw [List.find?_eq_none]
  intro b hb
  simpa using h b hb

theorem batch_refused {cfg : Cfg} {db : DB} (h : NoBlank db) {t : Txn} (ht : OneSided t) (sibs : List Txn) :
    ∃ e, recordBatch cfg db (t :: sibs) = (db, .refused e) := by
  have : ∃ e, prepareBatch cfg db (t :: sibs) = .error e := by
    unfold prepareBatch
    split
    · exact ⟨_, rfl⟩
    · cases hl : loadAll cfg db (batchIds (t :: sibs)) with
      | error e => exact ⟨_, rfl⟩
      | ok bs =>
        have hf := find_none (loadAll_ids h hl)
        have : prepareMembers db (t :: sibs) [] bs = .error .balanceNotFound := by
          simp only [prepareMembers]
          rw [if_pos]
          rcases ht with e | e <;> simp [e, hf]
        exact ⟨.balanceNotFound, by simp only [this]⟩
  obtain ⟨e, he⟩ := this
  exact ⟨e, by simp only [recordBatch, he]⟩

theorem tryBatch_refused {cfg : Cfg} {db : DB} (h : NoBlank db) {t : Txn} (ht : OneSided t) (sibs : List Txn) :
    tryBatch cfg db t sibs = (db, false) := by
  unfold tryBatch
  split
  · rfl
  · obtain ⟨e, he⟩ := batch_refused (cfg := cfg) h ht sibs
    simp only [he]

/-- The accounts of `db` are all in `d` as they were, and no row was added. -/
structure Untouched (db d : DB) : Prop where
  txns : d.txns = db.txns
  kept : ∀ i b, db.find i = some b → d.find i = some b

theorem Untouched.refl (db : DB) : Untouched db db := ⟨rfl, fun _ _ h => h⟩

theorem resolve_untouched {db db' : DB} {s cur n i : String} (h : db.resolve s cur n = .ok (db', i)) : Untouched db db' := by
  obtain ⟨h1, new, h2, _⟩ := resolve_balances h
  refine ⟨h1, fun i b hf => ?_⟩
  unfold DB.find at *
  rw [h2, List.find?_append, hf]; rfl

theorem resolve_noBlank {db db' : DB} {s cur n i : String} (hb : NoBlank db) (hn : n ≠ "")
    (h : db.resolve s cur n = .ok (db', i)) : NoBlank db' := by
  obtain ⟨_, new, h2, h3⟩ := resolve_balances h
  intro b hm
  rw [h2] at hm
  rcases List.mem_append.1 hm with hm | hm
  · exact hb b hm
  · rw [(h3 b hm).1]; exact hn

theorem Untouched.trans {a b c : DB} (h1 : Untouched a b) (h2 : Untouched b c) : Untouched a c :=
  ⟨h2.txns.trans h1.txns, fun i x h => h2.kept i x (h1.kept i x h)⟩

theorem prepare_missing {cfg : Cfg} {db : DB} {t : Txn} {e : OpErr}
    (h : db.load cfg t.source = .error e ∨ db.load cfg t.destination = .error e) :
    ∃ e', prepareSingle cfg db t = .error e' := by
  unfold prepareSingle
  split
  · exact ⟨_, rfl⟩
  · rcases h with h | h
    · rw [h]; exact ⟨_, rfl⟩
    · rw [h]; cases db.load cfg t.source <;> exact ⟨_, rfl⟩

theorem single_refused {cfg : Cfg} {db : DB} (h : NoBlank db) {t : Txn} (ht : OneSided t) {n1 n2 : String}
    (h1 : n1 ≠ "") (h2 : n2 ≠ "") :
    ∃ d e, recordSingle cfg db t n1 n2 = (d, .refused e) ∧ Untouched db d := by
  have hnot : isIndicator "" = false := by decide +kernel
  unfold recordSingle
  split
  · exact ⟨_, _, rfl, .refl _⟩
  · rename_i db1 sid hs
    split
    · exact ⟨_, _, rfl, resolve_untouched hs⟩
    · rename_i db2 did hd
      have hb2 := resolve_noBlank (resolve_noBlank h h1 hs) h2 hd
      have hf := find_blank hb2
      have hl : db2.load cfg "" = .error .balanceNotFound := by unfold DB.load; rw [hf]
      have hu := (resolve_untouched hs).trans (resolve_untouched hd)
      have : ∃ e, prepareSingle cfg db2 { t with source := sid, destination := did } = .error e := by
        refine prepare_missing (e := .balanceNotFound) ?_
        rcases ht with e | e
        · rw [e] at hs
          simp [DB.resolve, hnot] at hs
          exact .inl (hs.2 ▸ hl)
        · rw [e] at hd
          simp [DB.resolve, hnot] at hd
          exact .inr (hd.2 ▸ hl)
      obtain ⟨e, he⟩ := this
      exact ⟨db2, e, by simp only [postResolved, he], hu⟩

/-- Nobody else acts during the delivery. -/
def Quiet (e : Env) : Prop := e.gap1 = [] ∧ e.gap2 = [] ∧ e.gap3 = [] ∧ e.gap4 = []

theorem doReject_rows {cfg : Cfg} {e : Env} {db : DB} {t : Txn} :
    Untouched db (doReject cfg e db t).1 ∨
    ((doReject cfg e db t).1 = { db with txns := db.txns ++ [rejectedRow t] }) := by
  unfold doReject
  split
  · exact .inl (.refl _)
  · simp only [step]
    cases h : db.insertTxn (rejectedRow t) with
    | error er => exact .inl (.refl _)
    | ok db' => exact .inr (insertTxn_ok h).2.2

theorem onError_rows {w : WCfg} {e : Env} (hq : Quiet e) {n : Nat} {db : DB} {t : Txn} {msg : String} :
    Untouched db (onError w e n db t msg).1 ∨
    ((onError w e n db t msg).1 = { db with txns := db.txns ++ [rejectedRow t] }) := by
  have hd := doReject_rows (cfg := w.base) (e := e) (db := db) (t := t)
  have hu : Untouched db db ∨ db = { db with txns := db.txns ++ [rejectedRow t] } := .inl (.refl _)
  unfold onError
  rw [hq.2.2.2]
  simp only [acts]
  split
  · exact hu
  · split
    · split
      · exact hd
      · exact hu
    · split
      · exact hd
      · split
        · exact hd
        · split
          · exact hd
          · exact hu

/-- **C194, the request as a task.** A request with a list of sources or destinations is never posted
itself, neither alone nor in a batch: the only row any delivery of it can store is the request marked
REJECTED, and no account is changed. -/
theorem c194_request_never_posted (w : WCfg) (e : Env) (n : Nat) (db : DB) (t : Txn) (hb : NoBlank db) (ht : OneSided t)
    (hq : Quiet e) (h1 : e.n1 ≠ "") (h2 : e.n2 ≠ "") :
    ((deliver w e n db t).1.txns = db.txns ∨ (deliver w e n db t).1.txns = db.txns ++ [rejectedRow t]) ∧
    ∀ i b, db.find i = some b → (deliver w e n db t).1.find i = some b := by
  have key : Untouched db (deliver w e n db t).1 ∨
      ∃ d, Untouched db d ∧ (deliver w e n db t).1 = { d with txns := d.txns ++ [rejectedRow t] } := by
    unfold deliver
    simp only [hq.1, hq.2.1, hq.2.2.1, acts, tryBatch_refused hb ht]
    have hif : (if e.hot = true then ((db, false) : DB × Bool) else (db, false)) = (db, false) := by split <;> rfl
    simp only [hif, tryBatch_refused hb ht]
    unfold singleAttempt
    simp only [Bool.false_eq_true, if_false]
    split
    · rename_i msg _
      rcases onError_rows (w := w) hq (n := n) (db := db) (t := t) (msg := msg) with h | h
      · exact .inl h
      · exact .inr ⟨db, .refl _, h⟩
    · obtain ⟨d, er, he, hu⟩ := single_refused (cfg := w.base) hb ht h1 h2
      simp only [he]
      rcases onError_rows (w := w) hq (n := n) (db := d) (t := t) (msg := errText d t er) with h | h
      · exact .inl (hu.trans h)
      · exact .inr ⟨d, hu, h⟩
  rcases key with h | ⟨d, hu, h⟩
  · exact ⟨.inl h.txns, h.kept⟩
  · rw [h]
    exact ⟨.inr (by simp [hu.txns]), hu.kept⟩

/-! ### C194: what is left of the legs -/

/-- The ids of the legs are new: no stored row names one as its parent, and neither does the request. -/
structure Fresh (db : DB) (t : Txn) (legs : List Txn) : Prop where
  child : ∀ l ∈ legs, ∀ c ∈ db.txns, c.parent ≠ l.id
  request : ∀ l ∈ legs, t.parent ≠ l.id ∧ t.id ≠ l.id

/-- The request as `QueueTransaction` leaves it, its legs with their ids. -/
def taken (cfg : Cfg) (db : DB) (t : Txn) (mark : String) (legs : List Txn) (ids : List Ids) : Left :=
  take cfg db (submit t) ((ready t mark legs).zip ids)

theorem taken_rows {cfg : Cfg} {db : DB} {t : Txn} {mark : String} {legs : List Txn} {ids : List Ids} {row : Txn}
    (h : row ∈ (taken cfg db t mark legs ids).rows) :
    ∃ l ∈ legs, row.id = l.id ∧ row.parent = t.id ∧ row.metaQueuedParent = mark ∧
      (l.status = .queued → l.scheduledFor = none → row.status = .queued) ∧ (l.atomic = true → row.metaAtomic = some true) := by
  obtain ⟨x, hx, e⟩ := rows_mem h
  obtain ⟨l, hl, a, b, c, d, f⟩ := ready_mem (List.of_mem_zip hx).1
  obtain ⟨i, p, s, m, at', _⟩ := core_fields e
  exact ⟨l, hl, i.trans a, p.trans b, m.trans c, fun u v => s.trans (d u v), fun u => at'.trans (f u)⟩

theorem taken_txns (cfg : Cfg) (db : DB) (t : Txn) (mark : String) (legs : List Txn) (ids : List Ids) :
    (taken cfg db t mark legs ids).db.txns = db.txns ++ (taken cfg db t mark legs ids).rows :=
  (storeLegs_spec (cfg := cfg) (ls := (ready t mark legs).zip ids) (db := db)).1

/-- **C194, what is left.** When the loop stopped at a leg, every leg stored before it is still there
after any delivery of the request, rejected or not: QUEUED, with no child, so that recovery finds it. -/
theorem c194_legs_left (w : WCfg) (e : Env) (n : Nat) (db : DB) (t : Txn) (mark : String) (legs : List Txn) (ids : List Ids)
    (hb : NoBlank (taken w.base db t mark legs ids).db) (ht : OneSided t) (hf : Fresh db t legs)
    (hs : ∀ l ∈ legs, l.status = .queued ∧ l.scheduledFor = none)
    (hq : Quiet e) (h1 : e.n1 ≠ "") (h2 : e.n2 ≠ "") (row : Txn) (hr : row ∈ (taken w.base db t mark legs ids).rows) :
    row ∈ (deliver w e n (taken w.base db t mark legs ids).db (submit t)).1.txns ∧
    isStuck (deliver w e n (taken w.base db t mark legs ids).db (submit t)).1 row = true := by
  have hos : OneSided (submit t) := by
    have k := applyPrecision_keeps t
    simpa [OneSided, submit, k] using ht
  obtain ⟨a, _⟩ := c194_request_never_posted w e n _ (submit t) hb hos hq h1 h2
  obtain ⟨l, hl, i, _, _, st, _⟩ := taken_rows hr
  have hx := taken_txns w.base db t mark legs ids
  have hin : row ∈ (taken w.base db t mark legs ids).db.txns := by rw [hx]; exact List.mem_append_right _ hr
  have hno : ∀ c ∈ (taken w.base db t mark legs ids).db.txns, c.parent ≠ row.id := by
    intro c hc
    rw [hx] at hc
    rcases List.mem_append.1 hc with hc | hc
    · rw [i]; exact hf.child l hl c hc
    · obtain ⟨_, _, _, p, _⟩ := taken_rows hc
      rw [p, i]; exact (hf.request l hl).2
  have hrej : (rejectedRow (submit t)).parent ≠ row.id := by
    show (submit t).parent ≠ row.id
    rw [(submit_fields t).2.1, i]
    exact (hf.request l hl).1
  have hst : row.status = .queued := st (hs l hl).1 (hs l hl).2
  have fin : ∀ txns : List Txn, (∀ c ∈ txns, c.parent ≠ row.id) → txns.any (fun c => decide (c.parent = row.id)) = false := by
    intro txns h
    rw [List.any_eq_false]
    intro c hc
    simpa using h c hc
  rcases a with a | a
  · refine ⟨by rw [a]; exact hin, ?_⟩
    simp [isStuck, hst, a]
    exact hno
  · refine ⟨by rw [a]; exact List.mem_append_left _ hin, ?_⟩
    simp only [isStuck, hst, a]
    rw [fin]
    · rfl
    · intro c hc
      rcases List.mem_append.1 hc with hc | hc
      · exact hno c hc
      · rw [List.mem_singleton.1 hc]; exact hrej

/-- **C194, full claim.** Once the request was rejected under its id, none of its legs is applied. -/
def C194Full : Prop := ∀ (w : WCfg) (db : DB) (t : Txn) (mark : String) (legs : List Txn) (ids : List Ids) (e : Env) (n : Nat)
    (ws : List Sweep), Quiet e → (∀ x ∈ ws, x.gap = [] ∧ x.env.sibs = []) →
    submit t ∈ (taken w.base db t mark legs ids).tasks →
    rejectedRow (submit t) ∈ (deliver w e n (taken w.base db t mark legs ids).db (submit t)).1.txns →
    ∀ c ∈ (sweeps w.base 3 { db := (deliver w e n (taken w.base db t mark legs ids).db (submit t)).1 } ws).db.txns,
      c.parent ∈ (taken w.base db t mark legs ids).rows.map (·.id) → c.status ≠ .applied

/-- What recovery reads back of a row keeps what the sibling check looks at. -/
theorem restored {row : Txn} : (restore (scan row)).atomic = (row.metaAtomic.getD false) ∧
    (restore (scan row)).metaQueuedParent = row.metaQueuedParent := by
  have h1 : (scan row).metaAtomic = row.metaAtomic := (applyPrecision_meta _).1
  have h2 : (scan row).metaQueuedParent = row.metaQueuedParent := (applyPrecision_meta _).2
  have h3 : (scan row).atomic = false := precision_atomic _
  constructor
  · show (scan row).metaAtomic.getD (scan row).atomic = _
    rw [h1, h3]
  · show (scan row).metaQueuedParent = _
    exact h2

/-- A rejected row stands under the mark. -/
def RejectedUnder (db : DB) (mark : String) : Prop := ∃ c ∈ db.txns, c.parent = mark ∧ c.status = .rejected

/-! ### C195: the check for rejected siblings -/

/-- **C195, the check.** Recovery passes over a stuck row of an atomic request, changing nothing, exactly
when a REJECTED row has the mark as its parent; otherwise it replays it. -/
theorem c195_check (cfg : Cfg) (s : RSys) (row : Txn) (e : REnv) (hm : row ∈ s.db.txns) (hs : isStuck s.db row = true)
    (ha : row.metaAtomic = some true) (hp : row.metaQueuedParent ≠ "") (h0 : s.attempts row.id ≤ 2) :
    (RejectedUnder s.db row.metaQueuedParent → sweep cfg 3 s { row := row, env := e } = (s, .sibling)) ∧
    (¬ RejectedUnder s.db row.metaQueuedParent → ∃ b, (sweep cfg 3 s { row := row, env := e }).2 = .replayed b) := by
  obtain ⟨a, b⟩ := restored (row := row)
  rw [ha] at a
  have hif : (row ∈ s.db.txns ∧ isStuck s.db row = true) := ⟨hm, hs⟩
  unfold sweep
  simp only [acts]
  rw [if_pos hif]
  unfold recoverRow
  simp only [a, b]
  rw [if_neg (by omega)]
  constructor
  · rintro ⟨c, hc, h1, h2⟩
    rw [if_pos]
    simp only [Option.getD_some, Bool.true_and, Bool.and_eq_true, decide_eq_true_eq, List.any_eq_true]
    exact ⟨by simpa using hp, c, hc, by simp [h1, h2]⟩
  · intro hn
    rw [if_neg]
    · exact ⟨_, rfl⟩
    · simp only [Option.getD_some, Bool.true_and, Bool.and_eq_true, decide_eq_true_eq, List.any_eq_true]
      rintro ⟨_, c, hc, h1, h2⟩
      exact hn ⟨c, hc, h1, h2⟩

/-- **C195, blind.** Rejecting the queue copy of a leg never makes the check answer: the rejected row's
parent is the leg, not the request or the bulk. -/
theorem c195_blind (cfg : Cfg) (db : DB) (leg : Txn) (newId mark : String) (h : leg.id ≠ mark) :
    RejectedUnder (step cfg db (.store (rejectedRow (queueCopy leg newId)))).1 mark ↔ RejectedUnder db mark := by
  simp only [step]
  cases hi : db.insertTxn (rejectedRow (queueCopy leg newId)) with
  | error e => exact Iff.rfl
  | ok db' =>
    obtain ⟨_, _, rfl⟩ := insertTxn_ok hi
    constructor
    · rintro ⟨c, hc, h1, h2⟩
      simp only [List.mem_append, List.mem_singleton] at hc
      rcases hc with hc | rfl
      · exact ⟨c, hc, h1, h2⟩
      · exact absurd h1 h
    · rintro ⟨c, hc, h1, h2⟩
      exact ⟨c, by simp [hc], h1, h2⟩

/-- **C194 and C195, proved part.** Of an atomic request inside a bulk, of which not all legs could be
stored and which was then rejected, no stored leg is ever touched by recovery: the rejected request
stands under the bulk, and so does the mark of its legs. Missing are requests that are not in a bulk or
not atomic. -/
theorem c194_bulk_item_partial (w : WCfg) (e : Env) (n : Nat) (db : DB) (t : Txn) (legs : List Txn) (ids : List Ids)
    (hbulk : t.parent ≠ "") (ha : ∀ l ∈ legs, l.atomic = true)
    (hrej : rejectedRow (submit t) ∈ (deliver w e n (taken w.base db t t.parent legs ids).db (submit t)).1.txns)
    (row : Txn) (hr : row ∈ (taken w.base db t t.parent legs ids).rows) (at' : String → Int) (h0 : at' row.id ≤ 2)
    (ws : List Sweep) (hw : ∀ x ∈ ws, x.row = row ∧ x.gap = []) :
    sweeps w.base 3 { db := (deliver w e n (taken w.base db t t.parent legs ids).db (submit t)).1, attempts := at' } ws =
      { db := (deliver w e n (taken w.base db t t.parent legs ids).db (submit t)).1, attempts := at' } := by
  obtain ⟨l, hl, _, _, m, _, a⟩ := taken_rows hr
  refine c32_atomic_leg_left_queued _ _ row _ hrej ?_ rfl (by rw [m]; exact hbulk) (a (ha l hl)) h0 ws hw
  show (submit t).parent = row.metaQueuedParent
  rw [(submit_fields t).2.1, m]

/-- **C194 fails.** Outside a bulk, or when the request is not atomic, every leg that was stored is replayed
by recovery after the request was rejected, and is applied if its accounts allow it then. -/
theorem c194_replayed (w : WCfg) (e : Env) (n : Nat) (db : DB) (t : Txn) (mark : String) (legs : List Txn) (ids : List Ids)
    (hb : NoBlank (taken w.base db t mark legs ids).db) (ht : OneSided t) (hf : Fresh db t legs)
    (hs : ∀ l ∈ legs, l.status = .queued ∧ l.scheduledFor = none)
    (hq : Quiet e) (h1 : e.n1 ≠ "") (h2 : e.n2 ≠ "") (row : Txn) (hr : row ∈ (taken w.base db t mark legs ids).rows)
    (hm : row.metaAtomic.getD false = false ∨
      ¬ RejectedUnder (deliver w e n (taken w.base db t mark legs ids).db (submit t)).1 mark) (re : REnv) (hre : re.fault = false)
    (hsib : re.sibs = []) :
    ∃ b, (sweep w.base 3 { db := (deliver w e n (taken w.base db t mark legs ids).db (submit t)).1 } { row := row, env := re }).2 =
        .replayed b ∧
      (b = true ↔ ∃ rows, (recordSingle w.base (deliver w e n (taken w.base db t mark legs ids).db (submit t)).1
        (queueCopy (restore (scan row)) re.newId) re.n1 re.n2).2 = .posted rows) := by
  obtain ⟨hin, hstuck⟩ := c194_legs_left w e n db t mark legs ids hb ht hf hs hq h1 h2 row hr
  obtain ⟨_, _, _, _, m, _, _⟩ := taken_rows hr
  generalize (deliver w e n (taken w.base db t mark legs ids).db (submit t)).1 = d at *
  obtain ⟨a, b⟩ := restored (row := row)
  unfold sweep
  simp only [acts]
  rw [if_pos ⟨hin, hstuck⟩]
  unfold recoverRow
  simp only [a, b, m]
  rw [if_neg (by decide), if_neg]
  · simp only [hre, hsib, Bool.false_eq_true, if_false, tryBatch]
    refine ⟨_, rfl, ?_⟩
    cases hx : recordSingle w.base d (queueCopy (restore (scan row)) re.newId) re.n1 re.n2 with
    | mk d' o => cases o <;> simp
  · simp only [Bool.and_eq_true, decide_eq_true_eq, List.any_eq_true]
    rintro ⟨⟨h3, _⟩, c, hc, h4, h5⟩
    rcases hm with hm | hm
    · rw [hm] at h3; cases h3
    · exact hm ⟨c, hc, h4, h5⟩

/-! ### Cases -/

/-- `alice` has 10.00, `bob` has nothing. -/
def books : DB := { balances := [{ id := "alice", currency := "USD", balance := 1000, credit := 1000 },
  { id := "bob", currency := "USD" }] }

/-- 4.00 from `alice`, half to `bob` and half to an account that does not exist. -/
def asked : Txn := { id := "req", source := "alice", reference := "r", amount := 4, precision := 100 }

def twoLegs (t : Txn) : List Txn :=
  match Split.split id (submit t) 400 [] [{ id := "bob", share := .percent 50 }, { id := "bod", share := .percent 50 }]
    (fun n => "leg" ++ Nat.repr n) with
  | .ok ls => ls
  | .error _ => []

def twoIds : List Ids := [{ n1 := "x1", n2 := "y1", copy := "c1" }, { n1 := "x2", n2 := "y2", copy := "c2" }]

def quietEnv : Env := { n1 := "x3", n2 := "y3" }

/-- Recovery over the first leg. -/
def overFirst (l : Left) : List Sweep :=
  match l.rows with
  | [] => []
  | r :: _ => [{ row := r, env := { newId := "again", n1 := "x4", n2 := "y4" } }]

example : (twoLegs asked).map (fun l => (l.id, l.destination, l.preciseAmount, l.status, l.parent)) =
    [("leg1", "bob", some 200, .queued, "req"), ("leg2", "bod", some 200, .queued, "req")] := by decide +kernel

/-- One leg is stored, and the only task is the request. -/
example : (taken {} books asked "req" (twoLegs asked) twoIds).rows.map (·.id) = ["leg1"] ∧
    (taken {} books asked "req" (twoLegs asked) twoIds).tasks = [submit asked] := by decide +kernel

/-- With both accounts there, both legs are stored and each has its task. -/
example : (taken {} { books with balances := books.balances ++ [{ id := "bod", currency := "USD" }] } asked "req" (twoLegs asked)
      twoIds).tasks.map (fun c => (c.id, c.parent, c.reference)) = [("c1", "leg1", "r_1_q"), ("c2", "leg2", "r_2_q")] := by
  decide +kernel

/-- The last delivery of the request rejects it; the leg that was stored is paid all the same. -/
theorem paid : (sweeps {} 3 { db := (deliver {} quietEnv 5 (taken {} books asked "req" (twoLegs asked) twoIds).db (submit asked)).1 }
      (overFirst (taken {} books asked "req" (twoLegs asked) twoIds))).db.txns.map (fun c => (c.id, c.parent, c.status, c.preciseAmount)) =
    [("leg1", "req", .queued, some 200), ("req", "", .rejected, some 400), ("again", "leg1", .applied, some 200)] := by decide +kernel

/-- **C194 fails in full.** 4.00 were to be split over two accounts, one of which does not exist: the request ends
REJECTED, and 2.00 are paid. -/
theorem c194_full_fails : ¬ C194Full := by
  intro h
  have h1 := h {} books asked "req" (twoLegs asked) twoIds quietEnv 5 (overFirst (taken {} books asked "req" (twoLegs asked) twoIds))
    ⟨rfl, rfl, rfl, rfl⟩ (by decide +kernel) (by decide +kernel) (by decide +kernel)
  revert h1
  decide +kernel

/-- The hypotheses of `c194_replayed` in this case. -/
example : NoBlank (taken {} books asked "req" (twoLegs asked) twoIds).db ∧ OneSided asked ∧ Fresh books asked (twoLegs asked) ∧
    (∀ l ∈ twoLegs asked, l.status = .queued ∧ l.scheduledFor = none) :=
  ⟨by unfold NoBlank; decide +kernel, .inr rfl, ⟨by decide +kernel, by decide +kernel⟩, by decide +kernel⟩

/-- **C195, full claim.** Of an atomic request whose legs were all stored, once the copy of one leg was rejected,
recovery applies no other leg. -/
def C195Full : Prop := ∀ (w : WCfg) (db : DB) (t : Txn) (mark : String) (legs : List Txn) (ids : List Ids) (e : Env) (n : Nat)
    (copy : Txn) (ws : List Sweep), mark ≠ "" → (∀ l ∈ legs, l.atomic = true) → Quiet e → (∀ x ∈ ws, x.gap = [] ∧ x.env.sibs = []) →
    copy ∈ (taken w.base db t mark legs ids).tasks →
    rejectedRow copy ∈ (deliver w e n (taken w.base db t mark legs ids).db copy).1.txns →
    ∀ c ∈ (sweeps w.base 3 { db := (deliver w e n (taken w.base db t mark legs ids).db copy).1 } ws).db.txns,
      c.parent ∈ (taken w.base db t mark legs ids).rows.map (·.id) → c.parent ≠ copy.parent → c.status ≠ .applied

/-- 4.00 to `carl`, half from `bob`, who has nothing, and half from `alice`: all or nothing. -/
def atomicAsked : Txn := { id := "req", destination := "carl", reference := "r", amount := 4, precision := 100, atomic := true }

def atomicLegs : List Txn :=
  match Split.split id (submit atomicAsked) 400 [{ id := "bob", share := .percent 50 }, { id := "alice", share := .percent 50 }] []
    (fun n => "leg" ++ Nat.repr n) with
  | .ok ls => ls
  | .error _ => []

def books3 : DB := { books with balances := books.balances ++ [{ id := "carl", currency := "USD" }] }

def atomicLeft : Left := taken {} books3 atomicAsked "req" atomicLegs twoIds

def bobsCopy : Txn := queueCopy { (readyLeg "req" { (Split.leg (submit atomicAsked) true "leg1" 1 "bob" 200) with reference := "r_1" }) with parent := "req" } "c1"

def overSecond : List Sweep :=
  match atomicLeft.rows with
  | [_, r] => [{ row := r, env := { newId := "again", n1 := "x4", n2 := "y4" } }]
  | _ => []

example : (sweeps {} 3 { db := (deliver {} quietEnv 0 atomicLeft.db bobsCopy).1 } overSecond).db.txns.map
      (fun c => (c.id, c.parent, c.status)) =
    [("leg1", "req", .queued), ("leg2", "req", .queued), ("c1", "leg1", .rejected), ("again", "leg2", .applied)] := by decide +kernel

/-- **C195 fails in full.** Half of an all-or-nothing transfer is refused for lack of funds, and recovery pays the
other half, whose task was lost. -/
theorem c195_full_fails : ¬ C195Full := by
  intro h
  have h1 := h {} books3 atomicAsked "req" atomicLegs twoIds quietEnv 0 bobsCopy overSecond (by decide) (by decide +kernel)
    ⟨rfl, rfl, rfl, rfl⟩ (by decide +kernel) (by decide +kernel) (by decide +kernel)
  revert h1
  decide +kernel

/-- The hypotheses of `c195_check` and `c195_blind` in this case. -/
example : ∃ r ∈ atomicLeft.rows, isStuck atomicLeft.db r = true ∧ r ∈ atomicLeft.db.txns ∧ r.metaAtomic = some true ∧
    r.metaQueuedParent = "req" ∧ r.id ≠ "req" := by decide +kernel

/-- An item of a bulk: the rejected request is found, and recovery leaves the stored leg. -/
def item : Txn := { asked with parent := "bulk_1", atomic := true }

example : rejectedRow (submit item) ∈ (deliver {} quietEnv 5 (taken {} books item item.parent (twoLegs item) twoIds).db (submit item)).1.txns ∧
    (taken {} books item item.parent (twoLegs item) twoIds).rows.map (fun r => (r.id, r.parent, r.metaQueuedParent)) =
      [("leg1", "req", "bulk_1")] ∧ ∀ l ∈ twoLegs item, l.atomic = true := by decide +kernel

end Blnk.Halves
