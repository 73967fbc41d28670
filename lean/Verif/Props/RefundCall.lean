import Verif.Model.RefundCall
import Verif.Props.Refund
/-
C183: what the answer to a refund says of what was refunded.
-/
namespace Blnk.Undo
open Blnk

theorem run_append {cfg : Cfg} {id : String} {size : Nat} {skip : Bool} {fresh : Nat → String} {c : Call} {es fs : List Ev} :
    c.run cfg id size skip fresh (es ++ fs) = (c.run cfg id size skip fresh es).run cfg id size skip fresh fs := by
  induction es generalizing c with
  | nil => rfl
  | cons e es ih => exact ih

/-! ### The listing only grows, and in front -/

theorem refundables_grow {db db' : DB} {new : List Txn} (h : db'.txns = db.txns ++ new) (id : String) :
    ∃ front, db'.refundables id = front ++ db.refundables id ∧ front.length ≤ new.length := by
  unfold DB.refundables
  rw [h, List.filter_append, List.reverse_append]
  exact ⟨_, rfl, by rw [List.length_reverse]; exact List.length_filter_le _ _⟩

/-- A refund call either changes no stored transaction or adds exactly the rows it reports. -/
theorem refund_txns (cfg : Cfg) (db : DB) (id : String) (skip : Bool) (newId n1 n2 : String) :
    (∃ rows, (refund cfg db id skip newId n1 n2).2 = .ok (.posted rows) ∧
      (refund cfg db id skip newId n1 n2).1.txns = db.txns ++ rows) ∨
    ((∀ rows, (refund cfg db id skip newId n1 n2).2 ≠ .ok (.posted rows)) ∧
      (refund cfg db id skip newId n1 n2).1.txns = db.txns) := by
  unfold refund
  cases decideRefund db id skip newId with
  | error e => exact .inr ⟨by simp, rfl⟩
  | ok t =>
    dsimp only
    cases skip with
    | true =>
      simp only [if_true]
      unfold recordSingle
      split
      · exact .inr ⟨by simp, rfl⟩
      · rename_i db1 sid h1
        split
        · exact .inr ⟨by simp, (resolve_onlyOpened h1).txns⟩
        · rename_i db2 did h2
          have e : db2.txns = db.txns := ((resolve_onlyOpened h1).trans (resolve_onlyOpened h2)).txns
          unfold postResolved
          split
          · exact .inr ⟨by simp, e⟩
          · exact .inr ⟨by simp, e⟩
          · rename_i w hw
            split
            · rename_i db' hp
              obtain ⟨_, _, _, rfl⟩ := persist_ok hp
              exact .inl ⟨w.rows, rfl, by simp [e]⟩
            · exact .inr ⟨by simp, e⟩
    | false =>
      simp only [Bool.false_eq_true, if_false, step]
      split
      · rename_i db' h
        obtain ⟨_, _, rfl⟩ := insertTxn_ok h
        exact .inl ⟨_, rfl, rfl⟩
      · exact .inr ⟨by simp, rfl⟩

/-- The row a refund call reports is stored, refers to the original and carries its reference. -/
theorem refund_made {cfg : Cfg} {db : DB} {id : String} {skip : Bool} {newId n1 n2 : String} {rows : List Txn}
    (h : (refund cfg db id skip newId n1 n2).2 = .ok (.posted rows)) :
    ∃ r ∈ (refund cfg db id skip newId n1 n2).1.txns, rows = [r] ∧ r.parent = id ∧ r.reference = refundRef id := by
  unfold refund decideRefund at h ⊢
  cases hg : db.getTxn id with
  | none => rw [hg] at h; cases h
  | some o =>
    have hid : o.id = id := by
      obtain ⟨r, _, h2, h3⟩ := getTxn_some hg
      rw [h3]; exact h2
    rw [hg] at h
    dsimp only at h ⊢
    cases hv : validateRefund db o with
    | error e => rw [hv] at h; cases h
    | ok _ =>
      rw [hv] at h
      have hl : ∀ {x : DB × Outcome}, landRefund cfg db o skip newId n1 n2 = x → x.2 = .posted rows →
          ∃ r ∈ x.1.txns, rows = [r] ∧ r.parent = id ∧ r.reference = refundRef id := by
        intro x hx hp
        subst hx
        obtain ⟨_, r, h1, h2, h3, _, h4, _⟩ := landRefund_posted hp
        exact ⟨r, h1, h2, by rw [h4, hid], by rw [h3, hid]⟩
      simp only [Except.ok.injEq] at h
      cases skip with
      | true => exact hl (by simp [landRefund]) (by simpa using h)
      | false => exact hl (by simp [landRefund]) (by simpa using h)

/-- A queued refund stores a QUEUED row. -/
theorem refund_queued {cfg : Cfg} {db : DB} {id : String} {newId n1 n2 : String} {rows : List Txn}
    (h : (refund cfg db id false newId n1 n2).2 = .ok (.posted rows)) : ∀ r ∈ rows, r.status = .queued := by
  unfold refund decideRefund at h
  cases hg : db.getTxn id with
  | none => rw [hg] at h; cases h
  | some o =>
    rw [hg] at h
    dsimp only at h
    cases hv : validateRefund db o with
    | error e => rw [hv] at h; cases h
    | ok _ =>
      rw [hv] at h
      simp only [Bool.false_eq_true, if_false, step, Except.ok.injEq] at h
      split at h
      · cases h
        intro r hr
        simp only [List.mem_singleton] at hr
        subst hr
        have k := applyPrecision_keeps (refundTxn o false newId)
        have hsch : (refundTxn o false newId).applyPrecision.scheduledFor = none := by
          unfold Txn.applyPrecision
          dsimp only
          split <;> split <;> (try split) <;> rfl
        simp only [queuedRow, submit, hsch, k.2.2.1]
        rfl
      · cases h

/-! ### Any schedule -/

/-- What holds while the call runs, whatever else happens. -/
structure Going (id : String) (db0 : DB) (c : Call) : Prop where
  cover : ∀ t ∈ db0.refundables id, t ∈ c.done.map Prod.fst ++ c.jobs ∨
    (c.closed = false ∧ t ∈ (c.db.refundables id).drop c.off)
  made : ∀ d ∈ c.done, ∀ rows, d.2 = .ok (.posted rows) →
    ∃ r ∈ c.db.txns, rows = [r] ∧ r.parent = d.1.id ∧ r.reference = refundRef d.1.id

theorem drop_grow {α : Type} {front l : List α} {n : Nat} {t : α} (h : t ∈ l.drop n) : t ∈ (front ++ l).drop n := by
  rw [List.drop_append]
  refine List.mem_append_right _ ?_
  have : (l.drop n) = (l.drop (n - front.length)).drop (n - (n - front.length)) := by
    rw [List.drop_drop]; congr 1; omega
  rw [this] at h
  exact List.mem_of_mem_drop h

theorem going_grow {id : String} {db0 : DB} {c : Call} {db' : DB} {new : List Txn} (g : Going id db0 c)
    (h : db'.txns = c.db.txns ++ new) : Going id db0 { c with db := db' } := by
  obtain ⟨front, hf, _⟩ := refundables_grow h id
  constructor
  · intro t ht
    rcases g.cover t ht with h | ⟨h1, h2⟩
    · exact .inl h
    · refine .inr ⟨h1, ?_⟩
      show t ∈ (db'.refundables id).drop c.off
      rw [hf]; exact drop_grow h2
  · intro d hd rows hr
    obtain ⟨r, h1, h2⟩ := g.made d hd rows hr
    exact ⟨r, by show r ∈ db'.txns; rw [h]; exact List.mem_append_left _ h1, h2⟩

theorem going_step {cfg : Cfg} {id : String} {size : Nat} {skip : Bool} {fresh : Nat → String} {db0 : DB} {c : Call} (hs : 0 < size)
    (g : Going id db0 c) (e : Ev) : Going id db0 (c.step cfg id size skip fresh e) := by
  cases e with
  | fetch =>
    simp only [Call.step]
    split
    · exact g
    · rename_i hc
      split
      · rename_i hp
        refine ⟨?_, g.made⟩
        intro t ht
        rcases g.cover t ht with h | ⟨_, h2⟩
        · exact .inl h
        · exfalso
          have : (c.db.refundables id).drop c.off = [] := by
            cases hl : (c.db.refundables id).drop c.off with
            | nil => rfl
            | cons x xs =>
              rw [hl] at hp
              cases size with
              | zero => omega
              | succ n => cases hp
          rw [this] at h2; cases h2
      · rename_i ts _
        refine ⟨?_, g.made⟩
        intro t ht
        rcases g.cover t ht with h | ⟨h1, h2⟩
        · left
          show t ∈ c.done.map Prod.fst ++ (c.jobs ++ _)
          rw [← List.append_assoc]; exact List.mem_append_left _ h
        · rw [← List.take_append_drop size ((c.db.refundables id).drop c.off)] at h2
          rcases List.mem_append.1 h2 with h2 | h2
          · left
            exact List.mem_append_right _ (List.mem_append_right _ h2)
          · right
            refine ⟨h1, ?_⟩
            rw [List.drop_drop] at h2
            show t ∈ (c.db.refundables id).drop (c.off + (((c.db.refundables id).drop c.off).take size).length)
            rw [List.length_take]
            by_cases hle : size ≤ ((c.db.refundables id).drop c.off).length
            · rw [Nat.min_eq_left hle]; exact h2
            · exfalso
              rw [List.length_drop] at hle
              rw [List.drop_of_length_le (by omega)] at h2; cases h2
  | work =>
    simp only [Call.step]
    split
    · exact g
    · rename_i t ts hj
      have hnew : ∃ new, (refund cfg c.db t.id skip (fresh c.done.length) "" "").1.txns = c.db.txns ++ new := by
        rcases refund_txns cfg c.db t.id skip (fresh c.done.length) "" "" with ⟨rows, _, h⟩ | ⟨_, h⟩
        · exact ⟨rows, h⟩
        · exact ⟨[], by simpa using h⟩
      obtain ⟨new, hn⟩ := hnew
      have g' := going_grow g hn
      constructor
      · intro x hx
        rcases g'.cover x hx with h | h
        · left
          show x ∈ (c.done ++ [_]).map Prod.fst ++ ts
          have h' : x ∈ c.done.map Prod.fst ++ c.jobs := h
          rw [hj] at h'
          simpa using h'
        · exact .inr h
      · intro d hd rows hr
        rcases List.mem_append.1 hd with hd | hd
        · exact g'.made d hd rows hr
        · simp only [List.mem_singleton] at hd
          subst hd
          exact refund_made hr
  | other s =>
    obtain ⟨new, hn⟩ := rstep_txns cfg c.db s
    exact going_grow g hn

theorem going_run {cfg : Cfg} {id : String} {size : Nat} {skip : Bool} {fresh : Nat → String} {db0 : DB} (hs : 0 < size) :
    ∀ (es : List Ev) {c : Call}, Going id db0 c → Going id db0 (c.run cfg id size skip fresh es)
  | [], _, g => g
  | e :: es, _, g => going_run hs es (going_step hs g e)

theorem going_init (id : String) (db0 : DB) : Going id db0 { db := db0 } :=
  ⟨fun t ht => .inr ⟨rfl, by simpa using ht⟩, fun d hd => by cases hd⟩

theorem answer_failed {ds : List (Txn × Except RefErr Outcome)} (h : answer ds ≠ .failed) :
    ∀ d ∈ ds, ∃ rows, d.2 = .ok (.posted rows) := by
  unfold answer at h
  split at h
  · exact absurd rfl h
  · rename_i hn
    intro d hd
    rw [Bool.not_eq_true, List.any_eq_false] at hn
    have := hn d hd
    split at this
    · rename_i rows he; exact ⟨rows, he⟩
    · simp at this

/-- **C183, "created".** Whatever else happens while a refund call runs, a call that answers "created" has itself made
a refund of every transaction that was refundable when it started, each stored, referring to its original and
carrying its reference; the refund it shows is one of the stored ones. -/
theorem c183_created {cfg : Cfg} {db : DB} {id : String} {size : Nat} {skip : Bool} {fresh : Nat → String} {es : List Ev} {c : Call}
    {rows : List Txn} (hs : 0 < size) (hr : c = Call.run cfg id size skip fresh { db := db } es) (hf : c.finished = true)
    (ha : answer c.done = .created rows) :
    (∀ t ∈ db.refundables id, ∃ r ∈ c.db.txns, (t, Except.ok (.posted [r])) ∈ c.done ∧ r.parent = t.id ∧ r.reference = refundRef t.id) ∧
    ∃ r ∈ c.db.txns, rows = [r] ∧ ∃ d ∈ c.done, r.parent = d.1.id ∧ r.reference = refundRef d.1.id := by
  have g : Going id db c := by rw [hr]; exact going_run hs es (going_init id db)
  have hall := answer_failed (by rw [ha]; simp : answer c.done ≠ .failed)
  simp only [Call.finished, Bool.and_eq_true, List.isEmpty_iff] at hf
  constructor
  · intro t ht
    rcases g.cover t ht with h | ⟨h, _⟩
    · rw [hf.2, List.append_nil] at h
      obtain ⟨d, hd, rfl⟩ := List.mem_map.1 h
      obtain ⟨rs, hrs⟩ := hall d hd
      obtain ⟨r, h1, h2, h3, h4⟩ := g.made d hd rs hrs
      subst h2
      exact ⟨r, h1, by rw [← hrs]; exact hd, h3, h4⟩
    · rw [hf.1] at h; cases h
  · unfold answer at ha
    split at ha
    · cases ha
    · split at ha
      · rename_i t rows' ds hds
        cases ha
        obtain ⟨r, h1, h2, h3, h4⟩ := g.made (t, .ok (.posted rows)) (by rw [hds]; simp) rows rfl
        exact ⟨r, h1, h2, _, by rw [hds]; exact List.mem_cons_self, h3, h4⟩
      · cases ha

/-- **C183, "not found".** A call that answers "not found" found nothing refundable when it started. -/
theorem c183_not_found {cfg : Cfg} {db : DB} {id : String} {size : Nat} {skip : Bool} {fresh : Nat → String} {es : List Ev} {c : Call}
    (hs : 0 < size) (hr : c = Call.run cfg id size skip fresh { db := db } es) (hf : c.finished = true)
    (ha : answer c.done = .notFound) : db.refundables id = [] ∧ c.done = [] := by
  have g : Going id db c := by rw [hr]; exact going_run hs es (going_init id db)
  have hall := answer_failed (by rw [ha]; simp : answer c.done ≠ .failed)
  have hd : c.done = [] := by
    cases hd : c.done with
    | nil => rfl
    | cons d ds =>
      exfalso
      obtain ⟨rows, h⟩ := hall d (by rw [hd]; simp)
      unfold answer at ha
      split at ha
      · cases ha
      · obtain ⟨t, y⟩ := d
        simp only at h
        subst h
        rw [hd] at ha
        cases ha
  simp only [Call.finished, Bool.and_eq_true, List.isEmpty_iff] at hf
  refine ⟨?_, hd⟩
  cases hl : db.refundables id with
  | nil => rfl
  | cons t ts =>
    exfalso
    rcases g.cover t (by rw [hl]; simp) with h | ⟨h, _⟩
    · rw [hd, hf.2] at h; cases h
    · rw [hf.1] at h; cases h

/-! ### Nobody else -/

/-- Only the call itself runs. -/
def Alone (es : List Ev) : Prop := ∀ e ∈ es, ∀ s, e ≠ .other s

/-- Specification: the rows the results report. -/
def reported (ds : List (Txn × Except RefErr Outcome)) : List Txn :=
  ds.flatMap fun d => match d.2 with
    | .ok (.posted rows) => rows
    | _ => []

structure GoingAlone (id : String) (db0 : DB) (c : Call) : Prop where
  front : ∃ front, c.db.refundables id = front ++ db0.refundables id ∧ front.length ≤ c.done.length
  off : c.done.length + c.jobs.length = c.off
  listed : ∀ t ∈ c.done.map Prod.fst ++ c.jobs, t ∈ db0.refundables id
  txns : c.db.txns = db0.txns ++ reported c.done

theorem alone_step {cfg : Cfg} {id : String} {size : Nat} {skip : Bool} {fresh : Nat → String} {db0 : DB} {c : Call}
    (g : GoingAlone id db0 c) {e : Ev} (he : ∀ s, e ≠ .other s) : GoingAlone id db0 (c.step cfg id size skip fresh e) := by
  cases e with
  | fetch =>
    simp only [Call.step]
    split
    · exact g
    · split
      · exact ⟨g.front, g.off, g.listed, g.txns⟩
      · rename_i ts _
        refine ⟨g.front, ?_, ?_, g.txns⟩
        · show c.done.length + (c.jobs ++ _).length = c.off + _
          rw [List.length_append, ← Nat.add_assoc, g.off]
        · intro t ht
          have ht' : t ∈ c.done.map Prod.fst ++ (c.jobs ++ ((c.db.refundables id).drop c.off).take size) := ht
          rw [← List.append_assoc] at ht'
          rcases List.mem_append.1 ht' with h | h
          · exact g.listed t h
          · obtain ⟨front, h1, h2⟩ := g.front
            have hd := List.mem_of_mem_take h
            have hle : front.length ≤ c.off := by have := g.off; omega
            rw [h1, List.drop_append, List.drop_of_length_le hle, List.nil_append] at hd
            exact List.mem_of_mem_drop hd
  | work =>
    simp only [Call.step]
    split
    · exact g
    · rename_i t ts hj
      obtain ⟨front, f1, f2⟩ := g.front
      have hoff : (c.done ++ [(t, (refund cfg c.db t.id skip (fresh c.done.length) "" "").2)]).length + ts.length = c.off := by
        have := g.off; rw [hj] at this
        simp only [List.length_append, List.length_cons, List.length_nil] at this ⊢
        omega
      have hlist : ∀ x ∈ (c.done ++ [(t, (refund cfg c.db t.id skip (fresh c.done.length) "" "").2)]).map Prod.fst ++ ts,
          x ∈ db0.refundables id := by
        intro x hx
        apply g.listed
        rw [hj]
        simpa using hx
      rcases refund_txns cfg c.db t.id skip (fresh c.done.length) "" "" with ⟨rows, ho, h⟩ | ⟨ho, h⟩
      · obtain ⟨r, _, hrows, _⟩ := refund_made ho
        refine ⟨?_, hoff, hlist, ?_⟩
        · obtain ⟨fr, g1, g2⟩ := refundables_grow h id
          refine ⟨fr ++ front, by show (refund ..).1.refundables id = _; rw [g1, f1, List.append_assoc], ?_⟩
          rw [hrows] at g2
          simp only [List.length_append, List.length_cons, List.length_nil] at g2 ⊢
          omega
        · show (refund ..).1.txns = _
          rw [h, g.txns, List.append_assoc]
          simp [reported, ho]
      · refine ⟨?_, hoff, hlist, ?_⟩
        · refine ⟨front, ?_, ?_⟩
          · rw [← f1]; show (refund ..).1.refundables id = _; unfold DB.refundables; rw [h]
          simp only [List.length_append, List.length_cons, List.length_nil]
          omega
        · show (refund ..).1.txns = _
          rw [h, g.txns]
          have : reported [(t, (refund cfg c.db t.id skip (fresh c.done.length) "" "").2)] = [] := by
            unfold reported
            simp only [List.flatMap_cons, List.flatMap_nil, List.append_nil]
          have e : reported (c.done ++ [(t, (refund cfg c.db t.id skip (fresh c.done.length) "" "").2)])
              = reported c.done ++ reported [(t, (refund cfg c.db t.id skip (fresh c.done.length) "" "").2)] := by
            unfold reported; rw [List.flatMap_append]
          rw [e, this, List.append_nil]
  | other s => exact absurd rfl (he s)

theorem alone_run {cfg : Cfg} {id : String} {size : Nat} {skip : Bool} {fresh : Nat → String} {db0 : DB} :
    ∀ (es : List Ev) {c : Call}, Alone es → GoingAlone id db0 c → GoingAlone id db0 (c.run cfg id size skip fresh es)
  | [], _, _, g => g
  | e :: es, _, h, g => alone_run es (fun x hx => h x (List.mem_cons_of_mem _ hx)) (alone_step g (h e (by simp)))

theorem alone_init (id : String) (db0 : DB) : GoingAlone id db0 { db := db0 } :=
  ⟨⟨[], by simp, by simp⟩, rfl, by simp, by simp [reported]⟩

/-- **C183, the account.** A call that runs alone works only on transactions that were refundable before it — it never
refunds a refund it made — and the transactions it stores are exactly those its results report. -/
theorem c183_only_listed {cfg : Cfg} {db : DB} {id : String} {size : Nat} {skip : Bool} {fresh : Nat → String} {es : List Ev} {c : Call}
    (hr : c = Call.run cfg id size skip fresh { db := db } es) (ha : Alone es) :
    (∀ d ∈ c.done, d.1 ∈ db.refundables id) ∧ c.db.txns = db.txns ++ reported c.done := by
  have g : GoingAlone id db c := by rw [hr]; exact alone_run es ha (alone_init id db)
  exact ⟨fun d hd => g.listed d.1 (List.mem_append_left _ (List.mem_map.2 ⟨d, hd, rfl⟩)), g.txns⟩

/-! ### Through the queue -/

structure GoingQueued (id : String) (db0 : DB) (c : Call) : Prop where
  same : c.db.refundables id = db0.refundables id
  taken : c.done.map Prod.fst ++ c.jobs = (db0.refundables id).take c.off
  shut : c.closed = true → (db0.refundables id).drop c.off = []

theorem queued_step {cfg : Cfg} {id : String} {size : Nat} {fresh : Nat → String} {db0 : DB} {c : Call} (hs : 0 < size)
    (g : GoingQueued id db0 c) {e : Ev} (he : ∀ s, e ≠ .other s) : GoingQueued id db0 (c.step cfg id size false fresh e) := by
  cases e with
  | fetch =>
    simp only [Call.step]
    split
    · exact g
    · rename_i hc
      split
      · rename_i hp
        refine ⟨g.same, g.taken, fun _ => ?_⟩
        rw [g.same] at hp
        cases hl : (db0.refundables id).drop c.off with
        | nil => rfl
        | cons x xs =>
          rw [hl] at hp
          cases size with
          | zero => omega
          | succ n => cases hp
      · refine ⟨g.same, ?_, fun h => absurd h hc⟩
        show c.done.map Prod.fst ++ (c.jobs ++ ((c.db.refundables id).drop c.off).take size)
          = (db0.refundables id).take (c.off + (((c.db.refundables id).drop c.off).take size).length)
        rw [← List.append_assoc, g.taken, g.same, List.take_add]
        congr 1
        exact List.take_eq_take_min.trans (by rw [List.length_take])
  | work =>
    simp only [Call.step]
    split
    · exact g
    · rename_i t ts hj
      refine ⟨?_, ?_, g.shut⟩
      · show (refund ..).1.refundables id = _
        rcases refund_txns cfg c.db t.id false (fresh c.done.length) "" "" with ⟨rows, ho, h⟩ | ⟨_, h⟩
        · have hq := refund_queued ho
          rw [← g.same]
          unfold DB.refundables
          rw [h, List.filter_append]
          have : rows.filter (fun t => (t.id = id && t.status = .applied)
              || (t.parent = id && (t.status = .applied || t.status = .void))
              || (t.status = .applied && t.metaQueuedParent = id)) = [] := by
            rw [List.filter_eq_nil_iff]
            intro r hr
            simp [hq r hr]
          rw [this, List.append_nil]
        · rw [← g.same]; unfold DB.refundables; rw [h]
      · show (c.done ++ [_]).map Prod.fst ++ ts = _
        rw [← g.taken, hj]; simp
  | other s => exact absurd rfl (he s)

theorem queued_run {cfg : Cfg} {id : String} {size : Nat} {fresh : Nat → String} {db0 : DB} (hs : 0 < size) :
    ∀ (es : List Ev) {c : Call}, Alone es → GoingQueued id db0 c → GoingQueued id db0 (c.run cfg id size false fresh es)
  | [], _, _, g => g
  | e :: es, _, h, g => queued_run hs es (fun x hx => h x (List.mem_cons_of_mem _ hx)) (queued_step hs g (h e (by simp)))

/-- **C183, through the queue.** A call without `skip_queue` that runs alone works on every refundable transaction exactly
once, newest first. So with one refundable transaction an error means that nothing was stored. Missing from the
full claim: `skip_queue` (`c183_error_fails`), other requests. -/
theorem c183_queued_once_partial {cfg : Cfg} {db : DB} {id : String} {size : Nat} {fresh : Nat → String} {es : List Ev} {c : Call}
    (hs : 0 < size) (hr : c = Call.run cfg id size false fresh { db := db } es) (ha : Alone es) (hf : c.finished = true) :
    c.done.map Prod.fst = db.refundables id ∧
    (∀ o, db.refundables id = [o] → answer c.done = .failed → c.db.txns = db.txns) := by
  have g : GoingQueued id db c := by
    rw [hr]; exact queued_run hs es ha ⟨rfl, by simp, fun h => by cases h⟩
  simp only [Call.finished, Bool.and_eq_true, List.isEmpty_iff] at hf
  have h1 : c.done.map Prod.fst = db.refundables id := by
    have h := g.taken
    rw [hf.2, List.append_nil] at h
    rw [h, List.take_of_length_le]
    exact List.drop_eq_nil_iff.1 (g.shut hf.1)
  refine ⟨h1, ?_⟩
  intro o ho hfail
  rw [(c183_only_listed hr ha).2]
  rw [ho] at h1
  cases hd : c.done with
  | nil => rw [hd] at h1; cases h1
  | cons d ds =>
    rw [hd, List.map_cons, List.cons.injEq, List.map_eq_nil_iff] at h1
    rw [h1.2]
    rw [hd, h1.2] at hfail
    unfold answer at hfail
    split at hfail
    · rename_i hb
      simp only [List.any_cons, List.any_nil, Bool.or_false] at hb
      split at hb
      · cases hb
      · rename_i hne
        have : reported [d] = [] := by
          unfold reported
          simp only [List.flatMap_cons, List.flatMap_nil, List.append_nil]
        rw [this, List.append_nil]
    · split at hfail <;> cases hfail

/-- The full claim: when one transaction is refundable and nobody else is at work, an error means that
nothing was stored. -/
def C183Full : Prop := ∀ (ops : List Op) (id : String) (size : Nat) (skip : Bool) (fresh : Nat → String) (es : List Ev) (o : Txn),
  0 < size → Alone es → (run {} {} ops).refundables id = [o] →
  (Call.run {} id size skip fresh { db := run {} {} ops } es).finished = true →
  answer (Call.run {} id size skip fresh { db := run {} {} ops } es).done = .failed →
  (Call.run {} id size skip fresh { db := run {} {} ops } es).db.txns = (run {} {} ops).txns

/-- One payment. -/
def onePayment : List Op := [.create "a" "" "USD", .create "b" "" "USD",
  .post { id := "p", source := "a", destination := "b", reference := "r", amount := 7, precision := 100,
          allowOverdraft := true, status := .queued } "x" "y"]

/-- The worker is quicker than the second query. -/
def quick : List Ev := [.fetch, .work, .fetch, .work, .fetch]

/-- **C183, the full claim fails.** With `skip_queue` the worker stores the refund before the next page is read. The
refund is then listed in front of the payment, the payment is handed out again, and its second refund
is refused: the client is told the refund failed, and the money has moved back. -/
theorem c183_error_fails : ¬ C183Full := by
  intro h
  have h1 : (run {} {} onePayment).refundables "p" = [((run {} {} onePayment).refundables "p").headD { id := "", source := "", destination := "", reference := "" }] := by
    decide +kernel
  have := h onePayment "p" 100 true (refIds "f") quick _ (by decide) (by simp [Alone, quick]) h1 (by decide +kernel) (by decide +kernel)
  revert this
  decide +kernel

/-! Concrete cases: the same payment with a slow worker, and through the queue. -/

example : let c := Call.run {} "p" 100 true (refIds "f") { db := run {} {} onePayment } [.fetch, .fetch, .work]
    c.finished = true ∧ (match answer c.done with | .created rows => rows.map (·.parent) | _ => []) = ["p"] ∧
    balancesOf c.db = [("a", 0, 700, 700), ("b", 0, 700, 700)] := by decide +kernel

example : let c := Call.run {} "p" 100 true (refIds "f") { db := run {} {} onePayment } quick
    answer c.done = .failed ∧ balancesOf c.db = [("a", 0, 700, 700), ("b", 0, 700, 700)] := by decide +kernel

example : let c := Call.run {} "p" 100 false (refIds "f") { db := run {} {} onePayment } quick
    c.finished = true ∧ c.done.map (·.1.id) = ["p"] := by decide +kernel

example : let c := Call.run {} "nobody" 100 false (refIds "f") { db := run {} {} onePayment } [.fetch]
    c.finished = true ∧ answer c.done = .notFound := by decide +kernel

end Blnk.Undo
