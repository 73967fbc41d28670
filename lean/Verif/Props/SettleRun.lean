import Verif.Model.SettleRun
import Verif.Props.RefundCall
import Verif.Props.SettlePreview
import Verif.Props.Paging
import Verif.Props.Inflight
/-
C187: what the answer to a commit or void of an id says of the holds under it.
-/
namespace Blnk.Undo
open Blnk

theorem crun_append {cfg : Cfg} {id : String} {size : Nat} {void : Bool} {amt : Int} {fresh refs : Nat → String} {c : Clearing} {es fs : List CEv} :
    c.run cfg id size void amt fresh refs (es ++ fs) = (c.run cfg id size void amt fresh refs es).run cfg id size void amt fresh refs fs := by
  induction es generalizing c with
  | nil => rfl
  | cons e es ih => exact ih

/-! ### The listing only grows, and in front -/

theorem legs_front {db db' : DB} {new : List Txn} {id : String} (hb : Paging.OnBooks db id) (h : db'.txns = db.txns ++ new) :
    Atomic.inflightLegs db' id = (new.filter (fun t => (t.id = id || t.parent = id || t.metaQueuedParent = id) && t.status = .inflight)).reverse
      ++ Atomic.inflightLegs db id := by
  obtain ⟨t, ht, h1, h2⟩ := hb
  have hne : db.txns.filter (fun t => (t.id = id || t.parent = id || t.metaQueuedParent = id) && t.status = .inflight) ≠ [] := by
    intro he
    have : t ∈ db.txns.filter (fun t => (t.id = id || t.parent = id || t.metaQueuedParent = id) && t.status = .inflight) := by
      rw [List.mem_filter]; exact ⟨ht, by simp [h2, or_assoc]; exact h1⟩
    rw [he] at this; cases this
  unfold Atomic.inflightLegs
  dsimp only
  rw [if_neg hne, if_neg, h, List.filter_append, List.reverse_append]
  rw [h, List.filter_append]
  intro he
  exact hne (List.append_eq_nil_iff.1 he).1

/-! ### A hold that is closed stays closed -/

/-- Nothing of the hold is left: it is committed or released in full. -/
def Cleared0 (db : DB) (t : Txn) : Prop := committed db t.id + released db t.id = pay t

theorem cleared_stays {H : String → Prop} {db db' : DB} {new : List Txn} (hk : HoldInv H db) (hk' : HoldInv H db')
    (h : db'.txns = db.txns ++ new) {t : Txn} (ht : t ∈ db.txns) (hh : t.Holds) (hc : Cleared0 db t) : Cleared0 db' t := by
  have hH := hk.known t ht hh
  have hge : ∀ st : Status, st = .applied ∨ st = .void → kidSum st db t.id ≤ kidSum st db' t.id := by
    intro st hst
    rw [kidSum_append h]
    have : 0 ≤ ((new.filter (fun x => x.parent = t.id && x.status = st)).map pay).sum := by
      apply sum_nonneg
      intro y hy
      obtain ⟨c, hc', rfl⟩ := List.mem_map.1 hy
      rw [List.mem_filter] at hc'
      simp only [Bool.and_eq_true, decide_eq_true_eq] at hc'
      have := (hk'.kids c (by rw [h]; exact List.mem_append_right _ hc'.1) (by rw [hc'.2.2]; exact hst) (by rw [hc'.2.1]; exact hH)).1
      omega
    omega
  have h1 := hge .applied (.inl rfl)
  have h2 := hge .void (.inr rfl)
  have h3 := hk'.bound t (by rw [h]; exact List.mem_append_left _ ht) hh
  unfold Cleared0 committed released at *
  omega

theorem cleared_now {db db' : DB} {row x : Txn} (h : db'.txns = db.txns ++ [x]) (hv : db.parentVoid row.id = false)
    (hs : x.status = .applied ∨ x.status = .void) (hp : x.parent = row.id) (ha : pay x = pay row - committed db row.id) :
    Cleared0 db' row := by
  have hrel0 : released db row.id = 0 := kidSum_zero (fun c hc hcs => parentVoid_false.1 hv c hc hcs)
  unfold Cleared0
  rcases hs with hs | hs
  · have e1 : committed db' x.parent = committed db x.parent + pay x := kidSum_one h hs
    have e2 : released db' row.id = released db row.id := kidSum_same h (by simp [hs])
    rw [hp] at e1; omega
  · have e1 : released db' x.parent = released db x.parent + pay x := kidSum_one h hs
    have e2 : committed db' row.id = committed db row.id := kidSum_same h (by simp [hs])
    rw [hp] at e1; omega

/-- The status of a settlement. -/
def clearStatus (void : Bool) : Status := if void then .void else .applied

/-- What one settlement does. -/
theorem settleOne_effect {cfg : Cfg} {H : String → Prop} {db : DB} {h newId ref : String} {void : Bool} {amt : Int} (hk : HoldInv H db) :
    HoldInv H (settleOne cfg db h void amt newId ref).1 ∧
    (((∀ rows, (settleOne cfg db h void amt newId ref).2 ≠ .ok (.posted rows)) ∧
      (settleOne cfg db h void amt newId ref).1.txns = db.txns) ∨
    ∃ row x, row ∈ db.txns ∧ row.id = h ∧ row.Holds ∧ (settleOne cfg db h void amt newId ref).2 = .ok (.posted [x]) ∧
      (settleOne cfg db h void amt newId ref).1.txns = db.txns ++ [x] ∧ x.id = newId ∧ x.parent = h ∧ x.reference = ref ∧
      x.status = clearStatus void ∧ (void = false → amt ≠ 0 → x.preciseAmount = some amt) ∧
      (void = true ∨ amt = 0 → Cleared0 (settleOne cfg db h void amt newId ref).1 row)) := by
  unfold settleOne
  cases void with
  | true =>
    simp only [if_true]
    refine ⟨act_holdInv (cfg := cfg) hk (a := .void h newId ref "" "") trivial, ?_⟩
    rcases void_grown (cfg := cfg) (newId := newId) (ref := ref) (n1 := "") (n2 := "") hk.inv (hk.remaining_nonneg (h := h)) with
      ⟨g, hn⟩ | ⟨row, x, hrow, hid, hin, hv, g, ho, hx, hs, h0⟩
    · exact .inl ⟨hn, by simpa using g.txns⟩
    · refine .inr ⟨row, x, hrow, hid, (holds_iff _).1 hin, ho, g.txns, hx, hs.parent, hs.reference, hs.status, by simp, fun _ => ?_⟩
      subst hid
      refine cleared_now g.txns hv (.inr hs.status) hs.parent ?_
      rw [totalCommitted_eq] at hs
      simp [pay, hs.amount]
  | false =>
    simp only [Bool.false_eq_true, if_false]
    refine ⟨act_holdInv (cfg := cfg) hk (a := .commit h amt newId ref "" "") trivial, ?_⟩
    rcases commit_grown (cfg := cfg) (newId := newId) (ref := ref) (n1 := "") (n2 := "") (amt := amt) hk.inv (hk.remaining_nonneg (h := h)) with
      ⟨g, hn⟩ | ⟨row, x, p, hrow, hid, hin, hv, g, ho, hx, hs, h0, hle, hp⟩
    · exact .inl ⟨hn, by simpa using g.txns⟩
    · refine .inr ⟨row, x, hrow, hid, (holds_iff _).1 hin, ho, g.txns, hx, hs.parent, hs.reference, hs.status, fun _ ha => ?_, fun ha => ?_⟩
      · rcases hp with ⟨h, _⟩ | h
        · exact absurd h ha
        · rw [hs.amount, h]
      · subst hid
        have ha : amt = 0 := by simpa using ha
        have hp : p = pay row - db.totalCommitted row.id := by
          rcases hp with ⟨_, h⟩ | h
          · exact h
          · omega
        refine cleared_now g.txns hv (.inl hs.status) hs.parent ?_
        rw [totalCommitted_eq] at hp
        simp [pay, hs.amount, hp]

/-! ### Any schedule -/

/-- Others only do what a ledger with holds allows. -/
def Fair (H : String → Prop) (es : List CEv) : Prop := ∀ e ∈ es, ∀ a, e = .other a → a.Respects H

/-- What a result that reports a settlement means in the end. -/
def Made (void : Bool) (amt : Int) (db : DB) (t : Txn) (rows : List Txn) : Prop :=
  ∃ r ∈ db.txns, rows = [r] ∧ r.parent = t.id ∧ r.status = clearStatus void ∧ (void = false → amt ≠ 0 → r.preciseAmount = some amt) ∧
    (void = true ∨ amt = 0 → Cleared0 db t)

/-- What holds while the call runs, whatever else happens. -/
structure Under (H : String → Prop) (id : String) (void : Bool) (amt : Int) (db0 : DB) (c : Clearing) : Prop where
  hold : HoldInv H c.db
  grown : ∃ new, c.db.txns = db0.txns ++ new
  cover : Paging.OnBooks db0 id → ∀ t ∈ Atomic.inflightLegs db0 id, t ∈ c.done.map Prod.fst ++ c.jobs ∨
    (c.closed = false ∧ t ∈ (Atomic.inflightLegs c.db id).drop c.off)
  rows : ∀ t ∈ c.done.map Prod.fst ++ c.jobs, t ∈ c.db.txns ∧ t.Holds
  made : ∀ d ∈ c.done, ∀ rows, d.2 = .ok (.posted rows) → Made void amt c.db d.1 rows

theorem under_grow {H : String → Prop} {id : String} {void : Bool} {amt : Int} {db0 : DB} {c : Clearing} {db' : DB} {new : List Txn}
    (g : Under H id void amt db0 c) (hk : HoldInv H db') (h : db'.txns = c.db.txns ++ new) : Under H id void amt db0 { c with db := db' } := by
  obtain ⟨old, ho⟩ := g.grown
  refine ⟨hk, ⟨old ++ new, by rw [← List.append_assoc, ← ho]; exact h⟩, ?_, ?_, ?_⟩
  · intro hb t ht
    rcases g.cover hb t ht with h' | ⟨h1, h2⟩
    · exact .inl h'
    · refine .inr ⟨h1, ?_⟩
      show t ∈ (Atomic.inflightLegs db' id).drop c.off
      rw [legs_front (Paging.onBooks_grows hb ho) h]
      exact drop_grow h2
  · intro t ht
    obtain ⟨h1, h2⟩ := g.rows t ht
    exact ⟨by show t ∈ db'.txns; rw [h]; exact List.mem_append_left _ h1, h2⟩
  · intro d hd rows hr
    obtain ⟨r, h1, h2, h3, h4, h5, h6⟩ := g.made d hd rows hr
    obtain ⟨q1, q2⟩ := g.rows d.1 (List.mem_append_left _ (List.mem_map.2 ⟨d, hd, rfl⟩))
    exact ⟨r, by show r ∈ db'.txns; rw [h]; exact List.mem_append_left _ h1, h2, h3, h4, h5,
      fun hv => cleared_stays g.hold hk h q1 q2 (h6 hv)⟩

theorem under_step {cfg : Cfg} {H : String → Prop} {id : String} {size : Nat} {void : Bool} {amt : Int} {fresh refs : Nat → String} {db0 : DB}
    {c : Clearing} (hs : 0 < size) (g : Under H id void amt db0 c) (e : CEv) (he : ∀ a, e = .other a → a.Respects H) :
    Under H id void amt db0 (c.step cfg id size void amt fresh refs e) := by
  cases e with
  | fetch =>
    simp only [Clearing.step]
    split
    · exact g
    · rename_i hc
      split
      · rename_i hp
        refine ⟨g.hold, g.grown, ?_, g.rows, g.made⟩
        intro hb t ht
        rcases g.cover hb t ht with h | ⟨_, h2⟩
        · exact .inl h
        · exfalso
          rw [Paging.page_nil hs hp] at h2; cases h2
      · rename_i ts _
        refine ⟨g.hold, g.grown, ?_, ?_, g.made⟩
        · intro hb t ht
          rcases g.cover hb t ht with h | ⟨h1, h2⟩
          · left
            show t ∈ c.done.map Prod.fst ++ (c.jobs ++ _)
            rw [← List.append_assoc]; exact List.mem_append_left _ h
          · rw [← Paging.page_drop _ size c.off] at h2
            rcases List.mem_append.1 h2 with h2 | h2
            · left
              exact List.mem_append_right _ (List.mem_append_right _ h2)
            · exact .inr ⟨h1, h2⟩
        · intro t ht
          have ht' : t ∈ c.done.map Prod.fst ++ (c.jobs ++ ((Atomic.inflightLegs c.db id).drop c.off).take size) := ht
          rw [← List.append_assoc] at ht'
          rcases List.mem_append.1 ht' with h | h
          · exact g.rows t h
          · obtain ⟨q1, q2⟩ := inflightLegs_mem (List.mem_of_mem_drop (List.mem_of_mem_take h))
            exact ⟨q1, (holds_iff t).1 q2⟩
  | work =>
    simp only [Clearing.step]
    split
    · exact g
    · rename_i t ts hj
      obtain ⟨q1, q2⟩ := g.rows t (List.mem_append_right _ (by rw [hj]; exact List.mem_cons_self))
      rw [if_pos ((holds_iff t).2 q2)]
      obtain ⟨hk, ho⟩ := settleOne_effect (cfg := cfg) (h := t.id) (newId := fresh c.done.length) (ref := refs c.done.length)
        (void := void) (amt := amt) g.hold
      have hnew : ∃ new, (settleOne cfg c.db t.id void amt (fresh c.done.length) (refs c.done.length)).1.txns = c.db.txns ++ new := by
        rcases ho with ⟨_, h⟩ | ⟨_, x, _, _, _, _, h, _⟩
        · exact ⟨[], by simpa using h⟩
        · exact ⟨[x], h⟩
      obtain ⟨new, hn⟩ := hnew
      have g' := under_grow g hk hn
      refine ⟨hk, g'.grown, ?_, ?_, ?_⟩
      · intro hb x hx
        rcases g'.cover hb x hx with h | h
        · left
          show x ∈ (c.done ++ [_]).map Prod.fst ++ ts
          have h' : x ∈ c.done.map Prod.fst ++ c.jobs := h
          rw [hj] at h'
          simpa using h'
        · exact .inr h
      · intro x hx
        apply g'.rows
        show x ∈ c.done.map Prod.fst ++ c.jobs
        rw [hj]
        have hx' : x ∈ (c.done ++ [(t, _)]).map Prod.fst ++ ts := hx
        simpa using hx'
      · intro d hd rows hr
        rcases List.mem_append.1 hd with hd | hd
        · exact g'.made d hd rows hr
        · simp only [List.mem_singleton] at hd
          subst hd
          rcases ho with ⟨h, _⟩ | ⟨row, x, k1, k2, k3, k4, k5, k6, k7, k8, k9, k10, k11⟩
          · exact absurd hr (h rows)
          · have : row = t := row_unique g.hold.inv k1 q1 k2
            subst this
            rw [k4] at hr
            cases hr
            exact ⟨x, by show x ∈ (settleOne ..).1.txns; rw [k5]; simp, rfl, k7, k9, k10, k11⟩
  | other a =>
    obtain ⟨new, hn⟩ := act_prefix (cfg := cfg) g.hold (he a rfl)
    exact under_grow g (act_holdInv g.hold (he a rfl)) hn

theorem under_run {cfg : Cfg} {H : String → Prop} {id : String} {size : Nat} {void : Bool} {amt : Int} {fresh refs : Nat → String} {db0 : DB}
    (hs : 0 < size) : ∀ (es : List CEv) {c : Clearing}, Fair H es → Under H id void amt db0 c →
      Under H id void amt db0 (c.run cfg id size void amt fresh refs es)
  | [], _, _, g => g
  | e :: es, _, hf, g => under_run hs es (fun x hx => hf x (List.mem_cons_of_mem _ hx)) (under_step hs g e (hf e (by simp)))

theorem under_init {H : String → Prop} (id : String) (void : Bool) (amt : Int) {db0 : DB} (hk : HoldInv H db0) :
    Under H id void amt db0 { db := db0 } :=
  ⟨hk, ⟨[], by simp⟩, fun _ t ht => .inr ⟨rfl, by simpa using ht⟩, by simp, fun d hd => by cases hd⟩

theorem told_failed {ds : List (Txn × Except InfErr Outcome)} (h : told ds ≠ .failed) :
    ∀ d ∈ ds, ∃ rows, d.2 = .ok (.posted rows) := by
  unfold told at h
  split at h
  · exact absurd rfl h
  · rename_i hn
    intro d hd
    rw [Bool.not_eq_true, List.any_eq_false] at hn
    have := hn d hd
    split at this
    · rename_i rows he; exact ⟨rows, he⟩
    · simp at this

/-- A ledger that came about by what a ledger with holds allows. -/
def FromHolds (cfg : Cfg) (H : String → Prop) (db : DB) : Prop := ∃ as : List Act, (∀ a ∈ as, a.Respects H) ∧ db = acts cfg {} as

theorem FromHolds.hold {cfg : Cfg} {H : String → Prop} {db : DB} (h : FromHolds cfg H db) : HoldInv H db := by
  obtain ⟨as, hr, rfl⟩ := h
  exact acts_holdInv (init_holdInv H) hr

/-- **C187, success.** Whatever else happens while the call runs: a call that answers success has itself settled every
hold that was on the books under the id when it started. A void and a commit without amount leave nothing of any
of them — now, so never again (`c24_void_is_final`, `c24_full_commit_is_final`); a commit of an amount has
committed that amount of each of them. The settlement it shows is one of these. Missing from the full claim:
ids whose holds are all still queued (`c187_queued_fails`). -/
theorem c187_settled_partial {cfg : Cfg} {H : String → Prop} {db : DB} {id : String} {size : Nat} {void : Bool} {amt : Int} {fresh refs : Nat → String}
    {es : List CEv} {c : Clearing} {rows : List Txn} (hs : 0 < size) (hc : FromHolds cfg H db) (hf : Fair H es) (hb : Paging.OnBooks db id)
    (hr : c = Clearing.run cfg id size void amt fresh refs { db := db } es) (hfin : c.finished = true) (ha : told c.done = .settled rows) :
    (∀ t ∈ db.txns, (t.id = id ∨ t.parent = id ∨ t.metaQueuedParent = id) → t.status = .inflight →
      ∃ r ∈ c.db.txns, (t, Except.ok (.posted [r])) ∈ c.done ∧ r.parent = t.id ∧ r.status = clearStatus void ∧
        (void = false → amt ≠ 0 → r.preciseAmount = some amt) ∧
        (void = true ∨ amt = 0 → committed c.db t.id + released c.db t.id = pay t)) ∧
    ∃ r ∈ c.db.txns, rows = [r] ∧ ∃ d ∈ c.done, r.parent = d.1.id ∧ r.status = clearStatus void := by
  have g : Under H id void amt db c := by rw [hr]; exact under_run hs es hf (under_init id void amt hc.hold)
  have hall := told_failed (by rw [ha]; simp : told c.done ≠ .failed)
  simp only [Clearing.finished, Bool.and_eq_true, List.isEmpty_iff] at hfin
  constructor
  · intro t ht hid hst
    rcases g.cover hb t ((Paging.legs_mem hb).2 ⟨ht, hid, hst⟩) with h | ⟨h, _⟩
    · rw [hfin.2, List.append_nil] at h
      obtain ⟨d, hd, rfl⟩ := List.mem_map.1 h
      obtain ⟨rs, hrs⟩ := hall d hd
      obtain ⟨r, h1, h2, h3, h4, h5, h6⟩ := g.made d hd rs hrs
      subst h2
      exact ⟨r, h1, by rw [← hrs]; exact hd, h3, h4, h5, h6⟩
    · rw [hfin.1] at h; cases h
  · unfold told at ha
    split at ha
    · cases ha
    · split at ha
      · rename_i t rows' ds hds
        cases ha
        obtain ⟨r, h1, h2, h3, h4, _⟩ := g.made (t, .ok (.posted rows)) (by rw [hds]; simp) rows rfl
        exact ⟨r, h1, h2, _, by rw [hds]; exact List.mem_cons_self, h3, h4⟩
      · cases ha

/-- **C187, "no transaction".** A call that answers "no transaction to commit" or "… to void" settled nothing, and no hold
was on the books under the id when it started. -/
theorem c187_nothing_partial {cfg : Cfg} {H : String → Prop} {db : DB} {id : String} {size : Nat} {void : Bool} {amt : Int} {fresh refs : Nat → String}
    {es : List CEv} {c : Clearing} (hs : 0 < size) (hc : FromHolds cfg H db) (hf : Fair H es)
    (hr : c = Clearing.run cfg id size void amt fresh refs { db := db } es) (hfin : c.finished = true) (ha : told c.done = .nothing) :
    (∀ t ∈ db.txns, (t.id = id ∨ t.parent = id ∨ t.metaQueuedParent = id) → t.status ≠ .inflight) ∧ c.done = [] := by
  have g : Under H id void amt db c := by rw [hr]; exact under_run hs es hf (under_init id void amt hc.hold)
  have hall := told_failed (by rw [ha]; simp : told c.done ≠ .failed)
  have hd : c.done = [] := by
    cases hd : c.done with
    | nil => rfl
    | cons d ds =>
      exfalso
      obtain ⟨rows, h⟩ := hall d (by rw [hd]; simp)
      unfold told at ha
      split at ha
      · cases ha
      · obtain ⟨t, y⟩ := d
        simp only at h
        subst h
        rw [hd] at ha
        cases ha
  simp only [Clearing.finished, Bool.and_eq_true, List.isEmpty_iff] at hfin
  refine ⟨?_, hd⟩
  intro t ht hid hst
  have hb : Paging.OnBooks db id := ⟨t, ht, hid, hst⟩
  rcases g.cover hb t ((Paging.legs_mem hb).2 ⟨ht, hid, hst⟩) with h | ⟨h, _⟩
  · rw [hd, hfin.2] at h; cases h
  · rw [hfin.1] at h; cases h

/-! ### A closed hold -/

theorem closed_refuses {H : String → Prop} {db db' : DB} {x t : Txn} (hk' : HoldInv H db')
    (h : db'.txns = db.txns ++ [x]) (ht : t ∈ db.txns) (hh : t.Holds) (hp : x.parent = t.id) (hs : x.status = .applied ∨ x.status = .void) :
    ¬ Cleared0 db t := by
  intro hc
  have ht' : t ∈ db'.txns := by rw [h]; exact List.mem_append_left _ ht
  have h0 := (hk'.kids x (by rw [h]; simp) hs (by rw [hp]; exact hk'.known t ht' hh)).1
  have hb := hk'.bound t ht' hh
  unfold Cleared0 at hc
  rcases hs with hs | hs
  · have e1 : committed db' x.parent = committed db x.parent + pay x := kidSum_one h hs
    have e2 : released db' t.id = released db t.id := kidSum_same h (by simp [hs])
    rw [hp] at e1; omega
  · have e1 : released db' x.parent = released db x.parent + pay x := kidSum_one h hs
    have e2 : committed db' t.id = committed db t.id := kidSum_same h (by simp [hs])
    rw [hp] at e1; omega

theorem closed_never {cfg : Cfg} {H : String → Prop} {id : String} {size : Nat} {void : Bool} {amt : Int} {fresh refs : Nat → String} {db0 : DB}
    {t : Txn} (hs : 0 < size) (ht : t ∈ db0.txns) (hh : t.Holds) (hk0 : HoldInv H db0) (hc : Cleared0 db0 t) :
    ∀ (es : List CEv) {c : Clearing}, Fair H es → Under H id void amt db0 c → (∀ d ∈ c.done, d.1 = t → ∀ rows, d.2 ≠ .ok (.posted rows)) →
      ∀ d ∈ (c.run cfg id size void amt fresh refs es).done, d.1 = t → ∀ rows, d.2 ≠ .ok (.posted rows)
  | [], _, _, _, hd => hd
  | e :: es, c, hf, g, hd => by
    refine closed_never hs ht hh hk0 hc es (fun x hx => hf x (List.mem_cons_of_mem _ hx)) (under_step hs g e (hf e (by simp))) ?_
    obtain ⟨new, hn⟩ := g.grown
    cases e with
    | fetch => simp only [Clearing.step]; split <;> (try split) <;> exact hd
    | other a => exact hd
    | work =>
      simp only [Clearing.step]
      split
      · exact hd
      · rename_i u us hj
        obtain ⟨_, q2⟩ := g.rows u (List.mem_append_right _ (by rw [hj]; exact List.mem_cons_self))
        rw [if_pos ((holds_iff u).2 q2)]
        intro d hd' hdt rows hr
        rcases List.mem_append.1 hd' with hd' | hd'
        · exact hd d hd' hdt rows hr
        · simp only [List.mem_singleton] at hd'
          subst hd'
          obtain ⟨hk, ho⟩ := settleOne_effect (cfg := cfg) (h := u.id) (newId := fresh c.done.length) (ref := refs c.done.length)
            (void := void) (amt := amt) g.hold
          have hdt : u = t := hdt
          subst hdt
          rcases ho with ⟨h, _⟩ | ⟨row, x, k1, k2, k3, k4, k5, k6, k7, k8, k9, k10, k11⟩
          · exact h rows hr
          · have hst : x.status = .applied ∨ x.status = .void := by
              rw [k9]; cases void
              · exact .inl rfl
              · exact .inr rfl
            have hu : u ∈ c.db.txns := by rw [hn]; exact List.mem_append_left _ ht
            exact closed_refuses hk k5 hu hh k7 hst (cleared_stays hk0 g.hold hn ht hh hc)

/-- **C187, again.** Once a hold on the books under the id is committed or voided in full, every later commit or void of the
id ends with an error — also one that settles everything that was left. -/
theorem c187_again {cfg : Cfg} {H : String → Prop} {db : DB} {id : String} {size : Nat} {void : Bool} {amt : Int} {fresh refs : Nat → String}
    {es : List CEv} {c : Clearing} {t : Txn} (hs : 0 < size) (hc : FromHolds cfg H db) (hf : Fair H es)
    (ht : t ∈ db.txns) (hid : t.id = id ∨ t.parent = id ∨ t.metaQueuedParent = id) (hst : t.status = .inflight)
    (hz : committed db t.id + released db t.id = pay t)
    (hr : c = Clearing.run cfg id size void amt fresh refs { db := db } es) (hfin : c.finished = true) : told c.done = .failed := by
  have g : Under H id void amt db c := by rw [hr]; exact under_run hs es hf (under_init id void amt hc.hold)
  have hb : Paging.OnBooks db id := ⟨t, ht, hid, hst⟩
  have hn := closed_never (cfg := cfg) (size := size) (void := void) (amt := amt) (fresh := fresh) (refs := refs) (id := id) hs ht (.inl hst)
    hc.hold hz es hf (under_init id void amt hc.hold) (fun d hd => by cases hd)
  rw [← hr] at hn
  simp only [Clearing.finished, Bool.and_eq_true, List.isEmpty_iff] at hfin
  by_cases h : told c.done = .failed
  · exact h
  · exfalso
    have hall := told_failed h
    rcases g.cover hb t ((Paging.legs_mem hb).2 ⟨ht, hid, hst⟩) with h | ⟨h, _⟩
    · rw [hfin.2, List.append_nil] at h
      obtain ⟨d, hd, hdt⟩ := List.mem_map.1 h
      obtain ⟨rs, hrs⟩ := hall d hd
      exact hn d hd hdt rs hrs
    · rw [hfin.1] at h; cases h

/-! ### Nobody else -/

/-- Only the call itself runs. -/
def CAlone (es : List CEv) : Prop := ∀ e ∈ es, ∀ a, e ≠ .other a

/-- Specification: the rows the results report. -/
def creported (ds : List (Txn × Except InfErr Outcome)) : List Txn :=
  ds.flatMap fun d => match d.2 with
    | .ok (.posted rows) => rows
    | _ => []

theorem legs_same {db db' : DB} {new : List Txn} (h : db'.txns = db.txns ++ new) (hs : ∀ x ∈ new, x.status = .applied ∨ x.status = .void)
    (id : String) : Atomic.inflightLegs db' id = Atomic.inflightLegs db id := by
  have hnil : ∀ f : Txn → Bool, (∀ x, x.status = .applied ∨ x.status = .void → f x = false) → db'.txns.filter f = db.txns.filter f := by
    intro f hf
    have : new.filter f = [] := List.filter_eq_nil_iff.2 (fun x hx => by rw [hf x (hs x hx)]; simp)
    rw [h, List.filter_append, this, List.append_nil]
  have hany : ∀ f : Txn → Bool, (∀ x, x.status = .applied ∨ x.status = .void → f x = false) → db'.txns.any f = db.txns.any f := by
    intro f hf
    have : new.any f = false := List.any_eq_false.2 (fun x hx => by rw [hf x (hs x hx)]; simp)
    rw [h, List.any_append, this, Bool.or_false]
  unfold Atomic.inflightLegs
  dsimp only
  rw [hnil _ (by intro x hx; rcases hx with hx | hx <;> simp [hx])]
  have hq : ∀ t : Txn, (db'.txns.any (fun r => r.reference = t.reference ++ "_q" && r.status = .rejected))
      = (db.txns.any (fun r => r.reference = t.reference ++ "_q" && r.status = .rejected)) :=
    fun t => hany _ (by intro x hx; rcases hx with hx | hx <;> simp [hx])
  have hc : ∀ t : Txn, (db'.txns.any (fun c => c.parent = t.id && c.status = .inflight))
      = (db.txns.any (fun c => c.parent = t.id && c.status = .inflight)) :=
    fun t => hany _ (by intro x hx; rcases hx with hx | hx <;> simp [hx])
  simp only [hq, hc]
  rw [hnil _ (by intro x hx; rcases hx with hx | hx <;> simp [hx])]

structure UnderAlone (H : String → Prop) (id : String) (void : Bool) (amt : Int) (db0 : DB) (c : Clearing) : Prop extends Under H id void amt db0 c where
  same : Atomic.inflightLegs c.db id = Atomic.inflightLegs db0 id
  taken : c.done.map Prod.fst ++ c.jobs = (Atomic.inflightLegs db0 id).take c.off
  shut : c.closed = true → (Atomic.inflightLegs db0 id).drop c.off = []
  txns : c.db.txns = db0.txns ++ creported c.done

theorem underAlone_step {cfg : Cfg} {H : String → Prop} {id : String} {size : Nat} {void : Bool} {amt : Int} {fresh refs : Nat → String} {db0 : DB}
    {c : Clearing} (hs : 0 < size) (g : UnderAlone H id void amt db0 c) {e : CEv} (he : ∀ a, e ≠ .other a) :
    UnderAlone H id void amt db0 (c.step cfg id size void amt fresh refs e) := by
  have gu := under_step (cfg := cfg) (fresh := fresh) (refs := refs) hs g.toUnder e (fun a h => absurd h (he a))
  cases e with
  | fetch =>
    refine { gu with same := ?_, taken := ?_, shut := ?_, txns := ?_ } <;> simp only [Clearing.step]
    · split <;> (try split) <;> exact g.same
    · split
      · exact g.taken
      · split
        · exact g.taken
        · show c.done.map Prod.fst ++ (c.jobs ++ ((Atomic.inflightLegs c.db id).drop c.off).take size)
            = (Atomic.inflightLegs db0 id).take (c.off + (((Atomic.inflightLegs c.db id).drop c.off).take size).length)
          rw [← List.append_assoc, g.taken, g.same, List.take_add]
          congr 1
          exact List.take_eq_take_min.trans (by rw [List.length_take])
    · split
      · exact g.shut
      · rename_i hc
        split
        · rename_i hp
          intro _
          rw [g.same] at hp
          exact Paging.page_nil hs hp
        · intro h; exact absurd h hc
    · split <;> (try split) <;> exact g.txns
  | work =>
    simp only [Clearing.step] at gu ⊢
    cases hj : c.jobs with
    | nil => rw [hj] at gu; exact g
    | cons t ts =>
      obtain ⟨_, q2⟩ := g.rows t (List.mem_append_right _ (by rw [hj]; exact List.mem_cons_self))
      have hin := (holds_iff t).2 q2
      rw [hj] at gu
      simp only [hin, if_true] at gu ⊢
      obtain ⟨hk, ho⟩ := settleOne_effect (cfg := cfg) (h := t.id) (newId := fresh c.done.length) (ref := refs c.done.length)
        (void := void) (amt := amt) g.hold
      have htx : (settleOne cfg c.db t.id void amt (fresh c.done.length) (refs c.done.length)).1.txns
          = c.db.txns ++ creported [(t, (settleOne cfg c.db t.id void amt (fresh c.done.length) (refs c.done.length)).2)] ∧
          ∀ x ∈ creported [(t, (settleOne cfg c.db t.id void amt (fresh c.done.length) (refs c.done.length)).2)],
            x.status = .applied ∨ x.status = .void := by
        rcases ho with ⟨hn, h⟩ | ⟨row, x, k1, k2, k3, k4, k5, k6, k7, k8, k9, _⟩
        · have : creported [(t, (settleOne cfg c.db t.id void amt (fresh c.done.length) (refs c.done.length)).2)] = [] := by
            unfold creported
            rw [List.flatMap_cons, List.flatMap_nil, List.append_nil]
            split
            · rename_i rows hr; exact absurd hr (hn rows)
            · rfl
          rw [this]
          exact ⟨by rw [List.append_nil]; exact h, by simp⟩
        · have : creported [(t, (settleOne cfg c.db t.id void amt (fresh c.done.length) (refs c.done.length)).2)] = [x] := by
            unfold creported
            simp [k4]
          rw [this]
          refine ⟨k5, ?_⟩
          intro y hy
          simp only [List.mem_singleton] at hy
          subst hy
          rw [k9]; cases void
          · exact .inl rfl
          · exact .inr rfl
      refine { gu with same := ?_, taken := ?_, shut := g.shut, txns := ?_ }
      · exact (legs_same htx.1 htx.2 id).trans g.same
      · show (c.done ++ [_]).map Prod.fst ++ ts = _
        rw [← g.taken, hj]; simp
      · show (settleOne ..).1.txns = _
        rw [htx.1, g.txns, List.append_assoc]
        congr 1
        unfold creported
        rw [List.flatMap_append]
  | other a => exact absurd rfl (he a)

theorem underAlone_run {cfg : Cfg} {H : String → Prop} {id : String} {size : Nat} {void : Bool} {amt : Int} {fresh refs : Nat → String} {db0 : DB}
    (hs : 0 < size) : ∀ (es : List CEv) {c : Clearing}, CAlone es → UnderAlone H id void amt db0 c →
      UnderAlone H id void amt db0 (c.run cfg id size void amt fresh refs es)
  | [], _, _, g => g
  | e :: es, _, h, g => underAlone_run hs es (fun x hx => h x (List.mem_cons_of_mem _ hx)) (underAlone_step hs g (h e (by simp)))

/-- **C187, alone.** A call that runs alone works on every hold listed under the id exactly once, newest first, whatever
the page size and however the worker and the queries interleave, and stores exactly the settlements its results
report. So when one hold stands under the id, an error means that nothing was stored. Missing from the full
claim: an error with several holds (`c187_error_fails`), other requests. -/
theorem c187_alone_partial {cfg : Cfg} {H : String → Prop} {db : DB} {id : String} {size : Nat} {void : Bool} {amt : Int} {fresh refs : Nat → String}
    {es : List CEv} {c : Clearing} (hs : 0 < size) (hc : FromHolds cfg H db) (ha : CAlone es)
    (hr : c = Clearing.run cfg id size void amt fresh refs { db := db } es) (hfin : c.finished = true) :
    c.done.map Prod.fst = Atomic.inflightLegs db id ∧ c.db.txns = db.txns ++ creported c.done ∧
    (∀ d ∈ c.done, ∀ rows, d.2 = .ok (.posted rows) → Made void amt c.db d.1 rows) ∧
    (∀ o, Atomic.inflightLegs db id = [o] → told c.done = .failed → c.db.txns = db.txns) := by
  have g : UnderAlone H id void amt db c := by
    rw [hr]
    exact underAlone_run hs es ha { under_init id void amt hc.hold with
      same := rfl
      taken := by simp
      shut := fun h => by cases h
      txns := by simp [creported] }
  simp only [Clearing.finished, Bool.and_eq_true, List.isEmpty_iff] at hfin
  have h1 : c.done.map Prod.fst = Atomic.inflightLegs db id := by
    have h := g.taken
    rw [hfin.2, List.append_nil] at h
    rw [h, List.take_of_length_le]
    exact List.drop_eq_nil_iff.1 (g.shut hfin.1)
  refine ⟨h1, g.txns, g.made, ?_⟩
  intro o ho hfail
  rw [g.txns]
  rw [ho] at h1
  cases hd : c.done with
  | nil => rw [hd] at h1; cases h1
  | cons d ds =>
    rw [hd, List.map_cons, List.cons.injEq, List.map_eq_nil_iff] at h1
    rw [h1.2]
    rw [hd, h1.2] at hfail
    unfold told at hfail
    split at hfail
    · rename_i hb
      simp only [List.any_cons, List.any_nil, Bool.or_false] at hb
      split at hb
      · cases hb
      · rename_i hne
        have : creported [d] = [] := by
          unfold creported
          rw [List.flatMap_cons, List.flatMap_nil, List.append_nil]
          split
          · rename_i rows hr'; exact absurd hr' (hne rows)
          · rfl
        rw [this, List.append_nil]
    · split at hfail <;> cases hfail

/-! ### Concrete cases -/

/-- A leg of a request. -/
def legOf (id parent ref dst : String) (p : Int) : Txn :=
  { holdTxn id ref "a" dst p with parent := parent, metaQueuedParent := if parent = "bulk_1" then parent else "" }

/-- Two holds under "P", of 30 and of 70. -/
def pair : List Act :=
  [.base (.create "a" "" "USD"), .base (.create "b" "" "USD"), .base (.create "c" "" "USD"),
   .base (.post (legOf "h1" "P" "r1" "b" 30) "x" "y"), .base (.post (legOf "h2" "P" "r2" "c" 70) "x" "y")]

theorem pair_came : FromHolds {} exampleHolds (acts {} {} pair) := by
  refine ⟨pair, ?_, rfl⟩
  intro a ha
  simp only [pair, List.mem_cons, List.not_mem_nil, or_false] at ha
  rcases ha with rfl | rfl | rfl | rfl | rfl <;>
    simp [Act.Respects, Op.Ordinary, Op.posts, legOf, holdTxn, Txn.Live, Txn.Plain, exampleHolds] <;>
    decide +kernel

/-- Pages of one row; the worker is quicker than the next query, and somebody commits part of the other hold in between. -/
def crowded : List CEv := [.fetch, .work, .other (.commit "h1" 10 "o1" "o2" "" ""), .fetch, .work, .fetch]

theorem crowded_fair : Fair exampleHolds crowded := by
  intro e he a ha
  subst ha
  simp only [crowded, List.mem_cons, List.not_mem_nil, or_false, reduceCtorEq, false_or, CEv.other.injEq] at he
  subst he
  trivial

/-- `c187_settled_partial`: both holds are cleared, 10 of them by somebody else. -/
example : let c := Clearing.run {} "P" 1 false 0 (refIds "n") (refIds "s") { db := acts {} {} pair } crowded
    c.finished = true ∧ (match told c.done with | .settled rows => rows.map (·.preciseAmount) | _ => []) = [some 70] ∧
    committed c.db "h1" = 30 ∧ committed c.db "h2" = 70 := by decide +kernel

example : Paging.OnBooks (acts {} {} pair) "P" ∧ Fair exampleHolds crowded ∧ FromHolds {} exampleHolds (acts {} {} pair) :=
  ⟨⟨_, List.getElem_mem (n := 0) (by decide +kernel), by decide +kernel, by decide +kernel⟩, crowded_fair, pair_came⟩

/-- `c187_nothing_partial`. -/
example : let c := Clearing.run {} "Q" 1 true 0 (refIds "n") (refIds "s") { db := acts {} {} pair } [.fetch]
    c.finished = true ∧ told c.done = .nothing := by decide +kernel

/-- `c187_again`: one hold was voided before; the other one is settled by a call that reports an error. -/
example : let db := acts {} {} (pair ++ [.void "h2" "v" "v1" "" ""])
    let c := Clearing.run {} "P" 100 false 0 (refIds "n") (refIds "s") { db := db } [.fetch, .work, .work, .fetch]
    committed db "h2" + released db "h2" = 70 ∧ c.finished = true ∧ told c.done = .failed ∧
    committed c.db "h1" = 30 := by decide +kernel

/-- The full claim: success means that every hold listed under the id was settled by the call, and an error of a call that
runs alone that nothing was stored. -/
def C187Full : Prop := C187Settled ∧ C187Error
where
  C187Settled : Prop := ∀ (H : String → Prop) (db : DB) (id : String) (size : Nat) (void : Bool) (amt : Int) (fresh refs : Nat → String)
    (es : List CEv) (rows : List Txn), 0 < size → FromHolds {} H db → Fair H es →
    (Clearing.run {} id size void amt fresh refs { db := db } es).finished = true →
    told (Clearing.run {} id size void amt fresh refs { db := db } es).done = .settled rows →
    ∀ t ∈ Atomic.inflightLegs db id, ∃ r, (t, Except.ok (.posted [r])) ∈ (Clearing.run {} id size void amt fresh refs { db := db } es).done
  C187Error : Prop := ∀ (H : String → Prop) (db : DB) (id : String) (size : Nat) (void : Bool) (amt : Int) (fresh refs : Nat → String)
    (es : List CEv), 0 < size → FromHolds {} H db → CAlone es →
    (Clearing.run {} id size void amt fresh refs { db := db } es).finished = true →
    told (Clearing.run {} id size void amt fresh refs { db := db } es).done = .failed →
    (Clearing.run {} id size void amt fresh refs { db := db } es).db.txns = db.txns

/-- **C187, the full claim fails for errors.** 50 are asked of two holds of 30 and 70. 50 of the second are committed, the
first is too small; the client is told the commit failed, and the money has moved. -/
theorem c187_error_fails : ¬ C187Full.C187Error := by
  intro h
  have := h exampleHolds (acts {} {} pair) "P" 100 false 50 (refIds "n") (refIds "s") [.fetch, .work, .work, .fetch] (by decide) pair_came
    (by intro e he a ha; subst ha; simp at he) (by decide +kernel) (by decide +kernel)
  revert this
  decide +kernel

/-- Two holds of one bulk request, both still queued. -/
def waitingPair : List Act :=
  [.base (.create "a" "" "USD"), .base (.create "b" "" "USD"), .base (.create "c" "" "USD"),
   .base (.store (legOf "l1" "bulk_1" "r1" "b" 30)), .base (.store (legOf "l2" "bulk_1" "r2" "c" 70))]

def waitingHolds (i : String) : Prop := i = "l1" ∨ i = "l2" ∨ i = "c2"

theorem waitingPair_came : FromHolds {} waitingHolds (acts {} {} waitingPair) := by
  refine ⟨waitingPair, ?_, rfl⟩
  intro a ha
  simp only [waitingPair, List.mem_cons, List.not_mem_nil, or_false] at ha
  rcases ha with rfl | rfl | rfl | rfl | rfl <;>
    simp [Act.Respects, Op.Ordinary, Op.posts, legOf, holdTxn, waitingHolds, pay] <;>
    (try intro h; simp_all)

/-- The queue puts the newer hold on the books after the first page was read. -/
def landed : List CEv := [.fetch, .other (.base (.post (Queue.queueCopy (legOf "l2" "bulk_1" "r2" "c" 70) "c2") "x" "y")), .fetch, .work]

theorem landed_fair : Fair waitingHolds landed := by
  intro e he a ha
  subst ha
  simp only [landed, List.mem_cons, List.not_mem_nil, or_false, reduceCtorEq, false_or, CEv.other.injEq] at he
  subst he
  simp [Act.Respects, Op.Ordinary, Op.posts, legOf, holdTxn, Queue.queueCopy, Txn.Live, Txn.Plain, waitingHolds]

/-- **C187, the full claim fails for queued holds.** A void of a bulk request whose holds are queued answers success with one
of them voided. The first page held the newer one; meanwhile the queue put that one on the books, the listing switched
to the holds on the books, and the offset points behind them. The older hold was never looked at. -/
theorem c187_queued_fails : ¬ C187Full.C187Settled := by
  intro h
  have hs : (match told (Clearing.run {} "bulk_1" 1 true 0 (refIds "n") (refIds "s") { db := acts {} {} waitingPair } landed).done with
      | .settled _ => true | _ => false) = true := by decide +kernel
  obtain ⟨rows, hrows⟩ : ∃ rows, told (Clearing.run {} "bulk_1" 1 true 0 (refIds "n") (refIds "s") { db := acts {} {} waitingPair } landed).done
      = .settled rows := by
    split at hs
    · rename_i rows e; exact ⟨rows, e⟩
    · cases hs
  have hall := h waitingHolds (acts {} {} waitingPair) "bulk_1" 1 true 0 (refIds "n") (refIds "s") landed rows (by decide) waitingPair_came
    landed_fair (by decide +kernel) hrows
  obtain ⟨r, hr⟩ := hall (legOf "l1" "bulk_1" "r1" "b" 30) (by decide +kernel)
  have h1 : "l1" ∈ (Clearing.run {} "bulk_1" 1 true 0 (refIds "n") (refIds "s") { db := acts {} {} waitingPair } landed).done.map (·.1.id) :=
    List.mem_map.2 ⟨_, hr, rfl⟩
  revert h1
  decide +kernel

theorem c187_full_fails : ¬ C187Full := fun h => c187_error_fails h.2

end Blnk.Undo
