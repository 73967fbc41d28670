import Verif.Lemmas.Names
import Verif.Props.Batch
/-
C82: a queued transaction that is applied is applied under the terms it was submitted with.

The attempt that succeeds may be a task from Redis, which is the submitted transaction itself, or a
copy read back from its QUEUED row by coalescing or recovery. The row has no column for the hold
and overdraft flags or the overdraft limit, and these two queries do not read the effective date;
the flags come back from metadata, which the client can also write.
-/
namespace Blnk.Queue
open Blnk

/-! ### Specification -/

/-- The client's own metadata does not contradict the flags of the request. -/
def Clean (a : Txn) : Prop :=
  a.metaAllowOverdraft.getD false = a.allowOverdraft ∧ a.metaInflight.getD false = a.inflight

/-- Nothing in the request gets lost in its row: no overdraft limit, no effective date of its own,
no contradicting metadata. -/
def Plainly (a : Txn) : Prop := Clean a ∧ a.overdraftLimit = 0 ∧ a.effectiveDate = 0

/-- `id` is the account a request means by `ident`: itself, or the balance of that indicator and
currency. -/
def Means (db : DB) (ident cur id : String) : Prop :=
  (isIndicator ident = false ∧ id = ident) ∨ (isIndicator ident = true ∧ (id, ident, cur) ∈ names db)

/-- All terms that decide how a transaction is applied. -/
structure Terms (a t : Txn) : Prop where
  inflight : t.inflight = a.inflight
  overdraft : t.allowOverdraft = a.allowOverdraft
  limit : t.overdraftLimit = a.overdraftLimit
  date : t.effectiveDate = a.effectiveDate
  precision : t.precision = a.precision

/-- The row `r` moves what was submitted as `a`: amount, currency, parties, under its reference and
linked to its id. -/
structure Moves (db : DB) (a r : Txn) : Prop where
  currency : r.currency = a.currency
  amount : ∀ p, a.preciseAmount = some p → 0 < p → r.preciseAmount = some p
  source : Means db a.source a.currency r.source
  destination : Means db a.destination a.currency r.destination
  reference : r.reference = a.reference ∨ r.reference = a.reference ++ "_q"
  link : r.id = a.id ∨ r.parent = a.id

/-- The row `r` applies `a` as the submitted terms say: as a hold or as a posting, with the
overdraft permission and effective date given. -/
structure AppliesAs (a r : Txn) : Prop where
  terms : r.allowOverdraft = a.allowOverdraft ∧ r.overdraftLimit = a.overdraftLimit ∧ r.effectiveDate = a.effectiveDate
  status : r.status = if a.inflight then .inflight else .applied

/-- What was submitted under `k`: accepted by the queue, or stored as a row by something else. -/
def Sub (s : Sys) (k : Key) (a : Txn) : Prop :=
  keyOf a = k ∧ waiting a ∧ (a ∈ s.accepted ∨ .base (.store a) ∈ s.others)

/-- Generated balance ids are no indicators (the service generates `bln_…`). -/
def NoAt (db : DB) : Prop := ∀ n ∈ names db, isIndicator n.1 = false

/-! ### The invariant -/

/-- A transaction in the service stands for the submission `a`. -/
structure Core (db : DB) (a t : Txn) : Prop where
  waits : waiting t
  currency : t.currency = a.currency
  amount : ∀ p, a.preciseAmount = some p → 0 < p → t.preciseAmount = some p
  source : t.source = a.source ∨ Means db a.source a.currency t.source
  destination : t.destination = a.destination ∨ Means db a.destination a.currency t.destination
  reference : t.reference = a.reference ∨ t.reference = a.reference ++ "_q"
  link : t.id = a.id ∨ t.parent = a.id

/-- The metadata from which a copy restores its flags. -/
structure SameMeta (a t : Txn) : Prop where
  inflight : t.metaInflight = a.metaInflight
  overdraft : t.metaAllowOverdraft = a.metaAllowOverdraft

/-- What a copy read back from a row keeps. -/
structure Restored (a t : Txn) : Prop where
  inflight : t.inflight = a.metaInflight.getD false
  overdraft : t.allowOverdraft = a.metaAllowOverdraft.getD false
  limit : t.overdraftLimit = 0
  date : t.effectiveDate = 0

def Known (db db' : DB) : Prop := ∀ n ∈ names db, n ∈ names db'

theorem Means.mono {db db' : DB} (h : Known db db') {i c x : String} : Means db i c x → Means db' i c x
  | .inl e => .inl e
  | .inr ⟨e, m⟩ => .inr ⟨e, h _ m⟩

theorem Core.mono {db db' : DB} (h : Known db db') {a t : Txn} (c : Core db a t) : Core db' a t :=
  { c with source := c.source.imp id (·.mono h), destination := c.destination.imp id (·.mono h) }

theorem Core.self (db : DB) {t : Txn} (h : waiting t) : Core db t t :=
  ⟨h, rfl, fun _ h _ => h, .inl rfl, .inl rfl, .inl rfl, .inl rfl⟩

theorem known_of_grow {g : List String} {db db' : DB} (h : NamesGrow g (names db) (names db')) : Known db db' := by
  obtain ⟨new, e, _⟩ := h.ext
  intro n hn; rw [e]; exact List.mem_append_left _ hn

theorem Known.trans {a b c : DB} (h : Known a b) (h' : Known b c) : Known a c := fun n hn => h' n (h n hn)

theorem resolve_means {db db' : DB} {s cur n i : String} (h : db.resolve s cur n = .ok (db', i)) : Means db' s cur i := by
  rcases resolve_ok h with ⟨rfl, hs, rfl⟩ | ⟨rfl, hs, b, hb, e1, e2, e3⟩ | ⟨hs, rfl, hc⟩
  · exact .inl ⟨hs, rfl⟩
  · exact .inr ⟨hs, List.mem_map.2 ⟨b, hb, by simp [Balance.name, e1, e2, e3]⟩⟩
  · exact .inr ⟨hs, by rw [(createBalance_names hc).1]; simp⟩

/-- Rows added by an action are settled, unless the action only stores a row. -/
theorem recordSingle_new_rows {cfg : Cfg} {db : DB} {t : Txn} {n1 n2 : String} :
    ∀ r ∈ (recordSingle cfg db t n1 n2).1.txns, r ∈ db.txns ∨ ¬ waiting r := by
  unfold recordSingle
  split
  · exact fun r h => .inl h
  · rename_i db1 sid h1
    have e1 := (resolve_onlyOpened h1).txns
    split
    · intro r hr; rw [e1] at hr; exact .inl hr
    · rename_i db2 did h2
      have e2 : db2.txns = db.txns := by rw [(resolve_onlyOpened h2).txns, e1]
      unfold postResolved
      split
      · intro r hr; rw [e2] at hr; exact .inl hr
      · intro r hr; rw [e2] at hr; exact .inl hr
      · rename_i w hw
        split
        · rename_i db' hp
          obtain ⟨_, _, _, rfl⟩ := persist_ok hp
          obtain ⟨_, s, d, s', d', _, _, _, _, rfl⟩ := prepareSingle_some hw
          intro r hr
          simp only [e2, List.mem_append, List.mem_singleton] at hr
          rcases hr with hr | rfl
          · exact .inl hr
          · exact .inr (finalRow_settled _)
        · intro r hr; rw [e2] at hr; exact .inl hr

theorem recordBatch_new_rows {cfg : Cfg} {db : DB} {ts : List Txn} :
    ∀ r ∈ (recordBatch cfg db ts).1.txns, r ∈ db.txns ∨ ¬ waiting r := by
  unfold recordBatch
  split
  · exact fun r h => .inl h
  · rename_i w hw
    split
    · rename_i db' hp
      obtain ⟨_, _, _, rfl⟩ := persist_ok hp
      obtain ⟨bs, _, hm⟩ := prepareBatch_ok hw
      intro r hr
      simp only [List.mem_append, prepareMembers_rows hm, List.mem_map] at hr
      rcases hr with hr | ⟨t, _, rfl⟩
      · exact .inl hr
      · exact .inr (finalRow_settled _)
    · exact fun r h => .inl h

theorem store_new_rows {cfg : Cfg} {db : DB} {t : Txn} :
    ∀ r ∈ (step cfg db (.store t)).1.txns, r ∈ db.txns ∨ r = t := by
  simp only [step]
  split
  · rename_i db' h
    obtain ⟨_, _, rfl⟩ := insertTxn_ok h
    intro r hr
    simpa using hr
  · exact fun r h => .inl h

theorem act_new_rows {cfg : Cfg} {db : DB} {a : Act} :
    ∀ r ∈ (act cfg db a).txns, r ∈ db.txns ∨ ¬ waiting r ∨ a = .base (.store r) := by
  intro r hr
  cases a with
  | base op =>
    cases op with
    | create i ind cur =>
      simp only [act, step] at hr
      split at hr
      · rename_i db' h; obtain ⟨_, _, rfl⟩ := createBalance_ok h; exact .inl hr
      · exact .inl hr
    | post t n1 n2 => exact (recordSingle_new_rows r hr).imp id .inl
    | batch ts => exact (recordBatch_new_rows r hr).imp id .inl
    | store t => exact (store_new_rows r hr).imp id (fun h => .inr (by rw [h]))
  | commit i amt newId ref n1 n2 =>
    simp only [act, commitInflight] at hr
    split at hr
    · exact .inl hr
    · split at hr
      · exact .inl hr
      · exact (recordSingle_new_rows r hr).imp id .inl
  | void i newId ref n1 n2 =>
    simp only [act, voidInflight] at hr
    split at hr
    · exact .inl hr
    · split at hr
      · exact .inl hr
      · exact (recordSingle_new_rows r hr).imp id .inl

/-- What `persistQueued` keeps of the accepted transaction, and the only row it stores. -/
theorem persistQueued_keeps (cfg : Cfg) (db : DB) (t : Txn) (n1 n2 : String) (hw : waiting t) :
    Known db (persistQueued cfg db t n1 n2).1 ∧
    Core (persistQueued cfg db t n1 n2).1 t (persistQueued cfg db t n1 n2).2.1 ∧
    Terms t (persistQueued cfg db t n1 n2).2.1 ∧ SameMeta t (persistQueued cfg db t n1 n2).2.1 ∧
    keyOf (persistQueued cfg db t n1 n2).2.1 = keyOf t ∧
    ∀ r ∈ (persistQueued cfg db t n1 n2).1.txns, r ∈ db.txns ∨ r = (persistQueued cfg db t n1 n2).2.1 := by
  unfold persistQueued
  split
  · exact ⟨fun _ h => h, .self _ hw, ⟨rfl, rfl, rfl, rfl, rfl⟩, ⟨rfl, rfl⟩, rfl, fun r h => .inl h⟩
  · rename_i db1 sid h1
    have k1 := known_of_grow (resolve_names h1)
    have e1 := (resolve_onlyOpened h1).txns
    split
    · exact ⟨k1, .self _ hw, ⟨rfl, rfl, rfl, rfl, rfl⟩, ⟨rfl, rfl⟩, rfl, fun r h => .inl (by rw [e1] at h; exact h)⟩
    · rename_i db2 did h2
      have k2 := known_of_grow (resolve_names h2)
      have e2 : db2.txns = db.txns := by rw [(resolve_onlyOpened h2).txns, e1]
      have m1 := (resolve_means h1).mono k2
      have m2 := resolve_means h2
      split
      · simp only
        split
        · rename_i db3 h3
          obtain ⟨_, _, rfl⟩ := insertTxn_ok h3
          refine ⟨k1.trans k2, ⟨hw, rfl, fun _ h _ => h, .inr m1, .inr m2, .inl rfl, .inl rfl⟩, ⟨rfl, rfl, rfl, rfl, rfl⟩, ⟨rfl, rfl⟩, rfl, ?_⟩
          intro r hr
          simpa [e2] using hr
        · exact ⟨k1.trans k2, ⟨hw, rfl, fun _ h _ => h, .inr m1, .inr m2, .inl rfl, .inl rfl⟩, ⟨rfl, rfl, rfl, rfl, rfl⟩, ⟨rfl, rfl⟩, rfl,
            fun r h => .inl (by rw [e2] at h; exact h)⟩
      · exact ⟨k1.trans k2, .self _ hw, ⟨rfl, rfl, rfl, rfl, rfl⟩, ⟨rfl, rfl⟩, rfl, fun r h => .inl (by rw [e2] at h; exact h)⟩

/-- Rows that wait and tasks in Redis stand for submissions. -/
structure TInv (s : Sys) : Prop where
  rows : ∀ r ∈ s.db.txns, waiting r → ∃ a, Sub s (keyOf r) a ∧ Core s.db a r ∧ Terms a r ∧ SameMeta a r
  tasks : ∀ k t, (k, t) ∈ s.tasks → ∃ a, a ∈ s.accepted ∧ keyOf a = k ∧ waiting a ∧ Core s.db a t ∧ Terms a t

theorem step_known {cfg : Cfg} {s s' : Sys} (hi : Inv s.db) (h : Step cfg s s') : Known s.db s'.db := by
  cases h with
  | other a => exact known_of_grow (act_names hi)
  | accept t ht => exact fun _ h => h
  | persist t n1 n2 newId e ht he =>
    unfold persistQueued
    simp only
    split
    · exact fun _ h => h
    · rename_i db1 sid h1
      have k1 := known_of_grow (resolve_names h1)
      split
      · exact k1
      · rename_i db2 did h2
        have k2 := known_of_grow (resolve_names h2)
        split
        · split
          · rename_i db3 h3
            obtain ⟨_, _, rfl⟩ := insertTxn_ok h3
            exact k1.trans k2
          · exact k1.trans k2
        · exact k1.trans k2
  | single k t n1 n2 hj => exact known_of_grow (recordSingle_names hi)
  | batch js hj => exact known_of_grow (act_names (cfg := cfg) (a := .base (.batch (js.map (·.2)))) hi)
  | reject k t hj => exact known_of_grow (act_names (cfg := cfg) (a := .base (.store (rejectedRow t))) hi)

theorem step_sub {cfg : Cfg} {s s' : Sys} (h : Step cfg s s') {k : Key} {a : Txn} : Sub s k a → Sub s' k a := by
  rintro ⟨h1, h2, h3⟩
  refine ⟨h1, h2, ?_⟩
  cases h with
  | other x => exact h3.imp id (List.mem_cons_of_mem _)
  | accept t ht => exact h3.imp (List.mem_cons_of_mem _) id
  | persist t n1 n2 newId e ht he => exact h3
  | single k t n1 n2 hj => exact h3
  | batch js hj => exact h3
  | reject k t hj => exact h3

theorem step_accepted {cfg : Cfg} {s s' : Sys} (h : Step cfg s s') {a : Txn} (ha : a ∈ s.accepted) : a ∈ s'.accepted := by
  cases h with
  | accept t ht => exact List.mem_cons_of_mem _ ha
  | _ => exact ha

theorem step_tinv {cfg : Cfg} {s s' : Sys} (hq : QInv s) (hi : TInv s) (h : Step cfg s s') : TInv s' := by
  have kn := step_known hq.inv h
  have oldRow : ∀ r ∈ s.db.txns, waiting r → ∃ a, Sub s' (keyOf r) a ∧ Core s'.db a r ∧ Terms a r ∧ SameMeta a r := by
    intro r hr hw
    obtain ⟨a, h1, h2, h3⟩ := hi.rows r hr hw
    exact ⟨a, step_sub h h1, h2.mono kn, h3⟩
  have oldTask : ∀ k t, (k, t) ∈ s.tasks → ∃ a, a ∈ s'.accepted ∧ keyOf a = k ∧ waiting a ∧ Core s'.db a t ∧ Terms a t := by
    intro k t ht
    obtain ⟨a, h1, h2, h3, h4, h5⟩ := hi.tasks k t ht
    exact ⟨a, step_accepted h h1, h2, h3, h4.mono kn, h5⟩
  cases h with
  | other a =>
    refine ⟨fun r hr hw => ?_, oldTask⟩
    rcases act_new_rows r hr with h | h | h
    · exact oldRow r h hw
    · exact absurd hw h
    · exact ⟨r, ⟨rfl, hw, .inr (by simp [h])⟩, .self _ hw, ⟨rfl, rfl, rfl, rfl, rfl⟩, ⟨rfl, rfl⟩⟩
  | accept t ht => exact ⟨oldRow, oldTask⟩
  | persist t n1 n2 newId e ht he =>
    obtain ⟨_, hc, hte, hme, hk, hrows⟩ := persistQueued_keeps cfg s.db t n1 n2 (hq.accepted t ht)
    refine ⟨fun r hr hw => ?_, ?_⟩
    · rcases hrows r hr with h | h
      · exact oldRow r h hw
      · subst h
        exact ⟨t, ⟨hk.symm, hq.accepted t ht, .inl ht⟩, hc, hte, hme⟩
    · intro k x hx
      cases e with
      | nothing => exact oldTask k x hx
      | original =>
        rcases List.mem_cons.1 hx with h | h
        · simp only [Prod.mk.injEq] at h
          obtain ⟨rfl, rfl⟩ := h
          exact ⟨t, ht, rfl, hq.accepted t ht, hc, hte⟩
        · exact oldTask k x h
      | copy =>
        rcases List.mem_cons.1 hx with h | h
        · simp only [Prod.mk.injEq] at h
          obtain ⟨rfl, rfl⟩ := h
          simp only [keyOf, Key.mk.injEq] at hk
          exact ⟨t, ht, rfl, hq.accepted t ht,
            ⟨hc.waits, hc.currency, hc.amount, hc.source, hc.destination, .inr (by simp [queueCopy, hk.2]), .inr hk.1⟩,
            ⟨hte.inflight, hte.overdraft, hte.limit, hte.date, hte.precision⟩⟩
        · exact oldTask k x h
  | single k t n1 n2 hj =>
    exact ⟨fun r hr hw => (recordSingle_new_rows r hr).elim (oldRow r · hw) (absurd hw), oldTask⟩
  | batch js hj =>
    exact ⟨fun r hr hw => (recordBatch_new_rows r hr).elim (oldRow r · hw) (absurd hw), oldTask⟩
  | reject k t hj =>
    refine ⟨fun r hr hw => ?_, oldTask⟩
    rcases store_new_rows r hr with h | h
    · exact oldRow r h hw
    · subst h; rcases hw with h | h <;> cases h

theorem reach_tinv {cfg : Cfg} {s : Sys} (h : Reach cfg s) : TInv s := by
  induction h with
  | init => exact ⟨by simp, by simp⟩
  | step hr hs ih => exact step_tinv (reach_qinv hr) ih hs

theorem scanned_date (t : Txn) : t.applyPrecision.effectiveDate = t.effectiveDate ∧ t.applyPrecision.metaInflight = t.metaInflight ∧
    t.applyPrecision.metaAllowOverdraft = t.metaAllowOverdraft := by
  unfold Txn.applyPrecision
  simp only
  split
  · split <;> (split <;> simp)
  · split <;> simp

/-- Whatever may be attempted stands for a submission and keeps its terms, or what the row keeps
of them. -/
theorem job_terms {s : Sys} (hi : TInv s) {k : Key} {t : Txn} (hj : Job s k t) :
    ∃ a, Sub s k a ∧ Core s.db a t ∧ (Terms a t ∨ Restored a t) := by
  cases hj with
  | task h =>
    obtain ⟨a, h1, h2, h3, h4, h5⟩ := hi.tasks k t h
    exact ⟨a, ⟨h2, h3, .inl h1⟩, h4, .inl h5⟩
  | @copy row newId hr hs =>
    obtain ⟨a, h1, h2, h3, h4⟩ := hi.rows row hr (.inl hs)
    have kp := applyPrecision_keeps ({ row with allowOverdraft := false, overdraftLimit := 0, inflight := false, atomic := false, skipQueue := false, effectiveDate := 0 } : Txn)
    have kd := scanned_date ({ row with allowOverdraft := false, overdraftLimit := 0, inflight := false, atomic := false, skipQueue := false, effectiveDate := 0 } : Txn)
    have f := scan_faithful row newId
    have hk := h1.1
    simp only [keyOf, Key.mk.injEq] at hk
    refine ⟨a, h1, ⟨?_, ?_, ?_, ?_, ?_, ?_, ?_⟩, .inr ⟨?_, ?_, ?_, ?_⟩⟩
    · exact .inl (kp.2.2.1.trans hs)
    · rw [f.currency, h2.currency]
    · exact fun p hp h0 => f.amount p (h2.amount p hp h0) h0
    · simpa [queueCopy, restore, scan, kp] using h2.source
    · simpa [queueCopy, restore, scan, kp] using h2.destination
    · right; simp [queueCopy, restore, scan, kp, hk.2]
    · right; simp [queueCopy, restore, scan, kp, hk.1]
    · show (scan row).metaInflight.getD (scan row).inflight = _
      rw [show (scan row).metaInflight = row.metaInflight from kd.2.1, show (scan row).inflight = false from kp.2.2.2.1, h4.inflight]
    · show (scan row).metaAllowOverdraft.getD (scan row).allowOverdraft = _
      rw [show (scan row).metaAllowOverdraft = row.metaAllowOverdraft from kd.2.2, show (scan row).allowOverdraft = false from kp.1, h4.overdraft]
    · exact kp.2.1
    · exact kd.1

/-! ### What is applied -/

/-- A row that settles the attempt `t`. -/
structure RowOf (db : DB) (t r : Txn) : Prop where
  currency : r.currency = t.currency
  amount : ∀ p, t.preciseAmount = some p → 0 < p → r.preciseAmount = some p
  source : NoAt db → Means db t.source t.currency r.source
  destination : NoAt db → Means db t.destination t.currency r.destination
  reference : r.reference = t.reference
  id : r.id = t.id
  parent : r.parent = t.parent
  status : r.status = if t.inflight then .inflight else .applied
  terms : r.allowOverdraft = t.allowOverdraft ∧ r.overdraftLimit = t.overdraftLimit ∧ r.effectiveDate = t.effectiveDate

theorem RowOf.mono {db db' : DB} (h : Known db db') {t r : Txn} (c : RowOf db t r) (hn : NoAt db') : RowOf db' t r :=
  { c with source := fun _ => (c.source (fun n m => hn n (h n m))).mono h
           destination := fun _ => (c.destination (fun n m => hn n (h n m))).mono h }

theorem finalRow_terms {t : Txn} : (finalRow t).allowOverdraft = t.allowOverdraft ∧ (finalRow t).overdraftLimit = t.overdraftLimit ∧
    (finalRow t).effectiveDate = t.effectiveDate := by
  have h := applyPrecision_keeps t
  have hd := (scanned_date t).1
  unfold finalRow clearTerminalInflight applyRecord
  split <;> split <;> simp_all

theorem finalRow_amount {t : Txn} {p : Int} (h : t.preciseAmount = some p) (hp : 0 < p) : (finalRow t).preciseAmount = some p := by
  have h2 := applyPrecision_precise h hp
  unfold finalRow clearTerminalInflight applyRecord
  split <;> split <;> simp_all

theorem finalStatus_waiting {t : Txn} (h : waiting t) : finalStatus t = if t.inflight then .inflight else .applied := by
  unfold finalStatus
  rcases h with h | h <;> simp [h]

theorem recordSingle_row {cfg : Cfg} {db : DB} {t : Txn} {n1 n2 : String} {rows : List Txn} (hi : Inv db) (hw : waiting t)
    (h : (recordSingle cfg db t n1 n2).2 = .posted rows) :
    ∃ r ∈ (recordSingle cfg db t n1 n2).1.txns, RowOf (recordSingle cfg db t n1 n2).1 t r := by
  unfold recordSingle at h ⊢
  split at h
  · cases h
  · rename_i db1 sid h1
    split at h
    · cases h
    · rename_i db2 did h2
      have k2 := known_of_grow (resolve_names h2)
      have e := postResolved_names (cfg := cfg) (t := { t with source := sid, destination := did }) (resolve_inv (resolve_inv hi h1) h2)
      have kn : Known db2 (postResolved cfg db2 { t with source := sid, destination := did }).1 := fun n hn => by rw [e]; exact hn
      have m1 := ((resolve_means h1).mono k2).mono kn
      have m2 := (resolve_means h2).mono kn
      have hrow : finalRow { t with source := sid, destination := did } ∈ (postResolved cfg db2 { t with source := sid, destination := did }).1.txns := by
        unfold postResolved at h ⊢
        split at h
        · cases h
        · cases h
        · rename_i w hw
          split at h
          · rename_i db' hp
            obtain ⟨_, _, _, rfl⟩ := persist_ok hp
            obtain ⟨_, s, d, s', d', _, _, _, _, rfl⟩ := prepareSingle_some hw
            simp
          · cases h
      refine ⟨_, hrow, ?_⟩
      have k := finalRow_keeps { t with source := sid, destination := did }
      have ft := finalRow_terms (t := { t with source := sid, destination := did })
      refine ⟨k.2.2.2.2.1, fun p hp h0 => finalRow_amount hp h0, fun _ => ?_, fun _ => ?_, k.1, k.2.1, k.2.2.2.2.2, ?_, ft⟩
      · rw [k.2.2.1]; exact m1
      · rw [k.2.2.2.1]; exact m2
      · rw [finalRow_status]; exact finalStatus_waiting (t := { t with source := sid, destination := did }) hw

theorem recordBatch_row {cfg : Cfg} {db : DB} {ts rows : List Txn} (hi : Inv db)
    (h : (recordBatch cfg db ts).2 = .posted rows) : ∀ t ∈ ts, waiting t →
    ∃ r ∈ (recordBatch cfg db ts).1.txns, RowOf (recordBatch cfg db ts).1 t r := by
  intro t ht hw
  obtain ⟨h1, h2, _⟩ := recordBatch_effect hi h
  have kn : Known db (recordBatch cfg db ts).1 := known_of_grow (act_names (cfg := cfg) (a := .base (.batch ts)) hi)
  have hid : ∀ i, (i = t.source ∨ i = t.destination) → i ≠ "" → ∃ b ∈ db.balances, b.id = i := by
    intro i hit hne
    have hm := mem_batchIds_of ht
    have hib : i ∈ batchIds ts := by
      rcases hit with e | e
      · rw [e] at hne ⊢; exact hm.1 hne
      · rw [e] at hne ⊢; exact hm.2 hne
    unfold recordBatch at h
    split at h
    · cases h
    · rename_i w hw
      obtain ⟨bs, hl, _⟩ := prepareBatch_ok hw
      obtain ⟨e, hall⟩ := loadAll_ok hl
      rw [← e] at hib
      obtain ⟨b, hb, hbi⟩ := List.mem_map.1 hib
      obtain ⟨r, hr, _, hri, _⟩ := load_ok (hall b hb)
      exact ⟨r, hr, by rw [hri]; exact hbi⟩
  have hm : ∀ i, (i = t.source ∨ i = t.destination) → NoAt (recordBatch cfg db ts).1 → Means (recordBatch cfg db ts).1 i t.currency i := by
    intro i hit hn
    left
    refine ⟨?_, rfl⟩
    by_cases he : i = ""
    · rw [he]; exact isIndicator_empty
    · obtain ⟨b, hb, hbi⟩ := hid i hit he
      rw [← hbi]
      exact hn b.name (kn _ (List.mem_map.2 ⟨b, hb, rfl⟩))
  refine ⟨finalRow (batchMember t), by rw [h2, h1]; exact List.mem_append_right _ (List.mem_map.2 ⟨_, List.mem_map.2 ⟨t, ht, rfl⟩, rfl⟩), ?_⟩
  have k := finalRow_keeps (batchMember t)
  have ft := finalRow_terms (t := batchMember t)
  refine ⟨k.2.2.2.2.1, fun p hp h0 => finalRow_amount hp h0, fun hn => ?_, fun hn => ?_, k.1, k.2.1, k.2.2.2.2.2, ?_, ft⟩
  · rw [k.2.2.1]; exact hm _ (.inl rfl) hn
  · rw [k.2.2.2.1]; exact hm _ (.inr rfl) hn
  · rw [finalRow_status]
    rcases hw with h | h <;> cases hf : t.inflight <;> simp [batchMember, finalStatus, h, hf]

/-- The attempt that applied a submission. -/
def AppliedBy (s : Sys) (k : Key) : Prop :=
  ∃ a t r, Sub s k a ∧ Core s.db a t ∧ (Terms a t ∨ Restored a t) ∧ r ∈ s.db.txns ∧ RowOf s.db t r

theorem step_log_applied {cfg : Cfg} {s s' : Sys} (hq : QInv s) (hi : TInv s) (h : Step cfg s s')
    (hl : NoAt s.db → ∀ k, (k, .applied) ∈ s.log → AppliedBy s k) (hn : NoAt s'.db) :
    ∀ k, (k, .applied) ∈ s'.log → AppliedBy s' k := by
  have kn := step_known hq.inv h
  have g : ∀ t ∈ s.db.txns, t ∈ s'.db.txns := by
    cases h with
    | other a => exact grow (act_txns cfg s.db a)
    | accept t ht => exact fun _ h => h
    | persist t n1 n2 newId e ht he => exact (persistQueued_spec cfg s.db t n1 n2 hq.inv).2.2.2.1
    | single k t n1 n2 hj => exact grow (recordSingle_txns cfg s.db t n1 n2)
    | batch js hj => exact grow (step_txns cfg s.db (.batch (js.map Prod.snd)))
    | reject k t hj => exact grow (step_txns cfg s.db (.store (rejectedRow t)))
  have hn0 : NoAt s.db := fun n m => hn n (kn n m)
  have old : ∀ k, (k, .applied) ∈ s.log → AppliedBy s' k := by
    intro k hk
    obtain ⟨a, t, r, h1, h2, h3, h4, h5⟩ := hl hn0 k hk
    exact ⟨a, t, r, step_sub h h1, h2.mono kn, h3, g r h4, h5.mono kn hn⟩
  have new : ∀ k t, Job s k t → (∃ r ∈ s'.db.txns, RowOf s'.db t r) → AppliedBy s' k := by
    intro k t hj hr
    obtain ⟨a, h1, h2, h3⟩ := job_terms hi hj
    obtain ⟨r, hr, ho⟩ := hr
    exact ⟨a, t, r, step_sub h h1, h2.mono kn, h3, hr, ho⟩
  have hw : ∀ {k t}, Job s k t → waiting t := fun hj => by obtain ⟨a, _, h2, _⟩ := job_terms hi hj; exact h2.waits
  cases h with
  | other a => exact old
  | accept t ht => exact old
  | persist t n1 n2 newId e ht he => exact old
  | single k t n1 n2 hj =>
    intro k' hk
    rcases List.mem_append.1 hk with hk | hk
    · exact old k' hk
    · cases ho : (recordSingle cfg s.db t n1 n2).2 with
      | posted rows =>
        simp only [ho, outcome, List.map_cons, List.map_nil, List.mem_singleton, Prod.mk.injEq] at hk
        obtain ⟨rfl, _⟩ := hk
        exact new _ t hj (recordSingle_row hq.inv (hw hj) ho)
      | discarded => simp [ho, outcome] at hk
      | refused e => simp [ho, outcome] at hk
  | batch js hj =>
    intro k' hk
    rcases List.mem_append.1 hk with hk | hk
    · exact old k' hk
    · cases ho : (recordBatch cfg s.db (js.map (·.2))).2 with
      | posted rows =>
        simp only [ho, outcome, List.map_map, List.mem_map, Function.comp, Prod.mk.injEq] at hk
        obtain ⟨j, hjm, rfl, _⟩ := hk
        exact new _ j.2 (hj j hjm) (recordBatch_row hq.inv ho j.2 (List.mem_map.2 ⟨j, hjm, rfl⟩) (hw (hj j hjm)))
      | discarded => simp [ho, outcome] at hk
      | refused e => simp [ho, outcome] at hk
  | reject k t hj =>
    intro k' hk
    rcases List.mem_append.1 hk with hk | hk
    · exact old k' hk
    · exfalso; revert hk; split <;> simp

theorem reach_applied {cfg : Cfg} {s : Sys} (h : Reach cfg s) : NoAt s.db → ∀ k, (k, .applied) ∈ s.log → AppliedBy s k := by
  induction h with
  | init => simp
  | step hr hs ih => exact fun hn => step_log_applied (reach_qinv hr) (reach_tinv hr) hs ih hn

theorem means_trans {db : DB} (hn : NoAt db) {i c x y : String} (h1 : x = i ∨ Means db i c x) (h2 : Means db x c y) : Means db i c y := by
  rcases h1 with rfl | h1
  · exact h2
  · rcases h2 with ⟨_, rfl⟩ | ⟨hx, _⟩
    · exact h1
    · rcases h1 with ⟨h, rfl⟩ | ⟨_, hm⟩
      · rw [h] at hx; cases hx
      · rw [hn _ hm] at hx; cases hx

/-- The property in full: every applied submission is applied exactly as submitted. -/
def C82Full : Prop := ∀ (cfg : Cfg) (s : Sys), Reach cfg s → NoAt s.db → ∀ k, (k, .applied) ∈ s.log →
  ∃ a r, Sub s k a ∧ r ∈ s.db.txns ∧ Moves s.db a r ∧ AppliesAs a r

/-- **C82.** Whichever way a submission came to be applied (delivered, delivered again, coalesced,
recovered), the row that applies it moves the submitted amount and currency between the accounts
the request named; and if the request has no overdraft limit, no effective date and no metadata of
its own that contradicts its flags, it is a hold exactly if a hold was asked for and was checked
under exactly the overdraft permission given. -/
theorem c82_applied_as_submitted_partial (cfg : Cfg) (s : Sys) (h : Reach cfg s) (hn : NoAt s.db) (k : Key)
    (hk : (k, .applied) ∈ s.log) :
    ∃ a r, Sub s k a ∧ r ∈ s.db.txns ∧ Moves s.db a r ∧ (Plainly a → AppliesAs a r) := by
  obtain ⟨a, t, r, h1, h2, h3, h4, h5⟩ := reach_applied h hn k hk
  refine ⟨a, r, h1, h4, ⟨?_, ?_, ?_, ?_, ?_, ?_⟩, ?_⟩
  · rw [h5.currency, h2.currency]
  · exact fun p hp h0 => h5.amount p (h2.amount p hp h0) h0
  · exact means_trans hn h2.source (h2.currency ▸ h5.source hn)
  · exact means_trans hn h2.destination (h2.currency ▸ h5.destination hn)
  · rw [h5.reference]; exact h2.reference
  · rw [h5.id, h5.parent]; exact h2.link
  · rintro ⟨⟨c1, c2⟩, c3, c4⟩
    have ht : t.inflight = a.inflight ∧ t.allowOverdraft = a.allowOverdraft ∧ t.overdraftLimit = a.overdraftLimit ∧
        t.effectiveDate = a.effectiveDate := by
      rcases h3 with h3 | h3
      · exact ⟨h3.inflight, h3.overdraft, h3.limit, h3.date⟩
      · exact ⟨by rw [h3.inflight, c2], by rw [h3.overdraft, c1], by rw [h3.limit, c3], by rw [h3.date, c4]⟩
    exact ⟨⟨by rw [h5.terms.1, ht.2.1], by rw [h5.terms.2.1, ht.2.2.1], by rw [h5.terms.2.2, ht.2.2.2]⟩,
      by rw [h5.status, ht.1]⟩

/-- **C82, tasks.** Every task in Redis carries all submitted terms, the overdraft limit and the
effective date included. -/
theorem c82_delivered_task_keeps_terms (cfg : Cfg) (s : Sys) (h : Reach cfg s) (k : Key) (t : Txn) (hk : (k, t) ∈ s.tasks) :
    ∃ a ∈ s.accepted, keyOf a = k ∧ Terms a t ∧ t.currency = a.currency ∧
      (∀ p, a.preciseAmount = some p → 0 < p → t.preciseAmount = some p) ∧ (t.id = a.id ∨ t.parent = a.id) := by
  obtain ⟨a, h1, h2, _, h4, h5⟩ := (reach_tinv h).tasks k t hk
  exact ⟨a, h1, h2, h5, h4.currency, h4.amount, h4.link⟩

/-! ### Floors -/

/-- Specification: this submission, if it debits `a`, lets it go at most `L` below zero, and its
metadata claims no overdraft permission. -/
def Limited (a : String) (L : Int) (t : Txn) : Prop :=
  t.source = a → Caps L t ∧ t.metaAllowOverdraft ≠ some true

/-- What everything past the queue is assumed to be: account creation, postings that respect the
limit, and stored rows that do. -/
def OtherOK (a : String) (L : Int) (x : Act) : Prop :=
  ∃ op, x = .base op ∧ (∀ i ind cur, op = .create i ind cur → i = a → ind = "") ∧
    (∀ t n1 n2, op = .post t n1 n2 → SignOK t ∧ (t.Plain → t.source = a → Caps L t)) ∧
    (∀ ts, op = .batch ts → ∀ t ∈ ts, t.status = .queued ∧ (t.source = a → Caps L t)) ∧
    (∀ t, op = .store t → Limited a L t ∧ 0 ≤ t.preciseAmount.getD 0)

/-- `a` is not an indicator account. -/
def PlainAcct (a : String) (db : DB) : Prop := ∀ b ∈ db.balances, b.id = a → b.indicator = ""

theorem plainAcct_names {a : String} {db : DB} : PlainAcct a db ↔ ∀ n ∈ names db, n.1 = a → n.2.1 = "" := by
  constructor
  · intro h n hn e
    obtain ⟨b, hb, rfl⟩ := List.mem_map.1 hn
    exact h b hb e
  · intro h b hb e
    exact h b.name (List.mem_map.2 ⟨b, hb, rfl⟩) e

theorem PlainAcct.back {a : String} {db db' : DB} (h : Known db db') (hp : PlainAcct a db') : PlainAcct a db :=
  plainAcct_names.2 fun n hn e => plainAcct_names.1 hp n (h n hn) e

/-- As `resolve_floor`, for an account known to stay a plain one. -/
theorem resolve_floor' {a : String} {L : Int} (hL : 0 ≤ L) {db db' : DB} {s cur n i : String} (h : FloorInv a L db)
    (hp : PlainAcct a db') (hr : db.resolve s cur n = .ok (db', i)) : FloorInv a L db' ∧ (i = a → s = a) := by
  by_cases hn : n = a
  · rcases resolve_ok hr with ⟨rfl, _, e⟩ | ⟨rfl, hs, b, hb, e1, e2, _⟩ | ⟨hs, _, hc⟩
    · exact ⟨h, fun hi => by rw [← e]; exact hi⟩
    · refine ⟨h, fun hi => ?_⟩
      have := h.plainAcct b hb (e1.trans hi)
      rw [← e2, this, isIndicator_empty] at hs; cases hs
    · have := plainAcct_names.1 hp (n, s, cur) (by rw [(createBalance_names hc).1]; simp) hn
      simp only at this
      rw [this, isIndicator_empty] at hs; cases hs
  · exact resolve_floor hL h hn hr

theorem recordSingle_floor {cfg : Cfg} {a : String} {L : Int} (hL : 0 ≤ L) {db : DB} {t : Txn} {n1 n2 : String} (h : FloorInv a L db)
    (hs : SignOK t) (hc : t.Plain → t.source = a → Caps L t) (hp : PlainAcct a (recordSingle cfg db t n1 n2).1) :
    FloorInv a L (recordSingle cfg db t n1 n2).1 := by
  have hi := recordSingle_inv (cfg := cfg) (t := t) (n1 := n1) (n2 := n2) h.inv
  have hq : QueuedNonneg (recordSingle cfg db t n1 n2).1 := step_queuedNonneg (cfg := cfg) (op := .post t n1 n2) h.queued trivial
  refine ⟨hi, hq, hp, ?_⟩
  unfold recordSingle at hp ⊢
  split
  · exact h.floor
  · rename_i db1 sid h1
    simp only [h1] at hp
    split
    · rename_i e h2
      simp only [h2] at hp
      exact (resolve_floor' hL h hp h1).1.floor
    · rename_i db2 did h2
      simp only [h2] at hp
      have hp2 : PlainAcct a db2 := hp.back (fun n hn => by
        rw [postResolved_names (resolve_inv (resolve_inv h.inv h1) h2)]; exact hn)
      have hp1 : PlainAcct a db1 := hp2.back (known_of_grow (resolve_names h2))
      obtain ⟨f1, s1⟩ := resolve_floor' hL h hp1 h1
      obtain ⟨f2, _⟩ := resolve_floor' hL f1 hp2 h2
      refine (rowsRel_floor f2 (postResolved_rel (floorRel_rowRel a L hL) f2.inv f2.queued ?_ _)).2
      exact ⟨(signOK_parties t sid did).2 hs, fun hp hs => hc hp (s1 hs)⟩

theorem persistQueued_floor {cfg : Cfg} {a : String} {L : Int} (hL : 0 ≤ L) {db : DB} {t : Txn} {n1 n2 : String} (h : FloorInv a L db)
    (ht : 0 ≤ t.preciseAmount.getD 0) (hp : PlainAcct a (persistQueued cfg db t n1 n2).1) :
    FloorInv a L (persistQueued cfg db t n1 n2).1 := by
  unfold persistQueued at hp ⊢
  split
  · exact h
  · rename_i db1 sid h1
    simp only [h1] at hp
    split
    · rename_i e h2
      simp only [h2] at hp
      exact (resolve_floor' hL h hp h1).1
    · rename_i db2 did h2
      simp only [h2] at hp
      have hp2 : PlainAcct a db2 := by
        revert hp
        split
        · split
          · rename_i db3 h3; obtain ⟨_, _, rfl⟩ := insertTxn_ok h3; exact id
          · exact id
        · exact id
      have hp1 : PlainAcct a db1 := hp2.back (known_of_grow (resolve_names h2))
      obtain ⟨f1, _⟩ := resolve_floor' hL h hp1 h1
      obtain ⟨f2, _⟩ := resolve_floor' hL f1 hp2 h2
      split
      · simp only
        split
        · rename_i db3 h3
          have := step_floor (cfg := cfg) hL f2 (op := .store { t with source := sid, destination := did, metaQueuedParent := t.id }) (fun _ => ht)
          simpa [step, h3] using this
        · exact f2
      · exact f2

theorem recordBatch_floor {cfg : Cfg} {a : String} {L : Int} (hL : 0 ≤ L) {db : DB} {ts : List Txn} (h : FloorInv a L db)
    (ht : ∀ t ∈ ts, waiting t ∧ (t.source = a → Caps L t)) : FloorInv a L (recordBatch cfg db ts).1 := by
  have hi : Inv (recordBatch cfg db ts).1 := step_inv h.inv (.batch ts)
  have hq : QueuedNonneg (recordBatch cfg db ts).1 := step_queuedNonneg (cfg := cfg) (op := .batch ts) h.queued trivial
  have := rowsRel_floor h (recordBatch_rel (cfg := cfg) (floorRel_rowRel a L hL) h.inv h.queued (ts := ts) (by
    intro t hm
    obtain ⟨hw, hc⟩ := ht t hm
    have hst : (batchMember t).status = .applied ∨ (batchMember t).status = .inflight := by
      rcases hw with h | h <;> simp only [batchMember, finalStatus, h] <;> split <;> simp
    refine ⟨⟨?_, ?_⟩, fun _ hsrc => hc hsrc⟩
    · intro h; rcases hst with h' | h' <;> rw [h'] at h <;> cases h
    · intro h; rcases hst with h' | h' <;> rw [h'] at h <;> cases h) _)
  exact ⟨hi, hq, this.1, this.2⟩

/-- What a run is assumed to contain: submissions and other work that respect the limit. -/
structure RunOK (a : String) (L : Int) (s : Sys) : Prop where
  accepted : ∀ t ∈ s.accepted, Limited a L t ∧ 0 ≤ t.preciseAmount.getD 0
  others : ∀ x ∈ s.others, OtherOK a L x

theorem RunOK.back {cfg : Cfg} {a : String} {L : Int} {s s' : Sys} (h : Step cfg s s') (hr : RunOK a L s') : RunOK a L s := by
  cases h with
  | other x => exact ⟨hr.accepted, fun y hy => hr.others y (List.mem_cons_of_mem _ hy)⟩
  | accept t ht => exact ⟨fun y hy => hr.accepted y (List.mem_cons_of_mem _ hy), hr.others⟩
  | persist t n1 n2 newId e ht he => exact ⟨hr.accepted, hr.others⟩
  | single k t n1 n2 hj => exact ⟨hr.accepted, hr.others⟩
  | batch js hj => exact ⟨hr.accepted, hr.others⟩
  | reject k t hj => exact ⟨hr.accepted, hr.others⟩

theorem job_caps {a : String} {L : Int} {s : Sys} (hi : TInv s) (hr : RunOK a L s) (hp : PlainAcct a s.db) {k : Key} {t : Txn}
    (hj : Job s k t) : waiting t ∧ (t.source = a → Caps L t) := by
  obtain ⟨x, ⟨_, _, hx⟩, hc, hterm⟩ := job_terms hi hj
  refine ⟨hc.waits, fun hs => ?_⟩
  have hxs : x.source = a := by
    rcases hc.source with e | ⟨_, e⟩ | ⟨hind, hm⟩
    · rw [← e]; exact hs
    · rw [← e]; exact hs
    · have := plainAcct_names.1 hp _ hm hs
      simp only at this
      rw [this, isIndicator_empty] at hind; cases hind
  have hlim : Limited a L x := by
    rcases hx with hx | hx
    · exact (hr.accepted x hx).1
    · obtain ⟨op, e, _, _, _, h⟩ := hr.others _ hx
      cases e
      exact (h x rfl).1
  obtain ⟨hcap, hmeta⟩ := hlim hxs
  rcases hterm with h | h
  · unfold Caps Txn.effPrecision at *
    rw [h.overdraft, h.limit, h.precision]
    exact hcap
  · constructor
    · intro hao
      rw [h.overdraft] at hao
      cases hm : x.metaAllowOverdraft with
      | none => simp [hm] at hao
      | some b => simp [hm] at hao; rw [hm, hao] at hmeta; exact absurd rfl hmeta
    · intro h0; rw [h.limit] at h0; exact absurd h0 (by grind)

theorem step_queue_floor {cfg : Cfg} {a : String} {L : Int} (hL : 0 ≤ L) {s s' : Sys} (hq : QInv s) (hi : TInv s) (h : Step cfg s s')
    (hr : RunOK a L s') (hp : PlainAcct a s'.db) (hf : FloorInv a L s.db) : FloorInv a L s'.db := by
  have hr0 := hr.back h
  have hp0 := hp.back (step_known hq.inv h)
  cases h with
  | other x =>
    obtain ⟨op, rfl, h1, h2, h3, h4⟩ := hr.others x (by simp)
    cases op with
    | create i ind cur => exact step_floor (cfg := cfg) hL hf (op := .create i ind cur) (h1 i ind cur rfl)
    | post t n1 n2 => exact recordSingle_floor hL hf (h2 t n1 n2 rfl).1 (h2 t n1 n2 rfl).2 hp
    | batch ts => exact step_floor (cfg := cfg) hL hf (op := .batch ts) (h3 ts rfl)
    | store t => exact step_floor (cfg := cfg) hL hf (op := .store t) (fun _ => (h4 t rfl).2)
  | accept t ht => exact hf
  | persist t n1 n2 newId e ht he => exact persistQueued_floor hL hf (hr0.accepted t ht).2 hp
  | single k t n1 n2 hj =>
    obtain ⟨hw, hc⟩ := job_caps hi hr0 hp0 hj
    refine recordSingle_floor hL hf ⟨?_, ?_⟩ (fun _ => hc) hp
    · intro e; rcases hw with h | h <;> rw [h] at e <;> cases e
    · intro e; rcases hw with h | h <;> rw [h] at e <;> cases e
  | batch js hj =>
    refine recordBatch_floor hL hf ?_
    intro t ht
    obtain ⟨j, hjm, rfl⟩ := List.mem_map.1 ht
    exact job_caps hi hr0 hp0 (hj j hjm)
  | reject k t hj =>
    exact step_floor (cfg := cfg) hL hf (op := .store (rejectedRow t)) (fun e => by cases e)

/-- **C82, funds.** Through the queue too, whichever tasks are delivered how often and whichever
rows are coalesced or recovered, an account none of whose debits permits more than `L` minor units
of overdraft stays at or above `-L`, holds included. -/
theorem c82_queue_respects_floor_partial (cfg : Cfg) (s : Sys) (h : Reach cfg s) (a : String) (L : Int) (hL : 0 ≤ L) (hr : RunOK a L s)
    (hp : PlainAcct a s.db) : ∀ b ∈ s.db.balances, b.id = a → -L ≤ b.balance - b.inflightDebit := by
  suffices hs : FloorInv a L s.db from hs.floor
  induction h with
  | init => exact ⟨init_inv, (by intro t ht; cases ht), (by simp), (by simp)⟩
  | step h0 hs ih =>
    exact step_queue_floor hL (reach_qinv h0) (reach_tinv h0) hs hr hp
      (ih (hr.back hs) (hp.back (step_known (reach_qinv h0).inv hs)))

/-! ### What does not come back from a row -/

def emptyAcc (subs : List Txn) : Sys := { demoOpened with accepted := subs }

theorem opened_reach : Reach {} demoOpened :=
  (Reach.init.step (.other {} (.base (.create "a" "" "USD")))).step (.other _ (.base (.create "b" "" "USD")))

/-- 7.00 from an account that has nothing and may be overdrawn by 5.00. -/
def cappedSubmission : Txn :=
  { id := "p", source := "a", destination := "b", reference := "r", amount := 7, precision := 100, allowOverdraft := true, overdraftLimit := 5 }

/-- 7.00 from an account that has nothing, without permission, with a metadata entry of the client. -/
def claimedSubmission : Txn :=
  { id := "p", source := "a", destination := "b", reference := "r", amount := 7, precision := 100, metaAllowOverdraft := some true }

/-- 7.00, dated back. -/
def datedSubmission : Txn :=
  { id := "p", source := "a", destination := "b", reference := "r", amount := 7, precision := 100, allowOverdraft := true, effectiveDate := 3 }

/-- 7.00 as a hold, with a metadata entry that says otherwise is not possible (`submit` overrides
it), but a posting whose metadata says hold is. -/
def heldSubmission : Txn :=
  { id := "p", source := "a", destination := "b", reference := "r", amount := 7, precision := 100, allowOverdraft := true, metaInflight := some true }

/-- The system once the submission `t` is accepted, its row stored, and nothing enqueued. -/
def rowOnly (t : Txn) : Sys := { emptyAcc [submit t] with db := (persistQueued {} demoOpened.db (submit t) "x" "y").1 }

/-- The row of `t`. -/
def rowOf (t : Txn) : Txn := (persistQueued {} demoOpened.db (submit t) "x" "y").2.1

/-- Recovery posts a copy of the row. -/
def recovered (t : Txn) : Sys := { rowOnly t with
  db := (recordSingle {} (rowOnly t).db (queueCopy (restore (scan (rowOf t))) "c") "x" "y").1
  log := (rowOnly t).log ++ outcome [keyOf (rowOf t)] (recordSingle {} (rowOnly t).db (queueCopy (restore (scan (rowOf t))) "c") "x" "y").2 }

theorem recovered_reach (t : Txn) (hs : t.status = .blank) (hm : rowOf t ∈ (rowOnly t).db.txns) (hq : (rowOf t).status = .queued) :
    Reach {} (recovered t) := by
  have h2 : Reach {} (emptyAcc [submit t]) := opened_reach.step (.accept _ t hs)
  have h3 : Reach {} (rowOnly t) := h2.step (.persist _ (submit t) "x" "y" "c" .nothing (by simp [emptyAcc]) (fun h => by cases h))
  exact h3.step (.single _ (keyOf (rowOf t)) _ "x" "y" (.copy "c" hm hq))

/-- A direct posting of the same request is refused; the recovered one is applied without any
limit, and takes the account to -7.00. -/
theorem c82_limit_lost :
    (recordSingle {} demoOpened.db (submit cappedSubmission) "x" "y").2 = .refused (.bal .exceedsOverdraft) ∧
    Reach {} (recovered cappedSubmission) ∧ (recovered cappedSubmission).log = [(⟨"p", "r"⟩, .applied)] ∧
    (recovered cappedSubmission).db.balances.map (fun b => (b.id, b.balance)) = [("a", -700), ("b", 700)] := by
  refine ⟨by decide +kernel, recovered_reach _ rfl (by decide +kernel) (by decide +kernel), by decide +kernel, by decide +kernel⟩

/-- Metadata named `allow_overdraft` is only data in a direct posting, which is refused; the
recovered copy takes it for the flag and overdraws the account. -/
theorem c82_metadata_grants_overdraft :
    (recordSingle {} demoOpened.db (submit claimedSubmission) "x" "y").2 = .refused (.bal .insufficientFunds) ∧
    Reach {} (recovered claimedSubmission) ∧ (recovered claimedSubmission).log = [(⟨"p", "r"⟩, .applied)] ∧
    (recovered claimedSubmission).db.balances.map (fun b => (b.id, b.balance)) = [("a", -700), ("b", 700)] := by
  refine ⟨by decide +kernel, recovered_reach _ rfl (by decide +kernel) (by decide +kernel), by decide +kernel, by decide +kernel⟩

/-- Metadata named `inflight` turns a recovered posting into a hold. -/
theorem c82_metadata_makes_hold :
    ((recordSingle {} demoOpened.db (submit heldSubmission) "x" "y").1.txns.map (·.status)) = [.applied] ∧
    Reach {} (recovered heldSubmission) ∧
    (recovered heldSubmission).db.txns.map (fun t => (t.reference, t.status)) = [("r", .queued), ("r_q", .inflight)] := by
  refine ⟨by decide +kernel, recovered_reach _ rfl (by decide +kernel) (by decide +kernel), by decide +kernel⟩

/-- The effective date of a recovered transaction is gone. -/
theorem c82_date_lost :
    ((recordSingle {} demoOpened.db (submit datedSubmission) "x" "y").1.txns.map (·.effectiveDate)) = [3] ∧
    Reach {} (recovered datedSubmission) ∧
    (recovered datedSubmission).db.txns.map (fun t => (t.reference, t.effectiveDate)) = [("r", 3), ("r_q", 0)] := by
  refine ⟨by decide +kernel, recovered_reach _ rfl (by decide +kernel) (by decide +kernel), by decide +kernel⟩

/-- **C82 fails in full.** The 5.00 limit of a recovered submission is dropped. -/
theorem c82_full_fails : ¬ C82Full := by
  intro h
  obtain ⟨a, r, ⟨hk, hw, ha⟩, hr, _, hap⟩ := h {} (recovered cappedSubmission) c82_limit_lost.2.1
    (by unfold NoAt; decide +kernel) ⟨"p", "r"⟩ (by decide +kernel)
  have ea : a = submit cappedSubmission := by
    rcases ha with ha | ha
    · simpa [recovered, rowOnly, emptyAcc] using ha
    · simp [recovered, rowOnly, emptyAcc, demoOpened] at ha
  subst ea
  have : ∀ r ∈ (recovered cappedSubmission).db.txns, r.overdraftLimit = 5 → r.status = .queued := by decide +kernel
  have h5 : (submit cappedSubmission).overdraftLimit = 5 := by decide +kernel
  have h6 := this r hr (hap.terms.2.1.trans h5)
  have h7 := hap.status
  rw [h6] at h7
  revert h7
  have : (submit cappedSubmission).inflight = false := by decide +kernel
  rw [this]; simp

/-! ### Examples -/

/-- The delivered demo submission meets the hypotheses of the theorems above. -/
example : Reach {} demoApplied ∧ NoAt demoApplied.db ∧ ((⟨"p", "r"⟩ : Key), Verdict.applied) ∈ demoApplied.log ∧
    Plainly (submit demoSubmission) ∧ (⟨"p", "r"⟩, demoTask) ∈ demoApplied.tasks := by
  refine ⟨demo_reach, by unfold NoAt; decide +kernel, by decide +kernel, by unfold Plainly Clean; decide +kernel, by decide +kernel⟩

/-- 4.00 from an account that has nothing and may be overdrawn by 5.00, without the flag that
lifts all checks. -/
def limitedSubmission : Txn :=
  { id := "p", source := "a", destination := "b", reference := "r", amount := 4, precision := 100, overdraftLimit := 5 }

/-- It meets the hypothesis of the floor theorem for its source at `L = 500`: delivered it is
applied, recovered it is refused. -/
example : RunOK "a" 500 (recovered limitedSubmission) ∧ PlainAcct "a" (recovered limitedSubmission).db ∧
    (recordSingle {} (rowOnly limitedSubmission).db (queueCopy (rowOf limitedSubmission) "c") "x" "y").1.balances.map (fun b => (b.id, b.balance))
      = [("a", -400), ("b", 400)] ∧
    (recovered limitedSubmission).log = [] := by
  refine ⟨⟨?_, ?_⟩, by unfold PlainAcct; decide +kernel, by decide +kernel, by decide +kernel⟩
  · intro t ht
    simp only [recovered, rowOnly, emptyAcc, List.mem_singleton] at ht
    subst ht
    exact ⟨fun _ => ⟨by unfold Caps; decide +kernel, by decide +kernel⟩, by decide +kernel⟩
  · intro x hx
    simp only [recovered, rowOnly, emptyAcc, demoOpened, List.mem_cons, List.not_mem_nil, or_false] at hx
    rcases hx with rfl | rfl <;>
      exact ⟨_, rfl, (by rintro _ _ _ ⟨⟩ _; rfl), (by rintro _ _ _ ⟨⟩), (by rintro _ ⟨⟩), (by rintro _ ⟨⟩)⟩

example : RunOK "b" 0 demoApplied ∧ PlainAcct "b" demoApplied.db := by
  refine ⟨⟨?_, ?_⟩, by unfold PlainAcct; decide +kernel⟩
  · intro t ht
    simp only [demoApplied, demoStored, demoAccepted, List.mem_singleton] at ht
    subst ht
    exact ⟨fun h => absurd h (by decide +kernel), by decide +kernel⟩
  · intro x hx
    simp only [demoApplied, demoStored, demoAccepted, demoOpened, List.mem_cons, List.not_mem_nil, or_false] at hx
    rcases hx with rfl | rfl <;>
      exact ⟨_, rfl, (by rintro _ _ _ ⟨⟩ _; rfl), (by rintro _ _ _ ⟨⟩), (by rintro _ ⟨⟩), (by rintro _ ⟨⟩)⟩

end Blnk.Queue
