import Verif.Model.Schedule
import Verif.Props.InflightQueue
import Verif.Props.Queue
/-
Every history of `Model/Schedule.lean` is a history of ledger steps, so what is proved about
those applies to it.
-/
namespace Blnk.Sched

/-! ### Storing a queued request as ledger steps -/

/-- The ledger step of resolving an account. -/
def resolveSteps (db : DB) (i c n : String) : List Act :=
  if isIndicator i ∧ db.balances.find? (fun b => b.indicator = i && b.currency = c) = none then [.base (.create n i c)] else []

/-- The ledger steps of storing a queued request. -/
def persistSteps (cfg : Cfg) (db : DB) (t : Txn) (n1 n2 : String) : List Act :=
  resolveSteps db t.source t.currency n1 ++
  match db.resolve t.source t.currency n1 with
  | .error _ => []
  | .ok (db1, sid) => resolveSteps db1 t.destination t.currency n2 ++
    match db1.resolve t.destination t.currency n2 with
    | .error _ => []
    | .ok (db2, did) => match db2.load cfg sid, db2.load cfg did with
      | .ok _, .ok _ => match db2.insertTxn { t with source := sid, destination := did, metaQueuedParent := t.id } with
        | .ok _ => [.base (.store { t with source := sid, destination := did, metaQueuedParent := t.id })]
        | .error _ => []
      | _, _ => []

theorem resolve_steps {cfg : Cfg} {db : DB} {i c n : String} : acts cfg db (resolveSteps db i c n) =
    match db.resolve i c n with | .ok (db', _) => db' | .error _ => db := by
  unfold resolveSteps DB.resolve
  by_cases h1 : isIndicator i = true
  · simp only [h1, true_and, if_true]
    cases h2 : db.balances.find? (fun b => b.indicator = i && b.currency = c) with
    | some b => simp [acts]
    | none =>
      simp only [if_true, acts, act, Blnk.step]
      cases h3 : db.createBalance n i c <;> simp
  · simp [h1, acts]

theorem resolveSteps_mem {db : DB} {i c n : String} {a : Act} (h : a ∈ resolveSteps db i c n) :
    a = .base (.create n i c) := by
  unfold resolveSteps at h
  split at h <;> simp at h
  exact h

theorem persist_steps (cfg : Cfg) (db : DB) (t : Txn) (n1 n2 : String) :
    (Queue.persistQueued cfg db t n1 n2).1 = acts cfg db (persistSteps cfg db t n1 n2) := by
  unfold persistSteps
  rw [acts_append, resolve_steps]
  unfold Queue.persistQueued
  cases h1 : db.resolve t.source t.currency n1 with
  | error e => simp [acts]
  | ok p =>
    obtain ⟨db1, sid⟩ := p
    dsimp only
    rw [acts_append, resolve_steps]
    cases h2 : db1.resolve t.destination t.currency n2 with
    | error e => simp [acts]
    | ok p =>
      obtain ⟨db2, did⟩ := p
      dsimp only
      cases h3 : db2.load cfg sid with
      | error e => simp [acts]
      | ok b1 => cases h4 : db2.load cfg did with
        | error e => simp [acts]
        | ok b2 =>
          dsimp only
          cases h5 : db2.insertTxn { t with source := sid, destination := did, metaQueuedParent := t.id } with
          | error e => simp [acts]
          | ok db3 => simp [acts, act, Blnk.step, h5]

theorem persistSteps_mem {cfg : Cfg} {db : DB} {t : Txn} {n1 n2 : String} {a : Act} (h : a ∈ persistSteps cfg db t n1 n2) :
    (∃ ind cur, a = .base (.create n1 ind cur)) ∨ (∃ ind cur, a = .base (.create n2 ind cur)) ∨
      (Queue.persistQueued cfg db t n1 n2).2.2 = true ∧
        ∃ s d, a = .base (.store { t with source := s, destination := d, metaQueuedParent := t.id }) := by
  unfold persistSteps at h
  rcases List.mem_append.1 h with h | h
  · exact .inl ⟨_, _, resolveSteps_mem h⟩
  · split at h
    · simp at h
    · rename_i db1 sid h1
      rcases List.mem_append.1 h with h | h
      · exact .inr (.inl ⟨_, _, resolveSteps_mem h⟩)
      · split at h
        · simp at h
        · rename_i db2 did h2
          split at h
          · rename_i b1 b2 h3 h4
            split at h
            · rename_i db3 h5
              simp at h
              refine .inr (.inr ⟨?_, _, _, h⟩)
              simp [Queue.persistQueued, h1, h2, h3, h4, h5]
            · simp at h
          · simp at h

/-- What `persistQueued` hands on, up to resolved accounts. -/
theorem persist_txn (cfg : Cfg) (db : DB) (t : Txn) (n1 n2 : String) :
    ∃ s d q, (Queue.persistQueued cfg db t n1 n2).2.1 = { t with source := s, destination := d, metaQueuedParent := q } := by
  unfold Queue.persistQueued
  split
  · exact ⟨t.source, t.destination, t.metaQueuedParent, rfl⟩
  · split
    · exact ⟨t.source, t.destination, t.metaQueuedParent, rfl⟩
    · rename_i did h2
      split
      · simp only
        split <;> exact ⟨_, _, _, rfl⟩
      · exact ⟨t.source, t.destination, t.metaQueuedParent, rfl⟩

/-! ### What is assumed of a history -/

/-- A ledger step of the histories considered: ids of holds are in `H`, ids and parents of QUEUED
stand-ins of holds are in `Q` and are not settled, and other QUEUED rows have ids outside `H`. -/
structure ActOk (H Q : String → Prop) (a : Act) : Prop where
  respects : a.Respects H
  direct : a.Direct Q
  held : ∀ op t, a = .base op → t ∈ op.posts → t.inflight = true → ¬ Q t.id
  plain : ∀ t, a = .base (.store t) → t.status = .queued → if t.metaInflight = some true then Q t.parent else ¬ H t.id

/-- An event of the histories considered, in the state it happens in. Queued holds carry no
dates; their ids are in `Q` when their row could be stored. -/
def Ev.Ok (cfg : Cfg) (H Q : String → Prop) (s : Sys) : Ev → Prop
  | .direct r => r.txn.status = .blank ∧ ¬ Q r.txn.id ∧ (∀ k, isIndicator (r.gen k) = false) ∧
      ∀ t ∈ r.rows, if t.inflight then H t.id ∧ ¬ Q t.id else ¬ H t.parent
  | .queued r => r.txn.status = .blank ∧ r.txn.metaInflight = none ∧ 0 ≤ pay (submit r.txn) ∧
      (∀ k, isIndicator (r.gen k) = false) ∧
      if r.txn.inflight then H r.txn.id ∧ H r.copyId ∧ ¬ Q r.copyId ∧ r.expiry = none ∧ r.commitAt = none ∧
        if (Queue.persistQueued cfg s.db (submit r.txn) (r.gen 0) (r.gen 1)).2.2 then Q r.txn.id ∧ Q r.txn.parent
        else ¬ Q r.txn.id
      else ¬ H r.txn.id ∧ ¬ Q r.txn.id ∧ ¬ H r.txn.parent
  | .run _ g => (∀ k, isIndicator (g.fresh k) = false) ∧ ∀ k, ∀ a ∈ g.before k, ActOk H Q a
  | .pick _ newId => H newId ∧ ¬ Q newId
  | .other a => ActOk H Q a
  | _ => True

/-- A history all of whose events are as considered. -/
def Ok (cfg : Cfg) (H Q : String → Prop) : Sys → List Ev → Prop
  | _, [] => True
  | s, e :: es => e.Ok cfg H Q s ∧ Ok cfg H Q (step cfg s e) es

/-- What the tasks of such a history look like. -/
def JobOk (H Q : String → Prop) : Job → Prop
  | .apply t => t.Live ∧ (if t.inflight then H t.id ∧ ¬ Q t.id else ¬ H t.parent)
  | .expire id => ¬ Q id
  | .settle id _ => ¬ Q id

/-- The ledger of a history is the ledger of a history of steps. -/
structure Fits (cfg : Cfg) (H Q : String → Prop) (s : Sys) : Prop where
  ledger : ∃ as, s.db = acts cfg {} as ∧ ∀ a ∈ as, ActOk H Q a
  tasks : ∀ t ∈ s.tasks, JobOk H Q t.job

theorem precision_fields (t : Txn) : t.applyPrecision.metaInflight = t.metaInflight ∧
    t.applyPrecision.scheduledFor = t.scheduledFor := by
  unfold Txn.applyPrecision
  simp only
  split
  · split <;> (split <;> simp)
  · split <;> simp

theorem submit_fields (t : Txn) : (submit t).id = t.id ∧ (submit t).parent = t.parent ∧ (submit t).inflight = t.inflight ∧
    (submit t).scheduledFor = t.scheduledFor ∧ (submit t).reference = t.reference ∧
    (submit t).metaInflight = (if t.inflight then some true else t.metaInflight) ∧
    (submit t).status = if t.scheduledFor.isSome then .scheduled else if t.status = .blank then .queued else t.status := by
  have k := applyPrecision_keeps t
  simp [submit, k, precision_fields]

theorem submit_waits {t : Txn} (h : t.status = .blank) : (submit t).status = .queued ∨ (submit t).status = .scheduled := by
  rw [(submit_fields t).2.2.2.2.2.2, h]
  split <;> simp

theorem live_of_status {t : Txn} (h : t.status = .queued ∨ t.status = .scheduled) : t.Live := by
  refine ⟨⟨?_, ?_⟩, .inr ?_⟩
  · rcases h with h | h <;> simp [h]
  · rcases h with h | h <;> simp [h]
  · rcases h with h | h
    · exact .inl h
    · exact .inr (.inr h)

theorem ActOk.both {H Q : String → Prop} {as : List Act} (h : ∀ a ∈ as, ActOk H Q a) : ∀ a ∈ as, a.Respects H ∧ a.Direct Q :=
  fun a ha => ⟨(h a ha).respects, (h a ha).direct⟩

/-- What is known of the QUEUED and INFLIGHT rows of the histories considered. -/
def RowsOk (H Q : String → Prop) (db : DB) : Prop := ∀ r ∈ db.txns,
  (r.status = .queued → if r.metaInflight = some true then Q r.parent else ¬ H r.id) ∧ (r.status = .inflight → ¬ Q r.id)

theorem acts_rowsOk {cfg : Cfg} {H Q : String → Prop} {as : List Act} : ∀ {db : DB}, HoldInv H db →
    RowsOk H Q db → (∀ a ∈ as, ActOk H Q a) → RowsOk H Q (acts cfg db as) := by
  induction as with
  | nil => intro db _ h _; exact h
  | cons a as ih =>
    intro db hk h ho
    have hk' := act_holdInv (cfg := cfg) hk (ho a (by simp)).respects
    refine ih (db := act cfg db a) hk' ?_ (fun b hb => ho b (List.mem_cons_of_mem _ hb))
    intro r hr
    have ha := ho a (by simp)
    cases a with
    | base op =>
      obtain ⟨new, g, hn⟩ := ordinary_grown (cfg := cfg) hk.inv ha.respects.1
      have hr' : r ∈ (Blnk.step cfg db op).1.txns := hr
      rw [g.txns] at hr'
      rcases List.mem_append.1 hr' with hr' | hr'
      · exact h r hr'
      · rcases hn r hr' with ⟨t, ht, hid, _, _, hst⟩ | rfl
        · refine ⟨fun hs => ?_, fun hs => ?_⟩
          · rw [hs] at hst; split at hst <;> cases hst
          · rw [hs] at hst
            split at hst
            · rw [hid.1]; exact ha.held op t rfl ht (by assumption)
            · cases hst
        · refine ⟨ha.plain r rfl, fun hs => ?_⟩
          have := ha.respects.1.1
          rw [hs] at this; simp at this
    | commit id amt newId ref n1 n2 =>
      rcases commit_grown (cfg := cfg) (h := id) (newId := newId) (ref := ref) (n1 := n1) (n2 := n2) (amt := amt)
        hk.inv hk.remaining_nonneg with ⟨g, _⟩ | ⟨row, y, p, _, _, _, _, g, _, _, hset, _⟩
      · simp only [act] at hr; rw [g.txns] at hr; exact h r (by simpa using hr)
      · simp only [act] at hr; rw [g.txns] at hr
        rcases List.mem_append.1 hr with hr | hr
        · exact h r hr
        · simp at hr; subst hr; rw [hset.status]; simp
    | void id newId ref n1 n2 =>
      rcases void_grown (cfg := cfg) (h := id) (newId := newId) (ref := ref) (n1 := n1) (n2 := n2)
        hk.inv hk.remaining_nonneg with ⟨g, _⟩ | ⟨row, y, _, _, _, _, g, _, _, hset, _⟩
      · simp only [act] at hr; rw [g.txns] at hr; exact h r (by simpa using hr)
      · simp only [act] at hr; rw [g.txns] at hr
        rcases List.mem_append.1 hr with hr | hr
        · exact h r hr
        · simp at hr; subst hr; rw [hset.status]; simp

theorem post_ok {H Q : String → Prop} {t : Txn} {n1 n2 : String} (hl : t.Live)
    (hh : if t.inflight then H t.id ∧ ¬ Q t.id else ¬ H t.parent)
    (g1 : isIndicator n1 = false) (g2 : isIndicator n2 = false) : ActOk H Q (.base (.post t n1 n2)) := by
  refine ⟨⟨hl, ?_, by simp⟩, ⟨by simp, by simp [Op.gens, g1, g2]⟩, ?_, by simp⟩
  · simp only [Op.posts, List.mem_singleton, forall_eq]
    cases hi : t.inflight <;> simp [hi] at hh ⊢
    · exact hh
    · exact hh.1
  · intro op u e hu hi
    cases e
    simp [Op.posts] at hu; subst hu
    rw [if_pos hi] at hh; exact hh.2

theorem create_ok {H Q : String → Prop} {n ind cur : String} (h : isIndicator n = false) : ActOk H Q (.base (.create n ind cur)) :=
  ⟨⟨trivial, by simp [Op.posts], by simp⟩, ⟨by simp, by simp [Op.gens, h]⟩, by intro op t e ht; cases e; simp [Op.posts] at ht, by simp⟩

/-- The ledger steps of recording the transactions of a request. -/
def placeSteps (cfg : Cfg) (gen : Nat → String) : Nat → DB → List Txn → List Act
  | _, _, [] => []
  | k, db, t :: ts => .base (.post t (gen k) (gen (k + 1))) ::
    match (recordSingle cfg db t (gen k) (gen (k + 1))).2 with
    | .refused _ => []
    | _ => placeSteps cfg gen (k + 2) (recordSingle cfg db t (gen k) (gen (k + 1))).1 ts

theorem place_steps {cfg : Cfg} {gen : Nat → String} {ts : List Txn} : ∀ {k : Nat} {db : DB},
    (place cfg gen k db ts).1 = acts cfg db (placeSteps cfg gen k db ts) := by
  induction ts with
  | nil => intro k db; rfl
  | cons t ts ih =>
    intro k db
    unfold place placeSteps
    simp only [acts, act, Blnk.step]
    cases h : (recordSingle cfg db t (gen k) (gen (k + 1))).2 with
    | refused e => simp [acts]
    | discarded => exact ih
    | posted rows => exact ih

theorem placeSteps_mem {cfg : Cfg} {gen : Nat → String} {ts : List Txn} {a : Act} : ∀ {k : Nat} {db : DB},
    a ∈ placeSteps cfg gen k db ts → ∃ t ∈ ts, ∃ j, a = .base (.post t (gen j) (gen (j + 1))) := by
  induction ts with
  | nil => intro k db h; simp [placeSteps] at h
  | cons t ts ih =>
    intro k db h
    unfold placeSteps at h
    rcases List.mem_cons.1 h with rfl | h
    · exact ⟨t, by simp, k, rfl⟩
    · split at h
      · simp at h
      · obtain ⟨u, hu, j, e⟩ := ih h
        exact ⟨u, List.mem_cons_of_mem _ hu, j, e⟩

theorem rows_live {r : Req} (h : r.txn.status = .blank) : ∀ t ∈ r.rows, t.Live := by
  intro t ht
  apply live_of_status
  unfold Req.rows at ht
  split at ht
  · simp at ht; subst ht; exact submit_waits h
  · obtain ⟨l, _, rfl⟩ := List.mem_map.1 ht
    exact submit_waits h

theorem legCalls_mem {g : Gen} {ts : List Txn} : ∀ {k : Nat} {c : LegCall}, c ∈ legCalls g k ts →
    ∃ t ∈ ts, ∃ j, c = { leg := t.id, newId := g.fresh j, before := g.before j } := by
  induction ts with
  | nil => intro k c h; simp [legCalls] at h
  | cons t ts ih =>
    intro k c h
    rcases List.mem_cons.1 h with rfl | h
    · exact ⟨t, by simp, k, rfl⟩
    · obtain ⟨t', ht, j, e⟩ := ih h
      exact ⟨t', List.mem_cons_of_mem _ ht, j, e⟩

theorem legCalls_cover {g : Gen} {ts : List Txn} : ∀ {k : Nat} {t : Txn}, t ∈ ts → ∃ c ∈ legCalls g k ts, c.leg = t.id := by
  induction ts with
  | nil => intro k t h; simp at h
  | cons t ts ih =>
    intro k x h
    rcases List.mem_cons.1 h with rfl | h
    · exact ⟨_, List.mem_cons_self .., rfl⟩
    · obtain ⟨c, hc, e⟩ := ih (k := k + 1) h
      exact ⟨c, List.mem_cons_of_mem _ hc, e⟩

theorem legs_mem {db : DB} {id : String} {t : Txn} (h : t ∈ Atomic.inflightLegs db id) : t ∈ db.txns ∧
    (t.status = .inflight ∨ (t.id = id ∨ t.parent = id) ∧ t.status = .queued ∧ t.metaInflight = some true ∧
      ∀ x ∈ db.txns, x.id = id ∨ x.parent = id → x.status ≠ .inflight) := by
  unfold Atomic.inflightLegs at h
  simp only at h
  split at h
  · rename_i he
    simp only [List.mem_reverse, List.mem_filter, Bool.and_eq_true, Bool.or_eq_true, decide_eq_true_eq] at h
    refine ⟨h.1, .inr ⟨h.2.1.1.1.1, h.2.1.1.1.2, h.2.1.1.2, ?_⟩⟩
    intro x hx hid hst
    have := List.filter_eq_nil_iff.1 he x hx
    simp [hst] at this
    rcases hid with h1 | h1
    · exact this.1.1 h1
    · exact this.1.2 h1
  · simp only [List.mem_reverse, List.mem_filter, Bool.and_eq_true, decide_eq_true_eq] at h
    exact ⟨h.1, .inl h.2.2⟩

theorem legs_cover {db : DB} {id : String} {t : Txn} (ht : t ∈ db.txns) (hid : t.id = id ∨ t.parent = id) (hs : t.status = .inflight) :
    t ∈ Atomic.inflightLegs db id := by
  have hin : t ∈ db.txns.filter (fun t => (t.id = id || t.parent = id || t.metaQueuedParent = id) && t.status = .inflight) := by
    rw [List.mem_filter]
    refine ⟨ht, ?_⟩
    simp only [hs, Bool.and_eq_true, Bool.or_eq_true, decide_eq_true_eq, and_true]
    exact .inl hid
  unfold Atomic.inflightLegs
  simp only
  rw [if_neg (by intro h; rw [h] at hin; simp at hin)]
  exact List.mem_reverse.2 hin

theorem Fits.fund {cfg : Cfg} {H Q : String → Prop} {s : Sys} (h : Fits cfg H Q s) : FundInv H Q s.db := by
  obtain ⟨as, e, ho⟩ := h.ledger
  rw [e]; exact acts_fundInv (init_fundInv H Q) (ActOk.both ho)

theorem Fits.rows {cfg : Cfg} {H Q : String → Prop} {s : Sys} (h : Fits cfg H Q s) : RowsOk H Q s.db := by
  obtain ⟨as, e, ho⟩ := h.ledger
  rw [e]; exact acts_rowsOk (init_holdInv H) (by intro r hr; simp at hr) ho

theorem Fits.legs {cfg : Cfg} {H Q : String → Prop} {s : Sys} (h : Fits cfg H Q s) {id : String} (hq : ¬ Q id) :
    ∀ t ∈ Atomic.inflightLegs s.db id, t ∈ s.db.txns ∧ t.status = .inflight ∧ ¬ Q t.id := by
  intro t ht
  obtain ⟨hm, hs⟩ := legs_mem ht
  rcases hs with hs | ⟨hid, hst, hmi, _⟩
  · exact ⟨hm, hs, (h.rows t hm).2 hs⟩
  · exfalso
    rcases hid with rfl | rfl
    · exact hq (h.fund.queued t hm hst (.inr ⟨hst, hmi⟩))
    · have := (h.rows t hm).1 hst
      rw [if_pos hmi] at this
      exact hq this

theorem deliverySteps_ok {H Q : String → Prop} {q : QAction} {cs : List LegCall}
    (h : ∀ c ∈ cs, ¬ Q c.leg ∧ isIndicator c.n1 = false ∧ isIndicator c.n2 = false ∧ ∀ a ∈ c.before, ActOk H Q a) :
    ∀ a ∈ deliverySteps q cs, ActOk H Q a := by
  intro a ha
  obtain ⟨c, hc, ha⟩ := List.mem_flatMap.1 ha
  obtain ⟨h1, h2, h3, h4⟩ := h c hc
  rcases List.mem_append.1 ha with ha | ha
  · exact h4 a ha
  · simp at ha; subst ha
    unfold QAction.toAct
    split
    · exact ⟨trivial, ⟨h1, h2, h3⟩, by simp, by simp⟩
    · exact ⟨trivial, ⟨h1, h2, h3⟩, by simp, by simp⟩

theorem empty_plain : isIndicator "" = false := by decide +kernel

theorem scan_fields (row : Txn) (n : String) : (Queue.queueCopy (Queue.restore (Queue.scan row)) n).status = row.status ∧
    (Queue.queueCopy (Queue.restore (Queue.scan row)) n).parent = row.id ∧
    (Queue.queueCopy (Queue.restore (Queue.scan row)) n).id = n ∧
    (Queue.queueCopy (Queue.restore (Queue.scan row)) n).inflight = row.metaInflight.getD false := by
  unfold Queue.queueCopy Queue.restore Queue.scan
  generalize ht : ({ row with allowOverdraft := false, overdraftLimit := 0, inflight := false, atomic := false, skipQueue := false, effectiveDate := 0 } : Txn) = t
  have kp := applyPrecision_keeps t
  have pf := precision_fields t
  have t1 : t.status = row.status := by rw [← ht]
  have t2 : t.id = row.id := by rw [← ht]
  have t3 : t.inflight = false := by rw [← ht]
  have t4 : t.metaInflight = row.metaInflight := by rw [← ht]
  simp [kp, pf, t1, t2, t3, t4]

/-- The ledger steps of one attempt at a task. -/
def jobSteps (db : DB) (g : Gen) : Job → List Act
  | .apply t => [.base (.post t (g.fresh 0) (g.fresh 1))]
  | .expire id => [.void id (g.fresh 0) g.ref (g.fresh 1) (g.fresh 2)]
  | .settle id action => deliverySteps (autoCommit action) (legCalls g 0 (Atomic.inflightLegs db id))

theorem job_steps {cfg : Cfg} {db : DB} {g : Gen} {j : Job} : (attempt cfg db g j).1 = acts cfg db (jobSteps db g j) := by
  cases j with
  | apply t => rfl
  | expire id => rfl
  | settle id action => exact runAction_acts cfg (autoCommit action) _ db

/-- The ledger steps of one event. -/
def effects (cfg : Cfg) (s : Sys) : Ev → List Act
  | .direct r => placeSteps cfg r.gen 0 s.db r.rows
  | .queued r => persistSteps cfg s.db (submit r.txn) (r.gen 0) (r.gen 1)
  | .tick _ => []
  | .run k g => match s.tasks[k]? with
    | none => []
    | some t => if t.due ≤ s.now then jobSteps s.db g t.job else []
  | .archive _ => []
  | .pick k newId => match s.db.txns[k]? with
    | none => []
    | some row => if row.status = .queued then [.base (.post (Queue.queueCopy (Queue.restore (Queue.scan row)) newId) "" "")] else []
  | .other a => [a]

/-- The ledger steps of a history. -/
def history (cfg : Cfg) : Sys → List Ev → List Act
  | _, [] => []
  | s, e :: es => effects cfg s e ++ history cfg (step cfg s e) es

theorem step_db {cfg : Cfg} {s : Sys} {e : Ev} : (step cfg s e).db = acts cfg s.db (effects cfg s e) := by
  cases e with
  | tick n => rfl
  | other a => rfl
  | queued r => exact persist_steps cfg s.db (submit r.txn) (r.gen 0) (r.gen 1)
  | direct r =>
    simp only [step, Sched.direct, effects, ← place_steps]
    split <;> rfl
  | archive k =>
    simp only [step, effects, acts]
    split
    · rfl
    · split <;> rfl
  | run k g =>
    simp only [step, effects]
    cases s.tasks[k]? with
    | none => rfl
    | some t =>
      dsimp only
      by_cases h : t.due ≤ s.now
      · rw [if_pos h, if_pos h, ← job_steps]; split <;> rfl
      · rw [if_neg h, if_neg h]; rfl
  | pick k newId =>
    simp only [step, effects]
    cases s.db.txns[k]? with
    | none => rfl
    | some row =>
      dsimp only
      by_cases h : row.status = .queued
      · rw [if_pos h, if_pos h]; rfl
      · rw [if_neg h, if_neg h]; rfl

/-- **Refinement**: the ledger of a history is the ledger of its steps. -/
theorem run_db {cfg : Cfg} {es : List Ev} : ∀ {s : Sys}, (run cfg s es).db = acts cfg s.db (history cfg s es) := by
  induction es with
  | nil => intro s; rfl
  | cons e es ih => intro s; rw [history, acts_append, ← step_db]; exact ih

theorem jobSteps_ok {cfg : Cfg} {H Q : String → Prop} {s : Sys} {g : Gen} {j : Job} (hs : Fits cfg H Q s) (hj : JobOk H Q j)
    (hg : ∀ k, isIndicator (g.fresh k) = false) (hb : ∀ k, ∀ a ∈ g.before k, ActOk H Q a) :
    ∀ a ∈ jobSteps s.db g j, ActOk H Q a := by
  cases j with
  | apply t =>
    simp only [jobSteps, List.mem_singleton, forall_eq]
    exact post_ok hj.1 hj.2 (hg 0) (hg 1)
  | expire id =>
    simp only [jobSteps, List.mem_singleton, forall_eq]
    exact ⟨trivial, ⟨hj, hg 1, hg 2⟩, by simp, by simp⟩
  | settle id action =>
    refine deliverySteps_ok ?_
    intro c hc
    obtain ⟨t, ht, k, rfl⟩ := legCalls_mem hc
    exact ⟨(hs.legs hj t ht).2.2, empty_plain, empty_plain, hb k⟩

theorem effects_ok {cfg : Cfg} {H Q : String → Prop} {s : Sys} {e : Ev} (hs : Fits cfg H Q s) (he : e.Ok cfg H Q s) :
    ∀ a ∈ effects cfg s e, ActOk H Q a := by
  cases e with
  | tick n => simp [effects]
  | archive k => simp [effects]
  | other a =>
    simp only [effects, List.mem_singleton, forall_eq]
    exact he
  | direct r =>
    obtain ⟨h1, _, h3, h4⟩ := he
    intro a ha
    obtain ⟨t, ht, j, rfl⟩ := placeSteps_mem ha
    exact post_ok (rows_live h1 t ht) (h4 t ht) (h3 j) (h3 (j + 1))
  | run k g =>
    simp only [effects]
    split
    · simp
    · rename_i t ht
      split
      · exact jobSteps_ok hs (hs.tasks t (List.mem_of_getElem? ht)) he.1 he.2
      · simp
  | pick k newId =>
    simp only [effects]
    split
    · simp
    · rename_i row hrow
      split
      · rename_i hst
        have hm := List.mem_of_getElem? hrow
        have sf := scan_fields row newId
        simp only [List.mem_singleton, forall_eq]
        refine post_ok (live_of_status (.inl (sf.1.trans hst))) ?_ empty_plain empty_plain
        have hr := (hs.rows row hm).1 hst
        rw [sf.2.1, sf.2.2.1, sf.2.2.2]
        cases hmi : row.metaInflight with
        | none => simp [hmi] at hr ⊢; exact hr
        | some b => cases b with
          | false => simp [hmi] at hr ⊢; exact hr
          | true => exact he
      · simp
  | queued r =>
    obtain ⟨h1, h2, h3, h4, h5⟩ := he
    have sf := submit_fields r.txn
    · intro a ha
      rcases persistSteps_mem ha with ⟨_, _, rfl⟩ | ⟨_, _, rfl⟩ | ⟨hst, x, y, rfl⟩
      · exact create_ok (h4 0)
      · exact create_ok (h4 1)
      · rw [hst] at h5
        have hw := submit_waits h1
        refine ⟨⟨⟨?_, h3⟩, by simp [Op.posts], ?_⟩, ⟨?_, by simp [Op.gens]⟩, ?_, ?_⟩
        · rcases hw with h | h
          · exact .inl h
          · exact .inr (.inl h)
        · intro t e hh
          cases e
          have : (submit r.txn).metaInflight = some true := by
            rcases hh with hh | hh
            · rcases hw with h | h <;> rw [h] at hh <;> cases hh
            · exact hh.2
          rw [sf.2.2.2.2.2.1, h2] at this
          split at this
          · rename_i hi
            rw [if_pos hi] at h5
            simpa [sf] using h5.1
          · cases this
        · intro t e hh
          cases e
          have : (submit r.txn).metaInflight = some true := by
            rcases hh with hh | hh
            · rcases hw with h | h <;> rw [h] at hh <;> cases hh
            · exact hh.2
          rw [sf.2.2.2.2.2.1, h2] at this
          split at this
          · rename_i hi
            rw [if_pos hi] at h5
            simpa [sf] using h5.2.2.2.2.2.1
          · cases this
        · intro op t e ht; cases e; simp [Op.posts] at ht
        · intro t e hs
          cases e
          simp only [sf.2.2.2.2.2.1, h2, sf.1, sf.2.1]
          cases hi : r.txn.inflight with
          | true =>
            rw [if_pos hi] at h5
            simpa using h5.2.2.2.2.2.2
          | false =>
            rw [if_neg (by simp [hi])] at h5
            simpa using h5.1

theorem dated_ok {H Q : String → Prop} {r : Req} (hq : ¬ Q r.txn.id) : ∀ t ∈ r.dated, JobOk H Q t.job := by
  intro t ht
  unfold Req.dated at ht
  rcases List.mem_append.1 ht with ht | ht
  · obtain ⟨d, _, rfl⟩ := List.mem_map.1 ht; exact hq
  · obtain ⟨d, _, rfl⟩ := List.mem_map.1 ht; exact hq

theorem step_fits {cfg : Cfg} {H Q : String → Prop} {s : Sys} {e : Ev} (hs : Fits cfg H Q s) (he : e.Ok cfg H Q s) :
    Fits cfg H Q (step cfg s e) := by
  obtain ⟨as, ea, oa⟩ := hs.ledger
  have ob := effects_ok hs he
  refine ⟨⟨as ++ effects cfg s e, by rw [step_db, acts_append, ← ea], ?_⟩, ?_⟩
  · intro a ha
    rcases List.mem_append.1 ha with h | h
    · exact oa a h
    · exact ob a h
  · have keep := hs.tasks
    cases e with
    | tick n => exact keep
    | other a => exact keep
    | pick k newId =>
      simp only [step]
      split
      · exact keep
      · split <;> exact keep
    | archive k =>
      simp only [step]
      split
      · exact keep
      · split
        · intro t ht; exact keep t (List.mem_of_mem_eraseIdx ht)
        · exact keep
    | run k g =>
      simp only [step]
      split
      · exact keep
      · split
        · split
          · intro t ht; exact keep t (List.mem_of_mem_eraseIdx ht)
          · exact keep
        · exact keep
    | direct r =>
      simp only [step, Sched.direct]
      split
      · intro t ht
        rcases List.mem_append.1 ht with ht | ht
        · exact keep t ht
        · exact dated_ok he.2.1 t ht
      · exact keep
    | queued r =>
      obtain ⟨h1, h2, h3, h4, h5⟩ := he
      have sf := submit_fields r.txn
      have hw := submit_waits h1
      obtain ⟨x, y, q, ep⟩ := persist_txn cfg s.db (submit r.txn) (r.gen 0) (r.gen 1)
      intro t ht
      simp only [step, Sched.queued] at ht
      rcases List.mem_append.1 ht with ht | ht
      · exact keep t ht
      · rcases List.mem_cons.1 ht with rfl | ht
        · show Txn.Live _ ∧ _
          unfold Req.queueTxn
          cases hst : (Queue.persistQueued cfg s.db (submit r.txn) (r.gen 0) (r.gen 1)).2.2 with
          | true =>
            simp only [if_true]
            rw [ep]
            refine ⟨live_of_status hw, ?_⟩
            simp only [Queue.queueCopy, sf.2.2.1, sf.1]
            cases hi : r.txn.inflight with
            | true =>
              simp [hi] at h5 ⊢; exact ⟨h5.2.1, h5.2.2.1⟩
            | false => simp [hi] at h5 ⊢; exact h5.1
          | false =>
            simp only [Bool.false_eq_true, if_false]
            rw [ep]
            refine ⟨live_of_status hw, ?_⟩
            simp only [sf.2.2.1, sf.1, sf.2.1]
            cases hi : r.txn.inflight with
            | true =>
              rw [if_pos hi, hst] at h5
              simp at h5 ⊢
              exact ⟨h5.1, h5.2.2.2.2.2⟩
            | false => simp [hi] at h5 ⊢; exact h5.2.2
        · cases hi : r.txn.inflight with
          | true =>
            rw [if_pos hi] at h5
            simp [Req.dated, h5.2.2.2.1, h5.2.2.2.2.1] at ht
          | false =>
            rw [if_neg (by simp [hi])] at h5
            exact dated_ok h5.2.1 t ht

theorem run_append {cfg : Cfg} {es fs : List Ev} : ∀ {s : Sys}, run cfg s (es ++ fs) = run cfg (run cfg s es) fs := by
  induction es with
  | nil => intro s; rfl
  | cons e es ih => intro s; exact ih

theorem ok_append {cfg : Cfg} {H Q : String → Prop} {es fs : List Ev} : ∀ {s : Sys},
    Ok cfg H Q s (es ++ fs) ↔ Ok cfg H Q s es ∧ Ok cfg H Q (run cfg s es) fs := by
  induction es with
  | nil => intro s; simp [Ok, run]
  | cons e es ih => intro s; simp [Ok, run, ih, and_assoc]

theorem init_fits (cfg : Cfg) (H Q : String → Prop) : Fits cfg H Q {} := ⟨⟨[], rfl, by simp⟩, by simp⟩

theorem run_fits {cfg : Cfg} {H Q : String → Prop} {es : List Ev} : ∀ {s : Sys}, Fits cfg H Q s → Ok cfg H Q s es →
    Fits cfg H Q (run cfg s es) := by
  induction es with
  | nil => intro s h _; exact h
  | cons e es ih => intro s h ho; exact ih (step_fits h ho.1) ho.2

theorem history_ok {cfg : Cfg} {H Q : String → Prop} {es : List Ev} : ∀ {s : Sys}, Fits cfg H Q s → Ok cfg H Q s es →
    ∀ a ∈ history cfg s es, ActOk H Q a := by
  induction es with
  | nil => intro s h _; simp [history]
  | cons e es ih =>
    intro s h ho a ha
    rcases List.mem_append.1 ha with ha | ha
    · exact effects_ok h ho.1 a ha
    · exact ih (step_fits h ho.1) ho.2 a ha

theorem run_rows {cfg : Cfg} {H Q : String → Prop} {es : List Ev} {s : Sys} (h : Fits cfg H Q s) (ho : Ok cfg H Q s es) :
    ∃ new, (run cfg s es).db.txns = s.db.txns ++ new := by
  rw [run_db]
  exact acts_prefix h.fund.toHoldInv (fun a ha => (history_ok h ho a ha).respects)

end Blnk.Sched
