import Verif.Model.Concurrent
import Verif.Lemmas.BatchSeq
/-
Helper lemmas for C09-C11: a committed SQL transaction equals an atomic posting on
the state it commits to.
-/
namespace Blnk

/-- A balance without its queued total. -/
def dropQ (b : Balance) : Balance := { b with queuedDebit := none }

theorem applySource_dropQ {t : Txn} {b b' : Balance} (hq : 0 ≤ b.queuedDebit.getD 0) (h : applySource t b = .ok b') :
    applySource t (dropQ b) = .ok (dropQ b') := applySource_queued (q := none) (by simpa using hq) h

theorem applyDestination_dropQ {t : Txn} {b b' : Balance} (h : applyDestination t b = .ok b') :
    applyDestination t (dropQ b) = .ok (dropQ b') := applyDestination_queued (q := none) h

theorem applyToBalances_dropQ {t : Txn} {s d s' d' : Balance} (hq : 0 ≤ s.queuedDebit.getD 0)
    (h : applyToBalances t s d = .ok (s', d')) : applyToBalances t (dropQ s) (dropQ d) = .ok (dropQ s', dropQ d') := by
  obtain ⟨h1, h2⟩ := applyToBalances_inv h
  simp only [applyToBalances, applySource_dropQ hq h1, applyDestination_dropQ h2, bind, Except.bind, pure, Except.pure]

theorem applyToAliased_dropQ {t : Txn} {b b' : Balance} (hq : 0 ≤ b.queuedDebit.getD 0)
    (h : applyToAliased t b = .ok b') : applyToAliased t (dropQ b) = .ok (dropQ b') := by
  obtain ⟨m, h1, h2⟩ := applyToAliased_inv h
  simp only [applyToAliased, applySource_dropQ hq h1, bind, Except.bind]
  exact applyDestination_dropQ h2

theorem putBalance_dropQ (bs : List Balance) (b : Balance) :
    (putBalance bs b).map dropQ = putBalance (bs.map dropQ) (dropQ b) := by
  simp only [putBalance, List.map_map]
  apply List.map_congr_left
  intro x _
  by_cases h : x.id = b.id
  · simp [Function.comp, dropQ, h]
  · simp [Function.comp, dropQ, h]

theorem find_dropQ (bs : List Balance) (i : String) :
    (bs.map dropQ).find? (fun x => x.id = i) = (bs.find? (fun x => x.id = i)).map dropQ := by
  rw [List.find?_map]; rfl

theorem applyInMemory_dropQ {t : Txn} {bs bs' : List Balance} (hq : ∀ b ∈ bs, 0 ≤ b.queuedDebit.getD 0)
    (h : applyInMemory t bs = .ok bs') :
    applyInMemory t (bs.map dropQ) = .ok (bs'.map dropQ) ∧ ∀ b ∈ bs', 0 ≤ b.queuedDebit.getD 0 := by
  unfold applyInMemory at h ⊢
  rw [find_dropQ, find_dropQ]
  split at h
  · rename_i s d hs hd
    rw [hs, hd]
    simp only [Option.map_some]
    have qs := hq s (find_mem hs).1
    have qd := hq d (find_mem hd).1
    split at h
    · rename_i he
      rw [if_pos he]
      split at h
      · cases h
      · rename_i b hb
        cases h
        rw [applyToAliased_dropQ qs hb]
        refine ⟨by rw [putBalance_dropQ], ?_⟩
        obtain ⟨m, a1, a2⟩ := applyToAliased_inv hb
        intro x hx
        rcases putBalance_mem hx with hx | hx
        · exact hq x hx.1
        · rw [hx, (applyDestination_effect a2).queued, (applySource_effect a1).queued]; exact qs
    · rename_i he
      rw [if_neg he]
      split at h
      · cases h
      · rename_i s' d' hab
        cases h
        rw [applyToBalances_dropQ qs hab]
        refine ⟨by rw [putBalance_dropQ, putBalance_dropQ], ?_⟩
        obtain ⟨a1, a2⟩ := applyToBalances_inv hab
        intro x hx
        rcases putBalance_mem hx with hx | hx
        · rcases putBalance_mem hx.1 with hx | hx
          · exact hq x hx.1
          · rw [hx, (applySource_effect a1).queued]; exact qs
        · rw [hx, (applyDestination_effect a2).queued]; exact qd
  · cases h

theorem prepareMembers_dropQ {seen db : DB} : ∀ {ts : List Txn} {refs : List String} {bs bs' : List Balance} {rows : List Txn},
    (∀ b ∈ bs, 0 ≤ b.queuedDebit.getD 0) → (∀ t ∈ ts, db.hasRef t.reference = false) →
    prepareMembers seen ts refs bs = .ok (rows, bs') →
    prepareMembers db ts refs (bs.map dropQ) = .ok (rows, bs'.map dropQ) := by
  intro ts
  induction ts with
  | nil => intro refs bs bs' rows _ _ h; simp [prepareMembers] at h ⊢; exact ⟨h.1, by rw [h.2]⟩
  | cons t ts ih =>
    intro refs bs bs' rows hq hr h
    unfold prepareMembers at h ⊢
    split at h
    · cases h
    rename_i h1
    rw [if_neg (by rw [find_dropQ, find_dropQ]; simpa using h1)]
    split at h
    · cases h
    rename_i h2
    rw [if_neg h2]
    split at h
    · cases h
    rename_i h3
    rw [if_neg (by
      rw [hr t (by simp)]
      simp only [Bool.or_eq_true, not_or] at h3
      simpa using h3.1)]
    split at h
    · cases h
    rename_i mid hm
    obtain ⟨k1, k2⟩ := applyInMemory_dropQ hq hm
    rw [k1]
    simp only
    split at h
    · cases h
    rename_i h4
    rw [if_neg h4]
    split at h
    · cases h
    rename_i rest bs'' hp
    cases h
    rw [ih k2 (fun u hu => hr u (List.mem_cons_of_mem _ hu)) hp]

/-! ### Ids and versions in memory -/

/-- Identity and version of a balance. -/
def key (b : Balance) : String × Nat := (b.id, b.version)

theorem keys_nodup_eq {bs : List Balance} (hn : (ids bs).Nodup) {o b : Balance} (ho : o ∈ bs) (hk : key b = key o) :
    (putBalance bs b).map key = bs.map key := by
  simp only [putBalance, List.map_map]
  apply List.map_congr_left
  intro x hx
  simp only [Function.comp]
  split
  · rename_i he
    have : x = o := eq_of_mem_ids hn hx ho (by rw [he]; exact congrArg Prod.fst hk)
    rw [hk, this]
  · rfl

theorem ids_of_keys {a b : List Balance} (h : a.map key = b.map key) : ids a = ids b := by
  have := congrArg (List.map Prod.fst) h
  simpa [ids, key, List.map_map, Function.comp_def] using this

theorem applyInMemory_keys {t : Txn} {bs bs' : List Balance} (hn : (ids bs).Nodup)
    (h : applyInMemory t bs = .ok bs') : bs'.map key = bs.map key := by
  unfold applyInMemory at h
  split at h
  · rename_i s d hs hd
    have ms := (find_mem hs).1
    have md := (find_mem hd).1
    split at h
    · split at h
      · cases h
      · rename_i b hb
        cases h
        obtain ⟨m, a1, a2⟩ := applyToAliased_inv hb
        exact keys_nodup_eq hn ms (by
          unfold key
          rw [(applyDestination_effect a2).id, (applySource_effect a1).id, (applyDestination_effect a2).version,
            (applySource_effect a1).version])
    · split at h
      · cases h
      · rename_i hne _ s' d' hab
        cases h
        obtain ⟨a1, a2⟩ := applyToBalances_inv hab
        have e1 := applySource_effect a1
        have e2 := applyDestination_effect a2
        have k1 := keys_nodup_eq hn ms (b := s') (by unfold key; rw [e1.id, e1.version])
        rw [← k1]
        have hsd : d.id ≠ s'.id := by rw [e1.id, (find_mem hs).2, (find_mem hd).2]; exact fun h => hne h.symm
        exact keys_nodup_eq (by rw [ids_of_keys k1]; exact hn) (putBalance_mem_other md hsd)
          (by unfold key; rw [e2.id, e2.version])
  · cases h

theorem prepareMembers_keys {db : DB} : ∀ {ts : List Txn} {refs : List String} {bs bs' : List Balance} {rows : List Txn},
    (ids bs).Nodup → prepareMembers db ts refs bs = .ok (rows, bs') → bs'.map key = bs.map key := by
  intro ts
  induction ts with
  | nil => intro refs bs bs' rows _ h; simp [prepareMembers] at h; rw [h.2]
  | cons t ts ih =>
    intro refs bs bs' rows hn h
    obtain ⟨_, _, _, _, mid, rest, hm, hp, _⟩ := prepareMembers_cons h
    have k := applyInMemory_keys hn hm
    rw [ih (by rw [ids_of_keys k]; exact hn) hp, k]

/-- Whatever a job computed carries the ids and versions it read. -/
theorem compute_keys {j : Job} {seen : DB} {got : List Balance} {w : Work} (hg : ids got = j.ids)
    (h : j.compute seen got = .ok (some w)) : w.balances.map key = got.map key := by
  cases j with
  | single t =>
    simp only [Job.compute] at h
    split at h
    · split at h
      · cases h
      · rename_i s d s' d' hab
        split at h
        · cases h
        · cases h
          obtain ⟨a1, a2⟩ := applyToBalances_inv hab
          have e1 := applySource_effect a1
          have e2 := applyDestination_effect a2
          simp [key, e1.id, e1.version, e2.id, e2.version]
    · cases h
  | batch ts =>
    simp only [Job.compute] at h
    split at h
    · cases h
    · split at h
      · cases h
      · rename_i rows bs' hp
        cases h
        exact prepareMembers_keys (by rw [hg]; exact batchIds_nodup ts) hp

/-! ### Writing back -/

theorem writeAll_cons (rows : List Balance) (b : Balance) (bs : List Balance) :
    writeAll rows (b :: bs) = writeAll (rows.map fun r => if r.id = b.id then r.writeBack b else r) bs := rfl

theorem updateRow_eq {rows : List Balance} {b r : Balance} (hn : (ids rows).Nodup) (hr : r ∈ rows) (h1 : r.id = b.id)
    (h2 : r.version = b.version) :
    updateRow rows b = .ok (rows.map fun r => if r.id = b.id then r.writeBack b else r) := by
  obtain ⟨rows', h⟩ := updateRow_of_mem hr h1 h2
  rw [h]
  obtain ⟨_, _, _, _, rfl⟩ := updateRow_ok h
  congr 1
  apply List.map_congr_left
  intro x hx
  by_cases hxi : x.id = b.id
  · have : x = r := eq_of_mem_ids hn hx hr (hxi.trans h1.symm)
    subst this
    simp [h1, h2]
  · simp [hxi]

theorem updateRows_eq {bs : List Balance} : ∀ {rows : List Balance}, (ids rows).Nodup → (ids bs).Nodup →
    (∀ b ∈ bs, ∃ r ∈ rows, r.id = b.id ∧ r.version = b.version) → updateRows rows bs = .ok (writeAll rows bs) := by
  induction bs with
  | nil => intro rows _ _ _; rfl
  | cons b bs ih =>
    intro rows hn hnb h
    obtain ⟨r, hr, e1, e2⟩ := h b (by simp)
    simp only [ids, List.map_cons, List.nodup_cons] at hnb
    have hu := updateRow_eq hn hr e1 e2
    rw [writeAll_cons]
    simp only [updateRows, hu]
    apply ih
    · rw [updateRow_ids hu]; exact hn
    · exact hnb.2
    · intro c hc
      obtain ⟨r', hr', e1', e2'⟩ := h c (List.mem_cons_of_mem _ hc)
      have hne : r'.id ≠ b.id := by
        intro he; exact hnb.1 (List.mem_map.2 ⟨c, hc, by rw [← e1', he]⟩)
      exact ⟨r', updateRow_other hu hr' hne, e1', e2'⟩

theorem updateRows_dropQ : ∀ (bs rows : List Balance), updateRows rows (bs.map dropQ) = updateRows rows bs := by
  intro bs
  induction bs with
  | nil => intro rows; rfl
  | cons b bs ih =>
    intro rows
    have : updateRow rows (dropQ b) = updateRow rows b := rfl
    simp only [List.map_cons, updateRows, this]
    cases updateRow rows b with
    | error e => rfl
    | ok r => exact ih r

/-- Rows that may all be inserted together. -/
def Insertable (db : DB) (rows : List Txn) : Prop :=
  rows.Pairwise (fun u t => u.id ≠ t.id ∧ u.reference ≠ t.reference) ∧
  ∀ t ∈ rows, db.hasTxnId t.id = false ∧ db.hasRef t.reference = false

theorem insertTxns_of {rows : List Txn} : ∀ {db : DB}, Insertable db rows →
    db.insertTxns rows = .ok { db with txns := db.txns ++ rows } := by
  induction rows with
  | nil => intro db _; simp [DB.insertTxns]
  | cons t ts ih =>
    intro db h
    obtain ⟨h1, h2⟩ := h.2 t (by simp)
    have hp := List.pairwise_cons.1 h.1
    have hok : db.insertTxn t = .ok { db with txns := db.txns ++ [t] } := by simp [DB.insertTxn, h1, h2]
    simp only [DB.insertTxns, hok]
    rw [ih]
    · simp
    · refine ⟨hp.2, ?_⟩
      intro u hu
      obtain ⟨g1, g2⟩ := h.2 u (List.mem_cons_of_mem _ hu)
      obtain ⟨n1, n2⟩ := hp.1 u hu
      simp only [DB.hasTxnId, DB.hasRef, List.any_append, Bool.or_eq_false_iff] at g1 g2 ⊢
      exact ⟨⟨g1, by simp [n1]⟩, ⟨g2, by simp [n2]⟩⟩

/-! ### A committed job is an atomic operation on the state it commits to -/

/-- The balance read is the current row. -/
def Current (db : DB) (b : Balance) : Prop :=
  ∃ r, db.find b.id = some r ∧ dropQ b = dropQ r ∧ 0 ≤ b.queuedDebit.getD 0

theorem load_plain {db : DB} {b : Balance} (h : Current db b) : db.load {} b.id = .ok (dropQ b) := by
  obtain ⟨r, hr, he, _⟩ := h
  rw [load_of_find hr, he]; rfl

theorem loadAll_current {db : DB} : ∀ {got : List Balance}, (∀ b ∈ got, Current db b) →
    loadAll {} db (ids got) = .ok (got.map dropQ) := by
  intro got
  induction got with
  | nil => intro _; rfl
  | cons b got ih =>
    intro h
    have i := ih (fun c hc => h c (List.mem_cons_of_mem _ hc))
    simp only [ids, List.map_cons, loadAll, load_plain (h b (by simp))] at i ⊢
    rw [i]

/-- If every balance a job read is the current row and its rows are insertable, then
writing its result is exactly what the sequential operation does. -/
theorem job_atomic {db : DB} {j : Job} {seen : DB} {got : List Balance} {w : Work} (hn : (ids db.balances).Nodup)
    (hres : j.Resolved) (hg : ids got = j.ids) (hcur : ∀ b ∈ got, Current db b) (hw : j.compute seen got = .ok (some w))
    (hnd : (ids w.balances).Nodup) (hins : Insertable db w.rows) :
    step {} db j.op = ({ balances := writeAll db.balances w.balances, txns := db.txns ++ w.rows }, .posted w.rows) := by
  have hkeys := compute_keys hg hw
  have hmatch : ∀ b ∈ w.balances, ∃ r ∈ db.balances, r.id = b.id ∧ r.version = b.version := by
    intro b hb
    have : key b ∈ got.map key := by rw [← hkeys]; exact List.mem_map.2 ⟨b, hb, rfl⟩
    obtain ⟨c, hc, hkc⟩ := List.mem_map.1 this
    obtain ⟨r, hr, he, _⟩ := hcur c hc
    simp only [key, Prod.mk.injEq] at hkc
    have e1 := congrArg Balance.id he
    have e2 := congrArg Balance.version he
    simp only [dropQ] at e1 e2
    exact ⟨r, (find_mem hr).1, by rw [← e1, hkc.1], by rw [← e2, hkc.2]⟩
  have hper : db.persist { rows := w.rows, balances := w.balances.map dropQ }
      = .ok { balances := writeAll db.balances w.balances, txns := db.txns ++ w.rows } := by
    simp only [DB.persist]
    rw [updateRows_dropQ, updateRows_eq hn hnd hmatch]
    exact insertTxns_of (db := { db with balances := writeAll db.balances w.balances }) hins
  cases j with
  | single t =>
    simp only [Job.compute] at hw
    split at hw
    · rename_i s d
      split at hw
      · cases hw
      · rename_i s' d' hab
        split at hw
        · cases hw
        · rename_i hz
          cases hw
          simp only [ids, List.map_cons, List.map_nil, Job.ids, List.cons.injEq, and_true] at hg
          obtain ⟨g1, g2⟩ := hg
          have cs := hcur s (by simp)
          have cd := hcur d (by simp)
          obtain ⟨hid, href⟩ := hins.2 (finalRow t) (by simp)
          rw [(finalRow_keeps t).1] at href
          have ls := load_plain cs
          have ld := load_plain cd
          rw [g1] at ls
          rw [g2] at ld
          obtain ⟨_, _, _, qs⟩ := cs
          have hprep : prepareSingle {} db t = .ok (some { rows := [finalRow t], balances := [dropQ s', dropQ d'] }) := by
            unfold prepareSingle
            rw [href, ls, ld]
            simp only [Bool.false_eq_true, if_false, applyToBalances_dropQ qs hab]
            rw [if_neg hz]
          simp only [Job.op, step, recordSingle, DB.resolve, hres.1, hres.2, Bool.false_eq_true, if_false]
          unfold postResolved
          have e : ({ t with source := t.source, destination := t.destination } : Txn) = t := rfl
          rw [e, hprep]
          simp only [List.map_cons, List.map_nil] at hper
          simp only [hper]
    · cases hw
  | batch ts =>
    simp only [Job.compute] at hw
    split at hw
    · cases hw
    · rename_i hc
      split at hw
      · cases hw
      · rename_i rows bs' hp
        cases hw
        simp only at hper hins
        have hrefs : ∀ t ∈ ts, db.hasRef t.reference = false := by
          intro t ht
          have hm : finalRow (batchMember t) ∈ rows := by rw [prepareMembers_rows hp]; exact List.mem_map.2 ⟨t, ht, rfl⟩
          have := (hins.2 _ hm).2
          rw [(finalRow_keeps _).1] at this
          exact this
        have hq : ∀ b ∈ got, 0 ≤ b.queuedDebit.getD 0 := by
          intro b hb; obtain ⟨_, _, _, h⟩ := hcur b hb; exact h
        have hload := loadAll_current hcur
        rw [hg] at hload
        simp only [Job.ids] at hload
        simp only [Job.op, step, recordBatch, prepareBatch]
        rw [if_neg hc, hload]
        simp only [prepareMembers_dropQ (db := db) hq hrefs hp, hper]

/-! ### The invariant of the concurrent system -/

/-- Committed operations applied one after the other, each of them accepted. -/
inductive Serial : List Op → DB → Prop
  | nil : Serial [] {}
  | snoc {ops : List Op} {db db' : DB} {op : Op} {rows : List Txn} (h : Serial ops db)
      (hs : step {} db op = (db', .posted rows)) : Serial (ops ++ [op]) db'

/-- A balance read at some earlier moment. -/
def Past (db : DB) (b : Balance) : Prop :=
  ∃ r, db.find b.id = some r ∧ b.version ≤ r.version ∧ (b.version = r.version → dropQ b = dropQ r) ∧
    0 ≤ b.queuedDebit.getD 0

/-- A stored row has this id and version. -/
def Match (db : DB) (b : Balance) : Prop := ∃ r ∈ db.balances, r.id = b.id ∧ r.version = b.version

/-- The work was computed from balances read earlier. -/
def JobOK (db : DB) (j : Job) (w : Work) : Prop :=
  j.Resolved ∧ ∃ seen got, ids got = j.ids ∧ (∀ b ∈ got, Past db b) ∧ j.compute seen got = .ok (some w)

def PhaseInv (ob : Txn → Option String) (db : DB) : Phase → Prop
  | .idle => True
  | .reading j _ todo got => j.Resolved ∧ ids got ++ todo = j.ids ∧ ∀ b ∈ got, Past db b
  | .writing j w done todo => JobOK db j w ∧ w.balances = done ++ todo ∧ (ids done).Nodup ∧ ∀ b ∈ done, Match db b
  | .inserting j w done todo => JobOK db j w ∧ (ids w.balances).Nodup ∧ (∀ b ∈ w.balances, Match db b) ∧
      w.rows = done ++ todo ∧ Insertable db done
  | .ready j w o => JobOK db j w ∧ (ids w.balances).Nodup ∧ (∀ b ∈ w.balances, Match db b) ∧
      Insertable db w.rows ∧ o = w.rows.filterMap ob

/-- Rows stay or get a larger version. -/
def Evolve (db db' : DB) : Prop :=
  ∀ i r, db.find i = some r → ∃ r', db'.find i = some r' ∧ (r' = r ∨ r.version < r'.version)

theorem Evolve.past {db db' : DB} (h : Evolve db db') {b : Balance} (hb : Past db b) : Past db' b := by
  obtain ⟨r, hr, h1, h2, h3⟩ := hb
  obtain ⟨r', hr', he⟩ := h _ r hr
  rcases he with rfl | he
  · exact ⟨r', hr', h1, h2, h3⟩
  · exact ⟨r', hr', by omega, fun hv => by omega, h3⟩

theorem JobOK.mono {db db' : DB} (h : Evolve db db') {j : Job} {w : Work} (hj : JobOK db j w) : JobOK db' j w := by
  obtain ⟨h1, seen, got, h2, h3, h4⟩ := hj
  exact ⟨h1, seen, got, h2, fun b hb => h.past (h3 b hb), h4⟩

theorem PhaseInv.mono {ob : Txn → Option String} {db db' : DB} (he : Evolve db db') {p : Phase}
    (hm : ∀ b : Balance, b.id ∈ p.locked → Match db b → Match db' b)
    (hf : ∀ t ∈ p.pending, db.hasTxnId t.id = false ∧ db.hasRef t.reference = false →
      db'.hasTxnId t.id = false ∧ db'.hasRef t.reference = false) (h : PhaseInv ob db p) : PhaseInv ob db' p := by
  cases p with
  | idle => trivial
  | reading j seen todo got => exact ⟨h.1, h.2.1, fun b hb => he.past (h.2.2 b hb)⟩
  | writing j w done todo =>
    obtain ⟨h1, h2, h3, h4⟩ := h
    exact ⟨h1.mono he, h2, h3, fun b hb => hm b (List.mem_map.2 ⟨b, hb, rfl⟩) (h4 b hb)⟩
  | inserting j w done todo =>
    obtain ⟨h1, h2, h3, h4, h5⟩ := h
    exact ⟨h1.mono he, h2, fun b hb => hm b (List.mem_map.2 ⟨b, hb, rfl⟩) (h3 b hb), h4, h5.1,
      fun t ht => hf t ht (h5.2 t ht)⟩
  | ready j w o =>
    obtain ⟨h1, h2, h3, h4, h5⟩ := h
    exact ⟨h1.mono he, h2, fun b hb => hm b (List.mem_map.2 ⟨b, hb, rfl⟩) (h3 b hb), ⟨h4.1,
      fun t ht => hf t ht (h4.2 t ht)⟩, h5⟩

/-- The invariant. -/
structure WInv (ob : Txn → Option String) (W : World) : Prop where
  inv : Inv W.db
  queued : QueuedNonneg W.db
  serial : Serial W.log W.db
  outbox : W.outbox = W.posted.filterMap ob
  worker : ∀ k, PhaseInv ob W.db (W.phase k)
  locks : ∀ k k', k ≠ k' → ∀ i ∈ (W.phase k).locked, i ∉ (W.phase k').locked
  keys : ∀ k k', k ≠ k' → ∀ t ∈ (W.phase k).pending, ∀ u ∈ (W.phase k').pending, u.id ≠ t.id ∧ u.reference ≠ t.reference

theorem set_self (W : World) (k : Nat) (p : Phase) : (W.set k p).phase k = p := by simp [World.set]

theorem set_ne (W : World) {k k' : Nat} (p : Phase) (h : k' ≠ k) : (W.set k p).phase k' = W.phase k' := by
  simp [World.set, h]

/-- Moving one worker. -/
theorem WInv.set {ob : Txn → Option String} {W : World} (h : WInv ob W) (k : Nat) {p : Phase} (hp : PhaseInv ob W.db p)
    (hl : ∀ k', k' ≠ k → ∀ i ∈ p.locked, i ∉ (W.phase k').locked)
    (hk : ∀ k', k' ≠ k → ∀ t ∈ p.pending, ∀ u ∈ (W.phase k').pending, u.id ≠ t.id ∧ u.reference ≠ t.reference) :
    WInv ob (W.set k p) := by
  refine ⟨h.inv, h.queued, h.serial, h.outbox, ?_, ?_, ?_⟩
  · intro i
    by_cases hi : i = k
    · subst hi; rw [set_self]; exact hp
    · rw [set_ne W p hi]; exact h.worker i
  · intro a b hab
    by_cases ha : a = k
    · subst ha
      rw [set_self, set_ne W p (Ne.symm hab)]
      exact hl b (Ne.symm hab)
    · by_cases hb : b = k
      · subst hb
        rw [set_self, set_ne W p ha]
        exact fun i hi hi' => hl a ha i hi' hi
      · rw [set_ne W p ha, set_ne W p hb]; exact h.locks a b hab
  · intro a b hab
    by_cases ha : a = k
    · subst ha
      rw [set_self, set_ne W p (Ne.symm hab)]
      exact hk b (Ne.symm hab)
    · by_cases hb : b = k
      · subst hb
        rw [set_self, set_ne W p ha]
        intro t ht u hu
        have := hk a ha u hu t ht
        exact ⟨Ne.symm this.1, Ne.symm this.2⟩
      · rw [set_ne W p ha, set_ne W p hb]; exact h.keys a b hab

theorem writeAll_ids : ∀ (bs rows : List Balance), ids (writeAll rows bs) = ids rows := by
  intro bs
  induction bs with
  | nil => intro rows; rfl
  | cons b bs ih =>
    intro rows
    rw [writeAll_cons, ih]
    simp only [ids, List.map_map]
    apply List.map_congr_left
    intro x _
    simp only [Function.comp]
    split <;> rfl

theorem writeAll_find : ∀ {bs rows : List Balance} {i : String} {r : Balance}, rows.find? (fun x => x.id = i) = some r →
    ∃ r', (writeAll rows bs).find? (fun x => x.id = i) = some r' ∧ ((i ∉ ids bs → r' = r) ∧ (r' = r ∨ r.version < r'.version)) := by
  intro bs
  induction bs with
  | nil => intro rows i r h; exact ⟨r, h, fun _ => rfl, .inl rfl⟩
  | cons b bs ih =>
    intro rows i r h
    rw [writeAll_cons]
    have hmid : (rows.map fun r => if r.id = b.id then r.writeBack b else r).find? (fun x => x.id = i)
        = some (if r.id = b.id then r.writeBack b else r) := by
      rw [List.find?_map]
      have : ((fun x : Balance => decide (x.id = i)) ∘ fun r => if r.id = b.id then r.writeBack b else r)
          = fun x : Balance => decide (x.id = i) := by
        funext x
        simp only [Function.comp]
        split <;> rfl
      rw [this, h]; rfl
    obtain ⟨r', h1, h2, h3⟩ := ih hmid
    refine ⟨r', h1, ?_, ?_⟩
    · intro hi
      simp only [ids, List.map_cons, List.mem_cons, not_or] at hi
      rw [h2 hi.2, if_neg]
      rw [(find_mem h).2]; exact hi.1
    · by_cases hc : r.id = b.id
      · rw [if_pos hc] at h3
        have hv : (r.writeBack b).version = r.version + 1 := rfl
        rcases h3 with rfl | h3
        · right; rw [hv]; omega
        · right; rw [hv] at h3; omega
      · rw [if_neg hc] at h3; exact h3

theorem match_find {db : DB} (hn : (ids db.balances).Nodup) {b : Balance} :
    Match db b ↔ ∃ r, db.find b.id = some r ∧ r.version = b.version := by
  constructor
  · rintro ⟨r, hr, h1, h2⟩
    exact ⟨r, by rw [← h1]; exact find_of_mem hn hr, h2⟩
  · rintro ⟨r, hr, h2⟩
    exact ⟨r, (find_mem hr).1, (find_mem hr).2, h2⟩

theorem current_of_past {db : DB} (hn : (ids db.balances).Nodup) {b : Balance} (hp : Past db b) (hm : Match db b) :
    Current db b := by
  obtain ⟨r, hr, h1, h2, h3⟩ := hp
  obtain ⟨r', hr', hv⟩ := (match_find hn).1 hm
  rw [hr] at hr'; cases hr'
  exact ⟨r, hr, h2 hv.symm, h3⟩

theorem createBalance_evolve {db db' : DB} {i ind cur : String} (h : db.createBalance i ind cur = .ok db') :
    Evolve db db' ∧ ∀ b, Match db b → Match db' b := by
  obtain ⟨_, _, rfl⟩ := createBalance_ok h
  constructor
  · intro j r hr
    refine ⟨r, ?_, .inl rfl⟩
    unfold DB.find at hr ⊢
    simp only [List.find?_append, hr, Option.some_or]
  · rintro b ⟨r, hr, h1, h2⟩
    exact ⟨r, List.mem_append_left _ hr, h1, h2⟩

theorem load_past {cfg : Cfg} {db : DB} {i : String} {b : Balance} (hq : QueuedNonneg db) (h : db.load cfg i = .ok b) :
    Past db b ∧ b.id = i := by
  obtain ⟨r, _, hf, hid, rfl⟩ := load_ok h
  refine ⟨⟨r, by simpa [hid] using hf, Nat.le_refl _, fun _ => rfl, ?_⟩, hid⟩
  have := queuedDebit_nonneg hq i
  cases cfg.queuedChecks <;> simp <;> omega

/-- The state a commit leads to is the state of the sequential operation. -/
theorem commit_atomic {ob : Txn → Option String} {W : World} (h : WInv ob W) {k : Nat} {j : Job} {w : Work} {o : List String}
    (hp : W.phase k = .ready j w o) :
    step {} W.db j.op = ({ balances := writeAll W.db.balances w.balances, txns := W.db.txns ++ w.rows }, .posted w.rows) := by
  have hk := h.worker k
  rw [hp] at hk
  obtain ⟨⟨hres, seen, got, hg, hpast, hc⟩, hnd, hmatch, hins, _⟩ := hk
  refine job_atomic h.inv.nodup hres hg ?_ hc hnd hins
  intro b hb
  have hkeys := compute_keys hg hc
  have : key b ∈ w.balances.map key := by rw [hkeys]; exact List.mem_map.2 ⟨b, hb, rfl⟩
  obtain ⟨c, hcm, hck⟩ := List.mem_map.1 this
  simp only [key, Prod.mk.injEq] at hck
  obtain ⟨r, hr, h1, h2⟩ := hmatch c hcm
  exact current_of_past h.inv.nodup (hpast b hb) ⟨r, hr, h1.trans hck.1, h2.trans hck.2⟩

theorem step_create {db db' : DB} {i ind cur : String} (h : db.createBalance i ind cur = .ok db') :
    step {} db (.create i ind cur) = (db', .posted []) := by simp only [step, h]

theorem step_store {db db' : DB} {t : Txn} (h : db.insertTxn t = .ok db') :
    step {} db (.store t) = (db', .posted [t]) := by simp only [step, h]

theorem cstep_inv {cfg : Cfg} {ob : Txn → Option String} {W W' : World} (h : WInv ob W) (hs : CStep cfg ob W W') :
    WInv ob W' := by
  cases hs with
  | create id ind cur hc =>
    have hst := step_create hc
    obtain ⟨he, hm⟩ := createBalance_evolve hc
    refine ⟨createBalance_inv h.inv hc, ?_, .snoc h.serial hst, h.outbox, ?_, h.locks, h.keys⟩
    · obtain ⟨_, _, rfl⟩ := createBalance_ok hc; exact h.queued
    · intro k
      refine (h.worker k).mono he (fun b _ hb => hm b hb) ?_
      intro t _ ht
      obtain ⟨_, _, rfl⟩ := createBalance_ok hc; exact ht
  | store t hq hfree hi =>
    have hst := step_store hi
    have hi1 := step_inv (cfg := {}) h.inv (.store t)
    have hi2 := step_queuedNonneg (cfg := {}) h.queued (op := .store t) hq
    rw [hst] at hi1 hi2
    obtain ⟨_, _, rfl⟩ := insertTxn_ok hi
    refine ⟨hi1, hi2, .snoc h.serial hst, h.outbox, ?_, h.locks, h.keys⟩
    intro k
    refine PhaseInv.mono (db := W.db) (db' := { W.db with txns := W.db.txns ++ [t] })
      (fun i r hr => ⟨r, hr, .inl rfl⟩) (fun b _ hb => hb) ?_ (h.worker k)
    intro u hu ⟨g1, g2⟩
    obtain ⟨n1, n2⟩ := hfree k u hu
    simp only [DB.hasTxnId, DB.hasRef, List.any_append, Bool.or_eq_false_iff] at g1 g2 ⊢
    exact ⟨⟨g1, by simp [Ne.symm n1]⟩, ⟨g2, by simp [Ne.symm n2]⟩⟩
  | start k j hidle hres href =>
    exact h.set k ⟨hres, by simp [ids], by simp⟩ (by simp [Phase.locked]) (by simp [Phase.pending])
  | read k hp hl =>
    rename_i j seen i todo got b
    have hk := h.worker k
    rw [hp] at hk
    obtain ⟨h1, h2, h3⟩ := hk
    obtain ⟨p1, p2⟩ := load_past h.queued hl
    refine h.set k ⟨h1, ?_, ?_⟩ (by simp [Phase.locked]) (by simp [Phase.pending])
    · rw [← h2]; simp [ids, p2]
    · intro c hc
      rcases List.mem_append.1 hc with hc | hc
      · exact h3 c hc
      · simp at hc; subst hc; exact p1
  | compute k hp hc =>
    rename_i j seen got w
    have hk := h.worker k
    rw [hp] at hk
    obtain ⟨h1, h2, h3⟩ := hk
    exact h.set k ⟨⟨h1, seen, got, by simpa using h2, h3, hc⟩, rfl, by simp [ids], by simp⟩ (by simp [Phase.locked])
      (by simp [Phase.pending])
  | write k hp hlock hown hrow =>
    rename_i j w done todo b
    have hk := h.worker k
    rw [hp] at hk
    obtain ⟨h1, h2, h3, h4⟩ := hk
    refine h.set k ⟨h1, by rw [h2]; simp, ?_, ?_⟩ ?_ (by simp [Phase.pending])
    · simp only [ids, List.map_append, List.map_cons, List.map_nil]
      rw [List.nodup_append]
      refine ⟨h3, by simp, ?_⟩
      intro x hx y hy
      simp at hy
      subst hy
      rintro rfl
      exact hown hx
    · intro c hc
      rcases List.mem_append.1 hc with hc | hc
      · exact h4 c hc
      · simp at hc; subst hc
        rw [List.any_eq_true] at hrow
        obtain ⟨r, hr, hrr⟩ := hrow
        simp at hrr
        exact ⟨r, hr, hrr⟩
    · intro k' hk' i hi
      simp only [Phase.locked, List.map_append, List.map_cons, List.map_nil, List.mem_append, List.mem_singleton] at hi
      rcases hi with hi | rfl
      · have := h.locks k k' (Ne.symm hk')
        rw [hp] at this
        exact this i hi
      · exact hlock k' hk'
  | written k hp =>
    rename_i j w done
    have hk := h.worker k
    rw [hp] at hk
    obtain ⟨h1, h2, h3, h4⟩ := hk
    simp at h2
    refine h.set k ⟨h1, by rw [h2]; exact h3, by rw [h2]; exact h4, by simp, List.Pairwise.nil, by simp⟩ ?_ (by simp [Phase.pending])
    intro k' hk' i hi
    have := h.locks k k' (Ne.symm hk')
    rw [hp] at this
    exact this i (by simpa [Phase.locked, h2] using hi)
  | insert k hp hfree hown hid href =>
    rename_i j w done todo t
    have hk := h.worker k
    rw [hp] at hk
    obtain ⟨h1, h2, h3, h4, h5⟩ := hk
    refine h.set k ⟨h1, h2, h3, by rw [h4]; simp, ?_, ?_⟩ ?_ ?_
    · rw [List.pairwise_append]
      refine ⟨h5.1, by simp, ?_⟩
      intro u hu v hv
      simp at hv; subst hv
      exact hown u hu
    · intro u hu
      rcases List.mem_append.1 hu with hu | hu
      · exact h5.2 u hu
      · simp at hu; subst hu; exact ⟨hid, href⟩
    · intro k' hk' i hi
      have := h.locks k k' (Ne.symm hk')
      rw [hp] at this
      exact this i hi
    · intro k' hk' u hu v hv
      simp only [Phase.pending, List.mem_append, List.mem_singleton] at hu
      rcases hu with hu | rfl
      · have := h.keys k k' (Ne.symm hk')
        rw [hp] at this
        exact this u hu v hv
      · exact hfree k' hk' v hv
  | outbox k hp =>
    rename_i j w done
    have hk := h.worker k
    rw [hp] at hk
    obtain ⟨h1, h2, h3, h4, h5⟩ := hk
    simp at h4
    refine h.set k ⟨h1, h2, h3, by rw [h4]; exact h5, by rw [h4]⟩ ?_ ?_
    · intro k' hk' i hi
      have := h.locks k k' (Ne.symm hk')
      rw [hp] at this
      exact this i hi
    · intro k' hk' u hu v hv
      have := h.keys k k' (Ne.symm hk')
      rw [hp] at this
      exact this u (by simpa [Phase.pending, h4] using hu) v hv
  | commit k hp =>
    rename_i j w o
    have hat := commit_atomic h hp
    have hk := h.worker k
    rw [hp] at hk
    obtain ⟨hjob, hnd, hmatch, hins, ho⟩ := hk
    have hi1 := step_inv (cfg := {}) h.inv j.op
    have hi2 := step_queuedNonneg (cfg := {}) h.queued (op := j.op) (by cases j <;> trivial)
    rw [hat] at hi1 hi2
    have hoff : WInv ob (W.set k .idle) := h.set k trivial (by simp [Phase.locked]) (by simp [Phase.pending])
    refine ⟨hi1, hi2, .snoc h.serial hat, ?_, ?_, hoff.locks, hoff.keys⟩
    · simp only [List.filterMap_append, h.outbox, ho]
    · intro k'
      by_cases hkk : k' = k
      · subst hkk
        simp only [World.set, if_true]
        trivial
      · simp only [World.set, if_neg hkk]
        refine (h.worker k').mono ?_ ?_ ?_
        · intro i r hr
          obtain ⟨r', h1, _, h3⟩ := writeAll_find (bs := w.balances) hr
          exact ⟨r', h1, h3⟩
        · intro b hb hm
          obtain ⟨r, hr, hv⟩ := (match_find h.inv.nodup).1 hm
          have hl := h.locks k' k hkk b.id hb
          rw [hp] at hl
          obtain ⟨r', h1, h2, _⟩ := writeAll_find (bs := w.balances) hr
          rw [h2 hl] at h1
          exact (match_find hi1.nodup).2 ⟨r, h1, hv⟩
        · intro u hu ⟨g1, g2⟩
          have hkeys := h.keys k' k hkk u hu
          rw [hp] at hkeys
          simp only [DB.hasTxnId, DB.hasRef, List.any_append, Bool.or_eq_false_iff] at g1 g2 ⊢
          refine ⟨⟨g1, ?_⟩, ⟨g2, ?_⟩⟩
          · rw [List.any_eq_false]; intro t ht; simpa using (hkeys t ht).1
          · rw [List.any_eq_false]; intro t ht; simpa using (hkeys t ht).2
  | abort k =>
    exact h.set k trivial (by simp [Phase.locked]) (by simp [Phase.pending])

theorem creach_inv {cfg : Cfg} {ob : Txn → Option String} {W : World} (h : CReach cfg ob W) : WInv ob W := by
  induction h with
  | init =>
    exact ⟨init_inv, (by intro t ht; cases ht), .nil, rfl, fun _ => trivial, by simp [Phase.locked], by simp [Phase.pending]⟩
  | step _ hs ih => exact cstep_inv ih hs

end Blnk
