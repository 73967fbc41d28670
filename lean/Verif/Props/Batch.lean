import Verif.Lemmas.BatchSeq
import Verif.Props.References
/-
C14: a coalesced batch against one-by-one processing.
-/
namespace Blnk

/-- Specification: the transactions are posted one after the other, each of them
successfully, leading from `db` to `db'`. -/
inductive OneByOne (cfg : Cfg) : DB → List Txn → DB → Prop
  | nil (db : DB) : OneByOne cfg db [] db
  | cons {db db1 db' : DB} {t : Txn} {ts rows : List Txn} (h : step cfg db (.post t "" "") = (db1, .posted rows))
      (hs : OneByOne cfg db1 ts db') : OneByOne cfg db (t :: ts) db'

/-- Specification: both databases hold the same transactions and, account by
account, the same money columns. Row versions are not compared: a batch writes
each row once. -/
structure SameBooks (a b : DB) : Prop where
  txns : a.txns = b.txns
  accounts : ∀ i, (a.find i).map Balance.cols = (b.find i).map Balance.cols

/-- A queued transaction the service may coalesce: it names two different
accounts by id. -/
structure Coalescible (t : Txn) : Prop where
  queued : t.status = .queued
  distinct : t.source ≠ t.destination
  source : t.source ≠ "" ∧ isIndicator t.source = false
  destination : t.destination ≠ "" ∧ isIndicator t.destination = false

theorem step_post_resolved {cfg : Cfg} {db : DB} {t : Txn} (h1 : isIndicator t.source = false)
    (h2 : isIndicator t.destination = false) (n1 n2 : String) :
    step cfg db (.post t n1 n2) = postResolved cfg db t := by
  simp [step, recordSingle, DB.resolve, h1, h2]

theorem oneByOne_iff {cfg : Cfg} : ∀ {ts : List Txn} {db db' : DB}, (∀ t ∈ ts, Coalescible t) →
    (OneByOne cfg db ts db' ↔ postAll cfg db ts = some db') := by
  intro ts
  induction ts with
  | nil =>
    intro db db' _
    constructor
    · intro h; cases h; rfl
    · intro h; simp [postAll] at h; subst h; exact .nil _
  | cons t ts ih =>
    intro db db' hts
    have ht := hts t (by simp)
    have hst := step_post_resolved (cfg := cfg) (db := db) ht.source.2 ht.destination.2 "" ""
    have hrest := fun u hu => hts u (List.mem_cons_of_mem t hu)
    constructor
    · intro h
      cases h with
      | cons h hs =>
        rw [hst] at h
        simp only [postAll, h]
        exact (ih hrest).1 hs
    · intro h
      simp only [postAll] at h
      split at h
      · rename_i db1 rows hp
        exact .cons (by rw [hst]; exact hp) ((ih hrest).2 h)
      · cases h

theorem mem_batchIds_of {ts : List Txn} {t : Txn} (ht : t ∈ ts) :
    (t.source ≠ "" → t.source ∈ batchIds ts) ∧ (t.destination ≠ "" → t.destination ∈ batchIds ts) := by
  have add : ∀ (x : String) (l : List String), x ≠ "" → x ∈ addId x l := by
    intro x l hx
    unfold addId
    split
    · rename_i h; simpa [hx] using h
    · simp
  have keep : ∀ (x y : String) (l : List String), y ∈ l → y ∈ addId x l := by
    intro x y l hy
    unfold addId
    split
    · exact hy
    · exact List.mem_cons_of_mem _ hy
  induction ts with
  | nil => cases ht
  | cons u ts ih =>
    rcases List.mem_cons.1 ht with rfl | h
    · exact ⟨add _ _, fun hd => keep _ _ _ (add _ _ hd)⟩
    · exact ⟨fun hs => keep _ _ _ (keep _ _ _ ((ih h).1 hs)), fun hd => keep _ _ _ (keep _ _ _ ((ih h).2 hd))⟩

theorem mem_batchIds {ts : List Txn} {i : String} (h : i ∈ batchIds ts) : ∃ t ∈ ts, i = t.source ∨ i = t.destination := by
  induction ts with
  | nil => cases h
  | cons u ts ih =>
    rcases mem_addId h with h | h
    · exact ⟨u, by simp, .inl h⟩
    · rcases mem_addId h with h | h
      · exact ⟨u, by simp, .inr h⟩
      · obtain ⟨t, ht, hh⟩ := ih h
        exact ⟨t, List.mem_cons_of_mem _ ht, hh⟩

theorem loadAll_of {cfg : Cfg} {db : DB} : ∀ {is : List String}, (∀ i ∈ is, ∃ r, db.find i = some r) →
    ∃ bs, loadAll cfg db is = .ok bs := by
  intro is
  induction is with
  | nil => intro _; exact ⟨[], rfl⟩
  | cons i is ih =>
    intro h
    obtain ⟨r, hr⟩ := h i (by simp)
    obtain ⟨bs, hb⟩ := ih (fun j hj => h j (List.mem_cons_of_mem _ hj))
    exact ⟨db.view cfg r :: bs, by simp only [loadAll, load_view hr, hb]⟩

theorem find_of_mem_map_ids {bs : List Balance} {i : String} (h : i ∈ ids bs) : ∃ b, bs.find? (fun x => x.id = i) = some b := by
  obtain ⟨b, hb, he⟩ := List.mem_map.1 h
  rw [← Option.isSome_iff_exists, List.find?_isSome]
  exact ⟨b, hb, by simp [he]⟩

/-- The balances read for a batch simulate the database they were read from. -/
theorem sim_init {cfg : Cfg} {db : DB} {is : List String} {bs : List Balance} (hi : Inv db) (hq : QueuedNonneg db)
    (h : loadAll cfg db is = .ok bs) : Sim cfg db bs := by
  refine ⟨hi, hq, ?_⟩
  intro i b hb
  obtain ⟨hm, hid⟩ := find_mem hb
  have hl := (loadAll_ok h).2 b hm
  rw [hid] at hl
  obtain ⟨r, _, hf, _, he⟩ := load_ok hl
  rw [load_view hf] at hl
  simp only [Except.ok.injEq] at hl
  have hrid := (find_mem hf).2
  refine ⟨r, hf, ?_, ?_, ?_⟩
  · unfold EqV; rw [← hl]; rfl
  · intro hc; rw [← hl]; simp [DB.view, hc]
  · intro hc; rw [← hl]; simp [DB.view, hc, hrid]

/-- In-memory application keeps ids and versions among those of `rows`. -/
theorem prepareMembers_versions {db : DB} {rows0 : List Balance} : ∀ {ts : List Txn} {refs : List String}
    {bs : List Balance} {rows : List Txn} {bs' : List Balance}, (∀ t ∈ ts, t.source ≠ t.destination) →
    (∀ b ∈ bs, ∃ r ∈ rows0, r.id = b.id ∧ r.version = b.version ∧ r.indicator = b.indicator) →
    prepareMembers db ts refs bs = .ok (rows, bs') → ∀ b ∈ bs', ∃ r ∈ rows0, r.id = b.id ∧ r.version = b.version ∧ r.indicator = b.indicator := by
  intro ts
  induction ts with
  | nil => intro refs bs rows bs' _ hb h; simp [prepareMembers] at h; rw [← h.2]; exact hb
  | cons t ts ih =>
    intro refs bs rows bs' hne hb h
    obtain ⟨_, _, _, _, mid, rest, hm, hp, _⟩ := prepareMembers_cons h
    refine ih (fun u hu => hne u (List.mem_cons_of_mem _ hu)) ?_ hp
    unfold applyInMemory at hm
    split at hm
    · rename_i s d hs hd
      rw [if_neg (by exact hne t (by simp))] at hm
      split at hm
      · cases hm
      · rename_i s' d' hab
        cases hm
        obtain ⟨a1, a2⟩ := applyToBalances_inv hab
        have e1 := applySource_effect a1
        have e2 := applyDestination_effect a2
        intro b hbm
        have key : b = d' ∨ b = s' ∨ b ∈ bs := by
          rcases putBalance_mem hbm with h1 | h1
          · rcases putBalance_mem h1.1 with h2 | h2
            · exact .inr (.inr h2.1)
            · exact .inr (.inl h2)
          · exact .inl h1
        rcases key with rfl | rfl | hbm
        · rw [e2.id, e2.version, e2.indicator]; exact hb d (find_mem hd).1
        · rw [e1.id, e1.version, e1.indicator]; exact hb s (find_mem hs).1
        · exact hb b hbm
    · cases hm

theorem postAll_rows_exist {cfg : Cfg} : ∀ {ts : List Txn} {db db' : DB}, Inv db → postAll cfg db ts = some db' →
    ∀ t ∈ ts, (∃ r, db.find t.source = some r) ∧ ∃ r, db.find t.destination = some r := by
  intro ts
  induction ts with
  | nil => intro db db' _ _ t ht; cases ht
  | cons u ts ih =>
    intro db db' hi h t ht
    simp only [postAll] at h
    split at h
    · rename_i db1 rows hp
      have hp2 : (postResolved cfg db u).2 = .posted rows := by rw [hp]
      have hp1 : (postResolved cfg db u).1 = db1 := by rw [hp]
      obtain ⟨_, hps⟩ := postResolved_posted hi hp2
      obtain ⟨rs, rd, _, _, s', d', f1, f2, _, _, _, _, _, _, f3, f4⟩ := hps.exact
      rcases List.mem_cons.1 ht with rfl | ht
      · exact ⟨⟨rs, f1⟩, ⟨rd, f2⟩⟩
      · have back : ∀ i, (∃ r, db1.find i = some r) → ∃ r, db.find i = some r := by
          intro i hr
          by_cases h1 : i = u.source
          · exact ⟨rs, by rw [h1]; exact f1⟩
          by_cases h2 : i = u.destination
          · exact ⟨rd, by rw [h2]; exact f2⟩
          · rw [← hp1, hps.others i h1 h2] at hr; exact hr
        obtain ⟨k1, k2⟩ := ih (by rw [← hp1]; exact postResolved_inv hi) h t ht
        exact ⟨back _ k1, back _ k2⟩
    · cases h

/-- **C14.** If a coalesced batch is stored, posting its members one after the
other from the same state succeeds too and leaves exactly the same transactions
and the same balances. Holds with and without queued-balance checks. -/
theorem c14_batch_equals_one_by_one (cfg : Cfg) (db : DB) (hr : Reachable cfg db) (hq : QueuedNonneg db) (ts : List Txn)
    (hts : ∀ t ∈ ts, Coalescible t) (rows : List Txn) (h : (step cfg db (.batch ts)).2 = .posted rows) :
    ∃ db', OneByOne cfg db ts db' ∧ SameBooks (step cfg db (.batch ts)).1 db' := by
  have hi := hr.inv
  simp only [step, recordBatch] at h ⊢
  split at h
  · cases h
  · rename_i w hw
    split at h
    · rename_i db2 hp
      obtain ⟨bs, hl, hm⟩ := prepareBatch_ok hw
      obtain ⟨urows, hu, hins, htx⟩ := persist_ok hp
      have hn : (ids bs).Nodup := by rw [(loadAll_ok hl).1]; exact batchIds_nodup ts
      have hstep := prepareMembers_step hn hm
      have hnw : (ids w.balances).Nodup := by rw [hstep.ids]; exact hn
      obtain ⟨sd, hpa, hsim, htxs, hoth⟩ := postAll_of_prepareMembers (rs := urows) (sim_init hi hq hl)
        (fun t ht => ⟨(hts t ht).queued, (hts t ht).distinct⟩) hm hins
      refine ⟨sd, (oneByOne_iff hts).2 hpa, ?_, ?_⟩
      · rw [htxs, htx]
      · intro i
        by_cases hmem : i ∈ ids w.balances
        · obtain ⟨b, hb⟩ := find_of_mem_map_ids hmem
          obtain ⟨r1, f1, v1, _, _⟩ := hsim.rows i b hb
          obtain ⟨hbm, hbid⟩ := find_mem hb
          have hbs : i ∈ ids bs := by rw [← hstep.ids]; exact hmem
          obtain ⟨b0, hb0⟩ := find_of_mem_map_ids hbs
          obtain ⟨r0, f0, v0, _, _⟩ := (sim_init hi hq hl).rows i b0 hb0
          obtain ⟨_, hf⟩ := find_updateRows hi.nodup hnw hu b hbm r0 (by rw [hbid]; exact f0)
          rw [hbid] at hf
          have hf' : db2.find i = some (r0.writeBack b) := by rw [htx]; exact hf
          rw [hf', f1]
          have hv := prepareMembers_versions (rows0 := db.balances) (fun t ht => (hts t ht).distinct) (by
            intro x hx
            obtain ⟨y, hy, _, hyi, hye⟩ := load_ok ((loadAll_ok hl).2 x hx)
            exact ⟨y, hy, hyi, by rw [hye], by rw [hye]⟩) hm b hbm
          obtain ⟨y, hy, y1, _, y3⟩ := hv
          have hy0 : y = r0 := by
            obtain ⟨m0, i0⟩ := find_mem f0
            exact eq_of_mem_ids hi.nodup hy m0 (by rw [y1, hbid, i0])
          rw [hy0] at y1 y3
          simp only [Option.map_some, Option.some.injEq]
          rw [← v1.cols]
          simp [Balance.cols, Balance.writeBack, y1, y3]
        · have h1 : db2.find i = db.find i := by rw [htx]; exact find_updateRows_other hu hmem
          rw [h1, hoth i ?_]
          intro t ht
          rw [hstep.ids, (loadAll_ok hl).1] at hmem
          have k := mem_batchIds_of ht
          exact ⟨fun he => hmem (he ▸ k.1 (hts t ht).source.1), fun he => hmem (he ▸ k.2 (hts t ht).destination.1)⟩
    · cases h

/-- **C14, all or nothing.** If some member cannot be posted in its turn, the batch
has no effect at all. -/
theorem c14_batch_all_or_nothing (cfg : Cfg) (db : DB) (hr : Reachable cfg db) (hq : QueuedNonneg db) (ts : List Txn)
    (hts : ∀ t ∈ ts, Coalescible t) (h : ¬ ∃ db', OneByOne cfg db ts db') : (step cfg db (.batch ts)).1 = db := by
  apply c05_refused_batch_is_identity
  intro rows hp
  obtain ⟨db', h1, _⟩ := c14_batch_equals_one_by_one cfg db hr hq ts hts rows hp
  exact h ⟨db', h1⟩

/-- **C14, converse.** Without queued-balance checks a batch of same-currency members
with references is refused only when one-by-one posting would refuse a member. -/
theorem c14_batch_accepted_iff (cfg : Cfg) (hc : cfg.queuedChecks = false) (db : DB) (hr : Reachable cfg db)
    (hq : QueuedNonneg db) (ts : List Txn) (cur : String)
    (hts : ∀ t ∈ ts, Coalescible t ∧ t.reference ≠ "" ∧ t.currency = cur) :
    (∃ rows, (step cfg db (.batch ts)).2 = .posted rows) ↔ ∃ db', OneByOne cfg db ts db' := by
  have hco := fun t ht => (hts t ht).1
  constructor
  · rintro ⟨rows, h⟩
    obtain ⟨db', h1, _⟩ := c14_batch_equals_one_by_one cfg db hr hq ts hco rows h
    exact ⟨db', h1⟩
  · rintro ⟨db', h⟩
    have hpa := (oneByOne_iff hco).1 h
    have hi := hr.inv
    have hex := postAll_rows_exist hi hpa
    obtain ⟨bs, hl⟩ := loadAll_of (cfg := cfg) (db := db) (is := batchIds ts) (by
      intro i hi'
      obtain ⟨t, ht, he⟩ := mem_batchIds hi'
      rcases he with he | he
      · rw [he]; exact (hex t ht).1
      · rw [he]; exact (hex t ht).2)
    have hids := (loadAll_ok hl).1
    have hn : (ids bs).Nodup := by rw [hids]; exact batchIds_nodup ts
    obtain ⟨bs', hm, hins⟩ := prepareMembers_of_postAll (db := db) hc (refs := []) (sim_init hi hq hl) (by
      intro t ht
      have k := mem_batchIds_of ht
      refine ⟨(hco t ht).queued, (hco t ht).distinct, (hts t ht).2.1, ?_, ?_⟩
      · exact find_of_mem_map_ids (by rw [hids]; exact k.1 (hco t ht).source.1)
      · exact find_of_mem_map_ids (by rw [hids]; exact k.2 (hco t ht).destination.1)) (by
      intro r h'
      rcases h' with h' | h'
      · simp at h'
      · exact h') hpa
    have hv := prepareMembers_versions (rows0 := db.balances) (fun t ht => (hco t ht).distinct) (by
      intro x hx
      obtain ⟨y, hy, _, hyi, hye⟩ := load_ok ((loadAll_ok hl).2 x hx)
      exact ⟨y, hy, hyi, by rw [hye], by rw [hye]⟩) hm
    obtain ⟨rows', hu⟩ := updateRows_of_mem (rows := db.balances) (bs := bs')
      (by rw [(prepareMembers_step hn hm).ids]; exact hn)
      (fun b hb => by obtain ⟨r, h1, h2, h3, _⟩ := hv b hb; exact ⟨r, h1, h2, h3⟩)
    have hcur : ¬ (ts.any (fun t => t.currency ≠ (ts.head?.map (·.currency)).getD "")) = true := by
      cases ts with
      | nil => simp
      | cons u us =>
        simp only [List.any_eq_true, not_exists, not_and, List.head?_cons, Option.map_some, Option.getD_some]
        intro t ht
        simp [(hts t ht).2.2, (hts u (by simp)).2.2]
    refine ⟨ts.map finalRow, ?_⟩
    simp only [step, recordBatch, prepareBatch]
    rw [if_neg hcur, hl]
    simp only [hm, DB.persist, hu, hins rows']

/-- The full converse, for any configuration. -/
def C14_converse : Prop := ∀ (cfg : Cfg) (db : DB) (ts : List Txn) (cur : String), Reachable cfg db →
  QueuedNonneg db → (∀ t ∈ ts, Coalescible t ∧ t.reference ≠ "" ∧ t.currency = cur) →
  (∃ db', OneByOne cfg db ts db') → ∃ rows, (step cfg db (.batch ts)).2 = .posted rows

/-- A queued payment of 3.00 from `a` to `b`. -/
def demoQ (id ref parent : String) : Txn :=
  { id := id, source := "a", destination := "b", reference := ref, amount := 3, precision := 100,
    preciseAmount := some 300, currency := "USD", status := .queued, parent := parent }

/-- `a` holds 10.00 and two payments of 3.00 are queued. -/
def demoQueuedOps : List Op :=
  [ .create "a" "" "USD", .create "b" "" "USD",
    .post { id := "t1", source := "@World", destination := "a", reference := "r1", amount := 10, currency := "USD",
            precision := 100, allowOverdraft := true, status := .queued } "w" "x",
    .store (demoQ "p1" "p1" ""), .store (demoQ "p2" "p2" "") ]

def demoQueued (c : Cfg) : DB := run c {} demoQueuedOps

def demoQueuedBatch : List Txn := [demoQ "q1" "p1_q" "p1", demoQ "q2" "p2_q" "p2"]

theorem demoQueuedBatch_ok : ∀ t ∈ demoQueuedBatch, Coalescible t ∧ t.reference ≠ "" ∧ t.currency = "USD" := by
  intro t ht
  have : t = demoQ "q1" "p1_q" "p1" ∨ t = demoQ "q2" "p2_q" "p2" := by simpa [demoQueuedBatch] using ht
  rcases this with rfl | rfl <;>
    exact ⟨⟨rfl, by decide +kernel, by decide +kernel, by decide +kernel⟩, by decide +kernel, rfl⟩

theorem demoQueued_nonneg (c : Cfg) (hc : c = {} ∨ c = { queuedChecks := true }) : QueuedNonneg (demoQueued c) := by
  rcases hc with rfl | rfl <;> unfold QueuedNonneg <;> decide +kernel

/-- The hypotheses of `c14_batch_equals_one_by_one` and its converse are met: the
batch of both payments is stored. -/
example : Reachable {} (demoQueued {}) ∧ QueuedNonneg (demoQueued {}) ∧
    (step {} (demoQueued {}) (.batch demoQueuedBatch)).2 = .posted (demoQueuedBatch.map finalRow) :=
  ⟨⟨_, rfl⟩, demoQueued_nonneg _ (.inl rfl), by decide +kernel⟩

/-- With queued-balance checks the converse is false: the batch keeps subtracting
the queued total it read at the start, one-by-one posting sees it shrink. -/
theorem c14_converse_fails : ¬ C14_converse := by
  intro h
  obtain ⟨rows, hr⟩ := h { queuedChecks := true } (demoQueued { queuedChecks := true }) demoQueuedBatch "USD" ⟨_, rfl⟩
    (demoQueued_nonneg _ (.inr rfl)) demoQueuedBatch_ok (by
      have hs : (postAll { queuedChecks := true } (demoQueued { queuedChecks := true }) demoQueuedBatch).isSome = true := by
        decide +kernel
      obtain ⟨d, hd⟩ := Option.isSome_iff_exists.1 hs
      exact ⟨d, (oneByOne_iff (fun t ht => (demoQueuedBatch_ok t ht).1)).2 hd⟩)
  have : (step { queuedChecks := true } (demoQueued { queuedChecks := true }) (.batch demoQueuedBatch)).2
      = .refused (.bal .insufficientFunds) := by decide +kernel
  rw [this] at hr; cases hr

end Blnk
