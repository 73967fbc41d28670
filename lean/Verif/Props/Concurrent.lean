import Verif.Lemmas.Concurrent
import Verif.Lemmas.ConcurrentExec
import Verif.Props.References
import Verif.Props.Batch
/-
C09, C10 and C11: crashes and races while posting, with any number of workers and
no mutual exclusion.
-/
namespace Blnk

theorem run_append (cfg : Cfg) : ∀ (a b : List Op) (db : DB), run cfg db (a ++ b) = run cfg (run cfg db a) b := by
  intro a
  induction a with
  | nil => intro b db; rfl
  | cons x a ih => intro b db; exact ih b _

theorem serial_run {ops : List Op} {db : DB} (h : Serial ops db) : db = run {} {} ops := by
  induction h with
  | nil => rfl
  | snoc _ hs ih => rw [run_append, ← ih]; simp [run, hs]

/-! ### C10 -/

/-- Specification: the committed operations, replayed one at a time in commit order
with nothing else running, are all accepted and lead to exactly this database. -/
def ReplaysTo (ops : List Op) (db : DB) : Prop :=
  db = run {} {} ops ∧ ∀ a op b, ops = a ++ op :: b → ∃ rows, (step {} (run {} {} a) op).2 = .posted rows

theorem serial_replays {ops : List Op} {db : DB} (h : Serial ops db) : ReplaysTo ops db := by
  refine ⟨serial_run h, ?_⟩
  induction h with
  | nil => intro a op b h; simp at h
  | snoc h hs ih =>
    rename_i ops db db' op rows
    intro a op' b he
    rcases List.eq_nil_or_concat b with rfl | ⟨c, x, rfl⟩
    · have : ops = a ∧ op = op' := by
        have := List.append_inj' he rfl
        simpa using this
      obtain ⟨rfl, rfl⟩ := this
      rw [← serial_run h, hs]; exact ⟨rows, rfl⟩
    · have : ops = a ++ op' :: c := by
        have e : a ++ op' :: (c ++ [x]) = (a ++ op' :: c) ++ [x] := by simp
        rw [List.concat_eq_append, e] at he
        exact (List.append_inj' he rfl).1
      exact ih a op' c this

/-- **C10.** Under every interleaving of reads, statements, commits, crashes and retries
by any number of workers, the stored balances and transactions are exactly what the
committed operations produce when they run alone, one after the other, in commit order. -/
theorem c10_no_lost_updates (cfg : Cfg) (ob : Txn → Option String) (W : World) (h : CReach cfg ob W) :
    ReplaysTo W.log W.db := serial_replays (creach_inv h).serial

/-- Whether a committed operation moved money on account `i`. -/
def Op.touches (i : String) : Op → Bool
  | .post t _ _ => i = t.source || i = t.destination
  | .batch ts => i ≠ "" && ts.any (fun t => i = t.source || i = t.destination)
  | _ => false

theorem mem_batchIds_iff {ts : List Txn} {i : String} :
    i ∈ batchIds ts ↔ i ≠ "" ∧ ∃ t ∈ ts, i = t.source ∨ i = t.destination := by
  have add : ∀ (x : String) (l : List String), i ∈ addId x l ↔ (i = x ∧ i ≠ "") ∨ i ∈ l := by
    intro x l
    unfold addId
    split
    · rename_i h
      simp only [Bool.or_eq_true, decide_eq_true_eq, List.contains_iff_mem] at h
      constructor
      · exact .inr
      · rintro (⟨rfl, hne⟩ | hm)
        · exact h.resolve_left hne
        · exact hm
    · rename_i h
      simp only [Bool.or_eq_true, decide_eq_true_eq, not_or] at h
      constructor
      · intro hm
        rcases List.mem_cons.1 hm with rfl | hm
        · exact .inl ⟨rfl, h.1⟩
        · exact .inr hm
      · rintro (⟨rfl, _⟩ | hm)
        · simp
        · exact List.mem_cons_of_mem _ hm
  induction ts with
  | nil => simp [batchIds]
  | cons t ts ih =>
    simp only [batchIds, add, ih, List.mem_cons, exists_eq_or_imp]
    grind

theorem touches_job (j : Job) (i : String) : j.op.touches i = true ↔ i ∈ j.ids := by
  cases j with
  | single t => simp [Job.op, Op.touches, Job.ids]
  | batch ts =>
    simp only [Job.op, Op.touches, Job.ids, mem_batchIds_iff]
    simp

/-- Versions count committed updates. -/
structure VInv (W : World) : Prop where
  exist : ∀ op ∈ W.log, ∀ i, op.touches i = true → ∃ r, W.db.find i = some r
  version : ∀ i r, W.db.find i = some r → r.version = (W.log.filter (Op.touches i)).length

theorem writeAll_version : ∀ {bs rows : List Balance} {i : String} {r : Balance}, (ids bs).Nodup →
    rows.find? (fun x => x.id = i) = some r →
    ∃ r', (writeAll rows bs).find? (fun x => x.id = i) = some r' ∧ r'.version = r.version + (if i ∈ ids bs then 1 else 0) := by
  intro bs
  induction bs with
  | nil => intro rows i r _ h; exact ⟨r, h, by simp [ids]⟩
  | cons b bs ih =>
    intro rows i r hn h
    simp only [ids, List.map_cons, List.nodup_cons] at hn
    rw [writeAll_cons]
    have hmid : (rows.map fun r => if r.id = b.id then r.writeBack b else r).find? (fun x => x.id = i)
        = some (if r.id = b.id then r.writeBack b else r) := by
      rw [List.find?_map]
      have : ((fun x : Balance => decide (x.id = i)) ∘ fun r => if r.id = b.id then r.writeBack b else r)
          = fun x : Balance => decide (x.id = i) := by
        funext x
        simp only [Function.comp]
        split <;> rfl
      rw [this, h]; rfl
    obtain ⟨r', h1, h2⟩ := ih hn.2 hmid
    refine ⟨r', h1, ?_⟩
    rw [h2]
    have hid := (find_mem h).2
    by_cases hc : r.id = b.id
    · have hnot : ¬ i ∈ ids bs := by rw [← hid, hc]; exact hn.1
      have hin : i ∈ ids (b :: bs) := by rw [← hid, hc]; simp [ids]
      rw [if_pos hc, if_neg hnot, if_pos hin]
      rfl
    · have : (i ∈ ids (b :: bs)) ↔ i ∈ ids bs := by
        simp only [ids, List.map_cons, List.mem_cons]
        rw [← hid]
        simp [hc]
      rw [if_neg hc]
      by_cases hm : i ∈ ids bs
      · rw [if_pos hm, if_pos (this.2 hm)]
      · rw [if_neg hm, if_neg (fun hh => hm (this.1 hh))]

theorem find_isSome_ids {db : DB} {i : String} : (∃ r, db.find i = some r) ↔ i ∈ ids db.balances := by
  constructor
  · rintro ⟨r, hr⟩
    obtain ⟨h1, h2⟩ := find_mem hr
    exact List.mem_map.2 ⟨r, h1, h2⟩
  · intro h
    obtain ⟨b, hb, he⟩ := List.mem_map.1 h
    rw [← Option.isSome_iff_exists]
    unfold DB.find
    rw [List.find?_isSome]
    exact ⟨b, hb, by simp [he]⟩

theorem cstep_vinv {cfg : Cfg} {ob : Txn → Option String} {W W' : World} (hi : WInv ob W) (h : VInv W)
    (hs : CStep cfg ob W W') : VInv W' := by
  cases hs with
  | create id ind cur hc =>
    obtain ⟨hn, _, rfl⟩ := createBalance_ok hc
    refine ⟨?_, ?_⟩
    · intro op hop i ht
      rcases List.mem_append.1 hop with hop | hop
      · obtain ⟨r, hr⟩ := h.exist op hop i ht
        exact ⟨r, by unfold DB.find at hr ⊢; simp only [List.find?_append, hr, Option.some_or]⟩
      · simp at hop; subst hop; simp [Op.touches] at ht
    · intro i r hr
      have hlen : ((W.log ++ [Op.create id ind cur]).filter (Op.touches i)).length = (W.log.filter (Op.touches i)).length := by
        rw [List.filter_append]; simp [Op.touches]
      rw [hlen]
      unfold DB.find at hr
      simp only [List.find?_append] at hr
      cases hf : W.db.find i with
      | some r0 =>
        unfold DB.find at hf
        rw [hf] at hr
        simp at hr
        subst hr
        exact h.version i r0 hf
      | none =>
        have hf' := hf
        unfold DB.find at hf
        rw [hf] at hr
        simp only [Option.none_or] at hr
        have hr0 := find_mem hr
        simp at hr0
        obtain ⟨rfl, _⟩ := hr0
        have : W.log.filter (Op.touches i) = [] := by
          rw [List.filter_eq_nil_iff]
          intro op hop ht
          obtain ⟨r, hr⟩ := h.exist op hop i ht
          rw [hf'] at hr; cases hr
        rw [this]; rfl
  | store t hq hfree hi' =>
    obtain ⟨_, _, rfl⟩ := insertTxn_ok hi'
    refine ⟨?_, ?_⟩
    · intro op hop i ht
      rcases List.mem_append.1 hop with hop | hop
      · exact h.exist op hop i ht
      · simp at hop; subst hop; simp [Op.touches] at ht
    · intro i r hr
      have hlen : ((W.log ++ [Op.store t]).filter (Op.touches i)).length = (W.log.filter (Op.touches i)).length := by
        rw [List.filter_append]; simp [Op.touches]
      rw [hlen]; exact h.version i r hr
  | commit k hp =>
    rename_i j w o
    have hk := hi.worker k
    rw [hp] at hk
    obtain ⟨⟨_, seen, got, hg, _, hc⟩, hnd, hmatch, _, _⟩ := hk
    have hids : ids w.balances = j.ids := by rw [ids_of_keys (compute_keys hg hc), hg]
    refine ⟨?_, ?_⟩
    · intro op hop i ht
      have hin : i ∈ ids W.db.balances := by
        rcases List.mem_append.1 hop with hop | hop
        · exact find_isSome_ids.1 (h.exist op hop i ht)
        · simp at hop; subst hop
          rw [touches_job, ← hids] at ht
          obtain ⟨b, hb, he⟩ := List.mem_map.1 ht
          obtain ⟨r, hr, h1, _⟩ := hmatch b hb
          exact List.mem_map.2 ⟨r, hr, h1.trans he⟩
      exact find_isSome_ids.2 (by rw [writeAll_ids]; exact hin)
    · intro i r hr
      have hin := find_isSome_ids.1 ⟨r, hr⟩
      rw [writeAll_ids] at hin
      obtain ⟨r0, hr0⟩ := find_isSome_ids.2 hin
      obtain ⟨r', h1, h2⟩ := writeAll_version hnd hr0
      have : r = r' := by
        have : some r = some r' := by rw [← hr, ← h1]; rfl
        exact Option.some.inj this
      rw [this, h2, h.version i r0 hr0, List.filter_append, List.length_append]
      congr 1
      by_cases hm : i ∈ ids w.balances
      · rw [if_pos hm]
        have : j.op.touches i = true := (touches_job j i).2 (by rw [← hids]; exact hm)
        simp [this]
      · rw [if_neg hm]
        have : ¬ j.op.touches i = true := fun hh => hm (by rw [hids]; exact (touches_job j i).1 hh)
        simp [this]
  | _ => exact ⟨h.exist, h.version⟩

/-- **C10, versions.** At every moment the version of every account's row is the number of
committed operations that wrote it. -/
theorem c10_version_counts_updates (cfg : Cfg) (ob : Txn → Option String) (W : World) (h : CReach cfg ob W) :
    ∀ i r, W.db.find i = some r → r.version = (W.log.filter (Op.touches i)).length := by
  have key : VInv W := by
    induction h with
    | init => exact ⟨fun op hop => (by cases hop), fun i r hr => (by cases hr)⟩
    | step hr hs ih => exact cstep_vinv (creach_inv hr) ih hs
  exact key.version

/-! ### C09 -/

/-- **C09.** Every step of the system - including a crash in the middle of a database
transaction - either leaves balances, transactions and lineage outbox exactly as they
were, or makes one whole operation visible: with it all its balance changes, all its
transaction rows and the outbox entry of each row that has one. -/
theorem c09_all_or_nothing (cfg : Cfg) (ob : Txn → Option String) (W W' : World) (h : CReach cfg ob W)
    (hs : CStep cfg ob W W') :
    (W'.db = W.db ∧ W'.outbox = W.outbox) ∨
    ∃ op rows, step {} W.db op = (W'.db, .posted rows) ∧ W'.log = W.log ++ [op] ∧
      W'.outbox = W.outbox ++ (match op with | .post .. | .batch _ => rows.filterMap ob | _ => []) := by
  have hi := creach_inv h
  cases hs with
  | create id ind cur hc => exact .inr ⟨_, _, step_create hc, rfl, by simp⟩
  | store t hq hfree hi' => exact .inr ⟨_, _, step_store hi', rfl, by simp⟩
  | commit k hp =>
    rename_i j w o
    have hk := hi.worker k
    rw [hp] at hk
    refine .inr ⟨j.op, w.rows, commit_atomic hi hp, rfl, ?_⟩
    have ho := hk.2.2.2.2
    cases j <;> simp [Job.op, ho]
  | _ => exact .inl ⟨rfl, rfl⟩

/-- **C09, outbox.** At every moment the lineage outbox holds exactly the entries of the
posted rows, in commit order. -/
theorem c09_outbox_matches_posted (cfg : Cfg) (ob : Txn → Option String) (W : World) (h : CReach cfg ob W) :
    W.outbox = W.posted.filterMap ob := (creach_inv h).outbox

/-! ### C11 -/

/-- **C11.** If no committed posting that debits account `a` permits more than `L` minor
units of overdraft, then at every moment of every interleaving `a`'s settled balance less
its holds is at least `-L`; without any permission (`L = 0`) it is never overdrawn. -/
theorem c11_no_overdraft_under_races (cfg : Cfg) (ob : Txn → Option String) (W : World) (h : CReach cfg ob W)
    (a : String) (L : Int) (hL : 0 ≤ L) (hops : ∀ op ∈ W.log, OpCaps a L op) :
    ∀ b ∈ W.db.balances, b.id = a → -L ≤ b.balance - b.inflightDebit := by
  rw [(c10_no_lost_updates cfg ob W h).1]
  exact c04_overdraft_floor {} a L hL W.log hops

/-- **C11, at the commit.** A posting without any overdraft permission that commits -
whatever it read earlier and whatever others did since - was covered by the source's
funds in the state it committed to. -/
theorem c11_committed_debit_was_funded (cfg : Cfg) (ob : Txn → Option String) (W W' : World) (h : CReach cfg ob W)
    (hs : CStep cfg ob W W') (t : Txn) (hlog : W'.log = W.log ++ [.post t "" ""]) (hp : t.Plain)
    (hno : t.allowOverdraft = false) (hlim : t.overdraftLimit ≤ 0) :
    ∃ s s' p, W.db.find t.source = some s ∧ W'.db.find t.source = some s' ∧ 0 < p ∧ p ≤ s.balance - s.inflightDebit ∧
      s'.balance - s'.inflightDebit = s.balance - s.inflightDebit - p := by
  have hres : isIndicator t.source = false ∧ isIndicator t.destination = false := by
    cases hs with
    | commit k hp' =>
      rename_i j w o
      have hk := (creach_inv h).worker k
      rw [hp'] at hk
      have he : j.op = .post t "" "" := by simpa using hlog
      cases j with
      | single u => simp [Job.op] at he; subst he; exact hk.1.1
      | batch ts => simp [Job.op] at he
    | _ => simp [World.set] at hlog
  have hdb := (c10_no_lost_updates cfg ob W h).1
  rcases c09_all_or_nothing cfg ob W W' h hs with ⟨h1, _⟩ | ⟨op, rows, h1, h2, _⟩
  · exfalso
    have hl := c10_no_lost_updates cfg ob W' (.step h hs)
    obtain ⟨rows, hr⟩ := hl.2 W.log _ [] hlog
    rw [← hdb, step_post_resolved hres.1 hres.2] at hr
    obtain ⟨p, _, hrows, _, htx, _⟩ := c01_posting_two_sided {} W.db t rows ⟨_, hdb⟩ hp hr
    have e : W'.db = (postResolved {} W.db t).1 := by
      rw [hl.1, hlog, run_append, ← hdb]
      simp [run, step_post_resolved hres.1 hres.2]
    rw [e] at h1
    rw [h1] at htx
    have : rows = [] := by simpa using htx
    subst this
    cases hrows
  · have he : op = .post t "" "" := by
      rw [hlog] at h2; simpa using h2.symm
    subst he
    rw [step_post_resolved hres.1 hres.2] at h1
    have hr : (postResolved {} W.db t).2 = .posted rows := by rw [h1]
    obtain ⟨s, q, f1, f2, f3⟩ := c03_accepted_debit_is_funded {} W.db t rows ⟨_, hdb⟩ hp hno hlim rfl hr
    obtain ⟨p, hpos, hrow, hpa, _, ⟨s0, d, s', d', g1, g2, g3, g4, g5, g6⟩, _⟩ :=
      c01_posting_two_sided {} W.db t rows ⟨_, hdb⟩ hp hr
    have hq : q = p := by rw [hrow] at f2; simp [hpa] at f2; exact f2.symm
    have hss : s0 = s := by rw [f1] at g1; exact (Option.some.inj g1).symm
    subst hq hss
    rw [h1] at g3
    refine ⟨s0, s', q, f1, g3, hpos, f3, ?_⟩
    cases hin : t.inflight with
    | false =>
      have m := g5 hin
      rw [m.srcBalance, m.srcHoldDebit]; omega
    | true =>
      have m := g6 hin
      rw [m.srcBalance, m.srcHoldDebit]; omega

/-- The accounting rules hold at every moment of every interleaving. -/
theorem c10_double_entry_under_races (cfg : Cfg) (ob : Txn → Option String) (W : World) (h : CReach cfg ob W) :
    (W.db.balances.map (·.balance)).sum = 0 ∧
    (W.db.balances.map (·.credit)).sum = (W.db.balances.map (·.debit)).sum := by
  rw [(c10_no_lost_updates cfg ob W h).1]
  exact ⟨(c01_double_entry {} W.log).1, (c01_double_entry {} W.log).2.1⟩

/-- **C12 under races.** However submissions interleave, at most one stored transaction
carries a given reference. -/
theorem c12_reference_once_under_races (cfg : Cfg) (ob : Txn → Option String) (W : World) (h : CReach cfg ob W) :
    (W.db.txns.map (·.reference)).Nodup := (creach_inv h).inv.unique.refs

/-! ### A concrete race

Two workers try to spend the same 100: both read the balance, the first commits, the
second finds the row changed and rolls back, retries and is refused for lack of funds. -/

def raceTxn (id src dst : String) (amt : Int) (over : Bool) : Txn :=
  { id := id, source := src, destination := dst, reference := "ref-" ++ id, currency := "USD", precision := 100,
    preciseAmount := some amt, allowOverdraft := over, status := .queued }

def raceOb (t : Txn) : Option String := if t.status = .applied then some ("lo-" ++ t.id) else none

/-- Fund alice, then let two workers read alice's balance before either writes. -/
def raceStart : List Cmd :=
  [.create "bank" "" "USD", .create "alice" "" "USD", .create "shop" "" "USD",
   .start 0 (.single (raceTxn "t0" "bank" "alice" 100 true))] ++ List.replicate 9 (.step 0) ++
  [.start 0 (.single (raceTxn "t1" "alice" "shop" 80 false)), .start 1 (.single (raceTxn "t2" "alice" "shop" 70 false)),
   .step 0, .step 1, .step 1, .step 0, .step 1, .step 0]

def raceView (W : World) : List (String × Int × Nat) × List String × List String × Nat :=
  (W.db.balances.map fun b => (b.id, b.balance, b.version), W.db.txns.map (·.id), W.outbox, W.log.length)

/-- The first worker finishes; the second is then stuck at its first write. -/
example : ∃ W, CReach {} raceOb W ∧
    raceView W = ([("bank", -100, 1), ("alice", 20, 2), ("shop", 80, 1)], ["t0", "t1"], ["lo-t0", "lo-t1"], 5) ∧
    (cexec {} raceOb 2 W (.step 1)).isNone = true := by
  have h : ((cexecAll {} raceOb 2 {} (raceStart ++ List.replicate 6 (.step 0))).any fun W =>
      decide (raceView W = ([("bank", -100, 1), ("alice", 20, 2), ("shop", 80, 1)], ["t0", "t1"], ["lo-t0", "lo-t1"], 5))
        && (cexec {} raceOb 2 W (.step 1)).isNone) = true := by
    decide +kernel
  cases hW : cexecAll {} raceOb 2 {} (raceStart ++ List.replicate 6 (.step 0)) with
  | none => rw [hW] at h; cases h
  | some W =>
    rw [hW] at h
    simp only [Option.any_some, Bool.and_eq_true, decide_eq_true_eq] at h
    exact ⟨W, cexec_reach hW, h.1, h.2⟩

/-- A crash after both balances were written but before the commit leaves nothing behind. -/
example : ∃ W, CReach {} raceOb W ∧
    raceView W = ([("bank", -100, 1), ("alice", 100, 1), ("shop", 0, 0)], ["t0"], ["lo-t0"], 4) := by
  have h : ((cexecAll {} raceOb 2 {} (raceStart ++ List.replicate 3 (.step 0) ++ [.abort 0])).map raceView) =
      some ([("bank", -100, 1), ("alice", 100, 1), ("shop", 0, 0)], ["t0"], ["lo-t0"], 4) := by
    decide +kernel
  obtain ⟨W, hW, he⟩ := Option.map_eq_some_iff.1 h
  exact ⟨W, cexec_reach hW, he⟩

/-- The hypotheses of `c11_no_overdraft_under_races` hold of that race. -/
example : ∀ op ∈ [Op.create "bank" "" "USD", .create "alice" "" "USD", .create "shop" "" "USD",
    .post (raceTxn "t0" "bank" "alice" 100 true) "" "", .post (raceTxn "t1" "alice" "shop" 80 false) "" ""],
    OpCaps "alice" 0 op := by
  simp [OpCaps, SignOK, Caps, raceTxn, Txn.Plain]

end Blnk
