import Verif.Model.RefundCall
import Verif.Props.Preview
import Verif.Props.Refund
import Verif.Lemmas.BatchSeq
import Verif.Lemmas.Funds
/-
C182: a dry run of a refund predicts the refund.
-/
namespace Blnk.Undo
open Blnk Preview

/-- There is an id nobody uses. -/
theorem exists_fresh (l : List String) : ∃ n : String, n ∉ l := by
  have key : ∀ l : List String, ∃ k, ∀ s ∈ l, s.toList.length < k := by
    intro l
    induction l with
    | nil => exact ⟨0, by simp⟩
    | cons a l ih =>
      obtain ⟨k, hk⟩ := ih
      refine ⟨k + a.toList.length + 1, fun s hs => ?_⟩
      rcases List.mem_cons.1 hs with rfl | hs
      · omega
      · have := hk s hs; omega
  obtain ⟨k, hk⟩ := key l
  refine ⟨String.ofList (List.replicate k 'a'), fun h => ?_⟩
  have := hk _ h
  simp at this

/-- The working balances are the ledger's, by id. -/
structure Same (db0 : DB) (m : BSet) (db : DB) : Prop where
  inv : Inv db
  has : ∀ i b, m.get i = some b → isIndicator i = false ∧ b.queuedDebit = none ∧ b.id = i ∧
    ∃ r, db.find i = some r ∧ figures r = figures b
  not : ∀ i, m.get i = none → db.find i = db0.find i

theorem named_of_id {db : DB} {i c : String} (h : isIndicator i = false) : named db i c = db.find i := by
  simp [named, h]

theorem lookup_of_id {cfg : Cfg} {db : DB} {i c : String} {b : Balance} (hc : cfg.queuedChecks = false) (hs : Sane db)
    (hi : isIndicator i = false) (h : lookup cfg db i c = .ok b) :
    b.queuedDebit = none ∧ b.id = i ∧ ∃ r, db.find i = some r ∧ figures r = figures b := by
  rw [lookup_id hs hi] at h
  unfold DB.load at h
  cases hf : db.find i with
  | none => rw [hf] at h; cases h
  | some r =>
    rw [hf] at h
    cases h
    exact ⟨by simp [hc], (find_mem hf).2, r, rfl, rfl⟩

theorem lookup_of_id_error {cfg : Cfg} {db : DB} {i c : String} {e : OpErr} (hs : Sane db)
    (hi : isIndicator i = false) (h : lookup cfg db i c = .error e) : db.find i = none := by
  rw [lookup_id hs hi] at h
  unfold DB.load at h
  cases hf : db.find i with
  | none => rfl
  | some r => rw [hf] at h; cases h

theorem same_reads {cfg : Cfg} {db0 db : DB} {m m1 : BSet} {i c : String} {b : Balance} (hc : cfg.queuedChecks = false)
    (hs : Sane db0) (S : Same db0 m db) (hi : isIndicator i = false) (h : m.resolve cfg db0 i c = .ok (m1, b)) :
    Same db0 m1 db ∧ m1.get i = some b := by
  obtain ⟨a1, a2, a3⟩ := resolve_get h
  refine ⟨⟨S.inv, ?_, ?_⟩, a2⟩
  · intro j x hj
    by_cases hij : j = i
    · subst hij
      rw [a2] at hj; cases hj
      rcases a3 with h | ⟨h, hl⟩
      · exact S.has j b h
      · obtain ⟨l1, l2, r, l3, l4⟩ := lookup_of_id hc hs hi hl
        exact ⟨hi, l1, l2, r, by rw [S.not j h]; exact l3, l4⟩
    · rw [a1 j hij] at hj; exact S.has j x hj
  · intro j hj
    by_cases hij : j = i
    · subst hij; rw [a2] at hj; cases hj
    · rw [a1 j hij] at hj; exact S.not j hj

/-- A refused posting between stored ids changes nothing. -/
theorem post_ids {cfg : Cfg} {db : DB} {t : Txn} {n1 n2 : String} (hi : Inv db) (h1 : isIndicator t.source = false)
    (h2 : isIndicator t.destination = false) :
    ((recordSingle cfg db t n1 n2).1 = db ∧ ∀ rows, (recordSingle cfg db t n1 n2).2 ≠ .posted rows) ∨
    ((recordSingle cfg db t n1 n2).2 = .posted [finalRow t] ∧ PostedSingle cfg db (recordSingle cfg db t n1 n2).1 t) := by
  rw [recordSingle_ids h1 h2]; exact postResolved_cases hi

/-- One leg on the working balances and the posting of it. -/
theorem same_step {cfg : Cfg} {db0 db : DB} {m : BSet} {v u : Txn} {n1 n2 : String} (hc : cfg.queuedChecks = false)
    (hsane : Sane db0) (S : Same db0 m db) (hp : u.Plain) (hv : SameMove (projected v) (submit u))
    (vs : v.source = u.source) (vd : v.destination = u.destination) (vc : v.currency = u.currency)
    (hi1 : isIndicator u.source = false) (hi2 : isIndicator u.destination = false)
    (href : db.hasRef u.reference = false) (hid : db.hasTxnId u.id = false) :
    (∀ m', legStep cfg db0 m v = .ok (m', none) →
      (recordSingle cfg db (submit u) n1 n2).2 = .posted [finalRow (submit u)] ∧
      (recordSingle cfg db (submit u) n1 n2).1.txns = db.txns ++ [finalRow (submit u)] ∧
      Same db0 m' (recordSingle cfg db (submit u) n1 n2).1) ∧
    (∀ m' e, legStep cfg db0 m v = .ok (m', some e) →
      (∃ e', (recordSingle cfg db (submit u) n1 n2).2 = .refused e') ∧ (recordSingle cfg db (submit u) n1 n2).1 = db ∧ Same db0 m' db) ∧
    (∀ e, legStep cfg db0 m v = .error e →
      (∃ e', (recordSingle cfg db (submit u) n1 n2).2 = .refused e') ∧ (recordSingle cfg db (submit u) n1 n2).1 = db) := by
  obtain ⟨e1, e2, e3, e4, e5⟩ := submit_fields u
  have hsub := submit_same hp
  have j1 : isIndicator (submit u).source = false := by rw [e1]; exact hi1
  have j2 : isIndicator (submit u).destination = false := by rw [e2]; exact hi2
  obtain ⟨k1, f1⟩ := exists_fresh (u.source :: u.destination :: ids db.balances)
  obtain ⟨k2, f2⟩ := exists_fresh (k1 :: u.source :: u.destination :: ids db.balances)
  simp only [List.mem_cons, not_or] at f1 f2
  have any : recordSingle cfg db (submit u) n1 n2 = recordSingle cfg db (submit u) k1 k2 := by
    rw [recordSingle_ids j1 j2, recordSingle_ids j1 j2]
  rw [any]
  have refused : (∃ e', (recordSingle cfg db (submit u) k1 k2).2 = .refused e') →
      (∃ e', (recordSingle cfg db (submit u) k1 k2).2 = .refused e') ∧ (recordSingle cfg db (submit u) k1 k2).1 = db := by
    rintro ⟨e', he⟩
    refine ⟨⟨e', he⟩, ?_⟩
    rcases post_ids (cfg := cfg) (n1 := k1) (n2 := k2) S.inv j1 j2 with ⟨h, _⟩ | ⟨h, _⟩
    · exact h
    · rw [he] at h; cases h
  have missing : ∀ i e, isIndicator i = false → m.get i = none → lookup cfg db0 i u.currency = .error e → db.find i = none := by
    intro i e hi hm hl
    rw [S.not i hm]; exact lookup_of_id_error hsane hi hl
  unfold legStep
  rw [vs, vd, vc]
  cases hs : m.resolve cfg db0 u.source u.currency with
  | error e =>
    refine ⟨(fun _ h => by cases h), (fun _ _ h => by cases h), fun _ _ => refused ?_⟩
    obtain ⟨h1, h2⟩ := resolve_none hs
    exact record_missing S.inv hsub.plain (by rw [e2]; exact Ne.symm f1.2.1) (by rw [e1]; exact Ne.symm f2.2.1)
      (.inl (by rw [e1]; exact ⟨hi1, missing _ e hi1 h1 h2⟩))
  | ok x =>
    obtain ⟨m1, s⟩ := x
    obtain ⟨S1, a2⟩ := same_reads hc hsane S hi1 hs
    obtain ⟨a1, _, _⟩ := resolve_get hs
    dsimp only
    cases hd : m1.resolve cfg db0 u.destination u.currency with
    | error e =>
      refine ⟨(fun _ h => by cases h), (fun _ _ h => by cases h), fun _ _ => refused ?_⟩
      obtain ⟨h1, h2⟩ := resolve_none hd
      have hf := S1.not _ h1
      rw [lookup_of_id_error hsane hi2 h2] at hf
      exact record_missing S.inv hsub.plain (by rw [e2]; exact Ne.symm f1.2.1) (by rw [e1]; exact Ne.symm f2.2.1)
        (.inr (by rw [e2]; exact ⟨hi2, hf⟩))
    | ok y =>
      obtain ⟨m2, d⟩ := y
      obtain ⟨S2, b2⟩ := same_reads hc hsane S1 hi2 hd
      obtain ⟨b1, _, b3⟩ := resolve_get hd
      obtain ⟨_, s1, s2, rs, s3, s4⟩ := S1.has _ _ a2
      obtain ⟨_, d1, d2, rd, d3, d4⟩ := S2.has _ _ b2
      dsimp only
      by_cases heq : u.source = u.destination
      · have hsd : s.id = d.id := by rw [s2, d2, heq]
        rw [if_pos hsd]
        refine ⟨(fun _ h => by simp at h), ?_, (fun _ h => by simp at h)⟩
        intro m' e h
        simp only [Except.ok.injEq, Prod.mk.injEq] at h
        obtain ⟨rfl, _⟩ := h
        have := refused (record_same (cfg := cfg) (n2 := k2) S.inv hsub.plain f1.2.2 (.inl ⟨by rw [e1, e2]; exact heq, by
          rw [e1, e3, named_of_id hi1, s3]; intro h; cases h⟩))
        exact ⟨this.1, this.2, S2⟩
      · have hsd : s.id ≠ d.id := by rw [s2, d2]; exact heq
        rw [if_neg hsd]
        have hready : Preview.Ready cfg db (submit u) k1 k2 s :=
          ⟨hsub.plain, by rw [e4]; exact href, by rw [e5]; exact hid, f1.2.2, f2.2.2.2, Ne.symm f2.1,
            by rw [e2]; exact Ne.symm f1.2.1, by rw [s1, queuedSeen, hc]; rfl, .inl hc⟩
        have r1 : Reads db (submit u).source (submit u).currency s := by
          unfold Reads; rw [e1, named_of_id hi1, s3]; exact s4.symm
        have r2 : Reads db (submit u).destination (submit u).currency d := by
          unfold Reads; rw [e2, named_of_id hi2, d3]; exact d4.symm
        have hdiff : Different db (submit u).source (submit u).destination (submit u).currency := by
          rw [e1, e2]
          refine ⟨heq, fun r r' h1 h2 h => ?_⟩
          rw [named_of_id hi1] at h1
          rw [named_of_id hi2] at h2
          rw [(find_mem h1).2, (find_mem h2).2] at h
          exact heq h
        cases hap : applyToBalances (projected v) s d with
        | error e =>
          refine ⟨(fun _ h => by simp at h), ?_, (fun _ h => by simp at h)⟩
          intro m' e' h
          simp only [Except.ok.injEq, Prod.mk.injEq] at h
          obtain ⟨rfl, _⟩ := h
          have hap' : applyToBalances (submit u) s d = .error e := by
            unfold applyToBalances at hap ⊢
            rw [← hv.source, ← hv.destination]; exact hap
          have := refused ⟨_, record_refuses (s := s) (d := d) S.inv hready r1 r2 hdiff hap'⟩
          exact ⟨this.1, this.2, S2⟩
        | ok z =>
          obtain ⟨s', d'⟩ := z
          refine ⟨?_, (fun _ _ h => by simp at h), (fun _ h => by simp at h)⟩
          intro m' hm'
          simp only [Except.ok.injEq, Prod.mk.injEq, and_true] at hm'
          subst hm'
          obtain ⟨p1, p2⟩ := applyToBalances_inv hap
          obtain ⟨row, hpo, St⟩ := record_accepts (t := submit u) (s := s) (d := d) (s' := s') (d' := d') S.inv hready
            r1 r2 hdiff (by rw [← hv.source]; exact p1) (by rw [← hv.destination]; exact p2)
          rcases post_ids (cfg := cfg) (n1 := k1) (n2 := k2) S.inv j1 j2 with ⟨_, h⟩ | ⟨h, P⟩
          · exact absurd hpo (h _)
          have t1 := applySource_effect p1
          have t2 := applyDestination_effect p2
          refine ⟨h, P.txns, St.inv, ?_, ?_⟩
          · intro i b hg
            rw [get_put] at hg
            by_cases h1 : u.destination = i
            · rw [if_pos h1] at hg
              cases hg; subst h1
              obtain ⟨r, g1, g2, _⟩ := St.dst
              rw [e2, named_of_id hi2] at g1
              exact ⟨hi2, by rw [t2.queued, d1], by rw [t2.id, d2], r, g1, g2⟩
            · rw [if_neg h1, get_put] at hg
              by_cases h2 : u.source = i
              · rw [if_pos h2] at hg
                cases hg; subst h2
                obtain ⟨r, g1, g2, _⟩ := St.src
                rw [e1, named_of_id hi1] at g1
                exact ⟨hi1, by rw [t1.queued, s1], by rw [t1.id, s2], r, g1, g2⟩
              · rw [if_neg h2] at hg
                obtain ⟨q1, q2, q3, r, q4, q5⟩ := S2.has i b hg
                refine ⟨q1, q2, q3, r, ?_, q5⟩
                rw [P.others i (by rw [e1]; exact Ne.symm h2) (by rw [e2]; exact Ne.symm h1)]; exact q4
          · intro i hg
            rw [get_put] at hg
            by_cases h1 : u.destination = i
            · rw [if_pos h1] at hg; cases hg
            · rw [if_neg h1, get_put] at hg
              by_cases h2 : u.source = i
              · rw [if_pos h2] at hg; cases hg
              · rw [if_neg h2] at hg
                rw [P.others i (by rw [e1]; exact Ne.symm h2) (by rw [e2]; exact Ne.symm h1)]
                exact S2.not i hg

/-! ### All legs -/

/-- Specification: what the dry run said of a leg is what became of it. -/
def Kept (o : Txn) (newId : String) (x : Except Why Int) (y : Except RefErr Outcome) : Prop :=
  match x with
  | .error (.refund e) => y = .error e
  | .error (.post _) => ∃ e, y = .ok (.refused e)
  | .ok a => ∃ row : Txn, y = .ok (.posted [row]) ∧ row.id = newId ∧ row.parent = o.id ∧ row.source = o.destination ∧
      row.destination = o.source ∧ row.preciseAmount = some a

/-- Leg by leg. -/
inductive AllKept (fresh : Nat → String) : Nat → List Txn → List (Except Why Int) → List (Except RefErr Outcome) → Prop
  | nil {k} : AllKept fresh k [] [] []
  | cons {k o os x xs y ys} : Kept o (fresh k) x y → AllKept fresh (k + 1) os xs ys →
      AllKept fresh k (o :: os) (x :: xs) (y :: ys)

/-- What a refund call needs besides the ledger: ids that are new, stored parties, free references. -/
structure Calm (db : DB) (os : List Txn) (fresh : Nat → String) : Prop where
  inj : ∀ j k, fresh j = fresh k → j = k
  new : ∀ k, db.hasTxnId (fresh k) = false
  parties : ∀ o ∈ os, isIndicator o.source = false ∧ isIndicator o.destination = false
  free : ∀ o ∈ os, db.hasRef (refundRef o.id) = false

theorem refund_plain (o : Txn) (skip : Bool) (n : String) : (refundTxn o skip n).Plain := by
  unfold Txn.Plain refundTxn; simp

theorem refund_move (o : Txn) (a b : String) : SameMove (projected (refundTxn o true a)) (submit (refundTxn o true b)) := by
  refine (projected_same (refund_plain o true a)).trans (SameMove.trans ?_ (submit_same (refund_plain o true b)).symm)
  exact sameMove_status (refund_plain o true a) (refund_plain o true b) rfl rfl rfl rfl rfl rfl

theorem refund_amount (o : Txn) (a b : String) :
    (finalRow (submit (refundTxn o true b))).preciseAmount = some ((projected (refundTxn o true a)).preciseAmount.getD 0) := by
  have h1 : (projected (refundTxn o true a)).preciseAmount = (refundTxn o true a).applyPrecision.preciseAmount := by
    unfold projected
    rw [normalize_plain (refund_plain o true a), applyPrecision_status]
  have h2 : (finalRow (submit (refundTxn o true b))).preciseAmount = (submit (refundTxn o true b)).applyPrecision.preciseAmount := by
    have hp := (submit_same (refund_plain o true b)).plain
    unfold finalRow clearTerminalInflight applyRecord
    have : (submit (refundTxn o true b)).status ≠ .commit ∧ (submit (refundTxn o true b)).status ≠ .void := hp
    split <;> split <;> simp_all
  rw [h2, (submit_same (refund_plain o true b)).amount, h1]
  have h3 : (refundTxn o true b).applyPrecision.preciseAmount = (refundTxn o true a).applyPrecision.preciseAmount :=
    (sameMove_status (refund_plain o true b) (refund_plain o true a) rfl rfl rfl rfl rfl rfl).amount
  rw [h3]
  obtain ⟨p, hp⟩ := applyPrecision_some (refundTxn o true a)
  rw [hp]; rfl

theorem getTxn_mem {db : DB} {o : Txn} (hi : Inv db) (h : o ∈ db.txns) : db.getTxn o.id = some (bare o) :=
  getTxn_of_mem hi h

theorem isRefunded_grown {db db0 : DB} {added : List Txn} {o : Txn} (h : db.txns = db0.txns ++ added)
    (hn : ∀ r ∈ added, r.parent ≠ o.id) : db.isRefunded (bare o) = db0.isRefunded (bare o) := by
  unfold DB.isRefunded
  rw [h, List.any_append]
  have : added.any (fun r => r.parent = (bare o).id && r.source = (bare o).destination && r.destination = (bare o).source) = false := by
    rw [List.any_eq_false]
    intro r hr
    have := hn r hr
    simp [bare, this]
  rw [this, Bool.or_false]

theorem validate_grown {db db0 : DB} {added : List Txn} {o : Txn} (h : db.txns = db0.txns ++ added)
    (hn : ∀ r ∈ added, r.parent ≠ o.id) : validateRefund db (bare o) = validateRefund db0 (bare o) := by
  unfold validateRefund; rw [isRefunded_grown h hn]

theorem legs_kept {cfg : Cfg} {db0 : DB} {fresh fresh' : Nat → String} (hc : cfg.queuedChecks = false) (hsane : Sane db0) :
    ∀ (os : List Txn) {db : DB} {m : BSet} {k : Nat} {added : List Txn}, Same db0 m db → Calm db0 os fresh →
      (os.map (·.id)).Nodup → (∀ o ∈ os, o ∈ db0.txns) → db.txns = db0.txns ++ added →
      (∀ r ∈ added, r.parent ∉ os.map (·.id) ∧ r.reference = refundRef r.parent ∧ ∃ j, j < k ∧ r.id = fresh j) →
      (∀ m' xs, legs cfg db0 fresh' m k os = .ok (m', xs) →
        AllKept fresh k os xs (refundEach cfg true fresh db k os).2 ∧ Same db0 m' (refundEach cfg true fresh db k os).1) ∧
      (∀ e, legs cfg db0 fresh' m k os = .error e → ∃ e', Except.ok (.refused e') ∈ (refundEach cfg true fresh db k os).2)
  | [], db, m, k, added, S, C, hn, hm, ht, ha => by
    refine ⟨fun m' xs h => ?_, fun e h => by cases h⟩
    cases h
    exact ⟨.nil, S⟩
  | o :: os, db, m, k, added, S, C, hn, hm, ht, ha => by
    simp only [List.map_cons, List.nodup_cons] at hn
    have hpar := C.parties o (by simp)
    have hfree := C.free o (by simp)
    have hget := getTxn_mem S.inv (by rw [ht]; exact List.mem_append_left _ (hm o (by simp)) : o ∈ db.txns)
    have hval : validateRefund db (bare o) = validateRefund db0 (bare o) :=
      validate_grown ht (fun r hr he => (ha r hr).1 (by rw [he]; simp))
    have C' : Calm db0 os fresh := ⟨C.inj, C.new, fun x hx => C.parties x (by simp [hx]), fun x hx => C.free x (by simp [hx])⟩
    have ha' : ∀ r ∈ added, r.parent ∉ os.map (·.id) ∧ r.reference = refundRef r.parent ∧ ∃ j, j < k + 1 ∧ r.id = fresh j := by
      intro r hr
      obtain ⟨h1, h2, j, h3, h4⟩ := ha r hr
      simp only [List.map_cons, List.mem_cons, not_or] at h1
      exact ⟨h1.2, h2, j, by omega, h4⟩
    simp only [legs, leg, refundEach, refund, decideRefund, hget, hval]
    cases hv : validateRefund db0 (bare o) with
    | error e =>
      dsimp only
      have ih := legs_kept hc hsane os (fresh := fresh) (fresh' := fresh') S C' hn.2 (fun x hx => hm x (by simp [hx])) ht ha'
      cases hl : legs cfg db0 fresh' m (k + 1) os with
      | error e' =>
        refine ⟨fun m' xs h => by simp at h, fun e h => ?_⟩
        obtain ⟨e'', h⟩ := ih.2 e' hl
        exact ⟨e'', List.mem_cons_of_mem _ h⟩
      | ok z =>
        obtain ⟨m'', xs'⟩ := z
        refine ⟨fun m' xs h => ?_, fun e h => by simp at h⟩
        cases h
        obtain ⟨g1, g2⟩ := ih.1 _ _ hl
        exact ⟨.cons rfl g1, g2⟩
    | ok _ =>
      dsimp only
      have href : db.hasRef (refundTxn (bare o) true (fresh k)).reference = false := by
        unfold DB.hasRef at hfree ⊢
        rw [ht, List.any_append]
        have h2 : added.any (fun t => decide (t.reference = (refundTxn (bare o) true (fresh k)).reference)) = false := by
          rw [List.any_eq_false]
          intro r hr h
          simp only [decide_eq_true_eq] at h
          obtain ⟨g1, g2, _⟩ := ha r hr
          rw [g2] at h
          exact g1 (by rw [refundRef_inj h]; simp [bare])
        rw [h2, Bool.or_false]; exact hfree
      have hid : db.hasTxnId (refundTxn (bare o) true (fresh k)).id = false := by
        have := C.new k
        unfold DB.hasTxnId at this ⊢
        rw [ht, List.any_append]
        have h2 : added.any (fun t => decide (t.id = (refundTxn (bare o) true (fresh k)).id)) = false := by
          rw [List.any_eq_false]
          intro r hr h
          simp only [decide_eq_true_eq] at h
          obtain ⟨_, _, j, g3, g4⟩ := ha r hr
          rw [g4] at h
          have := C.inj j k h
          omega
        rw [h2, Bool.or_false]; exact this
      obtain ⟨st1, st2, st3⟩ := same_step (cfg := cfg) (v := refundTxn (bare o) true (fresh' k)) (u := refundTxn (bare o) true (fresh k))
        (n1 := "") (n2 := "") hc hsane S (refund_plain _ _ _) (refund_move _ _ _) rfl rfl rfl hpar.2 hpar.1 href hid
      simp only [if_true]
      cases hstep : legStep cfg db0 m (refundTxn (bare o) true (fresh' k)) with
      | error e =>
        obtain ⟨⟨e', h1⟩, _⟩ := st3 e hstep
        refine ⟨fun m' xs h => by simp at h, fun _ _ => ⟨e', ?_⟩⟩
        rw [h1]; exact List.mem_cons_self
      | ok z =>
        obtain ⟨m1, oe⟩ := z
        cases oe with
        | some e =>
          obtain ⟨⟨e', h1⟩, h2, S'⟩ := st2 m1 e hstep
          dsimp only
          rw [h1, h2]
          have ih := legs_kept hc hsane os (fresh := fresh) (fresh' := fresh') S' C' hn.2 (fun x hx => hm x (by simp [hx])) ht ha'
          cases hl : legs cfg db0 fresh' m1 (k + 1) os with
          | error e'' =>
            refine ⟨fun m' xs h => by simp at h, fun e h => ?_⟩
            exact ⟨e', List.mem_cons_self⟩
          | ok z =>
            obtain ⟨m'', xs'⟩ := z
            refine ⟨fun m' xs h => ?_, fun e h => by simp at h⟩
            cases h
            obtain ⟨g1, g2⟩ := ih.1 _ _ hl
            exact ⟨.cons ⟨e', rfl⟩ g1, g2⟩
        | none =>
          obtain ⟨h1, h2, S'⟩ := st1 m1 hstep
          dsimp only
          rw [h1]
          have kk := finalRow_keeps (submit (refundTxn (bare o) true (fresh k)))
          have sf := submit_fields (refundTxn (bare o) true (fresh k))
          have sp : (submit (refundTxn (bare o) true (fresh k))).parent = o.id := (applyPrecision_keeps _).2.2.2.2.2.2.1
          have ih := legs_kept hc hsane os (fresh := fresh) (fresh' := fresh') (k := k + 1) S' C' hn.2 (fun x hx => hm x (by simp [hx]))
            (added := added ++ [finalRow (submit (refundTxn (bare o) true (fresh k)))])
            (by rw [h2, ht, List.append_assoc]) (by
              intro r hr
              rcases List.mem_append.1 hr with hr | hr
              · exact ha' r hr
              · simp only [List.mem_singleton] at hr
                subst hr
                rw [kk.1, kk.2.1, kk.2.2.2.2.2, sp, sf.2.2.2.1, sf.2.2.2.2]
                exact ⟨hn.1, rfl, k, by omega, rfl⟩)
          cases hl : legs cfg db0 fresh' m1 (k + 1) os with
          | error e'' =>
            refine ⟨fun m' xs h => by simp at h, fun e h => ?_⟩
            obtain ⟨e3, h⟩ := ih.2 e'' hl
            exact ⟨e3, List.mem_cons_of_mem _ h⟩
          | ok z =>
            obtain ⟨m'', xs'⟩ := z
            refine ⟨fun m' xs h => ?_, fun e h => by simp at h⟩
            cases h
            obtain ⟨g1, g2⟩ := ih.1 _ _ hl
            refine ⟨.cons ⟨_, rfl, ?_, ?_, ?_, ?_, refund_amount _ _ _⟩ g1, g2⟩
            · rw [kk.2.1, sf.2.2.2.2]; rfl
            · rw [kk.2.2.2.2.2, sp]
            · rw [kk.2.2.1, sf.1]; rfl
            · rw [kk.2.2.2.1, sf.2.1]; rfl

theorem refundables_mem {db : DB} {id : String} {o : Txn} (h : o ∈ db.refundables id) : o ∈ db.txns := by
  unfold DB.refundables at h
  exact (List.mem_filter.1 (List.mem_reverse.1 h)).1

theorem refundables_nodup {db : DB} (hu : UniqueRows db) (id : String) : ((db.refundables id).map (·.id)).Nodup := by
  unfold DB.refundables
  rw [List.map_reverse]
  exact (List.reverse_perm _).nodup_iff.2 (hu.txnIds.sublist (List.filter_sublist.map _))

theorem refundEach_length {cfg : Cfg} {skip : Bool} {fresh : Nat → String} : ∀ (os : List Txn) (db : DB) (k : Nat),
    (refundEach cfg skip fresh db k os).2.length = os.length
  | [], _, _ => rfl
  | o :: os, db, k => by simp [refundEach, refundEach_length os]

/-- Specification: what a call moved back. -/
def movedBack : Except RefErr Outcome → Int
  | .ok (.posted rows) => (rows.map fun r => r.preciseAmount.getD 0).sum
  | _ => 0

/-- Specification: every leg was posted. -/
def allPosted (ys : List (Except RefErr Outcome)) : Prop := ∀ y ∈ ys, ∃ row, y = .ok (.posted [row])

theorem allKept_summary {fresh : Nat → String} {k : Nat} {os : List Txn} {xs : List (Except Why Int)}
    {ys : List (Except RefErr Outcome)} (h : AllKept fresh k os xs ys) :
    ((!xs.any Why.of) = true ↔ allPosted ys) ∧ (xs.map moved).sum = (ys.map movedBack).sum := by
  induction h with
  | nil => simp [allPosted]
  | @cons k o os x xs y ys h _ ih =>
    have hx : (Why.of x = false ↔ ∃ row, y = .ok (.posted [row])) ∧ moved x = movedBack y := by
      cases x with
      | ok a =>
        obtain ⟨row, h1, _, _, _, _, h2⟩ := h
        subst h1
        exact ⟨⟨fun _ => ⟨row, rfl⟩, fun _ => rfl⟩, by simp [moved, movedBack, h2]⟩
      | error w =>
        cases w with
        | refund e =>
          have h : y = .error e := h
          subst h
          exact ⟨by simp [Why.of], rfl⟩
        | post e =>
          obtain ⟨e', h⟩ := h
          subst h
          exact ⟨by simp [Why.of], rfl⟩
    constructor
    · have h1 := ih.1
      simp only [Bool.not_eq_true'] at h1 ⊢
      rw [List.any_cons, Bool.or_eq_false_iff, h1, hx.1]
      simp [allPosted]
    · simp only [List.map_cons, List.sum_cons, ih.2, hx.2]

theorem same_init {db : DB} (hi : Inv db) : Same db [] db :=
  ⟨hi, fun i b h => by simp [BSet.get] at h, fun _ _ => rfl⟩

/-- **C182.** What a dry run of a refund says is what the synchronous refund does on the same ledger: it
says "would apply" exactly when every leg is posted, leg by leg with its reason or its amount, its total is
what is moved back, the balances it shows end with exactly the figures shown, and no other balance changes.
Missing from the full claim: a reference `<id>_refund` somebody already uses (`c182_reference_fails`), queued
checks. -/
theorem c182_predicts_partial {cfg : Cfg} {db : DB} {id : String} {fresh fresh' : Nat → String} {p : Shown}
    (hc : cfg.queuedChecks = false) (hi : Inv db) (hsane : Sane db) (hcalm : Calm db (db.refundables id) fresh)
    (h : previewRefund cfg db id fresh' = .ok p) :
    (p.wouldApply = true ↔ allPosted (refundRequest cfg db id true fresh).2) ∧
    AllKept fresh 0 (db.refundables id) p.legs (refundRequest cfg db id true fresh).2 ∧
    p.total = ((refundRequest cfg db id true fresh).2.map movedBack).sum ∧
    (∀ i b, p.balances.get i = some b → ∃ r, (refundRequest cfg db id true fresh).1.find i = some r ∧ figures r = figures b) ∧
    (∀ i, p.balances.get i = none → (refundRequest cfg db id true fresh).1.find i = db.find i) := by
  have key := legs_kept (cfg := cfg) (fresh := fresh) (fresh' := fresh') hc hsane (db.refundables id) (k := 0) (added := [])
    (same_init hi) hcalm (refundables_nodup hi.unique id) (fun o ho => refundables_mem ho) (by simp) (by simp)
  unfold previewRefund at h
  split at h
  · cases h
  · cases hl : legs cfg db fresh' [] 0 (db.refundables id) with
    | error e => rw [hl] at h; cases h
    | ok z =>
      obtain ⟨m, xs⟩ := z
      rw [hl] at h
      cases h
      obtain ⟨h1, h2⟩ := key.1 m xs hl
      obtain ⟨h3, h4⟩ := allKept_summary h1
      refine ⟨h3, h1, h4, ?_, fun i hg => h2.not i hg⟩
      intro i b hg
      obtain ⟨_, _, _, r, g1, g2⟩ := h2.has i b hg
      exact ⟨r, g1, g2⟩

/-- **C182, "not found".** The dry run answers "not found" exactly when the refund finds nothing to do. -/
theorem c182_not_found {cfg : Cfg} {db : DB} {id : String} {fresh fresh' : Nat → String} :
    previewRefund cfg db id fresh' = .error none ↔ (refundRequest cfg db id true fresh).2 = [] := by
  have : (refundRequest cfg db id true fresh).2 = [] ↔ db.refundables id = [] := by
    rw [← List.length_eq_zero_iff, refundRequest, refundEach_length, List.length_eq_zero_iff]
  rw [this]
  unfold previewRefund
  split
  · simp_all
  · rename_i h
    simp only [h, iff_false]
    split <;> simp

/-- **C182, errors.** When the dry run fails on a balance it cannot find, some leg of the refund is refused. -/
theorem c182_error_partial {cfg : Cfg} {db : DB} {id : String} {fresh fresh' : Nat → String} {e : OpErr}
    (hc : cfg.queuedChecks = false) (hi : Inv db) (hsane : Sane db) (hcalm : Calm db (db.refundables id) fresh)
    (h : previewRefund cfg db id fresh' = .error (some e)) :
    ∃ e', Except.ok (.refused e') ∈ (refundRequest cfg db id true fresh).2 := by
  have key := legs_kept (cfg := cfg) (fresh := fresh) (fresh' := fresh') hc hsane (db.refundables id) (k := 0) (added := [])
    (same_init hi) hcalm (refundables_nodup hi.unique id) (fun o ho => refundables_mem ho) (by simp) (by simp)
  unfold previewRefund at h
  split at h
  · cases h
  · cases hl : legs cfg db fresh' [] 0 (db.refundables id) with
    | error e' => exact key.2 e' hl
    | ok z => rw [hl] at h; cases h

/-- The full claim: on every ledger a history leads to, a dry run of a refund that says "would apply" is
followed by a refund all of whose legs are posted. -/
def C182Full : Prop := ∀ (ops : List Blnk.Op) (id : String) (fresh fresh' : Nat → String) (p : Shown),
  (∀ j k, fresh j = fresh k → j = k) → (∀ k, (run {} {} ops).hasTxnId (fresh k) = false) →
  previewRefund {} (run {} {} ops) id fresh' = .ok p → p.wouldApply = true →
  allPosted (refundRequest {} (run {} {} ops) id true fresh).2

/-- Two accounts, a payment, and a second payment somebody gave the reference the refund will use. -/
def squatted : List Blnk.Op := [.create "a" "" "USD", .create "b" "" "USD",
  .post { id := "p", source := "a", destination := "b", reference := "r", amount := 7, precision := 100,
          allowOverdraft := true, status := .queued } "x" "y",
  .post { id := "q", source := "a", destination := "b", reference := "p_refund", amount := 1, precision := 100,
          allowOverdraft := true, status := .queued } "x" "y"]

/-- Ids by number, none of which is `p` or `q`. -/
def longIds (k : Nat) : String := String.ofList ('n' :: List.replicate k 'n')

theorem longIds_inj : ∀ j k, longIds j = longIds k → j = k := by
  intro j k h
  have := congrArg (fun s => s.toList.length) h
  simpa [longIds] using this

theorem longIds_not {k : Nat} {s : String} (h : s.toList.head? ≠ some 'n') : s ≠ longIds k := by
  rintro rfl
  simp [longIds] at h

/-- **C182, the full claim fails.** The dry run never looks at the reference of the refund: it says "would
apply", and the refund is refused as a duplicate. -/
theorem c182_reference_fails : ¬ C182Full := by
  intro h
  have hids : ((run {} {} squatted).txns.map (·.id)) = ["p", "q"] := by decide +kernel
  have hnew : ∀ k, (run {} {} squatted).hasTxnId (longIds k) = false := by
    intro k
    unfold DB.hasTxnId
    rw [List.any_eq_false]
    intro t ht he
    simp only [decide_eq_true_eq] at he
    have : t.id ∈ (run {} {} squatted).txns.map (·.id) := List.mem_map.2 ⟨t, ht, rfl⟩
    rw [hids] at this
    simp only [List.mem_cons, List.not_mem_nil, or_false] at this
    rcases this with e | e <;> rw [e] at he <;> exact longIds_not (by decide +kernel) he
  have hp : ∃ p, previewRefund {} (run {} {} squatted) "p" longIds = .ok p ∧ p.wouldApply = true := by
    have : (match previewRefund {} (run {} {} squatted) "p" longIds with
      | .ok p => p.wouldApply
      | .error _ => false) = true := by decide +kernel
    split at this
    · exact ⟨_, by assumption, this⟩
    · cases this
  obtain ⟨p, hp1, hp2⟩ := hp
  have hall := h squatted "p" longIds longIds p longIds_inj hnew hp1 hp2
  have : (refundRequest {} (run {} {} squatted) "p" true longIds).2.any (fun y => match y with
      | .ok (.posted _) => false
      | _ => true) = true := by decide +kernel
  rw [List.any_eq_true] at this
  obtain ⟨y, hy, hb⟩ := this
  obtain ⟨row, rfl⟩ := hall y hy
  cases hb

/-! Concrete cases: a payment whose refund is previewed and made, and a second preview after it. -/

def paid : List Blnk.Op := squatted.take 3

example : (match previewRefund {} (run {} {} paid) "p" longIds with
    | .ok p => some (p.wouldApply, p.total, p.balances.map fun x => (x.1, x.2.balance))
    | .error _ => none) = some (true, 700, [("b", 0), ("a", 0)]) := by decide +kernel

example : (match previewRefund {} (refundRequest {} (run {} {} paid) "p" true longIds).1 "p" longIds with
    | .ok p => some (p.wouldApply, p.total)
    | .error _ => none) = some (false, 700) := by decide +kernel

example : Calm (run {} {} paid) ((run {} {} paid).refundables "p") longIds := by
  refine ⟨longIds_inj, ?_, ?_, ?_⟩
  · intro k
    unfold DB.hasTxnId
    have hids : ((run {} {} paid).txns.map (·.id)) = ["p"] := by decide +kernel
    rw [List.any_eq_false]
    intro t ht he
    simp only [decide_eq_true_eq] at he
    have : t.id ∈ (run {} {} paid).txns.map (·.id) := List.mem_map.2 ⟨t, ht, rfl⟩
    rw [hids] at this
    simp only [List.mem_cons, List.not_mem_nil, or_false] at this
    rw [this] at he
    exact longIds_not (by decide +kernel) he
  · decide +kernel
  · decide +kernel

example : Sane (run {} {} paid) := by unfold Sane; decide +kernel

end Blnk.Undo
