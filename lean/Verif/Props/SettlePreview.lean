import Verif.Model.SettleCall
import Verif.Props.RefundPreview
/-
C184: a dry run of a commit or a void predicts what the call does.
-/
namespace Blnk.Undo
open Blnk Preview

/-- The working balances are the ledger's, by id, whatever is queued. -/
structure Held (db0 : DB) (m : BSet) (db : DB) : Prop where
  inv : Inv db
  has : ∀ i b, m.get i = some b → isIndicator i = false ∧ b.id = i ∧ ∃ r, db.find i = some r ∧ figures r = figures b
  not : ∀ i, m.get i = none → db.find i = db0.find i

theorem held_reads {cfg : Cfg} {db0 db : DB} {m m1 : BSet} {i c : String} {b : Balance}
    (hs : Sane db0) (S : Held db0 m db) (hi : isIndicator i = false) (h : m.resolve cfg db0 i c = .ok (m1, b)) :
    Held db0 m1 db ∧ m1.get i = some b := by
  obtain ⟨a1, a2, a3⟩ := resolve_get h
  refine ⟨⟨S.inv, ?_, ?_⟩, a2⟩
  · intro j x hj
    by_cases hij : j = i
    · subst hij
      rw [a2] at hj; cases hj
      rcases a3 with h0 | ⟨h0, hl⟩
      · exact S.has j b h0
      · rw [lookup_id hs hi] at hl
        unfold DB.load at hl
        cases hf : db0.find j with
        | none => rw [hf] at hl; cases hl
        | some r =>
          rw [hf] at hl
          cases hl
          exact ⟨hi, (find_mem hf).2, r, by rw [S.not j h0]; exact hf, rfl⟩
    · rw [a1 j hij] at hj; exact S.has j x hj
  · intro j hj
    by_cases hij : j = i
    · subst hij; rw [a2] at hj; cases hj
    · rw [a1 j hij] at hj; exact S.not j hj

/-- A posting of an amount that is not zero is stored or refused. -/
theorem post_or_refuse {cfg : Cfg} {db : DB} {w : Txn} (hi : Inv db) (hz : (finalRow w).preciseAmount ≠ some 0) :
    (∃ e, (postResolved cfg db w).2 = .refused e ∧ (postResolved cfg db w).1 = db) ∨
    ((postResolved cfg db w).2 = .posted [finalRow w] ∧ PostedSingle cfg db (postResolved cfg db w).1 w) := by
  rcases postResolved_cases (cfg := cfg) (t := w) hi with ⟨h1, h2⟩ | h
  · left
    cases hres : (postResolved cfg db w).2 with
    | refused e => exact ⟨e, rfl, h1⟩
    | posted rows => exact absurd hres (h2 rows)
    | discarded =>
      exfalso
      unfold postResolved at hres
      cases hp : prepareSingle cfg db w with
      | error e => rw [hp] at hres; cases hres
      | ok x =>
        cases x with
        | some x =>
          rw [hp] at hres
          simp only at hres
          cases hq : db.persist x with
          | error e => rw [hq] at hres; cases hres
          | ok y => rw [hq] at hres; cases hres
        | none =>
          unfold prepareSingle at hp
          split at hp
          · cases hp
          · split at hp
            · split at hp
              · cases hp
              · cases hp
            · cases hp
  · exact .inr h

theorem map_ok {α : Type} {f : Balance → α} {x : Except BalErr Balance} {y : Balance} (h : x.map f = (Except.ok y).map f) :
    ∃ z, x = .ok z ∧ f z = f y := by
  cases x with
  | error e => cases h
  | ok z => exact ⟨z, rfl, by simpa [Except.map] using h⟩

/-- One settlement on the working balances and the posting of it. -/
theorem held_step {cfg : Cfg} {db0 db : DB} {m : BSet} {u w : Txn} (hsane : Sane db0) (S : Held db0 m db)
    (ws : w.source = u.source) (wd : w.destination = u.destination) (hst : u.status = .commit ∨ u.status = .void)
    (as : ∀ b, applySource w b = applySource u b) (ad : ∀ b, applyDestination w b = applyDestination u b)
    (hi1 : isIndicator u.source = false) (hi2 : isIndicator u.destination = false)
    (hz : (finalRow w).preciseAmount ≠ some 0) (href : db.hasRef w.reference = false) (hid : db.hasTxnId w.id = false) :
    (∀ m' a, moveOn cfg db0 m u = .ok (m', .ok a) →
      a = u.preciseAmount.getD 0 ∧
      (postResolved cfg db w).2 = .posted [finalRow w] ∧ (postResolved cfg db w).1.txns = db.txns ++ [finalRow w] ∧
      Held db0 m' (postResolved cfg db w).1) ∧
    (∀ m' h, moveOn cfg db0 m u = .ok (m', .error h) →
      (∃ e, (postResolved cfg db w).2 = .refused e) ∧ (postResolved cfg db w).1 = db ∧ (∀ e, h ≠ .early e) ∧ ((∀ e, h ≠ .late e) → Held db0 m' db)) ∧
    (∀ e, moveOn cfg db0 m u = .error e → ∃ e', (postResolved cfg db w).2 = .refused e' ∧ (postResolved cfg db w).1 = db) := by
  have refused : (PostedSingle cfg db (postResolved cfg db w).1 w → False) →
      ∃ e', (postResolved cfg db w).2 = .refused e' ∧ (postResolved cfg db w).1 = db := by
    intro h
    rcases post_or_refuse (cfg := cfg) S.inv hz with g | ⟨_, g⟩
    · exact g
    · exact (h g).elim
  unfold moveOn
  cases hs : m.resolve cfg db0 u.source u.currency with
  | error e =>
    refine ⟨(fun _ _ h => by cases h), (fun _ _ h => by cases h), fun _ _ => refused fun P => ?_⟩
    obtain ⟨h1, h2⟩ := resolve_none hs
    have hf := S.not _ h1
    rw [lookup_of_id_error hsane hi1 h2] at hf
    obtain ⟨rs, rd, _, _, _, _, x1, _⟩ := P.exact
    rw [ws, hf] at x1; cases x1
  | ok x =>
    obtain ⟨m1, s⟩ := x
    obtain ⟨S1, a2⟩ := held_reads hsane S hi1 hs
    dsimp only
    cases hd : m1.resolve cfg db0 u.destination u.currency with
    | error e =>
      refine ⟨(fun _ _ h => by cases h), (fun _ _ h => by cases h), fun _ _ => refused fun P => ?_⟩
      obtain ⟨h1, h2⟩ := resolve_none hd
      have hf := S1.not _ h1
      rw [lookup_of_id_error hsane hi2 h2] at hf
      obtain ⟨rs, rd, _, _, _, _, _, x2, _⟩ := P.exact
      rw [wd, hf] at x2; cases x2
    | ok y =>
      obtain ⟨m2, d⟩ := y
      obtain ⟨S2, b2⟩ := held_reads hsane S1 hi2 hd
      obtain ⟨_, s2, rs, s3, s4⟩ := S1.has _ _ a2
      obtain ⟨_, d2, rd, d3, d4⟩ := S2.has _ _ b2
      have fs : figures (db.view cfg rs) = figures s := s4
      have fd : figures (db.view cfg rd) = figures d := d4
      dsimp only
      by_cases heq : u.source = u.destination
      · have hsd : s.id = d.id := by rw [s2, d2, heq]
        rw [if_pos hsd]
        refine ⟨(fun _ _ h => by simp at h), ?_, (fun _ h => by simp at h)⟩
        intro m' e h
        simp only [Except.ok.injEq, Prod.mk.injEq, Except.error.injEq] at h
        obtain ⟨rfl, rfl⟩ := h
        obtain ⟨e', g1, g2⟩ := refused fun P => P.distinct (by rw [ws, wd]; exact heq)
        exact ⟨⟨e', g1⟩, g2, by simp, fun _ => S2⟩
      · have hsd : s.id ≠ d.id := by rw [s2, d2]; exact heq
        rw [if_neg hsd]
        have same1 := settle_source_same (t := u) hst fs
        have same2 := destination_same (t := u) fd
        cases h1 : applySource u s with
        | error e =>
          refine ⟨(fun _ _ h => by simp at h), ?_, (fun _ h => by simp at h)⟩
          intro m' h h'
          simp only [Except.ok.injEq, Prod.mk.injEq, Except.error.injEq] at h'
          obtain ⟨rfl, rfl⟩ := h'
          obtain ⟨e', g1, g2⟩ := refused fun P => by
            obtain ⟨rs', rd', _, _, s3', _, x1, _, x3, _, _, _, x7, _⟩ := P.exact
            rw [ws, s3] at x1; cases x1
            rw [ws, load_view s3] at x3; cases x3
            rw [as] at x7
            rw [x7, h1] at same1
            cases same1
          exact ⟨⟨e', g1⟩, g2, by simp, fun _ => S2⟩
        | ok s' =>
          dsimp only
          cases h2 : applyDestination u d with
          | error e =>
            refine ⟨(fun _ _ h => by simp at h), ?_, (fun _ h => by simp at h)⟩
            intro m' h h'
            simp only [Except.ok.injEq, Prod.mk.injEq, Except.error.injEq] at h'
            obtain ⟨rfl, rfl⟩ := h'
            obtain ⟨e', g1, g2⟩ := refused fun P => by
              obtain ⟨rs', rd', _, _, _, _, _, x2, _, x4, _, _, _, x8, _⟩ := P.exact
              rw [wd, d3] at x2; cases x2
              rw [wd, load_view d3] at x4; cases x4
              rw [ad] at x8
              rw [x8, h2] at same2
              cases same2
            exact ⟨⟨e', g1⟩, g2, by simp, fun h => absurd rfl (h _)⟩
          | ok d' =>
            refine ⟨?_, (fun _ _ h => by simp at h), (fun _ h => by simp at h)⟩
            intro m' a hm'
            simp only [Except.ok.injEq, Prod.mk.injEq] at hm'
            obtain ⟨rfl, rfl⟩ := hm'
            rw [h1] at same1
            rw [h2] at same2
            obtain ⟨zs, p1, q1⟩ := map_ok same1
            obtain ⟨zd, p2, q2⟩ := map_ok same2
            have hpo := postResolved_complete (cfg := cfg) (db := db) (t := w) (rs := rs) (rd := rd) (s' := zs) (d' := zd)
              href hid (by rw [ws, wd]; exact heq) (by rw [ws]; exact s3) (by rw [wd]; exact d3)
              (by rw [as]; exact p1) (by rw [ad]; exact p2) hz
            have P := (postResolved_posted S.inv hpo).2
            obtain ⟨rs2, rd2, _, _, _, _, x1, x2, x3, x4, _, _, x7, x8, x9, x10⟩ := P.exact
            rw [ws, s3] at x1; cases x1
            rw [wd, d3] at x2; cases x2
            rw [ws, load_view s3] at x3; cases x3
            rw [wd, load_view d3] at x4; cases x4
            rw [as, p1] at x7; cases x7
            rw [ad, p2] at x8; cases x8
            have t1 := applySource_effect h1
            have t2 := applyDestination_effect h2
            refine ⟨rfl, hpo, P.txns, postResolved_inv S.inv, ?_, ?_⟩
            · intro i b hg
              rw [get_put] at hg
              by_cases h1 : u.destination = i
              · rw [if_pos h1] at hg
                cases hg; subst h1
                exact ⟨hi2, by rw [t2.id, d2], rd.writeBack zd, by rw [← wd]; exact x10, q2⟩
              · rw [if_neg h1, get_put] at hg
                by_cases h2 : u.source = i
                · rw [if_pos h2] at hg
                  cases hg; subst h2
                  exact ⟨hi1, by rw [t1.id, s2], rs.writeBack zs, by rw [← ws]; exact x9, q1⟩
                · rw [if_neg h2] at hg
                  obtain ⟨y1, y2, r, y3, y4⟩ := S2.has i b hg
                  refine ⟨y1, y2, r, ?_, y4⟩
                  rw [P.others i (by rw [ws]; exact Ne.symm h2) (by rw [wd]; exact Ne.symm h1)]; exact y3
            · intro i hg
              rw [get_put] at hg
              by_cases h1 : u.destination = i
              · rw [if_pos h1] at hg; cases hg
              · rw [if_neg h1, get_put] at hg
                by_cases h2 : u.source = i
                · rw [if_pos h2] at hg; cases hg
                · rw [if_neg h2] at hg
                  rw [P.others i (by rw [ws]; exact Ne.symm h2) (by rw [wd]; exact Ne.symm h1)]
                  exact S2.not i hg

/-- What is decided about a hold before the balances are looked at. -/
theorem settlement_decide {cfg : Cfg} {db db0 : DB} {t : Txn} {newId ref : String} {void : Bool} {amt : Int}
    (hf : fetchInflight db t.id = .ok t) (hr : remaining db t = remaining db0 t)
    (i1 : isIndicator t.source = false) (i2 : isIndicator t.destination = false) (hl : 0 ≤ remaining db0 t) :
    (∃ e, settlement db0 t void amt = .error e ∧ settleOne cfg db t.id void amt newId ref = (db, .error e)) ∨
    ∃ u w a, settlement db0 t void amt = .ok u ∧ u.preciseAmount = some a ∧
      settleOne cfg db t.id void amt newId ref = ((postResolved cfg db w).1, .ok (postResolved cfg db w).2) ∧
      u.source = t.source ∧ u.destination = t.destination ∧ (u.status = .commit ∨ u.status = .void) ∧
      w.source = t.source ∧ w.destination = t.destination ∧ w.id = newId ∧ w.reference = ref ∧ w.parent = t.id ∧
      (∀ b, applySource w b = applySource u b) ∧ (∀ b, applyDestination w b = applyDestination u b) ∧
      (finalRow w).preciseAmount = some a ∧ a ≠ 0 ∧ (finalRow w).status = (if void then .void else .applied) := by
  have direct : ∀ {w : Txn}, isIndicator w.source = false → isIndicator w.destination = false →
      recordSingle cfg db w "" "" = postResolved cfg db w := by
    intro w h1 h2
    simp [recordSingle, DB.resolve, h1, h2]
  unfold settlement settleOne voidInflight commitInflight
  rw [hf]
  cases void with
  | true =>
    simp only [if_true, hr]
    by_cases hz : remaining db0 t = 0
    · left; exact ⟨.alreadyCommitted, by simp [hz], by simp [hz]⟩
    · right
      have hp : 0 < remaining db0 t := by omega
      rw [if_neg hz, if_neg hz]
      obtain ⟨k1, k2, k3, k4, k5, k6, k7, k8, k9, k10⟩ := applyPrecision_keeps ({ t with status := .void, inflight := false, parent := t.id, id := newId, reference := ref, preciseAmount := some (remaining db0 t) } : Txn)
      have hpa : (voidTxn t (remaining db0 t) newId ref).preciseAmount = some (remaining db0 t) := applyPrecision_pos rfl hp
      have hst : (voidTxn t (remaining db0 t) newId ref).status = .void := k3
      have hfr := settle_void (t := voidTxn t (remaining db0 t) newId ref) hst k4 hpa
      refine ⟨_, voidTxn t (remaining db0 t) newId ref, remaining db0 t, rfl, rfl, ?_, rfl, rfl, .inr rfl, k8, k9, k6, k5, k7, ?_, ?_, hfr.2.1, hz, hfr.1⟩
      · rw [direct]
        · show isIndicator (voidTxn t (remaining db0 t) newId ref).source = false
          unfold voidTxn; rw [k8]; exact i1
        · unfold voidTxn; rw [k9]; exact i2
      · intro b; unfold applySource; rw [hst, hpa]
      · intro b; unfold applyDestination; rw [hst, hpa]
  | false =>
    simp only [Bool.false_eq_true, if_false, hr]
    cases hs : settleAmount t amt (remaining db0 t) with
    | error e => left; exact ⟨e, rfl, rfl⟩
    | ok p =>
      right
      have hp : 0 < p := by
        obtain ⟨h1, h2⟩ := settleAmount_ok hs
        omega
      have hfr := settle_commit (t := commitTxn t p (if amt = 0 then (p : Rat) / t.precision else t.amount) newId ref) rfl rfl rfl hp
      refine ⟨_, commitTxn t p (if amt = 0 then (p : Rat) / t.precision else t.amount) newId ref, p, rfl, rfl, ?_, rfl, rfl, .inl rfl, rfl, rfl, rfl, rfl, rfl, ?_, ?_, hfr.2.1, by omega, hfr.1⟩
      · dsimp only
        rw [direct]
        · exact i1
        · exact i2
      · intro b
        unfold applySource
        simp only [commitTxn]
        rw [applyPrecision_pos (p := p) rfl hp, applyPrecision_pos (p := p) rfl hp]
      · intro b
        unfold applyDestination
        simp only [commitTxn]
        rw [applyPrecision_pos (p := p) rfl hp, applyPrecision_pos (p := p) rfl hp]

/-! ### All holds -/

/-- Specification: what the dry run said of a hold is what became of it. -/
def Came (void : Bool) (t : Txn) (newId : String) (x : Except Hitch Int) (y : Except InfErr Outcome) : Prop :=
  match x with
  | .error (.early e) => y = .error e
  | .error (.post _) | .error (.late _) => ∃ e, y = .ok (.refused e)
  | .ok a => ∃ row : Txn, y = .ok (.posted [row]) ∧ row.id = newId ∧ row.parent = t.id ∧ row.source = t.source ∧
      row.destination = t.destination ∧ row.preciseAmount = some a ∧ row.status = if void then .void else .applied

/-- Hold by hold. -/
inductive AllCame (void : Bool) (fresh : Nat → String) : Nat → List Txn → List (Except Hitch Int) → List (Except InfErr Outcome) → Prop
  | nil {k} : AllCame void fresh k [] [] []
  | cons {k t ts x xs y ys} : Came void t (fresh k) x y → AllCame void fresh (k + 1) ts xs ys →
      AllCame void fresh k (t :: ts) (x :: xs) (y :: ys)

/-- Specification: the dry run met no destination that refused after the source was changed. -/
def Clean (xs : List (Except Hitch Int)) : Prop := ∀ e, Except.error (.late e) ∉ xs

/-- Specification: every hold was settled. -/
def allSettled (ys : List (Except InfErr Outcome)) : Prop := ∀ y ∈ ys, ∃ row, y = .ok (.posted [row])

/-- What a call needs besides the ledger: generated ids and references that are new, holds between stored
balances of which no more was committed than was held (C22), and none of them voided. -/
structure Fit (db : DB) (ts : List Txn) (fresh refs : Nat → String) : Prop where
  inj : ∀ j k, fresh j = fresh k → j = k
  new : ∀ k, db.hasTxnId (fresh k) = false
  refInj : ∀ j k, refs j = refs k → j = k
  refNew : ∀ k, db.hasRef (refs k) = false
  parties : ∀ t ∈ ts, isIndicator t.source = false ∧ isIndicator t.destination = false
  left : ∀ t ∈ ts, 0 ≤ remaining db t
  alive : ∀ t ∈ ts, db.parentVoid t.id = false

theorem remaining_grown {db db0 : DB} {added : List Txn} {t : Txn} (h : db.txns = db0.txns ++ added)
    (hn : ∀ r ∈ added, r.parent ≠ t.id) : remaining db t = remaining db0 t := by
  unfold remaining DB.totalCommitted
  rw [h, List.filter_append]
  have : added.filter (fun r => decide (r.parent = t.id) && decide (r.status = .applied)) = [] := by
    rw [List.filter_eq_nil_iff]
    intro r hr
    simp [hn r hr]
  rw [this, List.append_nil]

theorem parentVoid_grown {db db0 : DB} {added : List Txn} {i : String} (h : db.txns = db0.txns ++ added)
    (hn : ∀ r ∈ added, r.parent ≠ i) : db.parentVoid i = db0.parentVoid i := by
  unfold DB.parentVoid
  rw [h, List.any_append]
  have : added.any (fun r => decide (r.parent = i) && decide (r.status = .void)) = false := by
    rw [List.any_eq_false]
    intro r hr
    simp [hn r hr]
  rw [this, Bool.or_false]

theorem remaining_bare (db : DB) (t : Txn) : remaining db (bare t) = remaining db t := rfl

theorem settleEach_length {cfg : Cfg} {void : Bool} {amt : Int} {fresh refs : Nat → String} : ∀ (ts : List Txn) (db : DB) (k : Nat),
    (settleEach cfg void amt fresh refs db k ts).2.length = ts.length
  | [], _, _ => rfl
  | t :: ts, db, k => by simp [settleEach, settleEach_length ts]

theorem not_settled {y : Except InfErr Outcome} {ys : List (Except InfErr Outcome)} (h : y ∈ ys) (hy : ∀ row, y ≠ .ok (.posted [row])) :
    ¬ allSettled ys := fun h' => by
  obtain ⟨row, hr⟩ := h' y h
  exact hy row hr

theorem not_settled_cons {y : Except InfErr Outcome} {ys : List (Except InfErr Outcome)} (h : ¬ allSettled ys) : ¬ allSettled (y :: ys) :=
  fun h' => h fun z hz => h' z (List.mem_cons_of_mem _ hz)

theorem holds_came {cfg : Cfg} {db0 : DB} {void : Bool} {amt : Int} {fresh refs : Nat → String} (hsane : Sane db0) :
    ∀ (ts : List Txn) {db : DB} {m : BSet} {k : Nat} {added : List Txn}, Held db0 m db → Fit db0 ts fresh refs →
      (ts.map (·.id)).Nodup → (∀ t ∈ ts, t ∈ db0.txns ∧ isInflightTxn t = true) → db.txns = db0.txns ++ added →
      (∀ r ∈ added, r.parent ∉ ts.map (·.id) ∧ ∃ j, j < k ∧ r.id = fresh j ∧ r.reference = refs j) →
      (∀ m' xs, clearLegs cfg db0 void amt m (ts.map bare) = .ok (m', xs) →
        (Clean xs → AllCame void fresh k ts xs (settleEach cfg void amt fresh refs db k ts).2 ∧
          Held db0 m' (settleEach cfg void amt fresh refs db k ts).1) ∧
        (¬ Clean xs → ¬ allSettled (settleEach cfg void amt fresh refs db k ts).2)) ∧
      (∀ e, clearLegs cfg db0 void amt m (ts.map bare) = .error e → ¬ allSettled (settleEach cfg void amt fresh refs db k ts).2)
  | [], db, m, k, added, S, F, hn, hm, ht, ha => by
    refine ⟨fun m' xs h => ?_, fun e h => by cases h⟩
    cases h
    exact ⟨fun _ => ⟨.nil, S⟩, fun h => absurd (fun _ => by simp) h⟩
  | t :: ts, db, m, k, added, S, F, hn, hm, ht, ha => by
    simp only [List.map_cons, List.nodup_cons] at hn
    have hpar := F.parties t (by simp)
    have hadd : ∀ r ∈ added, r.parent ≠ t.id := fun r hr he => (ha r hr).1 (by rw [he]; simp)
    have hget := getTxn_mem S.inv (by rw [ht]; exact List.mem_append_left _ (hm t (by simp)).1 : t ∈ db.txns)
    have hfetch : fetchInflight db (bare t).id = .ok (bare t) := by
      unfold fetchInflight
      have h1 : (bare t).id = t.id := rfl
      have h2 : isInflightTxn (bare t) = true := (hm t (by simp)).2
      rw [h1, hget]
      simp only [h2, if_true, parentVoid_grown ht hadd, F.alive t (by simp), Bool.false_eq_true, if_false]
    have hrem : remaining db (bare t) = remaining db0 (bare t) := remaining_grown ht hadd
    have F' : Fit db0 ts fresh refs := ⟨F.inj, F.new, F.refInj, F.refNew, fun x hx => F.parties x (by simp [hx]),
      fun x hx => F.left x (by simp [hx]), fun x hx => F.alive x (by simp [hx])⟩
    have ha' : ∀ r ∈ added, r.parent ∉ ts.map (·.id) ∧ ∃ j, j < k + 1 ∧ r.id = fresh j ∧ r.reference = refs j := by
      intro r hr
      obtain ⟨h1, j, h3, h4⟩ := ha r hr
      simp only [List.map_cons, List.mem_cons, not_or] at h1
      exact ⟨h1.2, j, by omega, h4⟩
    have hm' : ∀ x ∈ ts, x ∈ db0.txns ∧ isInflightTxn x = true := fun x hx => hm x (by simp [hx])
    have hclean : ∀ {x : Except Hitch Int} {xs}, (∀ e, x ≠ .error (.late e)) → (Clean (x :: xs) ↔ Clean xs) := by
      intro x xs hx
      unfold Clean
      constructor
      · intro h e he; exact h e (List.mem_cons_of_mem _ he)
      · intro h e he
        rcases List.mem_cons.1 he with he | he
        · exact hx e he.symm
        · exact h e he
    have hid0 : (bare t).id = t.id := rfl
    rcases settlement_decide (cfg := cfg) (void := void) (amt := amt) (newId := fresh k) (ref := refs k) hfetch hrem hpar.1 hpar.2 (F.left t (by simp))
      with ⟨e, h1, h2⟩ | ⟨u, w, a, h1, h2, h3, us, ud, ust, ws, wd, wi, wr, wp, as, ad, wz, az, wst⟩
    · rw [hid0] at h2
      simp only [List.map_cons, clearLegs, clearLeg, h1, settleEach, h2]
      have ih := holds_came hsane ts (cfg := cfg) (void := void) (amt := amt) (fresh := fresh) (refs := refs) (k := k + 1) S F' hn.2 hm' ht ha'
      cases hl : clearLegs cfg db0 void amt m (ts.map bare) with
      | error e' => exact ⟨fun m' xs h => by simp at h, fun e'' h => not_settled_cons (ih.2 e' hl)⟩
      | ok z =>
        obtain ⟨m'', xs'⟩ := z
        refine ⟨fun m' xs h => ?_, fun e h => by simp at h⟩
        cases h
        obtain ⟨g1, g2⟩ := ih.1 _ _ hl
        refine ⟨fun hc => ?_, fun hc => not_settled_cons (g2 fun h => hc ((hclean (by simp)).2 h))⟩
        obtain ⟨g3, g4⟩ := g1 ((hclean (by simp)).1 hc)
        exact ⟨.cons rfl g3, g4⟩
    · rw [hid0] at h3 wp
      simp only [List.map_cons, clearLegs, clearLeg, h1, settleEach, h3]
      have href : db.hasRef w.reference = false := by
        have := F.refNew k
        unfold DB.hasRef at this ⊢
        rw [ht, List.any_append, wr]
        have h2 : added.any (fun t => decide (t.reference = refs k)) = false := by
          rw [List.any_eq_false]
          intro r hr h
          simp only [decide_eq_true_eq] at h
          obtain ⟨_, j, g3, _, g4⟩ := ha r hr
          rw [g4] at h
          have := F.refInj j k h
          omega
        rw [h2, Bool.or_false]; exact this
      have hid : db.hasTxnId w.id = false := by
        have := F.new k
        unfold DB.hasTxnId at this ⊢
        rw [ht, List.any_append, wi]
        have h2 : added.any (fun t => decide (t.id = fresh k)) = false := by
          rw [List.any_eq_false]
          intro r hr h
          simp only [decide_eq_true_eq] at h
          obtain ⟨_, j, g3, g4, _⟩ := ha r hr
          rw [g4] at h
          have := F.inj j k h
          omega
        rw [h2, Bool.or_false]; exact this
      have hz : (finalRow w).preciseAmount ≠ some 0 := by rw [wz]; intro h; exact az (by simpa using h)
      obtain ⟨st1, st2, st3⟩ := held_step (cfg := cfg) (u := u) (w := w) hsane S (by rw [ws, us]) (by rw [wd, ud]) ust as ad
        (by rw [us]; exact hpar.1) (by rw [ud]; exact hpar.2) hz href hid
      cases hstep : moveOn cfg db0 m u with
      | error e =>
        obtain ⟨e', g1, _⟩ := st3 e hstep
        refine ⟨fun m' xs h => by simp at h, fun _ _ => ?_⟩
        rw [g1]
        exact not_settled List.mem_cons_self (by simp)
      | ok z =>
        obtain ⟨m1, x⟩ := z
        cases x with
        | error h0 =>
          obtain ⟨⟨e', g1⟩, g2, g3, g4⟩ := st2 m1 h0 hstep
          dsimp only
          rw [g1, g2]
          have bad : ∀ ys, ¬ allSettled (Except.ok (.refused e') :: ys) := fun ys => not_settled List.mem_cons_self (by simp)
          cases hl : clearLegs cfg db0 void amt m1 (ts.map bare) with
          | error e'' => exact ⟨fun m' xs h => by simp at h, fun _ _ => bad _⟩
          | ok z =>
            obtain ⟨m'', xs'⟩ := z
            refine ⟨fun m' xs h => ?_, fun e h => by simp at h⟩
            cases h
            refine ⟨fun hc => ?_, fun _ => bad _⟩
            have hlate : ∀ e, h0 ≠ .late e := fun e he => hc e (by rw [he]; exact List.mem_cons_self)
            have ih := holds_came hsane ts (cfg := cfg) (void := void) (amt := amt) (fresh := fresh) (refs := refs) (k := k + 1)
              (g4 hlate) F' hn.2 hm' ht ha'
            obtain ⟨g5, g6⟩ := (ih.1 _ _ hl).1 ((hclean (by intro e he; cases he; exact hlate _ rfl)).1 hc)
            refine ⟨.cons ?_ g5, g6⟩
            cases h0 with
            | early e => exact absurd rfl (g3 e)
            | post e => exact ⟨e', rfl⟩
            | late e => exact ⟨e', rfl⟩
        | ok b =>
          obtain ⟨g0, g1, g2, S'⟩ := st1 m1 b hstep
          dsimp only
          rw [g1]
          have kk := finalRow_keeps w
          have ih := holds_came hsane ts (cfg := cfg) (void := void) (amt := amt) (fresh := fresh) (refs := refs) (k := k + 1) S' F' hn.2 hm'
            (added := added ++ [finalRow w]) (by rw [g2, ht, List.append_assoc]) (by
              intro r hr
              rcases List.mem_append.1 hr with hr | hr
              · exact ha' r hr
              · simp only [List.mem_singleton] at hr
                subst hr
                rw [kk.1, kk.2.1, kk.2.2.2.2.2, wp, wr, wi]
                exact ⟨hn.1, k, by omega, rfl, rfl⟩)
          cases hl : clearLegs cfg db0 void amt m1 (ts.map bare) with
          | error e' => exact ⟨fun m' xs h => by simp at h, fun e'' h => not_settled_cons (ih.2 e' hl)⟩
          | ok z =>
            obtain ⟨m'', xs'⟩ := z
            refine ⟨fun m' xs h => ?_, fun e h => by simp at h⟩
            cases h
            obtain ⟨p1, p2⟩ := ih.1 _ _ hl
            refine ⟨fun hc => ?_, fun hc => not_settled_cons (p2 fun h => hc ((hclean (by simp)).2 h))⟩
            obtain ⟨p3, p4⟩ := p1 ((hclean (by simp)).1 hc)
            refine ⟨.cons ⟨_, rfl, ?_, ?_, ?_, ?_, ?_, wst⟩ p3, p4⟩
            · rw [kk.2.1, wi]
            · rw [kk.2.2.2.2.2, wp]
            · rw [kk.2.2.1, ws]; rfl
            · rw [kk.2.2.2.1, wd]; rfl
            · rw [wz, g0, h2]; rfl

/-! ### The call -/

theorem inflightLegs_mem {db : DB} {id : String} {t : Txn} (h : t ∈ Atomic.inflightLegs db id) : t ∈ db.txns ∧ isInflightTxn t = true := by
  unfold Atomic.inflightLegs at h
  dsimp only at h
  split at h
  · have := List.mem_filter.1 (List.mem_reverse.1 h)
    refine ⟨this.1, ?_⟩
    have h2 := this.2
    simp only [Bool.and_eq_true, decide_eq_true_eq] at h2
    simp [isInflightTxn, h2.1.1.1.2, h2.1.1.2]
  · have := List.mem_filter.1 (List.mem_reverse.1 h)
    refine ⟨this.1, ?_⟩
    have h2 := this.2
    simp only [Bool.and_eq_true, decide_eq_true_eq] at h2
    simp [isInflightTxn, h2.2]

theorem inflightLegs_nodup {db : DB} (hu : UniqueRows db) (id : String) : ((Atomic.inflightLegs db id).map (·.id)).Nodup := by
  unfold Atomic.inflightLegs
  dsimp only
  split <;>
  · rw [List.map_reverse]
    exact (List.reverse_perm _).nodup_iff.2 (hu.txnIds.sublist (List.filter_sublist.map _))

/-- Specification: what a call settled. -/
def settledAmount : Except InfErr Outcome → Int
  | .ok (.posted rows) => (rows.map fun r => r.preciseAmount.getD 0).sum
  | _ => 0

theorem allCame_summary {void : Bool} {fresh : Nat → String} {k : Nat} {ts : List Txn} {xs : List (Except Hitch Int)}
    {ys : List (Except InfErr Outcome)} (h : AllCame void fresh k ts xs ys) :
    ((!xs.any Hitch.of) = true ↔ allSettled ys) ∧ (xs.map cleared).sum = (ys.map settledAmount).sum := by
  induction h with
  | nil => simp [allSettled]
  | @cons k t ts x xs y ys h _ ih =>
    have hx : (Hitch.of x = false ↔ ∃ row, y = .ok (.posted [row])) ∧ cleared x = settledAmount y := by
      cases x with
      | ok a =>
        obtain ⟨row, h1, _, _, _, _, h2, _⟩ := h
        subst h1
        exact ⟨⟨fun _ => ⟨row, rfl⟩, fun _ => rfl⟩, by simp [cleared, settledAmount, h2]⟩
      | error w =>
        cases w with
        | early e =>
          have h : y = .error e := h
          subst h
          exact ⟨by simp [Hitch.of], rfl⟩
        | post e =>
          obtain ⟨e', h⟩ := h
          subst h
          exact ⟨by simp [Hitch.of], rfl⟩
        | late e =>
          obtain ⟨e', h⟩ := h
          subst h
          exact ⟨by simp [Hitch.of], rfl⟩
    refine ⟨?_, by simp only [List.map_cons, List.sum_cons, hx.2, ih.2]⟩
    have ih1 := ih.1
    simp only [Bool.not_eq_true', List.any_cons, Bool.or_eq_false_iff] at ih1 ⊢
    rw [hx.1, ih1]
    unfold allSettled
    constructor
    · rintro ⟨h1, h2⟩ z hz
      rcases List.mem_cons.1 hz with rfl | hz
      · exact h1
      · exact h2 z hz
    · intro h
      exact ⟨h y List.mem_cons_self, fun z hz => h z (List.mem_cons_of_mem _ hz)⟩

theorem held_start {db : DB} (hi : Inv db) : Held db [] db := ⟨hi, fun i b h => by simp [BSet.get] at h, fun _ _ => rfl⟩

/-- The holds the dry run looks at are those the call settles. -/
theorem shown_same {db : DB} {id : String} {ts : List Txn}
    (hsame : ∀ t, fetchInflight db id = .ok t → (Atomic.inflightLegs db id).map bare = [t]) (h : shownLegs db id = .ok ts) :
    ts = (Atomic.inflightLegs db id).map bare ∧ Atomic.inflightLegs db id ≠ [] := by
  unfold shownLegs at h
  cases hf : fetchInflight db id with
  | ok t =>
    rw [hf] at h
    cases h
    have := hsame t hf
    exact ⟨this.symm, fun h => by rw [h] at this; cases this⟩
  | error e =>
    rw [hf] at h
    dsimp only at h
    split at h
    · split at h
      · cases h
      · rename_i hne; cases h; exact ⟨rfl, hne⟩
    · cases h

theorem shown_none {db : DB} {id : String} {e : InfErr} (hv : db.parentVoid id = false) (h : shownLegs db id = .error e) :
    Atomic.inflightLegs db id = [] := by
  unfold shownLegs at h
  cases hf : fetchInflight db id with
  | ok t => rw [hf] at h; cases h
  | error e' =>
    rw [hf] at h
    dsimp only at h
    split at h
    · split at h
      · assumption
      · cases h
    · rename_i hx
      unfold fetchInflight at hf
      split at hf
      · cases hf; simp [expands] at hx
      · split at hf
        · rw [hv] at hf; simp at hf
        · cases hf; simp [expands] at hx

/-- **C184, what is shown.** For an id whose holds the dry run and the call agree on, none of them voided: the
dry run says "would apply" exactly if the call settles all of them. Unless a destination refuses after its source
was changed (which the dry run keeps), each hold ends as shown, the total is what is settled, and every balance
shown ends with the figures shown. Missing from the full claim: ids the two read differently (a queued hold that
has been placed), and holds of a batch that have been voided. -/
theorem c184_predicts_partial {cfg : Cfg} {db : DB} {id : String} {void : Bool} {amt : Int} {fresh refs : Nat → String} {p : Cleared}
    (hi : Inv db) (hu : UniqueRows db) (hsane : Sane db) (F : Fit db (Atomic.inflightLegs db id) fresh refs)
    (hsame : ∀ t, fetchInflight db id = .ok t → (Atomic.inflightLegs db id).map bare = [t]) (hv : db.parentVoid id = false)
    (h : previewClear cfg db id void amt = .ok p) :
    (p.wouldApply = true ↔ (settleCall cfg db id void amt fresh refs).2 ≠ [] ∧ allSettled (settleCall cfg db id void amt fresh refs).2) ∧
    (Clean p.legs →
      AllCame void fresh 0 (Atomic.inflightLegs db id) p.legs (settleCall cfg db id void amt fresh refs).2 ∧
      p.total = ((settleCall cfg db id void amt fresh refs).2.map settledAmount).sum ∧
      ∀ i b, p.balances.get i = some b → ∃ r, (settleCall cfg db id void amt fresh refs).1.find i = some r ∧ figures r = figures b) := by
  unfold previewClear at h
  split at h
  · rename_i hs
    have hn := shown_none hv hs
    cases h
    have : settleCall cfg db id void amt fresh refs = (db, []) := by unfold settleCall; rw [hn]; rfl
    rw [this, hn]
    exact ⟨by simp, fun _ => ⟨.nil, rfl, fun i b hb => by simp [BSet.get] at hb⟩⟩
  · rename_i hs
    have hn := shown_none hv hs
    cases h
    have : settleCall cfg db id void amt fresh refs = (db, []) := by unfold settleCall; rw [hn]; rfl
    rw [this, hn]
    exact ⟨by simp, fun _ => ⟨.nil, rfl, fun i b hb => by simp [BSet.get] at hb⟩⟩
  · cases h
  · rename_i ts hs
    obtain ⟨rfl, hne⟩ := shown_same hsame hs
    have key := holds_came (cfg := cfg) (void := void) (amt := amt) (fresh := fresh) (refs := refs) hsane (Atomic.inflightLegs db id) (k := 0) (added := [])
      (held_start hi) F (inflightLegs_nodup hu id) (fun t ht => inflightLegs_mem ht) (by simp) (by simp)
    split at h
    · cases h
    · rename_i m xs hl
      cases h
      obtain ⟨k1, k2⟩ := key.1 _ _ hl
      have hnil : (settleCall cfg db id void amt fresh refs).2 ≠ [] := by
        intro h0
        have := settleEach_length (cfg := cfg) (void := void) (amt := amt) (fresh := fresh) (refs := refs) (Atomic.inflightLegs db id) db 0
        unfold settleCall at h0
        rw [h0] at this
        exact hne (List.eq_nil_of_length_eq_zero this.symm)
      refine ⟨?_, ?_⟩
      · by_cases hc : Clean xs
        · have := (allCame_summary (k1 hc).1).1
          show (!xs.any Hitch.of) = true ↔ _
          rw [this]
          exact ⟨fun h => ⟨hnil, h⟩, fun h => h.2⟩
        · refine ⟨fun ha => ?_, fun ha => absurd ha.2 (k2 hc)⟩
          exfalso
          apply hc
          intro e he
          have ha : (!xs.any Hitch.of) = true := ha
          simp only [Bool.not_eq_true', List.any_eq_false] at ha
          exact ha _ he rfl
      · intro hc
        obtain ⟨g1, g2⟩ := k1 hc
        exact ⟨g1, (allCame_summary g1).2, fun i b hb => (g2.has i b hb).2.2⟩

/-- **C184, an error.** For such an id, a dry run that answers with an error means that the call settles nothing
or fails for some hold. -/
theorem c184_error_partial {cfg : Cfg} {db : DB} {id : String} {void : Bool} {amt : Int} {fresh refs : Nat → String} {e : InfErr ⊕ OpErr}
    (hi : Inv db) (hu : UniqueRows db) (hsane : Sane db) (F : Fit db (Atomic.inflightLegs db id) fresh refs)
    (hsame : ∀ t, fetchInflight db id = .ok t → (Atomic.inflightLegs db id).map bare = [t]) (hv : db.parentVoid id = false)
    (h : previewClear cfg db id void amt = .error e) :
    (settleCall cfg db id void amt fresh refs).2 = [] ∨ ¬ allSettled (settleCall cfg db id void amt fresh refs).2 := by
  unfold previewClear at h
  split at h
  · cases h
  · cases h
  · rename_i hs
    left
    unfold settleCall
    rw [shown_none hv hs]; rfl
  · rename_i ts hs
    obtain ⟨rfl, hne⟩ := shown_same hsame hs
    have key := holds_came (cfg := cfg) (void := void) (amt := amt) (fresh := fresh) (refs := refs) hsane (Atomic.inflightLegs db id) (k := 0) (added := [])
      (held_start hi) F (inflightLegs_nodup hu id) (fun t ht => inflightLegs_mem ht) (by simp) (by simp)
    split at h
    · rename_i e' hl
      exact .inr (key.2 e' hl)
    · cases h

/-- A hold that was voided is still refused after other settlements. -/
theorem settle_voided {cfg : Cfg} {void : Bool} {amt : Int} {fresh refs : Nat → String} {id : String} : ∀ (ts : List Txn) {db : DB} {k : Nat} {t : Txn},
    Inv db → t ∈ db.txns → t.id = id → isInflightTxn t = true → db.parentVoid id = true → (∃ x ∈ ts, x.id = id) →
    .error .voided ∈ (settleEach cfg void amt fresh refs db k ts).2
  | [], _, _, _, _, _, _, _, _, h => by simp at h
  | x :: ts, db, k, t, hi, hm, he, hf, hv, h => by
    have hfetch : fetchInflight db id = .error .voided := by
      unfold fetchInflight
      have h2 : isInflightTxn (bare t) = true := hf
      rw [← he, getTxn_mem hi hm]
      simp only [h2, if_true, he, hv]
    unfold settleEach
    by_cases hx : x.id = id
    · have : (settleOne cfg db x.id void amt (fresh k) (refs k)).2 = .error .voided := by
        unfold settleOne voidInflight commitInflight
        rw [hx, hfetch]
        cases void <;> rfl
      simp only [this]
      exact List.mem_cons_self
    · simp only
      apply List.mem_cons_of_mem
      obtain ⟨y, hy, hyi⟩ := h
      have hstep : settleOne cfg db x.id void amt (fresh k) (refs k) = (db, (settleOne cfg db x.id void amt (fresh k) (refs k)).2) ∨
          ∃ w n1 n2, (settleOne cfg db x.id void amt (fresh k) (refs k)).1 = (recordSingle cfg db w n1 n2).1 := by
        unfold settleOne voidInflight commitInflight
        cases void with
        | true =>
          simp only [if_true]
          cases fetchInflight db x.id with
          | error e => exact .inl rfl
          | ok z =>
            dsimp only
            split
            · exact .inl rfl
            · exact .inr ⟨_, _, _, rfl⟩
        | false =>
          simp only [Bool.false_eq_true, if_false]
          cases fetchInflight db x.id with
          | error e => exact .inl rfl
          | ok z =>
            dsimp only
            split
            · exact .inl rfl
            · exact .inr ⟨_, _, _, rfl⟩
      have hy' : ∃ x ∈ ts, x.id = id := by
        rcases List.mem_cons.1 hy with rfl | hy
        · exact absurd hyi hx
        · exact ⟨y, hy, hyi⟩
      rcases hstep with h1 | ⟨w, n1, n2, h1⟩
      · rw [h1]; exact settle_voided (id := id) ts (t := t) hi hm he hf hv hy'
      · rw [h1]
        have grown : ∃ added, (recordSingle cfg db w n1 n2).1.txns = db.txns ++ added := recordSingle_txns ..
        obtain ⟨added, hg⟩ := grown
        refine settle_voided (id := id) ts (t := t) (recordSingle_inv hi) (by rw [hg]; exact List.mem_append_left _ hm) he hf ?_ hy'
        unfold DB.parentVoid at hv ⊢
        rw [hg, List.any_append, hv]; rfl

/-- **C184, a voided hold.** For a hold that was voided the dry run says it would not apply, and the call answers
that it was voided. -/
theorem c184_voided {cfg : Cfg} {db : DB} {t : Txn} {void : Bool} {amt : Int} {fresh refs : Nat → String} (hi : Inv db)
    (hm : t ∈ db.txns) (hs : t.status = .inflight) (hv : db.parentVoid t.id = true) :
    (∃ p, previewClear cfg db t.id void amt = .ok p ∧ p.wouldApply = false ∧ p.total = 0) ∧
    .error .voided ∈ (settleCall cfg db t.id void amt fresh refs).2 := by
  have hf : isInflightTxn t = true := by simp [isInflightTxn, hs]
  refine ⟨⟨⟨false, 0, [], []⟩, ?_, rfl, rfl⟩, ?_⟩
  · have hfetch : fetchInflight db t.id = .error .voided := by
      unfold fetchInflight
      have h2 : isInflightTxn (bare t) = true := hf
      rw [getTxn_mem hi hm]
      simp only [h2, if_true, hv]
    unfold previewClear shownLegs
    rw [hfetch]; rfl
  · refine settle_voided _ (t := t) hi hm rfl hf hv ⟨t, ?_, rfl⟩
    unfold Atomic.inflightLegs
    dsimp only
    have : t ∈ db.txns.filter (fun x => (decide (x.id = t.id) || decide (x.parent = t.id) || decide (x.metaQueuedParent = t.id)) && decide (x.status = .inflight)) :=
      List.mem_filter.2 ⟨hm, by simp [hs]⟩
    rw [if_neg (List.ne_nil_of_mem this)]
    exact List.mem_reverse.2 this

/-! ### Where the claim fails -/

/-- C184 without the restrictions on the id. -/
def C184Full : Prop := ∀ (as : List Act) (id : String) (void : Bool) (amt : Int) (fresh refs : Nat → String) (p : Cleared),
  Fit (acts {} {} as) [] fresh refs → previewClear {} (acts {} {} as) id void amt = .ok p → p.wouldApply = true →
  allSettled (settleCall {} (acts {} {} as) id void amt fresh refs).2

/-- `a` has 1000; of the two holds of 100 of the batch `b1` one was voided, and there is a third hold. -/
def twoHolds : List Act := [.base (.create "a" "" "USD"), .base (.create "b" "" "USD"),
  .base (.post { id := "f", source := "b", destination := "a", reference := "f", currency := "USD", preciseAmount := some 1000, precision := 1, allowOverdraft := true } "x" "y"),
  .base (.post { id := "h1", source := "a", destination := "b", reference := "h1", currency := "USD", preciseAmount := some 100, precision := 1, parent := "b1", inflight := true } "x" "y"),
  .base (.post { id := "h2", source := "a", destination := "b", reference := "h2", currency := "USD", preciseAmount := some 100, precision := 1, parent := "b1", inflight := true } "x" "y"),
  .base (.post { id := "h3", source := "a", destination := "b", reference := "h3", currency := "USD", preciseAmount := some 100, precision := 1, inflight := true } "x" "y"),
  .void "h1" "v1" "v1" "x" "y"]

theorem new_ids {db : DB} {l : List String} (h : db.txns.map (·.id) = l) (hl : ∀ s ∈ l, s.toList.head? ≠ some 'n') (k : Nat) :
    db.hasTxnId (longIds k) = false := by
  unfold DB.hasTxnId
  rw [List.any_eq_false]
  intro t ht he
  simp only [decide_eq_true_eq] at he
  have : t.id ∈ db.txns.map (·.id) := List.mem_map.2 ⟨t, ht, rfl⟩
  rw [h] at this
  exact longIds_not (hl _ this) he

theorem new_refs {db : DB} {l : List String} (h : db.txns.map (·.reference) = l) (hl : ∀ s ∈ l, s.toList.head? ≠ some 'n') (k : Nat) :
    db.hasRef (longIds k) = false := by
  unfold DB.hasRef
  rw [List.any_eq_false]
  intro t ht he
  simp only [decide_eq_true_eq] at he
  have : t.reference ∈ db.txns.map (·.reference) := List.mem_map.2 ⟨t, ht, rfl⟩
  rw [h] at this
  exact longIds_not (hl _ this) he

/-- **C184, the full claim fails for a batch.** The dry run does not ask whether the holds of a batch were voided:
it says that a void of the batch would apply and release 200, paid out of somebody else's hold; the call refuses
the voided hold and releases 100. -/
theorem c184_voided_hold_fails : ¬ C184Full := by
  intro h
  have hids : (acts {} {} twoHolds).txns.map (·.id) = ["f", "h1", "h2", "h3", "v1"] := by decide +kernel
  have hrefs : (acts {} {} twoHolds).txns.map (·.reference) = ["f", "h1", "h2", "h3", "v1"] := by decide +kernel
  have hp : ∃ p, previewClear {} (acts {} {} twoHolds) "b1" true 0 = .ok p ∧ p.wouldApply = true ∧ p.total = 200 := by
    have : (match previewClear {} (acts {} {} twoHolds) "b1" true 0 with
      | .ok p => p.wouldApply && decide (p.total = 200)
      | .error _ => false) = true := by decide +kernel
    split at this
    · rw [Bool.and_eq_true, decide_eq_true_eq] at this
      exact ⟨_, by assumption, this⟩
    · cases this
  obtain ⟨p, hp1, hp2, _⟩ := hp
  have hall := h twoHolds "b1" true 0 longIds longIds p
    ⟨longIds_inj, new_ids hids (by decide +kernel), longIds_inj, new_refs hrefs (by decide +kernel), by simp, by simp, by simp⟩ hp1 hp2
  have : (settleCall {} (acts {} {} twoHolds) "b1" true 0 longIds longIds).2.any (fun y => match y with
      | .ok (.posted _) => false
      | _ => true) = true := by decide +kernel
  rw [List.any_eq_true] at this
  obtain ⟨y, hy, hb⟩ := this
  obtain ⟨row, rfl⟩ := hall y hy
  cases hb

/-- `a` has 1000; the queued hold `q` of 700 was placed as `h`, of which 300 were committed. -/
def queuedHold : List Act := twoHolds.take 3 ++ [
  .base (.store { id := "q", source := "a", destination := "b", reference := "q", currency := "USD", preciseAmount := some 700, precision := 1, status := .queued, metaInflight := some true }),
  .base (.post { id := "h", source := "a", destination := "b", reference := "q_q", currency := "USD", preciseAmount := some 700, precision := 1, parent := "q", metaQueuedParent := "q", inflight := true } "x" "y"),
  .commit "h" 300 "c1" "c1" "x" "y"]

/-- **C184 fails for the id a queued request was answered with.** The dry run takes the queued row for the hold, of
which nothing was committed, and says that committing the rest would not apply; the call commits 400. -/
theorem c184_queued_id_fails :
    (match previewClear {} (acts {} {} queuedHold) "q" false 0 with
      | .ok p => some (p.wouldApply, p.total)
      | .error _ => none) = some (false, 0) ∧
    (settleCall {} (acts {} {} queuedHold) "q" false 0 longIds longIds).2.map settledAmount = [400] := by decide +kernel

/-! ### Concrete cases -/

/-- The batch with both holds. -/
def batchHolds : List Act := twoHolds.take 6

example : Fit (acts {} {} batchHolds) (Atomic.inflightLegs (acts {} {} batchHolds) "b1") longIds longIds :=
  ⟨longIds_inj, new_ids (l := ["f", "h1", "h2", "h3"]) (by decide +kernel) (by decide +kernel), longIds_inj,
    new_refs (l := ["f", "h1", "h2", "h3"]) (by decide +kernel) (by decide +kernel), by decide +kernel, by decide +kernel, by decide +kernel⟩

-- the id of a batch, and of one hold
example : fetchInflight (acts {} {} batchHolds) "b1" = .error .notFound ∧ (acts {} {} batchHolds).parentVoid "b1" = false ∧
    ((Atomic.inflightLegs (acts {} {} batchHolds) "h1").map bare).head? = (fetchInflight (acts {} {} batchHolds) "h1").toOption ∧
    (Atomic.inflightLegs (acts {} {} batchHolds) "h1").length = 1 := by decide +kernel

-- committing 60 of each of the two holds of 100, then 60 of each again
example : (match previewClear {} (acts {} {} batchHolds) "b1" false 60 with
      | .ok p => some (p.wouldApply, p.total, p.balances.map fun x => (x.1, x.2.balance, x.2.inflightDebit))
      | .error _ => none) = some (true, 120, [("a", 880, 180), ("b", -880, 0)]) ∧
    (settleCall {} (acts {} {} batchHolds) "b1" false 60 longIds longIds).2.map settledAmount = [60, 60] ∧
    (match previewClear {} (settleCall {} (acts {} {} batchHolds) "b1" false 60 longIds longIds).1 "b1" false 60 with
      | .ok p => some (p.wouldApply, p.total, p.legs.map Hitch.of)
      | .error _ => none) = some (false, 0, [true, true]) := by decide +kernel

example : ∃ t ∈ (acts {} {} twoHolds).txns, t.status = .inflight ∧ (acts {} {} twoHolds).parentVoid t.id = true := by decide +kernel

end Blnk.Undo
