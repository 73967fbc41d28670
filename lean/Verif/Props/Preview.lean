import Verif.Lemmas.PreviewPost
import Verif.Model.Queue
/-
C54: a dry run predicts the real outcome.

`named` and `figures` (`Lemmas/PreviewPost.lean`, `Lemmas/Preview.lean`) are the specification:
the balance an identifier stands for, and its six amounts.
-/
namespace Blnk.Preview

/-- Balance ids the server generates (`bln_…`, `model/model.go:50-55`) are neither empty nor
indicators. -/
def Sane (db : DB) : Prop := ∀ b ∈ db.balances, b.id ≠ "" ∧ isIndicator b.id = false

/-- A request for one movement: not a settlement, with a reference, and generated ids that are new. -/
structure Request (db : DB) (t : Txn) (n1 n2 : String) : Prop where
  plain : t.Plain
  ref : t.reference ≠ ""
  id : db.hasTxnId t.id = false
  fresh1 : n1 ∉ ids db.balances
  fresh2 : n2 ∉ ids db.balances
  fresh12 : n1 ≠ n2
  apart1 : t.destination ≠ n1
  apart2 : t.source ≠ n2

/-! ### What a preview reads -/

theorem lookup_ok {cfg : Cfg} {db : DB} {i c : String} {b : Balance} (h : lookup cfg db i c = .ok b) :
    Reads db i c b ∧ ((cfg.queuedChecks = false ∨ isIndicator i = false) → b.queuedDebit = queuedSeen cfg db i) ∧
      ((named db i c = none ∧ isIndicator i = true ∧ b.id = i) ∨ ∃ r, named db i c = some r ∧ b.id = r.id) := by
  unfold lookup at h
  split at h
  · cases h
  · by_cases hi : isIndicator i = true
    · rw [if_pos hi] at h
      have hn : named db i c = db.balances.find? (fun b => b.indicator = i && b.currency = c) := by
        simp only [named, hi, if_true]
      split at h
      · rename_i r hr
        cases h
        refine ⟨?_, ?_, ?_⟩
        · unfold Reads; rw [hn, hr]; rfl
        · rintro (h | h)
          · simp [queuedSeen, h]
          · rw [hi] at h; cases h
        · rw [hn, hr]; exact .inr ⟨r, rfl, rfl⟩
      · rename_i hr
        cases h
        refine ⟨?_, ?_, ?_⟩
        · unfold Reads; rw [hn, hr]; exact ⟨hi, rfl⟩
        · rintro (h | h)
          · simp [queuedSeen, h, standIn]
          · rw [hi] at h; cases h
        · rw [hn, hr]; exact .inl ⟨rfl, hi, rfl⟩
    · rw [if_neg hi] at h
      obtain ⟨r, hr, hf, hid, rfl⟩ := load_ok h
      have hn : named db i c = some r := by simp only [named, hi]; exact hf
      refine ⟨?_, ?_, ?_⟩
      · unfold Reads; rw [hn]; rfl
      · intro _; rfl
      · exact .inr ⟨r, hn, rfl⟩

theorem lookup_error {cfg : Cfg} {db : DB} {i c : String} {e : OpErr} (hs : Sane db) (h : lookup cfg db i c = .error e) :
    isIndicator i = false ∧ db.find i = none := by
  unfold lookup at h
  split at h
  · rename_i hb
    subst hb
    refine ⟨by decide, ?_⟩
    unfold DB.find
    rw [List.find?_eq_none]
    intro b hb
    simpa using (hs b hb).1
  · split at h
    · split at h <;> cases h
    · rename_i hi
      refine ⟨by simpa using hi, ?_⟩
      unfold DB.load at h
      split at h
      · assumption
      · cases h

/-! ### When a posting cannot succeed -/

theorem record_cases {cfg : Cfg} {db : DB} {t : Txn} {n1 n2 : String} (hi : Inv db) (ht : t.Plain) :
    (∃ e, (recordSingle cfg db t n1 n2).2 = .refused e) ∨
    ∃ db1 sid db2 did, db.resolve t.source t.currency n1 = .ok (db1, sid) ∧
      db1.resolve t.destination t.currency n2 = .ok (db2, did) ∧ sid ≠ did ∧ db2.hasRef t.reference = false ∧
      (∃ r, db2.find sid = some r) ∧ ∃ r, db2.find did = some r := by
  unfold recordSingle
  split
  · exact .inl ⟨_, rfl⟩
  · rename_i db1 sid e1
    split
    · exact .inl ⟨_, rfl⟩
    · rename_i db2 did e2
      generalize hu : ({ t with source := sid, destination := did } : Txn) = u
      have hup : u.Plain := by rw [← hu]; exact ht
      cases h : (postResolved cfg db2 u).2 with
      | refused e => exact .inl ⟨e, rfl⟩
      | discarded =>
        exfalso
        unfold postResolved at h
        cases hp : prepareSingle cfg db2 u with
        | error e => rw [hp] at h; cases h
        | ok w =>
          cases w with
          | some w =>
            rw [hp] at h
            simp only at h
            cases hq : db2.persist w with
            | error e => rw [hq] at h; cases h
            | ok x => rw [hq] at h; cases h
          | none =>
            unfold prepareSingle at hp
            split at hp
            · cases hp
            · split at hp
              · split at hp
                · cases hp
                · rename_i s' d' ha
                  obtain ⟨a1, a2⟩ := applyToBalances_inv ha
                  split at hp
                  · rename_i hz
                    obtain ⟨p, h1, h2, _⟩ := applySource_pos hup a1
                    rw [finalRow_plain hup, h2] at hz
                    simp at hz; omega
                  · cases hp
              · cases hp
      | posted rows =>
        right
        have P := (postResolved_posted (resolve_inv (resolve_inv hi e1) e2) h).2
        obtain ⟨rs, rd, _, _, _, _, f1, f2, _⟩ := P.exact
        have d := P.distinct
        have f := P.fresh
        rw [← hu] at f1 f2 d f
        exact ⟨db1, sid, db2, did, e1, e2, d, f, ⟨rs, f1⟩, rd, f2⟩

theorem resolve_txns {db db' : DB} {i c n x : String} (h : db.resolve i c n = .ok (db', x)) : db'.txns = db.txns :=
  (resolve_balances h).1

theorem record_duplicate {cfg : Cfg} {db : DB} {t : Txn} {n1 n2 : String} (hi : Inv db) (ht : t.Plain)
    (hr : db.hasRef t.reference = true) : ∃ e, (recordSingle cfg db t n1 n2).2 = .refused e := by
  rcases record_cases (cfg := cfg) (n1 := n1) (n2 := n2) hi ht with h | ⟨db1, sid, db2, did, e1, e2, _, h, _⟩
  · exact h
  · exfalso
    unfold DB.hasRef at h hr
    rw [resolve_txns e2, resolve_txns e1] at h
    rw [h] at hr; cases hr

/-- Where resolving leads when the identifier names a balance. -/
theorem resolve_existing {db : DB} {i c n : String} {r : Balance} (h : named db i c = some r) :
    db.resolve i c n = .ok (db, r.id) := by
  unfold DB.resolve
  by_cases hi : isIndicator i = true
  · have h' := h
    simp only [named, hi, if_true] at h'
    simp only [hi, if_true, h']
  · rw [if_neg hi, named_id (by simpa using hi) h]

theorem record_same {cfg : Cfg} {db : DB} {t : Txn} {n1 n2 : String} (hi : Inv db) (ht : t.Plain) (hf : n1 ∉ ids db.balances)
    (h : (t.source = t.destination ∧ (named db t.source t.currency = none → isIndicator t.source = true)) ∨
      ∃ r r', named db t.source t.currency = some r ∧ named db t.destination t.currency = some r' ∧ r.id = r'.id) :
    ∃ e, (recordSingle cfg db t n1 n2).2 = .refused e := by
  rcases record_cases (cfg := cfg) (n1 := n1) (n2 := n2) hi ht with k | ⟨db1, sid, db2, did, e1, e2, hne, _⟩
  · exact k
  · exfalso
    rcases h with ⟨he, hn⟩ | ⟨r, r', h1, h2, h3⟩
    · have hr : ∃ b, Reads db t.source t.currency b := by
        unfold Reads
        cases hm : named db t.source t.currency with
        | some r => exact ⟨r, rfl⟩
        | none => exact ⟨{ id := "" }, hn hm, rfl⟩
      obtain ⟨b, hb⟩ := hr
      obtain ⟨db1', sid', e1', R⟩ := resolve_reads (n := n1) hi hb hf
      rw [e1] at e1'; cases e1'
      obtain ⟨r, hr1, hr2, _⟩ := R.row
      rw [← he, resolve_existing hr1] at e2
      cases e2
      exact hne hr2.symm
    · rw [resolve_existing h1] at e1; cases e1
      rw [resolve_existing h2] at e2; cases e2
      exact hne h3

theorem record_missing {cfg : Cfg} {db : DB} {t : Txn} {n1 n2 : String} (hi : Inv db) (ht : t.Plain)
    (h1 : t.destination ≠ n1) (h2 : t.source ≠ n2)
    (h : (isIndicator t.source = false ∧ db.find t.source = none) ∨ (isIndicator t.destination = false ∧ db.find t.destination = none)) :
    ∃ e, (recordSingle cfg db t n1 n2).2 = .refused e := by
  have app : ∀ {d d' : DB} {j n x k : String}, d.resolve j t.currency n = .ok (d', x) → k ≠ n → d.find k = none → d'.find k = none := by
    intro d d' j n x k hr hk hn
    obtain ⟨_, new, hb, hnew⟩ := resolve_balances hr
    unfold DB.find at hn ⊢
    rw [hb, List.find?_append, hn, Option.none_or, List.find?_eq_none]
    intro b hb
    have e := (hnew b hb).1
    subst e
    simpa using (Ne.symm hk)
  rcases record_cases (cfg := cfg) (n1 := n1) (n2 := n2) hi ht with k | ⟨db1, sid, db2, did, e1, e2, _, _, ⟨r, f1⟩, r', f2⟩
  · exact k
  · exfalso
    rcases h with ⟨g1, g2⟩ | ⟨g1, g2⟩
    · have hh := e1
      simp only [DB.resolve, g1] at hh
      cases hh
      rw [app e2 h2 g2] at f1; cases f1
    · have hh := e2
      simp only [DB.resolve, g1] at hh
      cases hh
      rw [app e1 h1 g2] at f2; cases f2

/-! ### One movement -/

/-- The fields of a submitted request a posting looks up. -/
theorem submit_fields (t : Txn) : (submit t).source = t.source ∧ (submit t).destination = t.destination ∧
    (submit t).currency = t.currency ∧ (submit t).reference = t.reference ∧ (submit t).id = t.id := by
  have k := applyPrecision_keeps t
  exact ⟨k.2.2.2.2.2.2.2.1, k.2.2.2.2.2.2.2.2.1, k.2.2.2.2.2.2.2.2.2, k.2.2.2.2.1, k.2.2.2.2.2.1⟩

/-- **C54, "would apply".** If a dry run of one movement says it would apply, the same request
posted synchronously on the same ledger is stored, and the two balances end with exactly the
figures shown. Missing from the full claim: a source given as an indicator while queued checks are on
(see `c54_queued_checks_fail`), requests that go through the queue (`c54_queued_request_fails`). -/
theorem c54_would_apply_partial {cfg : Cfg} {db : DB} {t : Txn} {n1 n2 : String} {p : Shown} (hi : Inv db)
    (hq : Request db t n1 n2) (hseen : cfg.queuedChecks = false ∨ isIndicator t.source = false)
    (h : previewSingle cfg db t = .ok p) (ha : p.wouldApply = true) :
    ∃ row s d, (recordSingle cfg db (submit t) n1 n2).2 = .posted [row] ∧
      named (recordSingle cfg db (submit t) n1 n2).1 t.source t.currency = some s ∧
      named (recordSingle cfg db (submit t) n1 n2).1 t.destination t.currency = some d ∧
      s.id = row.source ∧ d.id = row.destination ∧
      figures s = figures p.srcAfter ∧ figures d = figures p.dstAfter := by
  unfold previewSingle at h
  split at h
  · cases h
  · rename_i s hs
    split at h
    · cases h
    · rename_i d hd
      split at h
      · cases h; cases ha
      · rename_i s' d' hap
        split at h
        · cases h; cases ha
        · rename_i hc
          cases h
          obtain ⟨e1, e2, e3, e4, e5⟩ := submit_fields t
          have hsub := submit_same hq.plain
          have hmove : SameMove (projected t) (submit t) := (projected_same hq.plain).trans hsub.symm
          obtain ⟨a1, a2⟩ := applyToBalances_inv hap
          obtain ⟨l1, l2, l3⟩ := lookup_ok hs
          obtain ⟨m1, m2, m3⟩ := lookup_ok hd
          have hcav : db.hasRef t.reference = false ∧ s.id ≠ d.id := by
            unfold caveat at hc
            split at hc
            · cases hc
            · rename_i hr
              split at hc
              · cases hc
              · rename_i hne
                refine ⟨?_, hne⟩
                simp only [ne_eq, hq.ref, not_false_eq_true, decide_true, Bool.true_and, Bool.not_eq_true] at hr
                exact hr
          have hdiff : Different db t.source t.destination t.currency := by
            constructor
            · intro he
              rw [he] at hs
              rw [hs] at hd
              cases hd
              exact hcav.2 rfl
            · intro r r' hr hr' he
              rcases l3 with ⟨h1, _⟩ | ⟨x, h1, h2⟩
              · rw [h1] at hr; cases hr
              · rcases m3 with ⟨h3, _⟩ | ⟨y, h3, h4⟩
                · rw [h3] at hr'; cases hr'
                · rw [h1] at hr; cases hr
                  rw [h3] at hr'; cases hr'
                  exact hcav.2 (by rw [h2, h4, he])
          have hready : Ready cfg db (submit t) n1 n2 s := by
            refine ⟨hsub.plain, by rw [e4]; exact hcav.1, by rw [e5]; exact hq.id, hq.fresh1, hq.fresh2, hq.fresh12,
              by rw [e2]; exact hq.apart1, by rw [e1]; exact l2 hseen, by rw [e1]; exact hseen⟩
          obtain ⟨row, hp, S⟩ := record_accepts (t := submit t) (s := s) (d := d) (s' := s') (d' := d') hi hready
            (by rw [e1, e3]; exact l1) (by rw [e2, e3]; exact m1) (by rw [e1, e2, e3]; exact hdiff)
            (by rw [← hmove.source]; exact a1) (by rw [← hmove.destination]; exact a2)
          obtain ⟨r, x1, x2, x3⟩ := S.src
          obtain ⟨r', y1, y2, y3⟩ := S.dst
          rw [e1, e3] at x1
          rw [e2, e3] at y1
          exact ⟨row, r, r', hp, x1, y1, x3, y3, x2, y2⟩

/-- **C54, "would not apply".** If a dry run of one movement reports a rejection, or answers with
an error, the same request posted synchronously on the same ledger is refused. -/
theorem c54_rejection_partial {cfg : Cfg} {db : DB} {t : Txn} {n1 n2 : String} (hi : Inv db) (hsane : Sane db)
    (hq : Request db t n1 n2) (hseen : cfg.queuedChecks = false ∨ isIndicator t.source = false)
    (h : ∀ p, previewSingle cfg db t = .ok p → p.wouldApply = false) :
    ∃ e, (recordSingle cfg db (submit t) n1 n2).2 = .refused e := by
  obtain ⟨e1, e2, e3, e4, e5⟩ := submit_fields t
  have hsub := submit_same hq.plain
  have hmove : SameMove (projected t) (submit t) := (projected_same hq.plain).trans hsub.symm
  cases hs : lookup cfg db t.source t.currency with
  | error e =>
    have hm := lookup_error hsane hs
    exact record_missing hi hsub.plain (by rw [e2]; exact hq.apart1) (by rw [e1]; exact hq.apart2) (.inl (by rw [e1]; exact hm))
  | ok s =>
    cases hd : lookup cfg db t.destination t.currency with
    | error e =>
      have hm := lookup_error hsane hd
      exact record_missing hi hsub.plain (by rw [e2]; exact hq.apart1) (by rw [e1]; exact hq.apart2) (.inr (by rw [e2]; exact hm))
    | ok d =>
      obtain ⟨l1, l2, l3⟩ := lookup_ok hs
      obtain ⟨m1, m2, m3⟩ := lookup_ok hd
      by_cases hr : db.hasRef t.reference = true
      · exact record_duplicate hi hsub.plain (by rw [e4]; exact hr)
      · have hr' : db.hasRef t.reference = false := by simpa using hr
        by_cases hsame : s.id = d.id
        · refine record_same hi hsub.plain hq.fresh1 ?_
          rw [e1, e2, e3]
          rcases l3 with ⟨h1, h1', h1''⟩ | ⟨x, h1, h2⟩ <;> rcases m3 with ⟨h3, h3', h3''⟩ | ⟨y, h3, h4⟩
          · left
            rw [h1'', h3''] at hsame
            exact ⟨hsame, fun _ => h1'⟩
          · exfalso
            have := (hsane y (named_mem h3)).2
            rw [← h4, ← hsame, h1'', h1'] at this; cases this
          · exfalso
            have := (hsane x (named_mem h1)).2
            rw [← h2, hsame, h3'', h3'] at this; cases this
          · right; exact ⟨x, y, h1, h3, by rw [← h2, ← h4, hsame]⟩
        · have hcav : caveat db t s d = none := by simp [caveat, hr', hsame]
          cases hap : applyToBalances (projected t) s d with
          | ok x =>
            exfalso
            have := h ⟨true, none, s, x.1, d, x.2⟩ (by simp [previewSingle, hs, hd, hap, hcav])
            cases this
          | error e =>
            have hdiff : Different db t.source t.destination t.currency := by
              constructor
              · intro he
                rw [he] at hs
                rw [hs] at hd
                cases hd
                exact hsame rfl
              · intro r r' hr1 hr2 he
                rcases l3 with ⟨h1, _⟩ | ⟨x, h1, h2⟩
                · rw [h1] at hr1; cases hr1
                · rcases m3 with ⟨h3, _⟩ | ⟨y, h3, h4⟩
                  · rw [h3] at hr2; cases hr2
                  · rw [h1] at hr1; cases hr1
                    rw [h3] at hr2; cases hr2
                    exact hsame (by rw [h2, h4, he])
            have hready : Ready cfg db (submit t) n1 n2 s := by
              refine ⟨hsub.plain, by rw [e4]; exact hr', by rw [e5]; exact hq.id, hq.fresh1, hq.fresh2, hq.fresh12,
                by rw [e2]; exact hq.apart1, by rw [e1]; exact l2 hseen, by rw [e1]; exact hseen⟩
            have hap' : applyToBalances (submit t) s d = .error e := by
              unfold applyToBalances at hap ⊢
              rw [← hmove.source, ← hmove.destination]; exact hap
            exact ⟨_, record_refuses (s := s) (d := d) hi hready (by rw [e1, e3]; exact l1) (by rw [e2, e3]; exact m1)
              (by rw [e1, e2, e3]; exact hdiff) hap'⟩

/-! ### Several movements -/

/-- A movement of a request together with the balance ids the server would generate for it. -/
structure Op where
  t : Txn
  n1 : String
  n2 : String
deriving Repr

/-- What is posted for it. -/
def Op.real (o : Op) : Txn × String × String := (submit o.t, o.n1, o.n2)

/-- Conditions on a list of movements over the identifiers `names`, all in currency `c`: generated
ids are new and differ from each other, and no transaction id is in use. -/
structure Batch (db : DB) (names : List String) (c : String) (ops : List Op) : Prop where
  each : ∀ o ∈ ops, o.t.Plain ∧ o.t.reference ≠ "" ∧ o.t.currency = c ∧ o.t.source ∈ names ∧ o.t.destination ∈ names ∧
    db.hasTxnId o.t.id = false ∧ o.n1 ∉ ids db.balances ∧ o.n2 ∉ ids db.balances ∧ o.n1 ≠ o.n2 ∧ o.n1 ∉ names ∧ o.n2 ∉ names
  apart : ops.Pairwise fun a b => a.t.id ≠ b.t.id ∧ a.n1 ≠ b.n1 ∧ a.n1 ≠ b.n2 ∧ a.n2 ≠ b.n1 ∧ a.n2 ≠ b.n2

/-- No balance goes by two of the identifiers. -/
def OneName (db : DB) (names : List String) (c : String) : Prop :=
  ∀ i ∈ names, ∀ j ∈ names, i ≠ j → ∀ r r', named db i c = some r → named db j c = some r' → r.id ≠ r'.id

/-- The id a preview shows for an identifier. -/
def base (db : DB) (c i : String) : String := match named db i c with | some r => r.id | none => i

/-- The working balances mirror the ledger after the same movements were posted. -/
structure Sim (db0 : DB) (names : List String) (c : String) (m : BSet) (db : DB) : Prop where
  inv : Inv db
  one : OneName db names c
  has : ∀ i ∈ names, ∀ b, m.get i = some b → b.queuedDebit = none ∧ b.id = base db0 c i ∧
    (named db0 i c = none → isIndicator i = true) ∧ ∃ r, named db i c = some r ∧ figures r = figures b
  not : ∀ i ∈ names, m.get i = none → named db i c = named db0 i c

theorem get_put (m : BSet) (k j : String) (b : Balance) : (m.put k b).get j = if k = j then some b else m.get j := by
  induction m with
  | nil => rfl
  | cons h t ih =>
    obtain ⟨x, y⟩ := h
    unfold BSet.put
    by_cases hx : x = k
    · subst hx
      simp only [if_true, BSet.get]
      split <;> rfl
    · simp only [hx, if_false, BSet.get, ih]
      by_cases hj : x = j
      · subst hj; simp only [if_true, if_neg (Ne.symm hx)]
      · simp only [hj, if_false]

theorem resolve_get {cfg : Cfg} {db : DB} {m m1 : BSet} {i c : String} {b : Balance} (h : m.resolve cfg db i c = .ok (m1, b)) :
    (∀ j, j ≠ i → m1.get j = m.get j) ∧ m1.get i = some b ∧
      (m.get i = some b ∨ (m.get i = none ∧ lookup cfg db i c = .ok b)) := by
  unfold BSet.resolve at h
  split at h
  · rename_i x hx
    cases h
    exact ⟨fun _ _ => rfl, hx, .inl hx⟩
  · rename_i hx
    split at h
    · cases h
    · rename_i x hl
      cases h
      refine ⟨fun j hj => by rw [get_put, if_neg (Ne.symm hj)], by rw [get_put, if_pos rfl], .inr ⟨hx, hl⟩⟩

theorem resolve_none {cfg : Cfg} {db : DB} {m : BSet} {i c : String} {e : OpErr} (h : m.resolve cfg db i c = .error e) :
    m.get i = none ∧ lookup cfg db i c = .error e := by
  unfold BSet.resolve at h
  split at h
  · cases h
  · rename_i hx
    split at h
    · rename_i e' hl; cases h; exact ⟨hx, hl⟩
    · cases h

theorem sim_reads {cfg : Cfg} {db0 db : DB} {names : List String} {c i : String} {m : BSet} {b : Balance}
    (hc : cfg.queuedChecks = false) (S : Sim db0 names c m db) (hi : i ∈ names)
    (h : m.get i = some b ∨ (m.get i = none ∧ lookup cfg db0 i c = .ok b)) :
    Reads db i c b ∧ b.queuedDebit = none ∧ b.id = base db0 c i ∧ (named db0 i c = none → isIndicator i = true) := by
  rcases h with h | ⟨h, hl⟩
  · obtain ⟨h1, h2, h5, r, h3, h4⟩ := S.has i hi b h
    exact ⟨by unfold Reads; rw [h3]; exact h4.symm, h1, h2, h5⟩
  · obtain ⟨l1, l2, l3⟩ := lookup_ok hl
    refine ⟨?_, ?_, ?_, ?_⟩
    · unfold Reads at l1 ⊢; rw [S.not i hi h]; exact l1
    · rw [l2 (.inl hc), queuedSeen, hc]; rfl
    · unfold base
      rcases l3 with ⟨h1, _, h2⟩ | ⟨r, h1, h2⟩
      · rw [h1]; exact h2
      · rw [h1]; exact h2
    · intro hn
      rcases l3 with ⟨_, h1, _⟩ | ⟨r, h1, _⟩
      · exact h1
      · rw [hn] at h1; cases h1

theorem base_inj {db : DB} {names : List String} {c i j : String} (hs : Sane db) (ho : OneName db names c) (hi : i ∈ names)
    (hj : j ∈ names) (hii : named db i c = none → isIndicator i = true) (hjj : named db j c = none → isIndicator j = true)
    (h : base db c i = base db c j) : i = j := by
  unfold base at h
  cases h1 : named db i c with
  | none =>
    rw [h1] at h
    cases h2 : named db j c with
    | none => rw [h2] at h; exact h
    | some r =>
      rw [h2] at h
      have := (hs r (named_mem h2)).2
      simp only at h
      rw [← h, hii h1] at this; cases this
  | some r =>
    rw [h1] at h
    cases h2 : named db j c with
    | none =>
      rw [h2] at h
      have := (hs r (named_mem h1)).2
      simp only at h
      rw [h, hjj h2] at this; cases this
    | some r' =>
      rw [h2] at h
      by_cases hij : i = j
      · exact hij
      · exact absurd h (ho i hi j hj hij r r' h1 h2)

theorem batch_request {db : DB} {names : List String} {c : String} {o : Op} {ops : List Op} (hb : Batch db names c (o :: ops)) :
    Request db o.t o.n1 o.n2 := by
  obtain ⟨h1, h2, h3, h4, h5, h6, h7, h8, h9, h10, h11⟩ := hb.each o (by simp)
  exact ⟨h1, h2, h6, h7, h8, h9, fun h => h10 (h ▸ h5), fun h => h11 (h ▸ h4)⟩

/-- After a posting the remaining movements still meet the conditions. -/
theorem batch_rest {db : DB} {names : List String} {c : String} {o : Op} {ops : List Op} {s' d' : Balance} {db' : DB} {row : Txn}
    (hb : Batch db names c (o :: ops)) (St : Stepped db (submit o.t) o.n1 o.n2 s' d' db' row) : Batch db' names c ops := by
  have hp := List.pairwise_cons.1 hb.apart
  refine ⟨?_, hp.2⟩
  intro x hx
  obtain ⟨h1, h2, h3, h4, h5, h6, h7, h8, h9, h10, h11⟩ := hb.each x (List.mem_cons_of_mem _ hx)
  obtain ⟨k1, k2, k3, k4, k5⟩ := hp.1 x hx
  have hid := St.id
  rw [(submit_fields o.t).2.2.2.2] at hid
  refine ⟨h1, h2, h3, h4, h5, ?_, ?_, ?_, h9, h10, h11⟩
  · unfold DB.hasTxnId at h6 ⊢
    rw [St.txns, List.any_append, h6]
    simp [hid, k1]
  · intro h
    rcases St.ids _ h with h | h | h
    · exact h7 h
    · exact k2 h.symm
    · exact k4 h.symm
  · intro h
    rcases St.ids _ h with h | h | h
    · exact h8 h
    · exact k3 h.symm
    · exact k5 h.symm

/-- One movement: the preview of it on the working balances and the posting agree. -/
theorem sim_step {cfg : Cfg} {db0 db : DB} {names : List String} {c : String} {m : BSet} {o : Op} {ops : List Op}
    (hc : cfg.queuedChecks = false) (hsane : Sane db0) (ho : OneName db0 names c) (S : Sim db0 names c m db)
    (hb : Batch db names c (o :: ops)) (href : db.hasRef o.t.reference = false) :
    (∀ m', legStep cfg db0 m o.t = .ok (m', none) → ∃ row, (recordSingle cfg db (submit o.t) o.n1 o.n2).2 = .posted [row] ∧
      row.reference = o.t.reference ∧ Sim db0 names c m' (recordSingle cfg db (submit o.t) o.n1 o.n2).1 ∧
      (recordSingle cfg db (submit o.t) o.n1 o.n2).1.txns = db.txns ++ [row] ∧
      Batch (recordSingle cfg db (submit o.t) o.n1 o.n2).1 names c ops) ∧
    ((∀ m', legStep cfg db0 m o.t ≠ .ok (m', none)) → ∃ e, (recordSingle cfg db (submit o.t) o.n1 o.n2).2 = .refused e) := by
  have hq := batch_request hb
  obtain ⟨hp, _, hcur, hsn, hdn, _, _, _, _, hn1, hn2⟩ := hb.each o (by simp)
  obtain ⟨e1, e2, e3, e4, e5⟩ := submit_fields o.t
  have hsub := submit_same hp
  have hmove : SameMove (projected o.t) (submit o.t) := (projected_same hp).trans hsub.symm
  have missing : ∀ i ∈ names, ∀ e, m.get i = none → lookup cfg db0 i c = .error e → isIndicator i = false ∧ db.find i = none := by
    intro i hi e hm hl
    obtain ⟨h1, h2⟩ := lookup_error hsane hl
    refine ⟨h1, ?_⟩
    have := S.not i hi hm
    simp only [named, h1] at this
    rw [h2] at this; exact this
  unfold legStep
  rw [hcur]
  cases hs : m.resolve cfg db0 o.t.source c with
  | error e =>
    refine ⟨(fun m' h => by cases h), fun _ => ?_⟩
    obtain ⟨h1, h2⟩ := resolve_none hs
    exact record_missing S.inv hsub.plain (by rw [e2]; exact hq.apart1) (by rw [e1]; exact hq.apart2)
      (.inl (by rw [e1]; exact missing _ hsn e h1 h2))
  | ok x =>
    obtain ⟨m1, s⟩ := x
    obtain ⟨a1, a2, a3⟩ := resolve_get hs
    obtain ⟨s1, s2, s3, s4⟩ := sim_reads hc S hsn a3
    dsimp only
    cases hd : m1.resolve cfg db0 o.t.destination c with
    | error e =>
      refine ⟨(fun m' h => by cases h), fun _ => ?_⟩
      obtain ⟨h1, h2⟩ := resolve_none hd
      have hne : o.t.destination ≠ o.t.source := by intro h; rw [h, a2] at h1; cases h1
      rw [a1 _ hne] at h1
      exact record_missing S.inv hsub.plain (by rw [e2]; exact hq.apart1) (by rw [e1]; exact hq.apart2)
        (.inr (by rw [e2]; exact missing _ hdn e h1 h2))
    | ok y =>
      obtain ⟨m2, d⟩ := y
      obtain ⟨b1, b2, b3⟩ := resolve_get hd
      dsimp only
      by_cases heq : o.t.source = o.t.destination
      · -- the same identifier twice
        have hsd : s.id = d.id := by
          rw [← heq] at b3
          rcases b3 with h | ⟨h, _⟩
          · rw [a2] at h; cases h; rfl
          · rw [a2] at h; cases h
        rw [if_pos hsd]
        refine ⟨(fun m' h => by simp at h), fun _ => ?_⟩
        refine record_same S.inv hsub.plain hq.fresh1 (.inl ⟨by rw [e1, e2]; exact heq, ?_⟩)
        rw [e1, e3, hcur]
        intro hn
        unfold Reads at s1; rw [hn] at s1; exact s1.1
      · have b3' : m.get o.t.destination = some d ∨ (m.get o.t.destination = none ∧ lookup cfg db0 o.t.destination c = .ok d) := by
          rw [← a1 _ (Ne.symm heq)]; exact b3
        obtain ⟨d1, d2, d3, d4⟩ := sim_reads hc S hdn b3'
        have hsd : s.id ≠ d.id := by
          intro h
          rw [s3, d3] at h
          exact heq (base_inj hsane ho hsn hdn s4 d4 h)
        rw [if_neg hsd]
        have hdiff : Different db o.t.source o.t.destination c :=
          ⟨heq, fun r r' h1 h2 => S.one _ hsn _ hdn heq r r' h1 h2⟩
        have hready : Ready cfg db (submit o.t) o.n1 o.n2 s :=
          ⟨hsub.plain, by rw [e4]; exact href, by rw [e5]; exact hq.id, hq.fresh1, hq.fresh2, hq.fresh12,
            by rw [e2]; exact hq.apart1, by rw [s2, queuedSeen, hc]; rfl, .inl hc⟩
        cases hap : applyToBalances (projected o.t) s d with
        | error e =>
          refine ⟨(fun m' h => by simp at h), fun _ => ?_⟩
          have hap' : applyToBalances (submit o.t) s d = .error e := by
            unfold applyToBalances at hap ⊢
            rw [← hmove.source, ← hmove.destination]; exact hap
          exact ⟨_, record_refuses (s := s) (d := d) S.inv hready (by rw [e1, e3, hcur]; exact s1)
            (by rw [e2, e3, hcur]; exact d1) (by rw [e1, e2, e3, hcur]; exact hdiff) hap'⟩
        | ok z =>
          obtain ⟨s', d'⟩ := z
          refine ⟨?_, fun h => absurd rfl (h _)⟩
          intro m' hm'
          cases hm'
          obtain ⟨p1, p2⟩ := applyToBalances_inv hap
          obtain ⟨row, hpo, St⟩ := record_accepts (t := submit o.t) (s := s) (d := d) (s' := s') (d' := d') S.inv hready
            (by rw [e1, e3, hcur]; exact s1) (by rw [e2, e3, hcur]; exact d1) (by rw [e1, e2, e3, hcur]; exact hdiff)
            (by rw [← hmove.source]; exact p1) (by rw [← hmove.destination]; exact p2)
          have f1 := applySource_effect p1
          have f2 := applyDestination_effect p2
          have srcId := St.srcId
          have dstId := St.dstId
          have src := St.src
          have dst := St.dst
          have frame := St.frame
          rw [e1, e3, hcur] at srcId src
          rw [e2, e3, hcur] at dstId dst
          rw [e1, e2, e3, hcur] at frame
          -- ids named by identifiers after the posting
          have named_after : ∀ i ∈ names, ∀ r, named (recordSingle cfg db (submit o.t) o.n1 o.n2).1 i c = some r →
              (∃ r0, named db i c = some r0 ∧ r0.id = r.id) ∨ (i = o.t.source ∧ r.id = o.n1) ∨ (i = o.t.destination ∧ r.id = o.n2) := by
            intro i hi r hr
            cases hn : named db i c with
            | some r0 =>
              obtain ⟨r', h1, h2⟩ := St.keep i c r0 hn
              rw [hr] at h1; cases h1
              exact .inl ⟨r0, rfl, h2.symm⟩
            | none =>
              by_cases h1 : i = o.t.source
              · subst h1
                obtain ⟨x, g1, _, g2⟩ := src
                rw [hr] at g1; cases g1
                rcases srcId with ⟨_, g⟩ | ⟨y, g, _⟩
                · exact .inr (.inl ⟨rfl, by rw [g2, g]⟩)
                · rw [hn] at g; cases g
              · by_cases h2 : i = o.t.destination
                · subst h2
                  obtain ⟨x, g1, _, g2⟩ := dst
                  rw [hr] at g1; cases g1
                  rcases dstId with ⟨_, g⟩ | ⟨y, g, _⟩
                  · exact .inr (.inr ⟨rfl, by rw [g2, g]⟩)
                  · rw [hn] at g; cases g
                · exfalso
                  have := frame i c (.inl h1) (.inl h2) (fun h => hn1 (h ▸ hi)) (fun h => hn2 (h ▸ hi))
                    (by intro r0 h0; rw [hn] at h0; cases h0)
                  rw [hr, hn] at this; cases this
          have old : ∀ {i r0}, named db i c = some r0 → r0.id ∈ ids db.balances := fun h => List.mem_map.2 ⟨_, named_mem h, rfl⟩
          refine ⟨row, hpo, by rw [St.ref, e4], ⟨St.inv, ?_, ?_, ?_⟩, St.txns, batch_rest hb St⟩
          · intro i hi j hj hij r r' hr hr' he
            rcases named_after i hi r hr with ⟨x, x1, x2⟩ | ⟨x1, x2⟩ | ⟨x1, x2⟩ <;>
              rcases named_after j hj r' hr' with ⟨y, y1, y2⟩ | ⟨y1, y2⟩ | ⟨y1, y2⟩
            · exact S.one i hi j hj hij x y x1 y1 (by rw [x2, y2, he])
            · exact hq.fresh1 (by rw [← y2, ← he, ← x2]; exact old x1)
            · exact hq.fresh2 (by rw [← y2, ← he, ← x2]; exact old x1)
            · exact hq.fresh1 (by rw [← x2, he, ← y2]; exact old y1)
            · exact hij (by rw [x1, y1])
            · exact hq.fresh12 (by rw [← x2, ← y2, he])
            · exact hq.fresh2 (by rw [← x2, he, ← y2]; exact old y1)
            · exact hq.fresh12 (by rw [← x2, ← y2, he])
            · exact hij (by rw [x1, y1])
          · intro i hi b hg
            rw [get_put] at hg
            by_cases h1 : o.t.destination = i
            · rw [if_pos h1] at hg
              cases hg
              subst h1
              obtain ⟨r, g1, g2, _⟩ := dst
              exact ⟨by rw [f2.queued, d2], by rw [f2.id, d3], d4, r, g1, g2⟩
            · rw [if_neg h1, get_put] at hg
              by_cases h2 : o.t.source = i
              · rw [if_pos h2] at hg
                cases hg
                subst h2
                obtain ⟨r, g1, g2, _⟩ := src
                exact ⟨by rw [f1.queued, s2], by rw [f1.id, s3], s4, r, g1, g2⟩
              · rw [if_neg h2, b1 _ (Ne.symm h1), a1 _ (Ne.symm h2)] at hg
                obtain ⟨k1, k2, k3, r, k4, k5⟩ := S.has i hi b hg
                refine ⟨k1, k2, k3, r, ?_, k5⟩
                rw [frame i c (.inl (Ne.symm h2)) (.inl (Ne.symm h1)) (fun h => hn1 (h ▸ hi)) (fun h => hn2 (h ▸ hi)), k4]
                intro r0 h0
                rw [k4] at h0; cases h0
                constructor
                · rcases srcId with ⟨_, g⟩ | ⟨y, g, g'⟩
                  · rw [g]; intro he; exact hq.fresh1 (he ▸ old k4)
                  · rw [← g']; exact S.one i hi _ hsn (Ne.symm h2) _ _ k4 g
                · rcases dstId with ⟨_, g⟩ | ⟨y, g, g'⟩
                  · rw [g]; intro he; exact hq.fresh2 (he ▸ old k4)
                  · rw [← g']; exact S.one i hi _ hdn (Ne.symm h1) _ _ k4 g
          · intro i hi hg
            rw [get_put] at hg
            by_cases h1 : o.t.destination = i
            · rw [if_pos h1] at hg; cases hg
            · rw [if_neg h1, get_put] at hg
              by_cases h2 : o.t.source = i
              · rw [if_pos h2] at hg; cases hg
              · rw [if_neg h2, b1 _ (Ne.symm h1), a1 _ (Ne.symm h2)] at hg
                rw [← S.not i hi hg]
                apply frame i c (.inl (Ne.symm h2)) (.inl (Ne.symm h1)) (fun h => hn1 (h ▸ hi)) (fun h => hn2 (h ▸ hi))
                intro r0 h0
                constructor
                · rcases srcId with ⟨_, g⟩ | ⟨y, g, g'⟩
                  · rw [g]; intro he; exact hq.fresh1 (he ▸ old h0)
                  · rw [← g']; exact S.one i hi _ hsn (Ne.symm h2) _ _ h0 g
                · rcases dstId with ⟨_, g⟩ | ⟨y, g, g'⟩
                  · rw [g]; intro he; exact hq.fresh2 (he ▸ old h0)
                  · rw [← g']; exact S.one i hi _ hdn (Ne.symm h1) _ _ h0 g

theorem postAll_cons_posted {cfg : Cfg} {db : DB} {o : Op} {ops : List Op} {rows : List Txn}
    (h : (recordSingle cfg db (submit o.t) o.n1 o.n2).2 = .posted rows) :
    postAll cfg db ((o :: ops).map Op.real) = postAll cfg (recordSingle cfg db (submit o.t) o.n1 o.n2).1 (ops.map Op.real) := by
  simp only [List.map_cons, Op.real, postAll]
  cases hr : recordSingle cfg db (submit o.t) o.n1 o.n2 with
  | mk a b => rw [hr] at h; simp only at h; subst h; rfl

theorem postAll_cons_refused {cfg : Cfg} {db : DB} {o : Op} {ops : List Op} {e : OpErr}
    (h : (recordSingle cfg db (submit o.t) o.n1 o.n2).2 = .refused e) :
    (postAll cfg db ((o :: ops).map Op.real)).2 = some e := by
  simp only [List.map_cons, Op.real, postAll]
  cases hr : recordSingle cfg db (submit o.t) o.n1 o.n2 with
  | mk a b => rw [hr] at h; simp only at h; subst h; rfl

/-- No reference of the movements is in use, and they differ. -/
def NewRefs (db : DB) (ops : List Op) : Prop :=
  (∀ o ∈ ops, db.hasRef o.t.reference = false) ∧ ops.Pairwise fun a b => a.t.reference ≠ b.t.reference

theorem hasRef_grown {db db' : DB} {row : Txn} (h : db'.txns = db.txns ++ [row]) (r : String) :
    db'.hasRef r = (db.hasRef r || decide (row.reference = r)) := by
  unfold DB.hasRef; rw [h, List.any_append]; simp

theorem legs_sim {cfg : Cfg} {db0 : DB} {names : List String} {c : String} (hc : cfg.queuedChecks = false) (hsane : Sane db0)
    (ho : OneName db0 names c) : ∀ {ops : List Op} {m : BSet} {db : DB}, Sim db0 names c m db → Batch db names c ops → NewRefs db ops →
    (∀ m', legsWalk cfg db0 m (ops.map Op.t) = .ok (m', none) →
      (postAll cfg db (ops.map Op.real)).2 = none ∧ Sim db0 names c m' (postAll cfg db (ops.map Op.real)).1) ∧
    ((∀ m', legsWalk cfg db0 m (ops.map Op.t) ≠ .ok (m', none)) → ∃ e, (postAll cfg db (ops.map Op.real)).2 = some e) := by
  intro ops
  induction ops with
  | nil =>
    intro m db S _ _
    refine ⟨?_, fun h => absurd rfl (h m)⟩
    intro m' h
    cases h
    exact ⟨rfl, S⟩
  | cons o ops ih =>
    intro m db S hb hr
    obtain ⟨g1, g2⟩ := sim_step hc hsane ho S hb (hr.1 o (by simp))
    simp only [List.map_cons, legsWalk]
    have refused : (∀ m', legStep cfg db0 m o.t ≠ .ok (m', none)) → ∃ e, (postAll cfg db (o.real :: ops.map Op.real)).2 = some e := by
      intro h
      obtain ⟨e, he⟩ := g2 h
      exact ⟨e, postAll_cons_refused he⟩
    cases hl : legStep cfg db0 m o.t with
    | error e => exact ⟨(fun m' h => by cases h), fun _ => refused (fun m' h => by rw [hl] at h; cases h)⟩
    | ok x =>
      obtain ⟨m1, oe⟩ := x
      cases oe with
      | some e =>
        exact ⟨(fun m' h => by simp at h), fun _ => refused (fun m' h => by rw [hl] at h; simp at h)⟩
      | none =>
        obtain ⟨row, h1, h2, h3, h4, h5⟩ := g1 m1 hl
        have hp := List.pairwise_cons.1 hr.2
        have hn : NewRefs (recordSingle cfg db (submit o.t) o.n1 o.n2).1 ops := by
          refine ⟨?_, hp.2⟩
          intro x hx
          rw [hasRef_grown h4, hr.1 x (List.mem_cons_of_mem _ hx), h2]
          simpa using hp.1 x hx
        have k := ih h3 h5 hn
        have hpa := postAll_cons_posted (ops := ops) h1
        simp only [List.map_cons] at hpa
        rw [hpa]
        exact k

theorem sim_start {db : DB} {names : List String} {c : String} (hi : Inv db) (ho : OneName db names c) : Sim db names c [] db :=
  ⟨hi, ho, (fun i _ b h => by cases h), fun _ _ _ => rfl⟩

/-- **C54, synchronous split (or any list of legs), accepted.** If the dry run says the whole split would
apply, posting its legs one after another on the same ledger stores all of them, and every balance
in the answer ends with exactly the figures shown. Missing from the full claim: queued checks, one
balance under two of the identifiers (`c54_two_names_fail`), leg references already in use
(`c54_split_reference_fails`). -/
theorem c54_split_would_apply_partial {cfg : Cfg} {db : DB} {names : List String} {c : String} {ops : List Op} {m : BSet}
    (hi : Inv db) (hc : cfg.queuedChecks = false) (hsane : Sane db) (ho : OneName db names c) (hb : Batch db names c ops)
    (hr : NewRefs db ops) (h : previewSplit cfg db (ops.map Op.t) = .ok (m, none)) :
    (postAll cfg db (ops.map Op.real)).2 = none ∧
    ∀ i ∈ names, ∀ b, m.get i = some b →
      ∃ r, named (postAll cfg db (ops.map Op.real)).1 i c = some r ∧ figures r = figures b := by
  obtain ⟨h1, h2⟩ := (legs_sim hc hsane ho (sim_start hi ho) hb hr).1 m h
  exact ⟨h1, fun i hi b hb => (h2.has i hi b hb).2.2.2⟩

/-- **C54, synchronous split, refused.** If the dry run reports a refusal or an error, some leg is refused
when they are posted. -/
theorem c54_split_rejection_partial {cfg : Cfg} {db : DB} {names : List String} {c : String} {ops : List Op}
    (hi : Inv db) (hc : cfg.queuedChecks = false) (hsane : Sane db) (ho : OneName db names c) (hb : Batch db names c ops)
    (hr : NewRefs db ops) (h : ∀ m, previewSplit cfg db (ops.map Op.t) ≠ .ok (m, none)) :
    ∃ e, (postAll cfg db (ops.map Op.real)).2 = some e :=
  (legs_sim hc hsane ho (sim_start hi ho) hb hr).2 h

/-! ### A batch -/

/-- The item of an unsplit request. -/
def Op.item (o : Op) : Item := ⟨o.t.reference, [o.t]⟩

theorem bulk_sim {cfg : Cfg} {db0 : DB} {names : List String} {c : String} (hc : cfg.queuedChecks = false) (hsane : Sane db0)
    (ho : OneName db0 names c) : ∀ {ops : List Op} {m : BSet} {seen : List String} {db : DB}, Sim db0 names c m db →
    Batch db names c ops → (∀ r, r ≠ "" → db.hasRef r = (seen.contains r || db0.hasRef r)) →
    (∀ m' rs, bulkWalk cfg db0 seen m (ops.map Op.item) = .ok (m', rs) → (∀ r ∈ rs, r = none) →
      (postAll cfg db (ops.map Op.real)).2 = none ∧ Sim db0 names c m' (postAll cfg db (ops.map Op.real)).1) ∧
    ((∀ m' rs, bulkWalk cfg db0 seen m (ops.map Op.item) = .ok (m', rs) → ∃ r ∈ rs, r ≠ none) →
      ∃ e, (postAll cfg db (ops.map Op.real)).2 = some e) := by
  intro ops
  induction ops with
  | nil =>
    intro m seen db S _ _
    refine ⟨?_, ?_⟩
    · intro m' rs h _
      cases h
      exact ⟨rfl, S⟩
    · intro h
      obtain ⟨r, hr, _⟩ := h m [] rfl
      cases hr
  | cons o ops ih =>
    intro m seen db S hb hseen
    have hne := (batch_request hb).ref
    simp only [List.map_cons, bulkWalk]
    by_cases hdup : db.hasRef o.t.reference = true
    · have hd2 := hdup
      rw [hseen _ hne] at hd2
      have : (decide (o.item.ref ≠ "") && (seen.contains o.item.ref || db0.hasRef o.item.ref)) = true := by
        show (decide (o.t.reference ≠ "") && (seen.contains o.t.reference || db0.hasRef o.t.reference)) = true
        rw [hd2]; simp [hne]
      rw [if_pos this]
      refine ⟨?_, ?_⟩
      · intro m' rs h hall
        split at h
        · cases h
        · cases h
          have := hall _ (List.mem_cons_self ..)
          cases this
      · intro _
        have hsub := submit_same (batch_request hb).plain
        obtain ⟨e, he⟩ := record_duplicate (cfg := cfg) (n1 := o.n1) (n2 := o.n2) S.inv hsub.plain (t := submit o.t)
          (by rw [(submit_fields o.t).2.2.2.1]; exact hdup)
        exact ⟨e, postAll_cons_refused he⟩
    · have hd1 : db.hasRef o.t.reference = false := by simpa using hdup
      have hd2 := hd1
      rw [hseen _ hne] at hd2
      have : ¬ (decide (o.item.ref ≠ "") && (seen.contains o.item.ref || db0.hasRef o.item.ref)) = true := by
        show ¬ (decide (o.t.reference ≠ "") && (seen.contains o.t.reference || db0.hasRef o.t.reference)) = true
        rw [hd2]; simp
      rw [if_neg this]
      obtain ⟨g1, g2⟩ := sim_step hc hsane ho S hb hd1
      have refused : (∀ m', legStep cfg db0 m o.t ≠ .ok (m', none)) → ∃ e, (postAll cfg db (o.real :: ops.map Op.real)).2 = some e := by
        intro h
        obtain ⟨e, he⟩ := g2 h
        exact ⟨e, postAll_cons_refused he⟩
      simp only [Op.item, legsWalk]
      cases hl : legStep cfg db0 m o.t with
      | error e => exact ⟨(fun m' rs h => by cases h), fun _ => refused (fun m' h => by rw [hl] at h; cases h)⟩
      | ok x =>
        obtain ⟨m1, oe⟩ := x
        cases oe with
        | some e =>
          refine ⟨?_, fun _ => refused (fun m' h => by rw [hl] at h; simp at h)⟩
          intro m' rs h hall
          dsimp only at h
          split at h
          · cases h
          · cases h
            have := hall _ (List.mem_cons_self ..)
            cases this
        | none =>
          obtain ⟨row, h1, h2, h3, h4, h5⟩ := g1 m1 hl
          have hs' : ∀ r, r ≠ "" → (recordSingle cfg db (submit o.t) o.n1 o.n2).1.hasRef r
              = ((o.t.reference :: seen).contains r || db0.hasRef r) := by
            intro r hr
            rw [hasRef_grown h4, hseen r hr, h2, List.contains_cons]
            have : (r == o.t.reference) = decide (o.t.reference = r) := by
              rw [Bool.eq_iff_iff, beq_iff_eq, decide_eq_true_iff]; exact eq_comm
            rw [this]
            cases seen.contains r <;> cases db0.hasRef r <;> cases decide (o.t.reference = r) <;> rfl
          obtain ⟨k1, k2⟩ := ih h3 h5 hs'
          have hpa := postAll_cons_posted (ops := ops) h1
          simp only [List.map_cons] at hpa
          rw [hpa]
          dsimp only
          refine ⟨?_, ?_⟩
          · intro m' rs h hall
            split at h
            · cases h
            · rename_i m2 rs2 hw
              cases h
              exact k1 _ rs2 hw (fun r hr => hall r (List.mem_cons_of_mem _ hr))
          · intro h
            apply k2
            intro m2 rs2 hw
            rw [hw] at h
            obtain ⟨r, hr, hrn⟩ := h m2 (none :: rs2) rfl
            rcases List.mem_cons.1 hr with rfl | hr
            · exact absurd rfl hrn
            · exact ⟨r, hr, hrn⟩

/-- **C54, synchronous batch, accepted.** If the dry run of a batch of unsplit items accepts every item,
posting the batch stores every item and leaves every balance of the answer with the figures shown.
References used twice, in the batch or before it, are found by the dry run. -/
theorem c54_bulk_would_apply_partial {cfg : Cfg} {db : DB} {names : List String} {c : String} {ops : List Op} {m : BSet}
    {rs : List (Option OpErr)} (hi : Inv db) (hc : cfg.queuedChecks = false) (hsane : Sane db) (ho : OneName db names c)
    (hb : Batch db names c ops) (h : previewBulk cfg db (ops.map Op.item) = .ok (m, rs)) (hall : ∀ r ∈ rs, r = none) :
    (postAll cfg db (ops.map Op.real)).2 = none ∧
    ∀ i ∈ names, ∀ b, m.get i = some b →
      ∃ r, named (postAll cfg db (ops.map Op.real)).1 i c = some r ∧ figures r = figures b := by
  obtain ⟨h1, h2⟩ := (bulk_sim hc hsane ho (sim_start hi ho) hb (by simp)).1 m rs h hall
  exact ⟨h1, fun i hi b hb => (h2.has i hi b hb).2.2.2⟩

/-- **C54, synchronous batch, refused.** If the dry run refuses some item or answers with an error, the
real batch is stopped by a refusal. -/
theorem c54_bulk_rejection_partial {cfg : Cfg} {db : DB} {names : List String} {c : String} {ops : List Op}
    (hi : Inv db) (hc : cfg.queuedChecks = false) (hsane : Sane db) (ho : OneName db names c) (hb : Batch db names c ops)
    (h : ∀ m rs, previewBulk cfg db (ops.map Op.item) = .ok (m, rs) → ∃ r ∈ rs, r ≠ none) :
    ∃ e, (postAll cfg db (ops.map Op.real)).2 = some e :=
  (bulk_sim hc hsane ho (sim_start hi ho) hb (by simp)).2 h

/-! ### Settling a hold -/

/-- The real action. -/
def settle (cfg : Cfg) (db : DB) (id : String) (void : Bool) (amt : Int) (newId ref n1 n2 : String) : DB × Except InfErr Outcome :=
  if void then voidInflight cfg db id newId ref n1 n2 else commitInflight cfg db id amt newId ref n1 n2

/-- A stored hold: its balances are stored under their ids, and no more was committed than was held (C22). -/
structure GoodHold (db : DB) (id : String) : Prop where
  ids : ∀ t, fetchInflight db id = .ok t → isIndicator t.source = false ∧ isIndicator t.destination = false
  left : ∀ t, fetchInflight db id = .ok t → 0 ≤ remaining db t

theorem lookup_id {cfg : Cfg} {db : DB} {i c : String} (hs : Sane db) (hi : isIndicator i = false) : lookup cfg db i c = db.load cfg i := by
  unfold lookup
  by_cases h : i = ""
  · subst h
    have : db.find "" = none := by
      unfold DB.find
      rw [List.find?_eq_none]
      intro b hb
      simpa using (hs b hb).1
    simp [DB.load, this]
  · rw [if_neg h, if_neg (by simp [hi])]

/-- The decision a preview and the real action share: the transaction to post. -/
theorem settle_decide {cfg : Cfg} {db : DB} {id newId ref n1 n2 : String} {void : Bool} {amt : Int} (hg : GoodHold db id) :
    (∃ e, previewSettle cfg db id void amt = .error e ∧ (settle cfg db id void amt newId ref n1 n2).2 = .error e) ∨
    ∃ u w : Txn, previewSettle cfg db id void amt = .ok (showSettle cfg db u) ∧
      settle cfg db id void amt newId ref n1 n2 = ((postResolved cfg db w).1, .ok (postResolved cfg db w).2) ∧
      w.source = u.source ∧ w.destination = u.destination ∧ w.id = newId ∧ w.reference = ref ∧
      isIndicator u.source = false ∧ isIndicator u.destination = false ∧
      (∀ b, applySource w b = applySource u b) ∧ (∀ b, applyDestination w b = applyDestination u b) ∧
      (finalRow w).preciseAmount ≠ some 0 := by
  have direct : ∀ {w : Txn}, isIndicator w.source = false → isIndicator w.destination = false →
      recordSingle cfg db w n1 n2 = postResolved cfg db w := by
    intro w h1 h2
    simp [recordSingle, DB.resolve, h1, h2]
  unfold previewSettle settle voidInflight commitInflight
  cases hf : fetchInflight db id with
  | error e => left; refine ⟨e, rfl, ?_⟩; cases void <;> rfl
  | ok t =>
    obtain ⟨i1, i2⟩ := hg.ids t hf
    have hl := hg.left t hf
    cases void with
    | true =>
      simp only [if_true]
      by_cases hz : remaining db t = 0
      · left; exact ⟨.alreadyCommitted, by simp [hz], by simp [hz]⟩
      · right
        have hp : 0 < remaining db t := by omega
        rw [if_neg hz, if_neg hz]
        have k := applyPrecision_keeps ({ t with status := .void, inflight := false, parent := t.id, id := newId, reference := ref, preciseAmount := some (remaining db t) } : Txn)
        obtain ⟨k1, k2, k3, k4, k5, k6, k7, k8, k9, k10⟩ := k
        have hpa : (voidTxn t (remaining db t) newId ref).preciseAmount = some (remaining db t) := applyPrecision_pos rfl hp
        have hst : (voidTxn t (remaining db t) newId ref).status = .void := k3
        refine ⟨{ t with status := .void, preciseAmount := some (remaining db t), amount := if amt = 0 then ((remaining db t : Int) : Rat) / t.precision else t.amount },
          voidTxn t (remaining db t) newId ref, ?_, ?_, k8, k9, k6, k5, i1, i2, ?_, ?_, ?_⟩
        · rfl
        · rw [direct]
          · show isIndicator (voidTxn t (remaining db t) newId ref).source = false
            unfold voidTxn; rw [k8]; exact i1
          · unfold voidTxn; rw [k9]; exact i2
        · intro b; unfold applySource; rw [hst, hpa]
        · intro b; unfold applyDestination; rw [hst, hpa]
        · have := (settle_void (t := voidTxn t (remaining db t) newId ref) hst k4 hpa).2.1
          rw [this]; intro h; simp at h; omega
    | false =>
      simp only [Bool.false_eq_true, if_false]
      cases hs : settleAmount t amt (remaining db t) with
      | error e => left; exact ⟨e, rfl, rfl⟩
      | ok p =>
        right
        have hp : 0 < p := by
          obtain ⟨h1, h2⟩ := settleAmount_ok hs
          omega
        refine ⟨{ t with status := .commit, preciseAmount := some p, amount := if amt = 0 then (p : Rat) / t.precision else t.amount },
          commitTxn t p (if amt = 0 then (p : Rat) / t.precision else t.amount) newId ref, ?_, ?_, rfl, rfl, rfl, rfl, i1, i2, ?_, ?_, ?_⟩
        · rfl
        · dsimp only
          rw [direct]
          · exact i1
          · exact i2
        · intro b
          unfold applySource
          simp only [commitTxn]
          rw [applyPrecision_pos (p := p) rfl hp, applyPrecision_pos (p := p) rfl hp]
        · intro b
          unfold applyDestination
          simp only [commitTxn]
          rw [applyPrecision_pos (p := p) rfl hp, applyPrecision_pos (p := p) rfl hp]
        · have := (settle_commit (t := commitTxn t p (if amt = 0 then (p : Rat) / t.precision else t.amount) newId ref) rfl rfl rfl hp).2.1
          rw [this]; intro h; simp at h; omega

/-- **C54, settling a hold, accepted.** If the dry run of a commit or void says it would apply, the real
action stores one row and the hold's two balances end with exactly the figures shown, whatever is
queued. Missing from the full claim: a parent with several holds, and holds whose row names an
indicator. -/
theorem c54_settle_would_apply_partial {cfg : Cfg} {db : DB} {id newId ref n1 n2 : String} {void : Bool} {amt : Int} {p : Shown}
    (hi : Inv db) (hsane : Sane db) (hg : GoodHold db id) (hr : db.hasRef ref = false) (hid : db.hasTxnId newId = false)
    (h : previewSettle cfg db id void amt = .ok (.ok p)) (ha : p.wouldApply = true) :
    ∃ row s d, (settle cfg db id void amt newId ref n1 n2).2 = .ok (.posted [row]) ∧
      (settle cfg db id void amt newId ref n1 n2).1.find p.srcBefore.id = some s ∧
      (settle cfg db id void amt newId ref n1 n2).1.find p.dstBefore.id = some d ∧
      figures s = figures p.srcAfter ∧ figures d = figures p.dstAfter := by
  rcases settle_decide (cfg := cfg) (newId := newId) (ref := ref) (n1 := n1) (n2 := n2) (void := void) (amt := amt) hg with
    ⟨e, h1, _⟩ | ⟨u, w, h1, h2, h3, h4, h5, h6, h7, h8, h9, h10, h11⟩
  · rw [h1] at h; cases h
  · rw [h1] at h
    simp only [Except.ok.injEq] at h
    unfold showSettle at h
    rw [lookup_id hsane h7, lookup_id hsane h8] at h
    split at h
    · cases h
    · rename_i s hs
      split at h
      · cases h
      · rename_i d hd
        split at h
        · cases h; cases ha
        · rename_i hne
          split at h
          · cases h; cases ha
          · rename_i s' d' hap
            cases h
            obtain ⟨a1, a2⟩ := applyToBalances_inv hap
            obtain ⟨rs, ms, fs, is, es⟩ := load_ok hs
            obtain ⟨rd, md, fd, id', ed⟩ := load_ok hd
            rw [load_view fs] at hs; cases hs
            rw [load_view fd] at hd; cases hd
            have hpo := postResolved_complete (cfg := cfg) (db := db) (t := w) (rs := rs) (rd := rd) (s' := s') (d' := d')
              (by rw [h6]; exact hr) (by rw [h5]; exact hid)
              (by rw [h3, h4, ← is, ← id']; exact hne)
              (by rw [h3]; exact fs) (by rw [h4]; exact fd) (by rw [h9]; exact a1) (by rw [h10]; exact a2) h11
            have P := (postResolved_posted hi hpo).2
            obtain ⟨rs2, rd2, s2, d2, s3, d3, x1, x2, x3, x4, _, _, x7, x8, x9, x10⟩ := P.exact
            rw [h3, fs] at x1; cases x1
            rw [h4, fd] at x2; cases x2
            rw [h3, load_view fs] at x3; cases x3
            rw [h4, load_view fd] at x4; cases x4
            rw [h9, a1] at x7; cases x7
            rw [h10, a2] at x8; cases x8
            rw [h2]
            refine ⟨finalRow w, rs.writeBack s', rd.writeBack d', by rw [hpo], ?_, ?_, rfl, rfl⟩
            · rw [← x9, h3]; show (postResolved cfg db w).1.find rs.id = _; rw [is]
            · rw [← x10, h4]; show (postResolved cfg db w).1.find rd.id = _; rw [id']

/-- **C54, settling a hold, refused.** If the dry run of a commit or void reports a rejection or an error,
the real action posts nothing. -/
theorem c54_settle_rejection_partial {cfg : Cfg} {db : DB} {id newId ref n1 n2 : String} {void : Bool} {amt : Int}
    (hi : Inv db) (hsane : Sane db) (hg : GoodHold db id)
    (h : ∀ p, previewSettle cfg db id void amt = .ok (.ok p) → p.wouldApply = false) :
    (∃ e, (settle cfg db id void amt newId ref n1 n2).2 = .error e) ∨ ∃ e, (settle cfg db id void amt newId ref n1 n2).2 = .ok (.refused e) := by
  rcases settle_decide (cfg := cfg) (newId := newId) (ref := ref) (n1 := n1) (n2 := n2) (void := void) (amt := amt) hg with
    ⟨e, _, h1⟩ | ⟨u, w, h1, h2, h3, h4, h5, h6, h7, h8, h9, h10, h11⟩
  · exact .inl ⟨e, h1⟩
  · right
    rw [h2]
    rw [h1] at h
    unfold showSettle at h
    rw [lookup_id hsane h7, lookup_id hsane h8] at h
    cases hres : (postResolved cfg db w).2 with
    | refused e => exact ⟨e, rfl⟩
    | posted rows =>
      exfalso
      have P := (postResolved_posted hi hres).2
      obtain ⟨rs, rd, s2, d2, s3, d3, x1, x2, x3, x4, _, _, x7, x8, _, _⟩ := P.exact
      have hdist := P.distinct
      rw [h3] at x1 x3 hdist
      rw [h4] at x2 x4 hdist
      rw [load_view x1] at x3; cases x3
      rw [load_view x2] at x4; cases x4
      rw [h9] at x7
      rw [h10] at x8
      have hne : ¬ (db.view cfg rs).id = (db.view cfg rd).id := by
        show ¬ rs.id = rd.id
        rw [(find_mem x1).2, (find_mem x2).2]; exact hdist
      have := h ⟨true, none, db.view cfg rs, s3, db.view cfg rd, d3⟩ (by
        rw [load_view x1, load_view x2]
        simp only [if_neg hne, applyToBalances, x7, x8, bind, Except.bind, pure, Except.pure])
      cases this
    | discarded =>
      exfalso
      unfold postResolved at hres
      cases hp : prepareSingle cfg db w with
      | error e => rw [hp] at hres; cases hres
      | ok x =>
        cases x with
        | some x =>
          rw [hp] at hres
          simp only at hres
          cases hq : db.persist x with
          | error e => rw [hq] at hres; cases hres
          | ok y => rw [hq] at hres; cases hres
        | none =>
          unfold prepareSingle at hp
          split at hp
          · cases hp
          · split at hp
            · split at hp
              · cases hp
              · cases hp
            · cases hp

/-! ### Concrete cases -/

/-- Two accounts, `a` (also called `@a`) with 100 and `b` (also called `@b`) overdrawn. -/
def ledger : DB := run {} {} [.create "a" "@a" "USD", .create "b" "@b" "USD",
  .post { id := "f", source := "b", destination := "a", reference := "f", preciseAmount := some 100, precision := 1, allowOverdraft := true } "x" "y"]

theorem ledger_inv : Inv ledger := run_inv init_inv

theorem ledger_sane : Sane ledger := by
  intro b hb
  have : ledger.balances.all (fun b => decide (b.id ≠ "") && !(isIndicator b.id)) = true := by decide +kernel
  simpa using List.all_eq_true.1 this b hb

/-- A request for `n` from `src` to `dst`. -/
def pay (id src dst : String) (n : Int) : Txn :=
  { id := id, source := src, destination := dst, reference := id, preciseAmount := some n, precision := 1 }

theorem pay_plain (id src dst : String) (n : Int) : (pay id src dst n).Plain := by simp [pay, Txn.Plain]

-- `c54_would_apply_partial`: 60 from `a` to a new account `@new`
example : Request ledger (pay "t" "a" "@new" 60) "n1" "n2" ∧
    (previewSingle {} ledger (pay "t" "a" "@new" 60)).toOption.map (fun p => (p.wouldApply, p.srcAfter.balance, p.dstAfter.balance))
      = some (true, 40, 60) :=
  ⟨⟨pay_plain .., by decide, by decide +kernel, by decide +kernel, by decide +kernel, by decide, by decide, by decide⟩, by decide +kernel⟩

-- `c54_rejection_partial`: 160 is too much; `a` under both its names; an unknown account
example : (previewSingle {} ledger (pay "t" "a" "@b" 160)).toOption.map (·.rejection) = some (some (.bal .insufficientFunds)) ∧
    (previewSingle {} ledger (pay "t" "a" "@a" 60)).toOption.map (·.rejection) = some (some .conflict) ∧
    previewSingle {} ledger (pay "t" "a" "zzz" 60) = .error .balanceNotFound := by decide +kernel

/-- A list of movements that runs `a` down to 10. -/
def three : List Op := [⟨pay "t1" "a" "@new" 60, "n1", "n2"⟩, ⟨pay "t2" "@new" "b" 25, "n3", "n4"⟩, ⟨pay "t3" "a" "b" 30, "n5", "n6"⟩]

theorem three_batch : Batch ledger ["a", "b", "@new"] "USD" three := by
  constructor
  · intro o ho
    simp only [three, List.mem_cons, List.not_mem_nil, or_false] at ho
    rcases ho with rfl | rfl | rfl <;>
      exact ⟨pay_plain .., by decide, rfl, by decide, by decide, by decide +kernel, by decide +kernel, by decide +kernel, by decide, by decide, by decide⟩
  · simp [three, pay]

theorem three_names : OneName ledger ["a", "b", "@new"] "USD" := by
  intro i hi j hj hij r r' h1 h2 he
  have e : ["a", "b", "@new"].all (fun i => ["a", "b", "@new"].all fun j => i == j ||
      match named ledger i "USD", named ledger j "USD" with | some r, some r' => r.id != r'.id | _, _ => true) = true := by decide +kernel
  have := List.all_eq_true.1 (List.all_eq_true.1 e i hi) j hj
  rw [h1, h2] at this
  simp [hij, he] at this

-- `c54_split_would_apply_partial`, `c54_bulk_would_apply_partial`
example : Batch ledger ["a", "b", "@new"] "USD" three ∧ OneName ledger ["a", "b", "@new"] "USD" ∧ NewRefs ledger three ∧
    (previewSplit {} ledger (three.map Op.t)).toOption.map (fun x => (x.1.map fun y => (y.1, y.2.balance), x.2))
      = some ([("a", 10), ("@new", 35), ("b", -45)], none) ∧
    (previewBulk {} ledger (three.map Op.item)).toOption.map (·.2) = some [none, none, none] :=
  ⟨three_batch, three_names, ⟨by
    intro o ho
    simp only [three, List.mem_cons, List.not_mem_nil, or_false] at ho
    rcases ho with rfl | rfl | rfl <;> decide +kernel, by simp [three, pay]⟩, by decide +kernel, by decide +kernel⟩

-- `c54_split_rejection_partial`, `c54_bulk_rejection_partial`: the same movements twice
example : (previewSplit {} ledger ((three ++ three).map Op.t)).toOption.map (·.2) = some (some (.bal .insufficientFunds)) ∧
    (previewBulk {} ledger ((three ++ three).map Op.item)).toOption.map (·.2)
      = some [none, none, none, some .duplicateRef, some .duplicateRef, some .duplicateRef] := by decide +kernel

/-- `ledger` with a hold of 70 from `a` to `b`. -/
def held : DB := (recordSingle {} ledger { pay "h" "a" "b" 70 with inflight := true } "x" "y").1

theorem held_good : GoodHold held "h" := by
  have e : ∃ t, fetchInflight held "h" = .ok t := by
    have : (fetchInflight held "h").toOption.isSome = true := by decide +kernel
    cases h : fetchInflight held "h" with
    | ok t => exact ⟨t, rfl⟩
    | error e => rw [h] at this; cases this
  have e2 : (match fetchInflight held "h" with
      | .ok t => !isIndicator t.source && !isIndicator t.destination && decide (0 ≤ remaining held t) | .error _ => true) = true := by decide +kernel
  constructor
  · intro t ht; rw [ht] at e2; simp at e2; exact e2.1
  · intro t ht; rw [ht] at e2; simp at e2; exact e2.2

-- `c54_settle_would_apply_partial`, `c54_settle_rejection_partial`
example : GoodHold held "h" ∧
    (previewSettle {} held "h" false 50).toOption.map (fun x => x.toOption.map fun p => (p.wouldApply, p.srcAfter.balance, p.srcAfter.inflightDebit))
      = some (some (true, 50, 20)) ∧
    (previewSettle {} held "h" true 0).toOption.map (fun x => x.toOption.map fun p => (p.wouldApply, p.srcAfter.balance, p.srcAfter.inflightDebit))
      = some (some (true, 100, 0)) ∧
    previewSettle {} held "h" false 71 = .error .exceedsOriginal := ⟨held_good, by decide +kernel, by decide +kernel, by decide +kernel⟩

/-! ### Where the claim fails -/

/-- C54 for one synchronous movement, without the restriction on queued checks. -/
def C54Full : Prop := ∀ (cfg : Cfg) (db : DB) (t : Txn) (n1 n2 : String) (p : Shown), Inv db → Sane db → Request db t n1 n2 →
  previewSingle cfg db t = .ok p → p.wouldApply = true → ∃ row, (recordSingle cfg db (submit t) n1 n2).2 = .posted [row]

/-- `ledger` with 80 from `a` waiting in the queue. -/
def waiting : DB := run {} ledger [.store { pay "q" "a" "b" 80 with status := .queued }]

/-- **C54 is violated with queued checks**: `a` has 100 of which 80 are queued. A dry run of 50 from `@a`
says it would apply, because a balance found by its indicator is read without queued totals; the real
posting reads it by id and is refused. (Asked for `a` by id the dry run is right.) -/
theorem c54_queued_checks_fail : ¬ C54Full := by
  intro h
  have hs : Sane waiting := by
    intro b hb
    have : waiting.balances.all (fun b => decide (b.id ≠ "") && !(isIndicator b.id)) = true := by decide +kernel
    simpa using List.all_eq_true.1 this b hb
  have e : ∃ p, previewSingle ⟨true⟩ waiting (pay "t" "@a" "b" 50) = .ok p ∧ p.wouldApply = true := by
    have : (previewSingle ⟨true⟩ waiting (pay "t" "@a" "b" 50)).toOption.map (·.wouldApply) = some true := by decide +kernel
    cases hp : previewSingle ⟨true⟩ waiting (pay "t" "@a" "b" 50) with
    | error e => rw [hp] at this; cases this
    | ok p => rw [hp] at this; exact ⟨p, rfl, by simpa [Except.toOption] using this⟩
  obtain ⟨p, hp, ha⟩ := e
  obtain ⟨row, hr⟩ := h ⟨true⟩ waiting (pay "t" "@a" "b" 50) "n1" "n2" p (run_inv ledger_inv) hs
    ⟨pay_plain .., by decide, by decide +kernel, by decide +kernel, by decide +kernel, by decide, by decide, by decide⟩ hp ha
  rw [show (recordSingle ⟨true⟩ waiting (submit (pay "t" "@a" "b" 50)) "n1" "n2").2 = .refused (.bal .insufficientFunds) by decide +kernel] at hr
  cases hr

-- asked by id the dry run is right
example : (previewSingle ⟨true⟩ waiting (pay "t" "a" "b" 50)).toOption.map (·.wouldApply) = some false := by decide +kernel

/-- **C54 is violated for a queued request with queued checks**: `a` has 100, a dry run of 60 says it would
apply, but once the request is stored as QUEUED its own 60 count as queued when the worker posts it, and it is refused. -/
theorem c54_queued_request_fails :
    (previewSingle ⟨true⟩ ledger (pay "t" "a" "b" 60)).toOption.map (·.wouldApply) = some true ∧
    (recordSingle ⟨true⟩ (run ⟨true⟩ ledger [.store (submit (pay "t" "a" "b" 60))])
      (Queue.queueCopy (submit (pay "t" "a" "b" 60)) "t2") "n1" "n2").2 = .refused (.bal .insufficientFunds) := by decide +kernel

/-- C54 for synchronous splits without the restriction on references and names. -/
def C54SplitFull : Prop := ∀ (cfg : Cfg) (db : DB) (names : List String) (c : String) (ops : List Op) (m : BSet), Inv db → cfg.queuedChecks = false →
  Sane db → Batch db names c ops → previewSplit cfg db (ops.map Op.t) = .ok (m, none) → (postAll cfg db (ops.map Op.real)).2 = none

/-- **C54 is violated for a split whose leg reference is in use**: the dry run of a split looks at no
reference. Reference `f` of the first posting is used again. -/
theorem c54_split_reference_fails : ¬ C54SplitFull := by
  intro h
  have hp : (previewSplit {} ledger [{ pay "t" "a" "b" 5 with reference := "f" }]).toOption.map (·.2) = some none := by decide +kernel
  cases hq : previewSplit {} ledger [{ pay "t" "a" "b" 5 with reference := "f" }] with
  | error e => rw [hq] at hp; cases hp
  | ok x =>
    rw [hq] at hp
    obtain ⟨m, o⟩ := x
    simp only [Except.toOption, Option.map_some, Option.some.injEq] at hp
    subst hp
    have := h {} ledger ["a", "b"] "USD" [⟨{ pay "t" "a" "b" 5 with reference := "f" }, "n1", "n2"⟩] m ledger_inv rfl ledger_sane
      ⟨by
        intro o ho
        simp only [List.mem_cons, List.not_mem_nil, or_false] at ho
        subst ho
        exact ⟨pay_plain "t" "a" "b" 5, by decide, rfl, by decide, by decide, by decide +kernel, by decide +kernel, by decide +kernel, by decide, by decide, by decide⟩,
       by simp⟩ hq
    revert this
    decide +kernel

/-- **C54 is violated when one balance goes by two names**: two legs of 60 from `a`, once by id and once
as `@a`. The dry run keeps two working balances of 100 and accepts both; the second leg is refused. -/
theorem c54_two_names_fail :
    (previewSplit {} ledger [pay "t1" "a" "b" 60, pay "t2" "@a" "b" 60]).toOption.map (·.2) = some none ∧
    (postAll {} ledger [(submit (pay "t1" "a" "b" 60), "n1", "n2"), (submit (pay "t2" "@a" "b" 60), "n3", "n4")]).2
      = some (.bal .insufficientFunds) := by decide +kernel

/-- **C54 is violated for a batch with two currencies**: the working balances are kept by identifier alone,
so the EUR item is shown as paid by the USD balance of `@a`; there is no EUR balance and it is refused. -/
theorem c54_two_currencies_fail :
    (previewBulk {} ledger [⟨"t1", [pay "t1" "@a" "@b" 10]⟩, ⟨"t2", [{ pay "t2" "@a" "@b" 10 with currency := "EUR" }]⟩]).toOption.map (·.2)
      = some [none, none] ∧
    (postAll {} ledger [(submit (pay "t1" "@a" "@b" 10), "n1", "n2"), (submit { pay "t2" "@a" "@b" 10 with currency := "EUR" }, "n3", "n4")]).2
      = some (.bal .insufficientFunds) := by decide +kernel

end Blnk.Preview
