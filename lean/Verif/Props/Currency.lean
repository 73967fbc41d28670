import Verif.Lemmas.Names
import Verif.Props.Inflight
/-
C169 and C170: what crosses the border of a group of accounts, and whether each currency balances.
-/
namespace Blnk

/-! ### C169 -/

/-- Rows that moved, held or released money lie between accounts that exist. -/
def PartiesInv (db : DB) : Prop := ∀ r ∈ db.txns, r.status = .applied ∨ r.status = .inflight ∨ r.status = .void →
  r.source ∈ ids db.balances ∧ r.destination ∈ ids db.balances

theorem parties_grown {δ : Txn → Int} {gens : List String} {db db' : DB} {new : List Txn} (hb : PartiesInv db)
    (g : Grown δ gens db db' new) : PartiesInv db' := by
  intro r hr hs
  rw [g.txns] at hr
  rcases List.mem_append.1 hr with h | h
  · exact ⟨g.accounts _ (hb r h hs).1, g.accounts _ (hb r h hs).2⟩
  · exact g.parties r h hs

theorem act_parties {cfg : Cfg} {H : String → Prop} {db : DB} {a : Act} (hk : HoldInv H db) (hb : PartiesInv db)
    (ha : a.Respects H) : PartiesInv (act cfg db a) := by
  cases a with
  | base op =>
    obtain ⟨new, g, _⟩ := ordinary_grown (cfg := cfg) hk.inv ha.1
    exact parties_grown hb g
  | commit id amt newId ref n1 n2 =>
    rcases commit_grown (cfg := cfg) (h := id) (newId := newId) (ref := ref) (n1 := n1) (n2 := n2) (amt := amt)
      hk.inv hk.remaining_nonneg with ⟨g, _⟩ | ⟨_, _, _, _, _, _, _, g, _⟩
    · exact parties_grown hb g
    · exact parties_grown hb g
  | void id newId ref n1 n2 =>
    rcases void_grown (cfg := cfg) (h := id) (newId := newId) (ref := ref) (n1 := n1) (n2 := n2)
      hk.inv hk.remaining_nonneg with ⟨g, _⟩ | ⟨_, _, _, _, _, _, g, _⟩
    · exact parties_grown hb g
    · exact parties_grown hb g

theorem acts_parties {cfg : Cfg} {H : String → Prop} {as : List Act} : ∀ {db : DB}, HoldInv H db → PartiesInv db →
    (∀ a ∈ as, a.Respects H) → PartiesInv (acts cfg db as) := by
  induction as with
  | nil => intro db _ hb _; exact hb
  | cons a as ih =>
    intro db hk hb hr
    exact ih (act_holdInv (cfg := cfg) hk (hr a (by simp))) (act_parties hk hb (hr a (by simp)))
      (fun b hb => hr b (List.mem_cons_of_mem _ hb))

/-- What the accounts of a group own together. -/
def holdings (S : String → Bool) (db : DB) : Int := ((db.balances.filter fun b => S b.id).map (·.balance)).sum

/-- What APPLIED rows brought into a group from outside. -/
def entered (S : String → Bool) (db : DB) : Int :=
  ((db.txns.filter fun t => t.status = .applied && (S t.destination && !S t.source)).map fun t => t.preciseAmount.getD 0).sum

/-- What APPLIED rows took out of a group. -/
def left (S : String → Bool) (db : DB) : Int :=
  ((db.txns.filter fun t => t.status = .applied && (S t.source && !S t.destination)).map fun t => t.preciseAmount.getD 0).sum

theorem sum_single {x : Int} {s : String} : ∀ {I : List String}, I.Nodup →
    (I.map fun i => if s = i then x else 0).sum = if s ∈ I then x else 0 := by
  intro I
  induction I with
  | nil => intro _; rfl
  | cons i I ih =>
    intro h
    obtain ⟨h1, h2⟩ := List.nodup_cons.1 h
    rw [List.map_cons, List.sum_cons, ih h2]
    by_cases e : s = i
    · subst e; simp [h1]
    · simp [e]

theorem sum_add_map {α : Type} {f g : α → Int} : ∀ {l : List α}, (l.map fun i => f i + g i).sum = (l.map f).sum + (l.map g).sum := by
  intro l
  induction l with
  | nil => rfl
  | cons i l ih => simp only [List.map_cons, List.sum_cons, ih]; omega

theorem sum_out {I : List String} (hn : I.Nodup) : ∀ {L : List Txn},
    (I.map fun i => out rowReg i L).sum = (L.map fun t => if t.source ∈ I then rowReg t else 0).sum := by
  intro L
  induction L with
  | nil => simp; induction I with
    | nil => rfl
    | cons i I ih => simpa using ih (List.nodup_cons.1 hn).2
  | cons t L ih =>
    simp only [out_cons]
    rw [sum_add_map, ih, sum_single hn, List.map_cons, List.sum_cons]

theorem sum_inn {I : List String} (hn : I.Nodup) : ∀ {L : List Txn},
    (I.map fun i => inn rowReg i L).sum = (L.map fun t => if t.destination ∈ I then rowReg t else 0).sum := by
  intro L
  induction L with
  | nil => simp; induction I with
    | nil => rfl
    | cons i I ih => simpa using ih (List.nodup_cons.1 hn).2
  | cons t L ih =>
    simp only [inn_cons]
    rw [sum_add_map, ih, sum_single hn, List.map_cons, List.sum_cons]

/-- **C169.** Take any group of accounts, by any choice of ids. After any history, what the group
owns is what APPLIED rows brought into it from outside less what APPLIED rows took out of it:
transfers inside the group, transfers outside it, holds, refusals and queued rows leave it as it is. -/
theorem c169_border (cfg : Cfg) (H : String → Prop) (as : List Act) (hr : ∀ a ∈ as, a.Respects H) (S : String → Bool) :
    holdings S (acts cfg {} as) = entered S (acts cfg {} as) - left S (acts cfg {} as) := by
  have hk := acts_holdInv (cfg := cfg) (init_holdInv H) hr
  have hbk := acts_book (cfg := cfg) (init_holdInv H) (db := {}) ⟨fun i => rfl, fun i => rfl⟩ hr
  have hp := acts_parties (cfg := cfg) (init_holdInv H) (db := {}) (by intro r hr; cases hr) hr
  generalize acts cfg {} as = db at *
  have hnd : ((ids db.balances).filter S).Nodup := hk.inv.nodup.filter _
  have e1 : holdings S db = (((ids db.balances).filter S).map fun i => inn rowReg i db.txns).sum -
      (((ids db.balances).filter S).map fun i => out rowReg i db.txns).sum := by
    have key : ∀ l : List Balance, (∀ b ∈ l, b ∈ db.balances) → ((l.filter fun b => S b.id).map (·.balance)).sum =
        (((ids l).filter S).map fun i => inn rowReg i db.txns).sum - (((ids l).filter S).map fun i => out rowReg i db.txns).sum := by
      intro l
      induction l with
      | nil => intro _; rfl
      | cons b l ih =>
        intro hl
        have hb := hl b (by simp)
        have hfind : db.find b.id = some b := find_of_mem hk.inv.nodup hb
        have h1 := hbk.debit b.id
        have h2 := hbk.credit b.id
        simp only [col, hfind, Option.elim_some] at h1 h2
        have h3 := (hk.inv.consistent b hb).1
        have := ih (fun x hx => hl x (List.mem_cons_of_mem _ hx))
        by_cases hs : S b.id = true
        · simp only [ids, List.map_cons, List.filter_cons, hs, if_true, List.sum_cons] at this ⊢
          rw [this, ← h1, ← h2, h3]; omega
        · simp only [ids, List.map_cons, List.filter_cons, hs] at this ⊢
          simpa using this
    exact key _ (fun b h => h)
  rw [e1, sum_out hnd, sum_inn hnd]
  unfold entered left
  have key : ∀ L : List Txn, (∀ t ∈ L, t.status = .applied → t.source ∈ ids db.balances ∧ t.destination ∈ ids db.balances) →
      (L.map fun t => if t.destination ∈ (ids db.balances).filter S then rowReg t else 0).sum -
      (L.map fun t => if t.source ∈ (ids db.balances).filter S then rowReg t else 0).sum =
      ((L.filter fun t => t.status = .applied && (S t.destination && !S t.source)).map fun t => t.preciseAmount.getD 0).sum -
      ((L.filter fun t => t.status = .applied && (S t.source && !S t.destination)).map fun t => t.preciseAmount.getD 0).sum := by
    intro L
    induction L with
    | nil => intro _; rfl
    | cons t L ih =>
      intro h
      have i1 := ih (fun x hx => h x (List.mem_cons_of_mem _ hx))
      have h0 := h t (by simp)
      by_cases ha : t.status = .applied
      · obtain ⟨m1, m2⟩ := h0 ha
        have w1 : t.source ∈ (ids db.balances).filter S ↔ S t.source = true := by simp only [List.mem_filter, m1, true_and]
        have w2 : t.destination ∈ (ids db.balances).filter S ↔ S t.destination = true := by
          simp only [List.mem_filter, m2, true_and]
        simp only [List.map_cons, List.sum_cons, w1, w2]
        cases hs : S t.source <;> cases hd : S t.destination <;>
          simp only [List.filter_cons, hs, hd, ha, rowReg, pay, decide_true, Bool.and_true, Bool.not_true,
            Bool.not_false, Bool.and_false, Bool.false_eq_true, if_true, if_false, List.map_cons, List.sum_cons] at i1 ⊢ <;> omega
      · simp [ha, rowReg] at i1 ⊢
        omega
  exact key _ (fun t ht ha => hp t ht (.inl ha))

-- a hold of 100 and 40 are committed or released between `a` and `b`: 30 left the group `{a}`
example : holdings (· == "a") (acts {} {} holdHistory) = -30 ∧ left (· == "a") (acts {} {} holdHistory) = 30 ∧
    entered (· == "a") (acts {} {} holdHistory) = 0 ∧ holdings (fun _ => true) (acts {} {} holdHistory) = 0 ∧
    ∀ a ∈ holdHistory, a.Respects exampleHolds := by
  refine ⟨by decide +kernel, by decide +kernel, by decide +kernel, by decide +kernel, fun a ha => (holdHistory_ok a ha).1⟩

/-! ### C170 -/

/-- What the balances of one currency own together. -/
def ofCurrency (c : String) (db : DB) : Int := ((db.balances.filter fun b => b.currency = c).map (·.balance)).sum

/-- C170 in full: in every history the balances of each currency sum to zero. -/
def C170Full : Prop := ∀ (cfg : Cfg) (H : String → Prop) (as : List Act), (∀ a ∈ as, a.Respects H) →
  ∀ c, ofCurrency c (acts cfg {} as) = 0

/-- 100 US cents paid, by balance id, from a US-dollar balance to a euro balance. -/
def crossing : List Act :=
  [.base (.create "a" "" "USD"), .base (.create "b" "" "EUR"),
   .base (.post { id := "t", source := "a", destination := "b", reference := "r", currency := "USD", status := .queued, allowOverdraft := true,
                  preciseAmount := some 100, precision := 100 } "x" "y")]

theorem crossing_ok : ∀ a ∈ crossing, a.Respects (fun _ => False) := by
  intro a ha
  simp only [crossing, List.mem_cons, List.not_mem_nil, or_false] at ha
  rcases ha with rfl | rfl | rfl <;> simp [Act.Respects, Op.Ordinary, Op.posts, Txn.Live, Txn.Plain]

/-- **C170 is violated**: the currency of a transaction is not compared with the currencies of the
balances it names by id. A US-dollar payment lands on a euro balance: 100 euro cents appear and 100
US cents are gone. -/
theorem c170_full_fails : ¬ C170Full := by
  intro h
  have := h {} (fun _ => False) crossing crossing_ok "EUR"
  revert this
  decide +kernel

/-- An account id that, if it exists, is of the given currency. -/
def OfCur (db : DB) (c i : String) : Prop := ∀ b ∈ db.balances, b.id = i → b.currency = c

/-- A transaction naming by id only balances of its own currency (or names, or ids of nothing). -/
def Txn.OwnCurrency (db : DB) (t : Txn) : Prop :=
  (isIndicator t.source = false → OfCur db t.currency t.source) ∧
  (isIndicator t.destination = false → OfCur db t.currency t.destination)

/-- An action that keeps to that. Settling a hold needs nothing, unless the row settled is a QUEUED
row that a hold waits behind. The members of a coalesced batch always name balances by id. -/
def Act.OwnCurrency (db : DB) : Act → Prop
  | .base (.post t _ _) => t.OwnCurrency db
  | .base (.batch ts) => ∀ t ∈ ts, OfCur db t.currency t.source ∧ OfCur db t.currency t.destination
  | .base _ => True
  | .commit id _ _ _ _ _ => ∀ r ∈ db.txns, r.id = id → r.status = .queued → r.OwnCurrency db
  | .void id _ _ _ _ => ∀ r ∈ db.txns, r.id = id → r.status = .queued → r.OwnCurrency db

/-- A history that keeps to that throughout. -/
def Keeps (cfg : Cfg) : DB → List Act → Prop
  | _, [] => True
  | db, a :: as => a.OwnCurrency db ∧ Keeps cfg (act cfg db a) as

/-- A row between two existing balances of its own currency. -/
def Within (db : DB) (r : Txn) : Prop :=
  (∃ b ∈ db.balances, b.id = r.source ∧ b.currency = r.currency) ∧ (∃ b ∈ db.balances, b.id = r.destination ∧ b.currency = r.currency)

/-- Rows that moved, held or released money stay within their currency. -/
def CurInv (db : DB) : Prop := ∀ r ∈ db.txns, r.status = .applied ∨ r.status = .inflight ∨ r.status = .void → Within db r

theorem exists_names {gens : List String} {db db' : DB} {i c : String} (g : NamesGrow gens (names db) (names db'))
    (h : ∃ b ∈ db.balances, b.id = i ∧ b.currency = c) : ∃ b ∈ db'.balances, b.id = i ∧ b.currency = c := by
  obtain ⟨b, hb, rfl, rfl⟩ := h
  obtain ⟨new, e, _⟩ := g.ext
  have : b.name ∈ names db' := by rw [e]; exact List.mem_append.2 (.inl (List.mem_map_of_mem hb))
  obtain ⟨x, hx, ex⟩ := List.mem_map.1 this
  simp only [Balance.name, Prod.mk.injEq] at ex
  exact ⟨x, hx, ex.1, ex.2.2⟩

theorem within_names {gens : List String} {db db' : DB} {r : Txn} (g : NamesGrow gens (names db) (names db')) (h : Within db r) :
    Within db' r := ⟨exists_names g h.1, exists_names g h.2⟩

theorem create_ofCur {db db' : DB} {n ind c i : String} (h : db.createBalance n ind c = .ok db') (ho : OfCur db c i) : OfCur db' c i := by
  obtain ⟨_, _, rfl⟩ := createBalance_ok h
  intro b hb hi
  rcases List.mem_append.1 hb with hb | hb
  · exact ho b hb hi
  · simp at hb; subst hb; rfl

theorem resolve_keeps {db db' : DB} {s c n i j : String} (h : db.resolve s c n = .ok (db', i)) (ho : OfCur db c j) : OfCur db' c j := by
  rcases resolve_ok h with ⟨rfl, _, _⟩ | ⟨rfl, _, _⟩ | ⟨_, _, hc⟩
  · exact ho
  · exact ho
  · exact create_ofCur hc ho

theorem resolve_ofCur {db db' : DB} {s c n i : String} (hn : (ids db.balances).Nodup) (h : db.resolve s c n = .ok (db', i))
    (ho : isIndicator s = false → OfCur db c s) : OfCur db' c i := by
  rcases resolve_ok h with ⟨rfl, h1, rfl⟩ | ⟨rfl, _, b, hb, rfl, _, rfl⟩ | ⟨_, rfl, hc⟩
  · exact ho h1
  · intro x hx e; rw [eq_of_mem_ids hn hx hb e]
  · obtain ⟨h1, _, rfl⟩ := createBalance_ok hc
    intro b hb hi
    rcases List.mem_append.1 hb with hb | hb
    · exact absurd hi (h1 b hb)
    · simp at hb; subst hb; rfl

theorem resolve_txns {db db' : DB} {s c n i : String} (h : db.resolve s c n = .ok (db', i)) : db'.txns = db.txns := by
  rcases resolve_ok h with ⟨rfl, _, _⟩ | ⟨rfl, _, _⟩ | ⟨_, _, hc⟩
  · rfl
  · rfl
  · obtain ⟨_, _, rfl⟩ := createBalance_ok hc; rfl

/-- A posting that keeps to its currency adds rows within it. -/
theorem recordSingle_within {cfg : Cfg} {db : DB} {t : Txn} {n1 n2 : String} (hi : Inv db) (ho : t.OwnCurrency db) :
    ∃ new, (recordSingle cfg db t n1 n2).1.txns = db.txns ++ new ∧ ∀ r ∈ new, Within (recordSingle cfg db t n1 n2).1 r := by
  unfold recordSingle
  split
  · exact ⟨[], by simp⟩
  · rename_i db1 sid h1
    have t1 : db1.txns = db.txns := resolve_txns h1
    have i1 := resolve_inv hi h1
    have o1 := resolve_ofCur hi.nodup h1 ho.1
    split
    · exact ⟨[], by simp [t1]⟩
    · rename_i db2 did h2
      have t2 : db2.txns = db1.txns := resolve_txns h2
      have i2 := resolve_inv i1 h2
      have o2 := resolve_ofCur i1.nodup h2 (fun h => resolve_keeps h1 (ho.2 h))
      have o1' := resolve_keeps h2 o1
      rcases postResolved_cases (cfg := cfg) (t := { t with source := sid, destination := did }) i2 with ⟨e, _⟩ | ⟨_, hp⟩
      · rw [e]; exact ⟨[], by simp [t1, t2]⟩
      · refine ⟨_, by rw [hp.txns, t2, t1], ?_⟩
        intro r hr
        simp only [List.mem_singleton] at hr
        subst hr
        obtain ⟨_, _, e1, e2, e3, _⟩ := finalRow_keeps { t with source := sid, destination := did }
        obtain ⟨rs, rd, _, _, _, _, f1, f2, _⟩ := hp.exact
        have g : NamesGrow [] (names db2) (names (postResolved cfg db2 { t with source := sid, destination := did }).1) := by
          rw [postResolved_names i2]; exact .refl _
        refine ⟨exists_names g ⟨rs, (find_mem f1).1, ?_, ?_⟩, exists_names g ⟨rd, (find_mem f2).1, ?_, ?_⟩⟩
        · rw [e1]; exact (find_mem f1).2
        · rw [e3]; exact o1' _ (find_mem f1).1 (find_mem f1).2
        · rw [e2]; exact (find_mem f2).2
        · rw [e3]; exact o2 _ (find_mem f2).1 (find_mem f2).2

theorem cur_append {gens : List String} {db db' : DB} {new : List Txn} (hc : CurInv db) (g : NamesGrow gens (names db) (names db'))
    (ht : db'.txns = db.txns ++ new)
    (hn : ∀ r ∈ new, r.status = .applied ∨ r.status = .inflight ∨ r.status = .void → Within db' r) : CurInv db' := by
  intro r hr hs
  rw [ht] at hr
  rcases List.mem_append.1 hr with h | h
  · exact within_names g (hc r h hs)
  · exact hn r h hs

theorem within_own {db : DB} {r : Txn} (hn : (ids db.balances).Nodup) (h : Within db r) : r.OwnCurrency db := by
  obtain ⟨⟨a, ha, e1, e2⟩, ⟨b, hb, e3, e4⟩⟩ := h
  refine ⟨fun _ x hx e => ?_, fun _ x hx e => ?_⟩
  · rw [eq_of_mem_ids hn hx ha (e.trans e1.symm)]; exact e2
  · rw [eq_of_mem_ids hn hx hb (e.trans e3.symm)]; exact e4

theorem settle_own {db : DB} {id : String} {t : Txn} (hn : (ids db.balances).Nodup) (hc : CurInv db)
    (hq : ∀ r ∈ db.txns, r.id = id → r.status = .queued → r.OwnCurrency db) (h : fetchInflight db id = .ok t) : t.OwnCurrency db := by
  obtain ⟨r, hr, hid, hin, _, rfl⟩ := fetchInflight_ok h
  have : r.OwnCurrency db := by
    rcases (holds_iff r).1 hin with h | h
    · exact within_own hn (hc r hr (.inr (.inl h)))
    · exact hq r hr hid h.1
  exact this

theorem applyPrecision_currency (t : Txn) : t.applyPrecision.source = t.source ∧ t.applyPrecision.destination = t.destination ∧
    t.applyPrecision.currency = t.currency := by
  unfold Txn.applyPrecision
  by_cases h : t.precision = 0 <;> cases hq : t.preciseAmount with
  | none => simp [h, hq]
  | some p => by_cases hp : 0 < p <;> simp [h, hp, hq]

theorem act_curInv {cfg : Cfg} {H : String → Prop} {db : DB} {a : Act} (hk : HoldInv H db) (hr : a.Respects H) (hc : CurInv db)
    (ho : a.OwnCurrency db) : CurInv (act cfg db a) := by
  have hi := hk.inv
  have gn := act_names (cfg := cfg) (a := a) hi
  cases a with
  | base op =>
    cases op with
    | create i ind c =>
      refine cur_append (new := []) hc gn ?_ (by simp)
      simp only [act, step]
      split
      · rename_i db' h; obtain ⟨_, _, rfl⟩ := createBalance_ok h; simp
      · simp
    | post t n1 n2 =>
      obtain ⟨new, e, h⟩ := recordSingle_within (cfg := cfg) (n1 := n1) (n2 := n2) hi ho
      exact cur_append hc gn e (fun r hr _ => h r hr)
    | batch ts =>
      rcases recordBatch_cases (cfg := cfg) (ts := ts) hi with ⟨e, _⟩ | ⟨_, e, _⟩
      · have : act cfg db (.base (.batch ts)) = db := e
        rw [this]; exact hc
      · obtain ⟨new, g, _⟩ := ordinary_grown (cfg := cfg) hi hr.1
        have en : new = (ts.map batchMember).map finalRow := List.append_cancel_left (g.txns.symm.trans e)
        refine cur_append hc gn e ?_
        intro r hm hs
        have hpar := g.parties r (by rw [en]; exact hm) hs
        obtain ⟨u, hu, rfl⟩ := List.mem_map.1 hm
        obtain ⟨t, ht, rfl⟩ := List.mem_map.1 hu
        obtain ⟨_, _, e1, e2, e3, _⟩ := finalRow_keeps (batchMember t)
        have hb := ho t ht
        have key : ∀ i, i ∈ ids (act cfg db (.base (.batch ts))).balances → OfCur db t.currency i →
            ∃ b ∈ (act cfg db (.base (.batch ts))).balances, b.id = i ∧ b.currency = t.currency := by
          intro i hi1 hoc
          rcases g.made i hi1 with h | h
          · obtain ⟨b, hb, rfl⟩ := List.mem_map.1 h
            exact exists_names gn ⟨b, hb, rfl, hoc b hb rfl⟩
          · simp [Op.gens] at h
        refine ⟨?_, ?_⟩
        · rw [e1, e3]; exact key _ (by have := hpar.1; rw [e1] at this; exact this) hb.1
        · rw [e2, e3]; exact key _ (by have := hpar.2; rw [e2] at this; exact this) hb.2
    | store t =>
      simp only [act, step]
      split
      · rename_i db' h
        obtain ⟨_, _, rfl⟩ := insertTxn_ok h
        refine cur_append (gens := []) (new := [t]) hc (.refl _) rfl ?_
        intro r hm hs
        simp only [List.mem_singleton] at hm
        subst hm
        obtain ⟨h, _⟩ := hr.1
        rcases h with h | h | h <;> simp [h] at hs
      · exact hc
  | commit id amt newId ref n1 n2 =>
    simp only [act, commitInflight] at gn ⊢
    split
    · exact hc
    · rename_i t ht
      have hown := settle_own hi.nodup hc ho ht
      rw [ht] at gn
      split
      · exact hc
      · rename_i p hp
        obtain ⟨new, e, h⟩ := recordSingle_within (cfg := cfg) (n1 := n1) (n2 := n2)
          (t := commitTxn t p (if amt = 0 then (p : Rat) / t.precision else t.amount) newId ref) hi hown
        exact cur_append hc (recordSingle_names hi) e (fun r hr _ => h r hr)
  | void id newId ref n1 n2 =>
    simp only [act, voidInflight]
    split
    · exact hc
    · rename_i t ht
      have hown := settle_own hi.nodup hc ho ht
      split
      · exact hc
      · obtain ⟨q1, q2, q3⟩ := applyPrecision_currency
          { t with
            status := .void, inflight := false, parent := t.id, id := newId, reference := ref, preciseAmount := some (remaining db t) }
        obtain ⟨new, e, h⟩ := recordSingle_within (cfg := cfg) (n1 := n1) (n2 := n2)
          (t := voidTxn t (remaining db t) newId ref) hi (by
            unfold voidTxn Txn.OwnCurrency; rw [q1, q2, q3]; exact hown)
        exact cur_append hc (recordSingle_names hi) e (fun r hr _ => h r hr)

theorem acts_curInv {cfg : Cfg} {H : String → Prop} {as : List Act} : ∀ {db : DB}, HoldInv H db → CurInv db →
    (∀ a ∈ as, a.Respects H) → Keeps cfg db as → CurInv (acts cfg db as) := by
  induction as with
  | nil => intro db _ hc _ _; exact hc
  | cons a as ih =>
    intro db hk hc hr ho
    exact ih (act_holdInv (cfg := cfg) hk (hr a (by simp))) (act_curInv hk (hr a (by simp)) hc ho.1)
      (fun b hb => hr b (List.mem_cons_of_mem _ hb)) ho.2

/-- **C170, what holds.** When no transaction names by id a balance of another currency, every row
that moved, held or released money lies between two balances of its own currency, and the balances
of each currency sum to zero. Missing: the service does not see to it that transactions keep to
this. -/
theorem c170_partial (cfg : Cfg) (H : String → Prop) (as : List Act) (hr : ∀ a ∈ as, a.Respects H) (ho : Keeps cfg {} as) :
    (∀ r ∈ (acts cfg {} as).txns, r.status = .applied ∨ r.status = .inflight ∨ r.status = .void → Within (acts cfg {} as) r) ∧
    ∀ c, ofCurrency c (acts cfg {} as) = 0 := by
  have hc := acts_curInv (cfg := cfg) (init_holdInv H) (db := {}) (by intro r hr; cases hr) hr ho
  refine ⟨hc, fun c => ?_⟩
  have hn := (acts_holdInv (cfg := cfg) (init_holdInv H) hr).inv.nodup
  let S : String → Bool := fun i => (acts cfg {} as).balances.any fun b => b.id = i && b.currency = c
  have hb := c169_border cfg H as hr S
  have hS : ∀ b ∈ (acts cfg {} as).balances, S b.id = decide (b.currency = c) := by
    intro b hb
    by_cases h : b.currency = c
    · simp only [h, decide_true]
      exact List.any_eq_true.2 ⟨b, hb, by simp [h]⟩
    · simp only [h, decide_false]
      refine List.any_eq_false.2 ?_
      intro x hx
      simp only [Bool.and_eq_true, decide_eq_true_eq, not_and]
      intro e
      rw [eq_of_mem_ids hn hx hb e]; exact h
  have same : ∀ r ∈ (acts cfg {} as).txns, r.status = .applied → S r.source = S r.destination := by
    intro r hm hs
    obtain ⟨⟨a, ha, e1, e2⟩, ⟨b, hb, e3, e4⟩⟩ := hc r hm (.inl hs)
    rw [← e1, ← e3, hS a ha, hS b hb, e2, e4]
  have e1 : entered S (acts cfg {} as) = 0 := by
    unfold entered
    rw [List.filter_eq_nil_iff.2]
    · rfl
    · intro r hm
      by_cases hs : r.status = .applied
      · rw [same r hm hs]; cases S r.destination <;> simp
      · simp [hs]
  have e2 : left S (acts cfg {} as) = 0 := by
    unfold left
    rw [List.filter_eq_nil_iff.2]
    · rfl
    · intro r hm
      by_cases hs : r.status = .applied
      · rw [same r hm hs]; cases S r.destination <;> simp
      · simp [hs]
  rw [e1, e2] at hb
  have e3 : ofCurrency c (acts cfg {} as) = holdings S (acts cfg {} as) := by
    unfold ofCurrency holdings
    rw [List.filter_congr (fun b hb => (hS b hb).symm)]
  rw [e3, hb]; rfl

/-- A transaction whose parties are names, or that names nobody by id, keeps to its currency in every
state: the balance a name stands for is the one in the transaction's currency, created if missing. -/
theorem c170_by_name (cfg : Cfg) (db : DB) (hi : Inv db) (t : Txn) (n1 n2 : String) (h1 : isIndicator t.source = true)
    (h2 : isIndicator t.destination = true) :
    ∃ new, (recordSingle cfg db t n1 n2).1.txns = db.txns ++ new ∧ ∀ r ∈ new, Within (recordSingle cfg db t n1 n2).1 r :=
  recordSingle_within hi ⟨by simp [h1], by simp [h2]⟩

/-- Dollars and euros, by name and by id, and a hold of euros committed. -/
def twoCurrencies : List Act :=
  [.base (.create "a" "" "USD"), .base (.create "b" "@shop" "USD"), .base (.create "c" "" "EUR"),
   .base (.post { id := "t1", source := "@world", destination := "a", reference := "r1", currency := "USD", status := .queued,
                  allowOverdraft := true, preciseAmount := some 500, precision := 100 } "w1" "y"),
   .base (.post { id := "t2", source := "a", destination := "@shop", reference := "r2", currency := "USD", status := .queued,
                  preciseAmount := some 120, precision := 100 } "x" "y"),
   .base (.post { id := "h", source := "@world", destination := "c", reference := "r3", currency := "EUR", inflight := true,
                  status := .inflight, allowOverdraft := true, preciseAmount := some 70, precision := 100 } "w2" "y"),
   .commit "h" 30 "k" "r4" "x" "y"]

theorem twoCurrencies_ok : ∀ a ∈ twoCurrencies, a.Respects (· = "h") := by
  intro a ha
  simp only [twoCurrencies, List.mem_cons, List.not_mem_nil, or_false] at ha
  rcases ha with rfl | rfl | rfl | rfl | rfl | rfl | rfl <;> simp [Act.Respects, Op.Ordinary, Op.posts, Txn.Live, Txn.Plain] <;> decide

-- `c170_partial`: what each balance of `twoCurrencies` ends with
example : (acts {} {} twoCurrencies).balances.map (fun b => (b.id, b.currency, b.balance)) =
    [("a", "USD", 380), ("b", "USD", 120), ("c", "EUR", 30), ("w1", "USD", -500), ("w2", "EUR", -30)] := by decide +kernel

example : Keeps {} {} twoCurrencies := by
  unfold twoCurrencies
  refine ⟨trivial, trivial, trivial, ⟨?_, ?_⟩, ⟨?_, ?_⟩, ⟨?_, ?_⟩, ?_, trivial⟩ <;>
    simp only [OfCur, Act.OwnCurrency, Txn.OwnCurrency] <;> decide +kernel

end Blnk
