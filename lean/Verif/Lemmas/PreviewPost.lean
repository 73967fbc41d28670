import Verif.Lemmas.Preview
/-
Helper lemmas for dry runs: which balance an identifier names, and what one posting does to it.
-/
namespace Blnk.Preview

/-- Specification: the balance an identifier names in a currency. -/
def named (db : DB) (i c : String) : Option Balance :=
  if isIndicator i then db.balances.find? (fun b => b.indicator = i && b.currency = c) else db.find i

/-- `b` has the figures a posting to this identifier starts from. -/
def Reads (db : DB) (i c : String) (b : Balance) : Prop :=
  match named db i c with
  | some r => figures b = figures r
  | none => isIndicator i = true ∧ figures b = ⟨0, 0, 0, 0, 0, 0⟩

theorem named_mem {db : DB} {i c : String} {r : Balance} (h : named db i c = some r) : r ∈ db.balances := by
  unfold named at h
  split at h
  · exact List.mem_of_find?_eq_some h
  · exact (find_mem h).1

theorem named_find {db : DB} (hn : (ids db.balances).Nodup) {i c : String} {r : Balance} (h : named db i c = some r) :
    db.find r.id = some r := find_of_mem hn (named_mem h)

theorem named_id {db : DB} {i c : String} {r : Balance} (hi : isIndicator i = false) (h : named db i c = some r) : r.id = i := by
  simp only [named, hi, Bool.false_eq_true, if_false] at h
  exact (find_mem h).2

theorem indicator_ne_blank {i : String} (h : isIndicator i = true) : i ≠ "" := by
  rintro rfl; exact absurd h (by decide)

/-- What resolving one identifier gives. -/
structure Resolved (db : DB) (i c n : String) (b : Balance) (db1 : DB) (sid : String) : Prop where
  inv : Inv db1
  txns : db1.txns = db.txns
  row : ∃ r, named db1 i c = some r ∧ r.id = sid ∧ figures r = figures b
  keep : ∀ j c' r, named db j c' = some r → named db1 j c' = some r
  frame : ∀ j c', (j ≠ i ∨ c' ≠ c) → j ≠ n → named db1 j c' = named db j c'
  from_ : (named db i c = none ∧ sid = n ∧ isIndicator i = true) ∨ ∃ r, named db i c = some r ∧ r.id = sid
  ids : ∀ x ∈ ids db1.balances, x ∈ ids db.balances ∨ x = n
  plainId : isIndicator i = false → sid = i

theorem resolve_reads {db : DB} {i c n : String} {b : Balance} (hi : Inv db) (hr : Reads db i c b)
    (hf : n ∉ ids db.balances) : ∃ db1 sid, db.resolve i c n = .ok (db1, sid) ∧ Resolved db i c n b db1 sid := by
  unfold Reads at hr
  split at hr
  · rename_i r hnm
    refine ⟨db, r.id, ?_, hi, rfl, ⟨r, hnm, rfl, hr.symm⟩, fun _ _ _ h => h, fun _ _ _ _ => rfl, .inr ⟨r, hnm, rfl⟩,
      fun x hx => .inl hx, fun h => named_id h hnm⟩
    unfold DB.resolve
    by_cases h : isIndicator i = true
    · have h' := hnm
      simp only [named, h, if_true] at h'
      simp only [h, if_true, h']
    · have h2 := named_id (by simpa using h) hnm
      rw [if_neg h, h2]
  · rename_i hnm
    obtain ⟨hind, hfig⟩ := hr
    have hfind : db.balances.find? (fun b => b.indicator = i && b.currency = c) = none := by
      simpa only [named, hind, if_true] using hnm
    have hcr : db.createBalance n i c = .ok { db with balances := db.balances ++ [{ id := n, indicator := i, currency := c }] } := by
      unfold DB.createBalance
      rw [if_neg, if_neg]
      · intro h
        simp only [Bool.and_eq_true, List.any_eq_true, decide_eq_true_eq] at h
        obtain ⟨_, b, hb, h1, h2⟩ := h
        have := List.find?_eq_none.1 hfind b hb
        simp [h1, h2] at this
      · intro h
        rw [List.any_eq_true] at h
        obtain ⟨b, hb, h1⟩ := h
        exact hf (List.mem_map.2 ⟨b, hb, by simpa using h1⟩)
    have happ : ∀ j c', named { db with balances := db.balances ++ [{ id := n, indicator := i, currency := c }] } j c'
        = (named db j c').or (if isIndicator j then (if i = j ∧ c = c' then some { id := n, indicator := i, currency := c } else none)
            else (if n = j then some { id := n, indicator := i, currency := c } else none)) := by
      intro j c'
      unfold named DB.find
      split
      · rw [List.find?_append]
        congr 1
        by_cases h : i = j ∧ c = c'
        · rw [if_pos h]; obtain ⟨rfl, rfl⟩ := h; simp [List.find?]
        · rw [if_neg h]
          have : (decide (i = j) && decide (c = c')) = false := by
            rw [Bool.eq_false_iff]; simpa using h
          simp only [List.find?, this]
      · rw [List.find?_append]
        congr 1
        by_cases h : n = j
        · rw [if_pos h]; simp [List.find?, h]
        · rw [if_neg h]; simp [List.find?, h]
    refine ⟨_, n, ?_, createBalance_inv hi hcr, rfl, ⟨{ id := n, indicator := i, currency := c }, ?_, rfl, ?_⟩, ?_, ?_, .inl ⟨hnm, rfl, hind⟩, ?_, ?_⟩
    · simp only [DB.resolve, hind, if_true, hfind, hcr]
    · rw [happ, hnm, if_pos hind, if_pos ⟨rfl, rfl⟩]; rfl
    · rw [hfig]; rfl
    · intro j c' r h; rw [happ, h]; rfl
    · intro j c' h1 h2
      rw [happ]
      have : ∀ o : Option Balance, o.or none = o := by intro o; cases o <;> rfl
      split
      · rw [if_neg (by rintro ⟨rfl, rfl⟩; simp at h1)]; exact this _
      · rw [if_neg (Ne.symm h2)]; exact this _
    · intro x hx
      simp only [Blnk.ids, List.map_append, List.map_cons, List.map_nil, List.mem_append, List.mem_singleton] at hx
      exact hx
    · intro h; rw [hind] at h; cases h

/-! ### One posting -/

theorem updateRow_map {rows rows' : List Balance} {b : Balance} (h : updateRow rows b = .ok rows')
    (hc : ∀ x ∈ rows, x.id = b.id → x.currency = b.currency) :
    ∃ f : Balance → Balance, rows' = rows.map f ∧
      ∀ x ∈ rows, (f x).id = x.id ∧ (f x).indicator = x.indicator ∧ (f x).currency = x.currency := by
  obtain ⟨r, _, _, _, rfl⟩ := updateRow_ok h
  refine ⟨_, rfl, ?_⟩
  intro x hx
  by_cases hb : (decide (x.id = b.id) && decide (x.version = b.version)) = true
  · rw [if_pos hb]
    simp at hb
    exact ⟨rfl, rfl, (hc x hx hb.1).symm⟩
  · rw [if_neg hb]; exact ⟨rfl, rfl, rfl⟩

theorem updateRows_map {bs : List Balance} : ∀ {rows rows' : List Balance}, updateRows rows bs = .ok rows' →
    (∀ b ∈ bs, ∀ x ∈ rows, x.id = b.id → x.currency = b.currency) →
    ∃ f : Balance → Balance, rows' = rows.map f ∧
      ∀ x ∈ rows, (f x).id = x.id ∧ (f x).indicator = x.indicator ∧ (f x).currency = x.currency := by
  induction bs with
  | nil => intro rows rows' h _; simp only [updateRows, Except.ok.injEq] at h; subst h; exact ⟨id, by simp, fun _ _ => ⟨rfl, rfl, rfl⟩⟩
  | cons b bs ih =>
    intro rows rows' h hc
    obtain ⟨mid, h1, h2⟩ := updateRows_cons h
    obtain ⟨f, rfl, hf⟩ := updateRow_map h1 (fun x hx he => hc b (by simp) x hx he)
    obtain ⟨g, rfl, hg⟩ := ih h2 (by
      intro b' hb' x hx he
      obtain ⟨y, hy, rfl⟩ := List.mem_map.1 hx
      rw [(hf y hy).2.2]
      exact hc b' (List.mem_cons_of_mem _ hb') y hy (by rw [← (hf y hy).1]; exact he))
    refine ⟨g ∘ f, by simp, ?_⟩
    intro x hx
    have h3 := hg (f x) (List.mem_map.2 ⟨x, hx, rfl⟩)
    have h4 := hf x hx
    exact ⟨h3.1.trans h4.1, h3.2.1.trans h4.2.1, h3.2.2.trans h4.2.2⟩

theorem find_map_of {l : List Balance} {f : Balance → Balance} {p : Balance → Bool} (h : ∀ x ∈ l, p (f x) = p x) :
    (l.map f).find? p = (l.find? p).map f := by
  induction l with
  | nil => rfl
  | cons x l ih =>
    simp only [List.map_cons, List.find?_cons]
    rw [h x (by simp)]
    cases p x with
    | true => rfl
    | false => exact ih (fun y hy => h y (List.mem_cons_of_mem _ hy))

/-- A posting keeps which balance is named by what. -/
theorem posted_map {cfg : Cfg} {db : DB} {t : Txn} {rows : List Txn} (hi : Inv db)
    (h : (postResolved cfg db t).2 = .posted rows) :
    ∃ f : Balance → Balance, (∀ j c, named (postResolved cfg db t).1 j c = (named db j c).map f) ∧
      ∀ x ∈ db.balances, (f x).id = x.id ∧ (postResolved cfg db t).1.find x.id = some (f x) := by
  have hk : ∃ f : Balance → Balance, (postResolved cfg db t).1.balances = db.balances.map f ∧
      ∀ x ∈ db.balances, (f x).id = x.id ∧ (f x).indicator = x.indicator ∧ (f x).currency = x.currency := by
    unfold postResolved at h ⊢
    split at h
    · cases h
    · cases h
    · rename_i w hw
      cases hp : db.persist w with
      | error e => rw [hp] at h; cases h
      | ok db' =>
        obtain ⟨rows', h1, h2, rfl⟩ := persist_ok hp
        obtain ⟨_, s, d, s', d', hs, hd, ha, _, rfl⟩ := prepareSingle_some hw
        obtain ⟨a1, a2⟩ := applyToBalances_inv ha
        have e1 := applySource_effect a1
        have e2 := applyDestination_effect a2
        obtain ⟨rs, mrs, _, irs, es⟩ := load_ok hs
        obtain ⟨rd, mrd, _, ird, ed⟩ := load_ok hd
        exact updateRows_map h1 (by
          intro b hb x hx he
          simp at hb
          rcases hb with rfl | rfl
          · have : x = rs := eq_of_mem_ids hi.nodup hx mrs (by rw [he, e1.id, es])
            rw [this, e1.currency, es]
          · have : x = rd := eq_of_mem_ids hi.nodup hx mrd (by rw [he, e2.id, ed])
            rw [this, e2.currency, ed])
  obtain ⟨f, hf, hk⟩ := hk
  have hfind : ∀ x ∈ db.balances, (postResolved cfg db t).1.find x.id = some (f x) := by
    intro x hx
    unfold DB.find
    rw [hf, find_map_of (p := fun b => decide (b.id = x.id)) (fun y hy => by rw [(hk y hy).1]), find_of_mem hi.nodup hx]
    rfl
  refine ⟨f, ?_, fun x hx => ⟨(hk x hx).1, hfind x hx⟩⟩
  intro j c
  unfold named DB.find
  split
  · rw [hf]; exact find_map_of (fun y hy => by rw [(hk y hy).2.1, (hk y hy).2.2])
  · rw [hf]; exact find_map_of (fun y hy => by rw [(hk y hy).1])

/-- The queued total a posting compares with. -/
def queuedSeen (cfg : Cfg) (db : DB) (i : String) : Option Int :=
  if cfg.queuedChecks then some (db.queuedDebit i) else none

/-- What one accepted posting does, in terms of the identifiers of the request. -/
structure Stepped (db : DB) (t : Txn) (n1 n2 : String) (s' d' : Balance) (db' : DB) (row : Txn) : Prop where
  inv : Inv db'
  txns : db'.txns = db.txns ++ [row]
  ref : row.reference = t.reference
  id : row.id = t.id
  src : ∃ r, named db' t.source t.currency = some r ∧ figures r = figures s' ∧ r.id = row.source
  dst : ∃ r, named db' t.destination t.currency = some r ∧ figures r = figures d' ∧ r.id = row.destination
  srcId : (named db t.source t.currency = none ∧ row.source = n1) ∨ ∃ r, named db t.source t.currency = some r ∧ r.id = row.source
  dstId : (named db t.destination t.currency = none ∧ row.destination = n2) ∨
    ∃ r, named db t.destination t.currency = some r ∧ r.id = row.destination
  keep : ∀ j c r, named db j c = some r → ∃ r', named db' j c = some r' ∧ r'.id = r.id
  frame : ∀ j c, (j ≠ t.source ∨ c ≠ t.currency) → (j ≠ t.destination ∨ c ≠ t.currency) → j ≠ n1 → j ≠ n2 →
    (∀ r, named db j c = some r → r.id ≠ row.source ∧ r.id ≠ row.destination) → named db' j c = named db j c
  ids : ∀ x ∈ ids db'.balances, x ∈ ids db.balances ∨ x = n1 ∨ x = n2

/-- What a posting needs besides the balances. -/
structure Ready (cfg : Cfg) (db : DB) (t : Txn) (n1 n2 : String) (s : Balance) : Prop where
  plain : t.Plain
  ref : db.hasRef t.reference = false
  id : db.hasTxnId t.id = false
  fresh1 : n1 ∉ ids db.balances
  fresh2 : n2 ∉ ids db.balances
  fresh12 : n1 ≠ n2
  apart : t.destination ≠ n1
  queued : s.queuedDebit = queuedSeen cfg db t.source
  seen : cfg.queuedChecks = false ∨ isIndicator t.source = false

/-- The two identifiers do not name one balance. -/
def Different (db : DB) (i j c : String) : Prop :=
  i ≠ j ∧ ∀ r r', named db i c = some r → named db j c = some r' → r.id ≠ r'.id

theorem both_resolved {cfg : Cfg} {db : DB} {t : Txn} {n1 n2 : String} {s d : Balance} (hi : Inv db)
    (hy : Ready cfg db t n1 n2 s) (hs : Reads db t.source t.currency s) (hd : Reads db t.destination t.currency d)
    (hne : Different db t.source t.destination t.currency) :
    ∃ db1 sid db2 did, db.resolve t.source t.currency n1 = .ok (db1, sid) ∧
      db1.resolve t.destination t.currency n2 = .ok (db2, did) ∧
      Resolved db t.source t.currency n1 s db1 sid ∧ Resolved db1 t.destination t.currency n2 d db2 did ∧
      named db1 t.destination t.currency = named db t.destination t.currency ∧ sid ≠ did := by
  obtain ⟨db1, sid, e1, r1⟩ := resolve_reads (n := n1) hi hs hy.fresh1
  have hfr := r1.frame t.destination t.currency (.inl (Ne.symm hne.1)) hy.apart
  have hd1 : Reads db1 t.destination t.currency d := by
    unfold Reads at hd ⊢; rw [hfr]; exact hd
  have hf2 : n2 ∉ ids db1.balances := by
    intro h
    rcases r1.ids _ h with h | h
    · exact hy.fresh2 h
    · exact hy.fresh12 h.symm
  obtain ⟨db2, did, e2, r2⟩ := resolve_reads (n := n2) r1.inv hd1 hf2
  refine ⟨db1, sid, db2, did, e1, e2, r1, r2, hfr, ?_⟩
  rcases r1.from_ with ⟨a1, rfl, _⟩ | ⟨x, a1, rfl⟩ <;> rcases r2.from_ with ⟨a2, rfl, _⟩ | ⟨y, a2, rfl⟩
  · exact hy.fresh12
  · rw [hfr] at a2
    intro he
    exact hy.fresh1 (by rw [he]; exact List.mem_map.2 ⟨y, named_mem a2, rfl⟩)
  · intro he
    exact hy.fresh2 (by rw [← he]; exact List.mem_map.2 ⟨x, named_mem a1, rfl⟩)
  · rw [hfr] at a2
    exact hne.2 x y a1 a2

theorem queuedSeen_eq {cfg : Cfg} {db db2 : DB} {t : Txn} {sid : String} (htx : db2.txns = db.txns)
    (hseen : cfg.queuedChecks = false ∨ isIndicator t.source = false) (hid : isIndicator t.source = false → sid = t.source) :
    queuedSeen cfg db2 sid = queuedSeen cfg db t.source := by
  unfold queuedSeen
  rcases hseen with h | h
  · simp [h]
  · rw [hid h]; unfold DB.queuedDebit; rw [htx]

theorem retarget_same {t : Txn} (ht : t.Plain) (a b : String) : SameMove { t with source := a, destination := b } t :=
  sameMove_status ht ht rfl rfl rfl rfl rfl rfl

theorem map_figures_ok {x : Except BalErr Balance} {b : Balance}
    (h : x.map figures = (Except.ok b : Except BalErr Balance).map figures) : ∃ b', x = .ok b' ∧ figures b' = figures b := by
  cases x with
  | error e => cases h
  | ok b' => exact ⟨b', rfl, by simpa [Except.map] using h⟩

theorem map_figures_error {x : Except BalErr Balance} {e : BalErr}
    (h : x.map figures = (Except.error e : Except BalErr Balance).map figures) : x = .error e := by
  cases x with
  | error e' => simpa [Except.map] using h
  | ok b => cases h

/-- A posting whose checks pass on the figures is stored, with those figures. -/
theorem record_accepts {cfg : Cfg} {db : DB} {t : Txn} {n1 n2 : String} {s d s' d' : Balance} (hi : Inv db)
    (hy : Ready cfg db t n1 n2 s) (hs : Reads db t.source t.currency s) (hd : Reads db t.destination t.currency d)
    (hne : Different db t.source t.destination t.currency) (a1 : applySource t s = .ok s') (a2 : applyDestination t d = .ok d') :
    ∃ row, (recordSingle cfg db t n1 n2).2 = .posted [row] ∧ Stepped db t n1 n2 s' d' (recordSingle cfg db t n1 n2).1 row := by
  obtain ⟨db1, sid, db2, did, e1, e2, r1, r2, hfr, hdiff⟩ := both_resolved hi hy hs hd hne
  have hrec : recordSingle cfg db t n1 n2 = postResolved cfg db2 { t with source := sid, destination := did } := by
    simp only [recordSingle, e1, e2]
  rw [hrec]
  generalize hu : ({ t with source := sid, destination := did } : Txn) = u
  have us : u.source = sid := by rw [← hu]
  have ud : u.destination = did := by rw [← hu]
  have ur : u.reference = t.reference := by rw [← hu]
  have ui : u.id = t.id := by rw [← hu]
  have um : SameMove u t := by rw [← hu]; exact retarget_same hy.plain _ _
  have htx : db2.txns = db.txns := r2.txns.trans r1.txns
  obtain ⟨rs, hrs, rsid, rsf⟩ := r1.row
  obtain ⟨rd, hrd, rdid, rdf⟩ := r2.row
  have hrs2 := r2.keep _ _ _ hrs
  have fs : db2.find u.source = some rs := by rw [us, ← rsid]; exact named_find r2.inv.nodup hrs2
  have fd : db2.find u.destination = some rd := by rw [ud, ← rdid]; exact named_find r2.inv.nodup hrd
  have hq : (db2.view cfg rs).queuedDebit = s.queuedDebit := by
    rw [hy.queued, ← queuedSeen_eq htx hy.seen r1.plainId, ← rsid]; rfl
  have b1 := source_same (t := u) (a := db2.view cfg rs) (b := s) rsf hq
  rw [um.source s, a1] at b1
  obtain ⟨s'', c1, g1⟩ := map_figures_ok b1
  have b2 := destination_same (t := u) (a := db2.view cfg rd) (b := d) rdf
  rw [um.destination d, a2] at b2
  obtain ⟨d'', c2, g2⟩ := map_figures_ok b2
  have hz : (finalRow u).preciseAmount ≠ some 0 := by
    have := applySource_pos um.plain c1
    rw [finalRow_plain um.plain]
    intro he; rw [he] at this; obtain ⟨p, h1, h2, _⟩ := this; simp at h2; omega
  have hp := postResolved_complete (cfg := cfg) (db := db2) (t := u)
    (by rw [ur]; unfold DB.hasRef; rw [htx]; exact hy.ref) (by rw [ui]; unfold DB.hasTxnId; rw [htx]; exact hy.id)
    (by rw [us, ud]; exact hdiff) fs fd c1 c2 hz
  refine ⟨finalRow u, hp, ?_⟩
  have P := (postResolved_posted r2.inv hp).2
  obtain ⟨f, hf, hk⟩ := posted_map r2.inv hp
  have kr := finalRow_keeps u
  have hsrc : (finalRow u).source = sid := by rw [kr.2.2.1, us]
  have hdst : (finalRow u).destination = did := by rw [kr.2.2.2.1, ud]
  obtain ⟨rs', rd', s0, d0, s1, d1, x1, x2, x3, x4, x5, x6, x7, x8, x9, x10⟩ := P.exact
  rw [fs] at x1; cases x1
  rw [fd] at x2; cases x2
  rw [load_view fs] at x3; cases x3
  rw [load_view fd] at x4; cases x4
  rw [c1] at x7; cases x7
  rw [c2] at x8; cases x8
  constructor
  · exact postResolved_inv r2.inv
  · rw [P.txns, htx]
  · rw [kr.1, ur]
  · rw [kr.2.1, ui]
  · refine ⟨f rs, by rw [hf, hrs2]; rfl, ?_, ?_⟩
    · have h1 := (hk rs (find_mem fs).1).2
      rw [(find_mem fs).2, x9] at h1
      rw [← Option.some.inj h1]
      exact g1
    · rw [(hk rs (find_mem fs).1).1, hsrc, rsid]
  · refine ⟨f rd, by rw [hf, hrd]; rfl, ?_, ?_⟩
    · have h1 := (hk rd (find_mem fd).1).2
      rw [(find_mem fd).2, x10] at h1
      rw [← Option.some.inj h1]
      exact g2
    · rw [(hk rd (find_mem fd).1).1, hdst, rdid]
  · rw [hsrc]
    rcases r1.from_ with ⟨a, b, _⟩ | h
    · exact .inl ⟨a, b⟩
    · exact .inr h
  · rw [hdst]
    rw [← hfr]
    rcases r2.from_ with ⟨a, b, _⟩ | h
    · exact .inl ⟨a, b⟩
    · exact .inr h
  · intro j c r h
    have h2 := r2.keep _ _ _ (r1.keep _ _ _ h)
    exact ⟨f r, by rw [hf, h2]; rfl, (hk r (named_mem h2)).1⟩
  · intro j c h1 h2 h3 h4 h5
    have k1 := r1.frame j c h1 h3
    have k2 := r2.frame j c h2 h4
    rw [hf, k2, k1]
    cases hn : named db j c with
    | none => rfl
    | some r =>
      have h6 := h5 r hn
      rw [hsrc, hdst] at h6
      have hm : named db2 j c = some r := by rw [k2, k1, hn]
      have h7 := (hk r (named_mem hm)).2
      rw [P.others r.id (by rw [us]; exact h6.1) (by rw [ud]; exact h6.2), named_find r2.inv.nodup hm] at h7
      simp only [Option.some.injEq] at h7
      rw [Option.map_some, ← h7]
  · intro x hx
    rw [postResolved_ids] at hx
    rcases r2.ids x hx with h | h
    · rcases r1.ids x h with h | h
      · exact .inl h
      · exact .inr (.inl h)
    · exact .inr (.inr h)

/-- A posting whose checks fail on the figures is refused. -/
theorem record_refuses {cfg : Cfg} {db : DB} {t : Txn} {n1 n2 : String} {s d : Balance} {e : BalErr} (hi : Inv db)
    (hy : Ready cfg db t n1 n2 s) (hs : Reads db t.source t.currency s) (hd : Reads db t.destination t.currency d)
    (hne : Different db t.source t.destination t.currency) (a : applyToBalances t s d = .error e) :
    (recordSingle cfg db t n1 n2).2 = .refused (.bal e) := by
  obtain ⟨db1, sid, db2, did, e1, e2, r1, r2, hfr, hdiff⟩ := both_resolved hi hy hs hd hne
  have hrec : recordSingle cfg db t n1 n2 = postResolved cfg db2 { t with source := sid, destination := did } := by
    simp only [recordSingle, e1, e2]
  rw [hrec]
  generalize hu : ({ t with source := sid, destination := did } : Txn) = u
  have us : u.source = sid := by rw [← hu]
  have ud : u.destination = did := by rw [← hu]
  have ur : u.reference = t.reference := by rw [← hu]
  have um : SameMove u t := by rw [← hu]; exact retarget_same hy.plain _ _
  have htx : db2.txns = db.txns := r2.txns.trans r1.txns
  obtain ⟨rs, hrs, rsid, rsf⟩ := r1.row
  obtain ⟨rd, hrd, rdid, rdf⟩ := r2.row
  have hrs2 := r2.keep _ _ _ hrs
  have fs : db2.find u.source = some rs := by rw [us, ← rsid]; exact named_find r2.inv.nodup hrs2
  have fd : db2.find u.destination = some rd := by rw [ud, ← rdid]; exact named_find r2.inv.nodup hrd
  have hq : (db2.view cfg rs).queuedDebit = s.queuedDebit := by
    rw [hy.queued, ← queuedSeen_eq htx hy.seen r1.plainId, ← rsid]; rfl
  have b1 := source_same (t := u) (a := db2.view cfg rs) (b := s) rsf hq
  rw [um.source s] at b1
  have ha : applySource t s = .error e := by
    unfold applyToBalances at a
    rw [applyDestination_plain_ok hy.plain] at a
    cases h : applySource t s with
    | error e' => rw [h] at a; simp only [bind, Except.bind, Except.error.injEq] at a; rw [a]
    | ok s' => rw [h] at a; cases a
  rw [ha] at b1
  have c1 := map_figures_error b1
  have href : db2.hasRef u.reference = false := by rw [ur]; unfold DB.hasRef; rw [htx]; exact hy.ref
  simp [postResolved, prepareSingle, href, load_view fs, load_view fd, applyToBalances, c1, bind, Except.bind]

end Blnk.Preview
