import Verif.Props.ProvenanceOutbox
/-
C86: a balance does not report more money with lineage than it holds.
-/
namespace Blnk.Prov
open Lineage (Strategy Src Alloc calculate live)

/-- Every item has been worked on with success. -/
def AllDone (s : Sys) : Prop := ∀ it ∈ s.items, it.done = true

/-- **C86** in full: when every outbox item is done, a balance holds at least what it reports
with lineage. -/
def C86Full : Prop := ∀ es b, AllDone (psteps {} es) → b ∈ (psteps {} es).bals → b.tracks = true →
  (psteps {} es).total b.id ≤ holds (psteps {} es).mains b.id

/-- **C86** (violated) A transfer between two tracked balances that names the provider is
recorded twice at the destination: as a credit of the provider, and as received from the
source (`lineage_processing.go:52-69`). It holds 40 and reports 80. -/
theorem c86_tagged_fails : ¬ C86Full := fun h =>
  absurd (h (setup ++ [.record (pay "1" "world" "bln_a" 100 "P"), go 0, .record (pay "2" "bln_a" "bln_b" 40 "P"), go 1]) b1
    (by unfold AllDone; decide +kernel) (by decide +kernel) rfl) (by decide +kernel)

/-- **C86** (violated) Two balances of one identity share the account of a provider: the one
that received 30 reports 130. -/
theorem c86_shared_fails : ¬ C86Full := fun h =>
  absurd (h (setup ++ [.bal a2, .record (pay "1" "world" "bln_a" 100 "P"), go 0, .record (pay "2" "world" "bln_a2" 30 "P"), go 1]) a2
    (by unfold AllDone; decide +kernel) (by decide +kernel) rfl) (by decide +kernel)

/-- **C86** (violated) Items are worked on in any order, and a debit looks for open credits
only when the balance has no provider at all (`lineage_debit.go:41-52`): a debit that
overtakes a credit is taken from what there is, and the credit comes on top. The balance
holds nothing and reports 100. -/
theorem c86_late_fails : ¬ C86Full := fun h =>
  absurd (h (setup ++ [.record (pay "1" "world" "bln_a" 1 "P"), go 0, .record (pay "2" "world" "bln_a" 100 "P"),
      .record (pay "3" "bln_a" "shop" 101 ""), go 2, go 1]) a1
    (by unfold AllDone; decide +kernel) (by decide +kernel) rfl) (by decide +kernel)

/-- **C86** (violated) Proportional allocation leaves a remainder with the providers (C36). -/
theorem c86_proportional_fails : ¬ C86Full := fun h =>
  absurd (h [.ident ada, .bal { a1 with strategy := .proportional }, .record (pay "1" "world" "bln_a" 1 "P"), go 0,
      .record (pay "2" "world" "bln_a" 1 "Q"), go 1, .record (pay "3" "world" "bln_a" 1 "R"), go 2,
      .record (pay "4" "bln_a" "shop" 2 ""), go 3] { a1 with strategy := .proportional }
    (by unfold AllDone; decide +kernel) (by decide +kernel) rfl) (by decide +kernel)

/-! ### One movement after the other -/

/-- Each movement is recorded, and the outbox is worked on until it is empty before the next
one. -/
def served : Nat → List Main → List Ev
  | _, [] => []
  | n, m :: ms => .record m :: ((List.range (n + 1)).map go ++ served (n + 1) ms)

/-- What is asked of the identities and balances. -/
structure Setting (U : List Ident) (pre : List Ev) : Prop where
  only : ∀ e ∈ pre, (∃ i, e = .ident i) ∨ ∃ b, e = .bal b
  /-- every tracked balance has an identity -/
  ident : ∀ d, .bal d ∈ pre → d.tracks = true → ∃ i, (psteps {} pre).ident d.identity = some i
  /-- and shares it with no other balance of its currency -/
  sole : ∀ d, .bal d ∈ pre → d.tracks = true → Sole pre d
  seq : ∀ d, .bal d ∈ pre → d.tracks = true → d.strategy ≠ .proportional

/-- What is asked of a movement: no hold, no underscore in its reference, and none of a
provider's name or overdraft on its way out of a tracked balance. -/
structure Plain (pre : List Ev) (m : Main) : Prop where
  unheld : m.held = false
  ref : '_' ∉ m.ref.toList
  out : ∀ d, .bal d ∈ pre → d.tracks = true → d.id = m.src → m.provider = "" ∧ m.overdraft = false

theorem split_ref {x y u v : List Char} (hx : '_' ∉ x) (hy : '_' ∉ y) (h : x ++ '_' :: u = y ++ '_' :: v) : x = y := by
  induction x generalizing y with
  | nil =>
    cases y with
    | nil => rfl
    | cons c y =>
      simp only [List.nil_append, List.cons_append, List.cons.injEq] at h
      exact absurd (by rw [← h.1]; simp) hy
  | cons c x ih =>
    cases y with
    | nil =>
      simp only [List.nil_append, List.cons_append, List.cons.injEq] at h
      exact absurd (by rw [h.1]; simp) hx
    | cons c' y =>
      simp only [List.cons_append, List.cons.injEq] at h
      rw [h.1, ih (fun e => hx (by simp [e])) (fun e => hy (by simp [e])) h.2]

/-- What is true between two movements. -/
structure Ok (U : List Ident) (pre es : List Ev) (n : Nat) (s : Sys) : Prop where
  book : Book U es s
  solid : Solid U s
  sound : Sound U s
  covered : Covered s
  done : AllDone s
  len : s.items.length ≤ n
  bals : s.bals = (psteps {} pre).bals
  idents : s.idents = (psteps {} pre).idents
  mains : ∀ x ∈ s.mains, '_' ∉ x.ref.toList ∧ x.held = false
  refs : ∀ r ∈ s.rows, ∃ x ∈ s.mains, ∃ u, r.ref.toList = x.ref.toList ++ '_' :: u
  le : ∀ b ∈ s.bals, b.tracks = true → s.total b.id ≤ holds s.mains b.id

theorem go_noop {s : Sys} {j : Nat} (h : ∀ it, s.items[j]? = some it → it.done = true) : pstep s (go j) = s := by
  simp only [go, pstep]
  cases hj : s.items[j]? with
  | none => rfl
  | some it => simp [h it hj]

theorem gos_done {s : Sys} (h : AllDone s) : ∀ js : List Nat, psteps s (js.map go) = s
  | [] => rfl
  | j :: js => by
    simp only [List.map_cons, psteps]
    rw [go_noop fun it hit => h it (List.mem_of_getElem? hit)]
    exact gos_done h js

theorem gos_one {s : Sys} {k : Nat} (h : ∀ j it, j ≠ k → s.items[j]? = some it → it.done = true) (h2 : AllDone (pstep s (go k))) :
    ∀ js : List Nat, k ∈ js → psteps s (js.map go) = pstep s (go k)
  | j :: js, hk => by
    simp only [List.map_cons, psteps]
    by_cases e : j = k
    · subst e; exact gos_done h2 js
    · rw [go_noop fun it hit => h j it e hit]
      exact gos_one h h2 js ((List.mem_cons.1 hk).resolve_left fun x => e x.symm)

theorem holds_append (l : List Main) (m : Main) (b : String) :
    holds (l ++ [m]) b = holds l b + ((if m.dst = b then m.paid else 0) - (if m.src = b then m.paid else 0)) := by
  simp [holds]

theorem reserved_zero {l : List Main} (h : ∀ x ∈ l, x.held = false) (b : String) : reserved l b = 0 :=
  map_zero _ _ fun x hx => by simp [h x hx]

/-- What an account has received and not given. -/
def netAcc (rows : List Row) (a : Acc) : Int := credit rows a - debit rows a

theorem netAcc_eq (rows : List Row) (a : Acc) : netAcc rows a = -avail rows a := by simp only [netAcc, avail]; omega

theorem avail_more (rows l : List Row) (a : Acc) : avail (rows ++ l) a = avail rows a + (l.map fun r => share r a).sum := by
  rw [avail_eq, avail_eq, List.map_append, List.sum_append]

theorem part_share {U} (hU : Univ U) {m : Main} (hm : newStat m = .applied) {i j : Ident} (hi : i ∈ U) (hj : j ∈ U) (b : TBal) (c : String)
    (dest : Dest) (hd : ∀ d k, dest = some (d, k) → k ∈ U) : ∀ l : List Alloc,
    ((l.flatMap (partRows m i b dest)).map fun r => share r (aggAcc j c)).sum =
      (if aggAcc i b.cur = aggAcc j c then (l.map Prod.snd).sum else 0) -
      (match dest with | none => 0 | some (d, k) => if aggAcc k d.cur = aggAcc j c then (l.map Prod.snd).sum else 0)
  | [] => by cases dest <;> simp
  | x :: xs => by
    rw [List.flatMap_cons, List.map_append, List.sum_append, part_share hU hm hi hj b c dest hd xs]
    have hset : (outRow m i b x.1 x.2).settled = true := by simp [Row.settled, outRow, hm]
    have h1 : share (outRow m i b x.1 x.2) (aggAcc j c) = if aggAcc i b.cur = aggAcc j c then x.2 else 0 := by
      have hne : (outRow m i b x.1 x.2).dst ≠ aggAcc j c := row_agg hU hi hj _ _ _
      simp only [share, hset, beq_eq_false_iff_ne.2 hne, Bool.and_false]
      simp [outRow]
    cases dest with
    | none =>
      simp only [partRows, List.map_cons, List.map_nil, List.sum_cons, List.sum_nil, h1]
      split <;> omega
    | some dk =>
      obtain ⟨d, k⟩ := dk
      have hset2 : (receiveRow d k m x.1 x.2).settled = true := by simp [Row.settled, receiveRow, hm]
      have h2 : share (receiveRow d k m x.1 x.2) (aggAcc j c) = - if aggAcc k d.cur = aggAcc j c then x.2 else 0 := by
        have hne : (receiveRow d k m x.1 x.2).src ≠ aggAcc j c := row_agg hU (hd d k rfl) hj _ _ _
        simp only [share, hset2, beq_eq_false_iff_ne.2 hne, Bool.and_false]
        simp [receiveRow]
      simp only [partRows, List.map_cons, List.map_nil, List.sum_cons, List.sum_nil, h1, h2]
      split <;> split <;> omega

theorem pre_bals {pre : List Ev} : ∀ (es : List Ev) (s : Sys), (∀ e ∈ es, (∃ i, e = .ident i) ∨ ∃ b, e = .bal b) → (∀ e ∈ es, e ∈ pre) →
    (∀ b ∈ s.bals, .bal b ∈ pre) → s.rows = [] → s.mains = [] → s.items = [] → s.maps = [] →
    (∀ b ∈ (psteps s es).bals, .bal b ∈ pre) ∧ (psteps s es).rows = [] ∧ (psteps s es).mains = [] ∧ (psteps s es).items = [] ∧
      (psteps s es).maps = []
  | [], _, _, _, h, h1, h2, h3, h4 => ⟨h, h1, h2, h3, h4⟩
  | e :: es, s, ho, hm, h, h1, h2, h3, h4 => by
    refine pre_bals es _ (fun x hx => ho x (by simp [hx])) (fun x hx => hm x (by simp [hx])) ?_ ?_ ?_ ?_ ?_
    all_goals
      rcases ho e (by simp) with ⟨i, rfl⟩ | ⟨b, rfl⟩
      · first | exact h | exact h1 | exact h2 | exact h3 | exact h4
      · simp only [pstep]; split
        · first | exact h | exact h1 | exact h2 | exact h3 | exact h4
        · first | exact h1 | exact h2 | exact h3 | exact h4 | (
            intro x hx
            rcases List.mem_append.1 hx with hx | hx
            · exact h x hx
            · rw [List.mem_singleton.1 hx]; exact hm _ (by simp))

/-- The surroundings of one movement. -/
structure Ctx (U : List Ident) (pre es : List Ev) : Prop where
  univ : Univ U
  known : Known U es
  calm : Calm es
  noHolds : NoHolds es
  setting : Setting U pre
  bals : ∀ b, .bal b ∈ es → .bal b ∈ pre

theorem Ok.ident {U pre es n s} (hc : Ctx U pre es) (h : Ok U pre es n s) {b : TBal} (hb : b ∈ s.bals) (ht : b.tracks = true) :
    ∃ i, s.ident b.identity = some i ∧ i ∈ U ∧ i.id = b.identity := by
  obtain ⟨i, hi⟩ := hc.setting.ident b (hc.bals b (h.book.bals b hb)) ht
  have hi' : s.ident b.identity = some i := by unfold Sys.ident at hi ⊢; rw [h.idents]; exact hi
  exact ⟨i, hi', h.book.idents i (ident_mem hi').1, (ident_mem hi').2⟩

theorem Ok.total {U pre es s} (hc : Ctx U pre es) (hB : Book U es s) (hC : Covered s) {b : TBal} (hb : b ∈ s.bals) (ht : b.tracks = true)
    {i : Ident} (hi : i ∈ U) (hid : i.id = b.identity) : s.total b.id = netAcc s.rows (aggAcc i b.cur) :=
  total_eq hc.univ hB hC hb (fun d hd => hc.setting.sole b (hc.bals b (hB.bals b hb)) ht d (hc.bals d hd)) hi hid

/-- Different tracked balances have different total accounts. -/
theorem agg_apart {U pre es s} (hc : Ctx U pre es) (hB : Book U es s) {b d : TBal} (hb : b ∈ s.bals) (hd : d ∈ s.bals)
    (ht : b.tracks = true) {i j : Ident} (hi : i ∈ U) (hj : j ∈ U) (hib : i.id = b.identity) (hjd : j.id = d.identity)
    (h : aggAcc j d.cur = aggAcc i b.cur) : d = b := by
  have hij : j = i := by
    apply Classical.byContradiction
    intro hne
    exact (hc.univ.apart j hj i hi hne d.cur b.cur).1 h
  subst hij
  exact nodup_inj hB.uniq hd hb (hc.setting.sole b (hc.bals b (hB.bals b hb)) ht d (hc.bals d (hB.bals d hd))
    (hjd.symm.trans hib) (congrArg Acc.cur h))

/-- What is left to show when the item of an accepted movement has been worked on. -/
theorem ok_close {U pre es n s m} (hc : Ctx U pre es) (h : Ok U pre es n s) (hp : Plain pre m) (hrec : .record m ∈ es)
    (hgo : ∀ j, j ≤ n → go j ∈ es) (s1 : Sys) (h1 : s1 = s.record m) (m' : Main)
    (hm' : m' = { m with paid := m.amount, closed := false }) (hmains : s1.mains = s.mains ++ [m'])
    (hitems : s1.items = s.items ++ [{ work := .main m.id }]) (hbals : s1.bals = s.bals)
    (hids : s1.idents = s.idents) (new : List Row)
    (hnew : (attempt {} [] (.main m.id) s1).1.rows = s.rows ++ new) (hok : (attempt {} [] (.main m.id) s1).2 = .ok)
    (href : ∀ r ∈ new, ∃ u, r.ref.toList = m.ref.toList ++ '_' :: u)
    (hkeep : (attempt {} [] (.main m.id) s1).1.bals = s1.bals ∧ (attempt {} [] (.main m.id) s1).1.idents = s1.idents ∧
      (attempt {} [] (.main m.id) s1).1.mains = s1.mains ∧ (attempt {} [] (.main m.id) s1).1.items = s1.items)
    (hle : ∀ b ∈ s.bals, b.tracks = true → ∀ i ∈ U, i.id = b.identity →
      netAcc (s.rows ++ new) (aggAcc i b.cur) ≤ holds (s.mains ++ [m']) b.id) :
    Ok U pre es (n + 1) (psteps s1 ((List.range (n + 1)).map go)) := by
  have hk : s1.items[s.items.length]? = some { work := .main m.id } := by
    rw [hitems, List.getElem?_append_right (Nat.le_refl _)]; simp
  have hs2 : pstep s1 (go s.items.length) =
      { (attempt {} [] (.main m.id) s1).1 with items := s1.items.set s.items.length { work := .main m.id, done := true } } := by
    simp only [go, pstep, hk]
    simp only [Bool.or_self, Bool.false_eq_true, if_false]
    rw [hok, hkeep.2.2.2]
    rfl
  have hdone : AllDone (pstep s1 (go s.items.length)) := by
    rw [hs2]
    intro it hit
    dsimp only at hit
    rw [hitems, List.set_append_right _ _ (Nat.le_refl _)] at hit
    simp only [Nat.sub_self, List.set_cons_zero] at hit
    rcases List.mem_append.1 hit with hit | hit
    · exact h.done it hit
    · rw [List.mem_singleton.1 hit]
  have hall := gos_one (s := s1) (k := s.items.length) ?_ hdone (List.range (n + 1)) (by
    rw [List.mem_range]; have := h.len; omega)
  · rw [hall]
    have e1 : s1 = pstep s (.record m) := h1
    have hgk := hgo s.items.length h.len
    have B1 : Book U es s1 := by rw [e1]; exact book_step hc.univ hc.known h.book hrec
    have S1 : Solid U s1 := by rw [e1]; exact solid_step hc.univ hc.known h.book h.solid hrec
    have D1 : Sound U s1 := by rw [e1]; exact sound_step hc.univ hc.known hc.noHolds h.book h.solid.pos h.sound hrec
    have C1 : Covered s1 := by rw [e1]; exact covered_step hc.univ hc.known hc.calm h.book h.covered hrec
    have B2 := book_step hc.univ hc.known B1 hgk
    have C2 := covered_step hc.univ hc.known hc.calm B1 C1 hgk
    have hr2 : (pstep s1 (go s.items.length)).rows = s.rows ++ new := by rw [hs2]; exact hnew
    have hm2 : (pstep s1 (go s.items.length)).mains = s.mains ++ [m'] := by rw [hs2]; exact hkeep.2.2.1.trans hmains
    have hb2 : (pstep s1 (go s.items.length)).bals = s.bals := by rw [hs2]; exact hkeep.1.trans hbals
    refine ⟨B2, solid_step hc.univ hc.known B1 S1 hgk, sound_step hc.univ hc.known hc.noHolds B1 S1.pos D1 hgk, C2, hdone, ?_,
      hb2.trans h.bals, ?_, ?_, ?_, ?_⟩
    · rw [hs2]; simp only [List.length_set, hitems, List.length_append, List.length_singleton]; have := h.len; omega
    · rw [hs2]; exact (hkeep.2.1.trans hids).trans h.idents
    · rw [hm2]
      intro x hx
      rcases List.mem_append.1 hx with hx | hx
      · exact h.mains x hx
      · rw [List.mem_singleton.1 hx, hm']; exact ⟨hp.ref, hp.unheld⟩
    · rw [hr2, hm2]
      intro r hr
      rcases List.mem_append.1 hr with hr | hr
      · obtain ⟨x, hx, hu⟩ := h.refs r hr
        exact ⟨x, List.mem_append_left _ hx, hu⟩
      · refine ⟨m', by simp, ?_⟩
        rw [hm']; exact href r hr
    · rw [hb2, hm2]
      intro b hb ht
      obtain ⟨i, _, hi, hid⟩ := h.ident hc hb ht
      rw [Ok.total hc B2 C2 (by rw [hb2]; exact hb) ht hi hid, hr2]
      exact hle b hb ht i hi hid
  · intro j it hj hit
    rw [hitems] at hit
    rcases Nat.lt_or_ge j s.items.length with hlt | hge
    · rw [List.getElem?_append_left hlt] at hit
      exact h.done it (List.mem_of_getElem? hit)
    · exfalso
      rw [List.getElem?_eq_none] at hit
      · simp at hit
      · simp only [List.length_append, List.length_singleton]; omega

theorem ok_serve {U pre es n s m} (hc : Ctx U pre es) (h : Ok U pre es n s) (hp : Plain pre m) (hrec : .record m ∈ es)
    (hgo : ∀ j, j ≤ n → go j ∈ es) : Ok U pre es (n + 1) (psteps (s.record m) ((List.range (n + 1)).map go)) := by
  by_cases hacc : m.amount ≤ 0 ∨ m.src = m.dst ∨ s.used m.ref ∨ (s.main m.id).isSome ∨
      (!m.overdraft ∧ holds s.mains m.src - reserved s.mains m.src < m.amount)
  · have e : s.record m = s := by unfold Sys.record; rw [if_pos hacc]
    rw [e, gos_done h.done]
    exact { h with len := Nat.le_succ_of_le h.len }
  · generalize hm' : ({ m with paid := m.amount, closed := false } : Main) = m'
    have hs1 : s.record m = { s with mains := s.mains ++ [m'], items := if s.wantsItem m then s.items ++ [{ work := .main m.id }] else s.items } := by
      unfold Sys.record; rw [if_neg hacc, ← hm']
      simp only [hp.unheld, Bool.false_eq_true, if_false]
    simp only [not_or] at hacc
    obtain ⟨a1, a2, a3, a4, a5⟩ := hacc
    have hchild : ¬ (m.child = true ∧ m.held = true) := by rw [hp.unheld]; simp
    have hpaid : m'.paid = m.amount := by rw [← hm']
    have hsrc : m'.src = m.src := by rw [← hm']
    have hdst : m'.dst = m.dst := by rw [← hm']
    -- a tracked source holds enough
    have henough : ∀ b ∈ s.bals, b.tracks = true → b.id = m.src → m.provider = "" ∧ m.amount ≤ holds s.mains b.id := by
      intro b hb ht e
      obtain ⟨h1, h2⟩ := hp.out b (hc.bals b (h.book.bals b hb)) ht e
      refine ⟨h1, ?_⟩
      rw [e]
      have := reserved_zero (fun x hx => (h.mains x hx).2) m.src
      simp only [h2, Bool.not_false, true_and, this] at a5
      omega
    have hbal : ∀ x, (s.record m).bal x = s.bal x := by intro x; rw [hs1]; rfl
    by_cases hw : s.wantsItem m = true
    · -- the item is worked on
      rw [hw, if_pos rfl] at hs1
      have hmain : (s.record m).main m'.id = some m' := by
        rw [hs1]
        unfold Sys.main
        have hid : m'.id = m.id := by rw [← hm']
        rw [List.find?_append, hid]
        have : s.mains.find? (·.id == m.id) = none := by simpa [Sys.main] using a4
        rw [this]
        simp [hid]
      have hmid : m'.id = m.id := by rw [← hm']
      have hmref : m'.ref = m.ref := by rw [← hm']
      have hkeep : (attempt {} [] (.main m.id) (s.record m)).1.bals = (s.record m).bals ∧
          (attempt {} [] (.main m.id) (s.record m)).1.idents = (s.record m).idents ∧
          (attempt {} [] (.main m.id) (s.record m)).1.mains = (s.record m).mains ∧
          (attempt {} [] (.main m.id) (s.record m)).1.items = (s.record m).items := by
        rw [← hmid]
        simp only [attempt, hmain]
        exact process_keeps {} m' ⟨s.record m, []⟩
      have hrows1 : (s.record m).rows = s.rows := by rw [hs1]
      have hused : ∀ u : List Char, ∀ x : String, x.toList = m.ref.toList ++ '_' :: u → (s.record m).used x = false := by
        intro u x hx
        unfold Sys.used
        rw [Bool.or_eq_false_iff]
        constructor
        · rw [List.any_eq_false]
          intro r hr
          rw [hrows1] at hr
          obtain ⟨y, hy, v, hv⟩ := h.refs r hr
          intro e
          have e' : r.ref = x := by simpa using e
          rw [← e', hv] at hx
          have hyr := split_ref (h.mains y hy).1 hp.ref hx
          have : s.used m.ref = true := by
            unfold Sys.used
            rw [Bool.or_eq_true]
            right
            rw [List.any_eq_true]
            exact ⟨y, hy, by simpa using String.ext hyr⟩
          exact a3 this
        · rw [List.any_eq_false]
          intro y hy e
          have e' : y.ref = x := by simpa using e
          have hno : '_' ∉ y.ref.toList := by
            rw [hs1] at hy
            rcases List.mem_append.1 hy with hy | hy
            · exact (h.mains y hy).1
            · rw [List.mem_singleton.1 hy, hmref]; exact hp.ref
          exact hno (by rw [e', hx]; simp)
      have close := fun new => ok_close hc h hp hrec hgo (s.record m) rfl m' hm'.symm (by rw [hs1]) (by rw [hs1]) (by rw [hs1])
        (by rw [hs1]) new
      have hst : newStat m' = .applied := by rw [← hm']; simp [newStat, hp.unheld]
      by_cases hsrcT : ∃ b, s.bal m.src = some b ∧ b.tracks = true
      · -- a debit
        obtain ⟨b, hb, ht⟩ := hsrcT
        obtain ⟨hbm, hbe⟩ := bal_mem hb
        obtain ⟨hprov, hen⟩ := henough b hbm ht hbe
        obtain ⟨i, hi, hiU, hid⟩ := h.ident hc hbm ht
        have hprov' : m'.provider = "" := by rw [← hm']; exact hprov
        have hatt := attempt_debit (s := s.record m) (g := {}) (b := b) rfl hmain hprov' (by rw [hbal, hsrc]; exact hb) ht
        rw [hmid] at hatt
        have hmaps : (s.record m).mapsOf b.id = s.mapsOf b.id := by rw [hs1]; rfl
        by_cases hne : s.mapsOf b.id = []
        · -- no provider is known: nothing is recorded
          have hpend : (s.record m).pendingCredit b.id = false := by
            unfold Sys.pendingCredit
            rw [List.any_eq_false]
            intro it hit
            rw [hs1] at hit
            rcases List.mem_append.1 hit with hit | hit
            · simp [h.done it hit]
            · rw [List.mem_singleton.1 hit]
              dsimp only
              rw [← hmid, hmain]
              have : (m'.dst == b.id) = false := beq_eq_false_iff_ne.2 (by rw [hdst, hbe]; exact fun e => a2 e.symm)
              simp [this]
          have hdp : debitPart {} m' b ⟨s.record m, []⟩ = (⟨s.record m, []⟩, .ok) := by
            rw [debit_calm, hmaps, if_pos hne, hpend]; rfl
          rw [hdp] at hatt
          refine close [] (by rw [hatt, List.append_nil]; exact hrows1) (by rw [hatt]) (by simp) hkeep ?_
          intro b' hb' ht' i' hi' hid'
          rw [List.append_nil, ← Ok.total hc h.book h.covered hb' ht' hi' hid', holds_append, hpaid, hsrc, hdst]
          have hle := h.le b' hb' ht'
          by_cases e : b' = b
          · subst e
            have h0 : s.total b'.id = 0 := by unfold Sys.total Sys.report; rw [hne]; rfl
            rw [if_neg (by rw [hbe]; exact fun e => a2 e.symm), if_pos hbe.symm]
            omega
          · have : m.src ≠ b'.id := fun e' => e (nodup_inj h.book.uniq hb' hbm (by rw [hbe]; exact e'.symm))
            rw [if_neg this]
            split <;> omega
        · have B1 : Book U es (s.record m) := book_step hc.univ hc.known h.book hrec
          have D1 : Sound U (s.record m) := sound_step hc.univ hc.known hc.noHolds h.book h.solid.pos h.sound hrec
          have hi1 : (s.record m).ident b.identity = some i := by rw [hs1]; exact hi
          have hb1 : b ∈ (s.record m).bals := by rw [hs1]; exact hbm
          have hrel : ∀ k : String, k.toList = '_' :: k.toList.tail → ∀ p, (s.record m).used (m'.ref ++ k ++ p) = false := by
            intro k hk p
            refine hused (k.toList.tail ++ p.toList) _ ?_
            rw [hmref, String.toList_append, String.toList_append, hk]; simp
          obtain ⟨d1, d2⟩ := debit_full (g := {}) (m := m') hc.univ B1 D1 (by rw [← hm']; dsimp only; omega) hb1 hi1
            (fun p => ⟨hrel "_release_" (by decide) p, hrel "_receive_" (by decide) p⟩) (by rw [hmaps]; exact hne)
          have hamt : m'.amount = m.amount := by rw [← hm']
          have hsum : ((calculate b.strategy (live ((s.record m).sources b.id)) m'.amount).map Prod.snd).sum =
              min m.amount (s.total b.id) := by
            rw [Lineage.c35_total _ (hc.setting.seq b (hc.bals b (h.book.bals b hbm)) ht) _ _ (by rw [hamt]; omega),
              sources_total hc.univ B1 D1 hb1 hiU hid, hamt]
            rw [hs1]; rfl
          generalize hL : calculate b.strategy (live ((s.record m).sources b.id)) m'.amount = L at d2 hsum
          refine close (L.flatMap (partRows m' i b ((s.record m).destOf {} m'))) (by rw [hatt, d2, hrows1]) (by rw [hatt]; exact d1)
            ?_ hkeep ?_
          · intro r hr
            obtain ⟨x, _, hx⟩ := List.mem_flatMap.1 hr
            unfold partRows at hx
            rcases List.mem_cons.1 hx with rfl | hx
            · refine ⟨"release_".toList ++ x.1.toList, ?_⟩
              simp only [outRow, hmref, String.toList_append]
              simp
            · revert hx
              cases (s.record m).destOf {} m' with
              | none => intro hx; simp at hx
              | some dj =>
                intro hx
                have : r = receiveRow dj.1 dj.2 m' x.1 x.2 := by simpa using hx
                subst this
                refine ⟨"receive_".toList ++ x.1.toList, ?_⟩
                simp only [receiveRow, hmref, String.toList_append]
                simp
          · intro b' hb' ht' i' hi' hid'
            have hdestU : ∀ d k, (s.record m).destOf {} m' = some (d, k) → k ∈ U ∧ k.id = d.identity ∧ d ∈ s.bals ∧ d.id = m.dst := by
              intro d k hd
              obtain ⟨h1, _, h3⟩ := destOf_some hd
              refine ⟨B1.idents k (ident_mem h3).1, (ident_mem h3).2, ?_, ?_⟩
              · have := (bal_mem h1).1; rw [hs1] at this; exact this
              · rw [← hdst]; exact (bal_mem h1).2
            generalize (s.record m).destOf {} m' = D at hdestU ⊢
            rw [netAcc_eq, avail_more, part_share hc.univ hst hiU hi' b b'.cur _ (fun d k hd => (hdestU d k hd).1), hsum]
            have htot := Ok.total hc h.book h.covered hb' ht' hi' hid'
            rw [netAcc_eq] at htot
            rw [holds_append, hpaid, hsrc, hdst]
            have hle := h.le b' hb' ht'
            have hle0 := h.le b hbm ht
            by_cases e : b' = b
            · subst e
              have hii : i' = i := hc.univ.oneId i' hi' i hiU (hid'.trans hid.symm)
              subst hii
              rw [if_pos rfl, if_neg (by rw [hbe]; exact fun e => a2 e.symm), if_pos hbe.symm]
              cases D with
              | none => dsimp only; omega
              | some dk =>
                obtain ⟨d, k⟩ := dk
                dsimp only
                obtain ⟨q1, q2, q3, q4⟩ := hdestU d k rfl
                rw [if_neg]
                · omega
                · intro e
                  have := agg_apart hc h.book hbm q3 ht hi' q1 hid' q2 e
                  rw [this] at q4
                  exact a2 (hbe.symm.trans q4)
            · have hsne : m.src ≠ b'.id := fun e' => e (nodup_inj h.book.uniq hb' hbm (by rw [hbe]; exact e'.symm))
              rw [if_neg hsne, if_neg (fun ea => e (agg_apart hc h.book hb' hbm ht' hi' hiU hid' hid ea).symm)]
              cases D with
              | none => dsimp only; split <;> omega
              | some dk =>
                obtain ⟨d, k⟩ := dk
                dsimp only
                obtain ⟨q1, q2, q3, q4⟩ := hdestU d k rfl
                by_cases ea : aggAcc k d.cur = aggAcc i' b'.cur
                · have := agg_apart hc h.book hb' q3 ht' hi' q1 hid' q2 ea
                  rw [this] at q4
                  rw [if_pos ea, if_pos q4.symm]
                  omega
                · rw [if_neg ea]; split <;> omega
      · -- a credit
        have hcon := (wants_iff s m hchild).1 hw
        rcases hcon with ⟨hprov, d, hd, htd⟩ | hcon
        · obtain ⟨hdm, hde⟩ := bal_mem hd
          obtain ⟨i, hi, hiU, hid⟩ := h.ident hc hdm htd
          have hcur : m'.cur = d.cur := by rw [← hm']; exact hc.known.cur m d hrec (h.book.bals d hdm) hde
          obtain ⟨r, r1, r2, r3, _, _, r4, r5, r6, r7, _⟩ := c87_credit_partial (s.record m) {} m' d i rfl hmain
            (by rw [hbal, hdst]; exact hd) htd (by rw [hs1]; exact hi) (by rw [← hm']; exact hprov)
            (by
              intro b hb
              rw [hbal, hsrc] at hb
              cases ht : b.tracks with
              | false => rfl
              | true => exact absurd ⟨b, hb, ht⟩ hsrcT)
            (by
              refine hused ("shadow_".toList ++ m'.provider.toList) _ ?_
              rw [hmref, String.toList_append, String.toList_append]; simp)
          rw [hmid] at r1 r2
          refine close [r] (by rw [r1, hrows1]) r2 ?_ hkeep ?_
          · intro x hx
            rw [List.mem_singleton.1 hx, r3]
            refine ⟨"shadow_".toList ++ m'.provider.toList, ?_⟩
            rw [hmref, String.toList_append, String.toList_append]; simp
          · intro b' hb' ht' i' hi' hid'
            have htot := Ok.total hc h.book h.covered hb' ht' hi' hid'
            rw [netAcc_eq] at htot ⊢
            rw [avail_push, holds_append, hpaid, hsrc, hdst]
            have hle := h.le b' hb' ht'
            have hsne : m.src ≠ b'.id := by
              intro e
              refine hsrcT ⟨b', ?_, ht'⟩
              rw [e]
              cases hf : s.bal b'.id with
              | none =>
                exfalso
                unfold Sys.bal at hf
                rw [List.find?_eq_none] at hf
                exact hf b' hb' (by simp)
              | some y => rw [nodup_inj h.book.uniq (bal_mem hf).1 hb' (bal_mem hf).2]
            rw [if_neg hsne]
            have hsettled : r.settled = true := by
              have : m'.held = false := by rw [← hm']; exact hp.unheld
              rw [this] at r7
              simp [Row.settled, r7]
            have hsh : share r (aggAcc i' b'.cur) = - if aggAcc i d.cur = aggAcc i' b'.cur then m.amount else 0 := by
              have hne : r.src ≠ aggAcc i' b'.cur := by rw [r5]; exact row_agg hc.univ hiU hi' _ _ _
              simp only [share, hsettled, beq_eq_false_iff_ne.2 hne, Bool.and_false, r6, hcur, r4]
              have : m'.amount = m.amount := by rw [← hm']
              simp [this]
            rw [hsh]
            by_cases ea : aggAcc i d.cur = aggAcc i' b'.cur
            · have := agg_apart hc h.book hb' hdm ht' hi' hiU hid' hid ea
              rw [this] at hde
              rw [if_pos ea, if_pos hde.symm]
              omega
            · rw [if_neg ea]; split <;> omega
        · exact absurd hcon hsrcT
    · -- lineage is not concerned
      have hcon : ¬ Concerned s m := fun hcon => hw ((wants_iff s m hchild).2 hcon)
      rw [if_neg hw] at hs1
      have hdone : AllDone (s.record m) := by rw [hs1]; exact h.done
      rw [gos_done hdone]
      refine ⟨book_step hc.univ hc.known h.book hrec, solid_step hc.univ hc.known h.book h.solid hrec,
        sound_step hc.univ hc.known hc.noHolds h.book h.solid.pos h.sound hrec,
        covered_step hc.univ hc.known hc.calm h.book h.covered hrec, hdone, ?_, ?_, ?_, ?_, ?_, ?_⟩
      all_goals rw [hs1]
      · exact Nat.le_succ_of_le h.len
      · exact h.bals
      · exact h.idents
      · intro x hx
        rcases List.mem_append.1 hx with hx | hx
        · exact h.mains x hx
        · rw [List.mem_singleton.1 hx, ← hm']; exact ⟨hp.ref, hp.unheld⟩
      · intro r hr
        obtain ⟨x, hx, hu⟩ := h.refs r hr
        exact ⟨x, List.mem_append_left _ hx, hu⟩
      · intro b hb ht
        have hle := h.le b hb ht
        show s.total b.id ≤ holds (s.mains ++ [m']) b.id
        rw [holds_append, hpaid, hsrc, hdst]
        have hsne : m.src ≠ b.id := by
          intro e
          refine hcon (.inr ⟨b, ?_, ht⟩)
          rw [e]
          cases hf : s.bal b.id with
          | none =>
            exfalso
            unfold Sys.bal at hf
            rw [List.find?_eq_none] at hf
            exact hf b hb (by simp)
          | some y => rw [nodup_inj h.book.uniq (bal_mem hf).1 hb (bal_mem hf).2]
        rw [if_neg hsne]
        split <;> omega

theorem psteps_append (s : Sys) : ∀ a b : List Ev, psteps s (a ++ b) = psteps (psteps s a) b
  | [], _ => rfl
  | e :: a, b => psteps_append (pstep s e) a b

theorem ok_served {U pre es} (hc : Ctx U pre es) : ∀ (ms : List Main) (n : Nat) (s : Sys), Ok U pre es n s →
    (∀ m ∈ ms, Plain pre m) → (∀ e ∈ served n ms, e ∈ es) → Ok U pre es (n + ms.length) (psteps s (served n ms))
  | [], n, s, h, _, _ => h
  | m :: ms, n, s, h, hp, he => by
    have h1 := ok_serve hc h (hp m (by simp)) (he _ (by simp [served]))
      (fun j hj => he _ (by
        simp only [served, List.mem_cons, List.mem_append, List.mem_map, List.mem_range]
        exact .inr (.inl ⟨j, by omega, rfl⟩)))
    have h2 := ok_served hc ms (n + 1) _ h1 (fun x hx => hp x (by simp [hx]))
      (fun e hx => he e (by simp only [served, List.mem_cons, List.mem_append]; exact .inr (.inr hx)))
    have e1 : psteps s (served n (m :: ms)) = psteps (psteps (s.record m) ((List.range (n + 1)).map go)) (served (n + 1) ms) := by
      simp only [served, psteps, psteps_append]; rfl
    rw [e1, List.length_cons, show n + (ms.length + 1) = n + 1 + ms.length from by omega]
    exact h2

theorem served_mem {e : Ev} : ∀ {n : Nat} {ms : List Main}, e ∈ served n ms → (∃ m ∈ ms, e = .record m) ∨ ∃ j, e = go j
  | n, m :: ms, h => by
    simp only [served, List.mem_cons, List.mem_append, List.mem_map] at h
    rcases h with rfl | ⟨j, _, rfl⟩ | h
    · exact .inl ⟨m, by simp, rfl⟩
    · exact .inr ⟨j, rfl⟩
    · rcases served_mem h with ⟨x, hx, e⟩ | h
      · exact .inl ⟨x, by simp [hx], e⟩
      · exact .inr h

/-- **C86** (partial) Suppose the outbox is worked on without disturbance and emptied after
each movement; identities are not renamed and share no accounts (C89); every tracked balance
is alone with its identity in its currency and allocates first-in or last-in first; and the
movements are no holds, are in the currency of their destination, and leave tracked
balances without a provider's name and without overdraft. Then every item succeeds, and no
tracked balance ever reports more with lineage than it holds. Missing from the full
statement: everything these conditions exclude; the negations above show that the tag, the
shared identity, the order and the strategy cannot be dropped. -/
theorem c86_in_order_partial {U pre} {ms : List Main} (hU : Univ U) (hk : Known U (pre ++ served 0 ms)) (hset : Setting U pre)
    (hp : ∀ m ∈ ms, Plain pre m) :
    AllDone (psteps {} (pre ++ served 0 ms)) ∧
    ∀ b ∈ (psteps {} (pre ++ served 0 ms)).bals, b.tracks = true →
      (psteps {} (pre ++ served 0 ms)).total b.id ≤ holds (psteps {} (pre ++ served 0 ms)).mains b.id := by
  have hc : Ctx U pre (pre ++ served 0 ms) := by
    refine ⟨hU, hk, ?_, ?_, hset, ?_⟩
    · intro k g os h
      rcases List.mem_append.1 h with h | h
      · rcases hset.only _ h with ⟨i, e⟩ | ⟨b, e⟩ <;> simp at e
      · rcases served_mem h with ⟨m, _, e⟩ | ⟨j, e⟩
        · simp at e
        · simp only [go, Ev.work.injEq] at e; exact e.2.2
    · intro m d h _ _ _
      rcases List.mem_append.1 h with h | h
      · rcases hset.only _ h with ⟨i, e⟩ | ⟨b, e⟩ <;> simp at e
      · rcases served_mem h with ⟨x, hx, e⟩ | ⟨j, e⟩
        · injection e with e; rw [e]; exact (hp x hx).unheld
        · simp [go] at e
    · intro b h
      rcases List.mem_append.1 h with h | h
      · exact h
      · rcases served_mem h with ⟨x, hx, e⟩ | ⟨j, e⟩
        · simp at e
        · simp [go] at e
  obtain ⟨_, q2, q3, q4, q5⟩ := pre_bals (pre := pre) pre {} hset.only (fun _ h => h) (by simp) rfl rfl rfl rfl
  have hB := book_steps hU hk pre {} (fun e he => List.mem_append_left _ he) book_empty
  have h0 : Ok U pre (pre ++ served 0 ms) 0 (psteps {} pre) := by
    refine ⟨hB, ⟨by rw [q2]; simp, fun _ _ _ => by rw [q2]; simp [free, debit, credit, heldDebit]⟩,
      ⟨by rw [q2]; simp, fun _ _ _ _ => by rw [q2]; simp [avail, debit, credit]⟩, ?_, ?_, by rw [q4]; simp, rfl, rfl,
      by rw [q3]; simp, by rw [q2]; simp, ?_⟩
    · intro r hr; rw [q2] at hr; simp at hr
    · intro it hit; rw [q4] at hit; simp at hit
    · intro b _ _
      rw [q3]
      unfold Sys.total Sys.report Sys.mapsOf
      rw [q5]; simp [holds]
  have h1 := ok_served hc ms 0 _ h0 hp (fun e he => List.mem_append_right _ he)
  rw [← psteps_append] at h1
  exact ⟨h1.done, h1.le⟩

/-- 100 and 50 come in, 120 go to another customer, 20 to a shop, 10 come in without a name. -/
def quietDay : List Main := [pay "1" "world" "bln_a" 100 "P", pay "2" "world" "bln_a" 50 "Q", pay "3" "bln_a" "bln_b" 120 "",
  pay "4" "bln_b" "shop" 20 "", pay "5" "world" "bln_b" 10 ""]

example : Known [ada, bob] (setup ++ served 0 quietDay) ∧ Setting [ada, bob] setup ∧ (∀ m ∈ quietDay, Plain setup m) ∧
    (psteps {} (setup ++ served 0 quietDay)).report "bln_b" = [⟨"P", 100, 80, 20⟩, ⟨"Q", 20, 20, 0⟩] ∧
    holds (psteps {} (setup ++ served 0 quietDay)).mains "bln_b" = 110 := by
  have hbal : ∀ d, .bal d ∈ setup → d = a1 ∨ d = b1 := by intro d hd; simpa [setup] using hd
  refine ⟨demo_known ?_, ⟨?_, ?_, ?_, ?_⟩, ?_, by decide +kernel, by decide +kernel⟩
  · intro e he
    rcases List.mem_append.1 he with he | he
    · simp only [setup, List.mem_cons, List.not_mem_nil, or_false] at he
      rcases he with rfl | rfl | rfl | rfl <;> simp [a1, b1]
    · rcases served_mem he with ⟨m, hm, rfl⟩ | ⟨j, rfl⟩
      · simp only [quietDay, List.mem_cons, List.not_mem_nil, or_false] at hm
        rcases hm with rfl | rfl | rfl | rfl | rfl <;> rfl
      · simp [go]
  · intro e he
    simp only [setup, List.mem_cons, List.not_mem_nil, or_false] at he
    rcases he with rfl | rfl | rfl | rfl <;> simp
  · intro d hd _
    rcases hbal d hd with rfl | rfl
    · exact ⟨ada, by decide +kernel⟩
    · exact ⟨bob, by decide +kernel⟩
  · intro d hd _ x hx hid _
    rcases hbal d hd with rfl | rfl <;> rcases hbal x hx with rfl | rfl <;> first | rfl | exact absurd hid (by decide)
  · intro d hd _
    rcases hbal d hd with rfl | rfl <;> decide
  · intro m hm
    simp only [quietDay, List.mem_cons, List.not_mem_nil, or_false] at hm
    rcases hm with rfl | rfl | rfl | rfl | rfl
    all_goals
      refine ⟨rfl, by decide +kernel, ?_⟩
      intro d hd _ e
      rcases hbal d hd with rfl | rfl <;> first | exact ⟨rfl, rfl⟩ | exact absurd e (by decide)

end Blnk.Prov
