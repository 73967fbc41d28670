import Verif.Props.Provenance
/-
C85: no provider is overspent.
-/
namespace Blnk.Prov
open Lineage (Strategy Src Alloc calculate live)

/-- **C85** in full: no provider is reported with less than nothing available. -/
def C85Full : Prop := ∀ es b, ∀ l ∈ (psteps {} es).report b, 0 ≤ l.available

/-- Money of two providers, and two holds that are both taken from the first. -/
def twoHolds : List Ev := setup ++ [.record (pay "1" "world" "bln_a" 100 "P"), go 0, .record (pay "2" "world" "bln_a" 100 "Q"), go 1,
  .record { pay "3" "bln_a" "shop" 80 "" with held := true }, go 2, .record { pay "4" "bln_a" "shop" 80 "" with held := true }, go 3,
  .commit "3" 0 [], .commit "4" 0 []]

/-- **C85** (violated) What is held on a provider's account is not counted when the next debit
is allocated (`lineage_allocation.go:53`), so two holds are taken from the same money. When
both are committed the provider has spent 160 of 100. -/
theorem c85_two_holds_fails : ¬ C85Full ∧
    (psteps {} twoHolds).report "bln_a" = [⟨"P", 100, -60, 160⟩, ⟨"Q", 100, 100, 0⟩] := by
  refine ⟨fun h => ?_, by decide +kernel⟩
  exact absurd (h twoHolds "bln_a" ⟨"P", 100, -60, 160⟩ (by decide +kernel)) (by decide)

/-! ### The total account is never overspent -/

/-- What one row does to what may be spent from an account. -/
def fshare (r : Row) (a : Acc) : Int :=
  (if r.settled && r.dst == a then r.amount else 0) - (if r.settled && r.src == a then r.amount else 0) -
    (if r.st == .held && r.src == a then r.amount else 0)

theorem free_eq (a : Acc) : ∀ rows : List Row, free rows a = (rows.map fun r => fshare r a).sum
  | [] => by simp [free, debit, credit, heldDebit]
  | r :: rs => by
    have := free_eq a rs
    simp only [free, debit, credit, heldDebit, fshare, List.map_cons, List.sum_cons] at this ⊢
    omega

theorem free_push (rows : List Row) (r : Row) (a : Acc) : free (rows ++ [r]) a = free rows a + fshare r a := by
  rw [free_eq, free_eq, List.map_append, List.sum_append]; simp

theorem all2_sum {R : Row → Row → Prop} {f : Row → Int} (hf : ∀ r r', R r r' → f r ≤ f r') {l k : List Row}
    (h : All2 R l k) : (l.map f).sum ≤ (k.map f).sum := by
  induction h with
  | nil => exact Int.le_refl _
  | cons hr _ ih => simp only [List.map_cons, List.sum_cons]; have := hf _ _ hr; omega

theorem All2.imp_mem {α β} {R S : α → β → Prop} {l : List α} {k : List β} (h : All2 R l k) :
    (∀ x y, x ∈ l → R x y → S x y) → All2 S l k := by
  induction h with
  | nil => intro _; exact .nil
  | cons hr _ ih =>
    intro hs
    exact .cons (hs _ _ (by simp) hr) (ih fun x y hx => hs x y (by simp [hx]))

/-- Settled rows are those of `settleRows` with a final state. -/
def Final (to : RStat) : Prop := to = .committed ∨ to = .voided

theorem fshare_settle {id to r r'} (ht : Final to) (hp : 0 ≤ r.amount) (h : Settled1 id to r r') (a : Acc) :
    fshare r a ≤ fshare r' a := by
  rcases h with rfl | ⟨_, hst, rfl⟩
  · exact Int.le_refl _
  · rcases ht with rfl | rfl <;> simp [fshare, Row.settled, hst] <;> repeat' split
    all_goals omega

/-- Amounts are positive, and no total account is spent or held beyond what it has. -/
structure Solid (U : List Ident) (s : Sys) : Prop where
  pos : ∀ r ∈ s.rows, 0 < r.amount
  free : ∀ i ∈ U, ∀ c, 0 ≤ free s.rows (aggAcc i c)

theorem row_agg {U} (hU : Univ U) {j i : Ident} (hj : j ∈ U) (hi : i ∈ U) (p c' c) : shadowAcc p j c' ≠ aggAcc i c := by
  by_cases e : j = i
  · subst e; exact shadow_ne_agg _ _ _ _
  · exact (hU.apart j hj i hi e c' c).2.2.1 p

/-- A row into the total account. -/
theorem Solid.credit {U s} (hU : Univ U) (h : Solid U s) {r : Row} {j c'} (hj : j ∈ U) (hs : r.src = shadowAcc r.provider j c')
    (hp : 0 < r.amount) : Solid U (s.push r) where
  pos x hx := by
    rcases List.mem_append.1 hx with hx | hx
    · exact h.pos x hx
    · rw [List.mem_singleton.1 hx]; exact hp
  free i hi c := by
    have h0 := h.free i hi c
    rw [Sys.push, free_push, fshare]
    have : r.src ≠ aggAcc i c := by rw [hs]; exact row_agg hU hj hi _ _ _
    simp only [beq_eq_false_iff_ne.2 this, Bool.and_false]
    split <;> simp <;> omega

/-- A row out of it, if it is not refused. -/
theorem Solid.debit {U s} (hU : Univ U) (h : Solid U s) {r : Row} {j c'} (hj : j ∈ U) (hd : r.dst = shadowAcc r.provider j c')
    (hp : 0 < r.amount) (hr : s.refuses r false = false) : Solid U (s.push r) where
  pos x hx := by
    rcases List.mem_append.1 hx with hx | hx
    · exact h.pos x hx
    · rw [List.mem_singleton.1 hx]; exact hp
  free i hi c := by
    have h0 := h.free i hi c
    rw [Sys.push, free_push, fshare]
    have : r.dst ≠ aggAcc i c := by rw [hd]; exact row_agg hU hj hi _ _ _
    simp only [beq_eq_false_iff_ne.2 this, Bool.and_false]
    by_cases hs : r.src = aggAcc i c
    · have hf : r.amount ≤ Prov.free s.rows (aggAcc i c) := by
        simp only [Sys.refuses, Bool.or_eq_false_iff, Bool.and_eq_false_imp, decide_eq_false_iff_not] at hr
        rw [← hs]; have := hr.2 rfl; omega
      simp only [hs, beq_self_eq_true, Bool.and_true, Row.settled]
      cases r.st <;> simp <;> omega
    · simp [hs]; exact h0

theorem alloc_pos {st : Strategy} {l : List Src} (hn : (l.map Src.provider).Nodup) {amt : Int} {p a}
    (h : (p, a) ∈ calculate st (live l) amt) : 0 < a ∧ ∃ x ∈ l, x.provider = p ∧ a ≤ x.avail := by
  by_cases hst : st = .proportional
  · subst hst; exact (Lineage.c36_within l amt hn).2 p a h
  · exact (Lineage.c35_within st hst l amt hn).2 p a h

theorem alloc_nodup {st : Strategy} {l : List Src} (hn : (l.map Src.provider).Nodup) (amt : Int) :
    ((calculate st (live l) amt).map Prod.fst).Nodup := by
  by_cases hst : st = .proportional
  · subst hst; exact (Lineage.c36_within l amt hn).1
  · exact (Lineage.c35_within st hst l amt hn).1

theorem sources_nodup {U es s} (h : Book U es s) (b : String) : ((s.sources b).map Src.provider).Nodup := by
  have : (s.sources b).map Src.provider = (s.mapsOf b).map Mapping.provider := by
    simp [Sys.sources, Function.comp_def]
  rw [this]; exact mapsOf_nodup h.keys b

/-- What a mapping of a balance says. -/
theorem Book.mapped {U es s} (hU : Univ U) (h : Book U es s) {b : TBal} (hb : b ∈ s.bals) {i} (hi : i ∈ U)
    (hid : i.id = b.identity) {mp : Mapping} (hm : mp ∈ s.maps) (hmb : mp.balance = b.id) :
    mp.shadow = shadowAcc mp.provider i b.cur ∧ mp.agg = aggAcc i b.cur := by
  obtain ⟨b', hb', e', i', hi', hid', hsh, hag⟩ := h.maps mp hm
  have hbb : b' = b := nodup_inj h.uniq hb' hb (e'.trans hmb)
  subst hbb
  have hii : i' = i := hU.oneId i' hi' i hi (hid'.trans hid.symm)
  subst hii
  exact ⟨hsh, hag⟩

theorem solid_process {U es} (hU : Univ U) (hk : Known U es) {g : Sight} {m : Main} (hm : FromEv es m) (w : W)
    (h : Book U es w.sys) (hq : Solid U w.sys) : Solid U (processMain g m w).1.sys := by
  have key := process_induct (g := g) (m := m) (P := fun s => Book U es s ∧ Solid U s) ?_ (fun w d p x => credit_bal m w d p x) ?_ w ⟨h, hq⟩
  · exact key.2
  · intro w d p h hd _ _ _
    obtain ⟨hdm, hde⟩ := bal_mem hd
    obtain ⟨m0, h0, hpos, hne, hid, href, hsrc, hdst, hamt, hcur, hprov, hheld⟩ := hm
    have hc : m.cur = d.cur := by rw [hcur]; exact hk.cur m0 d h0 (h.1.bals d hdm) (hde.trans hdst)
    refine (credit_induct (P := fun s => (Book U es s ∧ Solid U s) ∧ d ∈ s.bals) ?_ ?_ w ⟨h, hdm⟩).1
    · intro s i hs hi _
      have hiU := hs.1.1.idents i (ident_mem hi).1
      exact ⟨⟨hs.1.1.push hiU (c := m.cur) (.inl ⟨by simp [creditRow], rfl, rfl⟩),
        hs.1.2.credit hU (c' := m.cur) hiU rfl hpos⟩, hs.2⟩
    · intro s i hs hi
      have hiU := hs.1.1.idents i (ident_mem hi).1
      exact ⟨⟨hs.1.1.map1 hs.2 rfl hiU (ident_mem hi).2 (by rw [hc]) (by rw [hc]), ⟨hs.1.2.pos, hs.1.2.free⟩⟩, hs.2⟩
  · intro w b h hb _
    obtain ⟨hbm, hbe⟩ := bal_mem hb
    refine debit_induct (P := fun s => Book U es s ∧ Solid U s) w h ?_
    intro w' hw i hi _
    have hiU := h.1.idents i (ident_mem hi).1
    refine (loop_induct_mem (L := calculate b.strategy (live (w.sys.sources b.id)) (w.sys.remaining m b.id))
      (P := fun s => (Book U es s ∧ Solid U s) ∧ s.bals = w.sys.bals) ?_ ?_ ?_ _ w'
      (fun _ h => h) (by rw [hw]; exact ⟨h, rfl⟩)).1
    · intro s mp a hL hs hmp hr
      obtain ⟨hmm, hmb, _⟩ := mapping_mem hmp
      have hsh := (hs.1.1.mapped hU (by rw [hs.2]; exact hbm) hiU (ident_mem hi).2 hmm hmb).1
      exact ⟨⟨hs.1.1.push hiU (c := b.cur) (.inr ⟨rfl, rfl, hsh⟩),
        hs.1.2.debit hU (c' := b.cur) hiU hsh (alloc_pos (sources_nodup h.1 b.id) hL).1 hr⟩, hs.2⟩
    · intro s d j p a hL hs hd _
      obtain ⟨h1, h2, h3⟩ := destOf_some hd
      have hjU := h.1.idents j (ident_mem h3).1
      exact ⟨⟨hs.1.1.push hjU (c := d.cur) (.inl ⟨by simp [receiveRow], rfl, rfl⟩),
        hs.1.2.credit hU (c' := d.cur) hjU rfl (alloc_pos (sources_nodup h.1 b.id) hL).1⟩, hs.2⟩
    · intro s d j p hs hd
      obtain ⟨h1, h2, h3⟩ := destOf_some hd
      exact ⟨⟨hs.1.1.map1 (by rw [hs.2]; exact (bal_mem h1).1) rfl (h.1.idents j (ident_mem h3).1) (ident_mem h3).2 rfl rfl,
        ⟨hs.1.2.pos, hs.1.2.free⟩⟩, hs.2⟩

theorem solid_settle {U s} (h : Solid U s) (id to os) (ht : Final to) : Solid U (s.settle id to os).1 where
  pos r hr := by
    obtain ⟨x, hx, hx'⟩ := (settleRows_all2 id to s.rows os).mem_right r hr
    obtain ⟨_, _, _, _, _, _, e7⟩ := hx'.same
    rw [e7]; exact h.pos x hx
  free i hi c := by
    have h0 := h.free i hi c
    have h1 := (settleRows_all2 id to s.rows os).imp_mem (S := fun r r' => fshare r (aggAcc i c) ≤ fshare r' (aggAcc i c))
      fun x y hx hxy => fshare_settle ht (Int.le_of_lt (h.pos x hx)) hxy _
    have h2 := all2_sum (f := fun r => fshare r (aggAcc i c)) (fun _ _ h => h) h1
    show 0 ≤ Prov.free (settleRows id to s.rows os).1 (aggAcc i c)
    rw [free_eq] at h0 ⊢
    omega

theorem solid_retry {U s} (h : Solid U s) (wk o) : Solid U (s.retryItem wk o) := by
  unfold Sys.retryItem; split
  · split
    · exact h
    · exact ⟨h.pos, h.free⟩
  · exact h

theorem solid_step {U es} (hU : Univ U) (hk : Known U es) {s} (h : Book U es s) (hq : Solid U s) {e} (he : e ∈ es) :
    Solid U (pstep s e) := by
  cases e with
  | ident i => exact ⟨hq.pos, hq.free⟩
  | bal b => simp only [pstep]; split <;> exact ⟨hq.pos, hq.free⟩
  | record m => simp only [pstep, Sys.record]; split <;> exact ⟨hq.pos, hq.free⟩
  | work k g os =>
    simp only [pstep]
    cases s.items[k]? with
    | none => exact hq
    | some it =>
      dsimp only; split
      · exact hq
      · have : Solid U (attempt g os it.work s).1 := by
          unfold attempt
          cases it.work with
          | main id =>
            dsimp only
            cases hm : s.main id with
            | none => exact hq
            | some m => exact solid_process hU hk (h.mains m (main_mem hm).1) ⟨s, os⟩ h hq
          | commit id => exact solid_settle hq _ _ _ (.inl rfl)
          | void id => exact solid_settle hq _ _ _ (.inr rfl)
        exact ⟨this.pos, this.free⟩
  | commit id amt os =>
    simp only [pstep, Sys.commit]
    cases s.main id with
    | none => exact hq
    | some m =>
      dsimp only
      split
      all_goals
        split
        · exact hq
        · apply solid_retry
          apply solid_settle _ _ _ _ (.inl rfl)
          exact ⟨hq.pos, hq.free⟩
  | void id os =>
    simp only [pstep, Sys.void]
    cases s.main id with
    | none => exact hq
    | some m =>
      dsimp only
      split
      · exact hq
      · apply solid_retry
        apply solid_settle _ _ _ _ (.inr rfl)
        exact ⟨hq.pos, hq.free⟩

theorem solid_steps {U es0} (hU : Univ U) (hk : Known U es0) : ∀ (es : List Ev) (s : Sys),
    (∀ e ∈ es, e ∈ es0) → Book U es0 s → Solid U s → Solid U (psteps s es)
  | [], _, _, _, h => h
  | e :: es, s, hs, hb, h => solid_steps hU hk es _ (fun x hx => hs x (by simp [hx])) (book_step hU hk hb (hs e (by simp)))
      (solid_step hU hk hb h (hs e (by simp)))

theorem reach_solid {U es} (hU : Univ U) (hk : Known U es) : Solid U (psteps {} es) :=
  solid_steps hU hk es {} (fun _ h => h) book_empty ⟨by simp, fun _ _ _ => by simp [free, debit, credit, heldDebit]⟩

/-- **C85** (partial) All providers of an identity together are never overspent: what their
accounts hold covers what is still held back on the total account. Whatever fails, in
whatever order the items are worked on, with or without holds. Missing from the full
statement: each provider by itself. -/
theorem c85_together_partial {U es} (hU : Univ U) (hk : Known U es) (i : Ident) (hi : i ∈ U) (c : String)
    (P : List String) (hn : P.Nodup)
    (hp : ∀ r ∈ (psteps {} es).rows, r.src = aggAcc i c ∨ r.dst = aggAcc i c → r.provider ∈ P) :
    0 ≤ heldDebit (psteps {} es).rows (aggAcc i c) ∧
    heldDebit (psteps {} es).rows (aggAcc i c) ≤ (P.map fun p => avail (psteps {} es).rows (shadowAcc p i c)).sum := by
  have h := reach_solid hU hk
  have h1 := c84_accounts_partial hU hk i hi c P hn hp
  have h2 := h.free i hi c
  refine ⟨?_, by rw [← h1]; simp only [free] at h2; omega⟩
  have : ∀ rows : List Row, (∀ r ∈ rows, 0 < r.amount) → 0 ≤ heldDebit rows (aggAcc i c) := by
    intro rows hr
    induction rows with
    | nil => simp [heldDebit]
    | cons r rs ih =>
      have h1 := hr r (by simp)
      have h2 := ih fun x hx => hr x (by simp [hx])
      simp only [heldDebit, List.map_cons, List.sum_cons] at h2 ⊢
      split <;> omega
  exact this _ h.pos

example : Known [ada, bob] twoHolds ∧ (psteps {} twoHolds).rows.map Row.provider = ["P", "Q", "P", "P"] ∧
    (["P", "Q"].map fun p => avail (psteps {} twoHolds).rows (shadowAcc p ada "USD")) = [-60, 100] := by
  refine ⟨demo_known ?_, by decide +kernel, by decide +kernel⟩
  intro e he
  simp only [twoHolds, setup, List.cons_append, List.nil_append, List.mem_cons, List.not_mem_nil, or_false] at he
  rcases he with rfl | rfl | rfl | rfl | rfl | rfl | rfl | rfl | rfl | rfl | rfl | rfl | rfl | rfl <;> simp [pay, go, a1, b1]

/-! ### Without holds on tracked balances -/

/-- No hold is placed on a balance that keeps lineage. -/
def NoHolds (es : List Ev) : Prop := ∀ m d, .record m ∈ es → .bal d ∈ es → d.tracks = true → d.id = m.src → m.held = false

/-- No release is held, and no provider is overspent. -/
structure Sound (U : List Ident) (s : Sys) : Prop where
  applied : ∀ r ∈ s.rows, r.kind = .release → r.st ≠ .held
  avail : ∀ i ∈ U, ∀ c p, 0 ≤ avail s.rows (shadowAcc p i c)

theorem agg_row {U} (hU : Univ U) {j i : Ident} (hj : j ∈ U) (hi : i ∈ U) (p c' c) : aggAcc j c' ≠ shadowAcc p i c :=
  fun h => row_agg hU hi hj p c c' h.symm

theorem Sound.credit {U s} (hU : Univ U) (h : Sound U s) {r : Row} {j c'} (hj : j ∈ U) (hd : r.dst = aggAcc j c')
    (hk : r.kind ≠ .release) (hp : 0 < r.amount) : Sound U (s.push r) where
  applied x hx := by
    rcases List.mem_append.1 hx with hx | hx
    · exact h.applied x hx
    · rw [List.mem_singleton.1 hx]; exact fun e => absurd e hk
  avail i hi c p := by
    have h0 := h.avail i hi c p
    rw [Sys.push, avail_push, share]
    have : r.dst ≠ shadowAcc p i c := by rw [hd]; exact agg_row hU hj hi _ _ _
    simp only [beq_eq_false_iff_ne.2 this, Bool.and_false]
    split <;> simp <;> omega

theorem shadow_eq {U} (hU : Univ U) {j i : Ident} (hj : j ∈ U) (hi : i ∈ U) {p q c' c} (h : shadowAcc p j c' = shadowAcc q i c) :
    j = i ∧ p = q ∧ c' = c := by
  by_cases e : j = i
  · subst e; exact ⟨rfl, shadow_inj h⟩
  · exact absurd h ((hU.apart j hj i hi e c' c).2.1 p q)

theorem sound_process {U es} (hU : Univ U) (hk : Known U es) (hN : NoHolds es) {g : Sight} {m : Main} (hm : FromEv es m) (w : W)
    (h : Book U es w.sys) (hq : Sound U w.sys) : Sound U (processMain g m w).1.sys := by
  have key := process_induct (g := g) (m := m) (P := fun s => Book U es s ∧ Sound U s) ?_ (fun w d p x => credit_bal m w d p x) ?_ w ⟨h, hq⟩
  · exact key.2
  · intro w d p h hd _ _ _
    obtain ⟨hdm, hde⟩ := bal_mem hd
    obtain ⟨m0, h0, hpos, hne, hid, href, hsrc, hdst, hamt, hcur, hprov, hheld⟩ := hm
    have hc : m.cur = d.cur := by rw [hcur]; exact hk.cur m0 d h0 (h.1.bals d hdm) (hde.trans hdst)
    refine (credit_induct (P := fun s => (Book U es s ∧ Sound U s) ∧ d ∈ s.bals) ?_ ?_ w ⟨h, hdm⟩).1
    · intro s i hs hi _
      have hiU := hs.1.1.idents i (ident_mem hi).1
      exact ⟨⟨hs.1.1.push hiU (c := m.cur) (.inl ⟨by simp [creditRow], rfl, rfl⟩),
        hs.1.2.credit hU (c' := m.cur) hiU rfl (by simp [creditRow]) hpos⟩, hs.2⟩
    · intro s i hs hi
      have hiU := hs.1.1.idents i (ident_mem hi).1
      exact ⟨⟨hs.1.1.map1 hs.2 rfl hiU (ident_mem hi).2 (by rw [hc]) (by rw [hc]), ⟨hs.1.2.applied, hs.1.2.avail⟩⟩, hs.2⟩
  · intro w b h hb htr
    obtain ⟨hbm, hbe⟩ := bal_mem hb
    have hnh : m.held = false := by
      obtain ⟨m0, h0, hpos, hne, hid, href, hsrc, hdst, hamt, hcur, hprov, hheld⟩ := hm
      rw [hheld]; exact hN m0 b h0 (h.1.bals b hbm) htr (hbe.trans hsrc)
    have hst : newStat m = .applied := by simp [newStat, hnh]
    refine debit_induct (P := fun s => Book U es s ∧ Sound U s) w h ?_
    intro w' hw i hi _
    have hiU := h.1.idents i (ident_mem hi).1
    have hall := fun p a => alloc_pos (st := b.strategy) (amt := w.sys.remaining m b.id) (p := p) (a := a) (sources_nodup h.1 b.id)
    have hnd := alloc_nodup (st := b.strategy) (sources_nodup h.1 b.id) (w.sys.remaining m b.id)
    generalize hL : calculate b.strategy (live (w.sys.sources b.id)) (w.sys.remaining m b.id) = L at hall hnd ⊢
    refine (loop_induct_mem (L := L)
      (P := fun s => ((Book U es s ∧ Sound U s) ∧ s.bals = w.sys.bals) ∧
        ∀ p a, (p, a) ∈ L → s.used (releaseRef m p) = false → a ≤ avail s.rows (shadowAcc p i b.cur)) ?_ ?_ ?_ _ w'
      (fun _ h => h) ?_).1.1
    · intro s mp a hL hs hmp hr
      obtain ⟨⟨⟨hB, hS⟩, hbb⟩, hA⟩ := hs
      obtain ⟨hmm, hmb, _⟩ := mapping_mem hmp
      have hsh := (hB.mapped hU (by rw [hbb]; exact hbm) hiU (ident_mem hi).2 hmm hmb).1
      have hpos := (hall _ _ hL).1
      have hu : s.used (releaseRef m mp.provider) = false := by
        simp only [Sys.refuses, Bool.or_eq_false_iff] at hr; exact hr.1.1
      have ha := hA _ _ hL hu
      have hsrc : ∀ j ∈ U, ∀ c q, (releaseRow (aggAcc i b.cur) m mp a).src ≠ shadowAcc q j c :=
        fun j hj c q => agg_row hU hiU hj q b.cur c
      have hav : ∀ j ∈ U, ∀ c q, avail (s.push (releaseRow (aggAcc i b.cur) m mp a)).rows (shadowAcc q j c) =
          avail s.rows (shadowAcc q j c) - if shadowAcc mp.provider i b.cur = shadowAcc q j c then a else 0 := by
        intro j hj c q
        rw [Sys.push, avail_push, share]
        simp only [beq_eq_false_iff_ne.2 (hsrc j hj c q), Bool.and_false]
        simp only [releaseRow, Row.settled, hst, hsh]
        simp
        omega
      refine ⟨⟨⟨hB.push hiU (c := b.cur) (.inr ⟨rfl, rfl, hsh⟩), ?_, ?_⟩, hbb⟩, ?_⟩
      · intro x hx
        rcases List.mem_append.1 hx with hx | hx
        · exact hS.applied x hx
        · rw [List.mem_singleton.1 hx]; intro _; simp [releaseRow, hst]
      · intro j hj c q
        rw [hav j hj c q]
        have := hS.avail j hj c q
        split
        · rename_i e; rw [← e]; omega
        · omega
      · intro q a' hq' hu'
        rw [hav i hiU b.cur q]
        by_cases e : mp.provider = q
        · exfalso
          simp [Sys.used, Sys.push, releaseRow, e] at hu'
        · rw [if_neg fun h => e (shadow_inj h).1]
          have := hA q a' hq' (by
            simp only [Sys.used, Sys.push, List.any_append, Bool.or_eq_false_iff] at hu'
            simp only [Sys.used, Bool.or_eq_false_iff]
            exact ⟨hu'.1.1, hu'.2⟩)
          omega
    · intro s d j p a hL hs hd _
      obtain ⟨⟨⟨hB, hS⟩, hbb⟩, hA⟩ := hs
      obtain ⟨h1, h2, h3⟩ := destOf_some hd
      have hjU := h.1.idents j (ident_mem h3).1
      have hpos := (hall _ _ hL).1
      have hS' := hS.credit hU (r := receiveRow d j m p a) (c' := d.cur) hjU rfl (by simp [receiveRow]) hpos
      refine ⟨⟨⟨hB.push hjU (c := d.cur) (.inl ⟨by simp [receiveRow], rfl, rfl⟩), hS'⟩, hbb⟩, ?_⟩
      intro q a' hq' hu'
      have := hA q a' hq' (by
        simp only [Sys.used, Sys.push, List.any_append, Bool.or_eq_false_iff] at hu'
        simp only [Sys.used, Bool.or_eq_false_iff]
        exact ⟨hu'.1.1, hu'.2⟩)
      rw [Sys.push, avail_push, share]
      have hne : (receiveRow d j m p a).dst ≠ shadowAcc q i b.cur := agg_row hU hjU hiU _ _ _
      simp only [beq_eq_false_iff_ne.2 hne, Bool.and_false]
      have : (receiveRow d j m p a).amount = a := rfl
      split <;> simp <;> omega
    · intro s d j p hs hd
      obtain ⟨⟨⟨hB, hS⟩, hbb⟩, hA⟩ := hs
      obtain ⟨h1, h2, h3⟩ := destOf_some hd
      exact ⟨⟨⟨hB.map1 (by rw [hbb]; exact (bal_mem h1).1) rfl (h.1.idents j (ident_mem h3).1) (ident_mem h3).2 rfl rfl,
        ⟨hS.applied, hS.avail⟩⟩, hbb⟩, hA⟩
    · rw [hw]
      refine ⟨⟨h, rfl⟩, ?_⟩
      intro p a hpa _
      obtain ⟨_, x, hx, e1, e2⟩ := hall p a hpa
      obtain ⟨mp, hmp, rfl⟩ := List.mem_map.1 hx
      have h1 := List.mem_filter.1 hmp
      have hsh := (h.1.mapped hU hbm hiU (ident_mem hi).2 h1.1 (by simpa using h1.2)).1
      rw [← e1, ← hsh]; exact e2

theorem sound_settle {U es s} (hU : Univ U) (hb : Book U es s) (hp : ∀ r ∈ s.rows, 0 < r.amount) (h : Sound U s) (id to os) :
    Sound U (s.settle id to os).1 where
  applied r hr := by
    obtain ⟨x, hx, hx'⟩ := (settleRows_all2 id to s.rows os).mem_right r hr
    intro hk
    rcases hx' with rfl | ⟨_, hst, rfl⟩
    · exact h.applied r hx hk
    · exact absurd hst (h.applied x hx hk)
  avail i hi c p := by
    have h0 := h.avail i hi c p
    have h1 := (settleRows_all2 id to s.rows os).imp_mem (S := fun r r' => share r (shadowAcc p i c) ≤ share r' (shadowAcc p i c))
      fun x y hx hxy => by
        rcases hxy with rfl | ⟨_, hst, rfl⟩
        · exact Int.le_refl _
        · obtain ⟨j, hj, c', hok⟩ := hb.rows x hx
          have hpx := hp x hx
          rcases hok with ⟨_, hs, hd⟩ | ⟨hk, _, _⟩
          · have hne : x.dst ≠ shadowAcc p i c := by rw [hd]; exact agg_row hU hj hi _ _ _
            simp only [share, Row.settled, hst, beq_eq_false_iff_ne.2 hne, Bool.and_false]
            simp
            split <;> omega
          · exact absurd hst (h.applied x hx hk)
    have h2 := all2_sum (f := fun r => share r (shadowAcc p i c)) (fun _ _ h => h) h1
    show 0 ≤ Prov.avail (settleRows id to s.rows os).1 (shadowAcc p i c)
    rw [avail_eq] at h0 ⊢
    omega

theorem sound_retry {U s} (h : Sound U s) (wk o) : Sound U (s.retryItem wk o) := by
  unfold Sys.retryItem; split
  · split
    · exact h
    · exact ⟨h.applied, h.avail⟩
  · exact h

theorem sound_step {U es} (hU : Univ U) (hk : Known U es) (hN : NoHolds es) {s} (h : Book U es s) (hp : ∀ r ∈ s.rows, 0 < r.amount)
    (hq : Sound U s) {e} (he : e ∈ es) : Sound U (pstep s e) := by
  cases e with
  | ident i => exact ⟨hq.applied, hq.avail⟩
  | bal b => simp only [pstep]; split <;> exact ⟨hq.applied, hq.avail⟩
  | record m => simp only [pstep, Sys.record]; split <;> exact ⟨hq.applied, hq.avail⟩
  | work k g os =>
    simp only [pstep]
    cases s.items[k]? with
    | none => exact hq
    | some it =>
      dsimp only; split
      · exact hq
      · have : Sound U (attempt g os it.work s).1 := by
          unfold attempt
          cases it.work with
          | main id =>
            dsimp only
            cases hm : s.main id with
            | none => exact hq
            | some m => exact sound_process hU hk hN (h.mains m (main_mem hm).1) ⟨s, os⟩ h hq
          | commit id => exact sound_settle hU h hp hq _ _ _
          | void id => exact sound_settle hU h hp hq _ _ _
        exact ⟨this.applied, this.avail⟩
  | commit id amt os =>
    simp only [pstep, Sys.commit]
    cases hm : s.main id with
    | none => exact hq
    | some m =>
      dsimp only
      split
      all_goals
        split
        · exact hq
        · apply sound_retry
          apply sound_settle (es := es) hU
          · exact book_set h (main_mem hm).1 ⟨rfl, rfl, rfl, rfl, rfl, rfl, rfl, rfl⟩
          · exact hp
          · exact ⟨hq.applied, hq.avail⟩
  | void id os =>
    simp only [pstep, Sys.void]
    cases hm : s.main id with
    | none => exact hq
    | some m =>
      dsimp only
      split
      · exact hq
      · apply sound_retry
        apply sound_settle (es := es) hU
        · exact book_set h (main_mem hm).1 ⟨rfl, rfl, rfl, rfl, rfl, rfl, rfl, rfl⟩
        · exact hp
        · exact ⟨hq.applied, hq.avail⟩

theorem sound_steps {U es0} (hU : Univ U) (hk : Known U es0) (hN : NoHolds es0) : ∀ (es : List Ev) (s : Sys),
    (∀ e ∈ es, e ∈ es0) → Book U es0 s → Solid U s → Sound U s → Sound U (psteps s es)
  | [], _, _, _, _, h => h
  | e :: es, s, hs, hb, hq, h => sound_steps hU hk hN es _ (fun x hx => hs x (by simp [hx])) (book_step hU hk hb (hs e (by simp)))
      (solid_step hU hk hb hq (hs e (by simp))) (sound_step hU hk hN hb hq.pos h (hs e (by simp)))

theorem reach_sound {U es} (hU : Univ U) (hk : Known U es) (hN : NoHolds es) : Sound U (psteps {} es) :=
  sound_steps hU hk hN es {} (fun _ h => h) book_empty ⟨by simp, fun _ _ _ => by simp [free, debit, credit, heldDebit]⟩
    ⟨by simp, fun _ _ _ _ => by simp [avail, debit, credit]⟩

/-- **C85** (partial) If no hold is placed on a balance that keeps lineage, no provider is
ever overspent, whatever fails and in whatever order the items are worked on; holds on the
way into such balances are allowed. Missing from the full statement: holds on tracked
balances, renamed identities. -/
theorem c85_no_holds_partial {U es} (hU : Univ U) (hk : Known U es) (hN : NoHolds es) (b : String) :
    ∀ l ∈ (psteps {} es).report b, 0 ≤ l.available := by
  intro l hl
  obtain ⟨mp, hmp, rfl⟩ := List.mem_map.1 hl
  obtain ⟨d, _, _, i, hi, _, hsh, _⟩ := (reach_book hU hk).maps mp (List.mem_filter.1 hmp).1
  show 0 ≤ avail (psteps {} es).rows mp.shadow
  rw [hsh]; exact (reach_sound hU hk hN).avail i hi d.cur mp.provider

example : NoHolds ordinary ∧ (psteps {} ordinary).report "bln_a" = [⟨"P", 100, 0, 100⟩, ⟨"Q", 50, 30, 20⟩] := by
  refine ⟨?_, by decide +kernel⟩
  intro m d hm hd _ e
  simp [ordinary, setup, go] at hm hd
  rcases hd with rfl | rfl <;> rcases hm with rfl | rfl | rfl | rfl <;> first | rfl | exact absurd e (by decide)

end Blnk.Prov
