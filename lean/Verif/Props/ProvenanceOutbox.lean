import Verif.Props.ProvenanceSettle
/-
C87: the lineage of every movement is recorded.
-/
namespace Blnk.Prov
open Lineage (Strategy Src Alloc calculate live)

/-- A movement is accepted. -/
def Accepted (s : Sys) (m : Main) : Prop := s.record m ≠ s

/-- **C87** in full, credits: money a provider sends into a balance that keeps lineage is
recorded with the provider once the outbox is empty. -/
def C87CreditFull : Prop := ∀ pre m post d i, let s := psteps {} pre
  s.bal m.dst = some d → d.tracks = true → s.ident d.identity = some i → m.provider ≠ "" → s.bal m.src = none →
  Accepted s m → Quiet (psteps (s.record m) post) →
  (∃ r ∈ (psteps (s.record m) post).rows, r.parent = m.id ∧ r.kind = .credit ∧ r.provider = m.provider ∧ r.amount = m.amount) ∧
  ((psteps (s.record m) post).mapping m.dst m.provider).isSome = true

/-- **C87** (violated) A hold that went through the queue has a parent, and a hold with a
parent is taken for the commit of one (`transaction_execution.go:767`): no item is written,
and its lineage is never recorded, also after it is committed. -/
theorem c87_queued_hold_fails : ¬ C87CreditFull := by
  intro h
  obtain ⟨⟨r, hr, _⟩, _⟩ := h setup { pay "1" "world" "bln_a" 100 "P" with held := true, child := true } [.commit "1" 0 []] a1 ada
    (by decide +kernel) rfl (by decide +kernel) (by decide) (by decide +kernel) (by unfold Accepted; decide +kernel)
    (by unfold Quiet; decide +kernel)
  have : (psteps ((psteps {} setup).record { pay "1" "world" "bln_a" 100 "P" with held := true, child := true }) [.commit "1" 0 []]).rows = [] := by
    decide +kernel
  rw [this] at hr
  simp at hr

/-- **C87** (violated) A process that dies between the credit row and the mapping leaves an
item that can only fail: its reference is in use (`lineage_credit.go:50`). After five
attempts the provider is still missing from the balance's report. -/
theorem c87_crash_fails : ¬ C87CreditFull ∧
    (psteps {} (setup ++ [.record (pay "1" "world" "bln_a" 100 "P"), .work 0 {} [.ok, .ok, .ok, .crash], go 0, go 0, go 0, go 0, go 0])).items =
      [⟨.main "1", 5, false, true⟩] := by
  refine ⟨fun h => ?_, by decide +kernel⟩
  have := (h setup (pay "1" "world" "bln_a" 100 "P") [.work 0 {} [.ok, .ok, .ok, .crash], go 0, go 0, go 0, go 0, go 0] a1 ada
    (by decide +kernel) rfl (by decide +kernel) (by decide) (by decide +kernel) (by unfold Accepted; decide +kernel)
    (by unfold Quiet; decide +kernel)).2
  exact absurd this (by decide +kernel)

/-- **C87** (violated) A balance that cannot be read is taken for one that does not exist
(`lineage_outbox.go:174-185`): the item is completed and nothing is recorded. -/
theorem c87_unread_fails : ¬ C87CreditFull := by
  intro h
  have := (h setup (pay "1" "world" "bln_a" 100 "P") [.work 0 { dst := false } []] a1 ada
    (by decide +kernel) rfl (by decide +kernel) (by decide) (by decide +kernel) (by unfold Accepted; decide +kernel)
    (by unfold Quiet; decide +kernel)).2
  exact absurd this (by decide +kernel)

/-- What has been released for a movement. -/
def releasedFor (s : Sys) (id : String) : Int :=
  ((s.rows.filter fun r => r.parent == id && r.kind == .release).map Row.amount).sum

/-- **C87** in full, debits: a payment from a balance whose providers hold enough is taken
from their money once the outbox is empty. -/
def C87DebitFull : Prop := ∀ pre m post b, let s := psteps {} pre
  s.bal m.src = some b → b.tracks = true → b.strategy ≠ .proportional → m.held = false → Quiet s →
  (∀ l ∈ s.report b.id, 0 ≤ l.available) → m.amount ≤ s.total b.id → Accepted s m → Quiet (psteps (s.record m) post) →
  releasedFor (psteps (s.record m) post) m.id = m.amount

/-- **C87** (violated) A hold reserves the total account, but not the money of the providers
it will be taken from. The next debit is allocated to money that is reserved, and refused
for want of funds until its item fails. -/
theorem c87_hold_blocks_fails : ¬ C87DebitFull := by
  intro h
  exact absurd (h (setup ++ [.record (pay "1" "world" "bln_a" 100 "P"), go 0, .record (pay "2" "world" "bln_a" 100 ""),
      .record { pay "3" "bln_a" "shop" 80 "" with held := true }, go 1]) (pay "4" "bln_a" "shop" 80 "") [go 2, go 2, go 2, go 2, go 2] a1
    (by decide +kernel) rfl (by decide) rfl (by unfold Quiet; decide +kernel) (by decide +kernel) (by decide +kernel)
    (by unfold Accepted; decide +kernel) (by unfold Quiet; decide +kernel)) (by decide +kernel)

/-- **C87** (violated) When an identity changes its name its total account is looked up under
the new name (`lineage_debit.go:216`), where there is nothing: no debit can be recorded any
more. -/
theorem c87_rename_fails : ¬ C87DebitFull := by
  intro h
  exact absurd (h (setup ++ [.record (pay "1" "world" "bln_a" 100 "P"), go 0, .ident { ada with last := "Lovelace" }])
      (pay "4" "bln_a" "shop" 80 "") [go 1, go 1, go 1, go 1, go 1] a1
    (by decide +kernel) rfl (by decide) rfl (by unfold Quiet; decide +kernel) (by decide +kernel) (by decide +kernel)
    (by unfold Accepted; decide +kernel) (by unfold Quiet; decide +kernel)) (by decide +kernel)

/-! ### An item for every movement -/

/-- Does lineage concern the movement: it brings a provider's money to a balance that keeps
lineage, or takes money from one. -/
def Concerned (s : Sys) (m : Main) : Prop :=
  (m.provider ≠ "" ∧ ∃ d, s.bal m.dst = some d ∧ d.tracks = true) ∨ ∃ b, s.bal m.src = some b ∧ b.tracks = true

theorem wants_iff (s : Sys) (m : Main) (hc : ¬ (m.child = true ∧ m.held = true)) : s.wantsItem m = true ↔ Concerned s m := by
  have h1 : (!(m.child && m.held)) = true := by
    cases hx : m.child <;> cases hy : m.held <;> simp_all
  unfold Sys.wantsItem Concerned
  rw [h1, Bool.true_and, Bool.or_eq_true, Bool.and_eq_true]
  constructor
  · rintro (⟨h2, h3⟩ | h3)
    · left
      cases hb : s.bal m.dst with
      | none => rw [hb] at h3; simp at h3
      | some d => rw [hb] at h3; exact ⟨by simpa using h2, d, rfl, h3⟩
    · right
      cases hb : s.bal m.src with
      | none => rw [hb] at h3; simp at h3
      | some d => rw [hb] at h3; exact ⟨d, rfl, h3⟩
  · rintro (⟨h2, d, hb, h3⟩ | ⟨b, hb, h3⟩)
    · left; exact ⟨by simpa using h2, by rw [hb]; exact h3⟩
    · right; rw [hb]; exact h3

/-- An item never disappears. -/
theorem item_step {s : Sys} {wk : Work} (h : ∃ it ∈ s.items, it.work = wk) (e : Ev) : ∃ it ∈ (pstep s e).items, it.work = wk := by
  have keep : ∀ l l' : List Item, (∃ it ∈ l, it.work = wk) → (∃ it ∈ l ++ l', it.work = wk) := by
    rintro l l' ⟨it, hi, e⟩; exact ⟨it, List.mem_append_left _ hi, e⟩
  have retry : ∀ (x : Sys) wk' o, (∃ it ∈ x.items, it.work = wk) → ∃ it ∈ (x.retryItem wk' o).items, it.work = wk := by
    intro x wk' o hx
    unfold Sys.retryItem; split
    · split
      · exact hx
      · exact keep _ _ hx
    · exact hx
  cases e with
  | ident i => exact h
  | bal b => simp only [pstep]; split <;> exact h
  | record m =>
    simp only [pstep, Sys.record]; split
    · exact h
    · dsimp only; split
      · exact keep _ _ h
      · exact h
  | work k g os =>
    simp only [pstep]
    cases hk : s.items[k]? with
    | none => exact h
    | some it =>
      dsimp only; split
      · exact h
      · have hi : (attempt g os it.work s).1.items = s.items := by
          unfold attempt
          cases it.work with
          | main id =>
            dsimp only
            cases s.main id with
            | none => rfl
            | some m => exact (process_keeps g m ⟨s, os⟩).2.2.2
          | commit id => rfl
          | void id => rfl
        dsimp only
        rw [hi]
        obtain ⟨x, hx, e⟩ := h
        obtain ⟨j, hj⟩ := List.mem_iff_getElem?.1 hx
        by_cases hkj : k = j
        · subst hkj
          have hxi : x = it := by rw [hk] at hj; exact (Option.some.inj hj).symm
          refine ⟨it.mark (attempt g os it.work s).2, ?_, ?_⟩
          · have hlt : k < s.items.length := by
              rw [List.getElem?_eq_some_iff] at hk; exact hk.1
            exact List.mem_iff_getElem?.2 ⟨k, by rw [List.getElem?_set]; simp [hlt]⟩
          · rw [hxi] at e; rw [← e]; cases (attempt g os it.work s).2 <;> rfl
        · exact ⟨x, List.mem_iff_getElem?.2 ⟨j, by rw [List.getElem?_set]; simp [hkj, hj]⟩, e⟩
  | commit id amt os =>
    simp only [pstep, Sys.commit]
    cases s.main id with
    | none => exact h
    | some m =>
      dsimp only
      split
      all_goals
        split
        · exact h
        · exact retry _ _ _ h
  | void id os =>
    simp only [pstep, Sys.void]
    cases s.main id with
    | none => exact h
    | some m =>
      dsimp only
      split
      · exact h
      · exact retry _ _ _ h

theorem item_steps {wk : Work} : ∀ (es : List Ev) (s : Sys), (∃ it ∈ s.items, it.work = wk) → ∃ it ∈ (psteps s es).items, it.work = wk
  | [], _, h => h
  | e :: es, _, h => item_steps es _ (item_step h e)

/-- **C87** (partial) Every accepted movement that lineage concerns gets an outbox item in the
same database transaction, and no movement gets one that it does not concern; the item is
still there after anything that may happen. Only holds with a parent are left out. Missing
from the full statement: those, and that the item's work succeeds. -/
theorem c87_item_partial (s : Sys) (m : Main) (ha : Accepted s m) (hc : ¬ (m.child = true ∧ m.held = true)) :
    (Concerned s m → { work := .main m.id : Item } ∈ (s.record m).items ∧
      ∀ es, ∃ it ∈ (psteps (s.record m) es).items, it.work = .main m.id) ∧
    (¬ Concerned s m → (s.record m).items = s.items) := by
  unfold Accepted at ha
  unfold Sys.record at ha ⊢
  split at ha
  · exact absurd rfl ha
  · rename_i hr
    rw [if_neg hr]
    constructor
    · intro hcon
      rw [← wants_iff s m hc] at hcon
      rw [hcon]
      exact ⟨by simp, fun es => item_steps es _ ⟨{ work := .main m.id }, by simp, rfl⟩⟩
    · intro hcon
      rw [← wants_iff s m hc] at hcon
      simp [hcon]

example : Accepted (psteps {} setup) (pay "1" "world" "bln_a" 100 "P") ∧ Concerned (psteps {} setup) (pay "1" "world" "bln_a" 100 "P") ∧
    ¬ Concerned (psteps {} setup) (pay "1" "world" "bln_a" 100 "") := by
  refine ⟨by unfold Accepted; decide +kernel, .inl ⟨by decide, a1, by decide +kernel, rfl⟩, ?_⟩
  rintro (⟨h, _⟩ | ⟨b, hb, _⟩)
  · exact h rfl
  · exact absurd hb (by
      have : (psteps {} setup).bal (pay "1" "world" "bln_a" 100 "").src = none := by decide +kernel
      rw [this]; simp)

/-! ### A credit -/

/-- **C87** (partial) An undisturbed attempt at a credit from outside stores exactly one row,
with the whole amount, from the provider's account to the total account of the balance's
identity, held if and only if the movement is, and a mapping under which the report finds
it. Missing from the full statement: disturbed attempts, references in use. -/
theorem c87_credit_partial (s : Sys) (g : Sight) (m : Main) (d : TBal) (i : Ident) (hg : g.dst = true)
    (hm : s.main m.id = some m) (hd : s.bal m.dst = some d) (ht : d.tracks = true) (hi : s.ident d.identity = some i)
    (hp : m.provider ≠ "") (hs : ∀ b, s.bal m.src = some b → b.tracks = false) (hu : s.used (m.ref ++ "_shadow_" ++ m.provider) = false) :
    ∃ r, (attempt g [] (.main m.id) s).1.rows = s.rows ++ [r] ∧ (attempt g [] (.main m.id) s).2 = .ok ∧
      r.ref = m.ref ++ "_shadow_" ++ m.provider ∧ r.parent = m.id ∧ r.provider = m.provider ∧ r.amount = m.amount ∧
      r.src = shadowAcc m.provider i m.cur ∧ r.dst = aggAcc i m.cur ∧ (r.st = if m.held then .held else .applied) ∧
      ∃ mp ∈ (attempt g [] (.main m.id) s).1.mapsOf m.dst, mp.provider = m.provider ∧ mp.shadow = r.src ∧ mp.agg = r.dst := by
  refine ⟨creditRow i m m.provider, ?_⟩
  have hv : validProvider s m (s.seen g.src m.src) = m.provider := by
    unfold validProvider; rw [if_neg hp]
    cases hb : s.seen g.src m.src with
    | none => rfl
    | some b => simp [hs b (seen_some hb)]
  have hdeb : ∀ w, debitStep g m (s.seen g.src m.src) w = (w, .ok) := by
    intro w
    unfold debitStep
    cases hb : s.seen g.src m.src with
    | none => rfl
    | some b => simp [hs b (seen_some hb)]
  have hr : s.refuses (creditRow i m m.provider) true = false := by
    simp only [Sys.refuses, Bool.or_eq_false_iff]
    exact ⟨⟨hu, beq_eq_false_iff_ne.2 (shadow_ne_agg _ _ _ _)⟩, rfl⟩
  have hatt : attempt g [] (.main m.id) s =
      ((s.push (creditRow i m m.provider)).map1 ⟨d.id, m.provider, shadowAcc m.provider i m.cur, aggAcc i m.cur, s.now⟩, .ok) := by
    simp only [attempt, hm]
    rw [process_calm, hv]
    have : s.seen g.dst m.dst = some d := by unfold Sys.seen; rw [hg, if_pos rfl]; exact hd
    rw [this]
    simp only [creditStep]
    rw [if_pos ⟨hp, ht⟩, credit_calm, hi]
    dsimp only
    rw [hr]
    simp only [Bool.false_eq_true, if_false]
    rw [hdeb]
  rw [hatt]
  refine ⟨rfl, rfl, rfl, rfl, rfl, rfl, rfl, rfl, rfl, ?_⟩
  obtain ⟨x, hx, e1, e2, e3, e4⟩ := upsert_has ⟨d.id, m.provider, shadowAcc m.provider i m.cur, aggAcc i m.cur, s.now⟩ s.maps
  exact ⟨x, List.mem_filter.2 ⟨hx, by rw [e1]; simp [(bal_mem hd).2]⟩, e2, e3, e4⟩

example : let s := psteps {} (setup ++ [.record (pay "1" "world" "bln_a" 100 "P")])
    s.main "1" = some { pay "1" "world" "bln_a" 100 "P" with paid := 100 } ∧ s.used "r1_shadow_P" = false ∧
    (attempt {} [] (.main "1") s).1.report "bln_a" = [⟨"P", 100, 100, 0⟩] := by decide +kernel

/-- **C87** A tracked source is not believed about a provider it never had money of: whatever
fails on the way, an attempt at such a payment attributes nothing new, and every row it stores
moves what providers already gave from one customer to another. -/
theorem c87_unknown_provider (s : Sys) (g : Sight) (os : List Out) (m : Main) (b : TBal) (hg : g.src = true)
    (hm : s.main m.id = some m) (hb : s.bal m.src = some b) (ht : b.tracks = true)
    (hn : ∀ mp ∈ s.maps, ¬ (mp.balance = b.id ∧ mp.provider = m.provider)) :
    ∀ r ∈ (attempt g os (.main m.id) s).1.rows, r ∈ s.rows ∨ r.kind = .release ∨ r.kind = .receive := by
  have hv : validProvider s m (s.seen g.src m.src) = "" := by
    have hs : s.seen g.src m.src = some b := by unfold Sys.seen; rw [hg, if_pos rfl]; exact hb
    have hx : s.mapping b.id m.provider = none := by
      unfold Sys.mapping
      rw [List.find?_eq_none]
      intro mp hmp; have := hn mp hmp; simpa using this
    rw [hs]; unfold validProvider
    simp [ht, hx]
  let P : Sys → Prop := fun s' => ∀ r ∈ s'.rows, r ∈ s.rows ∨ r.kind = .release ∨ r.kind = .receive
  have hP : P s := fun r hr => .inl hr
  simp only [attempt, hm]
  show P (processMain g m ⟨s, os⟩).1.sys
  unfold processMain
  have htk := tick_sys ⟨s, os⟩
  revert htk
  rcases W.tick ⟨s, os⟩ with ⟨w1, o1⟩
  intro htk; dsimp only at htk
  cases o1 <;> dsimp only <;> try (rw [htk]; exact hP)
  have hcs : ∀ d, creditStep m (validProvider w1.sys m (w1.sys.seen g.src m.src)) d w1 = (w1, .ok) := by
    intro d; rw [htk, hv]; cases d <;> simp [creditStep]
  rw [hcs]
  dsimp only
  unfold debitStep
  cases hs : w1.sys.seen g.src m.src with
  | none => dsimp only; rw [htk]; exact hP
  | some b' =>
    dsimp only
    split
    · apply debit_induct w1 (by rw [htk]; exact hP)
      intro w' e i _ _
      refine loop_induct ?_ ?_ ?_ _ _ (by rw [e, htk]; exact hP)
      · intro s' mp a h _ _ r hr
        rcases List.mem_append.1 hr with hr | hr
        · exact h r hr
        · rw [List.mem_singleton.1 hr]; exact .inr (.inl rfl)
      · intro s' d i p a h _ _ r hr
        rcases List.mem_append.1 hr with hr | hr
        · exact h r hr
        · rw [List.mem_singleton.1 hr]; exact .inr (.inr rfl)
      · intro s' d i p h _; exact h
    · rw [htk]; exact hP

example : let s := psteps {} (setup ++ [.record (pay "1" "world" "bln_a" 100 "P"), go 0, .record (pay "2" "bln_a" "bln_b" 40 "Q")])
    (∀ mp ∈ s.maps, ¬ (mp.balance = "bln_a" ∧ mp.provider = "Q")) ∧
    (attempt {} [] (.main "2") s).1.report "bln_b" = [⟨"P", 40, 40, 0⟩] ∧
    (attempt {} [] (.main "2") s).1.report "bln_a" = [⟨"P", 100, 60, 40⟩] := by decide +kernel

/-! ### A debit -/

theorem ref_apart (x p q : String) : x ++ "_release_" ++ p ≠ x ++ "_receive_" ++ q := by
  intro h
  have h1 := congrArg String.toList h
  simp only [String.toList_append, List.append_assoc, List.append_cancel_left_eq] at h1
  have h2 := congrArg (fun l : List Char => l[3]?) h1
  simp at h2

theorem release_inj {x p q : String} (h : x ++ "_release_" ++ p = x ++ "_release_" ++ q) : p = q := by
  have h1 := congrArg String.toList h
  simp only [String.toList_append, List.append_assoc, List.append_cancel_left_eq] at h1
  exact String.ext h1

theorem receive_inj {x p q : String} (h : x ++ "_receive_" ++ p = x ++ "_receive_" ++ q) : p = q := by
  have h1 := congrArg String.toList h
  simp only [String.toList_append, List.append_assoc, List.append_cancel_left_eq] at h1
  exact String.ext h1

/-- The rows a provider's part of a debit is recorded with. -/
def outRow (m : Main) (i : Ident) (b : TBal) (p : String) (a : Int) : Row :=
  { ref := m.ref ++ "_release_" ++ p, kind := .release, parent := m.id, provider := p
    src := aggAcc i b.cur, dst := shadowAcc p i b.cur, amount := a, st := newStat m }

def partRows (m : Main) (i : Ident) (b : TBal) (dest : Dest) (x : Alloc) : List Row :=
  outRow m i b x.1 x.2 :: match dest with
    | none => []
    | some (d, j) => [receiveRow d j m x.1 x.2]

theorem used_push (s : Sys) (r : Row) (x : String) : (s.push r).used x = (s.used x || r.ref == x) := by
  simp only [Sys.used, Sys.push, List.any_append, List.any_cons, List.any_nil, Bool.or_false]
  cases s.rows.any (·.ref == x) <;> cases s.mains.any (·.ref == x) <;> cases r.ref == x <;> rfl

theorem mapping_some {s : Sys} {b p : String} (h : (b, p) ∈ s.maps.map Mapping.key) : ∃ mp, s.mapping b p = some mp := by
  obtain ⟨x, hx, e⟩ := List.mem_map.1 h
  unfold Mapping.key at e
  injection e with e1 e2
  have : (s.mapping b p).isSome = true := by
    rw [Sys.mapping, List.find?_isSome]; exact ⟨x, hx, by simp [e1, e2]⟩
  exact Option.isSome_iff_exists.1 this

theorem keys_map1 {s : Sys} {m : Mapping} {k : String × String} (h : k ∈ s.maps.map Mapping.key) : k ∈ (s.map1 m).maps.map Mapping.key := by
  show k ∈ (upsertMap m s.maps).map Mapping.key
  rcases upsert_keys m s.maps with ⟨_, e⟩ | ⟨_, e⟩
  · rw [e]; exact h
  · rw [e]; exact List.mem_append_left _ h

/-- An undisturbed loop with enough free funds on the total account writes every row. -/
theorem loop_full {U es} (hU : Univ U) {m : Main} {b : TBal} {i : Ident} (hi : i ∈ U) (hid : i.id = b.identity)
    {dest : Dest} (hdest : ∀ d j, dest = some (d, j) → .bal d ∈ es ∧ j ∈ U ∧ j.id = d.identity) :
    ∀ (l : List Alloc) (s : Sys), Book U es s → b ∈ s.bals → (∀ d j, dest = some (d, j) → d ∈ s.bals) →
    (l.map Prod.fst).Nodup → (∀ x ∈ l, 0 < x.2) →
    (∀ x ∈ l, s.used (m.ref ++ "_release_" ++ x.1) = false ∧ s.used (m.ref ++ "_receive_" ++ x.1) = false) →
    (∀ x ∈ l, (b.id, x.1) ∈ s.maps.map Mapping.key) →
    (l.map Prod.snd).sum ≤ free s.rows (aggAcc i b.cur) →
    (releaseLoop m b (aggAcc i b.cur) dest l ⟨s, []⟩).2 = .ok ∧
      (releaseLoop m b (aggAcc i b.cur) dest l ⟨s, []⟩).1.sys.rows = s.rows ++ l.flatMap (partRows m i b dest)
  | [], s, _, _, _, _, _, _, _, _ => by simp [releaseLoop]
  | (p, a) :: rest, s, hB, hb, hdb, hn, hpos, hu, hk, hf => by
    have ih := loop_full hU (m := m) (b := b) hi hid hdest rest
    rw [List.map_cons, List.nodup_cons] at hn
    have hpa := hpos (p, a) (by simp)
    have hup := hu (p, a) (by simp)
    have hrest : 0 ≤ (rest.map Prod.snd).sum := by
      have : ∀ l : List Alloc, (∀ x ∈ l, 0 < x.2) → 0 ≤ (l.map Prod.snd).sum := by
        intro l hl
        induction l with
        | nil => simp
        | cons x xs ih' =>
          have h1 := hl x (by simp)
          have h2 := ih' fun y hy => hl y (by simp [hy])
          simp only [List.map_cons, List.sum_cons]; omega
      exact this rest fun x hx => hpos x (by simp [hx])
    obtain ⟨mp, hmp⟩ := mapping_some (hk (p, a) (by simp))
    obtain ⟨hmm, hmb, hmpr⟩ := mapping_mem hmp
    have hsh := (hB.mapped hU hb hi hid hmm hmb).1
    have hrow : releaseRow (aggAcc i b.cur) m mp a = outRow m i b p a := by
      unfold releaseRow outRow releaseRef; rw [hsh, hmpr]
    simp only [List.map_cons, List.sum_cons] at hf
    have hr : s.refuses (outRow m i b p a) false = false := by
      simp only [Sys.refuses, Bool.or_eq_false_iff, Bool.and_eq_false_imp, decide_eq_false_iff_not]
      refine ⟨⟨hup.1, beq_eq_false_iff_ne.2 fun h => shadow_ne_agg p i b.cur b.cur h.symm⟩, fun _ => ?_⟩
      show ¬ free s.rows (aggAcc i b.cur) < a
      dsimp only at hpa
      omega
    have hused : s.used (releaseRef m p) = false := hup.1
    rw [loop_calm, hmp]
    dsimp only
    rw [hused, hrow, hr]
    simp only [Bool.false_eq_true, if_false]
    have hB1 : Book U es (s.push (outRow m i b p a)) := hB.push hi (c := b.cur) (.inr ⟨rfl, rfl, rfl⟩)
    have hf1 : (rest.map Prod.snd).sum ≤ free (s.push (outRow m i b p a)).rows (aggAcc i b.cur) := by
      show _ ≤ free (s.rows ++ [outRow m i b p a]) _
      rw [free_push, fshare]
      have hne : (outRow m i b p a).dst ≠ aggAcc i b.cur := shadow_ne_agg _ _ _ _
      have he : (outRow m i b p a).src = aggAcc i b.cur := rfl
      simp only [beq_eq_false_iff_ne.2 hne, Bool.and_false, he, beq_self_eq_true, Bool.and_true]
      have ha : (outRow m i b p a).amount = a := rfl
      rw [ha]
      cases h : (outRow m i b p a).st <;> simp [Row.settled, h] <;> omega
    have hu1 : ∀ x ∈ rest, (s.push (outRow m i b p a)).used (m.ref ++ "_release_" ++ x.1) = false ∧
        (s.push (outRow m i b p a)).used (m.ref ++ "_receive_" ++ x.1) = false := by
      intro x hx
      have h1 := hu x (by simp [hx])
      rw [used_push, used_push, h1.1, h1.2]
      have hne : x.1 ≠ p := fun e => hn.1 (List.mem_map.2 ⟨x, hx, e⟩)
      constructor
      · simp only [Bool.false_or]
        exact beq_eq_false_iff_ne.2 fun h => hne (release_inj h).symm
      · simp only [Bool.false_or]
        exact beq_eq_false_iff_ne.2 (ref_apart _ _ _)
    cases dest with
    | none =>
      dsimp only
      obtain ⟨h1, h2⟩ := ih (s.push (outRow m i b p a)) hB1 hb (fun _ _ h => by simp at h) hn.2
        (fun x hx => hpos x (by simp [hx])) hu1 (fun x hx => hk x (by simp [hx])) hf1
      refine ⟨h1, ?_⟩
      rw [h2]
      simp [Sys.push, partRows]
    | some dj =>
      obtain ⟨d, j⟩ := dj
      dsimp only
      obtain ⟨_, hj, hjd⟩ := hdest d j rfl
      have hr2 : (s.push (outRow m i b p a)).refuses (receiveRow d j m p a) true = false := by
        simp only [Sys.refuses, Bool.or_eq_false_iff]
        refine ⟨⟨?_, beq_eq_false_iff_ne.2 (shadow_ne_agg _ _ _ _)⟩, rfl⟩
        rw [used_push, Bool.or_eq_false_iff]
        exact ⟨hup.2, beq_eq_false_iff_ne.2 (ref_apart _ _ _)⟩
      rw [hr2]
      simp only [Bool.false_eq_true, if_false]
      have hB2 := (hB1.push (r := receiveRow d j m p a) hj (c := d.cur) (.inl ⟨by simp [receiveRow], rfl, rfl⟩)).map1
        (m := ⟨d.id, p, shadowAcc p j d.cur, aggAcc j d.cur, s.now⟩) (hdb d j rfl) rfl hj hjd rfl rfl
      have hu2 : ∀ x ∈ rest, ((s.push (outRow m i b p a)).push (receiveRow d j m p a)).used (m.ref ++ "_release_" ++ x.1) = false ∧
          ((s.push (outRow m i b p a)).push (receiveRow d j m p a)).used (m.ref ++ "_receive_" ++ x.1) = false := by
        intro x hx
        have h1 := hu1 x hx
        have hne : x.1 ≠ p := fun e => hn.1 (List.mem_map.2 ⟨x, hx, e⟩)
        rw [used_push (s.push (outRow m i b p a)), used_push (s.push (outRow m i b p a)), h1.1, h1.2]
        constructor
        · simp only [Bool.false_or]
          exact beq_eq_false_iff_ne.2 (fun h => ref_apart _ _ _ h.symm)
        · simp only [Bool.false_or]
          exact beq_eq_false_iff_ne.2 fun h => hne (receive_inj h).symm
      have hf2 : (rest.map Prod.snd).sum ≤ free ((s.push (outRow m i b p a)).rows ++ [receiveRow d j m p a]) (aggAcc i b.cur) := by
        rw [free_push, fshare]
        have hne : (receiveRow d j m p a).src ≠ aggAcc i b.cur := row_agg hU hj hi _ _ _
        simp only [beq_eq_false_iff_ne.2 hne, Bool.and_false]
        have ha : (receiveRow d j m p a).amount = a := rfl
        dsimp only at hpa
        split <;> simp <;> omega
      obtain ⟨h1, h2⟩ := ih _ hB2 hb hdb hn.2 (fun x hx => hpos x (by simp [hx])) hu2
        (fun x hx => keys_map1 (hk x (by simp [hx]))) hf2
      refine ⟨h1, ?_⟩
      rw [h2]
      simp [Sys.push, Sys.map1, partRows]

theorem exists_cover : ∀ (l Q : List String), Q.Nodup → ∃ R : List String, (Q ++ R).Nodup ∧ ∀ x ∈ l, x ∈ Q ++ R
  | [], Q, h => ⟨[], by simpa using h, by simp⟩
  | x :: xs, Q, h => by
    obtain ⟨R, h1, h2⟩ := exists_cover xs Q h
    by_cases hx : x ∈ Q ++ R
    · exact ⟨R, h1, fun y hy => (List.mem_cons.1 hy).elim (fun e => e ▸ hx) (h2 y)⟩
    · refine ⟨R ++ [x], ?_, ?_⟩
      · rw [← List.append_assoc, List.nodup_append]
        exact ⟨h1, by simp, fun a ha b hb e => hx (by rw [← List.mem_singleton.1 hb, ← e]; exact ha)⟩
      · intro y hy
        rw [← List.append_assoc, List.mem_append]
        exact (List.mem_cons.1 hy).elim (fun e => .inr (by simp [e])) fun hy => .inl (h2 y hy)

theorem sum_nonneg {α} (f : α → Int) : ∀ l : List α, (∀ x ∈ l, 0 ≤ f x) → 0 ≤ (l.map f).sum
  | [], _ => by simp
  | x :: xs, h => by
    have h1 := h x (by simp)
    have h2 := sum_nonneg f xs fun y hy => h y (by simp [hy])
    simp only [List.map_cons, List.sum_cons]; omega

/-- Where nothing is held back, the total account has at least what the balance reports. -/
theorem total_free {U es s} (hU : Univ U) (hB : Book U es s) (hS : Sound U s) {b : TBal} (hb : b ∈ s.bals) {i} (hi : i ∈ U)
    (hid : i.id = b.identity) : s.total b.id ≤ free s.rows (aggAcc i b.cur) := by
  obtain ⟨R, h1, h2⟩ := exists_cover (s.rows.map Row.provider) _ (mapsOf_nodup hB.keys b.id)
  have h3 := agg_sum hU hB i hi b.cur _ h1 fun r hr _ => h2 _ (List.mem_map_of_mem hr)
  have h4 : heldDebit s.rows (aggAcc i b.cur) = 0 := by
    refine map_zero _ _ fun r hr => ?_
    obtain ⟨j, hj, c, hok⟩ := hB.rows r hr
    rcases hok with ⟨_, hs, _⟩ | ⟨hk, _, _⟩
    · have : r.src ≠ aggAcc i b.cur := by rw [hs]; exact row_agg hU hj hi _ _ _
      simp [this]
    · have := hS.applied r hr hk
      simp [this]
  have h5 : s.total b.id = (((s.mapsOf b.id).map Mapping.provider).map fun p => avail s.rows (shadowAcc p i b.cur)).sum := by
    unfold Sys.total Sys.report
    rw [List.map_map, List.map_map]
    congr 1
    refine List.map_congr_left fun mp hmp => ?_
    have hm := List.mem_filter.1 hmp
    simp only [Function.comp]
    rw [(hB.mapped hU hb hi hid hm.1 (by simpa using hm.2)).1]
  rw [List.map_append, List.sum_append] at h3
  have h6 := sum_nonneg (fun p => avail s.rows (shadowAcc p i b.cur)) R fun p _ => hS.avail i hi _ p
  simp only [free]
  omega

theorem sources_total {U es s} (hU : Univ U) (hB : Book U es s) (hS : Sound U s) {b : TBal} (hb : b ∈ s.bals) {i} (hi : i ∈ U)
    (hid : i.id = b.identity) : ((s.sources b.id).map fun x => max 0 x.avail).sum = s.total b.id := by
  unfold Sys.sources Sys.total Sys.report
  rw [List.map_map, List.map_map]
  congr 1
  refine List.map_congr_left fun mp hmp => ?_
  have hm := List.mem_filter.1 hmp
  simp only [Function.comp]
  rw [(hB.mapped hU hb hi hid hm.1 (by simpa using hm.2)).1]
  have := hS.avail i hi b.cur mp.provider
  omega

theorem alloc_sum_le {st : Strategy} (l : List Src) {amt : Int} (h : 0 ≤ amt) :
    ((calculate st (live l) amt).map Prod.snd).sum ≤ min amt (l.map fun x => max 0 x.avail).sum := by
  by_cases hst : st = .proportional
  · subst hst; exact (Lineage.c36_total_partial l amt h).1
  · rw [Lineage.c35_total st hst l amt h]; omega

theorem remaining_fresh {s : Sys} {m : Main} {b : String} (h : ∀ p, s.used (m.ref ++ "_release_" ++ p) = false) :
    s.remaining m b = m.amount := by
  unfold Sys.remaining
  rw [map_zero]
  · omega
  · intro mp _
    rw [if_neg (by show ¬ s.used (m.ref ++ "_release_" ++ mp.provider) = true; rw [h]; simp)]

/-- An undisturbed debit, when nothing of it was recorded before. -/
theorem debit_full {U es s} (hU : Univ U) (hB : Book U es s) (hS : Sound U s) {g : Sight} {m : Main} {b : TBal} {i : Ident}
    (hpos : 0 < m.amount) (hb : b ∈ s.bals) (hi : s.ident b.identity = some i)
    (hu : ∀ p, s.used (m.ref ++ "_release_" ++ p) = false ∧ s.used (m.ref ++ "_receive_" ++ p) = false)
    (hmaps : s.mapsOf b.id ≠ []) :
    (debitPart g m b ⟨s, []⟩).2 = .ok ∧
    (debitPart g m b ⟨s, []⟩).1.sys.rows = s.rows ++
      (calculate b.strategy (live (s.sources b.id)) m.amount).flatMap (partRows m i b (s.destOf g m)) := by
  have hiU := hB.idents i (ident_mem hi).1
  have hrem : s.remaining m b.id = m.amount := remaining_fresh fun p => (hu p).1
  rw [debit_calm, if_neg hmaps, hrem, if_neg (by omega), hi]
  dsimp only
  have hn := sources_nodup hB b.id
  refine loop_full hU hiU (ident_mem hi).2 ?_ _ s hB hb ?_ (alloc_nodup hn _) (fun x hx => (alloc_pos hn hx).1)
    (fun x _ => hu x.1) ?_ ?_
  · intro d j h
    obtain ⟨h1, _, h3⟩ := destOf_some h
    exact ⟨hB.bals d (bal_mem h1).1, hB.idents j (ident_mem h3).1, (ident_mem h3).2⟩
  · intro d j h
    exact (bal_mem (destOf_some h).1).1
  · intro x hx
    obtain ⟨_, y, hy, e, _⟩ := alloc_pos hn (p := x.1) (a := x.2) hx
    obtain ⟨mp, hmp, rfl⟩ := List.mem_map.1 hy
    have hm := List.mem_filter.1 hmp
    refine List.mem_map.2 ⟨mp, hm.1, ?_⟩
    have hmb : mp.balance = b.id := by simpa using hm.2
    unfold Mapping.key
    rw [← e, hmb]
  · have h1 := alloc_sum_le (st := b.strategy) (s.sources b.id) (amt := m.amount) (by omega)
    have h2 := total_free hU hB hS hb hiU (ident_mem hi).2
    rw [sources_total hU hB hS hb hiU (ident_mem hi).2] at h1
    omega

theorem part_release (m : Main) (i : Ident) (b : TBal) (dest : Dest) : ∀ l : List Alloc,
    (((l.flatMap (partRows m i b dest)).filter fun r => r.kind == .release).map Row.amount).sum = (l.map Prod.snd).sum
  | [] => rfl
  | x :: xs => by
    rw [List.flatMap_cons, List.filter_append, List.map_append, List.sum_append, part_release m i b dest xs,
      List.map_cons, List.sum_cons]
    congr 1
    unfold partRows
    cases dest with
    | none => simp [outRow]
    | some dj => simp [outRow, receiveRow]

theorem part_receive (m : Main) (i : Ident) (b : TBal) (d : TBal) (j : Ident) : ∀ l : List Alloc,
    (((l.flatMap (partRows m i b (some (d, j)))).filter fun r => r.kind == .receive).map Row.amount).sum = (l.map Prod.snd).sum
  | [] => rfl
  | x :: xs => by
    rw [List.flatMap_cons, List.filter_append, List.map_append, List.sum_append, part_receive m i b d j xs,
      List.map_cons, List.sum_cons]
    congr 1
    simp [partRows, outRow, receiveRow]

theorem part_row {m : Main} {i : Ident} {b : TBal} {dest : Dest} {l : List Alloc} {r : Row}
    (h : r ∈ l.flatMap (partRows m i b dest)) :
    r.parent = m.id ∧ r.st = newStat m ∧
    ((r.kind = .release ∧ r.src = aggAcc i b.cur ∧ r.dst = shadowAcc r.provider i b.cur) ∨
     (r.kind = .receive ∧ ∃ d j, dest = some (d, j) ∧ r.src = shadowAcc r.provider j d.cur ∧ r.dst = aggAcc j d.cur)) := by
  obtain ⟨x, _, hx⟩ := List.mem_flatMap.1 h
  unfold partRows at hx
  rcases List.mem_cons.1 hx with rfl | hx
  · exact ⟨rfl, rfl, .inl ⟨rfl, rfl, rfl⟩⟩
  · cases dest with
    | none => simp at hx
    | some dj =>
      have : r = receiveRow dj.1 dj.2 m x.1 x.2 := by simpa using hx
      subst this
      exact ⟨rfl, rfl, .inr ⟨rfl, dj.1, dj.2, rfl, rfl, rfl⟩⟩

/-- An untagged movement out of a tracked balance is a debit and nothing else. -/
theorem attempt_debit {s : Sys} {g : Sight} {m : Main} {b : TBal} (hg : g.src = true) (hm : s.main m.id = some m) (hp : m.provider = "")
    (hb : s.bal m.src = some b) (ht : b.tracks = true) :
    attempt g [] (.main m.id) s = ((debitPart g m b ⟨s, []⟩).1.sys, (debitPart g m b ⟨s, []⟩).2) := by
  simp only [attempt, hm]
  rw [process_calm]
  have h1 : s.seen g.src m.src = some b := by unfold Sys.seen; rw [hg, if_pos rfl]; exact hb
  have h2 : validProvider s m (some b) = "" := by unfold validProvider; rw [if_pos hp]
  rw [h1, h2]
  have h3 : creditStep m "" (s.seen g.dst m.dst) ⟨s, []⟩ = (⟨s, []⟩, .ok) := by
    unfold creditStep; cases s.seen g.dst m.dst with
    | none => rfl
    | some d => dsimp only; rw [if_neg (by simp)]
  rw [h3]
  simp only [debitStep]
  rw [if_pos ht]

/-- **C87** (partial) An undisturbed first attempt at an untagged debit, in a history without
holds on tracked balances, takes exactly the amount from the balance's providers, or all
they have if that is less, and hands exactly as much on to a destination that keeps lineage
(FIFO and LIFO). Missing from the full statement: holds, disturbed attempts, renamed
identities, references in use, proportional allocation (C36). -/
theorem c87_debit_partial {U es} (hU : Univ U) (hk : Known U es) (hN : NoHolds es) (g : Sight) (hg : g.src = true) (m : Main)
    (hm : (psteps {} es).main m.id = some m) (hp : m.provider = "") (b : TBal) (hb : (psteps {} es).bal m.src = some b)
    (ht : b.tracks = true) (hst : b.strategy ≠ .proportional) (i : Ident) (hi : (psteps {} es).ident b.identity = some i)
    (hu : ∀ p, (psteps {} es).used (m.ref ++ "_release_" ++ p) = false ∧ (psteps {} es).used (m.ref ++ "_receive_" ++ p) = false)
    (hmaps : (psteps {} es).mapsOf b.id ≠ []) :
    (attempt g [] (.main m.id) (psteps {} es)).2 = .ok ∧
    ∃ new, (attempt g [] (.main m.id) (psteps {} es)).1.rows = (psteps {} es).rows ++ new ∧
      (∀ r ∈ new, r.parent = m.id ∧ r.st = .applied ∧
        ((r.kind = .release ∧ r.src = aggAcc i b.cur ∧ r.dst = shadowAcc r.provider i b.cur) ∨
         (r.kind = .receive ∧ ∃ d j, (psteps {} es).destOf g m = some (d, j) ∧ r.src = shadowAcc r.provider j d.cur ∧
           r.dst = aggAcc j d.cur))) ∧
      ((new.filter fun r => r.kind == .release).map Row.amount).sum = min m.amount ((psteps {} es).total b.id) ∧
      ((psteps {} es).destOf g m ≠ none →
        ((new.filter fun r => r.kind == .receive).map Row.amount).sum = min m.amount ((psteps {} es).total b.id)) := by
  have hB := reach_book hU hk
  have hS := reach_sound hU hk hN
  generalize psteps {} es = s at *
  obtain ⟨hbm, hbe⟩ := bal_mem hb
  have hiU := hB.idents i (ident_mem hi).1
  obtain ⟨m0, h0, hpos, _, _, _, hsrc, _, _, _, _, hheld⟩ := hB.mains m (main_mem hm).1
  have hnh : m.held = false := by rw [hheld]; exact hN m0 b h0 (hB.bals b hbm) ht (hbe.trans hsrc)
  have hns : newStat m = .applied := by simp [newStat, hnh]
  have hatt := attempt_debit hg hm hp hb ht
  obtain ⟨h1, h2⟩ := debit_full hU hB hS (g := g) hpos hbm hi hu hmaps
  rw [hatt]
  refine ⟨h1, _, h2, ?_, ?_, ?_⟩
  · intro r hr
    obtain ⟨e1, e2, e3⟩ := part_row hr
    exact ⟨e1, e2.trans hns, e3⟩
  · rw [part_release, Lineage.c35_total _ hst _ _ (by omega), sources_total hU hB hS hbm hiU (ident_mem hi).2]
  · intro hd
    obtain ⟨dj, hdj⟩ := Option.ne_none_iff_exists'.1 hd
    obtain ⟨d, j⟩ := dj
    rw [hdj, part_receive, Lineage.c35_total _ hst _ _ (by omega), sources_total hU hB hS hbm hiU (ident_mem hi).2]

/-- 100 and 50 of two providers, and a payment of 120 that is still to be recorded. -/
def waiting : List Ev := setup ++ [.record (pay "1" "world" "bln_a" 100 "P"), go 0, .record (pay "2" "world" "bln_a" 50 "Q"), go 1,
  .record (pay "3" "bln_a" "bln_b" 120 "")]

example : Known [ada, bob] waiting ∧ NoHolds waiting ∧
    (psteps {} waiting).main "3" = some { pay "3" "bln_a" "bln_b" 120 "" with paid := 120 } ∧
    (psteps {} waiting).bal "bln_a" = some a1 ∧ (psteps {} waiting).total "bln_a" = 150 ∧
    (psteps {} waiting).destOf {} (pay "3" "bln_a" "bln_b" 120 "") = some (b1, bob) ∧
    (∀ p, (psteps {} waiting).used ("r3_release_" ++ p) = false) := by
  refine ⟨demo_known ?_, ?_, by decide +kernel, by decide +kernel, by decide +kernel, by decide +kernel, ?_⟩
  · intro e he
    simp only [waiting, setup, List.cons_append, List.nil_append, List.mem_cons, List.not_mem_nil, or_false] at he
    rcases he with rfl | rfl | rfl | rfl | rfl | rfl | rfl | rfl | rfl <;> simp [pay, go, a1, b1]
  · intro m d hm hd _ e
    simp [waiting, setup, go] at hm hd
    rcases hd with rfl | rfl <;> rcases hm with rfl | rfl | rfl <;> first | rfl | exact absurd e (by decide)
  · intro p
    have h1 : (psteps {} waiting).rows.map Row.ref = ["r1_shadow_P", "r2_shadow_Q"] := by decide +kernel
    have h2 : (psteps {} waiting).mains.map Main.ref = ["r1", "r2", "r3"] := by decide +kernel
    have h3 : ∀ x ∈ ["r1_shadow_P", "r2_shadow_Q", "r1", "r2", "r3"], x ≠ "r3_release_" ++ p := by
      intro x hx e
      have e' := congrArg (fun y : String => y.toList.take 11) e
      have e2 : ("r3_release_" ++ p).toList.take 11 = "r3_release_".toList := by
        rw [String.toList_append]; exact List.take_left' (by decide)
      simp only [e2] at e'
      have : ∀ x ∈ ["r1_shadow_P", "r2_shadow_Q", "r1", "r2", "r3"], x.toList.take 11 ≠ "r3_release_".toList := by decide
      exact this x hx e'
    unfold Sys.used
    rw [Bool.or_eq_false_iff]
    constructor
    · rw [List.any_eq_false]
      intro r hr
      have : r.ref ∈ ["r1_shadow_P", "r2_shadow_Q"] := by rw [← h1]; exact List.mem_map_of_mem hr
      have := h3 r.ref (by simp only [List.mem_cons] at this ⊢; rcases this with h | h | h <;> simp [h] at *)
      simpa using this
    · rw [List.any_eq_false]
      intro r hr
      have : r.ref ∈ ["r1", "r2", "r3"] := by rw [← h2]; exact List.mem_map_of_mem hr
      have := h3 r.ref (by simp only [List.mem_cons] at this ⊢; rcases this with h | h | h | h <;> simp [h] at *)
      simpa using this

end Blnk.Prov
