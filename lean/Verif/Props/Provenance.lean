import Verif.Lemmas.Provenance
/-
C84–C89: the accounts, totals and settlement of fund lineage.
-/
namespace Blnk.Prov
open Lineage (Strategy Src Alloc calculate live)

/-! ### C89: whose account is it -/

/-- Two identities have no lineage account in common, whatever the providers. -/
def Apart (i j : Ident) : Prop := ∀ c c' : String,
  aggAcc i c ≠ aggAcc j c' ∧ (∀ p q, shadowAcc p i c ≠ shadowAcc q j c') ∧
  (∀ p, shadowAcc p i c ≠ aggAcc j c') ∧ (∀ p, aggAcc i c ≠ shadowAcc p j c')

/-- **C89** in full: different identities have different lineage accounts. -/
def C89Full : Prop := ∀ i j : Ident, i.id ≠ j.id → Apart i j

/-- **C89** (violated) Two customers of the same name whose identifiers begin alike (`idt_`
and four hexadecimal digits) share all their lineage accounts. -/
theorem c89_same_name_fails : ¬ C89Full := by
  intro h
  exact (h { id := "idt_1a2b-0001", first := "Ada", last := "Byron" }
    { id := "idt_1a2b-7777", first := "ada", last := "byron" } (by decide) "USD" "USD").1 (by decide +kernel)

/-- **C89** (violated) Names are joined with underscores, so the account of a provider for one
identity may be the total account of another. -/
theorem c89_joined_fails : ¬ C89Full := by
  intro h
  exact (h { id := "idt_1a2b-0001", org := "Byron" } { id := "idt_1a2b-7777", first := "Ada", last := "Byron" }
    (by decide) "USD" "USD").2.2.1 "ada" (by decide +kernel)

theorem name_toList (a b c : String) : (a ++ b ++ c).toList = a.toList ++ b.toList ++ c.toList := by
  simp [String.toList_append]

theorem shadow_toList (p : String) (i : Ident) (c : String) :
    (shadowAcc p i c).name.toList = ("@" ++ p ++ "_").toList ++ i.name.toList ++ "_lineage".toList := by
  simp [shadowAcc, String.toList_append]

theorem agg_toList (i : Ident) (c : String) :
    (aggAcc i c).name.toList = "@".toList ++ i.name.toList ++ "_lineage".toList := by
  simp [aggAcc, String.toList_append]

/-- The provider of an account is determined when the identity is known. -/
theorem shadow_inj {p q : String} {i : Ident} {c c' : String} (h : shadowAcc p i c = shadowAcc q i c') : p = q ∧ c = c' := by
  refine ⟨?_, congrArg Acc.cur h⟩
  have h1 := congrArg (fun a => a.name.toList) h
  simp only [shadow_toList, List.append_cancel_right_eq, String.toList_append] at h1
  simp only [List.append_cancel_left_eq] at h1
  exact String.ext h1

/-- The total account of an identity is none of its provider accounts. -/
theorem shadow_ne_agg (p : String) (i : Ident) (c c' : String) : shadowAcc p i c ≠ aggAcc i c' := by
  intro h
  have h1 := congrArg (fun a => a.name.toList.length) h
  simp only [shadow_toList, agg_toList, List.length_append, String.toList_append] at h1
  have : "_".toList.length = 1 := by decide
  omega

/-- The last `n` characters. -/
def tail8 (l : List Char) : List Char := l.drop (l.length - 8)

theorem tail8_append {x y : List Char} (h : y.length = 8) : tail8 (x ++ y) = y := by
  unfold tail8
  rw [List.length_append, h, Nat.add_sub_cancel, List.drop_left]

/-- An identity as the service creates it: it has a name, and an identifier of at least eight
characters. -/
def Proper (i : Ident) : Prop := 8 ≤ i.id.toList.length ∧ ((i.first ≠ "" ∧ i.last ≠ "") ∨ i.org ≠ "")

theorem proper_tail {i : Ident} (h : Proper i) : ∃ x, i.name.toList = x ++ i.id.toList.take 8 := by
  unfold Ident.name
  split
  · exact ⟨(lower (i.first ++ "_" ++ i.last)).toList ++ "_".toList, by simp [idPart, String.toList_append]⟩
  · rename_i h1
    have ho : i.org ≠ "" := h.2.resolve_left h1
    rw [if_pos ho]
    exact ⟨(lower (unspace i.org)).toList ++ "_".toList, by simp [idPart, String.toList_append]⟩

theorem proper_acc {i : Ident} (h : Proper i) (c : String) :
    (∃ x, (aggAcc i c).name.toList = x ++ i.id.toList.take 8 ++ "_lineage".toList) ∧
    ∀ p, ∃ x, (shadowAcc p i c).name.toList = x ++ i.id.toList.take 8 ++ "_lineage".toList := by
  obtain ⟨x, hx⟩ := proper_tail h
  refine ⟨⟨"@".toList ++ x, by rw [agg_toList, hx]; simp⟩, fun p => ⟨("@" ++ p ++ "_").toList ++ x, by
    rw [shadow_toList, hx]; simp⟩⟩

/-- **C89** (partial) Named identities whose identifiers differ in the first eight characters
have no lineage account in common, whatever their names and providers. Missing: identities
whose identifiers begin alike (`c89_same_name_fails`, `c89_joined_fails`) and identities
without a name. -/
theorem c89_different_ids_partial (i j : Ident) (hi : Proper i) (hj : Proper j)
    (h : i.id.toList.take 8 ≠ j.id.toList.take 8) : Apart i j := by
  have key : ∀ a b : Acc, (∃ x, a.name.toList = x ++ i.id.toList.take 8 ++ "_lineage".toList) →
      (∃ x, b.name.toList = x ++ j.id.toList.take 8 ++ "_lineage".toList) → a ≠ b := by
    rintro a b ⟨x, hx⟩ ⟨y, hy⟩ rfl
    rw [hx, List.append_cancel_right_eq] at hy
    have h1 := congrArg tail8 hy
    rw [tail8_append (by rw [List.length_take]; have := hi.1; omega),
      tail8_append (by rw [List.length_take]; have := hj.1; omega)] at h1
    exact h h1
  intro c c'
  have hi' := proper_acc hi c
  have hj' := proper_acc hj c'
  exact ⟨key _ _ hi'.1 hj'.1, fun p q => key _ _ (hi'.2 p) (hj'.2 q), fun p => key _ _ (hi'.2 p) hj'.1,
    fun p => key _ _ hi'.1 (hj'.2 p)⟩

example : Proper { id := "idt_1a2b-0001", first := "Ada", last := "Byron" } ∧
    Proper { id := "idt_9f8e-0002", org := "Ada Byron" } ∧
    "idt_1a2b-0001".toList.take 8 ≠ "idt_9f8e-0002".toList.take 8 ∧
    (aggAcc { id := "idt_9f8e-0002", org := "Ada Byron" } "USD").name = "@ada_byron_idt_9f8e_lineage" := by
  refine ⟨⟨by decide, .inl ⟨by decide, by decide⟩⟩, ⟨by decide, .inr (by decide)⟩, by decide, by decide +kernel⟩

/-! ### Demonstration data -/

def ada : Ident := { id := "idt_1a2b-0001", first := "Ada", last := "Byron" }
def bob : Ident := { id := "idt_9f8e-0002", org := "Bob Trade" }
def a1 : TBal := { id := "bln_a", identity := ada.id }
def a2 : TBal := { id := "bln_a2", identity := ada.id }
def b1 : TBal := { id := "bln_b", identity := bob.id }
/-- Two customers, with one balance each. -/
def setup : List Ev := [.ident ada, .ident bob, .bal a1, .bal b1]
/-- A payment; the outside world may overdraw. -/
def pay (id src dst : String) (amt : Int) (p : String) : Main :=
  { id := id, ref := "r" ++ id, src := src, dst := dst, amount := amt, provider := p, overdraft := src == "world" }
/-- An undisturbed attempt at an item. -/
def go (k : Nat) : Ev := .work k {} []

/-! ### C84: the total account -/

/-- A row between a provider's account and the total account of one identity, in the
direction of its kind. -/
def RowOK (i : Ident) (c : String) (r : Row) : Prop :=
  (r.kind ≠ .release ∧ r.src = shadowAcc r.provider i c ∧ r.dst = aggAcc i c) ∨
  (r.kind = .release ∧ r.src = aggAcc i c ∧ r.dst = shadowAcc r.provider i c)

/-- The identities of a history: no two with the same identifier, so none is renamed, and no
two with a lineage account in common (C89). -/
structure Univ (U : List Ident) : Prop where
  oneId : ∀ i ∈ U, ∀ j ∈ U, i.id = j.id → i = j
  apart : ∀ i ∈ U, ∀ j ∈ U, i ≠ j → Apart i j

/-- What the clients do: they create identities of the list only, and pay in the currency of
the balance they pay into. -/
structure Known (U : List Ident) (es : List Ev) : Prop where
  idents : ∀ i, .ident i ∈ es → i ∈ U
  cur : ∀ m d, .record m ∈ es → .bal d ∈ es → d.id = m.dst → m.cur = d.cur

/-- Where a stored movement comes from. -/
def FromEv (es : List Ev) (m : Main) : Prop := ∃ m0, .record m0 ∈ es ∧ 0 < m.amount ∧ m.src ≠ m.dst ∧
  m.id = m0.id ∧ m.ref = m0.ref ∧ m.src = m0.src ∧ m.dst = m0.dst ∧ m.amount = m0.amount ∧ m.cur = m0.cur ∧
  m.provider = m0.provider ∧ m.held = m0.held

structure Book (U : List Ident) (es : List Ev) (s : Sys) : Prop where
  idents : ∀ i ∈ s.idents, i ∈ U
  bals : ∀ b ∈ s.bals, .bal b ∈ es
  uniq : (s.bals.map TBal.id).Nodup
  mains : ∀ m ∈ s.mains, FromEv es m
  rows : ∀ r ∈ s.rows, ∃ i ∈ U, ∃ c, RowOK i c r
  keys : (s.maps.map Mapping.key).Nodup
  maps : ∀ mp ∈ s.maps, ∃ b ∈ s.bals, b.id = mp.balance ∧ ∃ i ∈ U, i.id = b.identity ∧
    mp.shadow = shadowAcc mp.provider i b.cur ∧ mp.agg = aggAcc i b.cur

theorem nodup_inj {α β} {f : α → β} : ∀ {l : List α}, (l.map f).Nodup → ∀ {a b}, a ∈ l → b ∈ l → f a = f b → a = b
  | x :: xs, h, a, b, ha, hb, e => by
    rw [List.map_cons, List.nodup_cons] at h
    rcases List.mem_cons.1 ha with ea | ha' <;> rcases List.mem_cons.1 hb with eb | hb'
    · rw [ea, eb]
    · exact absurd (List.mem_map.2 ⟨b, hb', by rw [← e, ea]⟩) h.1
    · exact absurd (List.mem_map.2 ⟨a, ha', by rw [e, eb]⟩) h.1
    · exact nodup_inj h.2 ha' hb' e

theorem Book.push {U es s r} (h : Book U es s) {i c} (hi : i ∈ U) (hr : RowOK i c r) : Book U es (s.push r) := by
  refine { h with rows := ?_ }
  intro x hx
  rcases List.mem_append.1 hx with hx | hx
  · exact h.rows x hx
  · rw [List.mem_singleton.1 hx]; exact ⟨i, hi, c, hr⟩

theorem Book.map1 {U es s} (h : Book U es s) {m : Mapping} {b : TBal} (hb : b ∈ s.bals) (e : b.id = m.balance) {i}
    (hi : i ∈ U) (hid : i.id = b.identity) (hs : m.shadow = shadowAcc m.provider i b.cur) (ha : m.agg = aggAcc i b.cur) :
    Book U es (s.map1 m) := by
  refine { h with maps := ?_, keys := upsert_nodup h.keys }
  intro x hx
  rcases upsert_mem hx with hx | rfl | ⟨y, hy, e1, e2, rfl⟩
  · exact h.maps x hx
  · exact ⟨b, hb, e, i, hi, hid, hs, ha⟩
  · exact ⟨b, hb, e.trans e1.symm, i, hi, hid, by rw [hs, ← e2], ha⟩

theorem destOf_some {s : Sys} {g : Sight} {m : Main} {d : TBal} {i : Ident} (h : s.destOf g m = some (d, i)) :
    s.bal m.dst = some d ∧ d.tracks = true ∧ s.ident d.identity = some i := by
  revert h; unfold Sys.destOf
  split
  · cases hb : s.bal m.dst with
    | none => simp
    | some d' =>
      dsimp only
      split
      · rename_i ht
        cases hi : s.ident d'.identity with
        | none => simp
        | some i' =>
          simp only [Option.map_some, Option.some.injEq, Prod.mk.injEq]
          rintro ⟨rfl, rfl⟩
          simp only [Bool.and_eq_true] at ht
          exact ⟨rfl, ht.1, hi⟩
      · simp
  · simp

theorem book_process {U es} (hU : Univ U) (hk : Known U es) {g : Sight} {m : Main} (hm : FromEv es m) (w : W)
    (h : Book U es w.sys) : Book U es (processMain g m w).1.sys := by
  refine process_induct ?_ (fun w d p x => credit_bal m w d p x) ?_ w h
  · intro w d p h hd _ _ _
    obtain ⟨hdm, hde⟩ := bal_mem hd
    obtain ⟨m0, h0, hpos, hne, hid, href, hsrc, hdst, hamt, hcur, hprov, hheld⟩ := hm
    have hc : m.cur = d.cur := by rw [hcur]; exact hk.cur m0 d h0 (h.bals d hdm) (hde.trans hdst)
    refine (credit_induct (P := fun s => Book U es s ∧ d ∈ s.bals) ?_ ?_ w ⟨h, hdm⟩).1
    · intro s i hs hi _
      exact ⟨hs.1.push (hs.1.idents i (ident_mem hi).1) (c := m.cur) (.inl ⟨by simp [creditRow], rfl, rfl⟩), hs.2⟩
    · intro s i hs hi
      exact ⟨hs.1.map1 hs.2 rfl (hs.1.idents i (ident_mem hi).1) (ident_mem hi).2 (by rw [hc]) (by rw [hc]), hs.2⟩
  · intro w b h hb _
    obtain ⟨hbm, hbe⟩ := bal_mem hb
    refine debit_induct w h ?_
    intro w' hw i hi _
    refine (loop_induct (P := fun s => Book U es s ∧ s.bals = w.sys.bals ∧ s.idents = w.sys.idents) ?_ ?_ ?_ _ w'
      (by rw [hw]; exact ⟨h, rfl, rfl⟩)).1
    · intro s mp a hs hmp _
      obtain ⟨hmm, hmb, _⟩ := mapping_mem hmp
      obtain ⟨b', hb', e', i', hi', hid', hsh, _⟩ := hs.1.maps mp hmm
      have hbb : b' = b := nodup_inj hs.1.uniq hb' (by rw [hs.2.1]; exact hbm) (e'.trans hmb)
      subst hbb
      have hii : i' = i := hU.oneId i' hi' i (h.idents i (ident_mem hi).1) (hid'.trans (ident_mem hi).2.symm)
      subst hii
      exact ⟨hs.1.push hi' (c := b'.cur) (.inr ⟨rfl, rfl, hsh⟩), hs.2⟩
    · intro s d j p a hs hd _
      obtain ⟨h1, h2, h3⟩ := destOf_some hd
      exact ⟨hs.1.push (h.idents j (ident_mem h3).1) (c := d.cur) (.inl ⟨by simp [receiveRow], rfl, rfl⟩), hs.2⟩
    · intro s d j p hs hd
      obtain ⟨h1, h2, h3⟩ := destOf_some hd
      exact ⟨hs.1.map1 (by rw [hs.2.1]; exact (bal_mem h1).1) rfl (h.idents j (ident_mem h3).1) (ident_mem h3).2 rfl rfl, hs.2⟩

theorem book_settle {U es s} (h : Book U es s) (id to os) : Book U es (s.settle id to os).1 := by
  refine { h with rows := ?_ }
  intro r hr
  obtain ⟨x, hx, hx'⟩ := (settleRows_all2 id to s.rows os).mem_right r hr
  obtain ⟨i, hi, c, hc⟩ := h.rows x hx
  obtain ⟨_, e2, _, e4, e5, e6, _⟩ := hx'.same
  exact ⟨i, hi, c, by unfold RowOK; rw [e2, e4, e5, e6]; exact hc⟩

theorem book_set {U es s} (h : Book U es s) {m0 m : Main} (h0 : m0 ∈ s.mains)
    (e : m.id = m0.id ∧ m.ref = m0.ref ∧ m.src = m0.src ∧ m.dst = m0.dst ∧ m.amount = m0.amount ∧ m.cur = m0.cur ∧
      m.provider = m0.provider ∧ m.held = m0.held) : Book U es (s.setMain m) := by
  refine { h with mains := ?_ }
  intro x hx
  obtain ⟨y, hy, rfl⟩ := List.mem_map.1 hx
  split
  · obtain ⟨n, hn, a1, a2, a3, a4, a5, a6, a7, a8, a9, a10⟩ := h.mains m0 h0
    obtain ⟨e1, e2, e3, e4, e5, e6, e7, e8⟩ := e
    exact ⟨n, hn, by rw [e5]; exact a1, by rw [e3, e4]; exact a2, e1.trans a3, e2.trans a4, e3.trans a5, e4.trans a6,
      e5.trans a7, e6.trans a8, e7.trans a9, e8.trans a10⟩
  · exact h.mains y hy

theorem book_retry {U es s} (h : Book U es s) (wk o) : Book U es (s.retryItem wk o) := by
  unfold Sys.retryItem; split
  · split
    · exact h
    · exact { h with }
  · exact h

theorem book_attempt {U es} (hU : Univ U) (hk : Known U es) {s} (h : Book U es s) (g os wk) :
    Book U es (attempt g os wk s).1 := by
  unfold attempt
  cases wk with
  | main id =>
    dsimp only
    cases hm : s.main id with
    | none => exact h
    | some m => exact book_process hU hk (h.mains m (main_mem hm).1) ⟨s, os⟩ h
  | commit id => exact book_settle h id _ os
  | void id => exact book_settle h id _ os

theorem book_step {U es} (hU : Univ U) (hk : Known U es) {s} (h : Book U es s) {e} (he : e ∈ es) : Book U es (pstep s e) := by
  cases e with
  | ident i =>
    exact { h with idents := fun x hx => (putIdent_mem hx).elim (h.idents x) (fun e => e ▸ hk.idents i he) }
  | bal b =>
    simp only [pstep]; split
    · exact h
    · rename_i hb
      refine { h with bals := ?_, uniq := ?_, maps := ?_ }
      · intro x hx
        rcases List.mem_append.1 hx with hx | hx
        · exact h.bals x hx
        · rw [List.mem_singleton.1 hx]; exact he
      · rw [List.map_append, List.nodup_append]
        refine ⟨h.uniq, by simp, ?_⟩
        intro a ha c hc e
        obtain ⟨x, hx, rfl⟩ := List.mem_map.1 ha
        simp only [List.map_cons, List.map_nil, List.mem_singleton] at hc
        apply hb
        rw [Sys.bal, List.find?_isSome]
        exact ⟨x, hx, by simp [e, hc]⟩
      · intro mp hmp
        obtain ⟨b', hb', r⟩ := h.maps mp hmp
        exact ⟨b', List.mem_append_left _ hb', r⟩
  | record m =>
    simp only [pstep, Sys.record]; split
    · exact h
    · rename_i hc
      refine { h with mains := ?_ }
      intro x hx
      rcases List.mem_append.1 hx with hx | hx
      · exact h.mains x hx
      · rw [List.mem_singleton.1 hx]
        simp only [not_or] at hc
        exact ⟨m, he, by have := hc.1; dsimp only; omega, hc.2.1, rfl, rfl, rfl, rfl, rfl, rfl, rfl, rfl⟩
  | work k g os =>
    simp only [pstep]
    cases s.items[k]? with
    | none => exact h
    | some it =>
      dsimp only; split
      · exact h
      · exact { book_attempt hU hk h g os it.work with }
  | commit id amt os =>
    simp only [pstep, Sys.commit]
    cases hm : s.main id with
    | none => exact h
    | some m =>
      dsimp only
      split
      all_goals
        split
        · exact h
        · apply book_retry
          apply book_settle
          exact book_set h (main_mem hm).1 ⟨rfl, rfl, rfl, rfl, rfl, rfl, rfl, rfl⟩
  | void id os =>
    simp only [pstep, Sys.void]
    cases hm : s.main id with
    | none => exact h
    | some m =>
      dsimp only; split
      · exact h
      · apply book_retry
        apply book_settle
        exact book_set h (main_mem hm).1 ⟨rfl, rfl, rfl, rfl, rfl, rfl, rfl, rfl⟩

theorem book_steps {U es0} (hU : Univ U) (hk : Known U es0) : ∀ (es : List Ev) (s : Sys), (∀ e ∈ es, e ∈ es0) →
    Book U es0 s → Book U es0 (psteps s es)
  | [], _, _, h => h
  | e :: es, s, hs, h => book_steps hU hk es _ (fun x hx => hs x (by simp [hx])) (book_step hU hk h (hs e (by simp)))

theorem book_empty {U es} : Book U es {} :=
  ⟨by simp, by simp, by simp, by simp, by simp, by simp, by simp⟩

theorem reach_book {U es} (hU : Univ U) (hk : Known U es) : Book U es (psteps {} es) :=
  book_steps hU hk es {} (fun _ h => h) book_empty

theorem sum_single (p0 : String) (x : Int) : ∀ P : List String, P.Nodup → p0 ∈ P →
    (P.map fun p => if p = p0 then x else 0).sum = x
  | p :: ps, hn, hp => by
    rw [List.nodup_cons] at hn
    rw [List.map_cons, List.sum_cons]
    by_cases h : p = p0
    · subst h
      rw [if_pos rfl, map_zero ps _ (fun q hq => if_neg (fun (e : q = p) => hn.1 (e ▸ hq)))]; omega
    · rw [if_neg h, sum_single p0 x ps hn.2 ((List.mem_cons.1 hp).resolve_left (Ne.symm h))]; omega

theorem share_away {r : Row} {a : Acc} (h1 : r.src ≠ a) (h2 : r.dst ≠ a) : share r a = 0 := by
  simp [share, h1, h2]

/-- One row changes the total account by what it changes the providers' accounts. -/
theorem share_cancel {U} (hU : Univ U) {r : Row} {j i : Ident} {c' c : String} (hj : j ∈ U) (hi : i ∈ U)
    (hr : RowOK j c' r) (P : List String) (hn : P.Nodup) (hp : r.src = aggAcc i c ∨ r.dst = aggAcc i c → r.provider ∈ P) :
    share r (aggAcc i c) + (P.map fun p => share r (shadowAcc p i c)).sum = 0 := by
  by_cases hji : j = i ∧ c' = c
  · obtain ⟨rfl, rfl⟩ := hji
    rcases hr with ⟨_, hs, hd⟩ | ⟨_, hs, hd⟩
    · have h1 : (fun p => share r (shadowAcc p j c')) =
          fun p => if p = r.provider then (if r.settled then r.amount else 0) else 0 := by
        funext p
        unfold share
        rw [hs, hd]
        by_cases e : p = r.provider
        · subst e
          simp [(shadow_ne_agg r.provider j c' c').symm]
        · have : shadowAcc r.provider j c' ≠ shadowAcc p j c' := fun h => e (shadow_inj h).1.symm
          simp [this, (shadow_ne_agg p j c' c').symm, e]
      rw [h1, sum_single _ _ _ hn (hp (.inr hd)), share, hs, hd]
      simp [shadow_ne_agg r.provider j c' c']
      cases r.settled <;> simp <;> omega
    · have h1 : (fun p => share r (shadowAcc p j c')) =
          fun p => if p = r.provider then -(if r.settled then r.amount else 0) else 0 := by
        funext p
        unfold share
        rw [hs, hd]
        by_cases e : p = r.provider
        · subst e
          simp [(shadow_ne_agg r.provider j c' c').symm]
        · have : shadowAcc r.provider j c' ≠ shadowAcc p j c' := fun h => e (shadow_inj h).1.symm
          simp [this, (shadow_ne_agg p j c' c').symm, e]
      rw [h1, sum_single _ _ _ hn (hp (.inl hs)), share, hs, hd]
      simp [shadow_ne_agg r.provider j c' c']
      cases r.settled <;> simp <;> omega
  · have key : ∀ p, shadowAcc r.provider j c' ≠ shadowAcc p i c ∧ aggAcc j c' ≠ shadowAcc p i c ∧
        shadowAcc r.provider j c' ≠ aggAcc i c ∧ aggAcc j c' ≠ aggAcc i c := by
      intro p
      by_cases e : j = i
      · subst e
        have hc : c' ≠ c := fun h => hji ⟨rfl, h⟩
        exact ⟨fun h => hc (congrArg Acc.cur h), fun h => hc (congrArg Acc.cur h), fun h => hc (congrArg Acc.cur h),
          fun h => hc (congrArg Acc.cur h)⟩
      · have := hU.apart j hj i hi e c' c
        exact ⟨this.2.1 _ _, this.2.2.2 _, this.2.2.1 _, this.1⟩
    rw [map_zero P _ fun p _ => ?_, share_away]
    · rfl
    · rcases hr with ⟨_, hs, hd⟩ | ⟨_, hs, hd⟩
      · rw [hs]; exact (key r.provider).2.2.1
      · rw [hs]; exact (key r.provider).2.2.2
    · rcases hr with ⟨_, hs, hd⟩ | ⟨_, hs, hd⟩
      · rw [hd]; exact (key r.provider).2.2.2
      · rw [hd]; exact (key r.provider).2.2.1
    · rcases hr with ⟨_, hs, hd⟩ | ⟨_, hs, hd⟩
      · exact share_away (by rw [hs]; exact (key p).1) (by rw [hd]; exact (key p).2.1)
      · exact share_away (by rw [hs]; exact (key p).2.1) (by rw [hd]; exact (key p).1)

theorem agg_sum {U es s} (hU : Univ U) (h : Book U es s) (i : Ident) (hi : i ∈ U) (c : String) (P : List String) (hn : P.Nodup)
    (hp : ∀ r ∈ s.rows, r.src = aggAcc i c ∨ r.dst = aggAcc i c → r.provider ∈ P) :
    credit s.rows (aggAcc i c) - debit s.rows (aggAcc i c) = (P.map fun p => avail s.rows (shadowAcc p i c)).sum := by
  have h1 : (s.rows.map fun r => share r (aggAcc i c) + (P.map fun p => share r (shadowAcc p i c)).sum).sum = 0 := by
    refine map_zero _ _ fun r hr => ?_
    obtain ⟨j, hj, c', hc⟩ := h.rows r hr
    exact share_cancel hU hj hi hc P hn (hp r hr)
  have h2 : ∀ (l : List Row) (f g : Row → Int), (l.map fun r => f r + g r).sum = (l.map f).sum + (l.map g).sum := by
    intro l f g
    induction l with
    | nil => rfl
    | cons x xs ih => simp only [List.map_cons, List.sum_cons, ih]; omega
  rw [h2, ← avail_eq, sum_swap] at h1
  have h3 : (P.map fun p => avail s.rows (shadowAcc p i c)) = P.map fun p => (s.rows.map fun r => share r (shadowAcc p i c)).sum :=
    List.map_congr_left fun p _ => avail_eq _ _
  rw [h3]
  simp only [avail] at h1
  omega

/-- **C84** in full: the total a balance reports with lineage is what its identity's total
account holds. -/
def C84Full : Prop := ∀ es b, ∀ mp ∈ (psteps {} es).mapsOf b,
  (psteps {} es).total b = credit (psteps {} es).rows mp.agg - debit (psteps {} es).rows mp.agg

/-- One customer with two balances that received money from different providers. -/
def twoBalances : List Ev := setup ++ [.bal a2, .record (pay "1" "world" "bln_a" 100 "P"), go 0,
  .record (pay "2" "world" "bln_a2" 30 "Q"), go 1]

/-- **C84** (violated) The total account belongs to the identity, not to the balance: both
balances show it, and neither reports its amount. -/
theorem c84_two_balances_fails : ¬ C84Full := fun h =>
  absurd (h twoBalances "bln_a" ⟨"bln_a", "P", shadowAcc "P" ada "USD", aggAcc ada "USD", 0⟩ (by decide +kernel)) (by decide +kernel)

/-- The answer to one statement is lost: the mapping of the second provider is not written,
and the item is done all the same (`lineage_credit.go:56-60`). -/
def lostMapping : List Ev := setup ++ [.record (pay "1" "world" "bln_a" 100 "P"), go 0,
  .record (pay "2" "world" "bln_a" 30 "Q"), .work 1 {} [.ok, .ok, .ok, .err]]

/-- **C84** (violated) A mapping that could not be written is never written: its provider is
missing from the report for good. -/
theorem c84_lost_mapping_fails : ¬ C84Full ∧ (psteps {} lostMapping).items = [⟨.main "1", 0, true, false⟩, ⟨.main "2", 0, true, false⟩] ∧
    (psteps {} lostMapping).report "bln_a" = [⟨"P", 100, 100, 0⟩] := by
  refine ⟨fun h => ?_, by decide +kernel, by decide +kernel⟩
  exact absurd (h lostMapping "bln_a" ⟨"bln_a", "P", shadowAcc "P" ada "USD", aggAcc ada "USD", 0⟩ (by decide +kernel)) (by decide +kernel)

/-- **C84** (partial) When no identity is renamed or shares its accounts, and payments are in
the currency of the balance they go to, an identity's total account holds exactly what the
accounts of all its providers hold together. This holds at every moment, whatever fails and
in whatever order the items are worked on. Missing from the full statement: the report,
which leaves providers out. -/
theorem c84_accounts_partial {U es} (hU : Univ U) (hk : Known U es) (i : Ident) (hi : i ∈ U) (c : String)
    (P : List String) (hn : P.Nodup)
    (hp : ∀ r ∈ (psteps {} es).rows, r.src = aggAcc i c ∨ r.dst = aggAcc i c → r.provider ∈ P) :
    credit (psteps {} es).rows (aggAcc i c) - debit (psteps {} es).rows (aggAcc i c) =
      (P.map fun p => avail (psteps {} es).rows (shadowAcc p i c)).sum :=
  agg_sum hU (reach_book hU hk) i hi c P hn hp

/-- The account on the side of the identity. -/
def Row.whole (r : Row) : Acc := if r.kind = .release then r.src else r.dst

/-- Every row is of a provider that is mapped. -/
def Covered (s : Sys) : Prop := ∀ r ∈ s.rows, ∃ mp ∈ s.maps, mp.provider = r.provider ∧ mp.agg = r.whole

theorem covered_map1 {U es s} (hU : Univ U) (h : Book U es s) (hc : Covered s) {m : Mapping} {b : TBal} (hb : b ∈ s.bals)
    (e : b.id = m.balance) {i} (hi : i ∈ U) (hid : i.id = b.identity) (ha : m.agg = aggAcc i b.cur) : Covered (s.map1 m) := by
  intro r hr
  obtain ⟨mp, hmp, h1, h2⟩ := hc r hr
  by_cases hkey : mp.key = m.key
  · obtain ⟨x, hx, e1, e2, _, e4⟩ := upsert_has m s.maps
    injection hkey with k1 k2
    obtain ⟨b', hb', e', i', hi', hid', _, ha'⟩ := h.maps mp hmp
    have hbb : b' = b := nodup_inj h.uniq hb' hb (e'.trans (k1.trans e.symm))
    subst hbb
    have hii : i' = i := hU.oneId i' hi' i hi (hid'.trans hid.symm)
    subst hii
    exact ⟨x, hx, by rw [e2, ← k2]; exact h1, by rw [e4, ha, ← ha']; exact h2⟩
  · exact ⟨mp, upsert_keep hmp hkey, h1, h2⟩

/-- A row and its mapping. -/
theorem covered_both {U es s} (hU : Univ U) (h : Book U es s) (hc : Covered s) {m : Mapping} {b : TBal} (hb : b ∈ s.bals)
    (e : b.id = m.balance) {i} (hi : i ∈ U) (hid : i.id = b.identity) (ha : m.agg = aggAcc i b.cur)
    {r : Row} (hp : r.provider = m.provider) (hw : r.whole = m.agg) :
    Covered ((s.push r).map1 m) := by
  intro x hx
  rcases List.mem_append.1 hx with hx | hx
  · exact covered_map1 hU h hc hb e hi hid ha x hx
  · rw [List.mem_singleton.1 hx]
    obtain ⟨y, hy, _, e2, _, e4⟩ := upsert_has m s.maps
    exact ⟨y, hy, e2.trans hp.symm, e4.trans hw.symm⟩

/-- Nothing fails while items are worked on. -/
def Calm (es : List Ev) : Prop := ∀ k g os, .work k g os ∈ es → os = []

theorem covered_process {U es} (hU : Univ U) (hk : Known U es) {g : Sight} {m : Main} (hm : FromEv es m) (s : Sys)
    (h : Book U es s) (hc : Covered s) : Covered (processMain g m ⟨s, []⟩).1.sys := by
  have key : Book U es (processMain g m ⟨s, []⟩).1.sys ∧ Covered (processMain g m ⟨s, []⟩).1.sys := by
    refine process_calm_induct (P := fun s => Book U es s ∧ Covered s) ?_ ?_ s ⟨h, hc⟩
    · intro s d p h hd _ _ _
      obtain ⟨hdm, hde⟩ := bal_mem hd
      obtain ⟨m0, h0, hpos, hne, hid, href, hsrc, hdst, hamt, hcur, hprov, hheld⟩ := hm
      have hc : m.cur = d.cur := by rw [hcur]; exact hk.cur m0 d h0 (h.1.bals d hdm) (hde.trans hdst)
      rw [credit_calm]
      cases hi : s.ident d.identity with
      | none => exact h
      | some i =>
        dsimp only
        split
        · exact h
        · have hiU := h.1.idents i (ident_mem hi).1
          have hok : RowOK i d.cur (creditRow i m p) := .inl ⟨by simp [creditRow], by simp [creditRow, hc], by simp [creditRow, hc]⟩
          exact ⟨(h.1.push hiU hok).map1 hdm rfl hiU (ident_mem hi).2 (by rw [hc]) (by rw [hc]),
            covered_both hU h.1 h.2 hdm rfl hiU (ident_mem hi).2 (by rw [hc]) rfl (by simp [Row.whole, creditRow])⟩
    · intro s b h hb _
      obtain ⟨hbm, hbe⟩ := bal_mem hb
      rw [debit_calm]
      split
      · exact h
      · split
        · exact h
        · cases hi : s.ident b.identity with
          | none => exact h
          | some i =>
            dsimp only
            have h0 := h
            have := loop_calm_induct (m := m) (b := b) (agg := aggAcc i b.cur) (dest := s.destOf g m)
              (P := fun x => (Book U es x ∧ Covered x) ∧ x.bals = s.bals) ?_ ?_
              (calculate b.strategy (live (s.sources b.id)) (s.remaining m b.id)) s ⟨h, rfl⟩
            · exact this.1
            · intro x mp a hx hmp
              obtain ⟨hmm, hmb, _⟩ := mapping_mem hmp
              obtain ⟨b', hb', e', i', hi', hid', hsh, hag⟩ := hx.1.1.maps mp hmm
              have hbb : b' = b := nodup_inj hx.1.1.uniq hb' (by rw [hx.2]; exact hbm) (e'.trans hmb)
              subst hbb
              have hii : i' = i := hU.oneId i' hi' i (h0.1.idents i (ident_mem hi).1) (hid'.trans (ident_mem hi).2.symm)
              subst hii
              refine ⟨⟨hx.1.1.push hi' (c := b'.cur) (.inr ⟨rfl, rfl, hsh⟩), ?_⟩, hx.2⟩
              intro r hr
              rcases List.mem_append.1 hr with hr | hr
              · exact hx.1.2 r hr
              · rw [List.mem_singleton.1 hr]
                exact ⟨mp, hmm, rfl, by simp [Row.whole, releaseRow, hag]⟩
            · intro x d j p a hx hd
              obtain ⟨h1, h2, h3⟩ := destOf_some hd
              have hdm : d ∈ x.bals := by rw [hx.2]; exact (bal_mem h1).1
              have hjU := h0.1.idents j (ident_mem h3).1
              have hok : RowOK j d.cur (receiveRow d j m p a) := .inl ⟨by simp [receiveRow], rfl, rfl⟩
              exact ⟨⟨(hx.1.1.push hjU hok).map1 hdm rfl hjU (ident_mem h3).2 rfl rfl,
                covered_both hU hx.1.1 hx.1.2 hdm rfl hjU (ident_mem h3).2 rfl rfl (by simp [Row.whole, receiveRow])⟩, hx.2⟩
  exact key.2

theorem covered_settle {s} (h : Covered s) (id to os) : Covered (s.settle id to os).1 := by
  intro r hr
  obtain ⟨x, hx, hx'⟩ := (settleRows_all2 id to s.rows os).mem_right r hr
  obtain ⟨mp, hmp, h1, h2⟩ := h x hx
  obtain ⟨_, e2, _, e4, e5, e6, _⟩ := hx'.same
  exact ⟨mp, hmp, by rw [e4]; exact h1, by unfold Row.whole; rw [e2, e5, e6]; exact h2⟩

theorem covered_retry {s} (h : Covered s) (wk o) : Covered (s.retryItem wk o) := by
  unfold Sys.retryItem; split
  · split
    · exact h
    · exact h
  · exact h

theorem covered_step {U es} (hU : Univ U) (hk : Known U es) (hq : Calm es) {s} (h : Book U es s) (hc : Covered s) {e}
    (he : e ∈ es) : Covered (pstep s e) := by
  cases e with
  | ident i => exact hc
  | bal b => simp only [pstep]; split <;> exact hc
  | record m => simp only [pstep, Sys.record]; split <;> exact hc
  | work k g os =>
    simp only [pstep]
    cases s.items[k]? with
    | none => exact hc
    | some it =>
      dsimp only; split
      · exact hc
      · have hos := hq k g os he
        subst hos
        show Covered (attempt g [] it.work s).1
        unfold attempt
        cases it.work with
        | main id =>
          dsimp only
          cases hm : s.main id with
          | none => exact hc
          | some m => exact covered_process hU hk (h.mains m (main_mem hm).1) s h hc
        | commit id => exact covered_settle hc _ _ _
        | void id => exact covered_settle hc _ _ _
  | commit id amt os =>
    simp only [pstep, Sys.commit]
    cases s.main id with
    | none => exact hc
    | some m =>
      dsimp only
      split
      all_goals
        split
        · exact hc
        · apply covered_retry
          apply covered_settle
          exact hc
  | void id os =>
    simp only [pstep, Sys.void]
    cases s.main id with
    | none => exact hc
    | some m =>
      dsimp only
      split
      · exact hc
      · apply covered_retry
        apply covered_settle
        exact hc

theorem covered_steps {U es0} (hU : Univ U) (hk : Known U es0) (hq : Calm es0) : ∀ (es : List Ev) (s : Sys),
    (∀ e ∈ es, e ∈ es0) → Book U es0 s → Covered s → Covered (psteps s es)
  | [], _, _, _, h => h
  | e :: es, s, hs, hb, h => covered_steps hU hk hq es _ (fun x hx => hs x (by simp [hx])) (book_step hU hk hb (hs e (by simp)))
      (covered_step hU hk hq hb h (hs e (by simp)))

/-- No other balance of the same currency belongs to the identity. -/
def Sole (es : List Ev) (b : TBal) : Prop :=
  ∀ d, .bal d ∈ es → d.identity = b.identity → d.cur = b.cur → d.id = b.id

theorem total_eq {U es s} (hU : Univ U) (h : Book U es s) (hc : Covered s) {b : TBal} (hb : b ∈ s.bals) (hs : Sole es b)
    {i : Ident} (hi : i ∈ U) (hid : i.id = b.identity) :
    s.total b.id = credit s.rows (aggAcc i b.cur) - debit s.rows (aggAcc i b.cur) := by
  have hm : ∀ mp ∈ s.mapsOf b.id, mp.shadow = shadowAcc mp.provider i b.cur := by
    intro mp hmp
    have h1 := List.mem_filter.1 hmp
    obtain ⟨b', hb', e', i', hi', hid', hsh, _⟩ := h.maps mp h1.1
    have hbb : b' = b := nodup_inj h.uniq hb' hb (e'.trans (by simpa using h1.2))
    subst hbb
    have hii : i' = i := hU.oneId i' hi' i hi (hid'.trans hid.symm)
    subst hii
    exact hsh
  have h1 : s.total b.id = (((s.mapsOf b.id).map Mapping.provider).map fun p => avail s.rows (shadowAcc p i b.cur)).sum := by
    unfold Sys.total Sys.report
    rw [List.map_map, List.map_map]
    congr 1
    refine List.map_congr_left fun mp hmp => ?_
    simp only [Function.comp]
    rw [hm mp hmp]
  rw [h1, ← agg_sum hU h i hi b.cur _ (mapsOf_nodup h.keys b.id)]
  intro r hr hw
  obtain ⟨j, hj, c, hok⟩ := h.rows r hr
  obtain ⟨mp, hmp, e1, e2⟩ := hc r hr
  obtain ⟨b', hb', e', i', hi', hid', _, ha'⟩ := h.maps mp hmp
  have hw2 : r.whole = aggAcc i b.cur := by
    unfold Row.whole
    rcases hok with ⟨hkd, hs', hd'⟩ | ⟨hkd, hs', hd'⟩
    · rw [if_neg hkd]
      rcases hw with hw | hw
      · exfalso
        rw [hs'] at hw
        by_cases e : j = i
        · subst e; exact shadow_ne_agg _ _ _ _ hw
        · exact (hU.apart j hj i hi e c b.cur).2.2.1 _ hw
      · exact hw
    · rw [if_pos hkd]
      rcases hw with hw | hw
      · exact hw
      · exfalso
        rw [hd'] at hw
        by_cases e : j = i
        · subst e; exact shadow_ne_agg _ _ _ _ hw
        · exact (hU.apart j hj i hi e c b.cur).2.2.1 _ hw
  have hag : aggAcc i' b'.cur = aggAcc i b.cur := by rw [← ha', e2, hw2]
  have hii : i' = i := by
    apply Classical.byContradiction
    intro hne
    exact (hU.apart i' hi' i hi hne b'.cur b.cur).1 hag
  subst hii
  have hbb : b' = b := nodup_inj h.uniq hb' hb (hs b' (h.bals b' hb') (hid'.symm.trans hid) (congrArg Acc.cur hag))
  subst hbb
  rw [← e1]
  exact List.mem_map.2 ⟨mp, List.mem_filter.2 ⟨hmp, by simp [e']⟩, rfl⟩

/-- **C84** (partial) If moreover nothing fails while items are worked on, and the balance is
the only one of its identity in its currency, its report adds up to the total account.
Missing from the full statement: several balances of one identity, failing writes, renamed
identities. -/
theorem c84_report_partial {U es} (hU : Univ U) (hk : Known U es) (hq : Calm es) (b : TBal) (hb : b ∈ (psteps {} es).bals)
    (hs : Sole es b) (mp : Mapping) (hmp : mp ∈ (psteps {} es).mapsOf b.id) :
    (psteps {} es).total b.id = credit (psteps {} es).rows mp.agg - debit (psteps {} es).rows mp.agg := by
  have h := reach_book hU hk
  have hc := covered_steps hU hk hq es {} (fun _ h => h) book_empty (by intro r hr; simp at hr)
  have h1 := List.mem_filter.1 hmp
  obtain ⟨b', hb', e', i', hi', hid', _, ha⟩ := h.maps mp h1.1
  have hbb : b' = b := nodup_inj h.uniq hb' hb (e'.trans (by simpa using h1.2))
  subst hbb
  rw [ha]
  exact total_eq hU h hc hb hs hi' hid'

/-- Money of two providers, a payment to another customer, a hold and its release. -/
def ordinary : List Ev := setup ++ [.record (pay "1" "world" "bln_a" 100 "P"), go 0, .record (pay "2" "world" "bln_a" 50 "Q"), go 1,
  .record (pay "3" "bln_a" "bln_b" 120 ""), go 2, .record { pay "4" "world" "bln_b" 10 "R" with held := true }, go 3,
  .commit "4" 0 []]

theorem demo_univ : Univ [ada, bob] := by
  have hp : Proper ada ∧ Proper bob := ⟨⟨by decide, .inl ⟨by decide, by decide⟩⟩, ⟨by decide, .inr (by decide)⟩⟩
  have hab : Apart ada bob := c89_different_ids_partial _ _ hp.1 hp.2 (by decide)
  have hba : Apart bob ada := c89_different_ids_partial _ _ hp.2 hp.1 (by decide)
  constructor
  · decide
  · intro i hi j hj hne
    simp only [List.mem_cons, List.not_mem_nil, or_false] at hi hj
    rcases hi with rfl | rfl <;> rcases hj with rfl | rfl
    · exact absurd rfl hne
    · exact hab
    · exact hba
    · exact absurd rfl hne

theorem demo_known {es : List Ev} (h : ∀ e ∈ es, match e with
    | .ident i => i = ada ∨ i = bob
    | .bal b => b.cur = "USD"
    | .record m => m.cur = "USD"
    | _ => True) : Known [ada, bob] es where
  idents i hi := by simpa using h _ hi
  cur m d hm hd _ := (h _ hm).trans (h _ hd).symm

example : Known [ada, bob] ordinary ∧ Calm ordinary ∧ Sole ordinary a1 ∧ b1 ∈ (psteps {} ordinary).bals ∧
    (psteps {} ordinary).report "bln_a" = [⟨"P", 100, 0, 100⟩, ⟨"Q", 50, 30, 20⟩] ∧
    (psteps {} ordinary).report "bln_b" = [⟨"P", 100, 100, 0⟩, ⟨"Q", 20, 20, 0⟩, ⟨"R", 10, 10, 0⟩] ∧
    credit (psteps {} ordinary).rows (aggAcc bob "USD") = 130 := by
  refine ⟨demo_known ?_, ?_, ?_, by decide +kernel, by decide +kernel, by decide +kernel, by decide +kernel⟩
  · intro e he
    simp only [ordinary, setup, List.cons_append, List.nil_append, List.mem_cons, List.not_mem_nil, or_false] at he
    rcases he with rfl | rfl | rfl | rfl | rfl | rfl | rfl | rfl | rfl | rfl | rfl | rfl | rfl <;> simp [pay, go, a1, b1]
  · intro k g os h
    simp [ordinary, setup, go] at h
    rcases h with h | h | h | h <;> exact h.2.2
  · intro d hd
    simp [ordinary, setup, go] at hd
    rcases hd with rfl | rfl
    · intros; rfl
    · intro h; exact absurd h (by decide)

end Blnk.Prov
