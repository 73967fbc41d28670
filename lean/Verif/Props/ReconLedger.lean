import Verif.Model.ReconLedger
import Verif.Props.Recon
import Verif.Props.ReconGroup
import Verif.Props.Queue
import Verif.Props.Amounts
/-
C198: a reconciliation sees every transaction that was there when it began.
C199: a record is matched with money that moved.
-/
namespace Blnk.Recon

/-! ### C198 -/

section
variable {α : Type}

/-- A pass has seen what was there when it began, each row once, and nothing that was not recorded. -/
structure Complete [DecidableEq α] (stored : List α) (p : Pass α) : Prop where
  once : ∀ r ∈ p.began, p.seen.count r = 1
  known : ∀ r ∈ p.seen, r ∈ stored

/-- **C198 as stated**: whatever is recorded meanwhile, whatever other reconciliations read before or at
the same time, and whichever pages expire. -/
def C198Full : Prop := ∀ (grouped : Bool) (size : Nat) (le : Rec → Rec → Prop) (s : Hall Rec) (es : List (HallEv Rec)), 0 < size →
  s.kept = [] → s.passes = [] → (hallRun grouped size s es).stored.Nodup → Honest grouped size le s es →
  ∀ p ∈ (hallRun grouped size s es).passes, p.done = true → Complete (hallRun grouped size s es).stored p

/-- Recorded in the order of the listing: every row after all that are there. -/
def InTurn (lt : α → α → Prop) (grouped : Bool) (size : Nat) : Hall α → List (HallEv α) → Prop
  | _, [] => True
  | s, e :: es => (∀ r, e = .post r → ∀ q ∈ s.stored, lt q r) ∧ InTurn lt grouped size (hallStep grouped size s e) es

theorem ordered_unique {lt le : α → α → Prop} (hlt : ∀ a b, lt a b → ¬ le b a) {rows l : List α} (hs : rows.Pairwise lt)
    (hl : Ordered le rows l) : l = rows := by
  obtain ⟨hp, ho⟩ := hl
  induction rows generalizing l with
  | nil => exact hp.eq_nil
  | cons r rows ih =>
    cases l with
    | nil => exact absurd hp.symm.eq_nil (by simp)
    | cons a l =>
      have hr := List.pairwise_cons.1 hs
      have ha := List.pairwise_cons.1 ho
      have e : a = r := by
        rcases List.mem_cons.1 (hp.subset (List.mem_cons_self (a := a) (l := l))) with e | h1
        · exact e
        · rcases List.mem_cons.1 (hp.symm.subset (List.mem_cons_self (a := r) (l := rows))) with e | h2
          · exact e.symm
          · exact absurd (ha.1 r h2) (hlt r a (hr.1 a h1))
      subst e
      rw [ih hr.2 (List.perm_cons _ |>.1 hp) ha.2]

theorem keptAt_mem {kept : List (Nat × List α)} {off : Nat} (h : keptAt kept off ≠ []) : (off, keptAt kept off) ∈ kept := by
  unfold keptAt at h ⊢
  cases hf : kept.find? (fun e => e.1 = off) with
  | none => rw [hf] at h; exact absurd rfl h
  | some e =>
    have h1 := List.find?_some hf
    have h2 := List.mem_of_find?_eq_some hf
    simp only [decide_eq_true_eq] at h1
    obtain ⟨a, b⟩ := e
    simp only at h1
    subst h1
    exact h2

/-- What a page holds is kept, or comes from the answer. -/
theorem fetch_spec {size : Nat} {kept : List (Nat × List α)} {answer : List α} {off : Nat} :
    ((off, (fetch size kept answer off).1) ∈ kept ∧ (fetch size kept answer off).1 ≠ [] ∧ (fetch size kept answer off).2 = kept) ∨
    ((fetch size kept answer off).1 = Paging.page answer size off ∧
      ∀ e ∈ (fetch size kept answer off).2, e ∈ kept ∨ e = (off, Paging.page answer size off) ∧ e.2 ≠ []) := by
  unfold fetch
  split
  · rename_i h
    have h' : keptAt kept off ≠ [] := by simpa [List.isEmpty_iff] using h
    exact .inl ⟨keptAt_mem h', h', rfl⟩
  · split
    · rename_i h
      exact .inr ⟨(List.isEmpty_iff.1 h).symm, fun e he => .inl he⟩
    · rename_i h
      refine .inr ⟨rfl, fun e he => ?_⟩
      rcases List.mem_cons.1 he with rfl | he
      · exact .inr ⟨rfl, fun h' => h (List.isEmpty_iff.2 h')⟩
      · exact .inl he

/-- What is kept of rows recorded in turn is a stretch of them. -/
structure TurnInv (lt : α → α → Prop) (s : Hall α) : Prop where
  sorted : s.stored.Pairwise lt
  kept : ∀ e ∈ s.kept, e.2 <+: s.stored.drop e.1
  passes : ∀ p ∈ s.passes, p.began <+: s.stored ∧ p.off ≤ s.stored.length ∧ p.seen = s.stored.take p.off ∧
    (p.done = true → p.began.length ≤ p.off)

theorem page_prefix (l : List α) (size off : Nat) : Paging.page l size off <+: l.drop off := List.take_prefix _ _

theorem take_prefix_drop {l pg : List α} {off : Nat} (ho : off ≤ l.length) (h : pg <+: l.drop off) :
    off + pg.length ≤ l.length ∧ l.take off ++ pg = l.take (off + pg.length) := by
  obtain ⟨t, ht⟩ := h
  have hlen : (pg ++ t).length = (l.drop off).length := by rw [ht]
  simp only [List.length_append, List.length_drop] at hlen
  refine ⟨by omega, ?_⟩
  have h1 : l = l.take off ++ (pg ++ t) := by rw [ht, List.take_append_drop]
  have h2 : (l.take off).length = off := by simp; omega
  have h3 : l.take off ++ pg <+: l := ⟨t, by rw [List.append_assoc]; exact h1.symm⟩
  have h4 := List.prefix_iff_eq_take.1 h3
  rw [List.length_append, h2] at h4
  exact h4

theorem turnInv_step {lt le : α → α → Prop} (hlt : ∀ a b, lt a b → ¬ le b a) {size : Nat} (hs : 0 < size) {s : Hall α} {e : HallEv α}
    (hi : TurnInv lt s) (ha : ∀ n answer, e = .page n answer → Ordered le s.stored answer)
    (ht : ∀ r, e = .post r → ∀ q ∈ s.stored, lt q r) : TurnInv lt (hallStep false size s e) := by
  cases e with
  | post r =>
    simp only [hallStep]
    refine ⟨List.pairwise_append.2 ⟨hi.sorted, by simp, ?_⟩, ?_, ?_⟩
    · intro a ha b hb
      rw [List.mem_singleton.1 hb]
      exact ht r rfl a ha
    · intro e he
      refine (hi.kept e he).trans ?_
      show List.drop e.1 s.stored <+: List.drop e.1 (s.stored ++ [r])
      rw [List.drop_append]
      exact List.prefix_append _ _
    · intro p hp
      obtain ⟨h1, h2, h3, h4⟩ := hi.passes p hp
      refine ⟨h1.trans (List.prefix_append _ _), by simp; omega, ?_, h4⟩
      rw [h3, List.take_append_of_le_length h2]
  | start =>
    simp only [hallStep]
    refine ⟨hi.sorted, hi.kept, ?_⟩
    intro p hp
    rcases List.mem_append.1 hp with hp | hp
    · exact hi.passes p hp
    · rw [List.mem_singleton.1 hp]
      exact ⟨List.prefix_rfl, by simp, by simp, by simp⟩
  | expire off =>
    simp only [hallStep]
    exact ⟨hi.sorted, fun e he => hi.kept e (List.mem_filter.1 he).1, hi.passes⟩
  | page n answer =>
    have hl : answer = s.stored := ordered_unique hlt hi.sorted (ha n answer rfl)
    subst hl
    simp only [hallStep]
    cases hp : s.passes[n]? with
    | none => exact hi
    | some p =>
      simp only
      split
      · exact hi
      · obtain ⟨h1, h2, h3, h4⟩ := hi.passes p (List.mem_of_getElem? hp)
        have hpre : (fetch size s.kept s.stored p.off).1 <+: s.stored.drop p.off := by
          rcases fetch_spec (size := size) (kept := s.kept) (answer := s.stored) (off := p.off) with h | h
          · exact hi.kept _ h.1
          · rw [h.1]; exact page_prefix _ _ _
        refine ⟨hi.sorted, ?_, ?_⟩
        · intro e he
          rcases fetch_spec (size := size) (kept := s.kept) (answer := s.stored) (off := p.off) with h | h
          · rw [h.2.2] at he; exact hi.kept e he
          · rcases h.2 e he with h | h
            · exact hi.kept e h
            · rw [h.1]; exact page_prefix _ _ _
        · intro p' hp'
          rcases List.mem_or_eq_of_mem_set hp' with hp' | rfl
          · exact hi.passes p' hp'
          · unfold Pass.next
            split
            · rename_i hemp
              refine ⟨h1, h2, h3, fun _ => ?_⟩
              have hemp' := List.isEmpty_iff.1 hemp
              rcases fetch_spec (size := size) (kept := s.kept) (answer := s.stored) (off := p.off) with h | h
              · exact absurd hemp' h.2.1
              · rw [h.1] at hemp'
                have := Paging.page_nil hs hemp'
                have hlen := congrArg List.length this
                simp only [List.length_drop, List.length_nil] at hlen
                have := h1.length_le
                show p.began.length ≤ p.off
                omega
            · obtain ⟨g1, g2⟩ := take_prefix_drop h2 hpre
              refine ⟨h1, ?_, ?_, fun hd => ?_⟩
              · simpa [stride] using g1
              · simp only [stride, Bool.false_eq_true, if_false]
                rw [h3, g2]
              · have := h4 hd
                simp only
                omega

theorem turnInv_run {lt le : α → α → Prop} (hlt : ∀ a b, lt a b → ¬ le b a) {size : Nat} (hs : 0 < size) :
    ∀ {es : List (HallEv α)} {s : Hall α}, TurnInv lt s → Honest false size le s es → InTurn lt false size s es →
      TurnInv lt (hallRun false size s es)
  | [], _, hi, _, _ => hi
  | e :: es, s, hi, ha, ht => turnInv_run (es := es) (s := hallStep false size s e) hlt hs (turnInv_step hlt hs hi ha.1 ht.1) ha.2 ht.2

/-- **C198 for `many_to_one`, if transactions are recorded in the order of their times**: a finished pass
has seen what was there when it began and what came until it ended, each once and in order, whatever
pages of whichever age it was given. -/
theorem c198_in_turn_partial [DecidableEq α] {lt le : α → α → Prop} (hlt : ∀ a b, lt a b → ¬ le b a) (hirr : ∀ a, ¬ lt a a) {size : Nat} (hs : 0 < size)
    {s : Hall α} {es : List (HallEv α)} (h0 : s.stored.Pairwise lt) (hk : s.kept = []) (hp : s.passes = []) (ha : Honest false size le s es)
    (ht : InTurn lt false size s es) {p : Pass α} (hm : p ∈ (hallRun false size s es).passes) (hd : p.done = true) :
    Complete (hallRun false size s es).stored p ∧ p.began <+: p.seen ∧ p.seen <+: (hallRun false size s es).stored := by
  have hi : TurnInv lt (hallRun false size s es) := turnInv_run hlt hs ⟨h0, by simp [hk], by simp [hp]⟩ ha ht
  obtain ⟨h1, h2, h3, h4⟩ := hi.passes p hm
  have hpre : p.seen <+: (hallRun false size s es).stored := h3 ▸ List.take_prefix _ _
  have hb : p.began <+: p.seen := by
    refine List.prefix_of_prefix_length_le h1 hpre ?_
    rw [h3, List.length_take]
    have := h4 hd
    omega
  have hnd : p.seen.Nodup := by
    have := hi.sorted.sublist hpre.sublist
    refine this.imp ?_
    intro a b h e
    subst e
    exact hirr a h
  exact ⟨⟨fun r hr => by rw [List.Nodup.count hnd, if_pos (hb.subset hr)], fun r hr => hpre.subset hr⟩, hb, hpre⟩

/-! #### A ledger at rest -/

/-- Nothing is recorded, and the database gives one and the same listing. -/
def AtRest (L : List α) : HallEv α → Prop
  | .post _ => False
  | .page _ answer => answer = L
  | _ => True

structure RestInv (size : Nat) (began L : List α) (s : Hall α) : Prop where
  stored : s.stored = began
  kept : ∀ e ∈ s.kept, e.2 = Paging.page L size e.1
  passes : ∀ p ∈ s.passes, p.began = began ∧ p.seen = L.take p.off ∧ (p.done = true → L.drop p.off = [])

theorem take_stride {grouped : Bool} {size : Nat} {L : List α} {off : Nat} (h : Paging.page L size off ≠ []) :
    L.take off ++ Paging.page L size off = L.take (off + stride grouped size (Paging.page L size off)) := by
  have hoff : off ≤ L.length := by
    have h1 : L.drop off ≠ [] := fun e => h (by simp [Paging.page, e])
    have := List.length_pos_iff.2 h1
    simp only [List.length_drop] at this
    omega
  cases grouped with
  | false => exact (take_prefix_drop hoff (page_prefix L size off)).2
  | true =>
    simp only [stride, if_true, Paging.page]
    exact List.take_add.symm

theorem restInv_run {grouped : Bool} {size : Nat} (hs : 0 < size) {began L : List α} : ∀ {es : List (HallEv α)} {s : Hall α}, RestInv size began L s →
    (∀ e ∈ es, AtRest L e) → RestInv size began L (hallRun grouped size s es) := by
  intro es
  induction es with
  | nil => exact fun hi _ => hi
  | cons e es ih =>
    intro s hi hr
    refine ih ?_ (fun e he => hr e (List.mem_cons_of_mem _ he))
    have he := hr e (by simp)
    cases e with
    | post r => exact absurd he id
    | start =>
      refine ⟨hi.stored, hi.kept, fun p hp => ?_⟩
      rcases List.mem_append.1 hp with hp | hp
      · exact hi.passes p hp
      · rw [List.mem_singleton.1 hp]
        exact ⟨hi.stored, by simp, by simp⟩
    | expire off => exact ⟨hi.stored, fun e he => hi.kept e (List.mem_filter.1 he).1, hi.passes⟩
    | page n answer =>
      have hl : answer = L := he
      subst hl
      simp only [hallStep]
      cases hp : s.passes[n]? with
      | none => exact hi
      | some p =>
        simp only
        split
        · exact hi
        · rename_i hnd
          obtain ⟨h1, h2, h3⟩ := hi.passes p (List.mem_of_getElem? hp)
          have hgot : (fetch size s.kept answer p.off).1 = Paging.page answer size p.off := by
            rcases fetch_spec (size := size) (kept := s.kept) (answer := answer) (off := p.off) with h | h
            · exact hi.kept _ h.1
            · exact h.1
          refine ⟨hi.stored, ?_, ?_⟩
          · intro e he
            rcases fetch_spec (size := size) (kept := s.kept) (answer := answer) (off := p.off) with h | h
            · rw [h.2.2] at he; exact hi.kept e he
            · rcases h.2 e he with h | h
              · exact hi.kept e h
              · rw [h.1]
          · intro p' hp'
            rcases List.mem_or_eq_of_mem_set hp' with hp' | rfl
            · exact hi.passes p' hp'
            · rw [hgot]
              unfold Pass.next
              split
              · rename_i hemp
                exact ⟨h1, h2, fun _ => Paging.page_nil hs (List.isEmpty_iff.1 hemp)⟩
              · rename_i hemp
                refine ⟨h1, ?_, fun hd => absurd hd hnd⟩
                simp only
                rw [h2]
                exact take_stride (fun e => hemp (List.isEmpty_iff.2 e))

/-- **C198 for a ledger at rest**: if nothing is recorded while pages are kept and the database answers
alike, a finished pass, for groups or not, has seen every row once, however many passes share the pages. -/
theorem c198_at_rest_partial [DecidableEq α] {grouped : Bool} {size : Nat} (hs : 0 < size) {L : List α} {s : Hall α} {es : List (HallEv α)}
    (hL : L.Perm s.stored) (hn : s.stored.Nodup) (hk : s.kept = []) (hp : s.passes = []) (hr : ∀ e ∈ es, AtRest L e)
    {p : Pass α} (hm : p ∈ (hallRun grouped size s es).passes) (hd : p.done = true) :
    p.seen.Perm s.stored ∧ Complete (hallRun grouped size s es).stored p := by
  have hi : RestInv size s.stored L (hallRun grouped size s es) := restInv_run hs ⟨rfl, by simp [hk], by simp [hp]⟩ hr
  obtain ⟨h1, h2, h3⟩ := hi.passes p hm
  have he : p.seen = L := by
    have := List.take_append_drop p.off L
    rw [h3 hd, List.append_nil] at this
    rw [h2, this]
  rw [he]
  refine ⟨hL, fun r hr => ?_, fun r hr => ?_⟩
  · rw [he, List.Nodup.count (hL.nodup_iff.2 hn), if_pos (hL.symm.subset (h1 ▸ hr))]
  · rw [hi.stored]
    exact hL.subset (he ▸ hr)

end

/-! #### Witnesses -/

/-- `Honest`, decided, for rows ordered by date. -/
def honestBy (grouped : Bool) (size : Nat) : Hall Rec → List (HallEv Rec) → Bool
  | _, [] => true
  | s, e :: es => (match e with
      | .page _ answer => decide (answer.Perm s.stored) && decide (answer.Pairwise fun a b => a.date ≤ b.date)
      | _ => true) && honestBy grouped size (hallStep grouped size s e) es

theorem honest_of {grouped : Bool} {size : Nat} : ∀ {es : List (HallEv Rec)} {s : Hall Rec}, honestBy grouped size s es = true →
    Honest grouped size (fun a b => a.date ≤ b.date) s es
  | [], _, _ => trivial
  | e :: es, s, h => by
    simp only [honestBy, Bool.and_eq_true] at h
    refine ⟨?_, honest_of h.2⟩
    rintro n answer rfl
    simp only [Bool.and_eq_true, decide_eq_true_eq] at h
    exact ⟨h.1.1, h.1.2⟩

/-- `InTurn`, decided, for rows ordered by date. -/
def inTurnBy (grouped : Bool) (size : Nat) : Hall Rec → List (HallEv Rec) → Bool
  | _, [] => true
  | s, e :: es => (match e with
      | .post r => s.stored.all fun q => decide (q.date < r.date)
      | _ => true) && inTurnBy grouped size (hallStep grouped size s e) es

theorem inTurn_of {grouped : Bool} {size : Nat} : ∀ {es : List (HallEv Rec)} {s : Hall Rec}, inTurnBy grouped size s es = true →
    InTurn (fun a b => a.date < b.date) grouped size s es
  | [], _, _ => trivial
  | e :: es, s, h => by
    simp only [inTurnBy, Bool.and_eq_true] at h
    refine ⟨?_, inTurn_of h.2⟩
    rintro r rfl q hq
    simpa using List.all_eq_true.1 h.1 q hq

def w1 : Rec := { id := "t1", amount := 10, date := 1 }
def w2 : Rec := { id := "t2", amount := 20, date := 2 }
def w3 : Rec := { id := "t3", amount := 30, date := 3 }
def w4 : Rec := { id := "t4", amount := 40, date := 4 }

/-- Two passes with pages of two; between them a transaction is recorded, and the first pass left a page that is not
full. -/
def turnDemo : List (HallEv Rec) :=
  [.post w1, .post w2, .post w3, .start, .page 0 [w1, w2, w3], .page 0 [w1, w2, w3], .page 0 [w1, w2, w3],
    .post w4, .start, .page 1 [w1, w2, w3, w4], .page 1 [w1, w2, w3, w4], .page 1 [w1, w2, w3, w4], .page 1 [w1, w2, w3, w4]]

/-- The hypotheses of `c198_in_turn_partial`, met by two passes that share pages. -/
example : Honest false 2 (fun a b => a.date ≤ b.date) {} turnDemo ∧ InTurn (fun a b => a.date < b.date) false 2 {} turnDemo ∧
    (hallRun false 2 {} turnDemo).passes.map (fun p => (p.began.map (·.id), p.seen.map (·.id), p.done)) =
      [(["t1", "t2", "t3"], ["t1", "t2", "t3"], true), (["t1", "t2", "t3", "t4"], ["t1", "t2", "t3", "t4"], true)] ∧
    (hallRun false 2 {} turnDemo).kept.map (fun e => (e.1, e.2.map (·.id))) = [(3, ["t4"]), (2, ["t3"]), (0, ["t1", "t2"])] :=
  ⟨honest_of (by decide +kernel), inTurn_of (by decide +kernel), by decide +kernel, by decide +kernel⟩

/-- The hypotheses of `c198_at_rest_partial`, met by a pass over groups that takes over the first page of another. -/
example : (∀ e ∈ ([.start, .page 0 [w2, w1, w3], .start, .page 1 [w2, w1, w3], .expire 0, .page 1 [w2, w1, w3], .page 1 [w2, w1, w3]] : List (HallEv Rec)),
      AtRest [w2, w1, w3] e) ∧
    (hallRun true 2 { stored := [w1, w2, w3] } [.start, .page 0 [w2, w1, w3], .start, .page 1 [w2, w1, w3], .expire 0, .page 1 [w2, w1, w3],
      .page 1 [w2, w1, w3]]).passes.map (fun p => (p.seen.map (·.id), p.done)) = [(["t2", "t1"], false), (["t2", "t1", "t3"], true)] :=
  ⟨by simp [AtRest], by decide +kernel⟩

/-- A transaction that was created before another one but recorded after it. -/
def lateDemo : List (HallEv Rec) :=
  [.post w1, .post w3, .start, .page 0 [w1, w3], .page 0 [w1, w3], .post w2, .start, .page 1 [w1, w2, w3], .page 1 [w1, w2, w3], .page 1 [w1, w2, w3]]

/-- **C198 fails for `many_to_one`**: the transaction recorded late is passed over and its neighbour is handed out
twice, for as long as the page read earlier is kept (an hour). -/
theorem c198_late_fails : ¬ C198Full := by
  intro h
  have hr := h false 2 (fun a b => a.date ≤ b.date) {} lateDemo (by decide) rfl rfl (by decide +kernel) (honest_of (by decide +kernel))
    { began := [w1, w3, w2], off := 3, seen := [w1, w3, w3], done := true } (by
      have : (hallRun false 2 {} lateDemo).passes = [{ began := [w1, w3], off := 2, seen := [w1, w3], done := true },
          { began := [w1, w3, w2], off := 3, seen := [w1, w3, w3], done := true }] := rfl
      rw [this]; simp) rfl
  exact absurd (hr.once w2 (by simp)) (by decide +kernel)

/-- Two passes over groups; a transaction is recorded between them. -/
def hiddenDemo : List (HallEv Rec) :=
  [.post w1, .start, .page 0 [w1], .page 0 [w1], .post w2, .start, .page 1 [w1, w2], .page 1 [w1, w2]]

/-- **C198 fails for groups**, also if transactions are recorded in order: while the last page of an
earlier pass is kept (five minutes), what was recorded after it is not there. -/
theorem c198_hidden_fails : InTurn (fun a b => a.date < b.date) true 2 {} hiddenDemo ∧ ¬ C198Full := by
  refine ⟨inTurn_of (by decide +kernel), fun h => ?_⟩
  have hr := h true 2 (fun a b => a.date ≤ b.date) {} hiddenDemo (by decide) rfl rfl (by decide +kernel) (honest_of (by decide +kernel))
    { began := [w1, w2], off := 2, seen := [w1], done := true } (by
      have : (hallRun true 2 {} hiddenDemo).passes = [{ began := [w1], off := 2, seen := [w1], done := true },
          { began := [w1, w2], off := 2, seen := [w1], done := true }] := rfl
      rw [this]; simp) rfl
  exact absurd (hr.once w2 (by simp)) (by decide +kernel)

/-- How long it lasts: a pass over groups that begins after `rows` were recorded, whatever they are, is
given the kept page instead of them, as long as all of the ledger fits on one page. -/
theorem c198_hidden_rows {size : Nat} {old rows : List Rec} {le : Rec → Rec → Prop} (ho : old ≠ []) (hs : (old ++ rows).length ≤ size)
    {s : Hall Rec} (hst : s.stored = old ++ rows) (hk : keptAt s.kept 0 = old) (hn : keptAt s.kept size = [])
    {answer : List Rec} (ha : Ordered le s.stored answer) :
    ∃ p ∈ (hallRun true size s [.start, .page s.passes.length answer, .page s.passes.length answer]).passes,
      p.began = old ++ rows ∧ p.done = true ∧ p.seen = old := by
  have hf : fetch size s.kept answer 0 = (old, s.kept) := by
    unfold fetch
    rw [hk]
    cases old with
    | nil => exact absurd rfl ho
    | cons a l => rfl
  have hlen : answer.length ≤ size := by rw [ha.perm.length_eq, hst]; exact hs
  have hf2 : fetch size s.kept answer size = ([], s.kept) := by
    unfold fetch
    rw [hn]
    have : Paging.page answer size size = [] := by simp [Paging.page, hlen]
    rw [this]; rfl
  have hoe : old.isEmpty = false := by cases old with
    | nil => exact absurd rfl ho
    | cons a l => rfl
  refine ⟨{ began := old ++ rows, off := size, seen := old, done := true }, ?_, rfl, rfl, rfl⟩
  simp [hallRun, hallStep, hf, hf2, Pass.next, stride, hoe, hst]

/-- The hypotheses of `c198_hidden_rows`. -/
example : keptAt (hallRun true 5 {} [.post w1, .start, .page 0 [w1], .page 0 [w1], .post w2, .post w3]).kept 0 = [w1] ∧
    (hallRun true 5 {} [.post w1, .start, .page 0 [w1], .page 0 [w1], .post w2, .post w3]).stored = [w1] ++ [w2, w3] := by decide +kernel

/-! ### C199 -/

/-- A transaction moved money: it was applied, or what was made of it was. -/
def Moved (db : DB) (id : String) : Prop := ∃ t ∈ db.txns, t.status = .applied ∧ (t.id = id ∨ t.parent = id)

/-- **C199 as stated**, for `one_to_one` over the ledger of any reachable state. -/
def C199Full : Prop := ∀ (cfg : Cfg) (s : Queue.Sys), Queue.Reach cfg s → ∀ l, Dated s.db.txns l →
  ∀ (x : Text) (size workers : Nat) (rules : List Rule) (e : Rec) (o : Outcome), 0 < size → 0 < workers →
    OneToOne x size workers rules (fun _ => l.map entryOf) e o → ∀ m ∈ o.matched, Moved s.db m.internal

/-- **C199 where nothing waits, is held or was refused**: if every row that fits the record was applied
or has a row that was, every match is with money that moved. -/
theorem c199_settled_partial {db : DB} {q : Nat → List Txn} {x : Text} {size workers : Nat} {rules : List Rule} {e : Rec} {o : Outcome}
    (hq : ∀ n, ∀ t ∈ q n, t ∈ db.txns) (ht : ∀ t ∈ db.txns, (∃ r ∈ rules, r.Holds x e (entryOf t)) → Moved db t.id)
    (h : OneToOne x size workers rules (fun n => (q n).map entryOf) e o) : ∀ m ∈ o.matched, m.external = e.id ∧ Moved db m.internal := by
  intro m hm
  obtain ⟨h1, _, n, t', hmem, hi, hr⟩ := c58_matches_hold h hm
  obtain ⟨t, htm, rfl⟩ := List.mem_map.1 hmem
  exact ⟨h1, by rw [hi]; exact ht t (hq n t htm) hr⟩

/-- **A refused payment hides the discrepancy**: if any row of the ledger fits a record under exact rules,
be it queued, rejected, held or void, the record is not reported unmatched. -/
theorem c199_unnoticed {x : Text} {size workers : Nat} {rules : List Rule} {l : List Txn} {e : Rec} {o : Outcome} {rows : List Rec}
    (hs : 0 < size) (hw : 0 < workers) (hx : Exact rules)
    (hwalk : Paging.Walk size (fun _ => (l.map entryOf).filter (selects rules e)) 0 0 rows) (ho : o = verdict x workers rules e rows)
    {t : Txn} (ht : t ∈ l) (hc : e.currency = "" ∨ t.currency = e.currency) {r : Rule} (hr : r ∈ rules) (hh : r.Holds x e (entryOf t)) :
    e.id ∉ o.unmatched := by
  intro hu
  exact c58_exact_rules_partial (q := fun _ => l.map entryOf) hs hw (grows_fixed _) hx hwalk ho hu (List.mem_map_of_mem ht) hc hr hh

/-- The row under which a queued payment was applied has a reference of its own: rules that ask for equal
references find the QUEUED row by the reference the client chose, and never the row that moved the money. -/
theorem c199_by_reference {x : Text} (hx : ∀ a b, x.same a b = true → a.length = b.length) {rules : List Rule}
    (hr : ∀ r ∈ rules, ∃ c ∈ r.criteria, c.field = .reference ∧ c.operator = .equals) {e : Rec} {t : Txn} {newId : String}
    (he : e.reference = t.reference) (hp : x.parts (t.reference ++ "_q") = [t.reference ++ "_q"]) :
    matchesRules x rules e (entryOf (finalRow (Queue.queueCopy t newId))) = false := by
  cases h : matchesRules x rules e (entryOf (finalRow (Queue.queueCopy t newId))) with
  | false => rfl
  | true =>
    obtain ⟨r, hrm, hh⟩ := matchesRules_iff.1 h
    obtain ⟨c, hc, hf, hop⟩ := hr r hrm
    have hm := meets_iff.2 (hh c hc)
    have href : (entryOf (finalRow (Queue.queueCopy t newId))).reference = t.reference ++ "_q" := (finalRow_keeps _).1
    simp only [meets, hf, matchesString, hop] at hm
    rw [href, hp, he] at hm
    simp only [List.any_cons, List.any_nil, Bool.or_false] at hm
    have := hx _ _ hm
    rw [String.length_append] at this
    have h2 : "_q".length = 2 := by decide
    omega

/-- A payment as it is stored when it is queued: its amount is its minor units. -/
structure Stated (t : Txn) : Prop where
  precision : t.precision ≠ 0
  amount : ∃ p : Int, t.preciseAmount = some p ∧ 0 < p ∧ t.amount = (p : Rat) / t.precision

theorem finalRow_amount {t : Txn} {newId : String} (h : Stated t) : (finalRow (Queue.queueCopy t newId)).amount = t.amount := by
  obtain ⟨hp, p, h1, h2, h3⟩ := h
  have ha : (Queue.queueCopy t newId).applyPrecision.amount = t.amount := by
    rw [applyPrecision_of_pos (t := Queue.queueCopy t newId) (p := p) h1 h2]
    simp only [Txn.effPrecision, Queue.queueCopy, hp, if_false, h3]
  have hr : (applyRecord (Queue.queueCopy t newId)).amount = t.amount := by
    unfold applyRecord
    split
    · rfl
    · exact ha
  rw [← hr]
  unfold finalRow clearTerminalInflight
  split <;> rfl

/-- The two rows of every queued payment that was applied. -/
def bothRows (ps : List (Txn × String)) : List Txn := ps.flatMap fun p => [p.1, finalRow (Queue.queueCopy p.1 p.2)]

/-- What the payments moved. -/
def movedBy (ps : List (Txn × String)) : Rat := (ps.map (·.1.amount)).sum

theorem bothRows_total : ∀ {ps : List (Txn × String)}, (∀ p ∈ ps, Stated p.1) → total ((bothRows ps).map entryOf) = 2 * movedBy ps
  | [], _ => by simp [bothRows, movedBy, total]
  | p :: ps, h => by
    have ih := bothRows_total (ps := ps) (fun q hq => h q (List.mem_cons_of_mem _ hq))
    have hb : bothRows (p :: ps) = p.1 :: finalRow (Queue.queueCopy p.1 p.2) :: bothRows ps := by simp [bothRows]
    have hm : movedBy (p :: ps) = p.1.amount + movedBy ps := by simp [movedBy]
    rw [hb, hm]
    simp only [List.map_cons, total]
    rw [ih]
    have e1 : (entryOf p.1).amount = p.1.amount := rfl
    have e2 : (entryOf (finalRow (Queue.queueCopy p.1 p.2))).amount = p.1.amount := finalRow_amount (h p (by simp))
    rw [e1, e2]
    grind

/-- **Payments that went through the queue count twice in their group**: a record of what they moved does not
fit the group of their source, their destination or their currency under any rule that asks for the amount
to within less than a half. -/
theorem c199_group_missed {x : Text} {rules : List Rule} (hr : ∀ r ∈ rules, ∃ c ∈ r.criteria, c.field = .amount ∧ c.operator = .equals ∧ c.drift < 1 / 2)
    {ps : List (Txn × String)} (hp : ∀ p ∈ ps, Stated p.1) (hpos : 0 < movedBy ps) {e : Rec} (he : e.amount = movedBy ps) :
    matchesGroup x rules e ((bothRows ps).map entryOf) = false := by
  cases h : matchesGroup x rules e ((bothRows ps).map entryOf) with
  | false => rfl
  | true =>
    obtain ⟨r, hrm, hh⟩ := matchesRules_iff.1 h
    obtain ⟨c, hc, hf, hop, hd⟩ := hr r hrm
    have hm := meets_iff.2 (hh c hc)
    have ht : (combined ((bothRows ps).map entryOf)).amount = 2 * movedBy ps := bothRows_total hp
    simp only [meets, hf, matchesAmount, hop, decide_eq_true_eq] at hm
    rw [ht, he, dist_le] at hm
    have hsz : Rat.size (2 * movedBy ps) = 2 * movedBy ps := by
      unfold Rat.size
      rw [if_pos (by grind)]
    rw [hsz] at hm
    have h1 : 2 * movedBy ps * c.drift < 2 * movedBy ps * (1 / 2) := Rat.mul_lt_mul_of_pos_left hd (by grind)
    grind

/-! #### Witnesses -/

/-- The demo payment is refused by the worker instead. -/
def demoRejected : Queue.Sys := { Queue.demoStored with
  db := (step {} Queue.demoStored.db (.store (Queue.rejectedRow Queue.demoTask))).1
  log := Queue.demoStored.log ++ (match (step {} Queue.demoStored.db (.store (Queue.rejectedRow Queue.demoTask))).2 with
    | .posted _ => [(⟨"p", "r"⟩, .rejected)]
    | _ => []) }

theorem demoRejected_reach : Queue.Reach {} demoRejected := by
  have h1 : Queue.Reach {} Queue.demoOpened :=
    (Queue.Reach.init.step (.other {} (.base (.create "a" "" "USD")))).step (.other _ (.base (.create "b" "" "USD")))
  have h2 : Queue.Reach {} Queue.demoAccepted := h1.step (.accept _ Queue.demoSubmission rfl)
  have h3 : Queue.Reach {} Queue.demoStored := h2.step
    (.persist Queue.demoAccepted (submit Queue.demoSubmission) "x" "y" "c" .copy (by simp [Queue.demoAccepted]) (fun _ => by decide +kernel))
  exact h3.step (.reject Queue.demoStored ⟨"p", "r"⟩ Queue.demoTask (.task (by simp [Queue.demoStored, Queue.demoTask])))

/-- A record of 7.00. -/
def sevenDue : Rec := { id := "e7", amount := 7, reference := "r" }

/-- What the ledger holds of the payment, and what is reported of the record. -/
theorem demoRejected_facts : demoRejected.db.txns.map (fun t => (t.id, t.status)) = [("p", .queued), ("c", .rejected)] ∧
    balancesOf demoRejected.db = [("a", 0, 0, 0), ("b", 0, 0, 0)] ∧
    (verdict ascii 10 [exactDay] sevenDue ((demoRejected.db.txns.map entryOf).filter (selects [exactDay] sevenDue))).matched.map (·.internal) = ["p", "c"] ∧
    (verdict ascii 10 [exactDay] sevenDue ((demoRejected.db.txns.map entryOf).filter (selects [exactDay] sevenDue))).unmatched = [] := by
  decide +kernel

/-- **C199 fails**: a payment that was rejected, and moved nothing, is reported as the match of a record, twice. -/
theorem c199_rejected_fails : ¬ C199Full := by
  intro h
  have hd : Dated demoRejected.db.txns demoRejected.db.txns := ⟨.refl _, by decide +kernel⟩
  have hm := h {} demoRejected demoRejected_reach _ hd ascii 10 10 [exactDay] sevenDue _ (by decide) (by decide)
    (oneToOne_fixed ascii 10 10 (by decide) [exactDay] (demoRejected.db.txns.map entryOf) sevenDue)
  have hin : "p" ∈ (verdict ascii 10 [exactDay] sevenDue ((demoRejected.db.txns.map entryOf).filter (selects [exactDay] sevenDue))).matched.map (·.internal) := by
    rw [demoRejected_facts.2.2.1]; simp
  obtain ⟨m, hmm, he⟩ := List.mem_map.1 hin
  obtain ⟨t, ht, hst, _⟩ := hm m hmm
  have hall : ∀ t ∈ demoRejected.db.txns, t.status ≠ .applied := by decide +kernel
  exact hall t ht hst

/-- The hypotheses of `c199_settled_partial` and `c199_unnoticed`: the payment was applied, and the record is matched with
both of its rows. -/
example : (∀ t ∈ Queue.demoApplied.db.txns, ∃ u ∈ Queue.demoApplied.db.txns, u.status = .applied ∧ (u.id = t.id ∨ u.parent = t.id)) ∧
    (verdict ascii 10 [exactDay] sevenDue ((Queue.demoApplied.db.txns.map entryOf).filter (selects [exactDay] sevenDue))).matched.map (·.internal) = ["p", "c"] := by
  decide +kernel

example : ∃ t ∈ demoRejected.db.txns, t.status = .rejected ∧ t.currency = sevenDue.currency ∧ exactDay.Holds ascii sevenDue (entryOf t) := by
  decide +kernel

/-- The hypotheses of `c199_by_reference`: the record is matched with the QUEUED row only. -/
example : (∀ r ∈ [byReference], ∃ c ∈ r.criteria, c.field = .reference ∧ c.operator = .equals) ∧
    ascii.parts ("r" ++ "_q") = ["r" ++ "_q"] ∧
    (verdict ascii 10 [byReference] sevenDue ((Queue.demoApplied.db.txns.map entryOf).filter (selects [byReference] sevenDue))).matched.map (·.internal) =
      ["p"] := by
  decide +kernel

theorem ascii_same_length {a b : String} (h : ascii.same a b = true) : a.length = b.length := by
  simp only [ascii, decide_eq_true_eq] at h
  have := congrArg List.length h
  simpa [String.length_toList] using this

/-- The group of a key holds exactly the rows whose column has that key, in their order. -/
theorem c199_group_rows (c : Column) (rows : List Txn) (k : String) (hk : k ≠ "") :
    ((keyed c rows).filter (fun x => x.1 = k)).map Prod.snd = (rows.filter (fun t => c.of t = k)).map entryOf := by
  induction rows with
  | nil => rfl
  | cons t rows ih =>
    unfold keyed at ih ⊢
    by_cases h0 : c.of t = ""
    · have hk' : c.of t ≠ k := fun e => hk (e ▸ h0)
      simpa [List.filter_cons, h0, hk', Ne.symm hk] using ih
    · by_cases h1 : c.of t = k
      · simpa [List.filter_cons, h0, h1, hk] using ih
      · simpa [List.filter_cons, h0, h1] using ih

/-- Rows whose column is empty are in no group. -/
theorem c199_no_empty_group (c : Column) (rows : List Txn) : ∀ x ∈ keyed c rows, x.1 ≠ "" := by
  intro x hx
  simp only [keyed, List.mem_map, List.mem_filter, decide_eq_true_eq] at hx
  obtain ⟨t, ⟨_, ht⟩, rfl⟩ := hx
  exact ht

/-- The hypotheses of `c199_group_missed`, and the record it does fit. -/
example : (∀ t ∈ Queue.demoStored.db.txns, t.preciseAmount = some 700 ∧ t.precision = 100 ∧ t.amount = 7) ∧
    Queue.demoApplied.db.txns = bothRows (Queue.demoStored.db.txns.map (·, "c")) ∧
    movedBy (Queue.demoStored.db.txns.map (·, "c")) = 7 ∧
    keyed .source Queue.demoApplied.db.txns = (bothRows (Queue.demoStored.db.txns.map (·, "c"))).map (fun t => ("a", entryOf t)) ∧
    matchesGroup ascii [exactly] sevenDue (Queue.demoApplied.db.txns.map entryOf) = false ∧
    matchesGroup ascii [exactly] { sevenDue with amount := 14 } (Queue.demoApplied.db.txns.map entryOf) = true := by
  decide +kernel

end Blnk.Recon
