import Verif.Model.Provenance
import Verif.Props.Lineage
/-
Helper lemmas for the lineage accounts: what one attempt writes, sums over rows, settling.
-/
namespace Blnk.Prov
open Lineage (Strategy Src Alloc calculate live)

/-! ### Sums -/

theorem debit_append (rows : List Row) (r : Row) (a : Acc) :
    debit (rows ++ [r]) a = debit rows a + (if r.settled && r.src == a then r.amount else 0) := by simp [debit]
theorem credit_append (rows : List Row) (r : Row) (a : Acc) :
    credit (rows ++ [r]) a = credit rows a + (if r.settled && r.dst == a then r.amount else 0) := by simp [credit]
theorem avail_append (rows : List Row) (r : Row) (a : Acc) :
    avail (rows ++ [r]) a = avail rows a + (if r.settled && r.src == a then r.amount else 0) -
      (if r.settled && r.dst == a then r.amount else 0) := by
  simp only [avail, debit_append, credit_append]; omega

/-- What one row does to `avail`. -/
def share (r : Row) (a : Acc) : Int :=
  (if r.settled && r.src == a then r.amount else 0) - (if r.settled && r.dst == a then r.amount else 0)

theorem avail_eq (a : Acc) : ∀ rows : List Row, avail rows a = (rows.map fun r => share r a).sum
  | [] => by simp [avail, debit, credit]
  | r :: rs => by
    have := avail_eq a rs
    simp only [avail, debit, credit, share, List.map_cons, List.sum_cons] at this ⊢
    omega

theorem avail_push (rows : List Row) (r : Row) (a : Acc) : avail (rows ++ [r]) a = avail rows a + share r a := by
  rw [avail_append, share]; omega

theorem map_zero {α} : ∀ (l : List α) (f : α → Int), (∀ x ∈ l, f x = 0) → (l.map f).sum = 0
  | [], _, _ => rfl
  | x :: xs, f, h => by
    rw [List.map_cons, List.sum_cons, h x (by simp), map_zero xs f fun y hy => h y (by simp [hy])]; rfl

theorem sum_swap {α β} (f : α → β → Int) : ∀ (l : List α) (k : List β),
    (l.map fun x => (k.map fun y => f x y).sum).sum = (k.map fun y => (l.map fun x => f x y).sum).sum
  | [], k => by simp [map_zero]
  | x :: xs, k => by
    simp only [List.map_cons, List.sum_cons, sum_swap f xs k]
    induction k with
    | nil => rfl
    | cons y ys ih => simp only [List.map_cons, List.sum_cons]; omega

/-! ### What a statement does -/

theorem tick_sys (w : W) : w.tick.1.sys = w.sys := by
  unfold W.tick; split <;> rfl

theorem write_cases (w : W) (f : Sys → Sys) :
    (w.write f).1.sys = f w.sys ∨ ((w.write f).1.sys = w.sys ∧ (w.write f).2 ≠ .ok) := by
  cases h : w.outs with
  | nil => exact .inl (by simp [W.write, h])
  | cons x o => cases x <;> simp [W.write, h]

/-- A row is added, unless it is refused. -/
def Sys.push (s : Sys) (r : Row) : Sys := { s with rows := s.rows ++ [r] }

/-- A mapping is written. -/
def Sys.map1 (s : Sys) (m : Mapping) : Sys := { s with maps := upsertMap m s.maps, now := s.now + 1 }

theorem post_cases (w : W) (r : Row) (od : Bool) :
    (w.sys.refuses r od = false ∧ (w.post r od).1.sys = w.sys.push r) ∨
      ((w.post r od).1.sys = w.sys ∧ (w.post r od).2 ≠ .ok) := by
  unfold W.post; split
  · exact .inr ⟨rfl, by simp⟩
  · rename_i h
    rcases write_cases w (fun s => { s with rows := s.rows ++ [r] }) with h' | h'
    · exact .inl ⟨by simpa using h, h'⟩
    · exact .inr h'

theorem upsert_cases (w : W) (m : Mapping) :
    (w.upsert m).1.sys = w.sys.map1 m ∨ ((w.upsert m).1.sys = w.sys ∧ (w.upsert m).2 ≠ .ok) := write_cases w _

/-- A property of the state that survives every write the loop can make holds at its end. -/
theorem loop_induct_mem {L : List Alloc} {P : Sys → Prop} {m : Main} {b : TBal} {agg : Acc} {dest : Dest}
    (hr : ∀ s mp a, (mp.provider, a) ∈ L → P s → s.mapping b.id mp.provider = some mp → s.refuses (releaseRow agg m mp a) false = false →
      P (s.push (releaseRow agg m mp a)))
    (hv : ∀ s d i p a, (p, a) ∈ L → P s → dest = some (d, i) → s.refuses (receiveRow d i m p a) true = false →
      P (s.push (receiveRow d i m p a)))
    (hu : ∀ s d i p, P s → dest = some (d, i) → P (s.map1 ⟨d.id, p, shadowAcc p i d.cur, aggAcc i d.cur, s.now⟩)) :
    ∀ (l : List Alloc) (w : W), (∀ x ∈ l, x ∈ L) → P w.sys → P (releaseLoop m b agg dest l w).1.sys
  | [], w, _, h => h
  | (p, a) :: rest, w, hL, h => by
    rw [releaseLoop]
    have ih := fun w => loop_induct_mem hr hv hu rest w fun x hx => hL x (by simp [hx])
    have hpa : (p, a) ∈ L := hL _ (by simp)
    cases hm : w.sys.mapping b.id p with
    | none => exact ih w h
    | some mp =>
      have hp : mp.provider = p := by
        have := List.find?_some hm
        simp only [Bool.and_eq_true, beq_iff_eq] at this; exact this.2
      dsimp only
      split
      · exact ih w h
      · have h1 : P (w.post (releaseRow agg m mp a) false).1.sys := by
          rcases post_cases w (releaseRow agg m mp a) false with ⟨hf, he⟩ | ⟨he, _⟩
          · rw [he]; exact hr _ mp a (by rw [hp]; exact hpa) h (by rw [hp]; exact hm) hf
          · rw [he]; exact h
        revert h1
        rcases w.post (releaseRow agg m mp a) false with ⟨w1, o1⟩
        intro h1
        cases o1 <;> dsimp only <;> try exact h1
        cases dest with
        | none => exact ih w1 h1
        | some di =>
          obtain ⟨d, i⟩ := di
          dsimp only
          have h2 : P (w1.post (receiveRow d i m p a) true).1.sys := by
            rcases post_cases w1 (receiveRow d i m p a) true with ⟨hf, he⟩ | ⟨he, _⟩
            · rw [he]; exact hv _ d i p a hpa h1 rfl hf
            · rw [he]; exact h1
          revert h2
          rcases w1.post (receiveRow d i m p a) true with ⟨w2, o2⟩
          intro h2
          cases o2 <;> dsimp only <;> try exact h2
          have h3 : P (w2.upsert ⟨d.id, p, shadowAcc p i d.cur, aggAcc i d.cur, w2.sys.now⟩).1.sys := by
            rcases upsert_cases w2 ⟨d.id, p, shadowAcc p i d.cur, aggAcc i d.cur, w2.sys.now⟩ with he | ⟨he, _⟩
            · rw [he]; exact hu _ d i p h2 rfl
            · rw [he]; exact h2
          revert h3
          rcases w2.upsert ⟨d.id, p, shadowAcc p i d.cur, aggAcc i d.cur, w2.sys.now⟩ with ⟨w3, o3⟩
          intro h3
          cases o3 <;> dsimp only <;> try exact h3
          exact ih w3 h3

theorem loop_induct {P : Sys → Prop} {m : Main} {b : TBal} {agg : Acc} {dest : Dest}
    (hr : ∀ s mp a, P s → s.mapping b.id mp.provider = some mp → s.refuses (releaseRow agg m mp a) false = false →
      P (s.push (releaseRow agg m mp a)))
    (hv : ∀ s d i p a, P s → dest = some (d, i) → s.refuses (receiveRow d i m p a) true = false →
      P (s.push (receiveRow d i m p a)))
    (hu : ∀ s d i p, P s → dest = some (d, i) → P (s.map1 ⟨d.id, p, shadowAcc p i d.cur, aggAcc i d.cur, s.now⟩))
    (l : List Alloc) (w : W) (h : P w.sys) : P (releaseLoop m b agg dest l w).1.sys :=
  loop_induct_mem (L := l) (fun s mp a _ => hr s mp a) (fun s d i p a _ => hv s d i p a) hu l w (fun _ h => h) h

/-- The same for the credit. -/
theorem credit_induct {P : Sys → Prop} {m : Main} {d : TBal} {p : String}
    (hc : ∀ s i, P s → s.ident d.identity = some i → s.refuses (creditRow i m p) true = false →
      P (s.push (creditRow i m p)))
    (hu : ∀ s i, P s → s.ident d.identity = some i → P (s.map1 ⟨d.id, p, shadowAcc p i m.cur, aggAcc i m.cur, s.now⟩))
    (w : W) (h : P w.sys) : P (creditPart m d p w).1.sys := by
  unfold creditPart
  cases hi : w.sys.ident d.identity with
  | none => exact h
  | some i =>
    dsimp only
    have ht := tick_sys w
    revert ht
    rcases w.tick with ⟨w1, o1⟩
    intro ht; dsimp only at ht
    cases o1 <;> dsimp only <;> try (rw [ht]; exact h)
    rw [← ht] at h hi
    have h1 : P (w1.post (creditRow i m p) true).1.sys ∧
        (w1.post (creditRow i m p) true).1.sys.ident d.identity = some i := by
      rcases post_cases w1 (creditRow i m p) true with ⟨hf, he⟩ | ⟨he, _⟩
      · rw [he]; exact ⟨hc _ i h hi hf, hi⟩
      · rw [he]; exact ⟨h, hi⟩
    revert h1
    rcases w1.post (creditRow i m p) true with ⟨w2, o2⟩
    intro h1
    cases o2 <;> dsimp only <;> try exact h1.1
    have h3 : P (w2.upsert ⟨d.id, p, shadowAcc p i m.cur, aggAcc i m.cur, w2.sys.now⟩).1.sys := by
      rcases upsert_cases w2 ⟨d.id, p, shadowAcc p i m.cur, aggAcc i m.cur, w2.sys.now⟩ with he | ⟨he, _⟩
      · rw [he]; exact hu _ i h1.1 h1.2
      · rw [he]; exact h1.1
    revert h3
    rcases w2.upsert ⟨d.id, p, shadowAcc p i m.cur, aggAcc i m.cur, w2.sys.now⟩ with ⟨w3, o3⟩
    intro h3
    cases o3 <;> exact h3

/-- And for the debit: the loop runs with the sources' allocation. -/
theorem debit_induct {P : Sys → Prop} {g : Sight} {m : Main} {b : TBal} (w : W) (h : P w.sys)
    (hl : ∀ w' : W, w'.sys = w.sys → ∀ i, w.sys.ident b.identity = some i → 0 < w.sys.remaining m b.id →
      P (releaseLoop m b (aggAcc i b.cur) (w.sys.destOf g m)
        (calculate b.strategy (live (w.sys.sources b.id)) (w.sys.remaining m b.id)) w').1.sys) :
    P (debitPart g m b w).1.sys := by
  unfold debitPart
  have ht := tick_sys w
  revert ht
  rcases w.tick with ⟨w1, o1⟩
  intro ht; dsimp only at ht
  cases o1 <;> dsimp only <;> try (rw [ht]; exact h)
  split
  · rw [ht]; exact h
  · split
    · rw [ht]; exact h
    · rename_i hrem
      cases hi : w1.sys.ident b.identity with
      | none => dsimp only; rw [ht]; exact h
      | some i =>
        dsimp only
        have := hl w1 ht i (by rw [← ht]; exact hi) (by rw [← ht]; omega)
        rw [← ht] at this; exact this

theorem seen_some {s : Sys} {ok : Bool} {x : String} {b : TBal} (h : s.seen ok x = some b) : s.bal x = some b := by
  revert h; unfold Sys.seen; split <;> simp

/-- And for the whole item. -/
theorem process_induct {P : Sys → Prop} {g : Sight} {m : Main}
    (hc : ∀ (w : W) d p, P w.sys → w.sys.bal m.dst = some d → d.tracks = true → p ≠ "" →
      p = validProvider w.sys m (w.sys.seen g.src m.src) → P (creditPart m d p w).1.sys)
    (hk : ∀ (w : W) d p x, w.sys.bal x = (creditPart m d p w).1.sys.bal x)
    (hd : ∀ (w : W) b, P w.sys → w.sys.bal m.src = some b → b.tracks = true → P (debitPart g m b w).1.sys)
    (w : W) (h : P w.sys) : P (processMain g m w).1.sys := by
  unfold processMain
  have ht := tick_sys w
  revert ht
  rcases w.tick with ⟨w1, o1⟩
  intro ht; dsimp only at ht
  cases o1 <;> dsimp only <;> try (rw [ht]; exact h)
  rw [← ht] at h
  have hp : P (creditStep m (validProvider w1.sys m (w1.sys.seen g.src m.src)) (w1.sys.seen g.dst m.dst) w1).1.sys ∧
      ∀ x, w1.sys.bal x =
        (creditStep m (validProvider w1.sys m (w1.sys.seen g.src m.src)) (w1.sys.seen g.dst m.dst) w1).1.sys.bal x := by
    unfold creditStep
    cases hd' : w1.sys.seen g.dst m.dst with
    | none => exact ⟨h, fun _ => rfl⟩
    | some d =>
      dsimp only
      by_cases hpd : validProvider w1.sys m (w1.sys.seen g.src m.src) ≠ "" ∧ d.tracks = true
      · rw [if_pos hpd]
        exact ⟨hc w1 d _ h (seen_some hd') hpd.2 hpd.1 rfl, fun x => hk w1 d _ x⟩
      · rw [if_neg hpd]; exact ⟨h, fun _ => rfl⟩
  revert hp
  rcases creditStep m (validProvider w1.sys m (w1.sys.seen g.src m.src)) (w1.sys.seen g.dst m.dst) w1 with ⟨w2, o2⟩
  intro hp
  cases o2 <;> dsimp only <;> try exact hp.1
  unfold debitStep
  cases hs : w1.sys.seen g.src m.src with
  | none => exact hp.1
  | some b =>
    dsimp only
    split
    · rename_i htr
      exact hd w2 b hp.1 ((hp.2 m.src).symm.trans (seen_some hs)) htr
    · exact hp.1

theorem credit_keeps (m : Main) (d : TBal) (p : String) (w : W) :
    (creditPart m d p w).1.sys.bals = w.sys.bals ∧ (creditPart m d p w).1.sys.idents = w.sys.idents ∧
      (creditPart m d p w).1.sys.mains = w.sys.mains ∧ (creditPart m d p w).1.sys.items = w.sys.items := by
  refine credit_induct (P := fun s => s.bals = w.sys.bals ∧ s.idents = w.sys.idents ∧ s.mains = w.sys.mains ∧
    s.items = w.sys.items) ?_ ?_ w ⟨rfl, rfl, rfl, rfl⟩
  · intro s i h _ _; exact h
  · intro s i h _; exact h

theorem credit_bal (m : Main) (w : W) (d p x) : w.sys.bal x = (creditPart m d p w).1.sys.bal x := by
  unfold Sys.bal; rw [(credit_keeps m d p w).1]

theorem debit_keeps (g : Sight) (m : Main) (b : TBal) (w : W) :
    (debitPart g m b w).1.sys.bals = w.sys.bals ∧ (debitPart g m b w).1.sys.idents = w.sys.idents ∧
      (debitPart g m b w).1.sys.mains = w.sys.mains ∧ (debitPart g m b w).1.sys.items = w.sys.items := by
  refine debit_induct (P := fun s => s.bals = w.sys.bals ∧ s.idents = w.sys.idents ∧ s.mains = w.sys.mains ∧
    s.items = w.sys.items) w ⟨rfl, rfl, rfl, rfl⟩ ?_
  intro w' hw i _ _
  refine loop_induct (P := fun s => s.bals = w.sys.bals ∧ s.idents = w.sys.idents ∧ s.mains = w.sys.mains ∧
    s.items = w.sys.items) ?_ ?_ ?_ _ w' (by rw [hw]; exact ⟨rfl, rfl, rfl, rfl⟩)
  · intro s mp a h _ _; exact h
  · intro s d i p a h _ _; exact h
  · intro s d i p h _; exact h

theorem process_keeps (g : Sight) (m : Main) (w : W) :
    (processMain g m w).1.sys.bals = w.sys.bals ∧ (processMain g m w).1.sys.idents = w.sys.idents ∧
      (processMain g m w).1.sys.mains = w.sys.mains ∧ (processMain g m w).1.sys.items = w.sys.items := by
  refine process_induct (P := fun s => s.bals = w.sys.bals ∧ s.idents = w.sys.idents ∧ s.mains = w.sys.mains ∧
    s.items = w.sys.items) ?_ (fun w d p x => credit_bal m w d p x) ?_ w ⟨rfl, rfl, rfl, rfl⟩
  · intro w' d p h _ _ _ _
    have := credit_keeps m d p w'
    exact ⟨this.1.trans h.1, this.2.1.trans h.2.1, this.2.2.1.trans h.2.2.1, this.2.2.2.trans h.2.2.2⟩
  · intro w' b h _ _
    have := debit_keeps g m b w'
    exact ⟨this.1.trans h.1, this.2.1.trans h.2.1, this.2.2.1.trans h.2.2.1, this.2.2.2.trans h.2.2.2⟩

/-! ### When nothing fails -/

theorem post_calm (s : Sys) (r : Row) (od : Bool) :
    W.post ⟨s, []⟩ r od = if s.refuses r od then (⟨s, []⟩, .err) else (⟨s.push r, []⟩, .ok) := rfl

theorem upsert_calm (s : Sys) (m : Mapping) : W.upsert ⟨s, []⟩ m = (⟨s.map1 m, []⟩, .ok) := rfl

theorem credit_calm (m : Main) (d : TBal) (p : String) (s : Sys) :
    creditPart m d p ⟨s, []⟩ =
      match s.ident d.identity with
      | none => (⟨s, []⟩, .err)
      | some i =>
        if s.refuses (creditRow i m p) true then (⟨s, []⟩, .err)
        else (⟨(s.push (creditRow i m p)).map1 ⟨d.id, p, shadowAcc p i m.cur, aggAcc i m.cur, s.now⟩, []⟩, .ok) := by
  unfold creditPart
  cases s.ident d.identity with
  | none => rfl
  | some i =>
    show (match W.post ⟨s, []⟩ (creditRow i m p) true with
      | (w, .ok) =>
        match w.upsert ⟨d.id, p, shadowAcc p i m.cur, aggAcc i m.cur, w.sys.now⟩ with
        | (w, .crash) => (w, Out.crash)
        | (w, _) => (w, .ok)
      | r => r) = _
    rw [post_calm]
    dsimp only
    by_cases h : s.refuses (creditRow i m p) true = true
    · rw [if_pos h, if_pos h]
    · rw [if_neg h, if_neg h]; rfl

theorem loop_calm (m : Main) (b : TBal) (agg : Acc) (dest : Dest) (p : String) (a : Int) (rest : List Alloc) (s : Sys) :
    releaseLoop m b agg dest ((p, a) :: rest) ⟨s, []⟩ =
      match s.mapping b.id p with
      | none => releaseLoop m b agg dest rest ⟨s, []⟩
      | some mp =>
        if s.used (releaseRef m p) then releaseLoop m b agg dest rest ⟨s, []⟩
        else if s.refuses (releaseRow agg m mp a) false then (⟨s, []⟩, .err)
        else match dest with
          | none => releaseLoop m b agg dest rest ⟨s.push (releaseRow agg m mp a), []⟩
          | some (d, i) =>
            if (s.push (releaseRow agg m mp a)).refuses (receiveRow d i m p a) true then
              (⟨s.push (releaseRow agg m mp a), []⟩, .err)
            else releaseLoop m b agg dest rest
              ⟨((s.push (releaseRow agg m mp a)).push (receiveRow d i m p a)).map1
                ⟨d.id, p, shadowAcc p i d.cur, aggAcc i d.cur, s.now⟩, []⟩ := by
  rw [releaseLoop.eq_def]
  dsimp only
  cases s.mapping b.id p with
  | none => rfl
  | some mp =>
    dsimp only
    split
    · rfl
    · rw [post_calm]
      by_cases h : s.refuses (releaseRow agg m mp a) false = true
      · rw [if_pos h, if_pos h]
      · rw [if_neg h, if_neg h]
        dsimp only
        cases dest with
        | none => rfl
        | some di =>
          dsimp only
          rw [post_calm]
          by_cases h' : (s.push (releaseRow agg m mp a)).refuses (receiveRow di.1 di.2 m p a) true = true
          · rw [if_pos h', if_pos h']
          · rw [if_neg h', if_neg h']; rfl

/-- A property that survives a release, and a release received and mapped. -/
theorem loop_calm_induct {P : Sys → Prop} {m : Main} {b : TBal} {agg : Acc} {dest : Dest}
    (hr : ∀ s mp a, P s → s.mapping b.id mp.provider = some mp → P (s.push (releaseRow agg m mp a)))
    (hv : ∀ s d i p a, P s → dest = some (d, i) →
      P ((s.push (receiveRow d i m p a)).map1 ⟨d.id, p, shadowAcc p i d.cur, aggAcc i d.cur, s.now⟩)) :
    ∀ (l : List Alloc) (s : Sys), P s → P (releaseLoop m b agg dest l ⟨s, []⟩).1.sys
  | [], _, h => h
  | (p, a) :: rest, s, h => by
    have ih := loop_calm_induct hr hv rest
    rw [loop_calm]
    cases hm : s.mapping b.id p with
    | none => exact ih s h
    | some mp =>
      have hp : mp.provider = p := by
        have := List.find?_some hm
        simp only [Bool.and_eq_true, beq_iff_eq] at this; exact this.2
      dsimp only
      split
      · exact ih s h
      · split
        · exact h
        · have h1 := hr s mp a h (by rw [hp]; exact hm)
          cases dest with
          | none => exact ih _ h1
          | some di =>
            dsimp only
            split
            · exact h1
            · exact ih _ (hv _ di.1 di.2 p a h1 rfl)

theorem debit_calm (g : Sight) (m : Main) (b : TBal) (s : Sys) :
    debitPart g m b ⟨s, []⟩ =
      if s.mapsOf b.id = [] then (⟨s, []⟩, if g.pending && s.pendingCredit b.id then .err else .ok)
      else if s.remaining m b.id ≤ 0 then (⟨s, []⟩, .ok)
      else match s.ident b.identity with
        | none => (⟨s, []⟩, .err)
        | some i => releaseLoop m b (aggAcc i b.cur) (s.destOf g m)
            (calculate b.strategy (live (s.sources b.id)) (s.remaining m b.id)) ⟨s, []⟩ := rfl

theorem process_calm (g : Sight) (m : Main) (s : Sys) :
    processMain g m ⟨s, []⟩ =
      match creditStep m (validProvider s m (s.seen g.src m.src)) (s.seen g.dst m.dst) ⟨s, []⟩ with
      | (w', .ok) => debitStep g m (s.seen g.src m.src) w'
      | r => r := rfl

theorem credit_calm_outs (m : Main) (d : TBal) (p : String) (s : Sys) : (creditPart m d p ⟨s, []⟩).1.outs = [] := by
  rw [credit_calm]
  cases s.ident d.identity with
  | none => rfl
  | some i => dsimp only; split <;> rfl

/-- A property that survives a credit and a debit survives an item. -/
theorem process_calm_induct {P : Sys → Prop} {g : Sight} {m : Main}
    (hc : ∀ s d p, P s → s.bal m.dst = some d → d.tracks = true → p ≠ "" →
      p = validProvider s m (s.seen g.src m.src) → P (creditPart m d p ⟨s, []⟩).1.sys)
    (hd : ∀ s b, P s → s.bal m.src = some b → b.tracks = true → P (debitPart g m b ⟨s, []⟩).1.sys)
    (s : Sys) (h : P s) : P (processMain g m ⟨s, []⟩).1.sys := by
  rw [process_calm]
  have hp : P (creditStep m (validProvider s m (s.seen g.src m.src)) (s.seen g.dst m.dst) ⟨s, []⟩).1.sys ∧
      (creditStep m (validProvider s m (s.seen g.src m.src)) (s.seen g.dst m.dst) ⟨s, []⟩).1.outs = [] ∧
      ∀ x, s.bal x =
        (creditStep m (validProvider s m (s.seen g.src m.src)) (s.seen g.dst m.dst) ⟨s, []⟩).1.sys.bal x := by
    unfold creditStep
    cases hd' : s.seen g.dst m.dst with
    | none => exact ⟨h, rfl, fun _ => rfl⟩
    | some d =>
      dsimp only
      by_cases hpd : validProvider s m (s.seen g.src m.src) ≠ "" ∧ d.tracks = true
      · rw [if_pos hpd]
        exact ⟨hc s d _ h (seen_some hd') hpd.2 hpd.1 rfl, credit_calm_outs .., fun x => credit_bal m ⟨s, []⟩ d _ x⟩
      · rw [if_neg hpd]; exact ⟨h, rfl, fun _ => rfl⟩
  revert hp
  rcases creditStep m (validProvider s m (s.seen g.src m.src)) (s.seen g.dst m.dst) ⟨s, []⟩ with ⟨⟨s2, os2⟩, o2⟩
  intro hp
  cases o2 <;> dsimp only <;> try exact hp.1
  unfold debitStep
  cases hs : s.seen g.src m.src with
  | none => exact hp.1
  | some b =>
    dsimp only
    split
    · rename_i htr
      have ho : os2 = [] := hp.2.1
      rw [ho]
      exact hd s2 b hp.1 ((hp.2.2 m.src).symm.trans (seen_some hs)) htr
    · exact hp.1

/-! ### Settling -/

/-- Each row stays, or is a held row of the parent that gets the new state. -/
def Settled1 (id : String) (to : RStat) (r r' : Row) : Prop :=
  r' = r ∨ (r.parent = id ∧ r.st = .held ∧ r' = { r with st := to })

/-- Two lists related element by element. -/
inductive All2 {α β} (R : α → β → Prop) : List α → List β → Prop
  | nil : All2 R [] []
  | cons {a b l k} : R a b → All2 R l k → All2 R (a :: l) (b :: k)

theorem All2.refl {α} {R : α → α → Prop} (h : ∀ a, R a a) : ∀ l, All2 R l l
  | [] => .nil
  | a :: l => .cons (h a) (All2.refl h l)

theorem All2.mem_right {α β} {R : α → β → Prop} {l : List α} {k : List β} (h : All2 R l k) :
    ∀ y ∈ k, ∃ x ∈ l, R x y := by
  induction h with
  | nil => simp
  | cons hr _ ih =>
    intro y hy
    rcases List.mem_cons.1 hy with rfl | hy
    · exact ⟨_, by simp, hr⟩
    · obtain ⟨x, hx, h⟩ := ih y hy
      exact ⟨x, by simp [hx], h⟩

theorem settleRows_all2 (id : String) (to : RStat) : ∀ (rows : List Row) (os : List Out),
    All2 (Settled1 id to) rows (settleRows id to rows os).1
  | [], os => by rw [settleRows]; exact .nil
  | r :: rs, os => by
    rw [settleRows.eq_def]
    dsimp only
    split
    · rename_i h
      split
      · exact All2.refl (fun _ => .inl rfl) _
      · exact .cons (.inl rfl) (settleRows_all2 id to rs _)
      · exact .cons (.inr ⟨h.1, h.2, rfl⟩) (settleRows_all2 id to rs _)
      · exact .cons (.inr ⟨h.1, h.2, rfl⟩) (settleRows_all2 id to rs _)
      · exact .cons (.inr ⟨h.1, h.2, rfl⟩) (settleRows_all2 id to rs _)
    · exact .cons (.inl rfl) (settleRows_all2 id to rs _)

/-- Everything that names a row except its state. -/
def SameRow (r r' : Row) : Prop :=
  r'.ref = r.ref ∧ r'.kind = r.kind ∧ r'.parent = r.parent ∧ r'.provider = r.provider ∧ r'.src = r.src ∧
    r'.dst = r.dst ∧ r'.amount = r.amount

theorem Settled1.same {id to r r'} (h : Settled1 id to r r') : SameRow r r' := by
  rcases h with rfl | ⟨_, _, rfl⟩ <;> exact ⟨rfl, rfl, rfl, rfl, rfl, rfl, rfl⟩

/-! ### Looking up -/

theorem bal_mem {s : Sys} {x : String} {b : TBal} (h : s.bal x = some b) : b ∈ s.bals ∧ b.id = x :=
  ⟨List.mem_of_find?_eq_some h, by simpa using List.find?_some h⟩

theorem ident_mem {s : Sys} {x : String} {i : Ident} (h : s.ident x = some i) : i ∈ s.idents ∧ i.id = x :=
  ⟨List.mem_of_find?_eq_some h, by simpa using List.find?_some h⟩

theorem main_mem {s : Sys} {x : String} {m : Main} (h : s.main x = some m) : m ∈ s.mains ∧ m.id = x :=
  ⟨List.mem_of_find?_eq_some h, by simpa using List.find?_some h⟩

theorem mapping_mem {s : Sys} {b p : String} {mp : Mapping} (h : s.mapping b p = some mp) :
    mp ∈ s.maps ∧ mp.balance = b ∧ mp.provider = p := by
  have := List.find?_some h
  simp only [Bool.and_eq_true, beq_iff_eq] at this
  exact ⟨List.mem_of_find?_eq_some h, this⟩

theorem upsert_mem {m x : Mapping} : ∀ {l : List Mapping}, x ∈ upsertMap m l →
    x ∈ l ∨ x = m ∨ ∃ y ∈ l, y.balance = m.balance ∧ y.provider = m.provider ∧
      x = { y with shadow := m.shadow, agg := m.agg }
  | [], h => .inr (.inl (by simpa [upsertMap] using h))
  | y :: ys, h => by
    unfold upsertMap at h; split at h
    · rename_i hy
      rcases List.mem_cons.1 h with rfl | h
      · exact .inr (.inr ⟨y, by simp, hy.1, hy.2, rfl⟩)
      · exact .inl (by simp [h])
    · rcases List.mem_cons.1 h with rfl | h
      · exact .inl (by simp)
      · rcases upsert_mem h with h | h | ⟨z, hz, h⟩
        · exact .inl (by simp [h])
        · exact .inr (.inl h)
        · exact .inr (.inr ⟨z, by simp [hz], h⟩)

/-- What a mapping is found by. -/
def Mapping.key (m : Mapping) : String × String := (m.balance, m.provider)

theorem upsert_keys (m : Mapping) : ∀ l : List Mapping,
    (m.key ∈ l.map Mapping.key ∧ (upsertMap m l).map Mapping.key = l.map Mapping.key) ∨
    (m.key ∉ l.map Mapping.key ∧ (upsertMap m l).map Mapping.key = l.map Mapping.key ++ [m.key])
  | [] => .inr ⟨by simp, by simp [upsertMap]⟩
  | y :: ys => by
    unfold upsertMap
    split
    · rename_i h
      have e : y.key = m.key := by unfold Mapping.key; rw [h.1, h.2]
      exact .inl ⟨by simp [e], rfl⟩
    · rename_i h
      have e : m.key ≠ y.key := by
        intro e; unfold Mapping.key at e; injection e with e1 e2; exact h ⟨e1.symm, e2.symm⟩
      rcases upsert_keys m ys with ⟨h1, h2⟩ | ⟨h1, h2⟩
      · exact .inl ⟨by simp only [List.map_cons, List.mem_cons]; exact .inr h1, by simp only [List.map_cons, h2]⟩
      · refine .inr ⟨?_, by simp only [List.map_cons, h2, List.cons_append]⟩
        simp only [List.map_cons, List.mem_cons, not_or]; exact ⟨e, h1⟩

theorem upsert_nodup {m : Mapping} {l : List Mapping} (h : (l.map Mapping.key).Nodup) :
    ((upsertMap m l).map Mapping.key).Nodup := by
  rcases upsert_keys m l with ⟨_, e⟩ | ⟨h1, e⟩
  · rw [e]; exact h
  · rw [e, List.nodup_append]
    exact ⟨h, by simp, fun a ha b hb e => h1 (by rw [← List.mem_singleton.1 hb, ← e]; exact ha)⟩

/-- After writing a mapping there is one with its key and its accounts. -/
theorem upsert_has (m : Mapping) : ∀ l : List Mapping,
    ∃ x ∈ upsertMap m l, x.balance = m.balance ∧ x.provider = m.provider ∧ x.shadow = m.shadow ∧ x.agg = m.agg
  | [] => ⟨m, by simp [upsertMap], rfl, rfl, rfl, rfl⟩
  | y :: ys => by
    unfold upsertMap
    split
    · rename_i h
      exact ⟨{ y with shadow := m.shadow, agg := m.agg }, by simp, h.1, h.2, rfl, rfl⟩
    · obtain ⟨x, hx, h⟩ := upsert_has m ys
      exact ⟨x, by simp [hx], h⟩

/-- Writing a mapping keeps the others. -/
theorem upsert_keep {m x : Mapping} : ∀ {l : List Mapping}, x ∈ l → x.key ≠ m.key → x ∈ upsertMap m l
  | y :: ys, h, hk => by
    unfold upsertMap
    split
    · rename_i hy
      rcases List.mem_cons.1 h with rfl | h
      · exact absurd (by unfold Mapping.key; rw [hy.1, hy.2]) hk
      · simp [h]
    · rcases List.mem_cons.1 h with rfl | h
      · simp
      · simp [upsert_keep h hk]

theorem mapsOf_nodup {s : Sys} (h : (s.maps.map Mapping.key).Nodup) (b : String) :
    ((s.mapsOf b).map Mapping.provider).Nodup := by
  have h1 : ((s.mapsOf b).map Mapping.key).Nodup := h.sublist ((List.filter_sublist).map _)
  have h2 : (s.mapsOf b).map Mapping.key = ((s.mapsOf b).map Mapping.provider).map fun p => (b, p) := by
    rw [List.map_map]
    refine List.map_congr_left fun mp hmp => ?_
    have : mp.balance = b := by simpa using (List.mem_filter.1 hmp).2
    simp [Mapping.key, this]
  rw [h2] at h1
  exact List.Pairwise.of_map _ (fun a b hab e => hab (by rw [e])) h1

theorem putIdent_mem {i x : Ident} : ∀ {l : List Ident}, x ∈ putIdent i l → x ∈ l ∨ x = i
  | [], h => .inr (by simpa [putIdent] using h)
  | y :: ys, h => by
    unfold putIdent at h; split at h
    · rcases List.mem_cons.1 h with rfl | h
      · exact .inr rfl
      · exact .inl (by simp [h])
    · rcases List.mem_cons.1 h with rfl | h
      · exact .inl (by simp)
      · rcases putIdent_mem h with h | h
        · exact .inl (by simp [h])
        · exact .inr h

end Blnk.Prov
