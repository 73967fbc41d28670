import Verif.Model.Memory
/-
Lemmas about balances in memory: what initialising, changing and copying figures does to the figures
that pointers lead to.
-/
namespace Blnk.Mem

theorem upd_same {α β} [DecidableEq α] (f : α → β) (a : α) (b : β) : upd f a b a = b := by simp [upd]

theorem upd_other {α β} [DecidableEq α] (f : α → β) {a x : α} (b : β) (h : x ≠ a) : upd f a b x = f x := by
  simp [upd, h]

/-- Some balance has this integer as a figure. -/
def Owned (m : Memory) (x : Nat) : Prop := ∃ b f, (m.objs b).fig f = some x

/-- An integer that is there and is no figure of a balance. -/
def Free (m : Memory) (x : Nat) : Prop := x < m.next ∧ ¬ Owned m x

/-- No two figures are the same integer. -/
structure Sep (m : Memory) : Prop where
  bound : ∀ b f x, (m.objs b).fig f = some x → x < m.next
  inj : ∀ b c f g x, (m.objs b).fig f = some x → (m.objs c).fig g = some x → b = c ∧ f = g
  queued : ∀ b x, (m.objs b).qd = some x → Free m x
  blank : ∀ b, m.nextObj ≤ b → (∀ f, (m.objs b).fig f = none) ∧ (m.objs b).qd = none

/-- What is no figure stays what it is, and so do the other parts of the balances. -/
structure Ext (m m' : Memory) : Prop where
  free : ∀ x, Free m x → Free m' x ∧ m'.ints x = m.ints x
  base : ∀ b, b < m.nextObj → (m'.objs b).base = (m.objs b).base ∧ (m'.objs b).qd = (m.objs b).qd
  objs : m'.nextObj = m.nextObj

theorem Ext.refl (m : Memory) : Ext m m := ⟨fun _ h => ⟨h, rfl⟩, fun _ _ => ⟨rfl, rfl⟩, rfl⟩

theorem Ext.trans {m₁ m₂ m₃ : Memory} (h : Ext m₁ m₂) (k : Ext m₂ m₃) : Ext m₁ m₃ where
  free x hx := ⟨(k.free x (h.free x hx).1).1, (k.free x (h.free x hx).1).2.trans (h.free x hx).2⟩
  base b hb := by
    have hb' : b < m₂.nextObj := by rw [h.objs]; exact hb
    exact ⟨(k.base b hb').1.trans (h.base b hb).1, (k.base b hb').2.trans (h.base b hb).2⟩
  objs := k.objs.trans h.objs

/-- Figures as values. -/
abbrev Vals := Nat → Fld → Int

def updV (v : Vals) (b : Nat) (f : Fld) (x : Int) : Vals := fun c g => if c = b ∧ g = f then x else v c g

/-- From `m` to `m'`, after which the figures are `v`. -/
structure Eff (m m' : Memory) (v : Vals) : Prop where
  sep : Sep m'
  ext : Ext m m'
  vals : ∀ b f, val m' b f = v b f
  /-- pointers that are not nil stay as they are -/
  keep : ∀ b f x, (m.objs b).fig f = some x → (m'.objs b).fig f = some x

theorem Eff.refl {m : Memory} (h : Sep m) : Eff m m (val m) :=
  ⟨h, Ext.refl m, fun _ _ => rfl, fun _ _ _ h => h⟩

theorem Eff.trans {m₁ m₂ m₃ : Memory} {v w : Vals} (h : Eff m₁ m₂ v) (k : Eff m₂ m₃ w) : Eff m₁ m₃ w :=
  ⟨k.sep, h.ext.trans k.ext, k.vals, fun b f x hx => k.keep b f x (h.keep b f x hx)⟩

theorem Eff.congr {m m' : Memory} {v w : Vals} (h : Eff m m' v) (e : ∀ b f, v b f = w b f) : Eff m m' w :=
  ⟨h.sep, h.ext, fun b f => (h.vals b f).trans (e b f), h.keep⟩

/-! ### Fresh integers -/

theorem fig_point_alloc {m : Memory} {b : Nat} {f : Fld} {v : Int} (c : Nat) (g : Fld) :
    ((point (alloc m v) b f m.next).objs c).fig g =
      if c = b ∧ g = f then some m.next else (m.objs c).fig g := by
  by_cases hc : c = b
  · subst hc
    by_cases hg : g = f
    · subst hg; simp [point, alloc, upd]
    · simp [point, alloc, upd, hg]
  · simp [point, alloc, upd, hc]

theorem owned_point_alloc {m : Memory} {b : Nat} {f : Fld} {v : Int} (hn : (m.objs b).fig f = none) (x : Nat) :
    Owned (point (alloc m v) b f m.next) x ↔ Owned m x ∨ x = m.next := by
  constructor
  · rintro ⟨c, g, h⟩
    rw [fig_point_alloc] at h
    split at h
    · right; exact (Option.some.inj h).symm
    · left; exact ⟨c, g, h⟩
  · rintro (⟨c, g, h⟩ | rfl)
    · refine ⟨c, g, ?_⟩
      rw [fig_point_alloc, if_neg (by rintro ⟨rfl, rfl⟩; rw [hn] at h; cases h)]
      exact h
    · exact ⟨b, f, by rw [fig_point_alloc, if_pos ⟨rfl, rfl⟩]⟩

theorem qd_point_alloc {m : Memory} {b : Nat} {f : Fld} {v : Int} (c : Nat) :
    ((point (alloc m v) b f m.next).objs c).qd = (m.objs c).qd ∧
      ((point (alloc m v) b f m.next).objs c).base = (m.objs c).base := by
  by_cases hc : c = b
  · subst hc; simp [point, alloc, upd]
  · simp [point, alloc, upd, hc]

/-- A nil figure of a balance is made to point to a new integer. -/
theorem fresh_fig {m : Memory} (hs : Sep m) {b : Nat} (hb : b < m.nextObj) {f : Fld} (v : Int)
    (hn : (m.objs b).fig f = none) :
    Eff m (point (alloc m v) b f m.next) (updV (val m) b f v) where
  sep := {
    bound := by
      intro c g x h
      rw [fig_point_alloc] at h
      show x < m.next + 1
      split at h
      · have := Option.some.inj h; omega
      · have := hs.bound c g x h; omega
    inj := by
      intro c d g k x h1 h2
      rw [fig_point_alloc] at h1 h2
      split at h1 <;> split at h2
      · rename_i p q; exact ⟨p.1.trans q.1.symm, p.2.trans q.2.symm⟩
      · have := hs.bound d k x h2; have := Option.some.inj h1; omega
      · have := hs.bound c g x h1; have := Option.some.inj h2; omega
      · exact hs.inj c d g k x h1 h2
    queued := by
      intro c x h
      rw [(qd_point_alloc c).1] at h
      obtain ⟨h1, h2⟩ := hs.queued c x h
      refine ⟨Nat.lt_succ_of_lt h1, ?_⟩
      rw [owned_point_alloc hn]
      rintro (h | h)
      · exact h2 h
      · omega
    blank := by
      intro c hc
      have hc' : m.nextObj ≤ c := hc
      obtain ⟨h1, h2⟩ := hs.blank c hc'
      refine ⟨fun g => ?_, (qd_point_alloc c).1.trans h2⟩
      rw [fig_point_alloc, if_neg (by rintro ⟨rfl, _⟩; omega)]
      exact h1 g }
  ext := {
    free := by
      intro x ⟨h1, h2⟩
      refine ⟨⟨Nat.lt_succ_of_lt h1, ?_⟩, ?_⟩
      · rw [owned_point_alloc hn]
        rintro (h | h)
        · exact h2 h
        · omega
      · show upd m.ints m.next v x = m.ints x
        exact upd_other _ _ (by omega)
    base := fun c _ => ⟨(qd_point_alloc c).2, (qd_point_alloc c).1⟩
    objs := rfl }
  vals := by
    intro c g
    unfold val updV
    rw [fig_point_alloc]
    by_cases h : c = b ∧ g = f
    · rw [if_pos h, if_pos h]
      show upd m.ints m.next v m.next = v
      exact upd_same _ _ _
    · rw [if_neg h, if_neg h]
      cases hx : (m.objs c).fig g with
      | none => simp [hx]
      | some x =>
        simp only [hx]
        show upd m.ints m.next v x = m.ints x
        exact upd_other _ _ (by have := hs.bound c g x hx; omega)
  keep := by
    intro c g x h
    rw [fig_point_alloc, if_neg (by rintro ⟨rfl, rfl⟩; rw [hn] at h; cases h)]
    exact h

/-- A new integer that is no figure. -/
theorem fresh_free {m : Memory} (hs : Sep m) (v : Int) :
    Eff m (alloc m v) (val m) ∧ Free (alloc m v) m.next ∧ (alloc m v).ints m.next = v := by
  have ho : ∀ x, Owned (alloc m v) x ↔ Owned m x := fun x => Iff.rfl
  refine ⟨⟨⟨?_, ?_, ?_, ?_⟩, ⟨?_, ?_, rfl⟩, ?_, ?_⟩, ⟨?_, ?_⟩, upd_same _ _ _⟩
  · intro b f x h; exact Nat.lt_succ_of_lt (hs.bound b f x h)
  · exact hs.inj
  · intro b x h
    obtain ⟨h1, h2⟩ := hs.queued b x h
    exact ⟨Nat.lt_succ_of_lt h1, fun h => h2 ((ho x).1 h)⟩
  · exact hs.blank
  · intro x ⟨h1, h2⟩
    refine ⟨⟨Nat.lt_succ_of_lt h1, fun h => h2 ((ho x).1 h)⟩, upd_other _ _ (by omega)⟩
  · intro b _; exact ⟨rfl, rfl⟩
  · intro b f
    unfold val
    show (match (m.objs b).fig f with | some x => upd m.ints m.next v x | none => 0) = _
    cases hx : (m.objs b).fig f with
    | none => rfl
    | some x => exact upd_other _ _ (by have := hs.bound b f x hx; omega)
  · intro b f x h; exact h
  · exact Nat.lt_succ_self _
  · rintro ⟨b, f, h⟩
    exact Nat.lt_irrefl _ (hs.bound b f _ h)

/-! ### Initialising -/

theorem initFld_eff {m : Memory} (hs : Sep m) {b : Nat} (hb : b < m.nextObj) (f : Fld) :
    Eff m (initFld b m f) (val m) ∧ (initFld b m f |>.objs b).fig f ≠ none := by
  unfold initFld
  cases hx : (m.objs b).fig f with
  | some x => exact ⟨Eff.refl hs, by rw [hx]; simp⟩
  | none =>
    refine ⟨(fresh_fig hs hb 0 hx).congr ?_, ?_⟩
    · intro c g
      unfold updV
      split
      · rename_i h; obtain ⟨rfl, rfl⟩ := h; simp [val, hx]
      · rfl
    · rw [fig_point_alloc, if_pos ⟨rfl, rfl⟩]; simp

theorem initFlds_eff {b : Nat} (fs : List Fld) : ∀ {m : Memory}, Sep m → b < m.nextObj →
    Eff m (fs.foldl (initFld b) m) (val m) ∧ ∀ f ∈ fs, ((fs.foldl (initFld b) m).objs b).fig f ≠ none := by
  induction fs with
  | nil => intro m hs _; exact ⟨Eff.refl hs, by simp⟩
  | cons f fs ih =>
    intro m hs hb
    obtain ⟨h1, h2⟩ := initFld_eff hs hb f
    obtain ⟨h3, h4⟩ := ih h1.sep (by rw [h1.ext.objs]; exact hb)
    refine ⟨(h1.trans h3).congr h1.vals, ?_⟩
    intro g hg
    rcases List.mem_cons.1 hg with rfl | hg
    · cases hx : ((initFld b m g).objs b).fig g with
      | none => exact absurd hx h2
      | some x => rw [List.foldl_cons, h3.keep b g x hx]; simp
    · exact h4 g hg

/-- Balance `b` has all its figures. -/
def Ready (m : Memory) (b : Nat) : Prop := ∀ f, (m.objs b).fig f ≠ none

theorem init_eff {m : Memory} (hs : Sep m) {b : Nat} (hb : b < m.nextObj) :
    Eff m (init m b) (val m) ∧ Ready (init m b) b := by
  obtain ⟨h1, h2⟩ := initFlds_eff (b := b) [Fld.idb, .ic, .ib, .db, .cr, .bal] hs hb
  refine ⟨h1, fun f => h2 f ?_⟩
  cases f <;> simp

theorem Eff.ready {m m' : Memory} {v : Vals} (h : Eff m m' v) {b : Nat} (hr : Ready m b) : Ready m' b := by
  intro f hn
  cases hx : (m.objs b).fig f with
  | none => exact hr f hx
  | some x => rw [h.keep b f x hx] at hn; cases hn

/-! ### Changing a figure -/

theorem put_eff {m : Memory} (hs : Sep m) {b : Nat} (hr : Ready m b) (f : Fld) (v : Int) :
    Eff m (put m b f v) (updV (val m) b f v) := by
  unfold put
  cases hx : (m.objs b).fig f with
  | none => exact absurd hx (hr f)
  | some x =>
    refine ⟨⟨hs.bound, hs.inj, hs.queued, hs.blank⟩, ⟨?_, fun _ _ => ⟨rfl, rfl⟩, rfl⟩, ?_, fun _ _ _ h => h⟩
    · intro y hy
      refine ⟨hy, upd_other _ _ ?_⟩
      rintro rfl
      exact hy.2 ⟨b, f, hx⟩
    · intro c g
      show (match (m.objs c).fig g with | some y => upd m.ints x v y | none => 0) = _
      unfold updV
      by_cases h : c = b ∧ g = f
      · obtain ⟨rfl, rfl⟩ := h
        rw [hx, if_pos ⟨rfl, rfl⟩]
        exact upd_same _ _ _
      · rw [if_neg h]
        cases hy : (m.objs c).fig g with
        | none => simp [val, hy]
        | some y =>
          have : y ≠ x := by rintro rfl; exact h (hs.inj c b g f _ hy hx)
          simp [val, hy, upd_other _ _ this]

end Blnk.Mem
