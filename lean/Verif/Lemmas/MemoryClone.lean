import Verif.Lemmas.MemoryOps
/-
Lemmas about balances in memory: a copy has the same figures in other places.
-/
namespace Blnk.Mem

theorem cloneFld_eff {m : Memory} (hs : Sep m) {b c : Nat} (hc : c < m.nextObj) {f : Fld}
    (hn : (m.objs c).fig f = none) :
    Eff m (cloneFld b c m f) (updV (val m) c f (val m b f)) ∧
      ∀ d g, (d ≠ c ∨ g ≠ f) → ((cloneFld b c m f).objs d).fig g = (m.objs d).fig g := by
  unfold cloneFld
  cases hx : (m.objs b).fig f with
  | none =>
    refine ⟨(Eff.refl hs).congr ?_, fun _ _ _ => rfl⟩
    intro d g
    unfold updV
    split
    · rename_i h; obtain ⟨rfl, rfl⟩ := h; simp [val, hx, hn]
    · rfl
  | some x =>
    have e : m.ints x = val m b f := by simp [val, hx]
    rw [← e]
    refine ⟨fresh_fig hs hc (m.ints x) hn, ?_⟩
    intro d g h
    dsimp only
    rw [fig_point_alloc, if_neg]
    rintro ⟨rfl, rfl⟩
    rcases h with h | h <;> exact h rfl

theorem cloneFlds_eff {b c : Nat} (hbc : b ≠ c) : ∀ (fs : List Fld) {m : Memory}, fs.Nodup → Sep m → c < m.nextObj →
    (∀ f ∈ fs, (m.objs c).fig f = none) →
    Eff m (fs.foldl (cloneFld b c) m) (fun d g => if d = c ∧ g ∈ fs then val m b g else val m d g)
  | [], m, _, hs, _, _ => (Eff.refl hs).congr (by simp)
  | f :: fs, m, hnd, hs, hc, hn => by
    obtain ⟨hf, hnd⟩ := List.nodup_cons.1 hnd
    obtain ⟨h1, k1⟩ := cloneFld_eff (b := b) hs hc (hn f (by simp))
    have h2 := cloneFlds_eff hbc fs hnd h1.sep (h1.lt hc) (by
      intro g hg
      rw [k1 c g (Or.inr (by rintro rfl; exact hf hg))]
      exact hn g (List.mem_cons_of_mem _ hg))
    refine (h1.trans h2).congr ?_
    intro d g
    rw [h1.val]
    by_cases hd : d = c
    · subst hd
      by_cases hg : g = f
      · subst hg; simp [updV, hf]
      · simp [updV, hg, hbc]
    · simp [hd, updV]

/-- A new balance without figures. -/
def newObj (m : Memory) (base : Balance) : Memory :=
  { m with nextObj := m.nextObj + 1, objs := upd m.objs m.nextObj { base := base } }

/-- There is a new balance `x` at `m.nextObj`, and all else is as it was. -/
structure Made (m m' : Memory) (x : Balance) : Prop where
  sep : Sep m'
  next : m'.nextObj = m.nextObj + 1
  same : view m' m.nextObj = x
  others : ∀ d, d < m.nextObj → view m' d = view m d
  free : ∀ x, Free m x → Free m' x ∧ m'.ints x = m.ints x

theorem newObj_fig {m : Memory} (hs : Sep m) (base : Balance) (d : Nat) :
    (∀ f, ((newObj m base).objs d).fig f = (m.objs d).fig f) ∧ ((newObj m base).objs d).qd = (m.objs d).qd ∧
      ((newObj m base).objs d).base = if d = m.nextObj then base else (m.objs d).base := by
  unfold newObj
  by_cases hd : d = m.nextObj
  · subst hd
    obtain ⟨h1, h2⟩ := hs.blank m.nextObj (Nat.le_refl _)
    simp [upd, h1, h2]
  · simp [upd, hd]

theorem newObj_free {m : Memory} (hs : Sep m) (base : Balance) (x : Nat) : Free (newObj m base) x ↔ Free m x := by
  unfold Free
  have : Owned (newObj m base) x ↔ Owned m x := by
    constructor
    · rintro ⟨d, f, h⟩; exact ⟨d, f, by rw [← (newObj_fig hs base d).1]; exact h⟩
    · rintro ⟨d, f, h⟩; exact ⟨d, f, by rw [(newObj_fig hs base d).1]; exact h⟩
  rw [this]
  rfl

theorem newObj_val {m : Memory} (hs : Sep m) (base : Balance) : val (newObj m base) = val m := by
  funext d f
  unfold val
  rw [(newObj_fig hs base d).1]
  rfl

theorem newObj_sep {m : Memory} (hs : Sep m) (base : Balance) : Sep (newObj m base) := by
  refine ⟨?_, ?_, ?_, ?_⟩
  · intro d f x h
    rw [(newObj_fig hs base d).1] at h
    exact hs.bound d f x h
  · intro d e f g x h k
    rw [(newObj_fig hs base _).1] at h k
    exact hs.inj d e f g x h k
  · intro d x h
    rw [(newObj_fig hs base d).2.1] at h
    rw [newObj_free hs]
    exact hs.queued d x h
  · intro d hd
    have hd' : m.nextObj + 1 ≤ d := hd
    obtain ⟨h1, h2⟩ := hs.blank d (by omega)
    exact ⟨fun f => ((newObj_fig hs base d).1 f).trans (h1 f), (newObj_fig hs base d).2.1.trans h2⟩

/-- A new balance gets its figures, and then what is queued. -/
theorem made {m : Memory} (hs : Sep m) (base : Balance) (q : Option Int) {m1 : Memory} {v : Vals}
    (h1 : Eff (newObj m base) m1 v) (hv : ∀ d, d < m.nextObj → ∀ f, v d f = val m d f) :
    Made m (setQueued m.nextObj q m1) (build base (v m.nextObj) q) := by
  have obj1 : m1.nextObj = m.nextObj + 1 := h1.ext.objs
  have qd1 : ∀ d, d ≤ m.nextObj → (m1.objs d).qd = (m.objs d).qd := fun d hd =>
    (h1.ext.base d (Nat.lt_succ_of_le hd)).2.trans (newObj_fig hs base d).2.1
  have base1 : ∀ d, d ≤ m.nextObj → (m1.objs d).base = if d = m.nextObj then base else (m.objs d).base := fun d hd =>
    (h1.ext.base d (Nat.lt_succ_of_le hd)).1.trans (newObj_fig hs base d).2.2
  have free1 : ∀ x, Free m x → Free m1 x ∧ m1.ints x = m.ints x := fun x hx =>
    h1.ext.free x ((newObj_free hs base x).2 hx)
  have valb : ∀ d, d < m.nextObj → val m1 d = val m d := fun d hd => funext fun g => (h1.vals d g).trans (hv d hd g)
  have valc : val m1 m.nextObj = v m.nextObj := funext fun g => h1.vals _ g
  have sep1 := h1.sep
  clear h1
  have mapq : ∀ d, (m.objs d).qd.map m1.ints = (m.objs d).qd.map m.ints := by
    intro d
    cases hq : (m.objs d).qd with
    | none => rfl
    | some x => simp [(free1 x (hs.queued d x hq)).2]
  unfold setQueued
  cases q with
  | none =>
    refine ⟨sep1, obj1, ?_, ?_, free1⟩
    · rw [view_eq, valc, base1 _ (Nat.le_refl _), if_pos rfl, qd1 _ (Nat.le_refl _),
        (hs.blank _ (Nat.le_refl _)).2]
      rfl
    · intro d hd
      rw [view_eq, view_eq, valb d hd, base1 d (by omega), if_neg (by omega), qd1 d (by omega), mapq]
  | some x =>
    obtain ⟨h2, hfree, hint⟩ := fresh_free sep1 x
    dsimp only
    generalize hm2 : alloc m1 x = m2 at h2 hfree hint
    have objs2 : m2.objs = m1.objs := by rw [← hm2]; rfl
    have obj2 : m2.nextObj = m.nextObj + 1 := by rw [← hm2]; exact obj1
    clear hm2
    generalize hm3 : ({ m2 with objs := upd m2.objs m.nextObj { m2.objs m.nextObj with qd := some m1.next } } : Memory) = m3
    have fig3 : ∀ d f, (m3.objs d).fig f = (m2.objs d).fig f := by
      intro d f
      rw [← hm3]
      by_cases hd : d = m.nextObj
      · subst hd; simp [upd]
      · simp [upd, hd]
    have qd3 : ∀ d, (m3.objs d).qd = if d = m.nextObj then some m1.next else (m2.objs d).qd := by
      intro d
      rw [← hm3]
      by_cases hd : d = m.nextObj <;> simp [upd, hd]
    have base3 : ∀ d, (m3.objs d).base = (m2.objs d).base := by
      intro d
      rw [← hm3]
      by_cases hd : d = m.nextObj
      · subst hd; simp [upd]
      · simp [upd, hd]
    have ints3 : m3.ints = m2.ints := by rw [← hm3]
    have next3 : m3.next = m2.next := by rw [← hm3]
    have obj3 : m3.nextObj = m2.nextObj := by rw [← hm3]
    clear hm3
    have owned3 : ∀ x, Owned m3 x ↔ Owned m2 x := by
      intro x
      constructor
      · rintro ⟨d, f, h⟩; exact ⟨d, f, by rw [← fig3]; exact h⟩
      · rintro ⟨d, f, h⟩; exact ⟨d, f, by rw [fig3]; exact h⟩
    have free3 : ∀ x, Free m3 x ↔ Free m2 x := by
      intro x; unfold Free; rw [next3, owned3]
    have val3 : val m3 = val m1 := by
      rw [← h2.val]
      funext d f
      unfold val
      rw [fig3, ints3]
    have free13 : ∀ x, Free m1 x → Free m3 x ∧ m3.ints x = m1.ints x := by
      intro y hy
      obtain ⟨k1, k2⟩ := h2.ext.free y hy
      exact ⟨(free3 y).2 k1, by rw [ints3]; exact k2⟩
    refine ⟨⟨?_, ?_, ?_, ?_⟩, by rw [obj3, obj2], ?_, ?_, ?_⟩
    · intro d f y h; rw [fig3] at h; rw [next3]; exact h2.sep.bound d f y h
    · intro d e f g y h k; rw [fig3] at h k; exact h2.sep.inj d e f g y h k
    · intro d y h
      rw [qd3] at h
      rw [free3]
      split at h
      · rw [← Option.some.inj h]; exact hfree
      · exact h2.sep.queued d y h
    · intro d hd
      rw [obj3, obj2] at hd
      obtain ⟨k1, k2⟩ := h2.sep.blank d (by omega)
      refine ⟨fun f => (fig3 d f).trans (k1 f), ?_⟩
      rw [qd3, if_neg (by omega)]
      exact k2
    · rw [view_eq, val3, valc, base3, objs2, base1 _ (Nat.le_refl _), if_pos rfl, qd3, if_pos rfl,
        Option.map_some, ints3, hint]
    · intro d hd
      rw [view_eq, view_eq, val3, valb d hd, base3, objs2, base1 d (by omega), if_neg (by omega), qd3,
        if_neg (by omega), objs2, qd1 d (by omega)]
      congr 1
      cases hq' : (m.objs d).qd with
      | none => rfl
      | some y =>
        have hy := free1 y (hs.queued d y hq')
        simp [(free13 y hy.1).2, hy.2]
    · intro y hy
      obtain ⟨k1, k2⟩ := free1 y hy
      obtain ⟨k3, k4⟩ := free13 y k1
      exact ⟨k3, k4.trans k2⟩

theorem clone_made {m : Memory} (hs : Sep m) {b : Nat} (hb : b < m.nextObj) : Made m (clone m b) (view m b) := by
  have hbc : b ≠ m.nextObj := by omega
  have all : ∀ g : Fld, g ∈ [Fld.bal, .ib, .cr, .ic, .db, .idb] := by intro g; cases g <;> simp
  have h1 := cloneFlds_eff hbc [Fld.bal, .ib, .cr, .ic, .db, .idb] (by decide) (newObj_sep hs (m.objs b).base)
    (Nat.lt_succ_self _) (fun f _ => ((newObj_fig hs _ _).1 f).trans ((hs.blank _ (Nat.le_refl _)).1 f))
  have h := made hs (m.objs b).base ((m.objs b).qd.map m.ints) h1 (by
    intro d hd f
    rw [newObj_val hs, if_neg (by omega)])
  have e : (fun g => if m.nextObj = m.nextObj ∧ g ∈ [Fld.bal, .ib, .cr, .ic, .db, .idb] then
      val (newObj m (m.objs b).base) b g else val (newObj m (m.objs b).base) m.nextObj g) = val m b := by
    funext g
    rw [if_pos ⟨rfl, all g⟩, newObj_val hs]
  rw [e, ← view_eq] at h
  have e2 : ((newObj m (m.objs b).base).objs b).qd = (m.objs b).qd := (newObj_fig hs _ b).2.1
  unfold clone
  dsimp only
  rw [show upd m.objs m.nextObj { base := (m.objs b).base } = (newObj m (m.objs b).base).objs from rfl, e2]
  exact h

theorem loadFlds_eff (x : Balance) {c : Nat} : ∀ (fs : List Fld) {m : Memory}, fs.Nodup → Sep m → c < m.nextObj →
    (∀ f ∈ fs, (m.objs c).fig f = none) →
    Eff m (fs.foldl (fun m f => point (alloc m (figure x f)) c f m.next) m)
      (fun d g => if d = c ∧ g ∈ fs then figure x g else val m d g)
  | [], m, _, hs, _, _ => (Eff.refl hs).congr (by simp)
  | f :: fs, m, hnd, hs, hc, hn => by
    obtain ⟨hf, hnd⟩ := List.nodup_cons.1 hnd
    have h1 := fresh_fig hs hc (figure x f) (hn f (by simp))
    have h2 := loadFlds_eff x fs hnd h1.sep (h1.lt hc) (by
      intro g hg
      rw [fig_point_alloc, if_neg (by rintro ⟨_, rfl⟩; exact hf hg)]
      exact hn g (List.mem_cons_of_mem _ hg))
    refine (h1.trans h2).congr ?_
    intro d g
    rw [h1.val]
    by_cases hd : d = c
    · subst hd
      by_cases hg : g = f
      · subst hg; simp [updV, hf]
      · simp [updV, hg]
    · simp [hd, updV]

theorem load_made {m : Memory} (hs : Sep m) (x : Balance) : Made m (load m x) x := by
  have all : ∀ g : Fld, g ∈ [Fld.bal, .cr, .db, .ib, .ic, .idb] := by intro g; cases g <;> simp
  have h1 := loadFlds_eff x [Fld.bal, .cr, .db, .ib, .ic, .idb] (by decide) (newObj_sep hs x)
    (Nat.lt_succ_self _) (fun f _ => ((newObj_fig hs _ _).1 f).trans ((hs.blank _ (Nat.le_refl _)).1 f))
  have h := made hs x x.queuedDebit h1 (by
    intro d hd f
    rw [newObj_val hs, if_neg (by omega)])
  have e : (fun g => if m.nextObj = m.nextObj ∧ g ∈ [Fld.bal, .cr, .db, .ib, .ic, .idb] then
      figure x g else val (newObj m x) m.nextObj g) = figure x := by
    funext g
    rw [if_pos ⟨rfl, all g⟩]
  rw [e] at h
  exact h

theorem empty_sep : Sep empty :=
  ⟨fun _ _ _ h => (by cases h), fun _ _ _ _ _ h => (by cases h), fun _ _ h => (by cases h), fun _ _ => ⟨fun _ => rfl, rfl⟩⟩

end Blnk.Mem
