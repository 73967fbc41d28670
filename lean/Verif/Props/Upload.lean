import Verif.Model.Upload
import Verif.Props.ReconRun
/-
C80: an accepted upload stored its records as given, a refused one none. C81: every upload is answered.
-/
namespace Blnk.Upload

open Blnk.Recon

/-! ### Bookkeeping -/

/-- What becomes of a row. -/
def good (c : Cfg) : Line → Option Rec
  | .broken => none
  | .cells x => parse c x

def goods (c : Cfg) (ls : List Line) : List Rec := ls.filterMap (good c)

/-- The number of rows that give an error. -/
def bads (c : Cfg) (ls : List Line) : Nat := ls.countP (fun l => (good c l).isNone)

/-- The rows not taken by a worker yet. -/
def rest (s : Shared) : List Line := s.chan.map .cells ++ s.lines

def pend : Hand → List Rec
  | .gather b => b
  | .report b _ => b
  | .store todo _ _ => todo
  | .finished => []

def isReport : Hand → Bool
  | .report _ _ => true
  | _ => false

def reports (hs : List Hand) : Nat := hs.countP isReport

def ending : Hand → Bool
  | .finished => true
  | .report _ l => l
  | .store _ _ l => l
  | .gather _ => false

def booked : Hand → Nat
  | .store _ n _ => n
  | _ => 0

def left : Hand → Nat
  | .store todo _ _ => todo.length
  | _ => 0

def bookedAll (hs : List Hand) : Nat := (hs.map booked).sum
def leftAll (hs : List Hand) : Nat := (hs.map left).sum

theorem reports_split (l : List Hand) (h : Hand) (r : List Hand) : reports (l ++ h :: r) = reports (l ++ r) + (if isReport h then 1 else 0) := by
  simp only [reports, List.countP_append, List.countP_cons]
  omega

theorem booked_split (l : List Hand) (h : Hand) (r : List Hand) : bookedAll (l ++ h :: r) = bookedAll (l ++ r) + booked h := by
  simp [bookedAll]; omega

theorem left_split (l : List Hand) (h : Hand) (r : List Hand) : leftAll (l ++ h :: r) = leftAll (l ++ r) + left h := by
  simp [leftAll]; omega

theorem pend_split (l : List Hand) (h : Hand) (r : List Hand) : ((l ++ h :: r).flatMap pend).Perm (pend h ++ (l ++ r).flatMap pend) := by
  simp only [List.flatMap_append, List.flatMap_cons]
  rw [← List.append_assoc, ← List.append_assoc]
  exact List.Perm.append_right _ List.perm_append_comm

theorem next_facts (b : List Rec) (l : Bool) : isReport (next b l) = false ∧ booked (next b l) = 0 ∧ left (next b l) = 0 ∧ ending (next b l) = l ∧
    (l = false → pend (next b l) = b) ∧ (l = true → pend (next b l) = []) := by
  cases l <;> simp [next, isReport, booked, left, ending, pend]

theorem uploaded_append (a b : List (String × Rec)) (u : String) : uploaded (a ++ b) u = uploaded a u ++ uploaded b u := by
  simp [uploaded]

theorem uploaded_mine (u : String) (r : Rec) : uploaded [(u, r)] u = [r] := by simp [uploaded]

theorem uploaded_other {u v : String} (h : v ≠ u) (r : Rec) : uploaded [(v, r)] u = [] := by simp [uploaded, h]

structure Inv (c : Cfg) (L : List Line) (old : List (String × Rec)) (u : State) : Prop where
  size : u.hands.length = c.workers
  before : old <+: u.shared.stored
  keys : (ids u.shared.stored).Nodup
  errs : u.shared.errs ≤ c.workers
  /-- a final report keeps no rows -/
  empty : ∀ h ∈ u.hands, ∀ b, h = .report b true → b = []
  count : u.shared.cancelled = false → bads c L ≤ u.shared.errs + reports u.hands + bads c (rest u.shared)
  last : u.shared.cancelled = false → ∀ h ∈ u.hands, ending h = true → rest u.shared = []
  perm : u.shared.cancelled = false → u.shared.errs + reports u.hands = 0 →
    (uploaded u.shared.stored c.mine ++ u.hands.flatMap pend ++ goods c (rest u.shared)).Perm (goods c L)
  total : u.shared.cancelled = false → u.shared.errs + reports u.hands = 0 →
    u.shared.total + bookedAll u.hands = (uploaded u.shared.stored c.mine).length + leftAll u.hands

theorem reports_start (n : Nat) : reports (List.replicate n (.gather [])) = 0 := by
  simp [reports, List.countP_replicate, isReport]

theorem start_inv {c : Cfg} {L : List Line} {old : List (String × Rec)} (hk : (ids old).Nodup) (hm : uploaded old c.mine = []) : Inv c L old (start c L old) where
  size := by simp [start]
  before := List.prefix_refl _
  keys := hk
  errs := Nat.zero_le _
  empty := by intro h hh b hb; simp [start] at hh; rw [hh.2] at hb; cases hb
  count := by intro _; simp [start, rest]
  last := by intro _ h hh he; simp [start] at hh; rw [hh.2] at he; simp [ending] at he
  perm := by
    intro _ _
    simp only [start, hm, rest]
    have : (List.replicate c.workers (Hand.gather [])).flatMap pend = [] := by
      rw [List.flatMap_eq_nil_iff]; intro h hh; rw [(List.mem_replicate.1 hh).2]; rfl
    rw [this]
    exact List.Perm.refl _
  total := by
    intro _ _
    simp only [start, hm]
    simp [bookedAll, leftAll, booked, left]

theorem bads_cons (c : Cfg) (l : Line) (ls : List Line) : bads c (l :: ls) = bads c ls + (if (good c l).isNone then 1 else 0) := by
  simp [bads, List.countP_cons]

theorem goods_cons_some {c : Cfg} {l : Line} {r : Rec} (h : good c l = some r) (ls : List Line) : goods c (l :: ls) = r :: goods c ls := by
  simp [goods, h]

theorem goods_cons_none {c : Cfg} {l : Line} (h : good c l = none) (ls : List Line) : goods c (l :: ls) = goods c ls := by
  simp [goods, h]

theorem rest_chan {s : Shared} {x : Cells} {ch : List Cells} (h : s.chan = x :: ch) : rest s = .cells x :: rest { s with chan := ch } := by
  simp [rest, h]

theorem read_inv {c : Cfg} {L : List Line} {old : List (String × Rec)} {u : State} {s' : Shared} (hi : Inv c L old u) (h : ReadStep c u.shared s') :
    Inv c L old { u with shared := s' } := by
  cases h with
  | @row x ls hl hr =>
    have hrest : rest { u.shared with lines := ls, chan := u.shared.chan ++ [x] } = rest u.shared := by
      simp [rest, hl]
    exact ⟨hi.size, hi.before, hi.keys, hi.errs, hi.empty, by simpa only [hrest] using hi.count, by simpa only [hrest] using hi.last,
      by simpa only [hrest] using hi.perm, hi.total⟩
  | @broken ls hl he =>
    have hb : bads c (rest u.shared) = bads c (rest { u.shared with lines := ls, errs := u.shared.errs + 1 }) + 1 := by
      simp [rest, hl, bads, good]; omega
    refine ⟨hi.size, hi.before, hi.keys, he, hi.empty, ?_, ?_, ?_, ?_⟩
    · intro hc
      have := hi.count hc
      dsimp only at hb ⊢
      omega
    · intro hc h hh hend
      have := hi.last hc h hh hend
      simp [rest, hl] at this
    · intro _ h0; dsimp only at h0; omega
    · intro _ h0; dsimp only at h0; omega
  | stops hc =>
    refine ⟨hi.size, hi.before, hi.keys, hi.errs, hi.empty, ?_, ?_, ?_, ?_⟩ <;> intro h <;> dsimp only at h <;> rw [hc] at h <;> cases h

theorem other_inv {c : Cfg} {L : List Line} {old : List (String × Rec)} {u v : State} (hi : Inv c L old u) (h : Other c u v) : Inv c L old v := by
  cases h with
  | cancel =>
    refine ⟨hi.size, hi.before, hi.keys, hi.errs, hi.empty, ?_, ?_, ?_, ?_⟩ <;> intro h <;> cases h
  | @store up r hu hr hx =>
    have hup : uploaded (u.shared.stored ++ [(up, r)]) c.mine = uploaded u.shared.stored c.mine := by
      rw [uploaded_append, uploaded_other hu, List.append_nil]
    refine ⟨hi.size, hi.before.trans (List.prefix_append _ _), ?_, hi.errs, hi.empty, hi.count, hi.last, ?_, ?_⟩
    · have hk := hi.keys
      simp only [ids, List.map_append, List.map_cons, List.map_nil] at hk hr ⊢
      rw [List.nodup_append]
      refine ⟨hk, by simp, ?_⟩
      intro a ha b hb
      simp only [List.mem_singleton] at hb
      rintro rfl
      exact hr (hb ▸ ha)
    · intro hc h0
      dsimp only
      rw [hup]
      exact hi.perm hc h0
    · intro hc h0
      dsimp only
      rw [hup]
      exact hi.total hc h0

/-- What a worker's step means for the invariant, worker by worker. -/
theorem hand_inv {c : Cfg} {L : List Line} {old : List (String × Rec)} {u : State} {l r : List Hand} {h h' : Hand} {s' : Shared} (hi : Inv c L old u)
    (hh : u.hands = l ++ h :: r) (hs : HandStep c u.shared h s' h') : Inv c L old { shared := s', hands := l ++ h' :: r } := by
  have hsize : (l ++ h' :: r).length = c.workers := by rw [← hi.size, hh]; simp
  have hmem : ∀ {x}, x ∈ l ++ h' :: r → x ∈ u.hands ∨ x = h' := by
    intro x hx
    rw [hh]
    simp only [List.mem_append, List.mem_cons] at hx ⊢
    rcases hx with h | h | h
    · exact .inl (.inl h)
    · exact .inr h
    · exact .inl (.inr (.inr h))
  have hin : h ∈ u.hands := by rw [hh]; simp
  have hlast : u.shared.cancelled = false → ∀ x ∈ l ++ h' :: r, ending x = true → (ending h' = true → rest u.shared = []) → rest u.shared = [] := by
    intro hc x hx he hf
    rcases hmem hx with hx | rfl
    · exact hi.last hc x hx he
    · exact hf he
  have hempty : (∀ b, h' = .report b true → b = []) → ∀ x ∈ l ++ h' :: r, ∀ b, x = .report b true → b = [] := by
    intro hf x hx b hb
    rcases hmem hx with hx | rfl
    · exact hi.empty x hx b hb
    · exact hf b hb
  have hcount := hi.count
  have hperm := hi.perm
  have htotal := hi.total
  rw [hh, reports_split] at hcount hperm htotal
  rw [booked_split, left_split] at htotal
  have hpend : ∀ {x : Hand}, ((l ++ x :: r).flatMap pend).Perm (pend x ++ (l ++ r).flatMap pend) := fun {x} => pend_split l x r
  -- the rows of everybody
  have hrows : ∀ {x : Hand} {A B : List Rec}, (A ++ (l ++ x :: r).flatMap pend ++ B).Perm (A ++ (pend x ++ (l ++ r).flatMap pend) ++ B) := by
    intro x A B
    exact (hpend.append_left A).append_right B
  cases hs with
  | @take b x ch rr hx hp hl =>
    have hr := rest_chan hx
    have hg : good c (.cells x) = some rr := hp
    rw [hr, bads_cons, hg] at hcount
    refine ⟨hsize, hi.before, hi.keys, hi.errs, hempty (by intro b h; cases h), ?_, ?_, ?_, ?_⟩
    · intro hc; have := hcount hc; dsimp only; rw [reports_split]; simpa [isReport] using this
    · intro hc y hy he
      have := hlast hc y hy he (by intro h; simp [ending] at h)
      rw [hr] at this; cases this
    · intro hc h0
      dsimp only at h0 ⊢
      rw [reports_split] at h0
      have := hperm hc (by simpa [isReport] using h0)
      rw [hr, goods_cons_some hg] at this
      refine List.Perm.trans ?_ this
      refine hrows.trans (List.Perm.trans ?_ hrows.symm)
      simp only [pend, List.append_assoc]
      refine List.Perm.append_left _ (List.Perm.append_left _ ?_)
      refine List.Perm.trans ?_ List.perm_middle.symm
      exact List.Perm.refl _
    · intro hc h0
      dsimp only at h0 ⊢
      rw [reports_split] at h0
      have := htotal hc (by simpa [isReport] using h0)
      rw [booked_split, left_split]
      simpa [booked, left] using this
  | @full b x ch rr hx hp hl =>
    have hr := rest_chan hx
    have hg : good c (.cells x) = some rr := hp
    rw [hr, bads_cons, hg] at hcount
    refine ⟨hsize, hi.before, hi.keys, hi.errs, hempty (by intro b h; cases h), ?_, ?_, ?_, ?_⟩
    · intro hc; have := hcount hc; dsimp only; rw [reports_split]; simpa [isReport] using this
    · intro hc y hy he
      have := hlast hc y hy he (by intro h; simp [ending] at h)
      rw [hr] at this; cases this
    · intro hc h0
      dsimp only at h0 ⊢
      rw [reports_split] at h0
      have := hperm hc (by simpa [isReport] using h0)
      rw [hr, goods_cons_some hg] at this
      refine List.Perm.trans ?_ this
      refine hrows.trans (List.Perm.trans ?_ hrows.symm)
      simp only [pend, List.append_assoc]
      refine List.Perm.append_left _ (List.Perm.append_left _ ?_)
      refine List.Perm.trans ?_ List.perm_middle.symm
      exact List.Perm.refl _
    · intro hc h0
      dsimp only at h0 ⊢
      rw [reports_split] at h0
      have := htotal hc (by simpa [isReport] using h0)
      rw [booked_split, left_split]
      simp [booked, left] at this ⊢
      omega
  | @bad b x ch hx hp =>
    have hr := rest_chan hx
    have hg : good c (.cells x) = none := hp
    rw [hr, bads_cons, hg] at hcount
    refine ⟨hsize, hi.before, hi.keys, hi.errs, hempty (by intro b h; cases h), ?_, ?_, ?_, ?_⟩
    · intro hc; have := hcount hc; dsimp only; rw [reports_split]; simp [isReport] at this ⊢; omega
    · intro hc y hy he
      have := hlast hc y hy he (by intro h; simp [ending] at h)
      rw [hr] at this; cases this
    · intro hc h0; dsimp only at h0; rw [reports_split] at h0; simp [isReport] at h0
    · intro hc h0; dsimp only at h0; rw [reports_split] at h0; simp [isReport] at h0
  | @rest b h1 h2 hb =>
    have hr : Upload.rest u.shared = [] := by simp [Upload.rest, h1, h2]
    refine ⟨hsize, hi.before, hi.keys, hi.errs, hempty (by intro b h; cases h), ?_, fun _ _ _ _ => hr, ?_, ?_⟩
    · intro hc; have := hcount hc; dsimp only; rw [reports_split]; simpa [isReport] using this
    · intro hc h0
      dsimp only at h0 ⊢
      rw [reports_split] at h0
      have := hperm hc (by simpa [isReport] using h0)
      refine List.Perm.trans ?_ this
      refine hrows.trans (List.Perm.trans ?_ hrows.symm)
      exact List.Perm.refl _
    · intro hc h0
      dsimp only at h0 ⊢
      rw [reports_split] at h0
      have := htotal hc (by simpa [isReport] using h0)
      rw [booked_split, left_split]
      simp [booked, left] at this ⊢
      omega
  | leave h1 h2 =>
    have hr : Upload.rest u.shared = [] := by simp [Upload.rest, h1, h2]
    refine ⟨hsize, hi.before, hi.keys, hi.errs, hempty (by intro b h; cases h), ?_, fun _ _ _ _ => hr, ?_, ?_⟩
    · intro hc; have := hcount hc; dsimp only; rw [reports_split]; simpa [isReport] using this
    · intro hc h0
      dsimp only at h0 ⊢
      rw [reports_split] at h0
      have := hperm hc (by simpa [isReport] using h0)
      refine List.Perm.trans ?_ this
      refine hrows.trans (List.Perm.trans ?_ hrows.symm)
      exact List.Perm.refl _
    · intro hc h0
      dsimp only at h0 ⊢
      rw [reports_split] at h0
      have := htotal hc (by simpa [isReport] using h0)
      rw [booked_split, left_split]
      simpa [booked, left] using this
  | @send b la he =>
    obtain ⟨n1, n2, n3, n4, _, _⟩ := next_facts b la
    refine ⟨hsize, hi.before, hi.keys, he, hempty (by intro b' h; rw [h] at n1; simp [isReport] at n1), ?_, ?_, ?_, ?_⟩
    · intro hc
      have := hcount hc
      dsimp only
      rw [reports_split, n1]
      simp [isReport] at this ⊢
      have hre : Upload.rest { u.shared with errs := u.shared.errs + 1 } = Upload.rest u.shared := rfl
      rw [hre]
      omega
    · intro hc y hy hend
      exact hlast hc y hy hend (fun h => hi.last hc _ hin (by rw [n4] at h; simp [ending, h]))
    · intro hc h0; dsimp only at h0; omega
    · intro hc h0; dsimp only at h0; omega
  | @insert rr t n la hk =>
    refine ⟨hsize, hi.before.trans (List.prefix_append _ _), ?_, hi.errs, hempty (by intro b h; cases h), ?_, ?_, ?_, ?_⟩
    · have hk2 := hi.keys
      simp only [ids, List.map_append, List.map_cons, List.map_nil] at hk2 hk ⊢
      rw [List.nodup_append]
      refine ⟨hk2, by simp, ?_⟩
      intro a ha b hb
      simp only [List.mem_singleton] at hb
      rintro rfl
      exact hk (hb ▸ ha)
    · intro hc; have := hcount hc; dsimp only; rw [reports_split]; simpa [isReport, Upload.rest] using this
    · intro hc y hy hend
      exact hlast hc y hy hend (fun h => hi.last hc _ hin (by simpa [ending] using h))
    · intro hc h0
      dsimp only at h0 ⊢
      rw [reports_split] at h0
      have := hperm hc (by simpa [isReport] using h0)
      refine List.Perm.trans ?_ this
      refine hrows.trans (List.Perm.trans ?_ hrows.symm)
      rw [uploaded_append, uploaded_mine]
      simp only [pend, List.append_assoc, List.cons_append]
      exact List.Perm.refl _
    · intro hc h0
      dsimp only at h0 ⊢
      rw [reports_split] at h0
      have := htotal hc (by simpa [isReport] using h0)
      rw [booked_split, left_split, uploaded_append, uploaded_mine]
      simp [booked, left] at this ⊢
      omega
  | @fails rr t n la hk =>
    refine ⟨hsize, hi.before, hi.keys, hi.errs, hempty (by intro b h; cases h; rfl), ?_, ?_, ?_, ?_⟩
    · intro hc; have := hcount hc; dsimp only; rw [reports_split]; simp [isReport] at this ⊢; omega
    · intro hc y hy hend
      exact hlast hc y hy hend (fun h => hi.last hc _ hin (by simpa [ending] using h))
    · intro hc h0; dsimp only at h0; rw [reports_split] at h0; simp [isReport] at h0
    · intro hc h0; dsimp only at h0; rw [reports_split] at h0; simp [isReport] at h0
  | @counted n la =>
    obtain ⟨n1, n2, n3, n4, _, _⟩ := next_facts [] la
    have n5 : pend (next [] la) = [] := by cases la <;> rfl
    refine ⟨hsize, hi.before, hi.keys, hi.errs, hempty (by intro b' h; rw [h] at n1; simp [isReport] at n1), ?_, ?_, ?_, ?_⟩
    · intro hc; have := hcount hc; dsimp only; rw [reports_split, n1]; simpa [isReport, Upload.rest] using this
    · intro hc y hy hend
      exact hlast hc y hy hend (fun h => hi.last hc _ hin (by rw [n4] at h; simp [ending, h]))
    · intro hc h0
      dsimp only at h0 ⊢
      rw [reports_split, n1] at h0
      have := hperm hc (by simpa [isReport] using h0)
      refine List.Perm.trans ?_ this
      refine hrows.trans (List.Perm.trans ?_ hrows.symm)
      rw [n5]
      exact List.Perm.refl _
    · intro hc h0
      dsimp only at h0 ⊢
      rw [reports_split, n1] at h0
      have := htotal hc (by simpa [isReport] using h0)
      rw [booked_split, left_split, n2, n3]
      simp [booked, left] at this ⊢
      omega
  | quit hc =>
    refine ⟨hsize, hi.before, hi.keys, hi.errs, hempty (by intro b h; cases h), ?_, ?_, ?_, ?_⟩ <;> intro h <;> dsimp only at h <;> rw [hc] at h <;> cases h
  | quitRow hc hx =>
    refine ⟨hsize, hi.before, hi.keys, hi.errs, hempty (by intro b h; cases h), ?_, ?_, ?_, ?_⟩ <;> intro h <;> dsimp only at h <;> rw [hc] at h <;> cases h

theorem own_inv {c : Cfg} {L : List Line} {old : List (String × Rec)} {u v : State} (hi : Inv c L old u) (h : Own c u v) : Inv c L old v := by
  cases h with
  | reader h => exact read_inv hi h
  | worker hh hs => exact hand_inv hi hh hs

theorem steps_inv {c : Cfg} {L : List Line} {old : List (String × Rec)} {u v : State} (hi : Inv c L old u) (h : Steps c u v) : Inv c L old v := by
  induction h with
  | refl => exact hi
  | own _ hs ih => exact own_inv ih hs
  | other _ hs ih => exact other_inv ih hs

theorem flatMap_pend_finished {hs : List Hand} (h : ∀ x ∈ hs, x = .finished) : hs.flatMap pend = [] ∧ reports hs = 0 ∧ bookedAll hs = 0 ∧ leftAll hs = 0 := by
  induction hs with
  | nil => exact ⟨rfl, rfl, rfl, rfl⟩
  | cons x hs ih =>
    obtain ⟨h1, h2, h3, h4⟩ := ih (fun y hy => h y (by simp [hy]))
    have hx := h x (by simp)
    subst hx
    refine ⟨by simp [pend, h1], ?_, ?_, ?_⟩
    · simp only [reports, List.countP_cons, isReport] at h2 ⊢; simpa using h2
    · simp only [bookedAll, List.map_cons, List.sum_cons, booked] at h3 ⊢; omega
    · simp only [leftAll, List.map_cons, List.sum_cons, left] at h4 ⊢; omega

theorem finished_rest {c : Cfg} {L : List Line} {old : List (String × Rec)} {u : State} (hw : 0 < c.workers) (hi : Inv c L old u) (hf : Finished u)
    (hc : u.shared.cancelled = false) : rest u.shared = [] := by
  have hl : 0 < u.hands.length := by rw [hi.size]; exact hw
  have hm := List.getElem_mem hl
  exact hi.last hc _ hm (by rw [hf _ hm]; rfl)

/-! ### C80 -/

/-- The record a row of the file gives: no cell is blank, and the amount and the date are what their
texts say. -/
def Given (c : Cfg) (l : Line) (r : Rec) : Prop := ∃ x : Cells, l = .cells x ∧
  x.id ≠ "" ∧ x.currency ≠ "" ∧ x.reference ≠ "" ∧ x.description ≠ "" ∧
  c.num x.amount = some r.amount ∧ c.time x.date = some r.date ∧
  r.id = x.id ∧ r.currency = x.currency ∧ r.reference = x.reference ∧ r.description = x.description

/-- The records of a file. -/
inductive Contents (c : Cfg) : List Line → List Rec → Prop
  | nil : Contents c [] []
  | cons {l r ls rs} (h : Given c l r) (ht : Contents c ls rs) : Contents c (l :: ls) (r :: rs)

/-- **C80 as stated**: an accepted upload stored the records of the file, each once, and nothing else,
and its answer is their number; a refused upload stored nothing. -/
def C80Full : Prop := ∀ (c : Cfg) (L : List Line) (old : List (String × Rec)) (u : State), 0 < c.workers → (ids old).Nodup → uploaded old c.mine = [] →
  Steps c (start c L old) u → Finished u →
  (∀ n, answer u = some n → ∃ rows, Contents c L rows ∧ (uploaded u.shared.stored c.mine).Perm rows ∧ n = rows.length) ∧
  (answer u = none → uploaded u.shared.stored c.mine = [])

/-- The amounts and dates of the file can be read, wherever its cells are not blank. -/
def Legible (c : Cfg) (L : List Line) : Prop := ∀ x : Cells, .cells x ∈ L → x.amount ≠ "" → x.date ≠ "" →
  (c.num x.amount).isSome = true ∧ (c.time x.date).isSome = true

theorem contents_goods {c : Cfg} : ∀ {L : List Line}, bads c L = 0 → Legible c L → Contents c L (goods c L) := by
  intro L
  induction L with
  | nil => intro _ _; exact .nil
  | cons l ls ih =>
    intro hb hl
    rw [bads_cons] at hb
    have hb2 : bads c ls = 0 := by omega
    have ht := ih hb2 (fun x hx => hl x (by simp [hx]))
    cases hg : good c l with
    | none => rw [hg] at hb; simp at hb
    | some r =>
      rw [goods_cons_some hg]
      refine .cons ?_ ht
      cases l with
      | broken => cases hg
      | cells x =>
        simp only [good, parse] at hg
        split at hg
        · cases hg
        · rename_i hne
          simp only [not_or] at hne
          obtain ⟨a1, a2, a3, a4, a5, a6⟩ := hne
          obtain ⟨b1, b2⟩ := hl x (by simp) a2 a6
          obtain ⟨am, ham⟩ := Option.isSome_iff_exists.1 b1
          obtain ⟨da, hda⟩ := Option.isSome_iff_exists.1 b2
          rw [ham, hda] at hg
          have hg := Option.some.inj hg
          subst hg
          exact ⟨x, rfl, a1, a3, a4, a5, ham, hda, rfl, rfl, rfl, rfl⟩

theorem contents_length {c : Cfg} {L : List Line} {rows : List Rec} (h : Contents c L rows) : rows.length = L.length := by
  induction h with
  | nil => rfl
  | cons _ _ ih => simp [ih]

/-- **C80, the accepted part, for legible files**: if the request was not given up meanwhile and the
amounts and dates can be read, then an accepted upload stored the records of the file, each once, and
nothing else, however the workers' steps interleave and whatever inserts failed; its answer is the
number of rows. -/
theorem c80_accepted_partial {c : Cfg} {L : List Line} {old : List (String × Rec)} {u : State} {n : Nat} (hw : 0 < c.workers) (hk : (ids old).Nodup)
    (hm : uploaded old c.mine = []) (h : Steps c (start c L old) u) (hf : Finished u) (hc : u.shared.cancelled = false) (ha : answer u = some n)
    (hl : Legible c L) : ∃ rows, Contents c L rows ∧ (uploaded u.shared.stored c.mine).Perm rows ∧ n = L.length := by
  have hi := steps_inv (start_inv hk hm) h
  have hr := finished_rest hw hi hf hc
  obtain ⟨f1, f2, f3, f4⟩ := flatMap_pend_finished hf
  unfold answer at ha
  split at ha
  · rename_i he
    have he0 : u.shared.errs + reports u.hands = 0 := by omega
    have hcount := hi.count hc
    rw [hr] at hcount
    have hb : bads c L = 0 := by
      have h0 : bads c [] = 0 := rfl
      omega
    have hcon := contents_goods hb hl
    have hp := hi.perm hc he0
    rw [hr, f1] at hp
    simp only [goods, List.filterMap_nil, List.append_nil] at hp
    refine ⟨goods c L, hcon, hp, ?_⟩
    have ht := hi.total hc he0
    rw [f3, f4] at ht
    have := Option.some.inj ha
    have h2 := hp.length_eq
    have h3 := contents_length hcon
    simp only [goods] at h3
    omega
  · cases ha

theorem ids_unique : ∀ {st : List (String × Rec)} {p q : String × Rec}, (ids st).Nodup → p ∈ st → q ∈ st → p.2.id = q.2.id → p = q := by
  intro st
  induction st with
  | nil => intro p q _ h; cases h
  | cons y st ih =>
    intro p q hn hp hq he
    simp only [ids, List.map_cons, List.nodup_cons] at hn
    rcases List.mem_cons.1 hp with e1 | hp'
    · rcases List.mem_cons.1 hq with e2 | hq'
      · rw [e1, e2]
      · rw [e1] at he
        exact absurd (List.mem_map.2 ⟨q, hq', he.symm⟩) hn.1
    · rcases List.mem_cons.1 hq with e2 | hq'
      · rw [e2] at he
        exact absurd (List.mem_map.2 ⟨p, hp', he⟩) hn.1
      · exact ih hn.2 hp' hq' he

/-- **C80 fails for every file that has to be sent again.** A file with a row whose id is stored
already, under whatever upload, is refused: so after a refused upload that had stored some of its
rows the corrected file is refused too, and again. -/
theorem c80_resend_refused {c : Cfg} {L : List Line} {old : List (String × Rec)} {u : State} {x : Cells} (hw : 0 < c.workers) (hk : (ids old).Nodup)
    (hm : uploaded old c.mine = []) (h : Steps c (start c L old) u) (hf : Finished u) (hc : u.shared.cancelled = false)
    (hx : .cells x ∈ L) (hid : x.id ∈ ids old) : answer u = none := by
  have hi := steps_inv (start_inv hk hm) h
  have hr := finished_rest hw hi hf hc
  obtain ⟨f1, f2, f3, f4⟩ := flatMap_pend_finished hf
  unfold answer
  split
  · rename_i he
    exfalso
    have he0 : u.shared.errs + reports u.hands = 0 := by omega
    have hcount := hi.count hc
    rw [hr] at hcount
    have hb : bads c L = 0 := by
      have h0 : bads c [] = 0 := rfl
      omega
    have hp := hi.perm hc he0
    rw [hr, f1] at hp
    simp only [goods, List.filterMap_nil, List.append_nil] at hp
    have hg : (good c (.cells x)).isSome = true := by
      simp only [bads, List.countP_eq_zero] at hb
      have := hb _ hx
      cases hgx : good c (.cells x) with
      | none => rw [hgx] at this; simp at this
      | some r => rfl
    obtain ⟨r, hr2⟩ := Option.isSome_iff_exists.1 hg
    have hrid : r.id = x.id := by
      simp only [good, parse] at hr2
      split at hr2
      · cases hr2
      · rw [← Option.some.inj hr2]
    have hmem : r ∈ uploaded u.shared.stored c.mine := hp.symm.subset (List.mem_filterMap.2 ⟨_, hx, hr2⟩)
    obtain ⟨p, hp1, hp2⟩ := List.mem_map.1 hmem
    obtain ⟨hp1, hp3⟩ := List.mem_filter.1 hp1
    obtain ⟨q, hq1, hq2⟩ := List.mem_map.1 hid
    have hq3 : q ∈ u.shared.stored := hi.before.subset hq1
    have := ids_unique hi.keys hp1 hq3 (by rw [hp2, hrid, hq2])
    subst this
    have : r ∈ uploaded old c.mine := by
      unfold uploaded
      exact List.mem_map.2 ⟨p, List.mem_filter.2 ⟨hq1, hp3⟩, hp2⟩
    rw [hm] at this
    cases this
  · rfl

/-- What is stored under other uploads is never touched. -/
theorem c80_others_kept {c : Cfg} {L : List Line} {old : List (String × Rec)} {u : State} (hk : (ids old).Nodup)
    (hm : uploaded old c.mine = []) (h : Steps c (start c L old) u) : old <+: u.shared.stored ∧ (ids u.shared.stored).Nodup :=
  let hi := steps_inv (start_inv hk hm) h
  ⟨hi.before, hi.keys⟩

/-! ### C81 -/

/-- **C81 as stated**: from wherever an upload has come to, it can go on to an answer. -/
def C81Full : Prop := ∀ (c : Cfg) (L : List Line) (old : List (String × Rec)) (u : State), 0 < c.workers → 0 < c.channel → 0 < c.batch → (ids old).Nodup →
  uploaded old c.mine = [] → Steps c (start c L old) u → u.shared.cancelled = false → ∃ v, Steps c u v ∧ v.shared.cancelled = false ∧ Finished v

theorem cancelled_own {c : Cfg} {u v : State} (h : Own c u v) : v.shared.cancelled = u.shared.cancelled := by
  cases h with
  | reader h => cases h <;> rfl
  | worker hh hs => cases hs <;> rfl

theorem cancelled_back {c : Cfg} {u v : State} (h : Steps c u v) (hc : v.shared.cancelled = false) : u.shared.cancelled = false := by
  induction h with
  | refl => exact hc
  | own _ hs ih => exact ih (by rw [← cancelled_own hs]; exact hc)
  | other _ hs ih =>
    cases hs with
    | cancel => cases hc
    | store _ _ _ => exact ih hc

/-- **C81 fails for every file with more bad rows than workers**, that is, more than four: as long as
the client waits, it is not answered. -/
theorem c81_bad_file_never_answered {c : Cfg} {L : List Line} {old : List (String × Rec)} {u : State} (hw : 0 < c.workers) (hk : (ids old).Nodup)
    (hm : uploaded old c.mine = []) (hb : c.workers < bads c L) (h : Steps c (start c L old) u) (hc : u.shared.cancelled = false) : ¬ Finished u := by
  intro hf
  have hi := steps_inv (start_inv hk hm) h
  have hr := finished_rest hw hi hf hc
  obtain ⟨_, f2, _, _⟩ := flatMap_pend_finished hf
  have hcount := hi.count hc
  have := hi.errs
  rw [hr, f2] at hcount
  simp only [bads, List.countP_nil] at hcount hb
  omega

theorem steps_errs {c : Cfg} {u v : State} (h : Own c u v) (he : u.shared.errs = c.workers) (hr : ∃ x ∈ u.hands, isReport x = true) :
    v.shared.errs = c.workers ∧ ∃ x ∈ v.hands, isReport x = true := by
  cases h with
  | reader h =>
    cases h with
    | row _ _ => exact ⟨he, hr⟩
    | broken _ hlt => omega
    | stops _ => exact ⟨he, hr⟩
  | @worker l y r s' y' hh hs =>
    have key : isReport y = false → ∃ x ∈ l ++ y' :: r, isReport x = true := by
      intro hy
      obtain ⟨x, hx, hxr⟩ := hr
      rw [hh] at hx
      refine ⟨x, ?_, hxr⟩
      simp only [List.mem_append, List.mem_cons] at hx ⊢
      rcases hx with h | rfl | h
      · exact .inl h
      · rw [hy] at hxr; cases hxr
      · exact .inr (.inr h)
    cases hs with
    | send hlt => omega
    | take _ _ _ => exact ⟨he, key rfl⟩
    | full _ _ _ => exact ⟨he, key rfl⟩
    | bad _ _ => exact ⟨he, key rfl⟩
    | rest _ _ _ => exact ⟨he, key rfl⟩
    | leave _ _ => exact ⟨he, key rfl⟩
    | insert _ => exact ⟨he, key rfl⟩
    | fails _ => exact ⟨he, key rfl⟩
    | counted => exact ⟨he, key rfl⟩
    | quit _ => exact ⟨he, key rfl⟩
    | quitRow _ _ => exact ⟨he, key rfl⟩

/-- **Once it hangs it hangs for good**, whether or not the client gives up: with the error channel full
and a worker about to report, the worker never returns. -/
theorem c81_hangs_for_good {c : Cfg} {u v : State} (he : u.shared.errs = c.workers) (hr : ∃ x ∈ u.hands, isReport x = true) (h : Steps c u v) : ¬ Finished v := by
  have : v.shared.errs = c.workers ∧ ∃ x ∈ v.hands, isReport x = true := by
    induction h with
    | refl => exact ⟨he, hr⟩
    | own _ hs ih => exact steps_errs hs ih.1 ih.2
    | other _ hs ih =>
      cases hs with
      | cancel => exact ih
      | store _ _ _ => exact ih
  intro hf
  obtain ⟨x, hx, hxr⟩ := this.2
  rw [hf x hx] at hxr
  cases hxr

/-! #### Files that are answered -/

def handWeight : Hand → Nat
  | .gather b => 3 * b.length + 3
  | .report b l => 3 * b.length + (if l then 2 else 4)
  | .store t _ l => 3 * t.length + (if l then 1 else 4)
  | .finished => 0

/-- A bound on the steps an upload can still make. -/
def weight (u : State) : Nat := 10 * u.shared.lines.length + 9 * u.shared.chan.length + (u.hands.map handWeight).sum

theorem weight_split (s : Shared) (l : List Hand) (h : Hand) (r : List Hand) :
    weight { shared := s, hands := l ++ h :: r } = 10 * s.lines.length + 9 * s.chan.length + ((l ++ r).map handWeight).sum + handWeight h := by
  simp [weight]; omega

theorem next_weight (b : List Rec) (l : Bool) : handWeight (next b l) = if l then 0 else 3 * b.length + 3 := by cases l <;> rfl

/-- Every step of the upload itself uses up some of the bound, unless the client gives up. -/
theorem own_weight {c : Cfg} {u v : State} (hc : u.shared.cancelled = false) (h : Own c u v) : weight v < weight u := by
  cases h with
  | reader h =>
    cases h with
    | row hl hr => simp [weight, hl] <;> omega
    | broken hl he => simp [weight, hl] <;> omega
    | stops h => rw [hc] at h; cases h
  | @worker l y r s' y' hh hs =>
    have hu : u = { shared := u.shared, hands := l ++ y :: r } := by rw [← hh]
    rw [hu, weight_split, weight_split]
    cases hs with
    | take hx _ _ => simp [hx, handWeight]; omega
    | full hx _ _ => simp [hx, handWeight]; omega
    | bad hx _ => simp [hx, handWeight]; omega
    | rest _ _ _ => simp [handWeight]
    | leave _ _ => simp [handWeight]
    | @send b la _ => rw [next_weight]; cases la <;> simp [handWeight]
    | insert _ => simp [handWeight]
    | @fails _ _ _ la _ => cases la <;> simp [handWeight] <;> omega
    | @counted n la => rw [next_weight]; cases la <;> simp [handWeight]
    | quit _ => simp [handWeight]
    | quitRow _ hx => simp [hx, handWeight] <;> omega

/-- The rows still to be stored. -/
def todo (c : Cfg) (s : Shared) (hs : List Hand) : List Rec := hs.flatMap pend ++ goods c (rest s)

structure Fit (c : Cfg) (u : State) : Prop where
  keys : (ids u.shared.stored ++ (todo c u.shared u.hands).map (·.id)).Nodup
  room : u.shared.errs + reports u.hands + bads c (rest u.shared) ≤ c.workers
  own : ∀ r ∈ todo c u.shared u.hands, r.id ∈ c.reserved

theorem todo_split (c : Cfg) (s : Shared) (l : List Hand) (h : Hand) (r : List Hand) :
    (todo c s (l ++ h :: r)).Perm (pend h ++ ((l ++ r).flatMap pend ++ goods c (rest s))) := by
  unfold todo
  rw [← List.append_assoc]
  exact (pend_split l h r).append_right _

theorem fit_perm {c : Cfg} {u v : State} (hf : Fit c u) (hp : (todo c v.shared v.hands).Perm (todo c u.shared u.hands)) (hst : v.shared.stored = u.shared.stored)
    (hr : v.shared.errs + reports v.hands + bads c (rest v.shared) ≤ u.shared.errs + reports u.hands + bads c (rest u.shared)) : Fit c v := by
  refine ⟨?_, Nat.le_trans hr hf.room, fun r h => hf.own r (hp.subset h)⟩
  rw [hst]
  exact ((hp.map _).append_left _).nodup_iff.2 hf.keys

theorem own_fit {c : Cfg} {L : List Line} {old : List (String × Rec)} {u v : State} (hi : Inv c L old u) (hfl : c.flaky = false) (hc : u.shared.cancelled = false) (hf : Fit c u)
    (h : Own c u v) : Fit c v := by
  cases h with
  | reader h =>
    cases h with
    | @row x ls hl hr =>
      have hrest : rest { u.shared with lines := ls, chan := u.shared.chan ++ [x] } = rest u.shared := by simp [rest, hl]
      exact ⟨by simpa only [todo, hrest] using hf.keys, by simpa only [hrest] using hf.room, by simpa only [todo, hrest] using hf.own⟩
    | @broken ls hl he =>
      have hb : bads c (rest u.shared) = bads c (rest { u.shared with lines := ls, errs := u.shared.errs + 1 }) + 1 := by
        simp [rest, hl, bads, good]; omega
      have hg : goods c (rest { u.shared with lines := ls, errs := u.shared.errs + 1 }) = goods c (rest u.shared) := by
        simp only [rest, hl, goods, List.filterMap_append, List.filterMap_cons, good]
      refine fit_perm hf ?_ rfl ?_
      · simp only [todo] at hg ⊢
        rw [hg]
      · simp only at hb ⊢
        omega
    | stops h => rw [hc] at h; cases h
  | @worker l y r s' y' hh hs =>
    have hin : y ∈ u.hands := by rw [hh]; simp
    have hroom := hf.room
    -- a step that moves rows about and adds no error
    have move : (pend y' ++ ((l ++ r).flatMap pend ++ goods c (rest s'))).Perm (pend y ++ ((l ++ r).flatMap pend ++ goods c (rest u.shared))) →
        s'.stored = u.shared.stored →
        s'.errs + (if isReport y' then 1 else 0) + bads c (rest s') ≤ u.shared.errs + (if isReport y then 1 else 0) + bads c (rest u.shared) →
        Fit c { shared := s', hands := l ++ y' :: r } := by
      intro hp hst hr
      refine fit_perm hf ?_ hst ?_
      · dsimp only
        rw [hh]
        exact (todo_split c s' l y' r).trans (hp.trans (todo_split c u.shared l y r).symm)
      · dsimp only
        rw [hh, reports_split, reports_split]
        omega
    cases hs with
    | @take b x ch rr hx hp hl =>
      have hg : good c (.cells x) = some rr := hp
      refine move ?_ rfl ?_
      · rw [rest_chan hx, goods_cons_some hg]
        simp only [pend, List.append_assoc]
        refine List.Perm.append_left _ (List.Perm.trans ?_ List.perm_middle.symm)
        exact List.Perm.refl _
      · rw [rest_chan hx, bads_cons, hg]; simp [isReport]
    | @full b x ch rr hx hp hl =>
      have hg : good c (.cells x) = some rr := hp
      refine move ?_ rfl ?_
      · rw [rest_chan hx, goods_cons_some hg]
        simp only [pend, List.append_assoc]
        refine List.Perm.append_left _ (List.Perm.trans ?_ List.perm_middle.symm)
        exact List.Perm.refl _
      · rw [rest_chan hx, bads_cons, hg]; simp [isReport]
    | @bad b x ch hx hp =>
      have hg : good c (.cells x) = none := hp
      refine move ?_ rfl ?_
      · rw [rest_chan hx, goods_cons_none hg]
        exact List.Perm.refl _
      · rw [rest_chan hx, bads_cons, hg]; simp [isReport]; omega
    | @rest b h1 h2 hb => exact move (List.Perm.refl _) rfl (by simp [isReport])
    | leave h1 h2 => exact move (List.Perm.refl _) rfl (by simp [isReport])
    | @send b la he =>
      obtain ⟨n1, _, _, _, n5, n6⟩ := next_facts b la
      have hp : pend (next b la) = b := by
        cases la with
        | false => exact n5 rfl
        | true => rw [n6 rfl, hi.empty _ hin b rfl]
      refine move ?_ rfl ?_
      · rw [hp]; exact List.Perm.refl _
      · rw [n1]
        have hre : Upload.rest { u.shared with errs := u.shared.errs + 1 } = Upload.rest u.shared := rfl
        rw [hre]
        simp [isReport]
    | @insert rr t n la hk =>
      have hk2 := hf.keys
      rw [hh] at hk2
      have hp1 := todo_split c u.shared l (.store (rr :: t) n la) r
      have hp2 := todo_split c { u.shared with stored := u.shared.stored ++ [(c.mine, rr)] } l (.store t n la) r
      refine ⟨?_, ?_, ?_⟩
      · have h3 := ((hp1.map (·.id)).append_left (ids u.shared.stored)).nodup_iff.1 hk2
        refine ((hp2.map (·.id)).append_left _).nodup_iff.2 ?_
        simpa [ids, pend, Upload.rest] using h3
      · dsimp only
        rw [reports_split]
        rw [hh, reports_split] at hroom
        simpa [isReport, Upload.rest] using hroom
      · intro y hy
        refine hf.own y ?_
        rw [hh]
        refine hp1.symm.subset ?_
        have := hp2.subset hy
        simp only [pend, List.cons_append, List.mem_cons]
        exact .inr this
    | @fails rr t n la hk =>
      exfalso
      rcases hk with h | h | h
      · rw [hfl] at h; cases h
      · rw [hc] at h; cases h
      · have hk2 := hf.keys
        rw [hh] at hk2
        have hp1 := todo_split c u.shared l (.store (rr :: t) n la) r
        have h3 := ((hp1.map (·.id)).append_left (ids u.shared.stored)).nodup_iff.1 hk2
        rw [List.nodup_append] at h3
        exact h3.2.2 _ h _ (by simp [pend]) rfl
    | @counted n la =>
      obtain ⟨n1, _, _, _, _, _⟩ := next_facts [] la
      have n5 : pend (next [] la) = [] := by cases la <;> rfl
      refine move ?_ rfl ?_
      · rw [n5]; exact List.Perm.refl _
      · rw [n1]; simp [isReport, Upload.rest]
    | quit h => rw [hc] at h; cases h
    | quitRow h _ => rw [hc] at h; cases h

theorem other_fit {c : Cfg} {u v : State} (hf : Fit c u) (h : Other c u v) : Fit c v := by
  cases h with
  | cancel => exact ⟨hf.keys, hf.room, hf.own⟩
  | @store up r hu hr hx =>
    refine ⟨?_, hf.room, hf.own⟩
    have hk := hf.keys
    rw [List.nodup_append] at hk
    obtain ⟨k1, k2, k3⟩ := hk
    have htodo : todo c { u.shared with stored := u.shared.stored ++ [(up, r)] } u.hands = todo c u.shared u.hands := rfl
    dsimp only at htodo ⊢
    rw [htodo]
    rw [List.nodup_append]
    refine ⟨?_, k2, ?_⟩
    · simp only [ids, List.map_append, List.map_cons, List.map_nil] at k1 hr ⊢
      rw [List.nodup_append]
      refine ⟨k1, by simp, ?_⟩
      intro a ha b hb
      simp only [List.mem_singleton] at hb
      rintro rfl
      exact hr (hb ▸ ha)
    · intro a ha b hb hab
      simp only [ids, List.map_append, List.map_cons, List.map_nil, List.mem_append, List.mem_singleton] at ha
      rcases ha with ha | rfl
      · exact k3 a ha b hb hab
      · obtain ⟨y, hy, hyb⟩ := List.mem_map.1 hb
        exact hx (by rw [hab, ← hyb]; exact hf.own y hy)

/-- The upload can go on, unless it is answered. -/
theorem fit_progress {c : Cfg} {u : State} (hch : 0 < c.channel) (hf : Fit c u) (hn : ¬ Finished u) : ∃ v, Own c u v := by
  obtain ⟨y, hy, hne⟩ : ∃ y ∈ u.hands, y ≠ .finished := by
    false_or_by_contra
    rename_i hcon
    exact hn (fun h hh => Classical.byContradiction fun hx => hcon ⟨h, hh, hx⟩)
  obtain ⟨l, r, hh⟩ := List.append_of_mem hy
  have hroom := hf.room
  rw [hh, reports_split] at hroom
  cases y with
  | finished => exact absurd rfl hne
  | report b la => exact ⟨_, .worker hh (.send (by simp [isReport] at hroom; omega))⟩
  | store t n la =>
    cases t with
    | nil => exact ⟨_, .worker hh .counted⟩
    | cons rr t =>
      refine ⟨_, .worker hh (.insert ?_)⟩
      intro h
      have hk2 := hf.keys
      rw [hh] at hk2
      have hp1 := todo_split c u.shared l (.store (rr :: t) n la) r
      have h3 := ((hp1.map (·.id)).append_left (ids u.shared.stored)).nodup_iff.1 hk2
      rw [List.nodup_append] at h3
      exact h3.2.2 _ h _ (by simp [pend]) rfl
  | gather b =>
    cases hx : u.shared.chan with
    | cons x ch =>
      cases hp : parse c x with
      | none => exact ⟨_, .worker hh (.bad hx hp)⟩
      | some rr =>
        by_cases hl : b.length + 1 < c.batch
        · exact ⟨_, .worker hh (.take hx hp hl)⟩
        · exact ⟨_, .worker hh (.full hx hp (by omega))⟩
    | nil =>
      cases hl : u.shared.lines with
      | nil =>
        cases b with
        | nil => exact ⟨_, .worker hh (.leave hl hx)⟩
        | cons a b => exact ⟨_, .worker hh (.rest hl hx (by simp))⟩
      | cons x ls =>
        cases x with
        | cells x => exact ⟨_, .reader (.row hl (by rw [hx]; exact hch))⟩
        | broken =>
          refine ⟨_, .reader (.broken hl ?_)⟩
          have : 1 ≤ bads c (rest u.shared) := by simp [rest, hx, hl, bads, good]
          omega

theorem start_fit {c : Cfg} {L : List Line} {old : List (String × Rec)} (hk : (ids old ++ (goods c L).map (·.id)).Nodup) (hb : bads c L ≤ c.workers)
    (hr : ∀ r ∈ goods c L, r.id ∈ c.reserved) : Fit c (start c L old) := by
  have ht : todo c (start c L old).shared (start c L old).hands = goods c L := by
    have : (List.replicate c.workers (Hand.gather [])).flatMap pend = [] := by
      rw [List.flatMap_eq_nil_iff]; intro h hh; rw [(List.mem_replicate.1 hh).2]; rfl
    simp only [todo, start, this, List.nil_append]
    rfl
  refine ⟨?_, ?_, ?_⟩
  · rw [ht]; exact hk
  · simp only [start, reports_start]
    simpa [rest] using hb
  · rw [ht]; exact hr

theorem steps_fit {c : Cfg} {L : List Line} {old : List (String × Rec)} {u v : State} (hfl : c.flaky = false) (hi : Inv c L old u) (hf : Fit c u)
    (h : Steps c u v) (hc : v.shared.cancelled = false) : Fit c v := by
  induction h with
  | refl => exact hf
  | own h1 hs ih =>
    have hc1 : _ := hc
    rw [cancelled_own hs] at hc1
    exact own_fit (steps_inv hi h1) hfl hc1 (ih hc1) hs
  | other h1 hs ih =>
    refine other_fit (ih ?_) hs
    cases hs with
    | cancel => cases hc
    | store _ _ _ => exact hc

/-- A file without trouble: at most as many bad rows as workers, all ids new, and no other upload using
them meanwhile. -/
structure Untroubled (c : Cfg) (L : List Line) (old : List (String × Rec)) : Prop where
  keys : (ids old ++ (goods c L).map (·.id)).Nodup
  bad : bads c L ≤ c.workers
  reserved : ∀ r ∈ goods c L, r.id ∈ c.reserved
  steady : c.flaky = false

/-- **C81 for untroubled files**: wherever such an upload has come to, it is answered or can make a step
of its own; every one of those uses up some of a bound fixed at the start, and nothing others do
raises it. So it is answered, in whatever order the steps come. -/
theorem c81_answered_partial {c : Cfg} {L : List Line} {old : List (String × Rec)} {u : State} (hch : 0 < c.channel) (ho : (ids old).Nodup)
    (hm : uploaded old c.mine = []) (hu : Untroubled c L old) (h : Steps c (start c L old) u) (hc : u.shared.cancelled = false) :
    (Finished u ∨ ∃ v, Own c u v) ∧ (∀ v, Own c u v → weight v < weight u) ∧ (∀ v, Other c u v → weight v = weight u) := by
  have hf := steps_fit hu.steady (start_inv ho hm) (start_fit hu.keys hu.bad hu.reserved) h hc
  refine ⟨?_, fun v hv => own_weight hc hv, ?_⟩
  · by_cases hfin : Finished u
    · exact .inl hfin
    · exact .inr (fit_progress hch hf hfin)
  · intro v hv
    cases hv <;> rfl

/-- **C81 for untroubled files, in one word**: from wherever it has come to, it reaches its answer. -/
theorem c81_reaches_answer_partial {c : Cfg} {L : List Line} {old : List (String × Rec)} (hch : 0 < c.channel) (ho : (ids old).Nodup)
    (hm : uploaded old c.mine = []) (hu : Untroubled c L old) {u : State} (h : Steps c (start c L old) u) (hc : u.shared.cancelled = false) :
    ∃ v, Steps c u v ∧ v.shared.cancelled = false ∧ Finished v := by
  have key : ∀ (n : Nat) (u : State), weight u ≤ n → Steps c (start c L old) u → u.shared.cancelled = false →
      ∃ v, Steps c u v ∧ v.shared.cancelled = false ∧ Finished v := by
    intro n
    induction n with
    | zero =>
      intro u hw h hc
      obtain ⟨h1, h2, _⟩ := c81_answered_partial hch ho hm hu h hc
      rcases h1 with h1 | ⟨v, hv⟩
      · exact ⟨u, .refl, hc, h1⟩
      · have := h2 v hv; omega
    | succ n ih =>
      intro u hw h hc
      obtain ⟨h1, h2, _⟩ := c81_answered_partial hch ho hm hu h hc
      rcases h1 with h1 | ⟨v, hv⟩
      · exact ⟨u, .refl, hc, h1⟩
      · have hlt := h2 v hv
        obtain ⟨w, hw1, hw2, hw3⟩ := ih v (by omega) (.own h hv) (by rw [cancelled_own hv]; exact hc)
        refine ⟨w, ?_, hw2, hw3⟩
        clear hw2 hw3 ih hlt
        induction hw1 with
        | refl => exact .own .refl hv
        | own _ hs ih => exact .own ih hs
        | other _ hs ih => exact .other ih hs
  exact key _ u (Nat.le_refl _) h hc

theorem bads_all {c : Cfg} {n : Nat} : bads c (List.replicate n .broken) = n := by
  simp [bads, List.countP_replicate, good]

/-- **C81 fails.** -/
theorem c81_full_fails : ¬ C81Full := by
  intro h
  let c : Cfg := { num := fun _ => none, time := fun _ => none, workers := 4, channel := 1000, batch := 500, mine := "u", flaky := false, reserved := [] }
  obtain ⟨v, hs, hc, hf⟩ := h c (List.replicate 5 .broken) [] _ (by decide) (by decide) (by decide) (by decide) rfl .refl rfl
  exact c81_bad_file_never_answered (c := c) (by decide) (by decide) rfl (by rw [bads_all]; decide) hs hc hf

/-! ### Witnesses -/

/-- Whole numbers and decimals without a sign; other texts cannot be read. -/
def digits : List Char → Option Nat
  | [] => none
  | cs => if cs.all Char.isDigit then some (cs.foldl (fun n ch => 10 * n + (ch.toNat - 48)) 0) else none

def decimal (t : String) : Option Rat :=
  match digits (t.toList.takeWhile (· ≠ '.')), t.toList.dropWhile (· ≠ '.') with
  | some n, [] => some n
  | some n, _ :: f => (digits f).map fun k => (n : Rat) + (k : Rat) / (10 ^ f.length : Nat)
  | none, _ => none

def day (t : String) : Option Rat := if t = "2024-01-15T00:00:00Z" then some 1705276800 else none

/-- One worker is enough for the witnesses. -/
def one : Cfg := { num := decimal, time := day, workers := 1, channel := 1000, batch := 500, mine := "u", flaky := false, reserved := ["a", "b"] }

def rowA : Cells := { id := "a", amount := "1,250.00", date := "2024-01-15T00:00:00Z" }
def rowB : Cells := { id := "b", amount := "12.50", date := "2024-01-15" }
def rowC : Cells := { id := "c", amount := "12.50", date := "2024-01-15T00:00:00Z" }
def noId : Cells := { id := "", amount := "1", date := "2024-01-15T00:00:00Z" }

/-- A file of one good row, from start to answer. -/
theorem one_row {x : Cells} {r : Rec} (hp : parse one x = some r) : Steps one (start one [.cells x] [])
    { shared := { lines := [], stored := [("u", r)], total := 1 }, hands := [.finished] } := by
  have s1 : Steps one (start one [.cells x] []) { shared := { lines := [], chan := [x], stored := [] }, hands := [.gather []] } :=
    .own .refl (.reader (.row (x := x) (ls := []) rfl (by show 0 < 1000; decide)))
  have s2 : Steps one (start one [.cells x] []) { shared := { lines := [], stored := [] }, hands := [.gather [r]] } :=
    .own s1 (.worker (l := []) (r := []) rfl (.take (b := []) rfl hp (by decide)))
  have s3 : Steps one (start one [.cells x] []) { shared := { lines := [], stored := [] }, hands := [.store [r] 1 true] } :=
    .own s2 (.worker (l := []) (r := []) rfl (.rest (b := [r]) rfl rfl (by simp)))
  have s4 : Steps one (start one [.cells x] []) { shared := { lines := [], stored := [("u", r)] }, hands := [.store [] 1 true] } :=
    .own s3 (.worker (l := []) (r := []) rfl (.insert (by simp [ids])))
  exact .own s4 (.worker (l := []) (r := []) rfl .counted)

theorem contents_one {c : Cfg} {l : Line} {rows : List Rec} (h : Contents c [l] rows) : ∃ r, Given c l r := by
  cases h with
  | cons h _ => exact ⟨_, h⟩

/-- **C80 fails: an amount that cannot be read is stored as zero** (`1,250.00`). -/
theorem c80_full_fails : ¬ C80Full := by
  intro h
  obtain ⟨h1, _⟩ := h one [.cells rowA] [] _ (by decide) (by decide) rfl (one_row (r := { id := "a", amount := 0, date := 1705276800, description := "d", reference := "r" }) (by decide +kernel)) (by decide +kernel)
  obtain ⟨rows, hc, _, _⟩ := h1 1 rfl
  obtain ⟨r, x, hx, _, _, _, _, hnum, _⟩ := contents_one hc
  cases hx
  have : one.num rowA.amount = none := by decide +kernel
  rw [this] at hnum
  cases hnum

/-- **C80 fails: a date that cannot be read is stored as the year 1** (`2024-01-15`). -/
theorem c80_date_fails : ¬ C80Full := by
  intro h
  obtain ⟨h1, _⟩ := h one [.cells rowB] [] _ (by decide) (by decide) rfl (one_row (r := { id := "b", amount := 25 / 2, date := zeroTime, description := "d", reference := "r" }) (by decide +kernel)) (by decide +kernel)
  obtain ⟨rows, hc, _, _⟩ := h1 1 rfl
  obtain ⟨r, x, hx, _, _, _, _, _, htime, _⟩ := contents_one hc
  cases hx
  have : one.time rowB.date = none := by decide +kernel
  rw [this] at htime
  cases htime

def recC : Rec := { id := "c", amount := 25 / 2, date := 1705276800, description := "d", reference := "r" }

/-- A file of a good row and one without id. -/
theorem two_rows : Steps one (start one [.cells rowC, .cells noId] [])
    { shared := { lines := [], stored := [("u", recC)], errs := 1, total := 1 }, hands := [.finished] } := by
  have s1 : Steps one (start one [.cells rowC, .cells noId] []) { shared := { lines := [.cells noId], chan := [rowC], stored := [] }, hands := [.gather []] } :=
    .own .refl (.reader (.row (x := rowC) (ls := [.cells noId]) rfl (by decide)))
  have s2 : Steps one (start one [.cells rowC, .cells noId] []) { shared := { lines := [], chan := [rowC, noId], stored := [] }, hands := [.gather []] } :=
    .own s1 (.reader (.row (x := noId) (ls := []) rfl (by decide)))
  have s3 : Steps one (start one [.cells rowC, .cells noId] []) { shared := { lines := [], chan := [noId], stored := [] }, hands := [.gather [recC]] } :=
    .own s2 (.worker (l := []) (r := []) rfl (.take (b := []) rfl (by decide +kernel) (by decide)))
  have s4 : Steps one (start one [.cells rowC, .cells noId] []) { shared := { lines := [], stored := [] }, hands := [.report [recC] false] } :=
    .own s3 (.worker (l := []) (r := []) rfl (.bad (b := [recC]) rfl (by decide +kernel)))
  have s5 : Steps one (start one [.cells rowC, .cells noId] []) { shared := { lines := [], stored := [], errs := 1 }, hands := [.gather [recC]] } :=
    .own s4 (.worker (l := []) (r := []) rfl (.send (b := [recC]) (by decide)))
  have s6 : Steps one (start one [.cells rowC, .cells noId] []) { shared := { lines := [], stored := [], errs := 1 }, hands := [.store [recC] 1 true] } :=
    .own s5 (.worker (l := []) (r := []) rfl (.rest (b := [recC]) rfl rfl (by simp)))
  have s7 : Steps one (start one [.cells rowC, .cells noId] []) { shared := { lines := [], stored := [("u", recC)], errs := 1 }, hands := [.store [] 1 true] } :=
    .own s6 (.worker (l := []) (r := []) rfl (.insert (by simp [ids])))
  exact .own s7 (.worker (l := []) (r := []) rfl .counted)

/-- **C80 fails: a refused upload stays stored**, under an id the client is not told, and the corrected
file is then refused whenever it is sent (`c80_resend_refused`). -/
theorem c80_refused_stays_fails : ¬ C80Full := by
  intro h
  obtain ⟨_, h2⟩ := h one [.cells rowC, .cells noId] [] _ (by decide) (by decide) rfl two_rows (by decide +kernel)
  have := h2 (by decide +kernel)
  revert this
  decide +kernel

/-- The hypotheses of `c80_resend_refused`: what the refused upload left, and the corrected file. -/
example : (ids [("u", recC)]).Nodup ∧ uploaded [("u", recC)] "v" = [] ∧ rowC.id ∈ ids [("u", recC)] := by decide +kernel

/-- **C80 fails: rows are dropped when the time is over.** A download and the storing of its rows share one
limit; a worker that notices the end returns without an error, and the upload is accepted. -/
theorem c80_timeout_fails : ¬ C80Full := by
  intro h
  have s1 : Steps one (start one [.cells rowC] []) { shared := { lines := [], chan := [rowC], stored := [] }, hands := [.gather []] } :=
    .own .refl (.reader (.row (x := rowC) (ls := []) rfl (by decide)))
  have s2 : Steps one (start one [.cells rowC] []) { shared := { lines := [], chan := [rowC], stored := [], cancelled := true }, hands := [.gather []] } :=
    .other s1 .cancel
  have s3 : Steps one (start one [.cells rowC] []) { shared := { lines := [], stored := [], cancelled := true }, hands := [.finished] } :=
    .own s2 (.worker (l := []) (r := []) rfl (.quitRow (b := []) rfl rfl))
  obtain ⟨h1, _⟩ := h one [.cells rowC] [] _ (by decide) (by decide) rfl s3 (by decide +kernel)
  obtain ⟨rows, hc, hp, _⟩ := h1 0 rfl
  have hl := contents_length hc
  have := hp.length_eq
  rw [hl] at this
  revert this
  decide +kernel

/-- The hypotheses of `c80_accepted_partial`: this file is legible, and its upload is accepted. -/
example : Legible one [.cells rowC] ∧ Steps one (start one [.cells rowC] []) { shared := { lines := [], stored := [("u", recC)], total := 1 }, hands := [.finished] } := by
  refine ⟨?_, one_row (by decide +kernel)⟩
  intro x hx _ _
  simp only [List.mem_singleton, Line.cells.injEq] at hx
  subst hx
  decide +kernel

/-- The hypotheses of `c81_answered_partial`: a file with one bad row and a good one. -/
example : Untroubled { one with reserved := ["c"] } [.cells rowC, .cells noId] [] := by
  have hg : goods { one with reserved := ["c"] } [.cells rowC, .cells noId] = [recC] := by decide +kernel
  refine ⟨?_, by decide +kernel, ?_, rfl⟩
  · rw [hg]; decide +kernel
  · rw [hg]; decide +kernel

/-- The hypotheses of `c81_hangs_for_good` are met by a file of two rows without id and one worker. -/
example : ∃ u, Steps one (start one [.cells noId, .cells noId] []) u ∧ u.shared.errs = one.workers ∧ ∃ x ∈ u.hands, isReport x = true := by
  have s1 : Steps one (start one [.cells noId, .cells noId] []) { shared := { lines := [.cells noId], chan := [noId], stored := [] }, hands := [.gather []] } :=
    .own .refl (.reader (.row (x := noId) (ls := [.cells noId]) rfl (by decide)))
  have s2 : Steps one (start one [.cells noId, .cells noId] []) { shared := { lines := [], chan := [noId, noId], stored := [] }, hands := [.gather []] } :=
    .own s1 (.reader (.row (x := noId) (ls := []) rfl (by decide)))
  have s3 : Steps one (start one [.cells noId, .cells noId] []) { shared := { lines := [], chan := [noId], stored := [] }, hands := [.report [] false] } :=
    .own s2 (.worker (l := []) (r := []) rfl (.bad (b := []) rfl (by decide +kernel)))
  have s4 : Steps one (start one [.cells noId, .cells noId] []) { shared := { lines := [], chan := [noId], stored := [], errs := 1 }, hands := [.gather []] } :=
    .own s3 (.worker (l := []) (r := []) rfl (.send (b := []) (by decide)))
  have s5 : Steps one (start one [.cells noId, .cells noId] []) { shared := { lines := [], chan := [], stored := [], errs := 1 }, hands := [.report [] false] } :=
    .own s4 (.worker (l := []) (r := []) rfl (.bad (b := []) rfl (by decide +kernel)))
  exact ⟨_, s5, rfl, _, List.mem_singleton.2 rfl, rfl⟩

/-! ### JSON -/

/-- The whole text: a closed array of readable records. -/
def Whole (f : JsonFile) (rows : List Rec) : Prop := f.closed = true ∧ f.elems = rows.map .record

theorem uploaded_all (u : String) (rows : List Rec) : uploaded (rows.map (fun r => (u, r))) u = rows := by
  induction rows with
  | nil => rfl
  | cons r rows ih => simp only [uploaded] at ih; simp [uploaded, ih]

theorem json_accepted : ∀ {es : List Elem} {mine : String} {st : List (String × Rec)} {t n : Nat} {st' : List (String × Rec)},
    json mine st t es = (some n, st') → ∃ rows : List Rec, es = rows.map .record ∧ st' = st ++ rows.map (fun r => (mine, r)) ∧ n = t + rows.length := by
  intro es
  induction es with
  | nil =>
    intro mine st t n st' h
    simp only [json, Prod.mk.injEq, Option.some.injEq] at h
    exact ⟨[], rfl, by simp [h.2], by simp [h.1]⟩
  | cons e es ih =>
    intro mine st t n st' h
    cases e with
    | unreadable => simp [json] at h
    | record r =>
      rw [json] at h
      split at h
      · simp at h
      · obtain ⟨rows, h1, h2, h3⟩ := ih h
        exact ⟨r :: rows, by simp [h1], by simp [h2], by simp [h3]; omega⟩

/-- **C80 for JSON files that are closed**: an accepted upload stored the records of the array, in order,
each once, and its answer is their number. -/
theorem c80_json_partial {mine : String} {old st : List (String × Rec)} {f : JsonFile} {n : Nat} (hm : uploaded old mine = []) (hcl : f.closed = true)
    (h : jsonUpload mine old f = (some n, st)) : ∃ rows, Whole f rows ∧ uploaded st mine = rows ∧ n = rows.length := by
  obtain ⟨rows, h1, h2, h3⟩ := json_accepted h
  refine ⟨rows, ⟨hcl, h1⟩, ?_, by omega⟩
  rw [h2, uploaded_append, hm]
  rw [List.nil_append]
  exact uploaded_all mine rows

/-- **C80 fails for every JSON file that breaks off after a record**: it is answered as if it had ended
there. -/
theorem c80_json_truncated {mine : String} {old : List (String × Rec)} {es : List Elem} :
    jsonUpload mine old { elems := es, closed := false } = jsonUpload mine old { elems := es, closed := true } := rfl

theorem c80_json_truncated_fails : ∃ (f : JsonFile) (n : Nat) (st : List (String × Rec)), jsonUpload "u" [] f = (some n, st) ∧ ¬ ∃ rows, Whole f rows := by
  refine ⟨{ elems := [.record recC], closed := false }, 1, [("u", recC)], by decide +kernel, ?_⟩
  rintro ⟨rows, h, _⟩
  cases h

/-- Closed and accepted. -/
example : jsonUpload "u" [("t", recC)] { elems := [.record { recC with id := "x" }, .record { recC with id := "y" }], closed := true } =
    (some 2, [("t", recC), ("u", { recC with id := "x" }), ("u", { recC with id := "y" })]) := by decide +kernel

end Blnk.Upload
