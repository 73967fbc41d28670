import Verif.Model.Bulk
import Verif.Props.Inflight
/-
C27: bulk commit and void answer every item exactly once and in order.
-/
namespace Blnk.Bulk

variable {σ ι ω : Type} {call : Nat → ι → σ → σ → ω → Prop} {env : σ → σ → Prop}

/-- Indices a worker is carrying before its call. -/
def Worker.busyIdx : Worker ι ω → List Nat
  | .busy i _ => [i]
  | _ => []

/-- Indices a worker is carrying after its call. -/
def Worker.gotIdx : Worker ι ω → List Nat
  | .got i _ _ => [i]
  | _ => []

def written (rs : List (Option (ι × ω))) (i : Nat) : Nat := match rs[i]? with | some (some _) => 1 | _ => 0

theorem written_set {rs : List (Option (ι × ω))} {i : Nat} {r : ι × ω} (hi : i < rs.length) (h0 : written rs i = 0) (j : Nat) :
    written (rs.set i (some r)) j = written rs j + (if j = i then 1 else 0) := by
  by_cases h : j = i
  · subst h
    rw [h0]; simp [written, hi]
  · simp [written, h, Ne.symm h]

/-- Bookkeeping of a run: each index is in exactly one place. -/
structure PoolInv (call : Nat → ι → σ → σ → ω → Prop) (items : List ι) (s : St σ ι ω) : Prop where
  len : s.results.length = items.length
  place : ∀ i, (s.queue.map (·.1)).count i + (s.workers.flatMap Worker.busyIdx).count i +
    (s.workers.flatMap Worker.gotIdx).count i + written s.results i = if i < items.length then 1 else 0
  logged : ∀ i, (s.log.map (·.idx)).count i = (s.workers.flatMap Worker.gotIdx).count i + written s.results i
  queueItem : ∀ p ∈ s.queue, items[p.1]? = some p.2
  busyItem : ∀ i it, Worker.busy i it ∈ s.workers → items[i]? = some it
  gotItem : ∀ i it o, Worker.got i it o ∈ s.workers → ∃ e ∈ s.log, e.idx = i ∧ e.item = it ∧ e.out = o
  logItem : ∀ e ∈ s.log, items[e.idx]? = some e.item ∧ call e.idx e.item e.before e.after e.out
  result : ∀ i r, s.results[i]? = some (some r) → ∃ e ∈ s.log, e.idx = i ∧ e.item = r.1 ∧ e.out = r.2

theorem zip_range_count (items : List ι) (i : Nat) :
    (((List.range items.length).zip items).map (·.1)).count i = if i < items.length then 1 else 0 := by
  rw [List.map_fst_zip (by simp)]
  by_cases h : i < items.length
  · simp [h, List.count_range]
  · simp [h, List.count_range]

theorem start_inv (items : List ι) (m : Int) (s : σ) : PoolInv call items (start items m s : St σ ι ω) where
  len := by simp [start]
  place i := by
    have h1 : ∀ n, (List.replicate n (Worker.idle : Worker ι ω)).flatMap Worker.busyIdx = [] := by
      intro n; simp [List.flatMap_eq_nil_iff, Worker.busyIdx]
    have h2 : ∀ n, (List.replicate n (Worker.idle : Worker ι ω)).flatMap Worker.gotIdx = [] := by
      intro n; simp [List.flatMap_eq_nil_iff, Worker.gotIdx]
    have h3 : written (List.replicate items.length (none : Option (ι × ω))) i = 0 := by
      unfold written
      rw [List.getElem?_replicate]
      split
      · rename_i h; split at h <;> simp at h
      · rfl
    simp only [start, h1, h2, h3, zip_range_count, List.count_nil, Nat.add_zero]
  logged i := by
    have h2 : ∀ n, (List.replicate n (Worker.idle : Worker ι ω)).flatMap Worker.gotIdx = [] := by
      intro n; simp [List.flatMap_eq_nil_iff, Worker.gotIdx]
    have h3 : written (List.replicate items.length (none : Option (ι × ω))) i = 0 := by
      unfold written
      rw [List.getElem?_replicate]
      split
      · rename_i h; split at h <;> simp at h
      · rfl
    simp [start, h2, h3]
  queueItem p hp := by
    simp only [start] at hp
    obtain ⟨k, hk, e⟩ := List.getElem_of_mem hp
    subst e
    simp at hk ⊢
  busyItem i it h := by simp [start] at h
  gotItem i it o h := by simp [start] at h
  logItem e h := by simp [start] at h
  result i r h := by
    simp only [start, List.getElem?_replicate] at h
    split at h <;> simp at h

theorem step_inv {items : List ι} {s s' : St σ ι ω} (h : PoolInv call items s) (hs : WStep call s s') : PoolInv call items s' := by
  cases hs with
  | @take i it q pre post hq hw =>
    obtain ⟨len, place, logged, qi, bi, gi, li, re⟩ := h
    refine ⟨len, ?_, ?_, ?_, ?_, ?_, li, re⟩
    · intro j
      have := place j
      simp only [hq, hw, List.flatMap_append, List.flatMap_cons, List.count_append, Worker.busyIdx, Worker.gotIdx, List.map_cons,
        List.count_cons, List.count_nil] at this ⊢
      omega
    · intro j
      have := logged j
      simp only [hw, List.flatMap_append, List.flatMap_cons, List.count_append, Worker.gotIdx] at this ⊢
      exact this
    · intro p hp; exact qi p (by rw [hq]; exact List.mem_cons_of_mem _ hp)
    · intro j jt hj
      simp only [List.mem_append, List.mem_cons] at hj
      rcases hj with hj | hj | hj
      · exact bi j jt (by rw [hw]; simp [hj])
      · cases hj; exact qi (i, it) (by rw [hq]; simp)
      · exact bi j jt (by rw [hw]; simp [hj])
    · intro j jt o hj
      simp only [List.mem_append, List.mem_cons] at hj
      rcases hj with hj | hj | hj
      · exact gi j jt o (by rw [hw]; simp [hj])
      · cases hj
      · exact gi j jt o (by rw [hw]; simp [hj])
  | @call i it pre post x o hw hc =>
    obtain ⟨len, place, logged, qi, bi, gi, li, re⟩ := h
    refine ⟨len, ?_, ?_, qi, ?_, ?_, ?_, ?_⟩
    · intro j
      have := place j
      simp only [hw, List.flatMap_append, List.flatMap_cons, List.count_append, Worker.busyIdx, Worker.gotIdx,
        List.count_cons, List.count_nil] at this ⊢
      omega
    · intro j
      have := logged j
      simp only [hw, List.flatMap_append, List.flatMap_cons, List.count_append, Worker.gotIdx, List.map_cons,
        List.count_cons, List.count_nil] at this ⊢
      omega
    · intro j jt hj
      simp only [List.mem_append, List.mem_cons] at hj
      rcases hj with hj | hj | hj
      · exact bi j jt (by rw [hw]; simp [hj])
      · cases hj
      · exact bi j jt (by rw [hw]; simp [hj])
    · intro j jt o' hj
      simp only [List.mem_append, List.mem_cons] at hj
      have old : Worker.got j jt o' ∈ s.workers → ∃ e ∈ (⟨i, it, s.shared, x, o⟩ :: s.log : List (Entry σ ι ω)), e.idx = j ∧ e.item = jt ∧ e.out = o' := by
        intro hm
        obtain ⟨e, he, h⟩ := gi j jt o' hm
        exact ⟨e, List.mem_cons_of_mem _ he, h⟩
      rcases hj with hj | hj | hj
      · exact old (by rw [hw]; simp [hj])
      · cases hj; exact ⟨_, List.mem_cons_self, rfl, rfl, rfl⟩
      · exact old (by rw [hw]; simp [hj])
    · intro e he
      rcases List.mem_cons.1 he with rfl | he
      · exact ⟨bi i it (by rw [hw]; simp), hc⟩
      · exact li e he
    · intro j r hj
      obtain ⟨e, he, h⟩ := re j r hj
      exact ⟨e, List.mem_cons_of_mem _ he, h⟩
  | @write i it o pre post hw =>
    obtain ⟨len, place, logged, qi, bi, gi, li, re⟩ := h
    have hp := place i
    simp only [hw, List.flatMap_append, List.flatMap_cons, List.count_append, Worker.busyIdx, Worker.gotIdx,
      List.count_cons, List.count_nil, beq_self_eq_true, if_true] at hp
    have hi : i < items.length := by
      by_cases h : i < items.length
      · exact h
      · rw [if_neg h] at hp; omega
    rw [if_pos hi] at hp
    have h0 : written s.results i = 0 := by omega
    have hws := written_set (r := (it, o)) (rs := s.results) (by omega) h0
    refine ⟨by simpa using len, ?_, ?_, qi, ?_, ?_, li, ?_⟩
    · intro j
      have := place j
      simp only [hw, List.flatMap_append, List.flatMap_cons, List.count_append, Worker.busyIdx, Worker.gotIdx,
        List.count_cons, List.count_nil, hws] at this ⊢
      by_cases hj : j = i
      · subst hj; simp at this ⊢; omega
      · simp [hj, Ne.symm hj] at this ⊢; omega
    · intro j
      have := logged j
      simp only [hw, List.flatMap_append, List.flatMap_cons, List.count_append, Worker.gotIdx,
        List.count_cons, List.count_nil, hws] at this ⊢
      by_cases hj : j = i
      · subst hj; simp at this ⊢; omega
      · simp [hj, Ne.symm hj] at this ⊢; omega
    · intro j jt hj
      simp only [List.mem_append, List.mem_cons] at hj
      rcases hj with hj | hj | hj
      · exact bi j jt (by rw [hw]; simp [hj])
      · cases hj
      · exact bi j jt (by rw [hw]; simp [hj])
    · intro j jt o' hj
      simp only [List.mem_append, List.mem_cons] at hj
      rcases hj with hj | hj | hj
      · exact gi j jt o' (by rw [hw]; simp [hj])
      · cases hj
      · exact gi j jt o' (by rw [hw]; simp [hj])
    · intro j r hj
      by_cases h : j = i
      · subst h
        simp only [List.getElem?_set] at hj
        rw [if_pos trivial, if_pos (by omega)] at hj
        cases hj
        exact gi j it o (by rw [hw]; simp)
      · rw [List.getElem?_set, if_neg (Ne.symm h)] at hj
        exact re j r hj
  | @exit pre post hq hw =>
    obtain ⟨len, place, logged, qi, bi, gi, li, re⟩ := h
    refine ⟨len, ?_, ?_, qi, ?_, ?_, li, re⟩
    · intro j
      have := place j
      simp only [hw, List.flatMap_append, List.flatMap_cons, List.count_append, Worker.busyIdx, Worker.gotIdx] at this ⊢
      exact this
    · intro j
      have := logged j
      simp only [hw, List.flatMap_append, List.flatMap_cons, List.count_append, Worker.gotIdx] at this ⊢
      exact this
    · intro j jt hj
      simp only [List.mem_append, List.mem_cons] at hj
      rcases hj with hj | hj | hj
      · exact bi j jt (by rw [hw]; simp [hj])
      · cases hj
      · exact bi j jt (by rw [hw]; simp [hj])
    · intro j jt o' hj
      simp only [List.mem_append, List.mem_cons] at hj
      rcases hj with hj | hj | hj
      · exact gi j jt o' (by rw [hw]; simp [hj])
      · cases hj
      · exact gi j jt o' (by rw [hw]; simp [hj])

theorem run_inv {items : List ι} {m : Int} {x : σ} {k : Nat} {s : St σ ι ω} (h : Run call env (start items m x) k s) :
    PoolInv call items s := by
  induction h with
  | refl => exact start_inv items m x
  | work _ hs ih => exact step_inv ih hs
  | env _ _ ih => exact ⟨ih.len, ih.place, ih.logged, ih.queueItem, ih.busyItem, ih.gotItem, ih.logItem, ih.result⟩

/-- A worker that exited saw the channel empty, so jobs are never left behind. -/
theorem exited_queue {items : List ι} {m : Int} {x : σ} {k : Nat} {s : St σ ι ω} (h : Run call env (start items m x) k s) :
    Worker.exited ∈ s.workers → s.queue = [] := by
  induction h with
  | refl => intro h; simp [start] at h
  | work _ hs ih =>
    intro hm
    cases hs with
    | @take i it q pre post hq hw =>
      simp only [List.mem_append, List.mem_cons, reduceCtorEq, false_or] at hm
      have := ih (by rw [hw]; simp only [List.mem_append, List.mem_cons]; rcases hm with h | h <;> simp [h])
      rw [hq] at this; cases this
    | @call i it pre post x o hw hc =>
      simp only [List.mem_append, List.mem_cons, reduceCtorEq, false_or] at hm
      exact ih (by rw [hw]; simp only [List.mem_append, List.mem_cons]; rcases hm with h | h <;> simp [h])
    | @write i it o pre post hw =>
      simp only [List.mem_append, List.mem_cons, reduceCtorEq, false_or] at hm
      exact ih (by rw [hw]; simp only [List.mem_append, List.mem_cons]; rcases hm with h | h <;> simp [h])
    | exit hq hw => exact hq
  | env _ _ ih => exact ih

theorem workers_length {s s' : St σ ι ω} (h : WStep call s s') : s'.workers.length = s.workers.length := by
  cases h <;> simp_all

theorem run_workers {s0 s : St σ ι ω} {k : Nat} (h : Run call env s0 k s) : s.workers.length = s0.workers.length := by
  induction h with
  | refl => rfl
  | work _ hs ih => rw [workers_length hs, ih]
  | env _ _ ih => exact ih

theorem poolSize_pos (m : Int) {n : Nat} (h : n ≠ 0) : 0 < poolSize m n := by
  unfold poolSize
  simp only
  split <;> split <;> split <;> omega

/-- **C27.** When a bulk request returns, there is exactly one result per item, in request
order, and each is the outcome of the one and only call made for that item — for every number
of workers, every schedule and whatever other processes do meanwhile. -/
theorem c27_one_result_per_item_in_order (items : List ι) (hne : items ≠ []) (m : Int) (x : σ) (k : Nat) (s : St σ ι ω)
    (h : Run call env (start items m x) k s) (hf : s.finished) :
    s.results.length = items.length ∧
    ∀ i it, items[i]? = some it → ∃ e, s.log.filter (fun e => e.idx == i) = [e] ∧ e.item = it ∧
      call i it e.before e.after e.out ∧ s.results[i]? = some (some (it, e.out)) := by
  have hinv := run_inv h
  refine ⟨hinv.len, ?_⟩
  intro i it hi
  have hil : i < items.length := by
    obtain ⟨h, _⟩ := List.getElem?_eq_some_iff.1 hi; exact h
  have hq : s.queue = [] := by
    have hl := run_workers h
    have hp : 0 < poolSize m items.length := poolSize_pos m (by simpa using hne)
    have hl' : 0 < s.workers.length := by rw [hl]; simpa [start] using hp
    obtain ⟨w, hw⟩ := List.exists_mem_of_length_pos hl'
    exact exited_queue h (hf w hw ▸ hw)
  have hb : s.workers.flatMap Worker.busyIdx = [] := by
    rw [List.flatMap_eq_nil_iff]; intro w hw; rw [hf w hw]; rfl
  have hg : s.workers.flatMap Worker.gotIdx = [] := by
    rw [List.flatMap_eq_nil_iff]; intro w hw; rw [hf w hw]; rfl
  have hp := hinv.place i
  rw [hq, hb, hg, if_pos hil] at hp
  have hwr : written s.results i = 1 := by simpa using hp
  have hlg := hinv.logged i
  rw [hg, hwr] at hlg
  have hlen : (s.log.filter (fun e => e.idx == i)).length = 1 := by
    rw [← List.countP_eq_length_filter]
    rw [List.count, List.countP_map] at hlg
    simpa [Function.comp_def] using hlg
  obtain ⟨e, he⟩ := List.length_eq_one_iff.1 hlen
  have hm : e ∈ s.log ∧ e.idx = i := by
    have : e ∈ s.log.filter (fun e => e.idx == i) := by rw [he]; simp
    simpa using this
  have hit : e.item = it := by
    have := (hinv.logItem e hm.1).1
    rw [hm.2, hi] at this; exact (Option.some.inj this).symm
  have hcall := (hinv.logItem e hm.1).2
  rw [hm.2, hit] at hcall
  refine ⟨e, he, hit, hcall, ?_⟩
  unfold written at hwr
  split at hwr
  · rename_i r hr
    obtain ⟨e', he', h1, h2, h3⟩ := hinv.result i r hr
    have : e' ∈ s.log.filter (fun e => e.idx == i) := by simp [he', h1]
    rw [he] at this
    simp at this
    subst this
    rw [hr, h3, ← hit, h2]
  · omega

/-- Remaining work. -/
def Worker.weight : Worker ι ω → Nat
  | .idle => 1
  | .busy _ _ => 4
  | .got _ _ _ => 3
  | .exited => 0

def St.work (s : St σ ι ω) : Nat := 4 * s.queue.length + (s.workers.map Worker.weight).sum

theorem work_decreases {s s' : St σ ι ω} (h : WStep call s s') : s'.work < s.work := by
  cases h with
  | take hq hw => simp [St.work, hq, hw, Worker.weight]; omega
  | call hw hc => simp [St.work, hw, Worker.weight]
  | write hw => simp [St.work, hw, Worker.weight]
  | exit hq hw => simp [St.work, hw, Worker.weight]

theorem run_work {s0 s : St σ ι ω} {k : Nat} (h : Run call env s0 k s) : k + s.work ≤ s0.work := by
  induction h with
  | refl => simp
  | work _ hs ih => have := work_decreases hs; omega
  | env _ _ ih => exact ih

/-- **C27.** A bulk request does not hang: as long as it has not returned some worker can take a
step, and there are at most four worker steps per item plus one per worker. -/
theorem c27_terminates (items : List ι) (m : Int) (x : σ) (k : Nat) (s : St σ ι ω)
    (hcall : ∀ i it s, ∃ s' o, call i it s s' o) (h : Run call env (start items m x) k s) :
    k ≤ 4 * items.length + poolSize m items.length ∧ (¬ s.finished → ∃ s', WStep call s s') := by
  constructor
  · have := run_work h
    simp [start, St.work, Worker.weight] at this
    omega
  · intro hn
    simp only [St.finished] at hn
    have : ∃ w ∈ s.workers, w ≠ .exited := by
      by_cases hc : ∃ w ∈ s.workers, w ≠ .exited
      · exact hc
      · exact absurd (fun w hw => Classical.byContradiction fun e => hc ⟨w, hw, e⟩) hn
    obtain ⟨w, hw, hx⟩ := this
    obtain ⟨pre, post, hw⟩ := List.append_of_mem hw
    cases w with
    | idle =>
      cases hq : s.queue with
      | nil => exact ⟨_, .exit hq hw⟩
      | cons j q => obtain ⟨i, it⟩ := j; exact ⟨_, .take hq hw⟩
    | busy i it =>
      obtain ⟨s', o, hc⟩ := hcall i it s.shared
      exact ⟨_, .call hw hc⟩
    | got i it o => exact ⟨_, .write hw⟩
    | exited => exact absurd rfl hx

theorem counts_foldl (ok : ω → Bool) (rs : List (ι × ω)) : ∀ a b,
    (rs.foldl (fun (p : Nat × Nat) r => if ok r.2 then (p.1 + 1, p.2) else (p.1, p.2 + 1)) (a, b)) =
      (a + rs.countP (fun r => ok r.2), b + rs.countP (fun r => !ok r.2)) := by
  induction rs with
  | nil => intro a b; rfl
  | cons r rs ih =>
    intro a b
    rw [List.foldl_cons]
    cases h : ok r.2 <;> simp [ih, h] <;> omega

/-- **C27.** The counts of the response are the numbers of successes and failures and add up to the number
of items. -/
theorem c27_counts_add_up (ok : ω → Bool) (rs : List (ι × ω)) :
    (counts ok rs).1 = rs.countP (fun r => ok r.2) ∧ (counts ok rs).1 + (counts ok rs).2 = rs.length := by
  have h := counts_foldl ok rs 0 0
  have h' : counts ok rs = (0 + rs.countP (fun r => ok r.2), 0 + rs.countP (fun r => !ok r.2)) := h
  rw [h']
  refine ⟨by simp, ?_⟩
  have := List.length_eq_countP_add_countP (fun r : ι × ω => ok r.2) (l := rs)
  simp only [Bool.not_eq_true, Bool.decide_eq_false] at this
  simp only [Nat.zero_add]
  omega

end Blnk.Bulk

namespace Blnk.Bulk

/-- Two items, two workers; the second item is finished before the first one is even called, and
another process interferes in between. -/
def demoCall (_ : Nat) (it : Nat) (s s' o : Nat) : Prop := s' = s + it ∧ o = s * 10 + it

example : ∃ s : St Nat Nat Nat, Run demoCall (fun a b => b = a + 100) (start [7, 8] 0 1) 8 s ∧ s.finished ∧
    s.results = [some (7, 1097), some (8, 18)] := by
  refine ⟨_, Run.work (Run.work (Run.work (Run.work (Run.env (x := 109) (Run.work (Run.work (Run.work (Run.work .refl
    (.take (q := [(1, 8)]) (pre := []) (post := [.idle]) rfl rfl))
    (.take (q := []) (pre := [.busy 0 7]) (post := []) rfl rfl))
    (.call (i := 1) (it := 8) (pre := [.busy 0 7]) (post := []) (s' := 9) (o := 18) rfl ⟨rfl, rfl⟩))
    (.write (i := 1) (it := 8) (o := 18) (pre := [.busy 0 7]) (post := []) rfl)) rfl)
    (.call (i := 0) (it := 7) (pre := []) (post := [.idle]) (s' := 116) (o := 1097) rfl ⟨rfl, rfl⟩))
    (.write (i := 0) (it := 7) (o := 1097) (pre := []) (post := [.idle]) rfl))
    (.exit (pre := [.idle]) (post := []) rfl rfl))
    (.exit (pre := []) (post := [.exited]) rfl rfl), ?_, rfl⟩
  intro w hw
  simp at hw
  exact hw

end Blnk.Bulk

namespace Blnk
open Bulk

/-- What other processes may do to the ledger during a bulk request: anything the other theorems
on holds allow, except settling one of the requested holds. -/
def bulkEnv (cfg : Cfg) (H Q : String → Prop) (items : List BulkItem) (db db' : DB) : Prop :=
  ∃ bs : List Act, (∀ b ∈ bs, b.Respects H ∧ b.Direct Q ∧ ∀ it ∈ items, b.Spares it.txn) ∧ db' = acts cfg db bs

/-- A requested settlement that fits the open part of an INFLIGHT hold between two accounts. -/
def Fits (void : Bool) (db : DB) (it : BulkItem) : Prop :=
  ∃ r ∈ db.txns, r.id = it.txn ∧ r.status = .inflight ∧ r.source ≠ r.destination ∧ 0 < openAmount db r ∧
    (void = true ∨ 0 ≤ it.amount ∧ it.amount ≤ openAmount db r)

theorem open_eq {cfg : Cfg} {H : String → Prop} {db : DB} {bs : List Act} {r : Txn} (hk : HoldInv H db)
    (hb : ∀ b ∈ bs, b.Respects H ∧ b.Spares r.id) (hr : r ∈ db.txns) (hh : r.Holds) (ho : 0 < openAmount db r) :
    r ∈ (acts cfg db bs).txns ∧ openAmount (acts cfg db bs) r = openAmount db r := by
  obtain ⟨new, e⟩ := acts_prefix (cfg := cfg) hk (fun b hm => (hb b hm).1)
  obtain ⟨_, e2, e3⟩ := acts_spares (cfg := cfg) rfl hh hk hb hr
  refine ⟨by rw [e]; exact List.mem_append_left _ hr, ?_⟩
  have hnv : db.parentVoid r.id = false := by
    cases hp : db.parentVoid r.id with
    | false => rfl
    | true =>
      have := hk.closed r hr hh hp
      unfold openAmount at ho; omega
  have r0 : released db r.id = 0 := kidSum_zero (fun c hc hcs => parentVoid_false.1 hnv c hc hcs)
  have r1 : released (acts cfg db bs) r.id = 0 :=
    kidSum_zero (fun c hc hcs => parentVoid_false.1 (e3.trans hnv) c hc hcs)
  unfold openAmount
  rw [e2, r0, r1]

/-- **C27.** A bulk commit or void of distinct open holds succeeds for every item, whatever the
schedule and whatever others do to other holds: items do not disturb each other. -/
theorem c27_distinct_holds_all_succeed (cfg : Cfg) (H Q : String → Prop) (as : List Act) (void : Bool) (items : List BulkItem)
    (hr : ∀ a ∈ as, a.Respects H ∧ a.Direct Q) (hd : (items.map (·.txn)).Nodup)
    (hfit : ∀ it ∈ items, ¬ Q it.txn ∧ Fits void (acts cfg {} as) it) (m : Int) (k : Nat) (s : St DB BulkItem (Except InfErr Outcome))
    (hrun : Run (bulkCall cfg void) (bulkEnv cfg H Q items) (start items m (acts cfg {} as)) k s) :
    ∀ e ∈ s.log, ∃ x, e.out = .ok (.posted [x]) := by
  have key : (∃ bs : List Act, s.shared = acts cfg (acts cfg {} as) bs ∧
      ∀ b ∈ bs, b.Respects H ∧ b.Direct Q ∧ ∀ i it, items[i]? = some it → i ∉ s.log.map (·.idx) → b.Spares it.txn) ∧
      ∀ e ∈ s.log, ∃ x, e.out = .ok (.posted [x]) := by
    induction hrun with
    | refl => exact ⟨⟨[], rfl, by simp⟩, by simp [start]⟩
    | @env k s x hrun he ih =>
      obtain ⟨⟨bs, e1, hbs⟩, hlog⟩ := ih
      obtain ⟨cs, hcs, e2⟩ := he
      refine ⟨⟨bs ++ cs, by simp only [e2, e1, acts_append], ?_⟩, hlog⟩
      intro b hb
      rcases List.mem_append.1 hb with hb | hb
      · exact hbs b hb
      · exact ⟨(hcs b hb).1, (hcs b hb).2.1, fun i it hi _ => (hcs b hb).2.2 it (List.mem_of_getElem? hi)⟩
    | @work k s s' hrun hs ih =>
      have hpi := Bulk.run_inv hrun

      cases hs with
      | take hq hw => exact ih
      | write hw => exact ih
      | exit hq hw => exact ih
      | @call i it pre post db' o hw hc =>
        obtain ⟨⟨bs, e1, hbs⟩, hlog⟩ := ih
        have hit := hpi.busyItem i it (by rw [hw]; simp)
        have hni : i ∉ s.log.map (·.idx) := by
          have h1 := hpi.place i
          have h2 := hpi.logged i
          simp only [hw, List.flatMap_append, List.flatMap_cons, List.count_append, Worker.busyIdx, Worker.gotIdx,
            List.count_cons, List.count_nil, beq_self_eq_true, if_true] at h1 h2
          intro hm
          have := List.count_pos_iff.2 hm
          split at h1 <;> omega
        obtain ⟨hnq, r, hrow, hid, hst, hne, hopen, hamt⟩ := hfit it (List.mem_of_getElem? hit)
        have hk := acts_holdInv (cfg := cfg) (init_holdInv H) (fun a ha => (hr a ha).1)
        obtain ⟨hrow', hopen'⟩ := open_eq (cfg := cfg) (bs := bs) hk
          (fun b hb => ⟨(hbs b hb).1, by rw [hid]; exact (hbs b hb).2.2 i it hit hni⟩) hrow (.inl hst) hopen
        have hall : ∀ a ∈ as ++ bs, a.Respects H ∧ a.Direct Q := by
          intro a ha
          rcases List.mem_append.1 ha with ha | ha
          · exact hr a ha
          · exact ⟨(hbs a ha).1, (hbs a ha).2.1⟩
        have e1' : s.shared = acts cfg {} (as ++ bs) := by rw [e1, acts_append]
        rw [← acts_append] at hrow' hopen'
        obtain ⟨newId, ref, n1, n2, f1, f2, g1, g2, hc⟩ := hc
        rw [e1'] at f1 f2 hc
        have spare : ∀ b : Act, (∀ j jt, items[j]? = some jt → j ≠ i → b.Spares jt.txn) →
            ∀ j jt, items[j]? = some jt → j ∉ (⟨i, it, s.shared, db', o⟩ :: s.log : List (Entry _ _ _)).map (·.idx) → b.Spares jt.txn := by
          intro b h j jt hj hnj
          simp at hnj
          exact h j jt hj hnj.1
        have dist : ∀ j jt, items[j]? = some jt → j ≠ i → it.txn ≠ jt.txn := by
          intro j jt hj hji heq
          have h1 : (items.map (·.txn))[i]? = some it.txn := by simp [hit]
          have h2 : (items.map (·.txn))[j]? = some it.txn := by simp [hj, heq]
          have hil := (List.getElem?_eq_some_iff.1 h1).1
          exact hji ((List.getElem?_inj hil hd).1 (h1.trans h2.symm)).symm
        have fin : ∀ (a : Act), a.Respects H → a.Direct Q → db' = act cfg s.shared a →
            (∀ jt : BulkItem, it.txn ≠ jt.txn → a.Spares jt.txn) → (∃ x, o = .ok (.posted [x])) →
            (∃ bs : List Act, db' = acts cfg (acts cfg {} as) bs ∧ ∀ b ∈ bs, b.Respects H ∧ b.Direct Q ∧ ∀ j jt, items[j]? = some jt →
              j ∉ (⟨i, it, s.shared, db', o⟩ :: s.log : List (Entry _ _ _)).map (·.idx) → b.Spares jt.txn) ∧
            ∀ e ∈ (⟨i, it, s.shared, db', o⟩ :: s.log : List (Entry _ _ _)), ∃ x, e.out = .ok (.posted [x]) := by
          intro a h1 h2 h3 h4 h5
          refine ⟨⟨bs ++ [a], ?_, ?_⟩, ?_⟩
          · rw [h3, e1, acts_append]; rfl
          · intro b hb
            rcases List.mem_append.1 hb with hb | hb
            · refine ⟨(hbs b hb).1, (hbs b hb).2.1, fun j jt hj hnj => ?_⟩
              simp only [List.map_cons, List.mem_cons, not_or] at hnj
              exact (hbs b hb).2.2 j jt hj hnj.2
            · simp at hb; subst hb
              exact ⟨h1, h2, spare b (fun j jt hj hji => h4 jt (dist j jt hj hji))⟩
          · intro e he
            rcases List.mem_cons.1 he with rfl | he
            · exact h5
            · exact hlog e he
        cases void with
        | true =>
          simp only [if_true] at hc
          obtain ⟨x, hx⟩ := c26_void_succeeds_partial cfg H Q (as ++ bs) hall r hrow' hst hne (by omega) newId ref n1 n2 f1 f2
          rw [hid] at hx
          exact fin (.void it.txn newId ref n1 n2) trivial ⟨hnq, g1, g2⟩ (by rw [e1']; exact congrArg Prod.fst hc)
            (fun jt h => h) ⟨x, (congrArg Prod.snd hc).trans hx⟩
        | false =>
          simp only [Bool.false_eq_true, if_false] at hc
          obtain ⟨h0, hle⟩ : 0 ≤ it.amount ∧ it.amount ≤ openAmount (acts cfg {} as) r := by
            rcases hamt with h | h
            · cases h
            · exact h
          obtain ⟨x, hx, _⟩ := c26_commit_succeeds_partial cfg H Q (as ++ bs) hall r hrow' hst hne it.amount h0 (by omega) (by omega)
            newId ref n1 n2 f1 f2
          rw [hid] at hx
          exact fin (.commit it.txn it.amount newId ref n1 n2) trivial ⟨hnq, g1, g2⟩ (by rw [e1']; exact congrArg Prod.fst hc)
            (fun jt h => h) ⟨x, (congrArg Prod.snd hc).trans hx⟩
  exact key.2

/-- Both holds of the example history fit a bulk request: a partial and a full commit. -/
example : (([⟨"h1", 30⟩, ⟨"h2", 0⟩] : List BulkItem).map (·.txn)).Nodup ∧
    ∀ it ∈ ([⟨"h1", 30⟩, ⟨"h2", 0⟩] : List BulkItem), Fits false (acts {} {} (holdHistory.take 4)) it := by
  refine ⟨by decide, ?_⟩
  intro it hit
  simp at hit
  rcases hit with rfl | rfl
  · exact ⟨_, List.getElem_mem (n := 0) (by decide +kernel), by decide +kernel, by decide +kernel, by decide +kernel, by decide +kernel, by decide +kernel⟩
  · exact ⟨_, List.getElem_mem (n := 1) (by decide +kernel), by decide +kernel, by decide +kernel, by decide +kernel, by decide +kernel, by decide +kernel⟩

end Blnk
