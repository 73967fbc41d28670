import Verif.Model.QueuedSettle
import Verif.Props.BulkPreview
import Verif.Props.Schedule
import Verif.Props.SettleRun
/-
C191: what the answer to a queued commit or void means.
-/
namespace Blnk.Ask
open Blnk Undo

/-! ### What is checked before a request is accepted -/

/-- What is left of the hold can be settled as asked. -/
def Settleable (db : DB) (r : Txn) (void : Bool) (amt : Int) : Prop :=
  0 < openAmount db r ∧ (void = true ∨ (0 ≤ amt ∧ amt ≤ openAmount db r))

instance (db : DB) (r : Txn) (void : Bool) (amt : Int) : Decidable (Settleable db r void amt) := by unfold Settleable; infer_instance

theorem settleable_due {H : String → Prop} {db : DB} (hk : HoldInv H db) {r : Txn} (hr : r ∈ db.txns) (hh : r.Holds) {void : Bool} {amt : Int} :
    Settleable db r void amt ↔ Due db r void amt := by
  constructor
  · rintro ⟨h1, h2⟩
    have hv : db.parentVoid r.id = false := by
      cases hp : db.parentVoid r.id with
      | false => rfl
      | true =>
        have := hk.closed r hr hh hp
        unfold openAmount at h1; omega
    have ho := due_open hv
    rw [ho] at h1 h2
    exact ⟨hv, h1, h2⟩
  · rintro ⟨hv, h1, h2⟩
    have ho := due_open hv
    exact ⟨by rw [ho]; exact h1, by rw [ho]; exact h2⟩

/-- The row as it is read. -/
def seen (r : Txn) : Txn := { r with allowOverdraft := false, overdraftLimit := 0, inflight := false, atomic := false, skipQueue := false }

theorem fetch_hold {db : DB} (hi : Inv db) {r : Txn} (hr : r ∈ db.txns) (hh : r.Holds) :
    fetchInflight db r.id = if db.parentVoid r.id then .error .voided else .ok (seen r) := by
  unfold fetchInflight
  rw [getTxn_of_mem hi hr]
  have : isInflightTxn (seen r) = true := (holds_iff r).2 hh
  simp only [seen] at this
  simp only [this, if_true, seen]

theorem check_seen (db : DB) (r : Txn) (void : Bool) (amt : Int) : checkAmount db (seen r) void amt =
    if pay r - committed db r.id = 0 then .error .alreadyCommitted
    else if void then .ok (seen r)
    else if amt < 0 then .error .negative
    else if amt = 0 then .ok (seen r)
    else if amt > pay r then .error .exceedsOriginal
    else if amt > pay r - committed db r.id then .error .exceedsRemaining
    else .ok (seen r) := rfl

theorem check_hold {H : String → Prop} {db : DB} (hk : HoldInv H db) {r : Txn} (hr : r ∈ db.txns) (hh : r.Holds) {void : Bool} {amt : Int} :
    (∃ t, precheck db r.id void amt = .ok t) ↔ Settleable db r void amt := by
  rw [settleable_due hk hr hh]
  unfold precheck
  rw [fetch_hold hk.inv hr hh]
  cases hv : db.parentVoid r.id with
  | true =>
    simp only [if_true, expands, Bool.false_eq_true, if_false]
    constructor
    · rintro ⟨t, h⟩; cases h
    · intro h; rw [h.standing] at hv; cases hv
  | false =>
    simp only [Bool.false_eq_true, if_false]
    rw [check_seen]
    have hb := hk.bound r hr hh
    have hn := kidSum_nonneg hk (st := .void) (.inr rfl) (hk.known r hr hh)
    have hn1 := kidSum_nonneg hk (st := .applied) (.inl rfl) (hk.known r hr hh)
    have e1 : released db r.id = kidSum .void db r.id := rfl
    have e2 : committed db r.id = kidSum .applied db r.id := rfl
    by_cases h0 : pay r - committed db r.id = 0
    · rw [if_pos h0]
      exact ⟨fun h => absurd h (by simp), fun h => by have := h.left; omega⟩
    rw [if_neg h0]
    by_cases hvd : void = true
    · rw [if_pos hvd]
      exact ⟨fun _ => ⟨hv, by omega, .inl hvd⟩, fun _ => ⟨_, rfl⟩⟩
    rw [if_neg hvd]
    by_cases h1 : amt < 0
    · rw [if_pos h1]
      exact ⟨fun h => absurd h (by simp), fun h => by rcases h.asked with h | h <;> first | exact absurd h hvd | omega⟩
    rw [if_neg h1]
    by_cases h2 : amt = 0
    · rw [if_pos h2]
      exact ⟨fun _ => ⟨hv, by omega, .inr ⟨by omega, by omega⟩⟩, fun _ => ⟨_, rfl⟩⟩
    rw [if_neg h2]
    by_cases h3 : amt > pay r
    · rw [if_pos h3]
      exact ⟨fun h => absurd h (by simp), fun h => by rcases h.asked with h | h <;> first | exact absurd h hvd | omega⟩
    rw [if_neg h3]
    by_cases h4 : amt > pay r - committed db r.id
    · rw [if_pos h4]
      exact ⟨fun h => absurd h (by simp), fun h => by rcases h.asked with h | h <;> first | exact absurd h hvd | omega⟩
    rw [if_neg h4]
    exact ⟨fun _ => ⟨hv, by omega, .inr ⟨by omega, by omega⟩⟩, fun _ => ⟨_, rfl⟩⟩

/-- **C191.** A commit or void of a hold passes the check before it is queued exactly if it can be carried out now:
something is open, and the amount asked for is not negative and not more. -/
theorem c191_hold (cfg : Cfg) (H : String → Prop) (as : List Act) (hr : ∀ a ∈ as, a.Respects H) (s : Sys) (hs : s.db = acts cfg {} as)
    (r : Txn) (hrow : r ∈ s.db.txns) (hh : r.Holds) (void : Bool) (amt : Int) (act : String) :
    (∀ e, (ask s r.id void amt act).2 ≠ .refused e) ↔ Settleable s.db r void amt := by
  have hk : HoldInv H s.db := hs ▸ acts_holdInv (cfg := cfg) (init_holdInv H) hr
  rw [← check_hold hk hrow hh]
  unfold ask
  cases hp : precheck s.db r.id void amt with
  | error e => simp
  | ok t =>
    simp only
    split <;> simp

/-- What becomes of the state when the answer is not "queued". -/
theorem c191_unchanged (s : Sys) (id : String) (void : Bool) (amt : Int) (act : String)
    (h : (ask s id void amt act).2 ≠ .queued) : (ask s id void amt act).1 = s := by
  unfold ask at *
  cases hp : precheck s.db id void amt with
  | error e => rfl
  | ok t =>
    rw [hp] at h
    simp only at h ⊢
    split
    · rfl
    · rename_i hn; rw [if_neg hn] at h; exact absurd rfl h

/-- A hold of the request `id`: the row itself or, if that is no hold, one that names the request. -/
def Of (db : DB) (id : String) (r : Txn) : Prop :=
  r ∈ db.txns ∧ r.status = .inflight ∧
    (r.id = id ∨ (∀ x ∈ db.txns, x.id = id → ¬ x.Holds) ∧ (r.parent = id ∨ r.metaQueuedParent = id))

/-- **C191.** A refusal is right: no hold of the request could be settled as asked. -/
theorem c191_refused (cfg : Cfg) (H : String → Prop) (as : List Act) (hr : ∀ a ∈ as, a.Respects H) (s : Sys) (hs : s.db = acts cfg {} as)
    (id : String) (void : Bool) (amt : Int) (act : String) (e : InfErr) (h : (ask s id void amt act).2 = .refused e)
    (r : Txn) (hrow : Of s.db id r) : ¬ Settleable s.db r void amt := by
  have hk : HoldInv H s.db := hs ▸ acts_holdInv (cfg := cfg) (init_holdInv H) hr
  have hp : precheck s.db id void amt = .error e := by
    unfold ask at h
    cases hp : precheck s.db id void amt with
    | error e' => rw [hp] at h; simp only [Answer.refused.injEq] at h; rw [h]
    | ok t =>
      rw [hp] at h; simp only at h
      split at h <;> cases h
  obtain ⟨hm, hst, ho⟩ := hrow
  rcases ho with rfl | ⟨hno, ho⟩
  · intro hset
    obtain ⟨t, ht⟩ := (check_hold hk hm (.inl hst)).2 hset
    rw [ht] at hp; cases hp
  · rintro ⟨h0, _⟩
    have hin : r ∈ Atomic.inflightLegs s.db id :=
      (Paging.legs_mem ⟨r, hm, .inr ho, hst⟩).2 ⟨hm, .inr ho, hst⟩
    have hfe : ∃ e', fetchInflight s.db id = .error e' ∧ expands e' = true := by
      cases hf : fetchInflight s.db id with
      | ok t =>
        obtain ⟨x, hx, hid, hin', _⟩ := fetchInflight_ok hf
        exact absurd ((holds_iff x).1 hin') (hno x hx hid)
      | error e' =>
        refine ⟨e', rfl, ?_⟩
        unfold fetchInflight at hf
        split at hf
        · cases hf; rfl
        · rename_i t ht
          split at hf
          · rename_i hit
            exfalso
            unfold DB.getTxn at ht
            rw [Option.map_eq_some_iff] at ht
            obtain ⟨x, hx, rfl⟩ := ht
            refine hno x (List.mem_of_find?_eq_some hx) (by simpa using List.find?_some hx) ((holds_iff x).1 ?_)
            simpa [isInflightTxn] using hit
          · cases hf; rfl
    obtain ⟨e', hf, hx⟩ := hfe
    unfold precheck at hp
    rw [hf] at hp
    simp only [hx, if_true] at hp
    have nn := kidSum_nonneg hk (st := .void) (.inr rfl) (hk.known r hm (.inl hst))
    have hrem : remaining s.db r ≠ 0 := by
      have e1 : remaining s.db r = pay r - committed s.db r.id := rfl
      have e2 : released s.db r.id = kidSum .void s.db r.id := rfl
      unfold openAmount at h0
      omega
    cases hl : Atomic.inflightLegs s.db id with
    | nil => rw [hl] at hin; simp at hin
    | cons t ts =>
      rw [hl] at hp hin
      simp only at hp
      have : anyLeft s.db (t :: ts) = true := List.any_eq_true.2 ⟨r, hin, by simpa using hrem⟩
      rw [this] at hp
      simp at hp

/-! ### One action at a time -/

theorem erase_perm {α : Type} {x : α} : ∀ {l : List α} {k : Nat}, l[k]? = some x → l.Perm (x :: l.eraseIdx k) := by
  intro l
  induction l with
  | nil => intro k h; simp at h
  | cons y l ih =>
    intro k h
    cases k with
    | zero => simp at h; subst h; exact List.Perm.refl _
    | succ k =>
      simp only [List.getElem?_cons_succ] at h
      exact ((ih h).cons y).trans (List.Perm.swap ..)

/-- **C191.** For one id there is never more than one action, waiting or given up: a commit and a void of the same
request never wait together. -/
theorem c191_one (cfg : Cfg) (m : Nat) (es : List Ev) :
    (((run cfg m {} es).waiting ++ (run cfg m {} es).archived).map (·.id)).Nodup := by
  suffices h : ∀ (es : List Ev) (s : Sys), ((s.waiting ++ s.archived).map (·.id)).Nodup →
      (((run cfg m s es).waiting ++ (run cfg m s es).archived).map (·.id)).Nodup from h es {} (by simp)
  intro es
  induction es with
  | nil => intro s h; exact h
  | cons e es ih =>
    intro s h
    refine ih _ ?_
    cases e with
    | ask id void amt act =>
      simp only [step, ask]
      cases precheck s.db id void amt with
      | error e => exact h
      | ok t =>
        simp only
        split
        · exact h
        · rename_i hn
          simp only [Sys.taken, Bool.not_eq_true, List.any_eq_false, decide_eq_true_eq] at hn
          simp only [List.map_append, List.map_cons, List.map_nil, List.append_assoc] at h ⊢
          rw [List.nodup_append] at h ⊢
          refine ⟨h.1, ?_, ?_⟩
          · simp only [List.singleton_append, List.nodup_cons]
            refine ⟨?_, h.2.1⟩
            intro hm
            obtain ⟨t', ht', he⟩ := List.mem_map.1 hm
            exact hn t' (List.mem_append_right _ ht') he
          · intro a ha b hb
            rcases List.mem_append.1 hb with hb | hb
            · simp at hb; subst hb
              obtain ⟨t', ht', rfl⟩ := List.mem_map.1 ha
              exact hn t' (List.mem_append_left _ ht')
            · exact h.2.2 a ha b hb
    | deliver k g =>
      simp only [step]
      cases hk : s.waiting[k]? with
      | none => exact h
      | some t =>
        simp only
        have hsub : (s.waiting.eraseIdx k ++ s.archived).map (·.id) |>.Nodup :=
          h.sublist ((List.Sublist.append (List.eraseIdx_sublist _ _) (List.Sublist.refl _)).map _)
        split
        · exact hsub
        · split
          · have : (s.waiting.set k { t with tries := t.tries + 1 }).map (·.id) = s.waiting.map (·.id) := by
              rw [List.map_set]
              apply List.ext_getElem? 
              intro i
              rw [List.getElem?_set]
              split
              · rename_i hki
                subst hki
                simp [hk]
                have := (List.getElem?_eq_some_iff.1 hk).1
                simp [this]
              · rfl
            rw [List.map_append] at h ⊢
            rw [this]; exact h
          · have hp : (s.waiting ++ s.archived).Perm (s.waiting.eraseIdx k ++ (s.archived ++ [t])) := by
              have h1 : s.waiting.Perm (t :: s.waiting.eraseIdx k) := by
                exact erase_perm hk
              refine (h1.append_right _).trans ?_
              rw [List.cons_append]
              refine List.Perm.trans ?_ (by rw [← List.append_assoc])
              exact (List.perm_append_singleton t _).symm
            exact (hp.map _).nodup_iff.1 h
    | crash k n g =>
      simp only [step]
      cases hk : s.waiting[k]? with
      | none => exact h
      | some t => exact h
    | purge k =>
      exact h.sublist ((List.Sublist.append (List.Sublist.refl _) (List.eraseIdx_sublist _ _)).map _)
    | other a => exact h

/-- **C191 (part).** "Already queued" is answered exactly if the request passes the check and an action for the same id
waits or was given up. Missing for the full claim: that one waits (`c191_already_fails`). -/
theorem c191_already_partial (s : Sys) (id : String) (void : Bool) (amt : Int) (act : String) :
    (ask s id void amt act).2 = .already ↔
      (∀ e, (ask s id void amt act).2 ≠ .refused e) ∧ ∃ t, (t ∈ s.waiting ∨ t ∈ s.archived) ∧ t.id = id := by
  have htk : s.taken id = true ↔ ∃ t, (t ∈ s.waiting ∨ t ∈ s.archived) ∧ t.id = id := by
    simp [Sys.taken, or_and_right, exists_or]
  unfold ask
  cases hp : precheck s.db id void amt with
  | error e => simp
  | ok t =>
    simp only
    cases hb : s.taken id with
    | true => simp only [if_true, true_iff]; exact ⟨by simp, htk.1 hb⟩
    | false =>
      simp only [Bool.false_eq_true, if_false, reduceCtorEq, false_iff]
      rintro ⟨_, h⟩
      rw [htk.2 h] at hb; cases hb

/-- The task of an accepted request. -/
def Asked (id : String) (void : Bool) (amt : Int) (act : String) (t : Task) : Prop := t.id = id ∧ t.action = ⟨void, amt, act⟩

/-- **C191.** What is answered "queued" waits, as it was asked. -/
theorem c191_waits (s : Sys) (id : String) (void : Bool) (amt : Int) (act : String) (h : (ask s id void amt act).2 = .queued) :
    (ask s id void amt act).1.db = s.db ∧ ∃ t ∈ (ask s id void amt act).1.waiting, Asked id void amt act t := by
  unfold ask at *
  cases hp : precheck s.db id void amt with
  | error e => rw [hp] at h; cases h
  | ok t =>
    rw [hp] at h
    simp only at h ⊢
    split
    · rename_i hb; rw [if_pos hb] at h; cases h
    · exact ⟨rfl, ⟨id, ⟨void, amt, act⟩, 0⟩, List.mem_append_right _ (List.mem_singleton.2 rfl), rfl, rfl⟩

/-- A task is there until an attempt at it is acknowledged, or it is removed after it was given up. -/
theorem kept_step {cfg : Cfg} {m : Nat} {s : Sys} {e : Ev} {id : String} {q : QAction}
    (h : ∃ t, (t ∈ s.waiting ∨ t ∈ s.archived) ∧ t.id = id ∧ t.action = q) :
    (∃ t, (t ∈ (step cfg m s e).waiting ∨ t ∈ (step cfg m s e).archived) ∧ t.id = id ∧ t.action = q) ∨
    (∃ k g t, e = .deliver k g ∧ s.waiting[k]? = some t ∧ t.id = id ∧ t.action = q ∧ acked (deliver cfg s.db t g).2 = true) ∨
    ∃ k, e = .purge k := by
  obtain ⟨t, ht, hid, hq⟩ := h
  cases e with
  | ask id' void amt act =>
    left; refine ⟨t, ?_, hid, hq⟩
    simp only [step, ask]
    cases precheck s.db id' void amt with
    | error e => exact ht
    | ok t' =>
      simp only
      split
      · exact ht
      · rcases ht with ht | ht
        · exact .inl (List.mem_append_left _ ht)
        · exact .inr ht
  | deliver k g =>
    cases hk : s.waiting[k]? with
    | none => left; exact ⟨t, by simpa [step, hk] using ht, hid, hq⟩
    | some u =>
      by_cases ha : acked (deliver cfg s.db u g).2 = true
      · rcases ht with ht | ht
        · rcases Sched.mem_eraseIdx (k := k) ht with ht | ht
          · left; exact ⟨t, .inl (by simpa only [step, hk, if_pos ha] using ht), hid, hq⟩
          · rw [hk] at ht
            obtain rfl := Option.some.inj ht
            right; left; exact ⟨k, g, u, rfl, hk, hid, hq, ha⟩
        · left; exact ⟨t, .inr (by simpa only [step, hk, if_pos ha] using ht), hid, hq⟩
      · left
        by_cases hm : u.tries < m
        · rcases ht with ht | ht
          · rcases Sched.mem_eraseIdx (k := k) ht with ht' | ht'
            · obtain ⟨j, hj⟩ := List.mem_iff_getElem?.1 ht
              by_cases hjk : k = j
              · subst hjk
                rw [hk] at hj
                obtain rfl := Option.some.inj hj
                refine ⟨{ u with tries := u.tries + 1 }, .inl ?_, hid, hq⟩
                simp only [step, hk, if_neg ha, if_pos hm]
                exact List.mem_iff_getElem?.2 ⟨k, by
                  rw [List.getElem?_set_self]; exact (List.getElem?_eq_some_iff.1 hk).1⟩
              · refine ⟨t, .inl ?_, hid, hq⟩
                simp only [step, hk, if_neg ha, if_pos hm]
                exact List.mem_iff_getElem?.2 ⟨j, by rw [List.getElem?_set_ne hjk]; exact hj⟩
            · rw [hk] at ht'
              obtain rfl := Option.some.inj ht'
              refine ⟨{ u with tries := u.tries + 1 }, .inl ?_, hid, hq⟩
              simp only [step, hk, if_neg ha, if_pos hm]
              exact List.mem_iff_getElem?.2 ⟨k, by
                rw [List.getElem?_set_self]; exact (List.getElem?_eq_some_iff.1 hk).1⟩
          · exact ⟨t, .inr (by simpa only [step, hk, if_neg ha, if_pos hm] using ht), hid, hq⟩
        · refine ⟨t, ?_, hid, hq⟩
          simp only [step, hk, if_neg ha, if_neg hm]
          rcases ht with ht | ht
          · rcases Sched.mem_eraseIdx (k := k) ht with ht | ht
            · exact .inl ht
            · rw [hk] at ht
              obtain rfl := Option.some.inj ht
              exact .inr (List.mem_append_right _ (List.mem_singleton.2 rfl))
          · exact .inr (List.mem_append_left _ ht)
  | crash k n g =>
    left; refine ⟨t, ?_, hid, hq⟩
    simp only [step]
    split <;> exact ht
  | purge k => right; right; exact ⟨k, rfl⟩
  | other a => left; exact ⟨t, ht, hid, hq⟩

/-- **C191.** An accepted action is not lost: as long as nobody removes given-up tasks, it waits or was given up
until a delivery of it is acknowledged. -/
theorem c191_kept (cfg : Cfg) (m : Nat) (s : Sys) (id : String) (void : Bool) (amt : Int) (act : String)
    (h : (ask s id void amt act).2 = .queued) (es : List Ev) (hp : ∀ k, Ev.purge k ∉ es) :
    (∃ t, (t ∈ (run cfg m (ask s id void amt act).1 es).waiting ∨ t ∈ (run cfg m (ask s id void amt act).1 es).archived) ∧
      Asked id void amt act t) ∨
    ∃ pre post k g t, es = pre ++ .deliver k g :: post ∧ (run cfg m (ask s id void amt act).1 pre).waiting[k]? = some t ∧
      Asked id void amt act t ∧ acked (deliver cfg (run cfg m (ask s id void amt act).1 pre).db t g).2 = true := by
  obtain ⟨-, t, ht, ha⟩ := c191_waits s id void amt act h
  generalize (ask s id void amt act).1 = s0 at *
  have h0 : ∃ t, (t ∈ s0.waiting ∨ t ∈ s0.archived) ∧ t.id = id ∧ t.action = ⟨void, amt, act⟩ := ⟨t, .inl ht, ha.1, ha.2⟩
  clear ht ha t h
  induction es generalizing s0 with
  | nil => left; obtain ⟨t, h1, h2⟩ := h0; exact ⟨t, h1, h2⟩
  | cons e es ih =>
    rcases kept_step (cfg := cfg) (m := m) (e := e) h0 with h1 | ⟨k, g, t, rfl, hk, h1, h2, h3⟩ | ⟨k, rfl⟩
    · rcases ih (fun k hk => hp k (List.mem_cons_of_mem _ hk)) _ h1 with h | ⟨pre, post, k, g, t, rfl, h2, h3, h4⟩
      · exact .inl h
      · exact .inr ⟨e :: pre, post, k, g, t, rfl, h2, h3, h4⟩
    · exact .inr ⟨[], es, k, g, t, rfl, hk, ⟨h1, h2⟩, h3⟩
    · exact absurd (List.mem_cons_self ..) (hp k)

/-! ### What a delivery does -/

/-- Each leg's ids and reference are new when it is its turn. -/
def Fresh (cfg : Cfg) (q : QAction) : DB → List LegCall → Prop
  | _, [] => True
  | db, c :: cs => (acts cfg db c.before).hasTxnId c.newId = false ∧ (acts cfg db c.before).hasRef (q.ref c) = false ∧
      Fresh cfg q (act cfg (acts cfg db c.before) (q.toAct c)) cs

instance freshDec (cfg : Cfg) (q : QAction) : ∀ (db : DB) (cs : List LegCall), Decidable (Fresh cfg q db cs)
  | _, [] => .isTrue trivial
  | db, c :: cs =>
    have := freshDec cfg q (act cfg (acts cfg db c.before) (q.toAct c)) cs
    inferInstanceAs (Decidable (_ ∧ _ ∧ _))

/-- What is settled of a hold by the action: `due` of it, by a commit or by a void. -/
def SettledBy (db db' : DB) (r : Txn) (void : Bool) (due : Int) : Prop :=
  committed db' r.id = committed db r.id + (if void then 0 else due) ∧
  released db' r.id = released db r.id + (if void then due else 0)

/-- One leg. -/
theorem leg_effect {cfg : Cfg} {H Q : String → Prop} {as : List Act} (ha : ∀ a ∈ as, a.Respects H ∧ a.Direct Q) {db : DB}
    (hdb : db = acts cfg {} as) {r : Txn} (hr : r ∈ db.txns) (hs : r.status = .inflight) (hne : r.source ≠ r.destination)
    {q : QAction} (hq : q.void = true ∨ 0 ≤ q.amount) {c : LegCall} (hc : c.leg = r.id) (h1 : c.n1 = "") (h2 : c.n2 = "")
    (hid : db.hasTxnId c.newId = false) (href : db.hasRef (q.ref c) = false) :
    legClass (settleResult cfg db q c) ≠ .transient ∧
    (Settleable db r q.void q.amount → SettledBy db (act cfg db (q.toAct c)) r q.void (dueAmount db r q.void q.amount)) ∧
    (¬ Settleable db r q.void q.amount → (act cfg db (q.toAct c)).txns = db.txns) := by
  have hf : FundInv H Q db := hdb ▸ acts_fundInv (cfg := cfg) (init_fundInv H Q) ha
  have hk := hf.toHoldInv
  have hh : r.Holds := .inl hs
  have he : settleResult cfg db q c = (settleOne cfg db r.id q.void q.amount c.newId (q.ref c)).2 ∧
      act cfg db (q.toAct c) = (settleOne cfg db r.id q.void q.amount c.newId (q.ref c)).1 := by
    unfold settleResult settleOne QAction.toAct
    rw [hc, h1, h2]
    cases q.void <;> exact ⟨rfl, rfl⟩
  have hcall : bulkCall cfg q.void 0 ⟨r.id, q.amount⟩ db (settleOne cfg db r.id q.void q.amount c.newId (q.ref c)).1
      (settleOne cfg db r.id q.void q.amount c.newId (q.ref c)).2 :=
    ⟨c.newId, q.ref c, "", "", hid, href, Sched.empty_plain, Sched.empty_plain, by unfold settleOne; split <;> rfl⟩
  obtain ⟨hiff, hpay⟩ := real_due ha hdb hr hs hne (it := ⟨r.id, q.amount⟩) rfl hcall
  rw [he.1, he.2]
  rcases (settleOne_effect (cfg := cfg) (h := r.id) (newId := c.newId) (ref := q.ref c) (void := q.void) (amt := q.amount) hk).2 with
    ⟨hn, hsame⟩ | ⟨row, x, hrow, hrid, _, ho, htx, _, hpar, _, hst, _, _⟩
  · have hnd : ¬ Settleable db r q.void q.amount := by
      rw [settleable_due hk hr hh]
      intro hd
      obtain ⟨x, hx⟩ := hiff.2 hd
      exact hn _ hx
    refine ⟨?_, fun h => absurd h hnd, fun _ => hsame⟩
    have herr : legClass (settleOne cfg db r.id q.void q.amount c.newId (q.ref c)).2 = .terminal := by
      have hfe := fetch_hold hk.inv hr hh
      unfold settleOne
      cases hvd : q.void with
      | true =>
        simp only [if_true, voidInflight, hfe]
        cases hv : db.parentVoid r.id with
        | true => rfl
        | false =>
          have hb := hk.bound r hr hh
          have hn0 := kidSum_nonneg hk (st := .void) (.inr rfl) (hk.known r hr hh)
          have e1 : released db r.id = kidSum .void db r.id := rfl
          have hz : remaining db (seen r) = 0 := by
            have e2 : remaining db (seen r) = pay r - committed db r.id := rfl
            rw [e2]
            rw [settleable_due hk hr hh, hvd] at hnd
            by_cases hz : pay r - committed db r.id = 0
            · exact hz
            · exact absurd ⟨hv, by omega, .inl rfl⟩ hnd
          simp only [Bool.false_eq_true, if_false, hz, if_true]
          rfl
      | false =>
        simp only [Bool.false_eq_true, if_false, commitInflight, hfe]
        cases hv : db.parentVoid r.id with
        | true => rfl
        | false =>
          rcases hq with hq | hq
          · rw [hvd] at hq; cases hq
          simp only [Bool.false_eq_true, if_false]
          have hsa : settleAmount (seen r) q.amount (remaining db (seen r)) = .error .alreadyCommitted ∨
              settleAmount (seen r) q.amount (remaining db (seen r)) = .error .exceedsOriginal ∨
              settleAmount (seen r) q.amount (remaining db (seen r)) = .error .exceedsRemaining := by
            have hb := hk.bound r hr hh
            have hn0 := kidSum_nonneg hk (st := .void) (.inr rfl) (hk.known r hr hh)
            have e1 : released db r.id = kidSum .void db r.id := rfl
            have e2 : remaining db (seen r) = pay r - committed db r.id := rfl
            rw [settleable_due hk hr hh, hvd] at hnd
            unfold settleAmount
            by_cases hz : remaining db (seen r) = 0
            · left; rw [if_pos hz]
            · rw [if_neg hz, if_neg (by omega)]
              by_cases h0 : q.amount = 0
              · exact absurd ⟨hv, by omega, .inr ⟨hq, by omega⟩⟩ hnd
              · rw [if_neg h0]
                by_cases h3 : q.amount > (seen r).preciseAmount.getD 0
                · right; left; rw [if_pos h3]
                · rw [if_neg h3]
                  by_cases h4 : q.amount > remaining db (seen r)
                  · right; right; rw [if_pos h4]
                  · exact absurd ⟨hv, by omega, .inr ⟨hq, by omega⟩⟩ hnd
          rcases hsa with h | h | h <;> rw [h] <;> rfl
    rw [herr]; simp
  · have : row = r := row_unique hk.inv hrow hr hrid
    subst this
    have hd := hiff.1 ⟨x, ho⟩
    refine ⟨by rw [ho]; simp [legClass], fun _ => ?_, fun h => absurd ((settleable_due hk hr hh).2 hd) h⟩
    have hp := (hpay x ho).1
    unfold SettledBy committed released
    rw [kidSum_append htx, kidSum_append htx]
    cases hvd : q.void with
    | true =>
      have : x.status = .void := by rw [hst, hvd]; rfl
      rw [hvd] at hp
      simp [this, hpar, hp]
    | false =>
      have : x.status = .applied := by rw [hst, hvd]; rfl
      rw [hvd] at hp
      simp [this, hpar, hp]

theorem released_eq {H : String → Prop} {db : DB} (hk : HoldInv H db) {r : Txn} (hr : r ∈ db.txns) (hh : r.Holds) :
    released db r.id = if db.parentVoid r.id then pay r - committed db r.id else 0 := by
  split
  · rename_i hv; have := hk.closed r hr hh hv; omega
  · rename_i hv
    exact kidSum_zero (fun c hc hcs => parentVoid_false.1 (by simpa using hv) c hc hcs)

/-- Others that leave a hold alone. -/
theorem spared {cfg : Cfg} {H : String → Prop} {db : DB} (hk : HoldInv H db) {as : List Act} {r : Txn} (hr : r ∈ db.txns) (hh : r.Holds)
    (ha : ∀ a ∈ as, a.Respects H ∧ a.Spares r.id) :
    r ∈ (acts cfg db as).txns ∧ committed (acts cfg db as) r.id = committed db r.id ∧
    released (acts cfg db as) r.id = released db r.id := by
  obtain ⟨new, e⟩ := acts_prefix (cfg := cfg) hk (fun a h => (ha a h).1)
  have hr' : r ∈ (acts cfg db as).txns := by rw [e]; exact List.mem_append_left _ hr
  obtain ⟨_, h1, h2⟩ := acts_spares (cfg := cfg) rfl hh hk ha hr
  have hk' := acts_holdInv (cfg := cfg) hk (fun a h => (ha a h).1)
  exact ⟨hr', h1, by rw [released_eq hk' hr' hh, released_eq hk hr hh, h1, h2]⟩

theorem settleable_same {db db' : DB} {r : Txn} (h1 : committed db' r.id = committed db r.id) (h2 : released db' r.id = released db r.id)
    {void : Bool} {amt : Int} : (Settleable db' r void amt ↔ Settleable db r void amt) ∧ dueAmount db' r void amt = dueAmount db r void amt := by
  unfold Settleable dueAmount openAmount
  rw [h1, h2]
  exact ⟨Iff.rfl, rfl⟩

/-- A delivery over distinct holds, others leaving them alone. -/
theorem delivery_effect {cfg : Cfg} {H Q : String → Prop} {q : QAction} (hq : q.void = true ∨ 0 ≤ q.amount) {L : List String}
    {cs : List LegCall} : ∀ {as : List Act}, (∀ a ∈ as, a.Respects H ∧ a.Direct Q) → (cs.map (·.leg)).Nodup →
    (∀ c ∈ cs, c.leg ∈ L ∧ c.n1 = "" ∧ c.n2 = "" ∧ ¬ Q c.leg ∧ ∀ a ∈ c.before, a.Respects H ∧ a.Direct Q ∧ ∀ d ∈ L, a.Spares d) →
    (∀ c ∈ cs, ∃ r ∈ (acts cfg {} as).txns, r.id = c.leg ∧ r.status = .inflight ∧ r.source ≠ r.destination) →
    Fresh cfg q (acts cfg {} as) cs →
    acked (runAction cfg (acts cfg {} as) q cs).2 = true ∧
    ∀ c ∈ cs, ∀ r ∈ (acts cfg {} as).txns, r.id = c.leg →
      SettledBy (acts cfg {} as) (runAction cfg (acts cfg {} as) q cs).1 r q.void
        (if Settleable (acts cfg {} as) r q.void q.amount then dueAmount (acts cfg {} as) r q.void q.amount else 0) := by
  induction cs with
  | nil => intro as _ _ _ _ _; exact ⟨rfl, by simp⟩
  | cons c cs ih =>
    intro as ha hnd hc hrows hfresh
    obtain ⟨hcL, hn1, hn2, hcQ, hcb⟩ := hc c (by simp)
    have hk := acts_holdInv (cfg := cfg) (init_holdInv H) (fun a h => (ha a h).1)
    have e1 : acts cfg (acts cfg {} as) c.before = acts cfg {} (as ++ c.before) := (acts_append ..).symm
    have ha1 : ∀ a ∈ as ++ c.before, a.Respects H ∧ a.Direct Q := by
      intro a h
      rcases List.mem_append.1 h with h | h
      · exact ha a h
      · exact ⟨(hcb a h).1, (hcb a h).2.1⟩
    have hk1 := acts_holdInv (cfg := cfg) (init_holdInv H) (fun a h => (ha1 a h).1)
    have hact : (q.toAct c).Respects H ∧ (q.toAct c).Direct Q := by
      refine ⟨toAct_respects q c, ?_⟩
      unfold QAction.toAct
      split <;> exact ⟨hcQ, by rw [hn1]; exact Sched.empty_plain, by rw [hn2]; exact Sched.empty_plain⟩
    have e2 : act cfg (acts cfg {} (as ++ c.before)) (q.toAct c) = acts cfg {} (as ++ c.before ++ [q.toAct c]) := by
      rw [acts_append (as := as ++ c.before)]; rfl
    have ha2 : ∀ a ∈ as ++ c.before ++ [q.toAct c], a.Respects H ∧ a.Direct Q := by
      intro a h
      rcases List.mem_append.1 h with h | h
      · exact ha1 a h
      · simp at h; subst h; exact hact
    have hk2 := acts_holdInv (cfg := cfg) (init_holdInv H) (fun a h => (ha2 a h).1)
    simp only [List.map_cons, List.nodup_cons] at hnd
    -- what the steps up to the end of this leg do to a hold of the list
    have keep : ∀ r ∈ (acts cfg {} as).txns, r.status = .inflight → r.id ∈ L → r ∈ (acts cfg {} (as ++ c.before)).txns ∧
        committed (acts cfg {} (as ++ c.before)) r.id = committed (acts cfg {} as) r.id ∧
        released (acts cfg {} (as ++ c.before)) r.id = released (acts cfg {} as) r.id := by
      intro r hr hs hL
      rw [← e1]
      exact spared hk hr (.inl hs) (fun a h => ⟨(hcb a h).1, (hcb a h).2.2 _ hL⟩)
    have keep2 : ∀ r ∈ (acts cfg {} (as ++ c.before)).txns, r.status = .inflight → r.id ≠ c.leg →
        r ∈ (acts cfg {} (as ++ c.before ++ [q.toAct c])).txns ∧
        committed (acts cfg {} (as ++ c.before ++ [q.toAct c])) r.id = committed (acts cfg {} (as ++ c.before)) r.id ∧
        released (acts cfg {} (as ++ c.before ++ [q.toAct c])) r.id = released (acts cfg {} (as ++ c.before)) r.id := by
      intro r hr hs hne
      have := spared (cfg := cfg) (as := [q.toAct c]) hk1 hr (.inl hs) (by
        intro a h; simp at h; subst h
        refine ⟨hact.1, ?_⟩
        unfold QAction.toAct
        split <;> exact fun h => hne h.symm)
      rw [acts_append (as := as ++ c.before)]
      exact this
    obtain ⟨r0, hr0, hid0, hs0, hne0⟩ := hrows c (by simp)
    obtain ⟨hr0', hc0, hl0⟩ := keep r0 hr0 hs0 (hid0 ▸ hcL)
    obtain ⟨f1, f2, f3⟩ := hfresh
    rw [e1] at f1 f2 f3
    obtain ⟨g1, g2, g3⟩ := leg_effect ha1 rfl hr0' hs0 hne0 hq hid0.symm hn1 hn2 f1 f2
    have rest := ih (as := as ++ c.before ++ [q.toAct c]) ha2 hnd.2 (fun d hd => hc d (List.mem_cons_of_mem _ hd))
      (by
        intro d hd
        obtain ⟨r, hr, hid, hs, hne⟩ := hrows d (List.mem_cons_of_mem _ hd)
        have hdc : r.id ≠ c.leg := by
          intro h; exact hnd.1 (List.mem_map.2 ⟨d, hd, by rw [← hid, h]⟩)
        obtain ⟨k1, _⟩ := keep r hr hs (hid ▸ (hc d (List.mem_cons_of_mem _ hd)).1)
        exact ⟨r, (keep2 r k1 hs hdc).1, hid, hs, hne⟩)
      (by rw [← e2]; exact f3)
    simp only [runAction]
    rw [e1, e2]
    refine ⟨?_, ?_⟩
    · have := rest.1
      simp only [acked, List.contains_cons, Bool.not_or, Bool.and_eq_true] at this ⊢
      exact ⟨by simpa using fun h => g1 h.symm, this⟩
    · intro d hd r hr hid
      rcases List.mem_cons.1 hd with rfl | hd
      · have : r = r0 := row_unique hk.inv hr hr0 (hid.trans hid0.symm)
        subst this
        -- the later steps leave it alone
        have hlast : committed (runAction cfg (acts cfg {} (as ++ d.before ++ [q.toAct d])) q cs).1 r.id =
              committed (acts cfg {} (as ++ d.before ++ [q.toAct d])) r.id ∧
            released (runAction cfg (acts cfg {} (as ++ d.before ++ [q.toAct d])) q cs).1 r.id =
              released (acts cfg {} (as ++ d.before ++ [q.toAct d])) r.id := by
          rw [runAction_acts]
          have hr2 : r ∈ (acts cfg {} (as ++ d.before ++ [q.toAct d])).txns := by
            obtain ⟨new, e⟩ := acts_prefix (cfg := cfg) hk1 (as := [q.toAct d]) (by intro a h; simp at h; subst h; exact hact.1)
            rw [acts_append (as := as ++ d.before), e]
            exact List.mem_append_left _ hr0'
          refine (spared hk2 hr2 (.inl hs0) ?_).2
          intro a h
          obtain ⟨x, hx, h⟩ := List.mem_flatMap.1 h
          have hcx := hc x (List.mem_cons_of_mem _ hx)
          rcases List.mem_append.1 h with h | h
          · exact ⟨(hcx.2.2.2.2 a h).1, (hcx.2.2.2.2 a h).2.2 _ (hid0 ▸ hcL)⟩
          · simp at h; subst h
            refine ⟨toAct_respects q x, ?_⟩
            have hxd : x.leg ≠ r.id := by
              intro he; exact hnd.1 (List.mem_map.2 ⟨x, hx, he.trans hid0⟩)
            unfold QAction.toAct
            split <;> exact hxd
        have hsame := settleable_same (void := q.void) (amt := q.amount) hc0 hl0
        by_cases hset : Settleable (acts cfg {} as) r q.void q.amount
        · rw [if_pos hset]
          have := g2 (hsame.1.2 hset)
          rw [e2] at this
          unfold SettledBy at this ⊢
          rw [hlast.1, hlast.2, this.1, this.2, hc0, hl0, hsame.2]
          exact ⟨rfl, rfl⟩
        · rw [if_neg hset]
          have := g3 (fun h => hset (hsame.1.1 h))
          rw [e2] at this
          unfold SettledBy
          rw [hlast.1, hlast.2, ← hc0, ← hl0]
          unfold committed released kidSum
          rw [this]; simp
      · have hdc : r.id ≠ c.leg := by
          intro h; exact hnd.1 (List.mem_map.2 ⟨d, hd, by rw [← hid, h]⟩)
        obtain ⟨r', hr', hid', hs', _⟩ := hrows d (List.mem_cons_of_mem _ hd)
        have : r = r' := row_unique hk.inv hr hr' (hid.trans hid'.symm)
        subst this
        obtain ⟨k1, k2, k3⟩ := keep r hr hs' (hid ▸ (hc d (List.mem_cons_of_mem _ hd)).1)
        obtain ⟨l1, l2, l3⟩ := keep2 r k1 hs' hdc
        have := rest.2 d hd r l1 hid
        have hsame := settleable_same (void := q.void) (amt := q.amount) (l2.trans k2) (l3.trans k3)
        unfold SettledBy at this ⊢
        rw [l2, l3, k2, k3] at this
        simpa only [hsame.1, hsame.2] using this

/-- What an event does to the ledger. -/
def effects (s : Sys) : Ev → List Act
  | .deliver k g => match s.waiting[k]? with
    | none => []
    | some t => deliverySteps t.action (Sched.legCalls g 0 (Atomic.inflightLegs s.db t.id))
  | .crash k n g => match s.waiting[k]? with
    | none => []
    | some t => deliverySteps t.action ((Sched.legCalls g 0 (Atomic.inflightLegs s.db t.id)).take n)
  | .other a => [a]
  | _ => []

/-- What a history does to the ledger. -/
def history (cfg : Cfg) (m : Nat) : Sys → List Ev → List Act
  | _, [] => []
  | s, e :: es => effects s e ++ history cfg m (step cfg m s e) es

theorem step_db {cfg : Cfg} {m : Nat} {s : Sys} {e : Ev} : (step cfg m s e).db = acts cfg s.db (effects s e) := by
  cases e with
  | ask id void amt act =>
    simp only [step, effects, acts, ask]
    cases precheck s.db id void amt with
    | error e => rfl
    | ok t => simp only; split <;> rfl
  | deliver k g =>
    simp only [step, effects]
    cases s.waiting[k]? with
    | none => rfl
    | some t =>
      simp only [deliver]
      rw [← runAction_acts]
      have three : ∀ (p q : Prop) [Decidable p] [Decidable q] (a b c : Sys) (x : DB), a.db = x → b.db = x → c.db = x →
          (if p then a else if q then b else c).db = x := by
        intro p q _ _ a b c x h1 h2 h3
        split
        · exact h1
        · split
          · exact h2
          · exact h3
      exact three _ _ _ _ _ _ rfl rfl rfl
  | crash k n g =>
    simp only [step, effects]
    cases s.waiting[k]? with
    | none => rfl
    | some t => simp only; rw [← runAction_acts]
  | purge k => rfl
  | other a => rfl

theorem run_db {cfg : Cfg} {m : Nat} {es : List Ev} : ∀ {s : Sys}, (run cfg m s es).db = acts cfg s.db (history cfg m s es) := by
  induction es with
  | nil => intro s; rfl
  | cons e es ih => intro s; simp only [run, history, acts_append]; rw [ih, step_db]

/-- A history of postings, holds and settlements of them. -/
def Clean (cfg : Cfg) (H Q : String → Prop) (db : DB) : Prop := ∃ as, (∀ a ∈ as, a.Respects H ∧ a.Direct Q) ∧ db = acts cfg {} as

/-- A hold under the id. -/
def Under (db : DB) (id : String) (r : Txn) : Prop :=
  r ∈ db.txns ∧ r.status = .inflight ∧ (r.id = id ∨ r.parent = id ∨ r.metaQueuedParent = id)

theorem legCalls_legs {g : Sched.Gen} {ts : List Txn} : ∀ {k : Nat}, (Sched.legCalls g k ts).map (·.leg) = ts.map (·.id) := by
  induction ts with
  | nil => intro k; rfl
  | cons t ts ih => intro k; simp [Sched.legCalls, ih]

/-- **C191.** What a delivery does: it is acknowledged, every hold under the id that can be settled as asked is settled by
exactly the amount asked for (all that is open of it, if none was), and no other is touched. Others may do anything
else between the holds. -/
theorem c191_delivered (cfg : Cfg) (H Q : String → Prop) (db : DB) (hdb : Clean cfg H Q db) (t : Task)
    (hq : t.action.void = true ∨ 0 ≤ t.action.amount) (g : Sched.Gen)
    (hu : ∀ r, Under db t.id r → r.source ≠ r.destination ∧ ¬ Q r.id) (hex : ∃ r, Under db t.id r)
    (hb : ∀ k, ∀ a ∈ g.before k, a.Respects H ∧ a.Direct Q ∧ ∀ r, Under db t.id r → a.Spares r.id)
    (hfresh : Fresh cfg t.action db (Sched.legCalls g 0 (Atomic.inflightLegs db t.id))) :
    acked (deliver cfg db t g).2 = true ∧
    ∀ r, Under db t.id r → SettledBy db (deliver cfg db t g).1 r t.action.void
      (if Settleable db r t.action.void t.action.amount then dueAmount db r t.action.void t.action.amount else 0) := by
  obtain ⟨as, ha, rfl⟩ := hdb
  have hk := acts_holdInv (cfg := cfg) (init_holdInv H) (fun a h => (ha a h).1)
  have hbk : Paging.OnBooks (acts cfg {} as) t.id := by
    obtain ⟨r, h1, h2, h3⟩ := hex; exact ⟨r, h1, h3, h2⟩
  have hmem : ∀ x, x ∈ Atomic.inflightLegs (acts cfg {} as) t.id ↔ Under (acts cfg {} as) t.id x := by
    intro x
    rw [Paging.legs_mem hbk]
    exact ⟨fun ⟨a, b, c⟩ => ⟨a, c, b⟩, fun ⟨a, c, b⟩ => ⟨a, b, c⟩⟩
  have key := delivery_effect (cfg := cfg) (H := H) (Q := Q) hq
    (L := (Atomic.inflightLegs (acts cfg {} as) t.id).map (·.id)) (cs := Sched.legCalls g 0 (Atomic.inflightLegs (acts cfg {} as) t.id))
    ha (by rw [legCalls_legs]; exact inflightLegs_nodup hk.inv.unique t.id)
    (by
      intro c hc
      obtain ⟨x, hx, j, rfl⟩ := Sched.legCalls_mem hc
      refine ⟨List.mem_map.2 ⟨x, hx, rfl⟩, rfl, rfl, (hu x ((hmem x).1 hx)).2, ?_⟩
      intro a h
      refine ⟨(hb j a h).1, (hb j a h).2.1, ?_⟩
      intro d hd
      obtain ⟨y, hy, rfl⟩ := List.mem_map.1 hd
      exact (hb j a h).2.2 y ((hmem y).1 hy))
    (by
      intro c hc
      obtain ⟨x, hx, j, rfl⟩ := Sched.legCalls_mem hc
      have := (hmem x).1 hx
      exact ⟨x, this.1, rfl, this.2.1, (hu x this).1⟩)
    hfresh
  refine ⟨key.1, ?_⟩
  intro r hr
  obtain ⟨c, hc, hcl⟩ := Sched.legCalls_cover (g := g) (k := 0) ((hmem r).2 hr)
  exact key.2 c hc r hr.1 hcl.symm

/-- **C191 (part).** A commit or void of a hold that was answered "queued" is carried out: nothing else having settled
the hold, the delivery is acknowledged and settles exactly what was asked for. Missing for the full claim: ids that
stand for several holds (`c191_accepted_fails`, `c191_carried_fails`) and holds that are still in the queue
(`c191_again_fails`). -/
theorem c191_carried_partial (cfg : Cfg) (m : Nat) (H Q : String → Prop) (s : Sys) (hs : Clean cfg H Q s.db) (r : Txn) (hr : r ∈ s.db.txns)
    (hst : r.status = .inflight) (void : Bool) (amt : Int) (act : String) (h : (ask s r.id void amt act).2 = .queued)
    (es : List Ev) (hes : ∀ a ∈ history cfg m (ask s r.id void amt act).1 es, (a.Respects H ∧ a.Direct Q) ∧ a.Spares r.id)
    (k : Nat) (g : Sched.Gen) (t : Task) (hk : (run cfg m (ask s r.id void amt act).1 es).waiting[k]? = some t)
    (ht : Asked r.id void amt act t) (hu : ∀ x, Under (run cfg m (ask s r.id void amt act).1 es).db r.id x → x.source ≠ x.destination ∧ ¬ Q x.id)
    (hb : ∀ k, ∀ a ∈ g.before k, a.Respects H ∧ a.Direct Q ∧
      ∀ x, Under (run cfg m (ask s r.id void amt act).1 es).db r.id x → a.Spares x.id)
    (hfresh : Fresh cfg t.action (run cfg m (ask s r.id void amt act).1 es).db
      (Sched.legCalls g 0 (Atomic.inflightLegs (run cfg m (ask s r.id void amt act).1 es).db t.id))) :
    (step cfg m (run cfg m (ask s r.id void amt act).1 es) (.deliver k g)).waiting =
      (run cfg m (ask s r.id void amt act).1 es).waiting.eraseIdx k ∧
    SettledBy s.db (step cfg m (run cfg m (ask s r.id void amt act).1 es) (.deliver k g)).db r void
      (if void = true ∨ amt = 0 then openAmount s.db r else amt) := by
  obtain ⟨as, ha, has⟩ := hs
  have hk0 : HoldInv H s.db := has ▸ acts_holdInv (cfg := cfg) (init_holdInv H) (fun a h => (ha a h).1)
  have hset : Settleable s.db r void amt := by
    refine (check_hold hk0 hr (.inl hst)).1 ?_
    unfold ask at h
    cases hp : precheck s.db r.id void amt with
    | error e => rw [hp] at h; cases h
    | ok x => exact ⟨x, rfl⟩
  have edb : (ask s r.id void amt act).1.db = s.db := (c191_waits s r.id void amt act h).1
  have erun : (run cfg m (ask s r.id void amt act).1 es).db = acts cfg s.db (history cfg m (ask s r.id void amt act).1 es) := by
    rw [run_db, edb]
  obtain ⟨hr', hc', hl'⟩ := spared (cfg := cfg) hk0 hr (.inl hst) (fun a h => ⟨(hes a h).1.1, (hes a h).2⟩)
  rw [← erun] at hr' hc' hl'
  have hclean : Clean cfg H Q (run cfg m (ask s r.id void amt act).1 es).db := by
    refine ⟨as ++ history cfg m (ask s r.id void amt act).1 es, ?_, by rw [erun, has, acts_append]⟩
    intro a h
    rcases List.mem_append.1 h with h | h
    · exact ha a h
    · exact (hes a h).1
  generalize run cfg m (ask s r.id void amt act).1 es = s2 at *
  have hund : Under s2.db r.id r := ⟨hr', hst, .inl rfl⟩
  obtain ⟨hti, hta⟩ := ht
  have hsame := settleable_same (void := void) (amt := amt) hc' hl'
  have hset2 := hsame.1.2 hset
  rw [← hti] at hu hb hund
  obtain ⟨h1, h2⟩ := c191_delivered cfg H Q s2.db hclean t (by
      rw [hta]
      rcases hset.2 with h | h
      · exact .inl h
      · exact .inr h.1) g hu ⟨r, hund⟩ hb hfresh
  have h3 := h2 r hund
  simp only [hta, if_pos hset2] at h3
  refine ⟨by simp only [step, hk, if_pos h1], ?_⟩
  have e4 : (step cfg m s2 (.deliver k g)).db = (deliver cfg s2.db t g).1 := by
    simp only [step, hk, if_pos h1]
  rw [e4]
  unfold SettledBy at h3 ⊢
  rw [hc', hl', hsame.2] at h3
  have hd := (settleable_due hk0 hr (.inl hst)).1 hset
  have e5 : dueAmount s.db r void amt = if void = true ∨ amt = 0 then openAmount s.db r else amt := by
    unfold dueAmount; rw [due_open hd.standing]
  rw [e5] at h3
  exact h3

/-! ### Bulk calls -/

/-- **C191 (part).** In a bulk call every item gets an answer of its own, and if no id is given twice and none had an
action before, then exactly the items that count as succeeded wait, as they were asked. Missing for the full claim: an
item also counts as succeeded if another action waits (`c191_bulk_fails`). -/
theorem c191_bulk_partial (void : Bool) : ∀ (items : List Item) (s : Sys), (items.map (·.id)).Nodup →
    (∀ it ∈ items, s.taken it.id = false) →
    (askAll s void items).2.length = items.length ∧
    ∀ (i : Nat) (it : Item) (a : Answer), items[i]? = some it → (askAll s void items).2[i]? = some a →
      (a.ok = true ↔ ∃ t ∈ (askAll s void items).1.waiting, Asked it.id void it.amount it.act t) ∧
      (a.ok = true ↔ ∀ act e, (ask s it.id void it.amount act).2 ≠ .refused e) := by
  have asked_db : ∀ (s : Sys) (id : String) (amt : Int) (act : String), (ask s id void amt act).1.db = s.db := by
    intro s id amt act
    unfold ask
    cases precheck s.db id void amt with
    | error e => rfl
    | ok t => simp only; split <;> rfl
  have all_db : ∀ (items : List Item) (s : Sys), (askAll s void items).1.db = s.db := by
    intro items
    induction items with
    | nil => intro s; rfl
    | cons it its ih => intro s; simp only [askAll]; rw [ih, asked_db]
  have grow : ∀ (items : List Item) (s : Sys) (t : Task), t ∈ s.waiting → t ∈ (askAll s void items).1.waiting := by
    intro items
    induction items with
    | nil => intro s t h; exact h
    | cons it its ih =>
      intro s t h
      refine ih _ t ?_
      unfold ask
      cases precheck s.db it.id void it.amount with
      | error e => exact h
      | ok x => simp only; split
                · exact h
                · exact List.mem_append_left _ h
  have only : ∀ (items : List Item) (s : Sys) (t : Task), t ∈ (askAll s void items).1.waiting → t ∈ s.waiting ∨ t.id ∈ items.map (·.id) := by
    intro items
    induction items with
    | nil => intro s t h; exact .inl h
    | cons it its ih =>
      intro s t h
      rcases ih _ t h with h | h
      · unfold ask at h
        cases hp : precheck s.db it.id void it.amount with
        | error e => rw [hp] at h; exact .inl h
        | ok x =>
          rw [hp] at h
          simp only at h
          split at h
          · exact .inl h
          · rcases List.mem_append.1 h with h | h
            · exact .inl h
            · simp at h; subst h; right; simp
      · right; exact List.mem_cons_of_mem _ h
  have check : ∀ (s : Sys) (id : String) (amt : Int) (act : String) , (∀ e, (ask s id void amt act).2 ≠ .refused e) ↔
      ∃ t, precheck s.db id void amt = .ok t := by
    intro s id amt act
    unfold ask
    cases hp : precheck s.db id void amt with
    | error e => simp
    | ok t => simp only; split <;> simp
  intro items
  induction items with
  | nil => intro s _ _; exact ⟨rfl, fun i it a h => by simp at h⟩
  | cons it its ih =>
    intro s hnd ht
    simp only [List.map_cons, List.nodup_cons] at hnd
    have ht' : ∀ x ∈ its, (ask s it.id void it.amount it.act).1.taken x.id = false := by
      intro x hx
      have h1 := ht x (List.mem_cons_of_mem _ hx)
      have h2 : it.id ≠ x.id := fun h => hnd.1 (List.mem_map.2 ⟨x, hx, h.symm⟩)
      unfold ask
      cases precheck s.db it.id void it.amount with
      | error e => exact h1
      | ok y =>
        simp only
        split
        · exact h1
        · simp only [Sys.taken, List.any_append, Bool.or_eq_false_iff] at h1 ⊢
          exact ⟨⟨h1.1, by simpa using h2⟩, h1.2⟩
    obtain ⟨l, r⟩ := ih _ hnd.2 ht'
    refine ⟨by simp only [askAll, List.length_cons, l], ?_⟩
    intro i x a hi hx
    cases i with
    | zero =>
      simp only [List.getElem?_cons_zero, Option.some.injEq] at hi
      subst hi
      simp only [askAll, List.getElem?_cons_zero, Option.some.injEq] at hx
      subst hx
      have hself := ht it (by simp)
      simp only [askAll]
      unfold ask
      cases hp : precheck s.db it.id void it.amount with
      | error e =>
        simp only [Answer.ok, Bool.false_eq_true, false_iff]
        refine ⟨?_, by simp⟩
        rintro ⟨t, h, ha⟩
        rcases only _ _ _ h with h | h
        · have : s.taken it.id = true := List.any_eq_true.2 ⟨t, List.mem_append_left _ h, by simpa using ha.1⟩
          rw [this] at hself; cases hself
        · rw [ha.1] at h; exact hnd.1 h
      | ok y =>
        simp only [hself, Bool.false_eq_true, if_false, Answer.ok, true_iff]
        exact ⟨⟨_, grow _ _ _ (List.mem_append_right _ (List.mem_singleton.2 rfl)), rfl, rfl⟩, by simp⟩
    | succ i =>
      simp only [List.getElem?_cons_succ] at hi
      simp only [askAll, List.getElem?_cons_succ] at hx
      obtain ⟨r1, r2⟩ := r i x a hi hx
      refine ⟨r1, r2.trans ?_⟩
      constructor
      · intro h act e
        have := (check _ x.id x.amount act).1 (h act)
        rw [asked_db] at this
        exact (check s x.id x.amount act).2 this e
      · intro h act e
        have := (check _ x.id x.amount act).1 (h act)
        refine (check _ x.id x.amount act).2 ?_ e
        rw [asked_db]; exact this

/-! ### Where it fails -/

/-- C191: what is accepted can be settled. -/
def C191Accepted : Prop := ∀ (cfg : Cfg) (H Q : String → Prop) (s : Sys), Clean cfg H Q s.db → ∀ (id : String) (void : Bool) (amt : Int) (act : String),
  (ask s id void amt act).2 = .queued → ∃ r ∈ s.db.txns, r.Holds ∧ (r.id = id ∨ r.parent = id ∨ r.metaQueuedParent = id) ∧ Settleable s.db r void amt

/-- C191: what is accepted and acknowledged is carried out on every open hold it stands for. -/
def C191Carried : Prop := ∀ (cfg : Cfg) (H Q : String → Prop) (s : Sys), Clean cfg H Q s.db → ∀ (id : String) (void : Bool) (amt : Int) (act : String),
  (ask s id void amt act).2 = .queued → ∀ (g : Sched.Gen), (∀ k, g.before k = []) →
  acked (deliver cfg s.db ⟨id, ⟨void, amt, act⟩, 0⟩ g).2 = true →
  ∀ r, Under s.db id r → 0 < openAmount s.db r →
    SettledBy s.db (deliver cfg s.db ⟨id, ⟨void, amt, act⟩, 0⟩ g).1 r void (if void = true ∨ amt = 0 then openAmount s.db r else amt)

/-- C191: "already queued" means that an action waits. -/
def C191Already : Prop := ∀ (cfg : Cfg) (m : Nat) (es : List Ev) (id : String) (void : Bool) (amt : Int) (act : String),
  (ask (run cfg m {} es) id void amt act).2 = .already → ∃ t ∈ (run cfg m {} es).waiting, t.id = id

/-- C191: an item of a bulk call that counts as succeeded waits as it was asked. -/
def C191Bulk : Prop := ∀ (s : Sys) (void : Bool) (items : List Item) (i : Nat) (it : Item) (a : Answer), items[i]? = some it →
  (askAll s void items).2[i]? = some a → a.ok = true →
  ∃ t ∈ (askAll s void items).1.waiting, t.id = it.id ∧ t.action.void = void ∧ (void = true ∨ t.action.amount = it.amount)

/-- Two holds of 100 under one id. -/
def pairHistory : List Act :=
  [.base (.create "a" "" "USD"), .base (.create "b" "" "USD"),
   .base (.post { holdTxn "h1" "r1" "a" "b" 100 with parent := "b1" } "x" "y"),
   .base (.post { holdTxn "h2" "r2" "a" "b" 100 with parent := "b1" } "x" "y")]

theorem pair_ok {more : List Act} (h : ∀ a ∈ more, a.Respects exampleHolds ∧ a.Direct (fun _ => False)) :
    ∀ a ∈ pairHistory ++ more, a.Respects exampleHolds ∧ a.Direct (fun _ => False) := by
  intro a ha
  rcases List.mem_append.1 ha with ha | ha
  · simp only [pairHistory, List.mem_cons, List.not_mem_nil, or_false] at ha
    rcases ha with rfl | rfl | rfl | rfl <;>
      simp [Act.Respects, Act.Direct, Op.Ordinary, Op.posts, Op.gens, holdTxn, Txn.Live, Txn.Plain, exampleHolds] <;>
      try decide
  · exact h a ha

/-- Both holds voided. -/
def pairVoided : List Act := pairHistory ++ [.void "h1" "v1" "s1" "x" "y", .void "h2" "v2" "s2" "x" "y"]

/-- 70 of the first hold committed. -/
def pairShort : List Act := pairHistory ++ [.commit "h1" 70 "c1" "s1" "x" "y"]

theorem pairVoided_ok : Clean {} exampleHolds (fun _ => False) (acts {} {} pairVoided) :=
  ⟨pairVoided, pair_ok (by simp [Act.Respects, Act.Direct]; decide), rfl⟩

theorem pairShort_ok : Clean {} exampleHolds (fun _ => False) (acts {} {} pairShort) :=
  ⟨pairShort, pair_ok (by simp [Act.Respects, Act.Direct]; decide), rfl⟩

/-- **C191, accepted though nothing is open.** The holds under the id were all voided; a commit of the id is answered
"queued" all the same (`transaction_inflight.go:815-826` looks at what was committed only). -/
theorem c191_accepted_fails : ¬ C191Accepted := by
  intro h
  obtain ⟨r, h1, h2, h3, h4⟩ := h {} exampleHolds (fun _ => False) { db := acts {} {} pairVoided } pairVoided_ok "b1" false 0 "q" (by decide +kernel)
  have : ∀ r ∈ (acts {} {} pairVoided).txns, ¬ Settleable (acts {} {} pairVoided) r false 0 ∨ ¬ r.status = .inflight ∧ ¬ r.status = .queued := by
    decide +kernel
  rcases this r h1 with h | h
  · exact h h4
  · rcases h2 with h2 | h2
    · exact h.1 h2
    · exact h.2 h2.1

/-- **C191, accepted for more than any hold has.** A commit of 5000 of an id with two holds of 100 under it is answered
"queued". -/
theorem c191_amount_fails : ¬ C191Accepted := by
  intro h
  obtain ⟨r, h1, h2, h3, h4⟩ := h {} exampleHolds (fun _ => False) { db := acts {} {} pairHistory }
    ⟨pairHistory, by simpa using pair_ok (more := []) (by simp), rfl⟩ "b1" false 5000 "q" (by decide +kernel)
  have : ∀ r ∈ (acts {} {} pairHistory).txns, ¬ Settleable (acts {} {} pairHistory) r false 5000 := by
    decide +kernel
  exact this r h1 h4

/-- **C191, acknowledged and not carried out.** 50 of each hold under the id is asked for; one of them has 30 left. The
action is accepted, the other hold is settled, and the task is acknowledged. -/
theorem c191_carried_fails : ¬ C191Carried := by
  intro h
  have hr : ∃ r ∈ (acts {} {} pairShort).txns, r.id = "h1" ∧ r.status = .inflight ∧ 0 < openAmount (acts {} {} pairShort) r := by decide +kernel
  obtain ⟨r, h1, h2, h3, h4⟩ := hr
  have hp : ∀ r ∈ (acts {} {} pairShort).txns, r.id = "h1" → r.parent = "b1" := by decide +kernel
  have := h {} exampleHolds (fun _ => False) { db := acts {} {} pairShort } pairShort_ok "b1" false 50 "q" (by decide +kernel)
    { fresh := fun k => if k = 0 then "n0" else "n1" } (fun _ => rfl) (by decide +kernel) r ⟨h1, h3, .inr (.inl (hp r h1 h2))⟩ h4
  have e := this.1
  rw [h2] at e
  simp only [Bool.false_eq_true, if_false, false_or] at e
  rw [if_neg (by decide)] at e
  exact absurd e (by decide +kernel)

/-- C191: what is accepted and acknowledged, nothing else happening in between, changes the ledger. -/
def C191Effect : Prop := ∀ (cfg : Cfg) (H : String → Prop) (as : List Act), (∀ a ∈ as, a.Respects H) →
  ∀ (id : String) (void : Bool) (amt : Int) (act : String), (ask { db := acts cfg {} as } id void amt act).2 = .queued →
  ∀ (g : Sched.Gen), (∀ k, g.before k = []) → acked (deliver cfg (acts cfg {} as) ⟨id, ⟨void, amt, act⟩, 0⟩ g).2 = true →
    (deliver cfg (acts cfg {} as) ⟨id, ⟨void, amt, act⟩, 0⟩ g).1.txns ≠ (acts cfg {} as).txns

/-- **C191, a second commit of a hold that went through the queue.** The id the client was given is that of the QUEUED
row; the hold the queue made for it is committed in full. Another commit of the id is answered "queued" and
acknowledged, and does nothing. -/
theorem c191_again_fails : ¬ C191Effect := by
  intro h
  refine h {} twinHolds (twinHistory ++ [.commit "C" 0 "c1" "s1" "x" "y"]) ?_ "P" false 0 "q" (by decide +kernel)
    { fresh := fun _ => "n0" } (fun _ => rfl) (by decide +kernel) (by decide +kernel)
  intro a ha
  rcases List.mem_append.1 ha with ha | ha
  · exact twinHistory_ok a ha
  · simp at ha; subst ha; trivial

/-- A negative amount for the id of two holds, tried once and given up. -/
def givenUp : List Ev := pairHistory.map Ev.other ++ [.ask "b1" false (-5) "q1", .deliver 0 { fresh := fun k => if k = 0 then "n0" else "n1" }]

/-- **C191, "already queued" though nothing waits.** A negative amount is not refused for an id with holds under it
(the amount is not looked at); the worker fails on it until the task is archived, and as long as asynq keeps the task no
commit or void of the id is taken in. -/
theorem c191_already_fails : ¬ C191Already ∧
    ∀ void : Bool, (ask (run {} 0 {} givenUp) "b1" void 0 "q2").2 = .already := by
  refine ⟨fun h => ?_, by decide +kernel⟩
  obtain ⟨t, ht, _⟩ := h {} 0 givenUp "b1" true 0 "q2" (by decide +kernel)
  have : (run {} 0 {} givenUp).waiting = [] := by decide +kernel
  rw [this] at ht; cases ht

/-- **C191, counted as succeeded though something else waits.** A void in a bulk call succeeds while a commit of the
hold waits; the hold will be committed. -/
theorem c191_bulk_fails : ¬ C191Bulk := by
  intro h
  obtain ⟨t, ht, h1, h2, h3⟩ := h (run {} 3 {} (pairHistory.map Ev.other ++ [.ask "h1" false 100 "q1"])) true [⟨"h1", 0, "q2"⟩] 0 ⟨"h1", 0, "q2"⟩ .already
    rfl (by decide +kernel) rfl
  have : ∀ t ∈ (askAll (run {} 3 {} (pairHistory.map Ev.other ++ [.ask "h1" false 100 "q1"])) true [⟨"h1", 0, "q2"⟩]).1.waiting, t.action.void = false := by
    decide +kernel
  rw [this t ht] at h2; cases h2

/-! ### Concrete cases -/

/-- Two holds, and a commit of 30 of the first waiting. -/
def asked : List Ev := pairHistory.map Ev.other ++ [.ask "h1" false 30 "q1"]

-- the hypotheses of the theorems about one hold: it is accepted, a second ask is told so, a delivery commits 30
example : (ask (run {} 3 {} (pairHistory.map Ev.other)) "h1" false 30 "q1").2 = .queued ∧
    (ask (run {} 3 {} asked) "h1" true 0 "q2").2 = .already ∧
    (ask (run {} 3 {} asked) "h1" false 101 "q2").2 = .refused .exceedsOriginal ∧
    (ask (run {} 3 {} asked) "h2" true 0 "q2").2 = .queued ∧
    (ask (run {} 3 {} asked) "zz" true 0 "q2").2 = .refused .notFound ∧
    committed (step {} 3 (run {} 3 {} asked) (.deliver 0 { fresh := fun _ => "n0" })).db "h1" = 30 ∧
    (step {} 3 (run {} 3 {} asked) (.deliver 0 { fresh := fun _ => "n0" })).waiting = [] ∧
    (ask (step {} 3 (run {} 3 {} asked) (.deliver 0 { fresh := fun _ => "n0" })) "h1" false 71 "q3").2 = .refused .exceedsRemaining ∧
    (ask (step {} 3 (run {} 3 {} asked) (.deliver 0 { fresh := fun _ => "n0" })) "h1" false 70 "q3").2 = .queued := by decide +kernel

-- the hypotheses of `c191_delivered` for an id with two holds, and what it comes to: 50 of the one, nothing of the other
example : Fresh {} ⟨false, 50, "q"⟩ (acts {} {} pairShort)
      (Sched.legCalls { fresh := fun k => if k = 0 then "n0" else "n1" } 0 (Atomic.inflightLegs (acts {} {} pairShort) "b1")) ∧
    (∀ r ∈ (acts {} {} pairShort).txns, r.status = .inflight → r.source ≠ r.destination) ∧
    ((deliver {} (acts {} {} pairShort) ⟨"b1", ⟨false, 50, "q"⟩, 0⟩ { fresh := fun k => if k = 0 then "n0" else "n1" }).1.txns.filter
      (fun t => t.status = .applied)).map (fun t => (t.parent, pay t)) = [("h1", 70), ("h2", 50)] := by decide +kernel

-- a bulk call
example : (askAll (run {} 3 {} (pairHistory.map Ev.other)) false [⟨"h1", 30, "q1"⟩, ⟨"zz", 1, "q2"⟩, ⟨"h2", 0, "q3"⟩]).2 =
    [.queued, .refused .notFound, .queued] := by decide +kernel

end Blnk.Ask
