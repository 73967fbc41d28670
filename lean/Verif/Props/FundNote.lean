import Verif.Model.FundNote
import Verif.Props.Lineage
/-
C192: what `GET /transactions/{id}/lineage` says about whose money a debit spent.
-/
namespace Blnk.Lineage

/-! ### The rows an attempt leaves -/

theorem hasRelease_receive (st : LState) (p a q) : (st.receive p a).hasRelease q = st.hasRelease q := rfl

/-- A loop that ends has released exactly the allocations that had no release yet. -/
theorem process_done (i rec : Bool) : ∀ (al : List Alloc) (n : Nat) (st : LState), (al.map Prod.fst).Nodup →
    (process i rec al n st).2 = true →
    (process i rec al n st).1.released = st.released ++ al.filter (fun x => !st.hasRelease x.1)
  | [], _, _, _, _ => by simp [process]
  | (p, a) :: rest, n, st, hn, h => by
    simp only [List.map_cons, List.nodup_cons] at hn
    by_cases hrel : st.hasRelease p = true
    · unfold process at h ⊢
      simp only [hrel, if_true] at h ⊢
      rw [process_done i rec rest n st hn.2 h, List.filter_cons_of_neg (by simp [hrel])]
    · have key : ∀ st' : LState, st'.released = st.released ++ [(p, a)] → (∀ q, st'.hasRelease q = (st.hasRelease q || p == q)) →
          ∀ m, (process i rec rest m st').2 = true →
          (process i rec rest m st').1.released = st.released ++ ((p, a) :: rest).filter (fun x => !st.hasRelease x.1) := by
        intro st' e hq m hm
        rw [process_done i rec rest m st' hn.2 hm, e, List.filter_cons_of_pos (by simp [hrel]), List.append_assoc]
        have : rest.filter (fun x => !st'.hasRelease x.1) = rest.filter (fun x => !st.hasRelease x.1) := by
          apply List.filter_congr
          intro x hx
          have : p ≠ x.1 := fun e => hn.1 (e ▸ List.mem_map_of_mem hx)
          rw [hq]; simp [this]
        rw [this]; rfl
      unfold process at h ⊢
      simp only [hrel, Bool.false_eq_true, if_false] at h ⊢
      cases n with
      | zero => simp at h
      | succ n =>
        simp only at h ⊢
        cases rec with
        | false =>
          simp only [Bool.false_eq_true, if_false] at h ⊢
          exact key _ rfl (fun q => hasRelease_release st i p a q) n h
        | true =>
          simp only [if_true] at h ⊢
          cases n with
          | zero => simp at h
          | succ n => exact key ((st.release i p a).receive p a) rfl (fun q => hasRelease_release st i p a q) n h

theorem calculate_nodup (s : Strategy) (l : List Src) (amt : Int) (hn : (l.map Src.provider).Nodup) :
    ((calculate s (live l) amt).map Prod.fst).Nodup := by
  by_cases h : s = .proportional
  · subst h; exact (c36_within l amt hn).1
  · exact (c35_within s h l amt hn).1

/-- Notes change nothing about the rows. -/
theorem note_rows (d : Debit) (t : Try) (n : Noted) : (noteAttempt d t n).1.st = (attempt d t.att n.st).1 := by
  unfold noteAttempt attempt
  simp only
  split
  · rfl
  · split
    · rfl
    · split <;> rfl

theorem release_providers (st : LState) (i p a) : (st.release i p a).sources.map Src.provider = st.sources.map Src.provider := by
  unfold LState.release
  cases i with
  | true => rfl
  | false =>
    simp only [Bool.false_eq_true, if_false, List.map_map]
    congr 1
    funext s
    simp only [Function.comp]
    split <;> rfl

theorem process_providers (i rec : Bool) : ∀ (al : List Alloc) (n : Nat) (st : LState),
    (process i rec al n st).1.sources.map Src.provider = st.sources.map Src.provider ∧
    ∃ more, (process i rec al n st).1.released = st.released ++ more
  | [], _, st => ⟨rfl, [], by simp [process]⟩
  | (p, a) :: rest, n, st => by
    have key : ∀ m, ∀ st' : LState, st'.sources = (st.release i p a).sources → st'.released = st.released ++ [(p, a)] →
        (process i rec rest m st').1.sources.map Src.provider = st.sources.map Src.provider ∧
        ∃ more, (process i rec rest m st').1.released = st.released ++ more := by
      intro m st' e1 e2
      obtain ⟨h1, more, h2⟩ := process_providers i rec rest m st'
      exact ⟨by rw [h1, e1, release_providers], (p, a) :: more, by rw [h2, e2, List.append_assoc]; rfl⟩
    unfold process
    split
    · exact process_providers i rec rest n st
    · cases n with
      | zero => exact ⟨rfl, [], by simp⟩
      | succ n =>
        simp only
        cases rec with
        | false => simp only [Bool.false_eq_true, if_false]; exact key n _ rfl rfl
        | true =>
          simp only [if_true]
          cases n with
          | zero => exact ⟨release_providers .., _, rfl⟩
          | succ n => exact key n _ rfl rfl

theorem attempt_providers (d : Debit) (t : Attempt) (st : LState) :
    (attempt d t st).1.sources.map Src.provider = st.sources.map Src.provider ∧ ∃ more, (attempt d t st).1.released = st.released ++ more := by
  unfold attempt
  simp only
  split
  · exact ⟨rfl, [], by simp⟩
  · exact process_providers ..

/-- A note that an attempt writes. -/
theorem note_written {d : Debit} {t : Try} {n : Noted} (hn : (n.st.sources.map Src.provider).Nodup) {l : List Alloc}
    (h : (noteAttempt d t n).1.note = some l) :
    n.note = some l ∨ l = calculate d.strategy (live n.st.sources) (d.amount - total n.st.released) ∧ 0 < d.amount - total n.st.released ∧
      (noteAttempt d t n).1.st.released = n.st.released ++ l.filter (fun x => !n.st.hasRelease x.1) := by
  unfold noteAttempt at h ⊢
  simp only at h ⊢
  split at h
  · exact .inl h
  · rename_i h0
    rw [if_neg h0]
    split at h
    · exact .inl h
    · rename_i hc
      rw [if_neg hc]
      split at h
      · exact .inl h
      · rename_i he
        rw [if_neg he]
        cases h
        right
        refine ⟨rfl, by omega, ?_⟩
        simp only [Bool.or_eq_true, Bool.not_eq_true', not_or, Bool.not_eq_false] at hc
        exact process_done _ _ _ _ _ (calculate_nodup _ _ _ hn) hc.1

/-! ### C192 -/

/-- **C192** in full: once the debit has been worked on, `fund_allocation` lists exactly what was taken from each
provider. -/
def C192Full : Prop := ∀ (d : Debit) (st : LState) (ts : List Try), Untouched st → (noteAttempts d ts ⟨st, none⟩).2 = true →
  ∀ x, x ∈ (noteAttempts d ts ⟨st, none⟩).1.shown ↔ x ∈ (noteAttempts d ts ⟨st, none⟩).1.st.released

theorem toFloat_exact {n : Nat} (h : n ≤ 2 ^ 53) : Auth.toFloat n = n := by
  rcases Nat.lt_or_eq_of_le h with h | rfl
  · unfold Auth.toFloat; rw [if_pos h]
  · decide +kernel

/-- Amounts up to 2⁵³ are shown as they are. -/
theorem readBack_exact {a : Int} (h : a.natAbs ≤ 2 ^ 53) : readBack a = a := by
  unfold readBack; rw [toFloat_exact h]; exact Int.sign_mul_natAbs a

theorem total_ge {l : List Alloc} (hp : ∀ x ∈ l, 0 < x.2) : ∀ x ∈ l, x.2 ≤ total l := by
  induction l with
  | nil => intro x hx; cases hx
  | cons y l ih =>
    have h0 : ∀ (l : List Alloc), (∀ x ∈ l, 0 < x.2) → 0 ≤ total l := by
      intro l
      induction l with
      | nil => intro _; simp [total]
      | cons z l ih =>
        intro h
        have := ih (fun x hx => h x (List.mem_cons_of_mem _ hx))
        have := h z (List.mem_cons_self ..)
        rw [total_cons]; omega
    intro x hx
    rw [total_cons]
    have hy := hp y (List.mem_cons_self ..)
    rcases List.mem_cons.1 hx with rfl | hx
    · have := h0 l (fun x hx => hp x (List.mem_cons_of_mem _ hx)); omega
    · have := ih (fun x hx => hp x (List.mem_cons_of_mem _ hx)) x hx; omega

/-- **C192 (part).** A debit of up to 2⁵³ minor units that is worked on in one go shows exactly what was taken from each
provider, whatever the strategy, hold or not. Missing for the full claim: debits that took more than one attempt, notes
that could not be written, larger amounts (all false). -/
theorem c192_once_partial (d : Debit) (hd : 0 < d.amount) (hbig : d.amount ≤ 2 ^ 53) (st : LState) (h0 : Untouched st) (t : Try) (ts : List Try)
    (hok : (attempt d t.att st).2 = true) (hdie : t.dies = false) (hw : t.writes = true) :
    (noteAttempts d (t :: ts) ⟨st, none⟩).2 = true ∧
    (noteAttempts d (t :: ts) ⟨st, none⟩).1.shown = (noteAttempts d (t :: ts) ⟨st, none⟩).1.st.released ∧
    (noteAttempts d (t :: ts) ⟨st, none⟩).1.shown = calculate d.strategy (live st.sources) d.amount := by
  have hleft : d.amount - total st.released = d.amount := by rw [h0.released, total_nil]; omega
  have hpos := calculate_pos d.strategy st.sources d.amount
  have hle := calculate_le d.strategy st.sources d.amount (by omega)
  have hnd := calculate_nodup d.strategy st.sources d.amount h0.nodup
  have hread : (calculate d.strategy (live st.sources) d.amount).map (fun x => (x.1, readBack x.2)) = calculate d.strategy (live st.sources) d.amount := by
    rw [List.map_congr_left (g := id)]
    · simp
    · intro x hx
      have h1 := hpos x hx
      have h2 := total_ge hpos x hx
      rw [readBack_exact (by omega)]; rfl
  have hp : (process d.inflight (d.tracks && t.att.prepared) (calculate d.strategy (live st.sources) d.amount) t.att.writes st).2 = true := by
    unfold attempt at hok
    simp only [hleft] at hok
    rwa [if_neg (by omega)] at hok
  have hrel := process_done _ _ _ _ _ hnd hp
  rw [h0.released, List.nil_append, List.filter_eq_self.2 (by intro x _; simp [LState.hasRelease, h0.released])] at hrel
  have e : noteAttempt d t ⟨st, none⟩ = (⟨(process d.inflight (d.tracks && t.att.prepared) (calculate d.strategy (live st.sources) d.amount) t.att.writes st).1,
      if (calculate d.strategy (live st.sources) d.amount).isEmpty then none else some (calculate d.strategy (live st.sources) d.amount)⟩, true) := by
    unfold noteAttempt
    simp only [hleft]
    rw [if_neg (by omega), if_neg (by simp [hp, hdie]), hw]
    cases (calculate d.strategy (live st.sources) d.amount).isEmpty <;> simp
  have e2 : noteAttempts d (t :: ts) ⟨st, none⟩ = noteAttempt d t ⟨st, none⟩ := by
    simp only [noteAttempts]
    rw [if_pos (by rw [e])]
  have hs : (noteAttempts d (t :: ts) ⟨st, none⟩).1.shown = calculate d.strategy (live st.sources) d.amount := by
    rw [e2, e]
    unfold Noted.shown
    simp only
    cases hc : calculate d.strategy (live st.sources) d.amount with
    | nil => simp
    | cons x l => rw [hc] at hread; simpa using hread
  refine ⟨by rw [e2, e], ?_, hs⟩
  rw [hs, e2, e]
  exact hrel.symm

/-- What holds of the note at every time. -/
structure NoteInv (d : Debit) (n : Noted) : Prop where
  nodup : (n.st.sources.map Src.provider).Nodup
  /-- nothing is noted of a provider that was not drawn on -/
  known : ∀ l, n.note = some l → ∀ x ∈ l, ∃ a, (x.1, a) ∈ n.st.released
  once : ∀ l, n.note = some l → (l.map Prod.fst).Nodup
  pos : ∀ l, n.note = some l → ∀ x ∈ l, 0 < x.2
  bound : ∀ l, n.note = some l → total l ≤ d.amount
  rel : ∀ x ∈ n.st.released, 0 ≤ x.2

theorem total_nonneg {l : List Alloc} (h : ∀ x ∈ l, 0 ≤ x.2) : 0 ≤ total l := by
  induction l with
  | nil => simp [total]
  | cons z l ih =>
    have := ih (fun x hx => h x (List.mem_cons_of_mem _ hx))
    have := h z (List.mem_cons_self ..)
    rw [total_cons]; omega

theorem process_rel (i rec : Bool) : ∀ (al : List Alloc) (n : Nat) (st : LState), (∀ x ∈ al, 0 < x.2) → (∀ x ∈ st.released, 0 ≤ x.2) →
    ∀ x ∈ (process i rec al n st).1.released, 0 ≤ x.2
  | [], _, _, _, h => h
  | (p, a) :: rest, n, st, hp, h => by
    have hr := fun x hx => hp x (List.mem_cons_of_mem (p, a) hx)
    have h1 : ∀ x ∈ st.released ++ [(p, a)], 0 ≤ x.2 := by
      intro x hx
      rcases List.mem_append.1 hx with hx | hx
      · exact h x hx
      · simp at hx; subst hx; have := hp (p, a) (List.mem_cons_self ..); simp only at this ⊢; omega
    unfold process
    split
    · exact process_rel i rec rest n st hr h
    · cases n with
      | zero => exact h
      | succ n =>
        simp only
        cases rec with
        | false => simp only [Bool.false_eq_true, if_false]; exact process_rel i false rest n _ hr h1
        | true =>
          simp only [if_true]
          cases n with
          | zero => exact h1
          | succ n => exact process_rel i true rest n _ hr h1

theorem noteAttempt_inv {d : Debit} {n : Noted} (h : NoteInv d n) (t : Try) : NoteInv d (noteAttempt d t n).1 := by
  have hs := note_rows d t n
  obtain ⟨h1, more, h2⟩ := attempt_providers d t.att n.st
  have hrel : ∀ x ∈ (noteAttempt d t n).1.st.released, 0 ≤ x.2 := by
    rw [hs]
    unfold attempt
    simp only
    split
    · exact h.rel
    · exact process_rel _ _ _ _ _ (calculate_pos _ _ _) h.rel
  have grow : ∀ x ∈ n.st.released, x ∈ (noteAttempt d t n).1.st.released := by
    intro x hx; rw [hs, h2]; exact List.mem_append_left _ hx
  refine ⟨by rw [hs, h1]; exact h.nodup, ?_, ?_, ?_, ?_, hrel⟩
  · intro l hl x hx
    rcases note_written h.nodup hl with hl | ⟨rfl, _, hr⟩
    · obtain ⟨a, ha⟩ := h.known l hl x hx
      exact ⟨a, grow _ ha⟩
    · cases hb : n.st.hasRelease x.1 with
      | true =>
        unfold LState.hasRelease at hb
        obtain ⟨y, hy, e⟩ := List.any_eq_true.1 hb
        refine ⟨y.2, grow _ ?_⟩
        have : y.1 = x.1 := by simpa using e
        rw [← this]; exact hy
      | false => exact ⟨x.2, by rw [hr]; exact List.mem_append_right _ (List.mem_filter.2 ⟨hx, by simp [hb]⟩)⟩
  · intro l hl
    rcases note_written h.nodup hl with hl | ⟨rfl, _, _⟩
    · exact h.once l hl
    · exact calculate_nodup _ _ _ h.nodup
  · intro l hl
    rcases note_written h.nodup hl with hl | ⟨rfl, _, _⟩
    · exact h.pos l hl
    · exact calculate_pos _ _ _
  · intro l hl
    rcases note_written h.nodup hl with hl | ⟨rfl, h0, _⟩
    · exact h.bound l hl
    · have := calculate_le d.strategy n.st.sources (d.amount - total n.st.released) (by omega)
      have := total_nonneg h.rel
      omega

theorem noteAttempts_inv {d : Debit} : ∀ (ts : List Try) {n : Noted}, NoteInv d n → NoteInv d (noteAttempts d ts n).1
  | [], _, h => h
  | t :: ts, n, h => by
    unfold noteAttempts
    simp only
    split
    · exact noteAttempt_inv h t
    · exact noteAttempts_inv ts (noteAttempt_inv h t)

/-- **C192 (part).** However often the debit is interrupted, and whatever the strategy: only providers that were drawn on
are noted, each once and with a positive amount, and together no more than the debit. Missing: that the amounts are those
drawn, and that no provider is left out (both false after a retry). -/
theorem c192_note_partial (d : Debit) (st : LState) (h0 : Untouched st) (ts : List Try) (l : List Alloc)
    (h : (noteAttempts d ts ⟨st, none⟩).1.note = some l) :
    (l.map Prod.fst).Nodup ∧ (∀ x ∈ l, 0 < x.2 ∧ ∃ a, (x.1, a) ∈ (noteAttempts d ts ⟨st, none⟩).1.st.released) ∧
    (l.map Prod.snd).sum ≤ d.amount := by
  have hi : NoteInv d ⟨st, none⟩ := ⟨h0.nodup, by simp, by simp, by simp, by simp, by simp [h0.released]⟩
  have := noteAttempts_inv ts hi
  exact ⟨this.once l h, fun x hx => ⟨this.pos l h x hx, this.known l h x hx⟩, this.bound l h⟩

/-- **C192 (part).** For FIFO and LIFO debits that are not holds, with nothing else drawing on the source, every amount
noted is one that was drawn, retries or not. Missing: what was drawn by an earlier attempt is not noted (false). -/
theorem c192_listed_partial (d : Debit) (hst : d.strategy ≠ .proportional) (hi : d.inflight = false) (st : LState) (h0 : Untouched st)
    (ts : List Try) (l : List Alloc) (h : (noteAttempts d ts ⟨st, none⟩).1.note = some l) :
    ∀ x ∈ l, x ∈ (noteAttempts d ts ⟨st, none⟩).1.st.released := by
  suffices key : ∀ (ts : List Try) (n : Noted), Fresh d n.st → (∀ l, n.note = some l → ∀ x ∈ l, x ∈ n.st.released) →
      ∀ l, (noteAttempts d ts n).1.note = some l → ∀ x ∈ l, x ∈ (noteAttempts d ts n).1.st.released from
    key ts ⟨st, none⟩ (h0.fresh d) (by simp) l h
  intro ts
  induction ts with
  | nil => intro n _ hn; exact hn
  | cons t ts ih =>
    intro n hf hn
    have ha := attempt_seq d hst hi t.att n.st hf
    simp only at ha
    have hs := note_rows d t n
    obtain ⟨_, more, h2⟩ := attempt_providers d t.att n.st
    have h1 : ∀ l, (noteAttempt d t n).1.note = some l → ∀ x ∈ l, x ∈ (noteAttempt d t n).1.st.released := by
      intro l hl x hx
      rcases note_written hf.nodup hl with hl | ⟨rfl, h3, hr⟩
      · rw [hs, h2]; exact List.mem_append_left _ (hn l hl x hx)
      · rw [hr]
        refine List.mem_append_right _ (List.mem_filter.2 ⟨hx, ?_⟩)
        rw [calculate_seq hst] at hx
        simp [hf.open_ x hx]
    unfold noteAttempts
    simp only
    split
    · exact h1
    · exact ih _ (by rw [hs]; exact ha.1) h1

/-! ### Where it fails -/

/-- Two providers with 100 each. -/
def twoProviders : LState := { sources := [⟨"A", 100, 1⟩, ⟨"B", 100, 2⟩] }

theorem twoProviders_ok : Untouched twoProviders := ⟨rfl, rfl, by decide +kernel⟩

/-- **C192, after a retry only the rest is shown.** A debit of 150 draws 100 of A and is interrupted; the retry draws 50
of B and notes just that. -/
theorem c192_retry_fails : ¬ C192Full ∧
    (noteAttempts { amount := 150, strategy := .fifo } [⟨⟨1, true⟩, false, true⟩, ⟨⟨9, true⟩, false, true⟩] ⟨twoProviders, none⟩).1.shown = [("B", 50)] := by
  refine ⟨fun h => ?_, by decide +kernel⟩
  have := (h { amount := 150, strategy := .fifo } twoProviders [⟨⟨1, true⟩, false, true⟩, ⟨⟨9, true⟩, false, true⟩] twoProviders_ok (by decide +kernel) ("A", 100)).2 (by decide +kernel)
  revert this; decide +kernel

/-- **C192, the note is lost.** The process dies after the last row; the retry finds nothing left to draw and writes no
note. -/
theorem c192_lost_fails : ¬ C192Full ∧
    (noteAttempts { amount := 150, strategy := .fifo } [⟨⟨9, true⟩, true, true⟩, ⟨⟨9, true⟩, false, true⟩] ⟨twoProviders, none⟩).1.shown = [] := by
  refine ⟨fun h => ?_, by decide +kernel⟩
  have := (h { amount := 150, strategy := .fifo } twoProviders [⟨⟨9, true⟩, true, true⟩, ⟨⟨9, true⟩, false, true⟩] twoProviders_ok (by decide +kernel) ("A", 100)).2 (by decide +kernel)
  revert this; decide +kernel

/-- **C192, a note that cannot be written is not missed.** -/
theorem c192_unwritten_fails : ¬ C192Full := by
  intro h
  have := (h { amount := 150, strategy := .fifo } twoProviders [⟨⟨9, true⟩, false, false⟩] twoProviders_ok (by decide +kernel) ("A", 100)).2 (by decide +kernel)
  revert this; decide +kernel

/-- **C192, amounts are shown that were not drawn.** A proportional debit of 60 draws 30 of A and is interrupted. The
retry spreads the other 30 over both, passes A over because it has a release, and notes its share all the same. -/
theorem c192_wrong_fails : ¬ C192Full ∧
    (noteAttempts { amount := 60, strategy := .proportional } [⟨⟨1, true⟩, false, true⟩, ⟨⟨9, true⟩, false, true⟩]
      ⟨{ sources := [⟨"A", 60, 1⟩, ⟨"B", 60, 2⟩] }, none⟩).1 =
      ⟨{ sources := [⟨"A", 30, 1⟩, ⟨"B", 40, 2⟩], released := [("A", 30), ("B", 20)] }, some [("A", 10), ("B", 20)]⟩ := by
  refine ⟨fun h => ?_, by decide +kernel⟩
  have := (h { amount := 60, strategy := .proportional } { sources := [⟨"A", 60, 1⟩, ⟨"B", 60, 2⟩] } [⟨⟨1, true⟩, false, true⟩, ⟨⟨9, true⟩, false, true⟩]
    ⟨rfl, rfl, by decide +kernel⟩ (by decide +kernel) ("A", 10)).1 (by decide +kernel)
  revert this; decide +kernel

/-- **C192, large amounts are rounded.** 2⁵³ + 1 is shown as 2⁵³. -/
theorem c192_large_fails : ¬ C192Full ∧
    (noteAttempts { amount := 9007199254740993, strategy := .fifo } [⟨⟨9, true⟩, false, true⟩]
      ⟨{ sources := [⟨"A", 9007199254740993, 1⟩] }, none⟩).1.shown = [("A", 9007199254740992)] := by
  refine ⟨fun h => ?_, by decide +kernel⟩
  have := (h { amount := 9007199254740993, strategy := .fifo } { sources := [⟨"A", 9007199254740993, 1⟩] } [⟨⟨9, true⟩, false, true⟩]
    ⟨rfl, rfl, by decide +kernel⟩ (by decide +kernel) ("A", 9007199254740993)).2 (by decide +kernel)
  revert this; decide +kernel

/-! ### Which id shows it -/

theorem find_map {f : Stored → Stored} (hf : ∀ r, (f r).id = r.id) (rows : List Stored) (id : String) :
    (rows.map f).find? (fun r => r.id = id) = (rows.find? (fun r => r.id = id)).map f := by
  induction rows with
  | nil => rfl
  | cons r rs ih =>
    simp only [List.map_cons, List.find?_cons, hf]
    split
    · rfl
    · exact ih

/-- **C192.** The lineage of a transaction shows the note of the debit, if there is one, and the rows it left. -/
theorem c192_view (rows : List Stored) (sh : List Shadow) (id : String) (n : Noted) (r : Stored)
    (hr : rows.find? (fun r => r.id = id) = some r) (hnew : r.note = none) (hsh : ∀ x ∈ sh, x.for_ ≠ id) :
    lineageOf (finish rows sh id n).1 (finish rows sh id n).2 id = some (n.note.getD [], n.st.released) := by
  have hid : r.id = id := by simpa using List.find?_some hr
  have e1 : ((sh ++ n.st.released.map fun x => (⟨id, x.1, x.2⟩ : Shadow)).filter (fun x => x.for_ = id)).map (fun x => (x.provider, x.amount)) = n.st.released := by
    rw [List.filter_append, List.filter_eq_nil_iff.2 (by intro x hx; simpa using hsh x hx), List.nil_append,
      List.filter_eq_self.2 (by intro x hx; obtain ⟨y, _, rfl⟩ := List.mem_map.1 hx; simp), List.map_map]
    simp [Function.comp_def]
  unfold lineageOf finish
  simp only [e1]
  cases hn : n.note with
  | none => simp only [hr, hnew, Option.getD_none]
  | some l =>
    simp only [annotate]
    rw [find_map (by intro x; split <;> rfl), hr]
    simp [hid]

/-- **C192.** The note of a debit is also shown for the rows made of it, its commits and refunds, but not the rows the
debit left behind. -/
theorem c192_child (rows : List Stored) (sh : List Shadow) (id c : String) (n : Noted) (r : Stored) (l : List Alloc)
    (hr : rows.find? (fun r => r.id = c) = some r) (hp : r.parent = id) (hne : c ≠ id) (hn : n.note = some l) :
    lineageOf (finish rows sh id n).1 (finish rows sh id n).2 c =
      some (l, (sh.filter (fun x => x.for_ = c)).map fun x => (x.provider, x.amount)) := by
  have e1 : (sh ++ n.st.released.map fun x => (⟨id, x.1, x.2⟩ : Shadow)).filter (fun x => x.for_ = c) = sh.filter (fun x => x.for_ = c) := by
    have e2 : (n.st.released.map fun x => (⟨id, x.1, x.2⟩ : Shadow)).filter (fun x => x.for_ = c) = [] := by
      rw [List.filter_eq_nil_iff]
      intro x hx
      obtain ⟨y, _, rfl⟩ := List.mem_map.1 hx
      simpa using hne.symm
    rw [List.filter_append, e2, List.append_nil]
  unfold lineageOf finish
  simp only [e1, hn, annotate]
  rw [find_map (by intro x; split <;> rfl), hr]
  simp [hp]

example : lineageOf (finish [⟨"t1", "", none⟩, ⟨"t2", "t1", none⟩] [] "t1" ⟨{ sources := [], released := [("A", 100)] }, some [("A", 100)]⟩).1
    (finish [⟨"t1", "", none⟩, ⟨"t2", "t1", none⟩] [] "t1" ⟨{ sources := [], released := [("A", 100)] }, some [("A", 100)]⟩).2 "t2" =
    some ([("A", 100)], []) := by decide +kernel

/-- **C192 (violated).** A payment taken in through the queue is stored twice, as the request under the id the client was
given and as the payment under a new id that has the first as its parent (`transaction_queue.go:382`). The note and the
rows go to the second; the id the client has shows nothing, whatever was drawn. -/
theorem c192_queued_fails (q c : String) (hne : q ≠ c) (hc : c ≠ "") (sh : List Shadow) (hsh : ∀ x ∈ sh, x.for_ ≠ q) (n : Noted) :
    lineageOf (finish [⟨q, "", none⟩, ⟨c, q, none⟩] sh c n).1 (finish [⟨q, "", none⟩, ⟨c, q, none⟩] sh c n).2 q = some ([], []) := by
  have e1 : (sh ++ n.st.released.map fun x => (⟨c, x.1, x.2⟩ : Shadow)).filter (fun x => x.for_ = q) = [] := by
    rw [List.filter_append, List.filter_eq_nil_iff.2 (by intro x hx; simpa using hsh x hx), List.nil_append, List.filter_eq_nil_iff]
    intro x hx
    obtain ⟨y, _, rfl⟩ := List.mem_map.1 hx
    simpa using hne.symm
  unfold lineageOf finish
  simp only [e1]
  cases n.note with
  | none => simp
  | some l => simp [annotate, hne, Ne.symm hc]

/-! ### Concrete cases -/

-- the hypotheses of `c192_once_partial`, and what it comes to for each strategy
example : (attempt { amount := 150, strategy := .fifo } ⟨9, true⟩ twoProviders).2 = true ∧
    (noteAttempts { amount := 150, strategy := .fifo } [⟨⟨9, true⟩, false, true⟩] ⟨twoProviders, none⟩).1.shown = [("A", 100), ("B", 50)] ∧
    (noteAttempts { amount := 150, strategy := .lifo, inflight := true } [⟨⟨9, true⟩, false, true⟩] ⟨twoProviders, none⟩).1.shown = [("B", 100), ("A", 50)] ∧
    (noteAttempts { amount := 50, strategy := .proportional, tracks := true } [⟨⟨9, true⟩, false, true⟩] ⟨twoProviders, none⟩).1.shown = [("A", 25), ("B", 25)] := by
  decide +kernel

-- a payment made directly
example : lineageOf (finish [⟨"t1", "", none⟩] [⟨"t0", "A", 7⟩] "t1" ⟨{ sources := [], released := [("A", 100), ("B", 50)] }, some [("A", 100), ("B", 50)]⟩).1
    (finish [⟨"t1", "", none⟩] [⟨"t0", "A", 7⟩] "t1" ⟨{ sources := [], released := [("A", 100), ("B", 50)] }, some [("A", 100), ("B", 50)]⟩).2 "t1" =
    some ([("A", 100), ("B", 50)], [("A", 100), ("B", 50)]) := by decide +kernel

end Blnk.Lineage
