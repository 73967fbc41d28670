import Mathlib.Algebra.Order.Field.Rat
import Mathlib.Tactic.Linarith
import Mathlib.Tactic.NormNum
import Mathlib.Tactic.Ring
import Mathlib.Tactic.Positivity
import Verif.Model.Settings
/-
C133–C136: settings and the rate limit.
-/
namespace Blnk.Conf

/-! ### C133: a setting given is the setting used -/

/-- A given value is the one used. -/
def Kept {α : Type} (given : Option α) (used : α) : Prop := ∀ v, given = some v → used = v

/-- **C133 in full.** -/
def C133Full : Prop :=
  ∀ g : Given, Kept g.enableCoalescing (used g).enableCoalescing ∧ Kept g.enableQueuedChecks (used g).enableQueuedChecks ∧
    Kept g.enableHotLane (used g).enableHotLane ∧ Kept g.enableBackpressure (used g).enableBackpressure ∧
    Kept g.batchSize (used g).batchSize ∧ Kept g.numberOfQueues (used g).numberOfQueues ∧
    Kept g.maxRetryAttempts (used g).maxRetryAttempts ∧ Kept g.workerConcurrency (used g).workerConcurrency ∧
    Kept g.contentionThreshold (used g).contentionThreshold ∧ Kept g.lockDuration (used g).lockDuration ∧
    Kept g.lockWaitTimeout (used g).lockWaitTimeout ∧ Kept g.hotPairTTL (used g).hotPairTTL ∧
    Kept g.checkInterval (used g).checkInterval ∧ Kept g.pollInterval (used g).pollInterval ∧
    Kept g.trailingDelay (used g).trailingDelay ∧ Kept g.rps (used g).rps ∧ Kept g.burst (used g).burst

/-- **C133 fails for coalescing**: it cannot be switched off. -/
theorem c133_coalescing_fails (g : Given) : (used g).enableCoalescing = true := by
  unfold used defaults
  simp

theorem c133_full_fails : ¬ C133Full := by
  intro h
  have := (h { enableCoalescing := some false }).1 false rfl
  exact absurd this (by decide)

/-- **C133 fails for retries**: they cannot be switched off either. -/
theorem c133_retries_fails (g : Given) : (used g).maxRetryAttempts ≠ 0 := by
  show orDefault _ _ ≠ 0
  unfold orDefault
  split
  · decide
  · assumption

theorem wrap_id {x : Int} (h1 : -9223372036854775808 ≤ x) (h2 : x < 9223372036854775808) : wrap x = x := by
  unfold wrap; omega

/-- **C133 fails for locks of less than a second**: they last a billion times as long as was written. -/
theorem c133_lock_fails (g : Given) (x : Int) (hg : g.lockDuration = some x) (h0 : 0 < x) (h1 : x < second) :
    (used g).lockDuration = x * 1000000000 := by
  show lockTime _ _ = _
  unfold second at h1
  unfold lockTime
  rw [hg]
  simp only [Option.getD_some]
  rw [if_neg (by omega), if_pos ⟨h0, by unfold second; omega⟩]
  unfold second
  exact wrap_id (by omega) (by omega)

/-- Half a second becomes more than fifteen years. -/
example : (used { lockDuration := some 500000000 }).lockDuration = 500000000 * second ∧
    15 * 365 * 86400 * second < (used { lockDuration := some 500000000 }).lockDuration := by decide +kernel

theorem no_fixed {x q r : Int} (e : r + 18446744073709551616 * q = x * 1000000000 + 9223372036854775808) (h : r - 9223372036854775808 = x) :
    18446744073709551616 * q = 999999999 * x := by linarith

theorem coprime_second : Int.gcd 18446744073709551616 999999999 = 1 := by decide +kernel

theorem small_multiple {x k : Int} (hk : x = 18446744073709551616 * k) (h1 : -9223372036854775808 ≤ x) (h2 : x < 9223372036854775808) : x = 0 := by omega

theorem wrap_fixed {x : Int} (h : wrap (x * second) = x) (h1 : -9223372036854775808 ≤ x) (h2 : x < 9223372036854775808) : x = 0 :=
  have ⟨_, hk⟩ := Int.dvd_of_dvd_mul_right_of_gcd_one
    (Dvd.intro _ (no_fixed (Int.emod_add_mul_ediv (x * 1000000000 + 9223372036854775808) 18446744073709551616) h)) coprime_second
  small_multiple hk h1 h2

/-- **C133 fails for the time a pair stays hot**: no time that can be written is the one used. -/
theorem c133_hot_ttl_fails (g : Given) (x : Int) (hg : g.hotPairTTL = some x) (h0 : x ≠ 0)
    (h1 : -9223372036854775808 ≤ x) (h2 : x < 9223372036854775808) : (used g).hotPairTTL ≠ x := by
  intro h
  unfold used hotTTL at h
  simp only [hg, Option.getD_some] at h
  rw [if_neg h0] at h
  exact h0 (wrap_fixed h h1 h2)

/-- Five minutes become a hundred and fifty years. -/
example : 150 * 365 * 86400 * second < (used { hotPairTTL := some (300 * second) }).hotPairTTL := by decide +kernel

/-- **C133, what holds.** Switches other than coalescing, numbers other than 0, lock times of a second or
more, and rates given with a burst or without are used as given; times for the chain must be positive. -/
theorem c133_kept_partial (g : Given) :
    (g.enableCoalescing ≠ some false → Kept g.enableCoalescing (used g).enableCoalescing) ∧
    Kept g.enableQueuedChecks (used g).enableQueuedChecks ∧ Kept g.enableHotLane (used g).enableHotLane ∧
    Kept g.enableBackpressure (used g).enableBackpressure ∧
    (g.batchSize ≠ some 0 → Kept g.batchSize (used g).batchSize) ∧
    (g.numberOfQueues ≠ some 0 → Kept g.numberOfQueues (used g).numberOfQueues) ∧
    (g.maxRetryAttempts ≠ some 0 → Kept g.maxRetryAttempts (used g).maxRetryAttempts) ∧
    (g.workerConcurrency ≠ some 0 → Kept g.workerConcurrency (used g).workerConcurrency) ∧
    (g.contentionThreshold ≠ some 0 → Kept g.contentionThreshold (used g).contentionThreshold) ∧
    ((∀ x, g.lockDuration = some x → second ≤ x) → Kept g.lockDuration (used g).lockDuration) ∧
    ((∀ x, g.lockWaitTimeout = some x → second ≤ x) → Kept g.lockWaitTimeout (used g).lockWaitTimeout) ∧
    (g.checkInterval ≠ some 0 → Kept g.checkInterval (used g).checkInterval) ∧
    ((∀ x, g.pollInterval = some x → 0 < x) → Kept g.pollInterval (used g).pollInterval) ∧
    ((∀ x, g.trailingDelay = some x → 0 < x) → Kept g.trailingDelay (used g).trailingDelay) ∧
    Kept g.rps (used g).rps ∧ Kept g.burst (used g).burst := by
  have hb : ∀ (x : Option Bool), Kept x (x.getD false) := by
    intro x v h; rw [h]; rfl
  have hn : ∀ (x : Option Int) (d : Int), x ≠ some 0 → Kept x (orDefault x d) := by
    intro x d h v e
    unfold orDefault
    rw [e]
    exact if_neg (fun hv => h (by rw [e]; exact congrArg some hv))
  have hp : ∀ (x : Option Int) (d : Int), (∀ v, x = some v → 0 < v) → Kept x (orDefaultPos x d) := by
    intro x d h v e
    have := h v e
    unfold orDefaultPos
    rw [e]
    exact if_neg (by simp only [Option.getD_some]; omega)
  have hl : ∀ (x : Option Int) (d : Int), (∀ v, x = some v → second ≤ v) → Kept x (lockTime x d) := by
    intro x d h v e
    have := h v e
    unfold second at this
    unfold lockTime
    rw [e]
    simp only [Option.getD_some]
    rw [if_neg (by omega), if_neg (by unfold second; omega)]
  refine ⟨?_, hb _, hb _, hb _, hn _ _, hn _ _, hn _ _, hn _ _, hn _ _, hl _ _, hl _ _, hn _ _, hp _ _, hp _ _, ?_, ?_⟩
  · intro h v e
    cases v
    · exact absurd e h
    · exact c133_coalescing_fails g
  · intro v e
    show (rate g.rps g.burst).1 = v
    rw [e]; cases g.burst <;> rfl
  · intro v e
    show (rate g.rps g.burst).2 = v
    rw [e]; cases g.rps <;> rfl

example : (used { numberOfQueues := some 8, lockDuration := some (2 * second), enableHotLane := some true }).numberOfQueues = 8 ∧
    (used { lockDuration := some (2 * second) }).lockDuration = 2 * second := by decide +kernel

/-! ### C134: a setting left out takes its default -/

/-- A setting left out takes the default. -/
def Falls {α : Type} (given : Option α) (used dflt : α) : Prop := given = none → used = dflt

/-- **C134 in full**: `defaults` are those the code lists. -/
def C134Full : Prop :=
  ∀ g : Given,
    Falls g.enableCoalescing (used g).enableCoalescing defaults.enableCoalescing ∧
    Falls g.enableQueuedChecks (used g).enableQueuedChecks defaults.enableQueuedChecks ∧
    Falls g.enableHotLane (used g).enableHotLane defaults.enableHotLane ∧
    Falls g.enableBackpressure (used g).enableBackpressure defaults.enableBackpressure ∧
    Falls g.batchSize (used g).batchSize defaults.batchSize ∧
    Falls g.numberOfQueues (used g).numberOfQueues defaults.numberOfQueues ∧
    Falls g.maxRetryAttempts (used g).maxRetryAttempts defaults.maxRetryAttempts ∧
    Falls g.workerConcurrency (used g).workerConcurrency defaults.workerConcurrency ∧
    Falls g.contentionThreshold (used g).contentionThreshold defaults.contentionThreshold ∧
    Falls g.lockDuration (used g).lockDuration defaults.lockDuration ∧
    Falls g.lockWaitTimeout (used g).lockWaitTimeout defaults.lockWaitTimeout ∧
    Falls g.hotPairTTL (used g).hotPairTTL defaults.hotPairTTL ∧
    Falls g.checkInterval (used g).checkInterval defaults.checkInterval ∧
    Falls g.pollInterval (used g).pollInterval defaults.pollInterval ∧
    Falls g.trailingDelay (used g).trailingDelay defaults.trailingDelay

/-- **C134 fails for the gate in front of the queue**: listed as on, it is off unless switched on. -/
theorem c134_backpressure_fails (g : Given) (h : g.enableBackpressure = none) : (used g).enableBackpressure = false := by
  show g.enableBackpressure.getD false = false
  rw [h]; rfl

theorem c134_full_fails : ¬ C134Full := by
  intro h
  have := (h {}).2.2.2.1 rfl
  exact absurd this (by decide)

/-- **C134, what holds**: every other setting takes its default. -/
theorem c134_defaults_partial (g : Given) :
    Falls g.enableCoalescing (used g).enableCoalescing true ∧ Falls g.enableQueuedChecks (used g).enableQueuedChecks false ∧
    Falls g.enableHotLane (used g).enableHotLane false ∧ Falls g.batchSize (used g).batchSize 1000 ∧
    Falls g.numberOfQueues (used g).numberOfQueues 20 ∧ Falls g.maxRetryAttempts (used g).maxRetryAttempts 5 ∧
    Falls g.workerConcurrency (used g).workerConcurrency 4 ∧ Falls g.contentionThreshold (used g).contentionThreshold 3 ∧
    Falls g.lockDuration (used g).lockDuration (300 * 1000000000) ∧ Falls g.lockWaitTimeout (used g).lockWaitTimeout (3 * 1000000000) ∧
    Falls g.hotPairTTL (used g).hotPairTTL (300 * 1000000000) ∧ Falls g.checkInterval (used g).checkInterval 500000000 ∧
    Falls g.pollInterval (used g).pollInterval (5 * 1000000000) ∧ Falls g.trailingDelay (used g).trailingDelay (30 * 1000000000) ∧
    (g.rps = none → g.burst = none → (used g).rps = 5000000 ∧ (used g).burst = 10000000) := by
  unfold Falls used
  refine ⟨?_, ?_, ?_, ?_, ?_, ?_, ?_, ?_, ?_, ?_, ?_, ?_, ?_, ?_, ?_⟩ <;> intro h <;> dsimp only <;> rw [h] <;>
    first | rfl | (intro h'; rw [h']; exact ⟨rfl, rfl⟩)

/-! ### C135: every queue that is used is served -/

/-- **C135 in full**: under every configuration that starts, the queue of a source has a worker. -/
def C135Full : Prop := ∀ (g : Given) (source : String), served (used g).numberOfQueues (queueOf (used g).numberOfQueues source) = true

/-- **C135 fails for a negative number of queues**: the service starts, accepts, and serves no queue. -/
theorem c135_negative_fails (g : Given) (n : Int) (h : g.numberOfQueues = some n) (hn : n < 0) (source : String) :
    served (used g).numberOfQueues (queueOf (used g).numberOfQueues source) = false := by
  have e : (used g).numberOfQueues = n := by
    show orDefault _ _ = n
    unfold orDefault
    rw [h]
    exact if_neg (by simp only [Option.getD_some]; omega)
  rw [e]
  unfold served
  rw [decide_eq_false_iff_not]
  omega

theorem c135_full_fails : ¬ C135Full := by
  intro h
  have := h { numberOfQueues := some (-1) } "a"
  rw [c135_negative_fails _ (-1) rfl (by omega)] at this
  cases this

/-- **C135, what holds**: with any other number given, or none, every queue used is served. -/
theorem c135_served_partial (g : Given) (h : ∀ n, g.numberOfQueues = some n → 0 ≤ n) (source : String) :
    served (used g).numberOfQueues (queueOf (used g).numberOfQueues source) = true := by
  have e : 0 < (used g).numberOfQueues := by
    show 0 < orDefault _ _
    unfold orDefault
    cases hg : g.numberOfQueues with
    | none => decide
    | some n =>
      have := h n hg
      simp only [Option.getD_some]
      split
      · decide
      · omega
  generalize (used g).numberOfQueues = n at e
  unfold served queueOf
  rw [decide_eq_true_eq]
  have h1 := Int.tmod_nonneg n (a := (Queue.hashBalanceID source : Int)) (by omega)
  have h2 := Int.tmod_lt_of_pos (Queue.hashBalanceID source : Int) e
  omega

example : served (used { numberOfQueues := some 3 }).numberOfQueues (queueOf 3 "bln_1") = true := c135_served_partial { numberOfQueues := some 3 } (fun n h => by
  obtain rfl := Option.some.inj h; omega) "bln_1"

/-! ### C136: the rate limit lets through what it should and no more -/

/-- **C136 in full**: under every positive rate alone, a request that comes after a long enough pause passes. -/
def C136Full : Prop :=
  ∀ (g : Given) (r : Rat), g.rps = some r → 0 < r → g.burst = none → ∀ b : Bucket, 0 ≤ b.tokens →
    ∀ now, b.last + 1 / r ≤ now → (request (used g).rps (used g).burst b now).1 = true

theorem c136_full_fails : ¬ C136Full := by
  intro h
  have := h { rps := some (1 / 2) } (1 / 2) rfl (by norm_num) rfl ⟨0, 0⟩ (by decide) 2 (by norm_num)
  exact absurd this (by decide +kernel)

/-- A bucket that holds nothing lets nothing through. -/
theorem burst_zero (rps : Rat) (b : Bucket) (ts : List Rat) : requests rps 0 b ts = List.replicate ts.length false := by
  induction ts generalizing b with
  | nil => rfl
  | cons t ts ih =>
    have hr : refill rps 0 b t ≤ 0 := by
      unfold refill
      simp only
      split <;> simp_all
    have hq : request rps 0 b t = (false, b) := by
      unfold request
      rw [if_neg (by intro hx; exact absurd (hx.trans hr) (by norm_num))]
    unfold requests
    rw [hq, ih, List.length_cons, List.replicate_succ]

/-- **C136 fails below one request a second**: with such a rate alone, no request is ever let through. -/
theorem c136_slow_fails (g : Given) (r : Rat) (h : g.rps = some r) (h0 : 0 ≤ r) (h1 : r < 1) (hb : g.burst = none) (b : Bucket) (ts : List Rat) :
    requests (used g).rps (used g).burst b ts = List.replicate ts.length false := by
  have e : (used g).burst = 0 := by
    show (rate g.rps g.burst).2 = 0
    rw [h, hb]
    show 2 * trunc r = 0
    have hd : (0 : Int) < r.den := by have := r.den_pos; omega
    have hn : 0 ≤ r.num := Rat.num_nonneg.2 h0
    have hl : r.num < r.den := by
      have := Rat.lt_iff r 1
      rw [this] at h1
      simpa using h1
    unfold trunc
    rw [Int.tdiv_eq_zero_of_lt hn hl]; rfl
  rw [e]
  exact burst_zero _ b ts

/-- **C136, requests pass.** With a burst of at least one and a positive rate, a request passes if the pause
before it is as long as the rate asks for. -/
theorem c136_passes_partial (rps : Rat) (burst : Int) (hr : 0 < rps) (hb : 1 ≤ burst) (b : Bucket) (h0 : 0 ≤ b.tokens) (now : Rat)
    (hp : b.last + 1 / rps ≤ now) : (request rps burst b now).1 = true := by
  have h1 : 1 ≤ (now - b.last) * rps := by
    have : 1 / rps ≤ now - b.last := by linarith
    calc (1 : Rat) = 1 / rps * rps := by rw [one_div, inv_mul_cancel₀ hr.ne']
      _ ≤ (now - b.last) * rps := mul_le_mul_of_nonneg_right this hr.le
  have hb' : (1 : Rat) ≤ (burst : Rat) := by exact_mod_cast hb
  have : 1 ≤ refill rps burst b now := by
    unfold refill
    simp only
    split
    · linarith
    · exact hb'
  unfold request
  rw [if_pos this]

/-- The burst that goes with a given rate of at least one is at least two. -/
theorem burst_of_rate (g : Given) (r : Rat) (h : g.rps = some r) (h1 : 1 ≤ r) (hb : g.burst = none) : 2 ≤ (used g).burst := by
  show 2 ≤ (rate g.rps g.burst).2
  rw [h, hb]
  show 2 ≤ 2 * trunc r
  unfold trunc
  have hd : (0 : Int) < r.den := by have := r.den_pos; omega
  have hl : (r.den : Int) ≤ r.num := by
    have := Rat.le_iff 1 r
    rw [this] at h1
    simpa using h1
  have : 1 ≤ r.num.tdiv r.den := by
    rw [Int.tdiv_eq_ediv_of_nonneg (by omega)]
    exact (Int.le_ediv_iff_mul_le hd).2 (by omega)
  omega

theorem c136_rate_alone_partial (g : Given) (r : Rat) (h : g.rps = some r) (h1 : 1 ≤ r) (hb : g.burst = none) (b : Bucket)
    (h0 : 0 ≤ b.tokens) (now : Rat) (hp : b.last + 1 / r ≤ now) : (request (used g).rps (used g).burst b now).1 = true := by
  have e : (used g).rps = r := by
    show (rate g.rps g.burst).1 = r
    rw [h, hb]; rfl
  rw [e]
  exact c136_passes_partial r _ (by linarith) (by have := burst_of_rate g r h h1 hb; omega) b h0 now hp

/-- The bucket after some requests. -/
def after (rps : Rat) (burst : Int) : Bucket → List Rat → Bucket
  | b, [] => b
  | b, t :: ts => after rps burst (request rps burst b t).2 ts

theorem requests_append (rps : Rat) (burst : Int) (us : List Rat) : ∀ (ts : List Rat) (b : Bucket),
    requests rps burst b (ts ++ us) = requests rps burst b ts ++ requests rps burst (after rps burst b ts) us := by
  intro ts
  induction ts with
  | nil => intro b; rfl
  | cons t ts ih => intro b; simp only [List.cons_append, requests, after, ih]

theorem refill_le (rps : Rat) (burst : Int) (b : Bucket) (now : Rat) :
    refill rps burst b now ≤ burst ∧ refill rps burst b now ≤ b.tokens + (now - b.last) * rps := by
  unfold refill
  simp only
  split
  · exact ⟨by assumption, le_refl _⟩
  · exact ⟨le_refl _, by linarith⟩

/-- What a bucket gives between its last refill and the moment `hi`. -/
theorem spent_le {rps : Rat} {burst : Int} (hr : 0 ≤ rps) {hi : Rat} : ∀ (ts : List Rat) (b : Bucket), 0 ≤ b.tokens → b.last ≤ hi →
    (b.last :: ts).Pairwise (· ≤ ·) → (∀ t ∈ ts, t ≤ hi) →
    (((requests rps burst b ts).count true : Nat) : Rat) ≤ b.tokens + (hi - b.last) * rps := by
  intro ts
  induction ts with
  | nil =>
    intro b h0 hl _ _
    have : 0 ≤ (hi - b.last) * rps := mul_nonneg (by linarith) hr
    simp only [requests, List.count_nil, Nat.cast_zero]
    linarith
  | cons t ts ih =>
    intro b h0 hl hp hh
    have hbt : b.last ≤ t := (List.pairwise_cons.1 hp).1 t (by simp)
    have htp := (List.pairwise_cons.1 hp).2
    have hle := (refill_le rps burst b t).2
    unfold requests
    by_cases h1 : 1 ≤ refill rps burst b t
    · have e : request rps burst b t = (true, ⟨refill rps burst b t - 1, t⟩) := by unfold request; rw [if_pos h1]
      rw [e]
      have := ih ⟨refill rps burst b t - 1, t⟩ (by show 0 ≤ refill rps burst b t - 1; linarith) (hh t (by simp)) htp (fun x hx => hh x (by simp [hx]))
      simp only [List.count_cons_self, Nat.cast_add, Nat.cast_one]
      simp only at this
      have e2 : (hi - b.last) * rps = (hi - t) * rps + (t - b.last) * rps := by ring
      linarith
    · have e : request rps burst b t = (false, b) := by unfold request; rw [if_neg h1]
      rw [e]
      have hp' : (b.last :: ts).Pairwise (· ≤ ·) := by
        rw [List.pairwise_cons]
        exact ⟨fun x hx => (List.pairwise_cons.1 hp).1 x (by simp [hx]), (List.pairwise_cons.1 htp).2⟩
      have := ih b h0 hl hp' (fun x hx => hh x (by simp [hx]))
      simpa using this

theorem after_ok {rps : Rat} {burst : Int} : ∀ (ts : List Rat) (b : Bucket) (hi : Rat), 0 ≤ b.tokens → b.last ≤ hi → (∀ t ∈ ts, t ≤ hi) →
    0 ≤ (after rps burst b ts).tokens ∧ (after rps burst b ts).last ≤ hi := by
  intro ts
  induction ts with
  | nil => intro b hi h0 hl _; exact ⟨h0, hl⟩
  | cons t ts ih =>
    intro b hi h0 hl hh
    unfold after
    by_cases h1 : 1 ≤ refill rps burst b t
    · have e : request rps burst b t = (true, ⟨refill rps burst b t - 1, t⟩) := by unfold request; rw [if_pos h1]
      rw [e]
      exact ih _ hi (by show 0 ≤ refill rps burst b t - 1; linarith) (hh t (by simp)) (fun x hx => hh x (by simp [hx]))
    · have e : request rps burst b t = (false, b) := by unfold request; rw [if_neg h1]
      rw [e]
      exact ih b hi h0 hl (fun x hx => hh x (by simp [hx]))

/-- **C136, no more than the limit.** Of the requests of a window, whatever came before it, no more pass than
the burst and the rate times the length of the window. -/
theorem c136_bound (rps : Rat) (burst : Int) (hr : 0 ≤ rps) (hb : 0 ≤ burst) (start : Rat) (before : List Rat) (first : Rat) (rest : List Rat)
    (hs : (start :: (before ++ first :: rest)).Pairwise (· ≤ ·)) (last : Rat) (hl : ∀ t ∈ first :: rest, t ≤ last) :
    ((((requests rps burst (newBucket burst start) (before ++ first :: rest)).drop before.length).count true : Nat) : Rat) ≤
      burst + (last - first) * rps := by
  have hlen : ∀ (ts : List Rat) (b : Bucket), (requests rps burst b ts).length = ts.length := by
    intro ts
    induction ts with
    | nil => intro b; rfl
    | cons t ts ih => intro b; simp only [requests, List.length_cons, ih]
  rw [requests_append, List.drop_left' (hlen before _)]
  have hbefore : ∀ t ∈ before, t ≤ first := by
    have := (List.pairwise_append.1 (List.pairwise_cons.1 hs).2).2.2
    exact fun t ht => this t ht first (by simp)
  have hstart : start ≤ first := (List.pairwise_cons.1 hs).1 first (by simp)
  have hb' : (0 : Rat) ≤ (burst : Rat) := by exact_mod_cast hb
  obtain ⟨h0, hla⟩ := after_ok (rps := rps) (burst := burst) before (newBucket burst start) first hb' hstart hbefore
  have hwin := (List.pairwise_append.1 (List.pairwise_cons.1 hs).2).2.1
  generalize after rps burst (newBucket burst start) before = b at h0 hla
  have hfl : first ≤ last := hl first (by simp)
  have key := refill_le rps burst b first
  unfold requests
  by_cases h1 : 1 ≤ refill rps burst b first
  · have e : request rps burst b first = (true, ⟨refill rps burst b first - 1, first⟩) := by unfold request; rw [if_pos h1]
    rw [e]
    have := spent_le hr (burst := burst) (hi := last) rest ⟨refill rps burst b first - 1, first⟩ (by show 0 ≤ refill rps burst b first - 1; linarith) hfl hwin
      (fun t ht => hl t (by simp [ht]))
    simp only [List.count_cons_self, Nat.cast_add, Nat.cast_one]
    simp only at this
    linarith
  · have e : request rps burst b first = (false, b) := by unfold request; rw [if_neg h1]
    rw [e]
    have hnn : 0 ≤ (first - b.last) * rps := mul_nonneg (by linarith) hr
    have hp' : (b.last :: rest).Pairwise (· ≤ ·) := by
      rw [List.pairwise_cons]
      exact ⟨fun x hx => hla.trans ((List.pairwise_cons.1 hwin).1 x hx), (List.pairwise_cons.1 hwin).2⟩
    have := spent_le hr (burst := burst) (hi := last) rest b h0 (hla.trans hfl) hp' (fun t ht => hl t (by simp [ht]))
    have hcnt : (List.count true (false :: requests rps burst b rest)) = List.count true (requests rps burst b rest) := by simp
    rw [hcnt]
    have e2 : (last - b.last) * rps = (last - first) * rps + (first - b.last) * rps := by ring
    by_cases hc : b.tokens + (first - b.last) * rps ≤ burst
    · linarith
    · have hf : refill rps burst b first = burst := by
        unfold refill; simp only; rw [if_neg hc]
      rw [hf] at h1
      have hb0 : burst = 0 := by
        have : ¬ (1 : Int) ≤ burst := fun hx => h1 (by exact_mod_cast hx)
        omega
      subst hb0
      rw [burst_zero, List.count_replicate]
      have : 0 ≤ (last - first) * rps := mul_nonneg (by linarith) hr
      simpa using this

-- Two requests a second: the burst is four, so of six requests at once four pass, and one more after half a second.
example : requests (used { rps := some 2 }).rps (used { rps := some 2 }).burst (newBucket (used { rps := some 2 }).burst 0)
    [0, 0, 0, 0, 0, 0, 1 / 2, 1 / 2] = [true, true, true, true, false, false, true, false] := by decide +kernel
-- One request every two seconds is every request refused.
example : requests (used { rps := some (1 / 2) }).rps (used { rps := some (1 / 2) }).burst (newBucket (used { rps := some (1 / 2) }).burst 0)
    [0, 2, 60, 3600] = [false, false, false, false] := by decide +kernel

/-- **C136, a burst alone.** Who gives a burst of `n` and no rate has a rate of half the burst a second: a request
passes after the pause this asks for, and in no window do more pass than the burst and this rate allow. -/
theorem c136_burst_alone (g : Given) (n : Int) (h : g.rps = none) (hb : g.burst = some n) (hn : 1 ≤ n) :
    (∀ (b : Bucket) (now : Rat), 0 ≤ b.tokens → b.last + 2 / n ≤ now → (request (used g).rps (used g).burst b now).1 = true) ∧
    ∀ (start : Rat) (before : List Rat) (first : Rat) (rest : List Rat), (start :: (before ++ first :: rest)).Pairwise (· ≤ ·) →
      ∀ last : Rat, (∀ t ∈ first :: rest, t ≤ last) →
        ((((requests (used g).rps (used g).burst (newBucket (used g).burst start) (before ++ first :: rest)).drop before.length).count true : Nat) : Rat) ≤
          n + (last - first) * (n / 2) := by
  have hn' : (1 : Rat) ≤ (n : Rat) := by exact_mod_cast hn
  have e1 : (used g).rps = (n : Rat) / 2 := by
    show (rate g.rps g.burst).1 = _
    rw [h, hb]; rfl
  have e2 : (used g).burst = n := by
    show (rate g.rps g.burst).2 = _
    rw [h, hb]; rfl
  rw [e1, e2]
  refine ⟨fun b now h0 hp => ?_, fun start before first rest hs last hl => ?_⟩
  · refine c136_passes_partial _ _ (by positivity) hn b h0 now ?_
    rw [one_div_div]; exact hp
  · exact c136_bound _ n (by positivity) (by omega) start before first rest hs last hl

example : (requests (used { burst := some 4 }).rps (used { burst := some 4 }).burst (newBucket 4 0) [0, 0, 0, 0, 0, 1, 1, 1]) =
    [true, true, true, true, false, true, true, false] := by decide +kernel

end Blnk.Conf
