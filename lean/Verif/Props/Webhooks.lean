import Verif.Model.Webhooks
/-
C98: webhooks carry what happened. C99: signatures. C100: what is announced. C101: how often
the receiver is called.
-/
namespace Blnk.Web

theorem wsteps_append (env : Env) (s : Sys) (a b : List Ev) : wsteps env s (a ++ b) = wsteps env (wsteps env s a) b := by
  induction a generalizing s with
  | nil => rfl
  | cons e es ih => exact ih _

theorem getElem?_set' {α} {l : List α} {k : Nat} {x t : α} (ht : l[k]? = some t) (j : Nat) :
    (l.set k x)[j]? = if k = j then some x else l[j]? := by
  have := (List.getElem?_eq_some_iff.1 ht).1
  by_cases h : k = j
  · subst h; rw [if_pos rfl, List.getElem?_set_self this]
  · rw [if_neg h, List.getElem?_set_ne h]

/-! ### Where deliveries come from -/

/-- A task announces a deed of the history. -/
def FromDeed (es : List Ev) (event : String) (data : Data) : Prop :=
  ∃ d oks, .deed d data oks ∈ es ∧ event ∈ events d

/-- The configuration and the time of a delivery. -/
def FromTry (c0 : Conf) (env : Env) (es : List Ev) (d : Delivery) : Prop :=
  ∃ c now a, (c = c0 ∨ .configure c ∈ es) ∧ .try d.task now a ∈ es ∧ d.url = c.url ∧ c.url ≠ "" ∧
    d.body = env.text d.event d.data ∧ d.headers = headersOf env c now d.body

structure Traced (c0 : Conf) (env : Env) (es : List Ev) (s : Sys) : Prop where
  conf : s.conf = c0 ∨ .configure s.conf ∈ es
  tasks : ∀ t ∈ s.tasks, FromDeed es t.event t.data
  got : ∀ d ∈ s.got, FromTry c0 env es d ∧
    ∃ t, s.tasks[d.task]? = some t ∧ d.event = t.event ∧ d.data = t.data.map fun f => (f.1, reread env f.2)

theorem send_tasks (s : Sys) (e : String) (data : Data) (ok : Bool) :
    (send s e data ok).tasks = s.tasks ∨ (send s e data ok).tasks = s.tasks ++ [{ event := e, data }] := by
  unfold send; split
  · exact .inl rfl
  · exact .inr rfl

theorem send_rest (s : Sys) (e : String) (data : Data) (ok : Bool) :
    (send s e data ok).got = s.got ∧ (send s e data ok).conf = s.conf := by
  unfold send; split <;> exact ⟨rfl, rfl⟩

/-- Sending adds fresh tasks at the end. -/
theorem sendAll_tasks (data : Data) : ∀ (evs : List String) (oks : List Bool) (s : Sys),
    ∃ new : List Task, (sendAll s data evs oks).tasks = s.tasks ++ new ∧ (sendAll s data evs oks).got = s.got ∧
      (sendAll s data evs oks).conf = s.conf ∧ ∀ t ∈ new, t.event ∈ evs ∧ t = { event := t.event, data }
  | [], _, s => ⟨[], by simp [sendAll], rfl, rfl, fun t ht => by simp at ht⟩
  | e :: evs, oks, s => by
    obtain ⟨new, h1, h2, h3, h4⟩ := sendAll_tasks data evs oks.tail (send s e data (oks.head?.getD true))
    obtain ⟨h5, h6⟩ := send_rest s e data (oks.head?.getD true)
    rcases send_tasks s e data (oks.head?.getD true) with h | h
    · refine ⟨new, ?_, h2.trans h5, h3.trans h6, fun t ht => ⟨List.mem_cons_of_mem _ (h4 t ht).1, (h4 t ht).2⟩⟩
      show (sendAll _ data evs oks.tail).tasks = _
      rw [h1, h]
    · refine ⟨{ event := e, data } :: new, ?_, h2.trans h5, h3.trans h6, fun t ht => ?_⟩
      · show (sendAll _ data evs oks.tail).tasks = _
        rw [h1, h]; simp
      · rcases List.mem_cons.1 ht with rfl | ht
        · exact ⟨by simp, rfl⟩
        · exact ⟨List.mem_cons_of_mem _ (h4 t ht).1, (h4 t ht).2⟩

theorem FromDeed.mono {es es' : List Ev} {e data} (h : FromDeed es e data) (hs : ∀ x ∈ es, x ∈ es') : FromDeed es' e data := by
  obtain ⟨d, oks, h1, h2⟩ := h
  exact ⟨d, oks, hs _ h1, h2⟩

theorem FromTry.mono {c0 env} {es es' : List Ev} {d} (h : FromTry c0 env es d) (hs : ∀ x ∈ es, x ∈ es') : FromTry c0 env es' d := by
  obtain ⟨c, now, a, h1, h2, h3⟩ := h
  exact ⟨c, now, a, h1.imp (fun x => x) (hs _), hs _ h2, h3⟩

theorem over_same (t : Task) (ok : Bool) : (t.over ok).event = t.event ∧ (t.over ok).data = t.data := ⟨rfl, rfl⟩

theorem traced_step {c0 env es s} (a : Traced c0 env es s) (e : Ev) : Traced c0 env (es ++ [e]) (wstep env s e) := by
  have up : ∀ x ∈ es, x ∈ es ++ [e] := fun x hx => List.mem_append.2 (.inl hx)
  have last : e ∈ es ++ [e] := by simp
  have aconf : s.conf = c0 ∨ .configure s.conf ∈ es ++ [e] := a.conf.imp (fun x => x) (up _)
  have atasks : ∀ t ∈ s.tasks, FromDeed (es ++ [e]) t.event t.data := fun t ht => (a.tasks t ht).mono up
  have setT : ∀ (k : Nat) (t : Task) (ok : Bool), s.tasks[k]? = some t → ∀ x ∈ s.tasks.set k (t.over ok), FromDeed (es ++ [e]) x.event x.data := by
    intro k t ok ht x hx
    rcases List.mem_or_eq_of_mem_set hx with hx | hx
    · exact atasks x hx
    · subst hx; exact atasks t (List.mem_of_getElem? ht)
  have setG : ∀ (k : Nat) (t : Task) (ok : Bool), s.tasks[k]? = some t → ∀ d ∈ s.got, FromTry c0 env (es ++ [e]) d ∧
      ∃ t', (s.tasks.set k (t.over ok))[d.task]? = some t' ∧ d.event = t'.event ∧ d.data = t'.data.map fun f => (f.1, reread env f.2) := by
    intro k t ok ht d hd
    obtain ⟨h1, t', h2, h3, h4⟩ := a.got d hd
    refine ⟨h1.mono up, ?_⟩
    rw [getElem?_set' ht]
    by_cases hk : k = d.task
    · rw [if_pos hk]
      rw [← hk, ht] at h2
      cases h2
      exact ⟨_, rfl, h3, h4⟩
    · rw [if_neg hk]; exact ⟨t', h2, h3, h4⟩
  cases e with
  | deed d data oks =>
    obtain ⟨new, h1, h2, h3, h4⟩ := sendAll_tasks data (events d) oks s
    refine ⟨?_, fun t ht => ?_, fun x hx => ?_⟩
    · show (sendAll s data (events d) oks).conf = c0 ∨ Ev.configure (sendAll s data (events d) oks).conf ∈ _
      rw [h3]; exact aconf
    · have ht' : t ∈ (sendAll s data (events d) oks).tasks := ht
      rw [h1] at ht'
      rcases List.mem_append.1 ht' with ht' | ht'
      · exact atasks t ht'
      · obtain ⟨h5, h6⟩ := h4 t ht'
        have : t.data = data := by rw [h6]
        rw [this]
        exact ⟨d, oks, last, h5⟩
    · have hx' : x ∈ (sendAll s data (events d) oks).got := hx
      rw [h2] at hx'
      obtain ⟨h5, t, h6, h7⟩ := a.got x hx'
      refine ⟨h5.mono up, t, ?_, h7⟩
      show (sendAll s data (events d) oks).tasks[x.task]? = some t
      rw [h1, List.getElem?_append_left (List.getElem?_eq_some_iff.1 h6).1]
      exact h6
  | «try» k now an =>
    simp only [wstep]
    cases ht : s.tasks[k]? with
    | none => exact ⟨aconf, atasks, fun d hd => ⟨(a.got d hd).1.mono up, (a.got d hd).2⟩⟩
    | some t =>
      dsimp only
      split
      · unfold attempt
        split
        · exact ⟨aconf, setT k t true ht, setG k t true ht⟩
        · rename_i hu
          refine ⟨aconf, setT k t _ ht, fun d hd => ?_⟩
          dsimp only at hd
          split at hd
          · exact setG k t _ ht d hd
          · rcases List.mem_append.1 hd with hd | hd
            · exact setG k t _ ht d hd
            · have ed := List.mem_singleton.1 hd
              subst ed
              refine ⟨⟨s.conf, now, an, aconf, last, rfl, hu, rfl, rfl⟩, t.over (ok2xx an), ?_, rfl, rfl⟩
              dsimp only
              rw [getElem?_set' ht, if_pos rfl]
      · exact ⟨aconf, atasks, fun d hd => ⟨(a.got d hd).1.mono up, (a.got d hd).2⟩⟩
  | configure c => exact ⟨.inr last, atasks, fun d hd => ⟨(a.got d hd).1.mono up, (a.got d hd).2⟩⟩

theorem traced_steps {c0 env} : ∀ es' es s, Traced c0 env es s → Traced c0 env (es ++ es') (wsteps env s es')
  | [], es, s, a => by rw [List.append_nil]; exact a
  | e :: es', es, s, a => by
    have := traced_steps es' (es ++ [e]) _ (traced_step a e)
    rw [List.append_assoc] at this
    exact this

theorem traced (c0 : Conf) (env : Env) (es : List Ev) : Traced c0 env es (wsteps env { conf := c0 } es) := by
  have := traced_steps (c0 := c0) (env := env) es [] { conf := c0 }
    ⟨.inl rfl, fun t ht => by simp at ht, fun d hd => by simp at hd⟩
  simpa using this

/-! ### C98 -/

/-- **C98** in full: what the receiver gets is what happened. -/
def C98Full (env : Env) : Prop := ∀ (c : Conf) (es : List Ev), ∀ d ∈ (wsteps env { conf := c } es).got,
  ∃ k data oks, .deed k data oks ∈ es ∧ d.event ∈ events k ∧ d.data = data

/-- A transaction of `n` minor units is posted and announced. -/
def posted (n : Int) : List Ev := [.deed (.executed "QUEUED" false) [("precise_amount", .whole n)] [], .try 0 1700000000 (.heard 200)]

def site : Conf := { url := "https://a", secret := "s3cret" }

theorem posted_got (env : Env) (n : Int) : (wsteps env { conf := site } (posted n)).got.map Delivery.data =
    [[("precise_amount", reread env (.whole n))]] := rfl

/-- **C98** (violated) The worker decodes the payload into `interface{}` and encodes it again
(`webhooks.go:183-186`), so amounts above `2^53` arrive changed, however floats are written. -/
theorem c98_wide_fails (env : Env) : ¬ C98Full env := by
  intro h
  have key : ∀ n : Nat, 0 < n → env.enc (Auth.toFloat n) = n := by
    intro n hn
    have h1 := posted_got env n
    obtain ⟨d, hd, hd'⟩ := List.mem_map.1 (by rw [h1]; simp :
      [("precise_amount", reread env (.whole n))] ∈ (wsteps env { conf := site } (posted n)).got.map Delivery.data)
    obtain ⟨k, data, oks, h2, _, h3⟩ := h site (posted n) d hd
    simp [posted] at h2
    rw [h2.2.1, hd'] at h3
    simp only [reread, List.cons.injEq, Prod.mk.injEq, Val.whole.injEq, and_true, true_and, Int.natAbs_natCast] at h3
    rw [Int.sign_eq_one_of_pos (by omega)] at h3
    omega
  have e : Auth.toFloat 9007199254740993 = Auth.toFloat 9007199254740992 := by decide +kernel
  have h1 := key 9007199254740993 (by omega)
  have h2 := key 9007199254740992 (by omega)
  rw [e, h2] at h1
  omega

/-- No whole number of the payload is `2^53` or more. -/
def Small (data : Data) : Prop := ∀ x n, (x, Val.whole n) ∈ data → n.natAbs < 2 ^ 53

/-- `json.Marshal` writes a float so that it reads back as the same float. -/
def Faithful (env : Env) : Prop := ∀ n, Auth.toFloat (env.enc (Auth.toFloat n)) = Auth.toFloat n

theorem toFloat_small {n : Nat} (h : n < 2 ^ 53) : Auth.toFloat n = n := by
  unfold Auth.toFloat; rw [if_pos h]

theorem toFloat_large {n : Nat} (h : ¬ n < 2 ^ 53) : 2 ^ 53 ≤ Auth.toFloat n := by
  unfold Auth.toFloat
  rw [if_neg h]
  dsimp only
  have hn : n ≠ 0 := by omega
  have hl : 53 ≤ Nat.log2 n := (Nat.le_log2 hn).2 (by omega)
  have hp : 2 ^ Nat.log2 n ≤ n := Nat.log2_self_le hn
  have he : 2 ^ Nat.log2 n = 2 ^ 52 * 2 ^ (Nat.log2 n - 52) := by rw [← Nat.pow_add]; congr 1; omega
  have hq : 2 ^ 52 ≤ n / 2 ^ (Nat.log2 n - 52) := by
    rw [Nat.le_div_iff_mul_le (Nat.pow_pos (by omega)), ← he]; exact hp
  have h2 : 2 ≤ 2 ^ (Nat.log2 n - 52) := by
    calc 2 = 2 ^ 1 := rfl
      _ ≤ _ := Nat.pow_le_pow_right (by omega) (by omega)
  have step : ∀ q, 2 ^ 52 ≤ q → 2 ^ 53 ≤ q * 2 ^ (Nat.log2 n - 52) := by
    intro q hq
    calc 2 ^ 53 = 2 ^ 52 * 2 := by decide
      _ ≤ q * 2 ^ (Nat.log2 n - 52) := Nat.mul_le_mul hq h2
  apply step
  split
  · exact hq
  · split
    · omega
    · split <;> omega

theorem enc_small {env : Env} (hf : Faithful env) {n : Nat} (h : n < 2 ^ 53) : env.enc (Auth.toFloat n) = n := by
  have h1 := hf n
  by_cases hm : env.enc (Auth.toFloat n) < 2 ^ 53
  · rw [toFloat_small hm] at h1; rw [h1, toFloat_small h]
  · have := toFloat_large hm
    rw [h1, toFloat_small h] at this; omega

theorem reread_small {env : Env} (hf : Faithful env) {n : Int} (h : n.natAbs < 2 ^ 53) : reread env (.whole n) = .whole n := by
  simp only [reread]
  rw [enc_small hf h, Int.sign_mul_natAbs]

/-- **C98** (partial) Every delivery announces a deed of the history, under an event of that
deed, with the fields in order, everything that is not a number unchanged, and whole numbers
below `2^53` unchanged; larger ones read as floats are what the original reads as. Missing from
the full statement: exact amounts from `2^53` on. -/
theorem c98_content_partial (env : Env) (hf : Faithful env) (c : Conf) (es : List Ev) (d : Delivery)
    (hd : d ∈ (wsteps env { conf := c } es).got) :
    ∃ k data oks, .deed k data oks ∈ es ∧ d.event ∈ events k ∧ d.body = env.text d.event d.data ∧
      d.data.map Prod.fst = data.map Prod.fst ∧ (Small data → d.data = data) ∧
      ∀ (i : Nat) (x : String), (∀ t, data[i]? = some (x, .other t) → d.data[i]? = some (x, .other t)) ∧
        ∀ n : Nat, data[i]? = some (x, .whole n) →
          ∃ m : Nat, d.data[i]? = some (x, .whole m) ∧ Auth.toFloat m = Auth.toFloat n := by
  have a := traced c env es
  obtain ⟨⟨cc, now, an, _, _, _, _, hb, _⟩, t, h1, h2, h3⟩ := a.got d hd
  obtain ⟨k, oks, h4, h5⟩ := a.tasks t (List.mem_of_getElem? h1)
  refine ⟨k, t.data, oks, h4, by rw [h2]; exact h5, hb, ?_, fun hs => ?_, fun i x => ⟨fun tx hx => ?_, fun n hx => ?_⟩⟩
  · rw [h3]; simp
  · rw [h3]
    have : ∀ l : Data, (∀ x n, (x, Val.whole n) ∈ l → n.natAbs < 2 ^ 53) → l.map (fun f => (f.1, reread env f.2)) = l := by
      intro l
      induction l with
      | nil => intro _; rfl
      | cons f l ih =>
        intro hl
        rw [List.map_cons, ih fun x n hx => hl x n (List.mem_cons_of_mem _ hx)]
        obtain ⟨x, v⟩ := f
        cases v with
        | other t => rfl
        | whole n => rw [reread_small hf (hl x n (by simp))]
    exact this t.data hs
  · rw [h3, List.getElem?_map, hx]; rfl
  · by_cases h0 : n = 0
    · subst h0
      refine ⟨0, ?_, rfl⟩
      rw [h3, List.getElem?_map, hx]
      simp [reread]
    · refine ⟨env.enc (Auth.toFloat n), ?_, hf n⟩
      rw [h3, List.getElem?_map, hx]
      simp only [Option.map_some, reread, Int.natAbs_natCast]
      rw [Int.sign_eq_one_of_pos (by omega)]
      simp

/-- Signatures and texts that can be computed with. -/
def demo : Env := { mac := fun k m => k ++ "|" ++ m, text := fun e _ => e, enc := id }

theorem toFloat_mult {q e : Nat} (h1 : 2 ^ 52 ≤ q) (h2 : q ≤ 2 ^ 53) (he : 1 ≤ e) : Auth.toFloat (q * 2 ^ e) = q * 2 ^ e := by
  have hp : 0 < 2 ^ e := Nat.pow_pos (by omega)
  have h2e : 2 ≤ 2 ^ e := by
    calc 2 = 2 ^ 1 := rfl
      _ ≤ _ := Nat.pow_le_pow_right (by omega) he
  have hbig : ¬ q * 2 ^ e < 2 ^ 53 := by
    have : 2 ^ 52 * 2 ≤ q * 2 ^ e := Nat.mul_le_mul h1 h2e
    omega
  have hne : q * 2 ^ e ≠ 0 := by omega
  unfold Auth.toFloat
  rw [if_neg hbig]
  dsimp only
  by_cases hq : q = 2 ^ 53
  · subst hq
    have hl : Nat.log2 (2 ^ 53 * 2 ^ e) = 53 + e := by rw [← Nat.pow_add, Nat.log2_two_pow]
    have e1 : 53 + e - 52 = e + 1 := by omega
    rw [hl, e1]
    have hm : 2 ^ 53 * 2 ^ e = 2 ^ 52 * 2 ^ (e + 1) := by rw [← Nat.pow_add, ← Nat.pow_add]; congr 1; omega
    have hp' : 0 < 2 ^ (e + 1) := Nat.pow_pos (by omega)
    rw [hm, Nat.mul_mod_left, Nat.mul_div_cancel _ hp', if_pos (by omega)]
  · have hl : Nat.log2 (q * 2 ^ e) = 52 + e := by
      rw [Nat.log2_eq_iff hne]
      constructor
      · rw [Nat.pow_add]; exact Nat.mul_le_mul_right _ h1
      · have : 2 ^ (52 + e + 1) = 2 ^ 53 * 2 ^ e := by rw [← Nat.pow_add]; congr 1; omega
        rw [this]
        exact Nat.mul_lt_mul_of_pos_right (by omega) hp
    have e1 : 52 + e - 52 = e := by omega
    rw [hl, e1, Nat.mul_mod_left, Nat.mul_div_cancel _ hp, if_pos (by omega)]

/-- Reading a float back changes nothing. -/
theorem toFloat_idem (n : Nat) : Auth.toFloat (Auth.toFloat n) = Auth.toFloat n := by
  by_cases h : n < 2 ^ 53
  · rw [toFloat_small h, toFloat_small h]
  · have hn : n ≠ 0 := by omega
    have hl : 53 ≤ Nat.log2 n := (Nat.le_log2 hn).2 (by omega)
    have hp : 2 ^ Nat.log2 n ≤ n := Nat.log2_self_le hn
    have hlt : n < 2 ^ (Nat.log2 n + 1) := Nat.lt_log2_self
    have hpos : 0 < 2 ^ (Nat.log2 n - 52) := Nat.pow_pos (by omega)
    have h1 : 2 ^ 52 ≤ n / 2 ^ (Nat.log2 n - 52) := by
      rw [Nat.le_div_iff_mul_le hpos, ← Nat.pow_add]
      have : 52 + (Nat.log2 n - 52) = Nat.log2 n := by omega
      rw [this]; exact hp
    have h2 : n / 2 ^ (Nat.log2 n - 52) < 2 ^ 53 := by
      rw [Nat.div_lt_iff_lt_mul hpos, ← Nat.pow_add]
      have : 53 + (Nat.log2 n - 52) = Nat.log2 n + 1 := by omega
      rw [this]; exact hlt
    have key : ∃ q, Auth.toFloat n = q * 2 ^ (Nat.log2 n - 52) ∧ 2 ^ 52 ≤ q ∧ q ≤ 2 ^ 53 := by
      refine ⟨_, by unfold Auth.toFloat; rw [if_neg h], ?_, ?_⟩
      · split
        · exact h1
        · split
          · omega
          · split <;> omega
      · split
        · omega
        · split
          · omega
          · split <;> omega
    obtain ⟨q, e, hq1, hq2⟩ := key
    rw [e]
    exact toFloat_mult hq1 hq2 (by omega)

theorem demo_faithful : Faithful demo := fun n => toFloat_idem n

example : (wsteps demo { conf := site } (posted 250)).got.map (fun d => (d.event, d.data)) =
    [("transaction.applied", [("precise_amount", .whole 250)])] ∧ Small [("precise_amount", .whole 250)] := by
  refine ⟨by decide +kernel, fun x n h => ?_⟩
  simp at h; rw [h.2]; decide

example : (wsteps demo { conf := site } (posted (10 ^ 18 + 1))).got.map Delivery.data =
    [[("precise_amount", .whole (10 ^ 18))]] := by decide +kernel

/-! ### C99 -/

/-- The receiver's check: the signature is the one its secret gives for the timestamp and the
body it got. -/
def Verifies (env : Env) (secret : String) (headers : List (String × String)) (body : String) : Prop :=
  ∃ sig ts, header headers "x-blnk-signature" = some sig ∧ header headers "x-blnk-timestamp" = some ts ∧
    sig = env.mac secret (signed ts body)

/-- **C99** in full: on both channels, what carries a signature was signed with a configured
secret. -/
def C99Full : Prop :=
  (∀ env c now body sig, header (headersOf env c now body) "x-blnk-signature" = some sig → c.secret ≠ "") ∧
  (∀ env secret now body id typ sig, header (hookHeaders env secret now body id typ) "x-blnk-signature" = some sig → secret ≠ "")

/-- **C99** (violated) Without a configured secret the service's webhook leaves the signature
out, but hook calls are signed with the empty key (`client.go:78-83`): they verify, and so does
what anybody else signs with it. -/
theorem c99_hook_fails : ¬ C99Full ∧
    ∀ env now body id typ, Verifies env "" (hookHeaders env "" now body id typ) body := by
  refine ⟨fun h => ?_, fun env now body id typ => ⟨_, _, rfl, rfl, rfl⟩⟩
  exact absurd rfl (h.2 demo "" 0 "" "" "" _ rfl)

theorem header_set (hs : List (String × String)) (k v x : String) :
    header (setHeader hs k v) x = if k = x then some v else header hs x := by
  unfold header setHeader
  rw [List.find?_cons]
  by_cases h : k = x
  · simp [h]
  · rw [if_neg h]
    have : (k == x) = false := by simpa using h
    dsimp only
    rw [this]
    dsimp only
    congr 1
    induction hs with
    | nil => rfl
    | cons y ys ih =>
      by_cases hy : y.1 = k
      · rw [List.filter_cons_of_neg (by simpa using hy), ih, List.find?_cons]
        have : (y.1 == x) = false := by rw [hy]; simpa using h
        rw [this]
      · rw [List.filter_cons_of_pos (by simpa using hy), List.find?_cons, List.find?_cons, ih]

theorem header_fold (l : List (String × String)) (x : String) (h : ∀ kv ∈ l, kv.1 ≠ x) : ∀ hs,
    header (l.foldl (fun h kv => setHeader h kv.1 kv.2) hs) x = header hs x := by
  induction l with
  | nil => intro hs; rfl
  | cons kv l ih =>
    intro hs
    rw [List.foldl_cons, ih fun y hy => h y (List.mem_cons_of_mem _ hy), header_set, if_neg (h kv (by simp))]

/-- The configured headers leave the signature alone. -/
def Conf.Clean (c : Conf) : Prop := ∀ kv ∈ c.headers, kv.1 ≠ "x-blnk-signature" ∧ kv.1 ≠ "x-blnk-timestamp"

/-- **C99** (partial) Every webhook of every history, delivered under configurations whose own
headers leave the signature alone: if the secret of that configuration is set, the receiver's
check with it succeeds on exactly the body received, and the time is that of the attempt; if it
is not set there is no signature. Missing from the full statement: hook calls. -/
theorem c99_webhook_partial (env : Env) (c : Conf) (es : List Ev) (hc : c.Clean) (he : ∀ c', .configure c' ∈ es → c'.Clean)
    (d : Delivery) (hd : d ∈ (wsteps env { conf := c } es).got) :
    ∃ c' now a, (c' = c ∨ .configure c' ∈ es) ∧ .try d.task now a ∈ es ∧ d.url = c'.url ∧
      (c'.secret ≠ "" → Verifies env c'.secret d.headers d.body ∧ header d.headers "x-blnk-timestamp" = some (toString now)) ∧
      (c'.secret = "" → header d.headers "x-blnk-signature" = none) := by
  obtain ⟨⟨c', now, a, h1, h2, h3, _, _, h4⟩, _⟩ := (traced c env es).got d hd
  have hcl : c'.Clean := by
    rcases h1 with h1 | h1
    · rw [h1]; exact hc
    · exact he c' h1
  refine ⟨c', now, a, h1, h2, h3, fun hs => ?_, fun hs => ?_⟩
  · have hts : header d.headers "x-blnk-timestamp" = some (toString now) := by
      rw [h4]; unfold headersOf; dsimp only
      rw [header_fold _ _ fun kv hkv => (hcl kv hkv).2, if_neg hs, header_set, if_pos rfl]
    refine ⟨⟨_, toString now, ?_, hts, rfl⟩, hts⟩
    rw [h4]; unfold headersOf; dsimp only
    rw [header_fold _ _ fun kv hkv => (hcl kv hkv).1, if_neg hs, header_set, if_neg (by decide), header_set, if_pos rfl]
  · rw [h4]; unfold headersOf; dsimp only
    rw [header_fold _ _ fun kv hkv => (hcl kv hkv).1, if_pos hs]
    rfl

example : site.Clean ∧ (wsteps demo { conf := site } (posted 250)).got.map Delivery.headers =
    [[("x-blnk-timestamp", "1700000000"), ("x-blnk-signature", "s3cret|1700000000.transaction.applied"), ("content-type", "application/json")]] :=
  ⟨fun kv h => by simp [site] at h, by decide +kernel⟩

theorem split_dot : ∀ (a a' b b' : List Char), '.' ∉ a → '.' ∉ a' → a ++ '.' :: b = a' ++ '.' :: b' → a = a' ∧ b = b'
  | [], [], b, b', _, _, h => by simpa using h
  | [], x :: a', b, b', _, h2, h => by
    simp at h; rw [← h.1] at h2; simp at h2
  | x :: a, [], b, b', h1, _, h => by
    simp at h; rw [h.1] at h1; simp at h1
  | x :: a, y :: a', b, b', h1, h2, h => by
    simp at h
    obtain ⟨e1, e2⟩ := split_dot a a' b b' (fun hh => h1 (List.mem_cons_of_mem _ hh)) (fun hh => h2 (List.mem_cons_of_mem _ hh)) h.2
    exact ⟨by rw [h.1, e1], e2⟩

theorem no_dot (n : Nat) : '.' ∉ (toString n).toList := by
  intro h
  have : (toString n).toList = Nat.toDigits 10 n := Nat.toList_repr
  rw [this] at h
  have := Nat.isDigit_of_mem_toDigits (by omega) (by omega) h
  exact absurd this (by decide)

/-- **C99** What is signed determines the time and the body: a signature made for one pair is a
signature for another only if two different texts have the same HMAC. -/
theorem c99_signed_text (n n' : Nat) (b b' : String) (h : signed (toString n) b = signed (toString n') b') : n = n' ∧ b = b' := by
  have hl : (signed (toString n) b).toList = (signed (toString n') b').toList := by rw [h]
  simp only [signed, String.toList_append] at hl
  have hd : (".".toList : List Char) = ['.'] := rfl
  rw [hd, List.append_assoc, List.append_assoc] at hl
  obtain ⟨h1, h2⟩ := split_dot _ _ _ _ (no_dot n) (no_dot n') hl
  have e2 : Nat.toDigits 10 n = Nat.toDigits 10 n' := by rw [← Nat.toList_repr, ← Nat.toList_repr]; exact h1
  have e3 : Nat.ofDigitChars 10 (Nat.toDigits 10 n) 0 = Nat.ofDigitChars 10 (Nat.toDigits 10 n') 0 := by rw [e2]
  rw [Nat.ofDigitChars_toDigits (by omega) (by omega), Nat.ofDigitChars_toDigits (by omega) (by omega)] at e3
  exact ⟨e3, String.toList_inj.1 h2⟩

example : signed "1700000000" "{}" = "1700000000.{}" := by decide

/-! ### C100 -/

/-- What an event is about. -/
inductive Topic
  | made (what : String) | changed (what : String) | met | txn (status : String) | batch (status : String)
deriving DecidableEq, Repr

/-- What a deed is. -/
def topic : Deed → Topic
  | .ledgerMade => .made "ledger"
  | .ledgerRenamed => .changed "ledger"
  | .balanceMade => .made "balance"
  | .identityMade => .made "identity"
  | .identityChanged => .changed "identity"
  | .monitorMet => .met
  | .queued => .txn "QUEUED"
  | .scheduled => .txn "SCHEDULED"
  | .executed st inflight => .txn (settled st inflight)
  | .refused _ _ => .txn "REJECTED"
  | .batch st => .batch st

/-- The deeds of a history. -/
def deeds (es : List Ev) : List (Deed × Data) := es.filterMap fun | .deed d data _ => some (d, data) | _ => none

/-- The webhook is configured, stays so, and the queue takes what is sent. -/
def Working (c : Conf) (es : List Ev) : Prop :=
  c.url ≠ "" ∧ ∀ e ∈ es, (∀ c', e ≠ .configure c') ∧ ∀ d data oks, e = .deed d data oks → ∀ b ∈ oks, b = true

/-- **C100** in full: everything that happens is announced once, and deeds of different kinds
are announced differently. -/
def C100Full : Prop := (∀ env c es, Working c es → (wsteps env { conf := c } es).tasks.length = (deeds es).length) ∧
  ∀ d d', events d ≠ [] → events d = events d' → topic d = topic d'

/-- **C100** (violated) A transaction the worker refuses is announced twice
(`transaction_rejection.go:78`, `cmd/workers.go:160`). -/
theorem c100_twice_fails : ¬ C100Full ∧
    (wsteps demo { conf := site } [.deed (.refused true none) [] []]).tasks.map Task.event = ["transaction.rejected", "transaction.rejected"] := by
  refine ⟨fun h => ?_, by decide +kernel⟩
  refine absurd (h.1 demo site [.deed (.refused true none) [] []] ⟨by decide, fun e he => ?_⟩) (by decide +kernel)
  simp at he; subst he
  exact ⟨by simp, fun d data oks h b hb => by simp at h; rw [h.2.2] at hb; simp at hb⟩

/-- **C100** (violated) Queued and scheduled transactions are not announced, though the service
has events for them; nor is a refused atomic one that does not name its batch
(`transaction_rejection.go:69-76`). -/
theorem c100_silent_fails : ¬ C100Full ∧ events .queued = [] ∧ events .scheduled = [] ∧ events (.refused true (some false)) = [] := by
  refine ⟨fun h => ?_, rfl, rfl, rfl⟩
  refine absurd (h.1 demo site [.deed .queued [] []] ⟨by decide, fun e he => ?_⟩) (by decide +kernel)
  simp at he; subst he
  exact ⟨by simp, fun d data oks h b hb => by simp at h; rw [h.2.2] at hb; simp at hb⟩

/-- **C100** (violated) Renaming a ledger is announced as creating one (`ledger.go:41`, `:139`). -/
theorem c100_rename_fails : ¬ C100Full ∧ events .ledgerRenamed = events .ledgerMade := by
  refine ⟨fun h => ?_, rfl⟩
  exact absurd (h.2 .ledgerRenamed .ledgerMade (by decide) rfl) (by decide)

/-- Deeds that are announced as they should be. -/
def Deed.Plain : Deed → Prop
  | .ledgerMade | .balanceMade | .identityMade | .monitorMet | .batch _ => True
  | .refused worker atomic => worker = false ∧ atomic = none
  | .executed st inflight => inflight = true ∨ st = "QUEUED" ∨ st = "APPLIED" ∨ st = "SCHEDULED" ∨ st = "COMMIT" ∨ st = "VOID"
  | _ => False

/-- The event of a plain deed. -/
def Deed.event : Deed → String
  | .ledgerMade => "ledger.created"
  | .balanceMade => "balance.created"
  | .identityMade => "identity.created"
  | .monitorMet => "balance.monitor"
  | .batch st => "bulk_transaction." ++ st
  | .refused _ _ => "transaction.rejected"
  | .executed st inflight => if inflight then "transaction.inflight" else if st = "VOID" then "transaction.void" else "transaction.applied"
  | _ => ""

theorem plain_events {d : Deed} (h : d.Plain) : events d = [d.event] := by
  cases d with
  | executed st inflight =>
    simp only [events, Deed.event, settled]
    cases inflight
    · simp only [Deed.Plain, Bool.false_eq_true, false_or] at h
      rcases h with h | h | h | h | h <;> (subst h; rfl)
    · rfl
  | refused w a =>
    obtain ⟨rfl, rfl⟩ := h
    rfl
  | ledgerMade => rfl
  | balanceMade => rfl
  | identityMade => rfl
  | monitorMet => rfl
  | batch st => rfl
  | ledgerRenamed => exact h.elim
  | identityChanged => exact h.elim
  | queued => exact h.elim
  | scheduled => exact h.elim

theorem send_ok {s : Sys} (h : s.conf.url ≠ "") (e : String) (data : Data) :
    send s e data true = { s with tasks := s.tasks ++ [{ event := e, data }] } := by
  unfold send; rw [if_neg (by simpa using h)]

theorem plain_steps (env : Env) : ∀ (es : List Ev) (s : Sys), s.conf.url ≠ "" →
    (∀ e ∈ es, (∀ c', e ≠ .configure c') ∧ ∀ d data oks, e = .deed d data oks → (∀ b ∈ oks, b = true) ∧ d.Plain) →
    (wsteps env s es).tasks.map (fun t => (t.event, t.data)) =
      s.tasks.map (fun t => (t.event, t.data)) ++ (deeds es).map fun x => (x.1.event, x.2)
  | [], s, _, _ => by simp [wsteps, deeds]
  | e :: es, s, hu, h => by
    have hr : ∀ x ∈ es, _ := fun x hx => h x (List.mem_cons_of_mem _ hx)
    obtain ⟨h1, h2⟩ := h e (by simp)
    cases e with
    | deed d data oks =>
      obtain ⟨h3, h4⟩ := h2 d data oks rfl
      have hok : oks.head?.getD true = true := by
        cases oks with
        | nil => rfl
        | cons b _ => exact h3 b (by simp)
      have es1 : wstep env s (.deed d data oks) = { s with tasks := s.tasks ++ [{ event := d.event, data }] } := by
        show sendAll s data (events d) oks = _
        rw [plain_events h4]
        show send s d.event data (oks.head?.getD true) = _
        rw [hok, send_ok hu]
      show (wsteps env (wstep env s _) es).tasks.map _ = _
      rw [plain_steps env es _ (by rw [es1]; exact hu) hr, es1]
      simp [deeds]
    | «try» k now a =>
      show (wsteps env (wstep env s _) es).tasks.map _ = _
      have hs : (wstep env s (.try k now a)).conf = s.conf ∧
          (wstep env s (.try k now a)).tasks.map (fun t => (t.event, t.data)) = s.tasks.map (fun t => (t.event, t.data)) := by
        simp only [wstep]
        cases ht : s.tasks[k]? with
        | none => exact ⟨rfl, rfl⟩
        | some t =>
          have hset : ∀ ok, (s.tasks.set k (t.over ok)).map (fun t => (t.event, t.data)) = s.tasks.map (fun t => (t.event, t.data)) := by
            intro ok
            apply List.ext_getElem?
            intro i
            rw [List.getElem?_map, List.getElem?_map, getElem?_set' ht]
            by_cases hk : k = i
            · rw [if_pos hk, ← hk, ht]; rfl
            · rw [if_neg hk]
          dsimp only
          split
          · unfold attempt
            split
            · exact ⟨rfl, hset true⟩
            · exact ⟨rfl, hset _⟩
          · exact ⟨rfl, rfl⟩
      rw [plain_steps env es _ (by rw [hs.1]; exact hu) hr, hs.2]
      simp [deeds]
    | configure c => exact absurd rfl (h1 c)

/-- **C100** (partial) If the webhook is configured and the queue works, then over all histories
of plain deeds, and whatever attempts at delivery come between, the queue has been given exactly
one announcement for each deed, in order, with its data; and the event tells the deed's kind.
Missing from the full statement: refusals by the worker, renamed ledgers, changed identities and
queued or scheduled transactions. -/
theorem c100_once_partial (env : Env) (c : Conf) (es : List Ev) (hw : Working c es) (hp : ∀ x ∈ deeds es, x.1.Plain) :
    (wsteps env { conf := c } es).tasks.map (fun t => (t.event, t.data)) = (deeds es).map (fun x => (x.1.event, x.2)) := by
  have := plain_steps env es { conf := c } hw.1 (fun e he => ⟨(hw.2 e he).1, fun d data oks h =>
    ⟨(hw.2 e he).2 d data oks h, hp (d, data) (by
      unfold deeds
      exact List.mem_filterMap.2 ⟨e, he, by rw [h]⟩)⟩⟩)
  simpa using this

/-- **C100** (partial) Plain transactions with different outcomes have different events. -/
theorem c100_outcome_partial (st st' : String) (i i' : Bool) (h : (Deed.executed st i).Plain) (h' : (Deed.executed st' i').Plain) :
    (Deed.executed st i).event = (Deed.executed st' i').event ↔ topic (.executed st i) = topic (.executed st' i') := by
  simp only [Deed.event, topic, settled, Topic.txn.injEq]
  cases i <;> cases i' <;> simp only [Deed.Plain, Bool.false_eq_true, false_or, true_or] at h h' ⊢
  · rcases h with h | h | h | h | h <;> rcases h' with h' | h' | h' | h' | h' <;> (subst h; subst h'; decide)
  · rcases h with h | h | h | h | h <;> (subst h; simp)
  · rcases h' with h' | h' | h' | h' | h' <;> (subst h'; simp)
  · simp

example : Working site (posted 250 ++ [.deed .ledgerMade [] []]) ∧ (∀ x ∈ deeds (posted 250 ++ [.deed .ledgerMade [] []]), x.1.Plain) := by
  refine ⟨⟨by decide, fun e he => ?_⟩, fun x hx => ?_⟩
  · simp [posted] at he
    rcases he with rfl | rfl | rfl
    · exact ⟨by simp, fun d data oks h b hb => by simp at h; rw [h.2.2] at hb; simp at hb⟩
    · exact ⟨by simp, fun d data oks h b hb => by simp at h⟩
    · exact ⟨by simp, fun d data oks h b hb => by simp at h; rw [h.2.2] at hb; simp at hb⟩
  · simp [posted, deeds] at hx
    rcases hx with rfl | rfl
    · simp [Deed.Plain]
    · trivial

/-! ### C101 -/

def gotOf (s : Sys) (k : Nat) : Nat := (s.got.filter fun d => d.task == k).length

/-- **C101** in full: what was queued and is over was received, unless every attempt failed. -/
def C101Full : Prop := ∀ env c es k t, (wsteps env { conf := c } es).tasks[k]? = some t → t.st = .done →
  1 ≤ gotOf (wsteps env { conf := c } es) k

/-- **C101** (violated) While no URL is configured, what is queued counts as delivered
(`webhooks.go:174-176`). -/
theorem c101_dropped_fails : ¬ C101Full := by
  intro h
  exact absurd (h demo site [.deed .ledgerMade [] [], .configure { url := "" }, .try 0 1 (.heard 200), .configure site] 0
    { event := "ledger.created", data := [], st := .done, tries := 1 } (by decide +kernel) rfl) (by decide +kernel)

/-- How attempts, deliveries and outcomes go together. -/
structure Counts (always : Bool) (s : Sys) : Prop where
  conf : always = true → s.conf.url ≠ ""
  got : ∀ d ∈ s.got, d.task < s.tasks.length
  tries : ∀ (k : Nat) (t : Task), s.tasks[k]? = some t → gotOf s k ≤ t.tries ∧ t.tries ≤ 26 ∧ (t.st = .waiting → t.tries ≤ 25) ∧
    (t.st = .dead → t.tries = 26) ∧ (always = true → t.st = .done → 1 ≤ gotOf s k)

theorem gotOf_new {s : Sys} (h : ∀ d ∈ s.got, d.task < s.tasks.length) (k : Nat) (hk : s.tasks.length ≤ k) : gotOf s k = 0 := by
  unfold gotOf
  rw [List.length_eq_zero_iff, List.filter_eq_nil_iff]
  intro d hd
  have := h d hd
  simp; omega

theorem over_counts (t : Task) (ok : Bool) (hw : t.tries ≤ 25) :
    (t.over ok).tries = t.tries + 1 ∧ ((t.over ok).st = .waiting → t.tries < 25) ∧ ((t.over ok).st = .dead → t.tries = 25) ∧
    ((t.over ok).st = .done → ok = true) := by
  have hm : maxRetry = 25 := rfl
  unfold Task.over
  refine ⟨rfl, ?_, ?_, ?_⟩ <;> dsimp only <;> cases ok <;> simp only [Bool.false_eq_true, if_false, if_true]
  · by_cases h : maxRetry ≤ t.tries
    · rw [if_pos h]; intro hh; simp at hh
    · omega
  · intro hh; simp at hh
  · by_cases h : maxRetry ≤ t.tries
    · omega
    · rw [if_neg h]; intro hh; simp at hh
  · intro hh; simp at hh
  · split <;> intro hh <;> simp at hh
  · exact fun _ => trivial

theorem counts_step {always env s} (a : Counts always s) (e : Ev) (he : always = true → ∀ c, e = .configure c → c.url ≠ "") :
    Counts always (wstep env s e) := by
  cases e with
  | deed d data oks =>
    obtain ⟨new, h1, h2, h3, h4⟩ := sendAll_tasks data (events d) oks s
    have hw : wstep env s (.deed d data oks) = sendAll s data (events d) oks := rfl
    refine ⟨fun h => by rw [hw, h3]; exact a.conf h, fun x hx => ?_, fun k t ht => ?_⟩
    · rw [hw, h2] at hx
      rw [hw, h1, List.length_append]
      have := a.got x hx; omega
    · rw [hw, h1] at ht
      have hg : gotOf (wstep env s (.deed d data oks)) k = gotOf s k := by unfold gotOf; rw [hw, h2]
      rw [hg]
      by_cases hk : k < s.tasks.length
      · rw [List.getElem?_append_left hk] at ht; exact a.tries k t ht
      · rw [List.getElem?_append_right (by omega)] at ht
        have := (h4 t (List.mem_of_getElem? ht)).2
        rw [this, gotOf_new a.got k (by omega)]
        exact ⟨Nat.zero_le _, by dsimp only; omega, fun _ => by dsimp only; omega, fun h => by simp at h, fun _ h => by simp at h⟩
  | «try» k now an =>
    simp only [wstep]
    cases ht : s.tasks[k]? with
    | none => exact a
    | some t =>
      dsimp only
      split
      · rename_i hw
        obtain ⟨t1, t2, t3, t4, t5⟩ := a.tries k t ht
        have h25 := t3 hw
        unfold attempt
        split
        · rename_i hu
          refine ⟨a.conf, fun x hx => by rw [List.length_set]; exact a.got x hx, fun j u hj => ?_⟩
          have hg : gotOf { s with tasks := s.tasks.set k (t.over true) } j = gotOf s j := rfl
          rw [hg]
          dsimp only at hj
          rw [getElem?_set' ht] at hj
          by_cases hk : k = j
          · rw [if_pos hk] at hj
            simp only [Option.some.injEq] at hj
            subst hj; subst hk
            obtain ⟨o1, o2, o3, o4⟩ := over_counts t true h25
            rw [o1]
            exact ⟨by omega, by omega, fun h => by have := o2 h; omega, fun h => by have := o3 h; omega,
              fun h => absurd hu (a.conf h)⟩
          · rw [if_neg hk] at hj; exact a.tries j u hj
        · refine ⟨a.conf, fun x hx => ?_, fun j u hj => ?_⟩
          · dsimp only at hx ⊢
            rw [List.length_set]
            split at hx
            · exact a.got x hx
            · rcases List.mem_append.1 hx with hx | hx
              · exact a.got x hx
              · rw [List.mem_singleton.1 hx]
                exact (List.getElem?_eq_some_iff.1 ht).1
          · dsimp only at hj
            rw [getElem?_set' ht] at hj
            obtain ⟨o1, o2, o3, o4⟩ := over_counts t (ok2xx an) h25
            by_cases hk : k = j
            · rw [if_pos hk] at hj
              simp only [Option.some.injEq] at hj
              subst hj; subst hk
              rw [o1]
              by_cases hun : an = .unsent
              · subst hun
                have hg : gotOf { s with tasks := s.tasks.set k (t.over (ok2xx .unsent)), got := if (Answer.unsent = Answer.unsent) then s.got else s.got ++ [{ task := k, url := s.conf.url, event := t.event, data := t.data.map fun f => (f.1, reread env f.2), body := env.text t.event (t.data.map fun f => (f.1, reread env f.2)), headers := headersOf env s.conf now (env.text t.event (t.data.map fun f => (f.1, reread env f.2))) }] } k = gotOf s k := rfl
                dsimp only
                rw [hg]
                exact ⟨by omega, by omega, fun h => by have := o2 h; omega, fun h => by have := o3 h; omega,
                  fun _ h => absurd (o4 h) (by decide)⟩
              · have hg : ∀ d : Delivery, d.task = k → gotOf { s with tasks := s.tasks.set k (t.over (ok2xx an)), got := if an = Answer.unsent then s.got else s.got ++ [d] } k = gotOf s k + 1 := by
                  intro d hd
                  unfold gotOf
                  dsimp only
                  rw [if_neg hun, List.filter_append, List.length_append]
                  simp [hd]
                dsimp only
                rw [hg _ rfl]
                exact ⟨by omega, by omega, fun h => by have := o2 h; omega, fun h => by have := o3 h; omega, fun _ _ => by omega⟩
            · rw [if_neg hk] at hj
              have hg : ∀ d : Delivery, d.task = k → gotOf { s with tasks := s.tasks.set k (t.over (ok2xx an)), got := if an = Answer.unsent then s.got else s.got ++ [d] } j = gotOf s j := by
                intro d hd
                unfold gotOf
                dsimp only
                split
                · rfl
                · rw [List.filter_append, List.length_append]
                  simp [hd, hk]
              dsimp only
              rw [hg _ rfl]
              exact a.tries j u hj
      · exact a
  | configure c => exact ⟨fun h => he h c rfl, a.got, a.tries⟩

theorem counts_steps {always env} : ∀ es s, Counts always s → (always = true → ∀ c, .configure c ∈ es → c.url ≠ "") →
    Counts always (wsteps env s es)
  | [], _, a, _ => a
  | e :: es, _, a, h =>
    counts_steps es _ (counts_step a e fun ha c ec => h ha c (by simp [ec])) fun ha c hc => h ha c (List.mem_cons_of_mem _ hc)

/-- **C101** (partial) Over all histories: the receiver is called for an announcement at most
twenty-six times; one that is given up was tried that often; and if there always is a URL, one
that counts as delivered was received. Missing from the full statement: times without a URL. -/
theorem c101_delivered_partial (env : Env) (c : Conf) (es : List Ev) (k : Nat) (t : Task)
    (ht : (wsteps env { conf := c } es).tasks[k]? = some t) :
    gotOf (wsteps env { conf := c } es) k ≤ t.tries ∧ t.tries ≤ 26 ∧ (t.st = .dead → t.tries = 26) ∧
    (c.url ≠ "" → (∀ c', .configure c' ∈ es → c'.url ≠ "") → t.st = .done → 1 ≤ gotOf (wsteps env { conf := c } es) k) := by
  have h0 : ∀ b, (b = true → c.url ≠ "") → Counts b { conf := c } :=
    fun b hb => ⟨hb, fun d hd => by simp at hd, fun k t ht => by simp at ht⟩
  obtain ⟨a1, a2, _, a3, _⟩ := (counts_steps (env := env) es _ (h0 false fun h => by simp at h) (fun h => by simp at h)).tries k t ht
  refine ⟨a1, a2, a3, fun hu he hd => ?_⟩
  exact ((counts_steps (env := env) es _ (h0 true fun _ => hu) (fun _ => he)).tries k t ht).2.2.2.2 rfl hd

example : (wsteps demo { conf := site } (.deed .ledgerMade [] [] :: List.replicate 40 (.try 0 1 (.heard 500)))).tasks.map (fun t => (t.st, t.tries)) =
    [(.dead, 26)] ∧ gotOf (wsteps demo { conf := site } (.deed .ledgerMade [] [] :: List.replicate 40 (.try 0 1 (.heard 500)))) 0 = 26 := by
  decide +kernel

/-- After a first part of a history a task is waiting, or the history has decided it. -/
theorem accepted_step {env s} (e : Ev) (hu : s.conf.url ≠ "") {k : Nat} {t : Task} (ht : (wstep env s e).tasks[k]? = some t)
    (hd : t.st = .done) :
    (∃ t', s.tasks[k]? = some t' ∧ t'.st = .done) ∨ ∃ now st, e = .try k now (.heard st) ∧ 200 ≤ st ∧ st < 300 := by
  cases e with
  | deed d data oks =>
    obtain ⟨new, h1, _, _, h4⟩ := sendAll_tasks data (events d) oks s
    have hw : wstep env s (.deed d data oks) = sendAll s data (events d) oks := rfl
    rw [hw, h1] at ht
    by_cases hk : k < s.tasks.length
    · rw [List.getElem?_append_left hk] at ht; exact .inl ⟨t, ht, hd⟩
    · rw [List.getElem?_append_right (by omega)] at ht
      have := (h4 t (List.mem_of_getElem? ht)).2
      rw [this] at hd; simp at hd
  | configure c => exact .inl ⟨t, ht, hd⟩
  | «try» j now an =>
    simp only [wstep] at ht
    cases hj : s.tasks[j]? with
    | none => rw [hj] at ht; exact .inl ⟨t, ht, hd⟩
    | some u =>
      rw [hj] at ht
      dsimp only at ht
      split at ht
      · unfold attempt at ht
        rw [if_neg hu] at ht
        dsimp only at ht
        rw [getElem?_set' hj] at ht
        by_cases hk : j = k
        · subst hk
          rw [if_pos rfl] at ht
          simp only [Option.some.injEq] at ht
          subst ht
          have hok : ok2xx an = true := by
            unfold Task.over at hd
            dsimp only at hd
            cases h2 : ok2xx an with
            | true => rfl
            | false => rw [h2] at hd; simp only [Bool.false_eq_true, if_false] at hd; split at hd <;> simp at hd
          cases an with
          | heard st => exact .inr ⟨now, st, rfl, by simpa [ok2xx] using hok⟩
          | _ => simp [ok2xx] at hok
        · rw [if_neg hk] at ht; exact .inl ⟨t, ht, hd⟩
      · exact .inl ⟨t, ht, hd⟩

theorem accepted_steps {env} : ∀ (es : List Ev) (s : Sys), s.conf.url ≠ "" → (∀ c, .configure c ∈ es → c.url ≠ "") →
    ∀ {k t}, (wsteps env s es).tasks[k]? = some t → t.st = .done →
    (∃ t', s.tasks[k]? = some t' ∧ t'.st = .done) ∨ ∃ now st, .try k now (.heard st) ∈ es ∧ 200 ≤ st ∧ st < 300
  | [], _, _, _, _, _, ht, hd => .inl ⟨_, ht, hd⟩
  | e :: es, s, hu, hc, k, t, ht, hd => by
    have hu' : (wstep env s e).conf.url ≠ "" := by
      cases e with
      | deed d data oks =>
        obtain ⟨_, _, _, h3, _⟩ := sendAll_tasks data (events d) oks s
        show (sendAll s data (events d) oks).conf.url ≠ ""
        rw [h3]; exact hu
      | configure c => exact hc c (by simp)
      | «try» j now an =>
        simp only [wstep]
        split
        · split
          · unfold attempt; rw [if_neg hu]; exact hu
          · exact hu
        · exact hu
    rcases accepted_steps es _ hu' (fun c h => hc c (List.mem_cons_of_mem _ h)) ht hd with ⟨t', h1, h2⟩ | ⟨now, st, h1, h2⟩
    · rcases accepted_step e hu h1 h2 with h | ⟨now, st, h3, h4⟩
      · exact .inl h
      · exact .inr ⟨now, st, by rw [h3]; simp, h4⟩
    · exact .inr ⟨now, st, List.mem_cons_of_mem _ h1, h2⟩

/-- **C101** (partial) If there always is a URL, an announcement counts as delivered only if the
receiver answered one of its attempts with a 2xx status. Missing from the full statement: times without a URL. -/
theorem c101_accepted_partial (env : Env) (c : Conf) (es : List Ev) (k : Nat) (t : Task) (hu : c.url ≠ "")
    (hc : ∀ c', .configure c' ∈ es → c'.url ≠ "") (ht : (wsteps env { conf := c } es).tasks[k]? = some t) (hd : t.st = .done) :
    ∃ now st, .try k now (.heard st) ∈ es ∧ 200 ≤ st ∧ st < 300 := by
  rcases accepted_steps es _ hu hc ht hd with ⟨t', h, _⟩ | h
  · simp at h
  · exact h

/-- **C101** (partial) While no URL is configured nothing is queued and nothing is sent. -/
theorem c101_off_partial (env : Env) (c : Conf) (es : List Ev) (hu : c.url = "") (hc : ∀ c', .configure c' ∈ es → c'.url = "") :
    (wsteps env { conf := c } es).tasks = [] ∧ (wsteps env { conf := c } es).got = [] := by
  have key : ∀ (es : List Ev) (s : Sys), s.conf.url = "" → s.tasks = [] → s.got = [] → (∀ c', .configure c' ∈ es → c'.url = "") →
      (wsteps env s es).tasks = [] ∧ (wsteps env s es).got = [] := by
    intro es
    induction es with
    | nil => intro s _ h1 h2 _; exact ⟨h1, h2⟩
    | cons e es ih =>
      intro s h0 h1 h2 h3
      have h3' : ∀ c', .configure c' ∈ es → c'.url = "" := fun c h => h3 c (List.mem_cons_of_mem _ h)
      cases e with
      | deed d data oks =>
        have : ∀ (evs : List String) (oks : List Bool), sendAll s data evs oks = s := by
          intro evs
          induction evs with
          | nil => intro oks; rfl
          | cons v vs ihv =>
            intro oks
            have hs : send s v data (oks.head?.getD true) = s := by unfold send; rw [if_pos (.inl h0)]
            show sendAll (send s v data (oks.head?.getD true)) data vs oks.tail = s
            rw [hs]; exact ihv _
        show (wsteps env (sendAll s data (events d) oks) es).tasks = [] ∧ _
        simp only [wsteps, wstep, this]
        exact ih s h0 h1 h2 h3'
      | configure c' => exact ih _ (h3 c' (by simp)) h1 h2 h3'
      | «try» j now an =>
        have : wstep env s (.try j now an) = s := by simp only [wstep, h1]; rfl
        simp only [wsteps, this]
        exact ih s h0 h1 h2 h3'
  exact key es _ hu rfl rfl hc

example : (wsteps demo { conf := site } [.deed .ledgerMade [] [], .try 0 1 (.heard 500), .try 0 2 (.heard 201)]).tasks.map (fun t => (t.st, t.tries)) =
    [(.done, 2)] := by decide +kernel

end Blnk.Web
