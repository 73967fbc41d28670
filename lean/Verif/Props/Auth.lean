import Verif.Model.Auth
/-
C44, C45, C47: who may do what with an API key. C63: what the check does to the request body.
-/
namespace Blnk.Auth

/-! ### Splitting -/

theorem splitOn_ne_nil (c : Char) : ∀ l, splitOn c l ≠ []
  | [] => by simp [splitOn]
  | x :: xs => by
    unfold splitOn
    split
    · simp
    · split <;> simp

theorem splitOn_plain {c : Char} : ∀ {l : List Char}, c ∉ l → splitOn c l = [l]
  | [], _ => rfl
  | x :: xs, h => by
    have hx : x ≠ c := fun e => h (e ▸ List.mem_cons_self ..)
    have := splitOn_plain (c := c) (l := xs) (fun hm => h (List.mem_cons_of_mem _ hm))
    unfold splitOn
    rw [if_neg hx, this]

theorem splitOn_sep {c : Char} : ∀ {a : List Char} (b : List Char), c ∉ a → splitOn c (a ++ c :: b) = a :: splitOn c b
  | [], b, _ => by simp [splitOn]
  | x :: xs, b, h => by
    have hx : x ≠ c := fun e => h (e ▸ List.mem_cons_self ..)
    have := splitOn_sep (c := c) (a := xs) b (fun hm => h (List.mem_cons_of_mem _ hm))
    rw [List.cons_append, splitOn, if_neg hx, this]

theorem splitOn_two {c : Char} : ∀ {l a b : List Char}, splitOn c l = [a, b] → l = a ++ c :: b ∧ c ∉ a ∧ c ∉ b
  | [], a, b, h => by simp [splitOn] at h
  | x :: xs, a, b, h => by
    unfold splitOn at h
    split at h
    · rename_i hx
      simp only [List.cons.injEq] at h
      obtain ⟨h1, h2⟩ := h
      have hb : ∀ {l b : List Char}, splitOn c l = [b] → l = b ∧ c ∉ b := by
        intro l
        induction l with
        | nil => intro b h; simp [splitOn] at h; subst h; simp
        | cons y ys ih =>
          intro b h
          unfold splitOn at h
          split at h
          · simp only [List.cons.injEq] at h; exact absurd h.2 (splitOn_ne_nil c ys)
          · rename_i hy
            split at h
            · exact absurd (by assumption) (splitOn_ne_nil c ys)
            · rename_i s ss hs
              simp only [List.cons.injEq] at h
              obtain ⟨h3, h4⟩ := h
              subst h4
              obtain ⟨h5, h6⟩ := ih hs
              subst h3
              rw [h5]
              refine ⟨rfl, fun hm => ?_⟩
              rcases List.mem_cons.1 hm with e | hm
              · exact hy e.symm
              · exact h6 hm
      obtain ⟨h3, h4⟩ := hb h2
      subst h1
      rw [hx, h3]
      exact ⟨rfl, by simp, h4⟩
    · rename_i hx
      split at h
      · exact absurd (by assumption) (splitOn_ne_nil c xs)
      · rename_i s ss hs
        simp only [List.cons.injEq] at h
        obtain ⟨h3, h4⟩ := h
        subst h4
        obtain ⟨h5, h6, h7⟩ := splitOn_two hs
        subst h3
        rw [h5]
        refine ⟨rfl, fun hm => ?_, h7⟩
        rcases List.mem_cons.1 hm with e | hm
        · exact hx e.symm
        · exact h6 hm

/-- A text that can be one half of a scope. -/
def Half (s : String) : Prop := ':' ∉ s.toList

theorem parseScope_join {r a : String} (hr : Half r) (ha : Half a) : parseScope (r ++ ":" ++ a) = (r, a) := by
  unfold parseScope
  have : (r ++ ":" ++ a).toList = r.toList ++ ':' :: a.toList := by
    rw [String.toList_append, String.toList_append]; simp
  rw [this, splitOn_sep _ hr, splitOn_plain ha]
  simp

theorem parseScope_some {scope r a : String} (h : parseScope scope = (r, a)) (hr : r ≠ "") :
    scope = r ++ ":" ++ a ∧ Half r ∧ Half a := by
  unfold parseScope at h
  split at h
  · rename_i x y hs
    obtain ⟨h1, h2, h3⟩ := splitOn_two hs
    injection h with e1 e2
    subst e1; subst e2
    refine ⟨String.toList_inj.1 ?_, ?_, ?_⟩
    · rw [h1, String.toList_append, String.toList_append]; simp
    · unfold Half; simpa using h2
    · unfold Half; simpa using h3
  · injection h with e1 e2
    exact absurd e1.symm hr

/-! ### C45: default deny -/

/-- What a scope text grants, in terms of the text alone. -/
def Grants (scope resource action : String) : Prop :=
  scope = resource ++ ":" ++ action ∨ scope = resource ++ ":*" ∨ scope = "*:" ++ action ∨ scope = "*:*"

/-- The resources there are. -/
def knownResources : List String :=
  ["ledgers", "balances", "accounts", "identities", "transactions", "balance-monitors", "hooks", "api-keys",
   "search", "reconciliation", "metadata", "backup"]

/-- What a first path segment stands for. -/
def Names (seg resource : String) : Prop :=
  (seg = resource ∧ resource ∈ knownResources) ∨ (seg = "mocked-account" ∧ resource = "accounts") ∨
  (seg = "multi-search" ∧ resource = "search") ∨ (seg = "refund-transaction" ∧ resource = "transactions")

/-- What a method does. -/
def Does (method action : String) : Prop :=
  (method ∈ ["GET", "HEAD"] ∧ action = "read") ∨ (method ∈ ["POST", "PUT", "PATCH"] ∧ action = "write") ∨
  (method = "DELETE" ∧ action = "delete")

theorem methodToAction_iff (m a : String) : (methodToAction m = a ∧ a ≠ "") ↔ Does m a := by
  unfold methodToAction Does
  constructor
  · rintro ⟨h, hne⟩
    split at h
    · subst h; left; simp_all
    · split at h
      · subst h; left; simp_all
      · split at h
        · subst h; right; left; simp_all
        · split at h
          · subst h; right; left; simp_all
          · split at h
            · subst h; right; left; simp_all
            · split at h
              · subst h; right; right; simp_all
              · exact absurd h.symm hne
  · rintro (⟨h, rfl⟩ | ⟨h, rfl⟩ | ⟨rfl, rfl⟩)
    · simp only [List.mem_cons, List.not_mem_nil, or_false] at h
      rcases h with rfl | rfl <;> decide
    · simp only [List.mem_cons, List.not_mem_nil, or_false] at h
      rcases h with rfl | rfl | rfl <;> decide
    · decide

theorem segmentResource_iff (seg res : String) : (segmentResource seg = res ∧ res ≠ "") ↔ Names seg res := by
  unfold segmentResource Names
  constructor
  · rintro ⟨h, hne⟩
    split at h
    · subst h; right; left; exact ⟨by assumption, rfl⟩
    · split at h
      · subst h; right; right; left; exact ⟨by assumption, rfl⟩
      · split at h
        · subst h; right; right; right; exact ⟨by assumption, rfl⟩
        · split at h
          · subst h; left; exact ⟨rfl, by assumption⟩
          · exact absurd h.symm hne
  · rintro (⟨rfl, h⟩ | ⟨rfl, rfl⟩ | ⟨rfl, rfl⟩ | ⟨rfl, rfl⟩)
    · simp only [knownResources, List.mem_cons, List.not_mem_nil, or_false] at h
      rcases h with h | h | h | h | h | h | h | h | h | h | h | h <;> (subst h; decide)
    · decide
    · decide
    · decide

theorem known_half {r : String} (h : r ∈ knownResources) : Half r ∧ r ≠ "" ∧ r ≠ "*" := by
  simp only [knownResources, List.mem_cons, List.not_mem_nil, or_false] at h
  rcases h with h | h | h | h | h | h | h | h | h | h | h | h <;> (subst h; unfold Half; decide +kernel)

theorem names_known {seg r : String} (h : Names seg r) : r ∈ knownResources := by
  rcases h with ⟨_, h⟩ | ⟨_, rfl⟩ | ⟨_, rfl⟩ | ⟨_, rfl⟩
  · exact h
  all_goals decide

theorem does_half {m a : String} (h : Does m a) : Half a ∧ a ≠ "" ∧ a ≠ "*" := by
  rcases h with ⟨_, rfl⟩ | ⟨_, rfl⟩ | ⟨_, rfl⟩ <;> (unfold Half; decide +kernel)

theorem scopeAllows_iff {resource action scope : String} (hr : Half resource) (hr0 : resource ≠ "") (ha : Half action) :
    scopeAllows resource action scope = true ↔ Grants scope resource action := by
  have star : Half "*" := by unfold Half; decide +kernel
  unfold Grants
  constructor
  · intro h
    unfold scopeAllows at h
    cases hp : parseScope scope with
    | mk p q =>
      rw [hp] at h
      simp only at h
      split at h
      · rename_i hs
        subst hs
        obtain ⟨e, _, _⟩ := parseScope_some hp (by decide)
        simp only [Bool.or_eq_true, decide_eq_true_eq] at h
        rcases h with rfl | rfl
        · right; right; right; rw [e]; decide
        · right; right; left; rw [e]; rfl
      · simp only [Bool.and_eq_true, Bool.or_eq_true, decide_eq_true_eq] at h
        obtain ⟨rfl, h⟩ := h
        obtain ⟨e, _, _⟩ := parseScope_some hp hr0
        rcases h with rfl | rfl
        · right; left; rw [e, String.append_assoc]; rfl
        · left; exact e
  · intro h
    unfold scopeAllows
    rcases h with rfl | rfl | rfl | rfl
    · rw [parseScope_join hr ha]; simp
    · have : resource ++ ":*" = resource ++ ":" ++ "*" := by rw [String.append_assoc]; rfl
      rw [this, parseScope_join hr star]; simp
    · have : "*:" ++ action = "*" ++ ":" ++ action := rfl
      rw [this, parseScope_join star ha]; simp
    · have : ("*:*" : String) = "*" ++ ":" ++ "*" := by decide
      rw [this, parseScope_join star star]; simp

theorem hasPermission_iff {scopes : List String} {resource method : String} (hr : resource ∈ knownResources) :
    hasPermission scopes resource method = true ↔ ∃ action, Does method action ∧ ∃ s ∈ scopes, Grants s resource action := by
  obtain ⟨h1, h2, _⟩ := known_half hr
  unfold hasPermission
  constructor
  · intro h
    simp only at h
    split at h
    · cases h
    · rename_i hne
      have hd := (methodToAction_iff method _).1 ⟨rfl, hne⟩
      obtain ⟨s, hs, hg⟩ := List.any_eq_true.1 h
      exact ⟨_, hd, s, hs, (scopeAllows_iff h1 h2 (does_half hd).1).1 hg⟩
  · rintro ⟨a, hd, s, hs, hg⟩
    obtain ⟨e, hne⟩ := (methodToAction_iff method a).2 hd
    simp only
    rw [e, if_neg hne, List.any_eq_true]
    exact ⟨s, hs, (scopeAllows_iff h1 h2 (does_half hd).1).2 hg⟩

/-- When a request may pass, said without the code. -/
inductive May (cfg : Cfg) (lookup : String → Option Key) (now : Nat) (r : Req) : Prop
  | path : r.path ∈ ["/", "/health", "/metrics"] → May cfg lookup now r
  | open_ : cfg.secure = false → May cfg lookup now r
  | master : r.key ≠ "" → cfg.secretKey = r.key → May cfg lookup now r
  | key (k : Key) (resource action scope : String) : r.key ≠ "" → lookup r.key = some k → k.revoked = false →
      now < k.expiresAt → Names (firstSegment r.path) resource → Does r.method action → scope ∈ k.scopes →
      Grants scope resource action → May cfg lookup now r

/-- **C45** A request passes exactly when it is on a public path, secure mode is off, it
carries the master key, or it carries a known, unexpired, unrevoked key one of whose scopes is
literally `resource:action`, `resource:*`, `*:action` or `*:*` for the resource its first path
segment names and the action its method does. -/
theorem c45_default_deny (cfg : Cfg) (lookup : String → Option Key) (now : Nat) (r : Req) :
    (authenticate (some cfg) lookup now r).allowed = true ↔ May cfg lookup now r := by
  constructor
  · intro h
    unfold authenticate at h
    split at h
    · rename_i hp
      refine .path ?_
      simp only [Bool.or_eq_true, decide_eq_true_eq] at hp
      simp only [List.mem_cons, List.not_mem_nil, or_false]
      rcases hp with (hp | hp) | hp <;> simp [hp]
    · split at h
      · rename_i hs
        refine .open_ ?_
        simpa using hs
      · split at h
        · cases h
        · rename_i hk
          split at h
          · rename_i hm
            simp only [Option.any_some, Bool.and_eq_true, decide_eq_true_eq] at hm
            exact .master hk hm.2
          · split at h
            · cases h
            · rename_i k hl
              split at h
              · cases h
              · rename_i hv
                split at h
                · cases h
                · rename_i hres
                  split at h
                  · cases h
                  · rename_i hperm
                    have hn := (segmentResource_iff (firstSegment r.path) _).1 ⟨rfl, hres⟩
                    have hperm' : hasPermission k.scopes (getResourceFromPath r.path) r.method = true := by simpa using hperm
                    obtain ⟨a, hd, s, hs, hg⟩ := (hasPermission_iff (names_known hn)).1 hperm'
                    have hv' : k.isValid now = true := by simpa using hv
                    simp only [Key.isValid, Bool.and_eq_true, Bool.not_eq_true', decide_eq_true_eq] at hv'
                    exact .key k _ a s hk hl hv'.1 hv'.2 hn hd hs hg
  · intro h
    unfold authenticate
    split
    · rfl
    · rename_i hp
      split
      · rfl
      · rename_i hs
        split
        · rename_i hk
          exfalso
          cases h with
          | path h => simp at hp h; rcases h with h | h | h <;> simp [h] at hp
          | open_ h => simp [h] at hs
          | master h _ => exact h hk
          | key k res a s h _ _ _ _ _ _ _ => exact h hk
        · split
          · rfl
          · rename_i hk hm
            cases h with
            | path h => simp at hp h; rcases h with h | h | h <;> simp [h] at hp
            | open_ h => simp [h] at hs
            | master h e => simp [e, h] at hm
            | key k res a s _ hl h1 h2 hn hd hsc hg =>
              rw [hl]
              have hv : k.isValid now = true := by simp [Key.isValid, h1, h2]
              obtain ⟨e, hne⟩ := (segmentResource_iff _ _).2 hn
              have e' : getResourceFromPath r.path = res := e
              have := (hasPermission_iff (names_known hn)).2 ⟨a, hd, s, hsc, hg⟩
              simp [hv, e', hne, this, Decision.allowed]

/-- **C45** Without a readable configuration nothing but a public path or a good key passes. -/
theorem c45_no_configuration (lookup : String → Option Key) (now : Nat) (r : Req)
    (h : (authenticate none lookup now r).allowed = true) :
    r.path ∈ ["/", "/health", "/metrics"] ∨ ∃ k, lookup r.key = some k ∧ k.isValid now = true ∧
      hasPermission k.scopes (getResourceFromPath r.path) r.method = true := by
  unfold authenticate at h
  split at h
  · rename_i hp
    left
    simp only [Bool.or_eq_true, decide_eq_true_eq] at hp
    simp only [List.mem_cons, List.not_mem_nil, or_false]
    rcases hp with (hp | hp) | hp <;> simp [hp]
  · right
    simp only [Option.any_none, Bool.false_eq_true, if_false] at h
    split at h
    · cases h
    · split at h
      · cases h
      · rename_i k hl
        split at h
        · cases h
        · rename_i hv
          split at h
          · cases h
          · split at h
            · cases h
            · rename_i hp
              exact ⟨k, hl, by simpa using hv, by simpa using hp⟩

/-- A key that may read balances and nothing else. -/
def exKey : Key := { id := "k1", secret := "s1", owner := "o1", scopes := ["balances:read"], expiresAt := 10 }
def exCfg : Cfg := ⟨true, "master"⟩
def exLookup (s : String) : Option Key := if s = "s1" then some exKey else none

example : authenticate (some exCfg) exLookup 5 ⟨"/balances/b1", "GET", "s1"⟩ = .apiKey exKey ∧
    authenticate (some exCfg) exLookup 5 ⟨"/balances", "POST", "s1"⟩ = .insufficient ∧
    authenticate (some exCfg) exLookup 5 ⟨"/backup-s3", "GET", "s1"⟩ = .unknownResource ∧
    authenticate (some exCfg) exLookup 5 ⟨"/balances", "TRACE", "s1"⟩ = .insufficient ∧
    authenticate (some exCfg) exLookup 10 ⟨"/balances", "GET", "s1"⟩ = .expiredKey ∧
    authenticate (some exCfg) exLookup 5 ⟨"/balances", "GET", "s2"⟩ = .invalidKey ∧
    authenticate (some exCfg) exLookup 5 ⟨"/backup-s3", "GET", "master"⟩ = .master := by decide +kernel

/-! ### C44: no escalation -/

theorem covers_allows {g r resource action : String} (hc : scopeCovers g r = true)
    (h : scopeAllows resource action r = true) : scopeAllows resource action g = true := by
  unfold scopeCovers at hc
  unfold scopeAllows at h ⊢
  generalize parseScope g = G at *
  generalize parseScope r = R at *
  obtain ⟨g1, g2⟩ := G
  obtain ⟨r1, r2⟩ := R
  simp only at hc h ⊢
  split at hc
  · cases hc
  · split at hc
    · rename_i hg
      rw [if_pos hg]
      split at h <;> simp_all
      · rcases hc with rfl | rfl <;> simp_all
      · rcases hc with rfl | rfl <;> simp_all
    · rename_i hg
      split at hc
      · cases hc
      · rename_i he
        rw [Decidable.not_not] at he
        subst he
        rw [if_neg hg] at h ⊢
        simp only [Bool.and_eq_true, Bool.or_eq_true, decide_eq_true_eq] at h hc ⊢
        refine ⟨h.1, ?_⟩
        rcases hc with hc | hc
        · exact .inl hc
        · rw [hc]; exact h.2

/-- **C44** Scopes that may be granted grant nothing their grantor lacks. -/
theorem c44_grant_sound {caller requested : List String} (h : canGrantScopes caller requested = true)
    {resource method : String} (hp : hasPermission requested resource method = true) :
    hasPermission caller resource method = true := by
  unfold hasPermission at hp ⊢
  simp only at hp ⊢
  split at hp
  · cases hp
  · rename_i ha
    rw [if_neg ha]
    obtain ⟨s, hs, hg⟩ := List.any_eq_true.1 hp
    obtain ⟨g, hgm, hc⟩ := List.any_eq_true.1 (List.all_eq_true.1 h s hs)
    exact List.any_eq_true.2 ⟨g, hgm, covers_allows hc hg⟩

/-- `k` was made by `c`, directly or through other keys. -/
inductive Descends (s : Store) : Key → Key → Prop
  | step {k c : Key} : k ∈ s → c ∈ s → k.creator = some c.id → Descends s k c
  | trans {k c d : Key} : Descends s k c → Descends s c d → Descends s k d

/-- What holds of every store: ids are unique, and a key made by a key has its owner and
scopes it could grant. -/
def Good (s : Store) : Prop :=
  (s.map Key.id).Nodup ∧ ∀ k ∈ s, ∀ i, k.creator = some i →
    ∃ c ∈ s, c.id = i ∧ c.owner = k.owner ∧ canGrantScopes c.scopes k.scopes = true

theorem authenticate_key_mem {cfg : Cfg} {s : Store} {now : Nat} {m key : String} {k : Key}
    (h : callerOf cfg s now m key = .key k) : k ∈ s ∧ k.secret = key ∧ k.isValid now = true ∧
      hasPermission k.scopes "api-keys" m = true := by
  have hres : getResourceFromPath "/api-keys" = "api-keys" := by decide +kernel
  unfold callerOf at h
  have h' : authenticate (some cfg) (find s) now { path := "/api-keys", method := m, key } = .apiKey k := by
    generalize authenticate (some cfg) (find s) now { path := "/api-keys", method := m, key } = d at h
    cases d <;> simp_all [Decision.caller]
  unfold authenticate at h'
  split at h'
  · cases h'
  · split at h'
    · cases h'
    · split at h'
      · cases h'
      · split at h'
        · cases h'
        · split at h'
          · cases h'
          · rename_i k' hl
            simp only at hl
            split at h'
            · cases h'
            · rename_i hv
              split at h'
              · cases h'
              · split at h'
                · cases h'
                · rename_i hp
                  injection h' with e
                  subst e
                  unfold find at hl
                  refine ⟨List.mem_of_find?_eq_some hl, ?_, by simpa using hv, ?_⟩
                  · have := List.find?_some hl; simpa using this
                  · simp only [hres] at hp; simpa using hp

theorem good_step {cfg : Cfg} {s : Store} (h : Good s) (e : Ev) : Good (step cfg s e) := by
  obtain ⟨hn, hg⟩ := h
  cases e with
  | revoke now key id owner =>
    unfold step revokeKey
    simp only
    split
    · exact ⟨hn, hg⟩
    · rename_i o ho
      have hid : ∀ f : Key → Key, (∀ k, (f k).id = k.id ∧ (f k).owner = k.owner ∧ (f k).scopes = k.scopes ∧ (f k).creator = k.creator) →
          Good (s.map f) := by
        intro f hf
        refine ⟨?_, ?_⟩
        · rw [List.map_map]
          have : (Key.id ∘ f) = Key.id := funext fun k => (hf k).1
          rw [this]; exact hn
        · intro k hk i hcr
          obtain ⟨k0, hk0, rfl⟩ := List.mem_map.1 hk
          rw [(hf k0).2.2.2] at hcr
          obtain ⟨c, hc, h1, h2, h3⟩ := hg k0 hk0 i hcr
          refine ⟨f c, List.mem_map_of_mem hc, ?_⟩
          rw [(hf k0).2.1, (hf c).2.1, (hf k0).2.2.1, (hf c).2.2.1, (hf c).1]
          exact ⟨h1, h2, h3⟩
      apply hid
      intro k
      split <;> simp
  | create now key q id secret =>
    unfold step createKey
    simp only
    split
    · exact ⟨hn, hg⟩
    · rename_i owner ho
      split
      · exact ⟨hn, hg⟩
      · rename_i hgr
        split
        · exact ⟨hn, hg⟩
        · rename_i hfresh
          rw [Bool.not_eq_true, List.any_eq_false] at hfresh
          have hnew : ∀ k ∈ s, k.id ≠ id := by
            intro k hk e
            exact hfresh k hk (by simp [e])
          refine ⟨?_, ?_⟩
          · rw [List.map_append, List.nodup_append]
            refine ⟨hn, by simp, ?_⟩
            intro a ha b hb e
            simp only [List.map_cons, List.map_nil, List.mem_singleton] at hb
            obtain ⟨k, hk, hka⟩ := List.mem_map.1 ha
            exact hnew k hk (by rw [hka, e, hb])
          · intro k hk i hcr
            rw [List.mem_append, List.mem_singleton] at hk
            rcases hk with hk | rfl
            · obtain ⟨c, hc, h1⟩ := hg k hk i hcr
              exact ⟨c, List.mem_append_left _ hc, h1⟩
            · cases hcal : callerOf cfg s now "POST" key with
              | master => rw [hcal] at hcr; cases hcr
              | nobody => rw [hcal] at hcr; cases hcr
              | key k0 =>
                rw [hcal] at hcr ho hgr
                obtain ⟨hm, _⟩ := authenticate_key_mem hcal
                injection hcr with hcr
                refine ⟨k0, List.mem_append_left _ hm, hcr, ?_, ?_⟩
                · simp only [resolveOwner] at ho
                  split at ho
                  · cases ho
                  · injection ho
                · simpa [grantOk] using hgr

theorem good_run {cfg : Cfg} : ∀ (es : List Ev) {s : Store}, Good s → Good (run cfg s es)
  | [], _, h => h
  | e :: es, _, h => good_run es (good_step h e)

theorem same_id : ∀ {s : Store}, (s.map Key.id).Nodup → ∀ {a b}, a ∈ s → b ∈ s → a.id = b.id → a = b
  | [], _, _, _, ha, _, _ => by simp at ha
  | x :: l, hn, a, b, ha, hb, he => by
    rw [List.map_cons, List.nodup_cons] at hn
    rcases List.mem_cons.1 ha with ea | ha' <;> rcases List.mem_cons.1 hb with eb | hb'
    · rw [ea, eb]
    · exact absurd (ea ▸ he ▸ List.mem_map_of_mem hb') hn.1
    · exact absurd (eb ▸ he ▸ List.mem_map_of_mem ha') hn.1
    · exact same_id hn.2 ha' hb' he

theorem descends_perm {s : Store} (h : Good s) {k c : Key} (hd : Descends s k c) (resource method : String)
    (hp : hasPermission k.scopes resource method = true) : hasPermission c.scopes resource method = true := by
  induction hd with
  | step hk hc hcr =>
    obtain ⟨c', hc', h1, _, h3⟩ := h.2 _ hk _ hcr
    have := same_id h.1 hc' hc h1
    subst this
    exact c44_grant_sound h3 hp
  | trans _ _ ih1 ih2 => exact ih2 (ih1 hp)

/-- The check on a request to any path, with the keys of a store. -/
def passes (cfg : Cfg) (s : Store) (now : Nat) (path method key : String) : Bool :=
  (authenticate (some cfg) (find s) now { path, method, key }).allowed

/-- **C44 in full.** Whenever a key's request passes, the same request with any key it
descends from would pass. -/
def C44Full : Prop :=
  ∀ (cfg : Cfg) (es : List Ev) (k c : Key) (now : Nat) (path method : String), cfg.secure = true →
    Descends (run cfg [] es) k c → passes cfg (run cfg [] es) now path method k.secret = true →
    passes cfg (run cfg [] es) now path method c.secret = true

/-- **C44, partial.** After any history of creations and revocations, by the master key and by
keys, a key has no permission that some key it descends from lacks. Missing: a key can outlive
its creator (`c44_outlives_fails`). -/
theorem c44_no_new_permission_partial (cfg : Cfg) (es : List Ev) {k c : Key} (hd : Descends (run cfg [] es) k c)
    (resource method : String) (hp : hasPermission k.scopes resource method = true) :
    hasPermission c.scopes resource method = true :=
  descends_perm (good_run es (s := []) ⟨List.nodup_nil, by simp⟩) hd resource method hp

/-- **C44, partial.** At the level of requests: as long as the ancestor is itself neither
expired nor revoked, whatever a descendant's request is allowed to do, the ancestor's is. -/
theorem c44_requests_partial (cfg : Cfg) (es : List Ev) {k c : Key} (hd : Descends (run cfg [] es) k c)
    (hsec : cfg.secure = true) (now : Nat) (path method : String) (hkm : k.secret ≠ cfg.secretKey)
    (hfk : find (run cfg [] es) k.secret = some k) (hfc : find (run cfg [] es) c.secret = some c) (hc0 : c.secret ≠ "")
    (hv : c.revoked = false ∧ now < c.expiresAt)
    (hp : passes cfg (run cfg [] es) now path method k.secret = true) :
    passes cfg (run cfg [] es) now path method c.secret = true := by
  unfold passes at hp ⊢
  rw [c45_default_deny] at hp ⊢
  cases hp with
  | path h => exact .path h
  | open_ h => rw [hsec] at h; cases h
  | master _ h => exact absurd h.symm hkm
  | key k' res a sc h1 h2 h3 h4 h5 h6 h7 h8 =>
    simp only at h2 h5 h6
    rw [hfk] at h2
    injection h2 with h2
    subst h2
    have hk := (hasPermission_iff (method := method) (names_known h5)).2 ⟨a, h6, sc, h7, h8⟩
    obtain ⟨a', h6', sc', h7', h8'⟩ := (hasPermission_iff (names_known h5)).1 (c44_no_new_permission_partial cfg es hd res method hk)
    exact .key c res a' sc' hc0 hfc hv.1 hv.2 h5 h6' h7' h8'

/-- A key that may manage keys and read balances makes one that expires later, which makes
another. -/
def exEvs : List Ev :=
  [.create 0 "master" ⟨"o1", ["api-keys:write", "balances:*"], 10⟩ "k1" "s1",
   .create 1 "s1" ⟨"o1", ["balances:read", "api-keys:write"], 1000⟩ "k2" "s2",
   .create 2 "s2" ⟨"o1", ["balances:read"], 2000⟩ "k3" "s3",
   .create 2 "s2" ⟨"o1", ["balances:write"], 2000⟩ "k4" "s4",
   .create 2 "s2" ⟨"o2", ["balances:read"], 2000⟩ "k5" "s5"]

theorem exEvs_run : run exCfg [] exEvs =
    [{ id := "k1", secret := "s1", owner := "o1", scopes := ["api-keys:write", "balances:*"], expiresAt := 10 },
     { id := "k2", secret := "s2", owner := "o1", scopes := ["balances:read", "api-keys:write"], expiresAt := 1000, creator := some "k1" },
     { id := "k3", secret := "s3", owner := "o1", scopes := ["balances:read"], expiresAt := 2000, creator := some "k2" }] := by
  decide +kernel

theorem exEvs_descends : Descends (run exCfg [] exEvs)
    { id := "k3", secret := "s3", owner := "o1", scopes := ["balances:read"], expiresAt := 2000, creator := some "k2" }
    { id := "k1", secret := "s1", owner := "o1", scopes := ["api-keys:write", "balances:*"], expiresAt := 10 } := by
  rw [exEvs_run]
  exact .trans (c := { id := "k2", secret := "s2", owner := "o1", scopes := ["balances:read", "api-keys:write"], expiresAt := 1000, creator := some "k1" })
    (.step (by decide) (by decide) rfl) (.step (by decide) (by decide) rfl)

example : passes exCfg (run exCfg [] exEvs) 5 "/balances" "GET" "s3" = true ∧
    passes exCfg (run exCfg [] exEvs) 5 "/balances" "GET" "s1" = true ∧
    passes exCfg (run exCfg [] exEvs) 5 "/balances" "POST" "s3" = false := by decide +kernel

/-- **C44** (violated) A key's expiry is not bounded by its creator's and revocation does not
reach the keys a key made: at time 500 the grandchild reads balances, its maker no longer. -/
theorem c44_outlives_fails : ¬ C44Full := by
  intro h
  exact absurd (h exCfg exEvs _ _ 500 "/balances" "GET" rfl exEvs_descends (by decide +kernel)) (by decide +kernel)

/-- **C44** (violated) The same after the maker is revoked. -/
theorem c44_survives_revocation : ∃ (es : List Ev),
    passes exCfg (run exCfg [] es) 5 "/balances" "GET" "s1" = false ∧
    passes exCfg (run exCfg [] es) 5 "/balances" "GET" "s3" = true ∧
    (run exCfg [] es).any (fun k => k.id == "k3" && k.creator == some "k2") = true :=
  ⟨exEvs ++ [.revoke 3 "master" "k1" "o1"], by decide +kernel⟩

/-! ### C47: owners -/

/-- **C47** A key made through a key belongs to the caller's owner; asking for another owner
changes nothing. -/
theorem c47_create (s : Store) (caller : Key) (q : CreateReq) (id secret : String) :
    (createKey s (.key caller) q id secret = s) ∨
    (∃ k, createKey s (.key caller) q id secret = s ++ [k] ∧ k.owner = caller.owner ∧ (q.owner = "" ∨ q.owner = caller.owner)) := by
  unfold createKey resolveOwner
  simp only
  split
  · exact .inl rfl
  · rename_i owner ho
    split at ho
    · cases ho
    · rename_i hn
      injection ho with ho
      split
      · exact .inl rfl
      · split
        · exact .inl rfl
        · refine .inr ⟨_, rfl, ho.symm, ?_⟩
          simp only [Bool.and_eq_true, decide_eq_true_eq, not_and, Decidable.not_not] at hn
          by_cases h : q.owner = ""
          · exact .inl h
          · exact .inr (hn h)

/-- **C47** Listing through a key returns exactly the caller's owner's keys, or refuses. -/
theorem c47_list (s : Store) (caller : Key) (owner : String) :
    (listKeys s (.key caller) owner = none ∧ owner ≠ "" ∧ owner ≠ caller.owner) ∨
    (listKeys s (.key caller) owner = some (s.filter (fun k => k.owner == caller.owner)) ∧ (owner = "" ∨ owner = caller.owner)) := by
  unfold listKeys resolveOwner
  by_cases h : owner = ""
  · right; simp [h]
  · by_cases h2 : owner = caller.owner
    · right; simp [h2]
    · left; simp [h, h2]

/-- **C47** Revoking through a key touches only keys of the caller's owner, and only their
revoked mark. -/
theorem c47_revoke (s : Store) (caller : Key) (id owner : String) :
    revokeKey s (.key caller) id owner = s ∨
    revokeKey s (.key caller) id owner =
      s.map (fun k => if k.id = id ∧ k.owner = caller.owner then { k with revoked := true } else k) := by
  unfold revokeKey resolveOwner
  simp only
  by_cases h : owner ≠ "" && owner ≠ caller.owner
  · left; rw [if_pos h]
  · right; rw [if_neg h]

/-- Which keys of an owner there are. -/
def ownedBy (s : Store) (o : String) : List Key := s.filter (fun k => k.owner == o)

/-- The key and the time of a request. -/
def Ev.key : Ev → String
  | .create _ key _ _ _ => key
  | .revoke _ key _ _ => key
def Ev.now : Ev → Nat
  | .create now _ _ _ _ => now
  | .revoke now _ _ _ => now

theorem callerOf_master {cfg : Cfg} {s : Store} {now : Nat} {m key : String} (h : callerOf cfg s now m key = .master) :
    key = cfg.secretKey := by
  unfold callerOf authenticate at h
  split at h
  · cases h
  · split at h
    · cases h
    · split at h
      · cases h
      · split at h
        · rename_i hm
          simp at hm
          exact hm.2.symm
        · split at h
          · cases h
          · split at h
            · cases h
            · split at h
              · cases h
              · split at h <;> cases h

/-- **C47** Over one request: if the keys of an owner change in any way, the request carried
the master key or a valid key of that owner. -/
theorem c47_confined (cfg : Cfg) (s : Store) (e : Ev) (o : String) (h : ownedBy (step cfg s e) o ≠ ownedBy s o) :
    e.key = cfg.secretKey ∨ ∃ k ∈ s, k.secret = e.key ∧ k.isValid e.now = true ∧ k.owner = o := by
  cases e with
  | create now key q id secret =>
    cases hc : callerOf cfg s now "POST" key with
    | master => exact .inl (callerOf_master hc)
    | nobody => simp [step, hc, createKey, resolveOwner] at h
    | key k =>
      right
      obtain ⟨h1, h2, h3, _⟩ := authenticate_key_mem hc
      refine ⟨k, h1, h2, h3, ?_⟩
      rcases c47_create s k q id secret with e | ⟨k', e, ho, _⟩
      · simp [step, hc, e] at h
      · rw [step, hc, e] at h
        apply Decidable.byContradiction
        intro hne
        apply h
        have : (k'.owner == o) = false := by simp [ho, hne]
        simp [ownedBy, this]
  | revoke now key id owner =>
    cases hc : callerOf cfg s now "DELETE" key with
    | master => exact .inl (callerOf_master hc)
    | nobody => simp [step, hc, revokeKey, resolveOwner] at h
    | key k =>
      right
      obtain ⟨h1, h2, h3, _⟩ := authenticate_key_mem hc
      refine ⟨k, h1, h2, h3, ?_⟩
      rcases c47_revoke s k id owner with e | e
      · simp [step, hc, e] at h
      · rw [step, hc, e] at h
        apply Decidable.byContradiction
        intro hne
        apply h
        unfold ownedBy
        clear h e hc h1 h2 h3
        induction s with
        | nil => rfl
        | cons x xs ih =>
          rw [List.map_cons]
          by_cases hx : x.id = id ∧ x.owner = k.owner
          · have : (x.owner == o) = false := by simp [hx.2, hne]
            simp only [hx, and_self, if_true]
            rw [List.filter_cons_of_neg (by simp [hne]), List.filter_cons_of_neg (by simp [this]), ih]
          · rw [if_neg hx]
            by_cases ho : x.owner == o
            · rw [List.filter_cons_of_pos (p := fun k : Key => k.owner == o) ho,
                List.filter_cons_of_pos (p := fun k : Key => k.owner == o) ho, ih]
            · rw [List.filter_cons_of_neg (p := fun k : Key => k.owner == o) ho,
                List.filter_cons_of_neg (p := fun k : Key => k.owner == o) ho, ih]

example : ownedBy (step exCfg (run exCfg [] exEvs) (.revoke 3 "s1" "k3" "o1")) "o1" = ownedBy (run exCfg [] exEvs) "o1" ∧
    ownedBy (step exCfg (run exCfg [] exEvs) (.create 3 "s1" ⟨"o1", ["balances:read"], 9⟩ "k9" "s9")) "o1" ≠ ownedBy (run exCfg [] exEvs) "o1" ∧
    step exCfg (run exCfg [] exEvs) (.create 3 "s1" ⟨"o2", ["balances:read"], 9⟩ "k9" "s9") = run exCfg [] exEvs := by decide +kernel

/-! ### C63: the request body -/

/-- **C63 in full.** A whole-number field of a body sent with an API key reaches the handler
unchanged. -/
def C63Full (enc : Nat → Nat) : Prop := ∀ n, throughInject enc n = n

/-- **C63** (violated) However floats are printed: the first whole number after `2^53` and its
predecessor become the same number, so one of them is altered. -/
theorem c63_full_fails (enc : Nat → Nat) : ¬ C63Full enc := by
  intro h
  have e : toFloat 9007199254740993 = toFloat 9007199254740992 := by decide +kernel
  have h1 := h 9007199254740993
  have h2 := h 9007199254740992
  unfold throughInject at h1 h2
  rw [e, h2] at h1
  exact absurd h1 (by decide)

/-- **C63** (violated) An amount of 1.000000000000000001 coins with 18 decimals is altered even
by an encoder that prints floats exactly: a precise amount of 10^18 + 1 arrives as 10^18. -/
theorem c63_wei_fails : throughInject id (10 ^ 18 + 1) = 10 ^ 18 := by decide +kernel

/-- **C63, partial.** Whole numbers below `2^53` reach the handler unchanged, if the encoder
prints such floats exactly (Go's does). Missing: everything above. -/
theorem c63_small_partial {enc : Nat → Nat} (henc : ∀ n < 2 ^ 53, enc n = n) {n : Nat} (h : n < 2 ^ 53) :
    throughInject enc n = n := by
  unfold throughInject toFloat
  rw [if_pos h]
  exact henc n h

example : throughInject id 123456789 = 123456789 := c63_small_partial (fun _ _ => rfl) (by decide)

end Blnk.Auth
