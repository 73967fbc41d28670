import Verif.Model.Routes
import Verif.Props.Auth
/-
C214: which records a key can see and change.
-/
namespace Blnk.Routes
open Blnk.Auth (Grants Does firstSegment segmentResource methodToAction hasPermission authenticate knownResources)

/-! ### Specification -/

/-- The resource that records of a kind belong to. -/
def home : Kind → String
  | .ledger => "ledgers"
  | .balance | .snapshot => "balances"
  | .account => "accounts"
  | .identity | .clear => "identities"
  | .transaction => "transactions"
  | .monitor => "balance-monitors"
  | .recon => "reconciliation"
  | .rebuild => "search"
  | .backup => "backup"
  | .apiKey => "api-keys"
  | .hook => "hooks"

/-- The key has a scope for the action on the resource. -/
def Has (key : Auth.Key) (d : String × String) : Prop := ∃ scope ∈ key.scopes, Grants scope d.1 d.2

/-- C214: records are shown only to keys that may read records of their kind, and changed only with keys that
may write or delete them. -/
def C214Full : Prop := ∀ (cfg : Option Auth.Cfg) (lookup : String → Option Auth.Key) (now : Nat) (q : Auth.Req) (key : Auth.Key) (r : Route),
  Reaches cfg lookup now q key r →
  (∀ k ∈ (effects r q.path).1, Has key (home k, "read")) ∧
  (∀ k ∈ (effects r q.path).2, Has key (home k, "write") ∨ Has key (home k, "delete"))

/-- The scopes that let a key see records of a kind. -/
def seenWith : Kind → List (String × String)
  | .ledger => [("ledgers", "read"), ("ledgers", "write"), ("balances", "read"), ("accounts", "read"), ("search", "write")]
  | .balance => [("balances", "read"), ("balances", "write"), ("transactions", "write"), ("accounts", "read"), ("accounts", "write"),
      ("search", "write")]
  | .account => [("accounts", "read"), ("accounts", "write")]
  | .identity => [("identities", "read"), ("identities", "write"), ("balances", "read"), ("accounts", "read"), ("accounts", "write"),
      ("search", "write")]
  | .clear => [("identities", "read"), ("identities", "write")]
  | .transaction => [("transactions", "read"), ("transactions", "write"), ("search", "write")]
  | .monitor => [("balance-monitors", "read")]
  | .recon => [("reconciliation", "read"), ("reconciliation", "write"), ("search", "write")]
  | .rebuild => [("search", "read")]
  | .apiKey => [("api-keys", "read")]
  | .backup | .hook | .snapshot => []

/-- The scopes that let a key change records of a kind. -/
def changedWith : Kind → List (String × String)
  | .ledger => [("ledgers", "write")]
  | .balance => [("balances", "write"), ("transactions", "write")]
  | .account => [("accounts", "write")]
  | .identity => [("identities", "write"), ("identities", "delete")]
  | .transaction => [("transactions", "write"), ("reconciliation", "write")]
  | .monitor => [("balance-monitors", "write"), ("balance-monitors", "delete")]
  | .recon => [("reconciliation", "write"), ("reconciliation", "delete")]
  | .rebuild => [("search", "write")]
  | .backup => [("backup", "read")]
  | .apiKey => [("api-keys", "write"), ("api-keys", "delete")]
  | .clear | .hook | .snapshot => []

/-! ### Paths and routes -/

theorem segments_eq (path : String) :
    ∃ rest, segments path = firstSegment path :: rest := by
  have key : ∀ l : List Char, ∃ rest, (Auth.splitOn '/' l).map String.ofList =
      (match Auth.splitOn '/' l with | s :: _ => String.ofList s | [] => "") :: rest := by
    intro l
    cases h : Auth.splitOn '/' l with
    | nil => exact absurd h (Auth.splitOn_ne_nil _ _)
    | cons x xs => exact ⟨xs.map String.ofList, rfl⟩
  unfold segments firstSegment
  generalize path.toList = l
  cases l with
  | nil => exact key _
  | cons c l =>
    by_cases hc : c = '/'
    · subst hc; exact key _
    · obtain ⟨rest, hr⟩ := key (c :: l)
      refine ⟨rest, ?_⟩
      simp only [List.cons.injEq, hc, false_and, imp_self, implies_true]
      exact hr

/-- The first segment a route asks for. -/
def Route.head (r : Route) : Option String := match r.pattern with | .lit s :: _ => some s | _ => none

theorem fits_head {r : Route} {path s : String} (h : fits r.pattern (segments path) = true) (hs : r.head = some s) :
    firstSegment path = s := by
  obtain ⟨rest, hrest⟩ := segments_eq path
  rw [hrest] at h
  unfold Route.head at hs
  split at hs
  · rename_i s' ps hp
    rw [hp] at h
    simp only [fits, Bool.and_eq_true, decide_eq_true_eq] at h
    rw [Option.some.injEq] at hs
    rw [← h.1, hs]
  · cases hs

/-- What the check of keys leaves. -/
theorem passed {cfg : Option Auth.Cfg} {lookup : String → Option Auth.Key} {now : Nat} {q : Auth.Req} {key : Auth.Key}
    (h : authenticate cfg lookup now q = .apiKey key) :
    Auth.getResourceFromPath q.path ≠ "" ∧ hasPermission key.scopes (Auth.getResourceFromPath q.path) q.method = true := by
  unfold authenticate at h
  split at h
  · cases h
  · split at h
    · cases h
    · split at h
      · cases h
      · split at h
        · cases h
        · split at h
          · cases h
          · split at h
            · cases h
            · split at h
              · cases h
              · rename_i hne
                split at h
                · cases h
                · rename_i hp
                  injection h with h
                  subst h
                  exact ⟨hne, by simpa using hp⟩

theorem reaches_has {cfg : Option Auth.Cfg} {lookup : String → Option Auth.Key} {now : Nat} {q : Auth.Req} {key : Auth.Key} {r : Route}
    (h : Reaches cfg lookup now q key r) :
    Auth.getResourceFromPath q.path ∈ knownResources ∧ Has key (Auth.getResourceFromPath q.path, methodToAction r.method) := by
  obtain ⟨hne, hp⟩ := passed h.passed
  have hk := Auth.names_known ((Auth.segmentResource_iff (firstSegment q.path) _).1 ⟨rfl, hne⟩)
  refine ⟨hk, ?_⟩
  obtain ⟨a, hd, hs⟩ := (Auth.hasPermission_iff hk).1 hp
  rw [h.method, ((Auth.methodToAction_iff _ _).2 hd).1]
  exact hs

/-- The routes apart from that for metadata: where they are, and what they may do. -/
theorem table : ∀ r ∈ routes, r.byId = false →
    ∃ s, r.head = some s ∧ (∀ k ∈ r.shows_, (segmentResource s, methodToAction r.method) ∈ seenWith k) ∧
      (∀ k ∈ r.changes, segmentResource s = "" ∨ (segmentResource s, methodToAction r.method) ∈ changedWith k) := by
  have h : ∀ r ∈ routes, r.byId = false → (match r.head with
      | none => false
      | some s => r.shows_.all (fun k => (segmentResource s, methodToAction r.method) ∈ seenWith k) &&
        r.changes.all (fun k => segmentResource s = "" || (segmentResource s, methodToAction r.method) ∈ changedWith k)) = true := by
    decide +kernel
  intro r hr hb
  have := h r hr hb
  cases hh : r.head with
  | none => rw [hh] at this; cases this
  | some s =>
    rw [hh] at this
    simp only [Bool.and_eq_true, List.all_eq_true, decide_eq_true_eq, Bool.or_eq_true] at this
    exact ⟨s, rfl, this.1, this.2⟩

theorem known_noEntity : ∀ s ∈ knownResources, entityKind s = none := by decide +kernel

theorem special_noEntity : entityKind "mocked-account" = none ∧ entityKind "multi-search" = none ∧ entityKind "refund-transaction" = none := by
  decide +kernel

/-- The metadata route does nothing for a key: the paths that carry the id of a record name no resource. -/
theorem byId_effects {cfg : Option Auth.Cfg} {lookup : String → Option Auth.Key} {now : Nat} {q : Auth.Req} {key : Auth.Key} {r : Route}
    (h : Reaches cfg lookup now q key r) (hb : r.byId = true) : effects r q.path = ([], []) := by
  have hn := (Auth.segmentResource_iff (firstSegment q.path) _).1 ⟨rfl, (passed h.passed).1⟩
  have : entityKind (firstSegment q.path) = none := by
    rcases hn with ⟨h1, h2⟩ | ⟨h1, _⟩ | ⟨h1, _⟩ | ⟨h1, _⟩
    · rw [h1]; exact known_noEntity _ h2
    · rw [h1]; exact special_noEntity.1
    · rw [h1]; exact special_noEntity.2.1
    · rw [h1]; exact special_noEntity.2.2
  unfold effects
  rw [if_pos hb, this]

/-! ### What keys can do -/

/-- Records of a kind are shown only to keys with one of the scopes listed for it. -/
theorem c214_seen {cfg : Option Auth.Cfg} {lookup : String → Option Auth.Key} {now : Nat} {q : Auth.Req} {key : Auth.Key} {r : Route}
    (h : Reaches cfg lookup now q key r) {k : Kind} (hk : k ∈ (effects r q.path).1) : ∃ d ∈ seenWith k, Has key d := by
  cases hb : r.byId with
  | true => rw [byId_effects h hb] at hk; cases hk
  | false =>
    obtain ⟨s, hs, h1, _⟩ := table r h.known hb
    unfold effects at hk
    rw [hb] at hk
    have hr : Auth.getResourceFromPath q.path = segmentResource s := by
      unfold Auth.getResourceFromPath; rw [fits_head h.path hs]
    have := (reaches_has h).2
    rw [hr] at this
    exact ⟨_, h1 k hk, this⟩

/-- Records of a kind are changed only with keys with one of the scopes listed for it. -/
theorem c214_changed {cfg : Option Auth.Cfg} {lookup : String → Option Auth.Key} {now : Nat} {q : Auth.Req} {key : Auth.Key} {r : Route}
    (h : Reaches cfg lookup now q key r) {k : Kind} (hk : k ∈ (effects r q.path).2) : ∃ d ∈ changedWith k, Has key d := by
  cases hb : r.byId with
  | true => rw [byId_effects h hb] at hk; cases hk
  | false =>
    obtain ⟨s, hs, _, h2⟩ := table r h.known hb
    unfold effects at hk
    rw [hb] at hk
    have hr : Auth.getResourceFromPath q.path = segmentResource s := by
      unfold Auth.getResourceFromPath; rw [fits_head h.path hs]
    have := (reaches_has h).2
    rw [hr] at this
    rcases h2 k hk with h0 | hd
    · exact absurd (hr.trans h0) (passed h.passed).1
    · exact ⟨_, hd, this⟩

/-- The statement as given, for keys without the scopes that give more than they say. Missing: those scopes
(`c214_full_fails`, `c214_search`, `c214_balances`). -/
theorem c214_scopes_partial {cfg : Option Auth.Cfg} {lookup : String → Option Auth.Key} {now : Nat} {q : Auth.Req} {key : Auth.Key} {r : Route}
    (h : Reaches cfg lookup now q key r)
    (hno : ¬ Has key ("search", "write") ∧ ¬ Has key ("balances", "read") ∧ ¬ Has key ("accounts", "read") ∧ ¬ Has key ("accounts", "write") ∧
      ¬ Has key ("transactions", "write") ∧ ¬ Has key ("reconciliation", "write") ∧ ¬ Has key ("backup", "read")) :
    (∀ k ∈ (effects r q.path).1, Has key (home k, "read") ∨ Has key (home k, "write")) ∧
    (∀ k ∈ (effects r q.path).2, Has key (home k, "write") ∨ Has key (home k, "delete")) := by
  obtain ⟨n1, n2, n3, n4, n5, n6, n7⟩ := hno
  constructor
  · intro k hk
    obtain ⟨d, hd, hh⟩ := c214_seen h hk
    cases k <;> simp only [seenWith, List.mem_cons, List.not_mem_nil, or_false] at hd <;>
      first
      | exact hd.elim
      | (rcases hd with rfl | rfl | rfl | rfl | rfl | rfl <;> first | exact absurd hh (by assumption) | exact Or.inl hh | exact Or.inr hh)
      | (rcases hd with rfl | rfl | rfl | rfl | rfl <;> first | exact absurd hh (by assumption) | exact Or.inl hh | exact Or.inr hh)
      | (rcases hd with rfl | rfl | rfl <;> first | exact absurd hh (by assumption) | exact Or.inl hh | exact Or.inr hh)
      | (rcases hd with rfl | rfl <;> first | exact absurd hh (by assumption) | exact Or.inl hh | exact Or.inr hh)
      | (subst hd; exact Or.inl hh)
  · intro k hk
    obtain ⟨d, hd, hh⟩ := c214_changed h hk
    cases k <;> simp only [changedWith, List.mem_cons, List.not_mem_nil, or_false] at hd <;>
      first
      | exact hd.elim
      | (rcases hd with rfl | rfl <;> first | exact absurd hh (by assumption) | exact Or.inl hh | exact Or.inr hh)
      | (subst hd; first | exact absurd hh (by assumption) | exact Or.inl hh)

theorem get_changes : ∀ r ∈ routes, methodToAction r.method = "read" → ∀ k ∈ r.changes, k = .backup := by decide +kernel

theorem methods : ∀ r ∈ routes, methodToAction r.method ∈ ["read", "write", "delete"] := by decide +kernel

/-- A key that may write and delete nothing changes nothing, but may make backups. -/
theorem c214_read_only {cfg : Option Auth.Cfg} {lookup : String → Option Auth.Key} {now : Nat} {q : Auth.Req} {key : Auth.Key} {r : Route}
    (h : Reaches cfg lookup now q key r) (hro : ∀ res, ¬ Has key (res, "write") ∧ ¬ Has key (res, "delete")) {k : Kind}
    (hk : k ∈ (effects r q.path).2) : k = .backup := by
  obtain ⟨_, hh⟩ := reaches_has h
  cases hb : r.byId with
  | true => rw [byId_effects h hb] at hk; cases hk
  | false =>
    unfold effects at hk
    rw [hb] at hk
    have hm := methods r h.known
    simp only [List.mem_cons, List.not_mem_nil, or_false] at hm
    rcases hm with hm | hm | hm
    · exact get_changes r h.known hm k hk
    · rw [hm] at hh; exact absurd hh (hro _).1
    · rw [hm] at hh; exact absurd hh (hro _).2

/-- No key takes snapshots, changes hooks or reads them, or reads backups; and none changes metadata of a
record with the route for it. -/
theorem c214_never {cfg : Option Auth.Cfg} {lookup : String → Option Auth.Key} {now : Nat} {q : Auth.Req} {key : Auth.Key} {r : Route}
    (h : Reaches cfg lookup now q key r) :
    Kind.snapshot ∉ (effects r q.path).2 ∧ Kind.hook ∉ (effects r q.path).1 ∧ Kind.hook ∉ (effects r q.path).2 ∧
    Kind.backup ∉ (effects r q.path).1 ∧ (r.byId = true → effects r q.path = ([], [])) := by
  refine ⟨?_, ?_, ?_, ?_, byId_effects h⟩ <;> intro hk
  · obtain ⟨d, hd, _⟩ := c214_changed h hk; cases hd
  · obtain ⟨d, hd, _⟩ := c214_seen h hk; cases hd
  · obtain ⟨d, hd, _⟩ := c214_changed h hk; cases hd
  · obtain ⟨d, hd, _⟩ := c214_seen h hk; cases hd

/-! ### Every scope listed does give it -/

/-- A request for each scope and kind: method and path. -/
def ways : List (String × String) :=
  [("GET", "/ledgers"), ("PUT", "/ledgers/l"), ("POST", "/ledgers"), ("GET", "/balances/b"), ("POST", "/balances/filter"), ("POST", "/balances"),
   ("GET", "/accounts/a"), ("POST", "/accounts"), ("POST", "/accounts/filter"), ("POST", "/search/identities"), ("POST", "/search/reindex"),
   ("GET", "/search/reindex"), ("POST", "/transactions"), ("GET", "/transactions/t"), ("POST", "/transactions/filter"),
   ("GET", "/identities/i"), ("POST", "/identities/filter"), ("POST", "/identities"), ("DELETE", "/identities/i"),
   ("GET", "/identities/i/detokenize/f"), ("POST", "/identities/i/detokenize"), ("GET", "/balance-monitors/m"), ("PUT", "/balance-monitors/m"),
   ("DELETE", "/balance-monitors/m"), ("GET", "/reconciliation/r"), ("PUT", "/reconciliation/matching-rules/m"),
   ("POST", "/reconciliation/start"), ("DELETE", "/reconciliation/matching-rules/m"), ("GET", "/backup"), ("GET", "/api-keys"),
   ("POST", "/api-keys"), ("DELETE", "/api-keys/k")]

/-- The route gin takes: the only one that fits, or one without parameters. -/
def taken (method path : String) : Option Route :=
  match routes.filter (fun r => r.method = method && fits r.pattern (segments path)) with
  | [r] => some r
  | rs => rs.find? (fun r => !r.pattern.contains .param)

def gives (w : String × String) (d : String × String) (k : Kind) (side : List Kind × List Kind → List Kind) : Bool :=
  Auth.getResourceFromPath w.2 = d.1 && methodToAction w.1 = d.2 && w.2 ∉ ["/", "/health", "/metrics"] &&
  match taken w.1 w.2 with
  | some r => k ∈ side (effects r w.2)
  | none => false

theorem ways_seen : ∀ k ∈ kinds, ∀ d ∈ seenWith k, ∃ w ∈ ways, gives w d k Prod.fst = true := by decide +kernel

theorem ways_changed : ∀ k ∈ kinds, ∀ d ∈ changedWith k, ∃ w ∈ ways, gives w d k Prod.snd = true := by decide +kernel

theorem doors_known : ∀ k ∈ kinds, ∀ d ∈ seenWith k ++ changedWith k, d.1 ∈ knownResources := by decide +kernel

theorem kinds_all (k : Kind) : k ∈ kinds := by cases k <;> decide

theorem taken_mem {m p : String} {r : Route} (h : taken m p = some r) :
    r ∈ routes ∧ r.method = m ∧ fits r.pattern (segments p) = true := by
  have : r ∈ routes.filter (fun r => r.method = m && fits r.pattern (segments p)) := by
    unfold taken at h
    split at h
    · rename_i r' he
      rw [Option.some.injEq] at h
      subst h
      rw [he]; simp
    · exact List.mem_of_find?_eq_some h
  simp only [List.mem_filter, Bool.and_eq_true, decide_eq_true_eq] at this
  exact ⟨this.1, this.2.1, this.2.2⟩

/-- The key is found, valid, and not the master key. -/
structure Usable (cfg : Auth.Cfg) (lookup : String → Option Auth.Key) (now : Nat) (secret : String) (key : Auth.Key) : Prop where
  secure : cfg.secure = true
  given : secret ≠ ""
  notMaster : cfg.secretKey ≠ secret
  found : lookup secret = some key
  valid : key.isValid now = true

theorem reach {cfg : Auth.Cfg} {lookup : String → Option Auth.Key} {now : Nat} {secret : String} {key : Auth.Key}
    (hu : Usable cfg lookup now secret key) {d w : String × String} {k : Kind} {side : List Kind × List Kind → List Kind}
    (hd : d.1 ∈ knownResources) (hh : Has key d) (hg : gives w d k side = true) :
    ∃ q r, q.key = secret ∧ taken q.method q.path = some r ∧ Reaches (some cfg) lookup now q key r ∧ k ∈ side (effects r q.path) := by
  unfold gives at hg
  simp only [Bool.and_eq_true, decide_eq_true_eq] at hg
  obtain ⟨⟨⟨h1, h2⟩, h3⟩, h4⟩ := hg
  cases ht : taken w.1 w.2 with
  | none => rw [ht] at h4; cases h4
  | some r =>
    rw [ht] at h4
    obtain ⟨hm1, hm2, hm3⟩ := taken_mem ht
    refine ⟨{ path := w.2, method := w.1, key := secret }, r, rfl, ht, ⟨?_, hm1, hm2, hm3⟩, by simpa using h4⟩
    have hne : d.1 ≠ "" := (Auth.known_half hd).2.1
    have hact : d.2 ≠ "" := by
      have := methods r hm1
      rw [hm2, h2] at this
      intro h0
      rw [h0] at this
      revert this
      decide
    have hp : hasPermission key.scopes d.1 w.1 = true :=
      (Auth.hasPermission_iff hd).2 ⟨d.2, (Auth.methodToAction_iff _ _).1 ⟨h2, hact⟩, hh⟩
    simp only [List.mem_cons, List.not_mem_nil, or_false, not_or] at h3
    unfold authenticate
    rw [if_neg (by simp [h3.1, h3.2.1, h3.2.2]), if_neg (by simp [hu.secure]), if_neg hu.given,
      if_neg (by simp [hu.notMaster]), hu.found]
    simp only
    rw [if_neg (by simp [hu.valid]), if_neg (by rw [h1]; exact hne), if_neg (by rw [h1, hp]; simp)]

/-- Exactly the keys with one of these scopes can see records of a kind. -/
theorem c214_seen_iff {cfg : Auth.Cfg} {lookup : String → Option Auth.Key} {now : Nat} {secret : String} {key : Auth.Key}
    (hu : Usable cfg lookup now secret key) (k : Kind) :
    (∃ q r, q.key = secret ∧ taken q.method q.path = some r ∧ Reaches (some cfg) lookup now q key r ∧ k ∈ (effects r q.path).1) ↔
    ∃ d ∈ seenWith k, Has key d := by
  constructor
  · rintro ⟨q, r, _, _, hr, hk⟩; exact c214_seen hr hk
  · rintro ⟨d, hd, hh⟩
    obtain ⟨w, _, hw⟩ := ways_seen k (kinds_all k) d hd
    exact reach hu (side := Prod.fst) (doors_known k (kinds_all k) d (List.mem_append_left _ hd)) hh hw

/-- Exactly the keys with one of these scopes can change records of a kind. -/
theorem c214_changed_iff {cfg : Auth.Cfg} {lookup : String → Option Auth.Key} {now : Nat} {secret : String} {key : Auth.Key}
    (hu : Usable cfg lookup now secret key) (k : Kind) :
    (∃ q r, q.key = secret ∧ taken q.method q.path = some r ∧ Reaches (some cfg) lookup now q key r ∧ k ∈ (effects r q.path).2) ↔
    ∃ d ∈ changedWith k, Has key d := by
  constructor
  · rintro ⟨q, r, _, _, hr, hk⟩; exact c214_changed hr hk
  · rintro ⟨d, hd, hh⟩
    obtain ⟨w, _, hw⟩ := ways_changed k (kinds_all k) d hd
    exact reach hu (side := Prod.snd) (doors_known k (kinds_all k) d (List.mem_append_right _ hd)) hh hw

/-! ### Where it fails -/

def searcher : Auth.Key := { id := "api_key_1", secret := "s", owner := "o", scopes := ["search:write"], expiresAt := 10 }

def only (key : Auth.Key) (secret : String) : Option Auth.Key := if secret = key.secret then some key else none

theorem usable_searcher : Usable { secure := true, secretKey := "m" } (only searcher) 0 "s" searcher :=
  ⟨rfl, by decide, by decide, rfl, by decide⟩

/-- A key for the search alone sees identities, which it may not read. -/
theorem c214_search : (∃ q r, q.key = "s" ∧ taken q.method q.path = some r ∧
      Reaches (some { secure := true, secretKey := "m" }) (only searcher) 0 q searcher r ∧ Kind.identity ∈ (effects r q.path).1) ∧
    ¬ Has searcher ("identities", "read") := by
  constructor
  · exact (c214_seen_iff usable_searcher .identity).2 ⟨("search", "write"), by decide, "search:write", by decide, Or.inl (by decide)⟩
  · rintro ⟨s, hs, hg⟩
    simp only [searcher, List.mem_singleton] at hs
    subst hs
    revert hg
    unfold Grants
    decide

/-- So does a key that may only read balances; and it cannot take the route meant for searching. -/
theorem c214_balances {cfg : Auth.Cfg} {lookup : String → Option Auth.Key} {now : Nat} {secret : String} {key : Auth.Key}
    (hu : Usable cfg lookup now secret key) (hs : "balances:read" ∈ key.scopes) :
    ∃ q r, q.key = secret ∧ taken q.method q.path = some r ∧ Reaches (some cfg) lookup now q key r ∧ Kind.identity ∈ (effects r q.path).1 :=
  (c214_seen_iff hu .identity).2 ⟨("balances", "read"), by decide, _, hs, Or.inl (by decide)⟩

/-- A key that may only read identities sees the clear text of what was tokenized. -/
theorem c214_clear {cfg : Auth.Cfg} {lookup : String → Option Auth.Key} {now : Nat} {secret : String} {key : Auth.Key}
    (hu : Usable cfg lookup now secret key) (hs : "identities:read" ∈ key.scopes) :
    ∃ q r, q.key = secret ∧ taken q.method q.path = some r ∧ Reaches (some cfg) lookup now q key r ∧ Kind.clear ∈ (effects r q.path).1 :=
  (c214_seen_iff hu .clear).2 ⟨("identities", "read"), by decide, _, hs, Or.inl (by decide)⟩

/-- C214 does not hold as stated. -/
theorem c214_full_fails : ¬ C214Full := by
  intro h
  obtain ⟨⟨q, r, _, _, hr, hk⟩, hno⟩ := c214_search
  exact hno ((h _ _ _ _ _ _ hr).1 _ hk)

/-! ### Cases -/

/-- A key for accounts and ledgers, read only: no transactions. -/
example : ¬ ∃ d ∈ seenWith .transaction, Has { searcher with scopes := ["accounts:read", "ledgers:*"] } d := by
  rintro ⟨d, hd, s, hs, hg⟩
  simp only [seenWith, List.mem_cons, List.not_mem_nil, or_false] at hd hs
  rcases hd with rfl | rfl | rfl <;> rcases hs with rfl | rfl <;> (revert hg; unfold Grants; decide)

/-- A reader of everything. -/
example : ∀ res, ¬ Has { searcher with scopes := ["identities:read", "backup:read"] } (res, "delete") := by
  rintro res ⟨s, hs, hg⟩
  simp only [List.mem_cons, List.not_mem_nil, or_false] at hs
  have e : ∀ a b : String, a = b → a.toList.getLast? = b.toList.getLast? := fun _ _ h => by rw [h]
  rcases hg with hg | hg | hg | hg <;> rcases hs with rfl | rfl <;> have := e _ _ hg <;>
    simp [String.toList_append] at this

example : (taken "GET" "/balances/b").isSome = true ∧ (taken "POST" "/ldg_1/metadata").map (fun r => effects r "/ldg_1/metadata") =
    some ([.ledger], [.ledger]) := by decide +kernel

end Blnk.Routes
