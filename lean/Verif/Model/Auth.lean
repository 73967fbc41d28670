/-
API keys: `api/middleware/auth.go`, `api/middleware/scope.go`, `api/apikeys.go`,
`model/api_key.go`, `database/api_key.go`.
Not modelled: bcrypt (a stored key matches exactly the secret it was made from), the rate
limiter, the handlers behind the check. Times are `Nat` ticks.
-/
namespace Blnk.Auth

/-- `strings.Split` with a one-character separator. -/
def splitOn (c : Char) : List Char → List (List Char)
  | [] => [[]]
  | x :: xs =>
    if x = c then [] :: splitOn c xs
    else match splitOn c xs with
      | [] => [[x]]
      | s :: ss => (x :: s) :: ss

/-- `methodToAction` (`api/middleware/scope.go:53-60`); a missing entry reads as "". -/
def methodToAction (m : String) : String :=
  if m = "GET" then "read" else if m = "HEAD" then "read" else if m = "POST" then "write"
  else if m = "PUT" then "write" else if m = "PATCH" then "write" else if m = "DELETE" then "delete" else ""

/-- `ParseScope` (`api/middleware/scope.go:68-74`). -/
def parseScope (scope : String) : String × String :=
  match splitOn ':' scope.toList with
  | [r, a] => (String.ofList r, String.ofList a)
  | _ => ("", "")

/-- The loop body of `HasPermission` (`api/middleware/scope.go:77-102`). -/
def scopeAllows (resource action scope : String) : Bool :=
  let p := parseScope scope
  if p.1 = "*" then p.2 = "*" || p.2 = action
  else p.1 = resource && (p.2 = "*" || p.2 = action)

/-- `HasPermission` (`api/middleware/scope.go:77-102`). -/
def hasPermission (scopes : List String) (resource method : String) : Bool :=
  let action := methodToAction method
  if action = "" then false else scopes.any (scopeAllows resource action)

/-- `ScopeCovers` (`api/middleware/scope.go:105-122`). -/
def scopeCovers (granted requested : String) : Bool :=
  let g := parseScope granted
  let r := parseScope requested
  if g.1 = "" || g.2 = "" || r.1 = "" || r.2 = "" then false
  else if g.1 = "*" then g.2 = "*" || g.2 = r.2
  else if g.1 ≠ r.1 then false
  else g.2 = "*" || g.2 = r.2

/-- `CanGrantScopes` (`api/middleware/scope.go:125-142`). -/
def canGrantScopes (caller requested : List String) : Bool :=
  requested.all (fun r => caller.any (fun g => scopeCovers g r))

/-- `pathToResource` (`api/middleware/auth.go:50-63`) and the three special cases
(`:97-108`). -/
def segmentResource (seg : String) : String :=
  if seg = "mocked-account" then "accounts"
  else if seg = "multi-search" then "search"
  else if seg = "refund-transaction" then "transactions"
  else if seg ∈ ["ledgers", "balances", "accounts", "identities", "transactions", "balance-monitors", "hooks", "api-keys",
      "search", "reconciliation", "metadata", "backup"] then seg
  else ""

/-- The first path segment (`api/middleware/auth.go:91`). -/
def firstSegment (path : String) : String :=
  let p := match path.toList with
    | '/' :: rest => rest
    | l => l
  match splitOn '/' p with
  | s :: _ => String.ofList s
  | [] => ""

/-- `getResourceFromPath` (`api/middleware/auth.go:89-116`). -/
def getResourceFromPath (path : String) : String := segmentResource (firstSegment path)

/-- `model.APIKey`; `secret` is the plain text whose hash is stored. `creator` is not stored
by the code: it records which key made this one (`none`: the master key). -/
structure Key where
  id : String
  secret : String
  owner : String
  scopes : List String
  expiresAt : Nat
  revoked : Bool := false
  creator : Option String := none
deriving DecidableEq, Repr

/-- `IsValid` (`model/api_key.go:50-53`). -/
def Key.isValid (k : Key) (now : Nat) : Bool := !k.revoked && now < k.expiresAt

/-- What the check reads from the configuration. -/
structure Cfg where
  secure : Bool
  secretKey : String
deriving DecidableEq, Repr

/-- What the check reads from a request. -/
structure Req where
  path : String
  method : String
  key : String
deriving DecidableEq, Repr

/-- Outcome of the check. -/
inductive Decision
  | publicPath
  | insecure
  | master
  | apiKey (k : Key)
  | missingKey
  | invalidKey
  | expiredKey
  | unknownResource
  | insufficient
deriving DecidableEq, Repr

/-- Is the request handed on? -/
def Decision.allowed : Decision → Bool
  | .publicPath | .insecure | .master | .apiKey _ => true
  | _ => false

/-- `Authenticate` (`api/middleware/auth.go:194-284`). `cfg = none` is a failed
`config.Fetch`. -/
def authenticate (cfg : Option Cfg) (lookup : String → Option Key) (now : Nat) (r : Req) : Decision :=
  if r.path = "/" || r.path = "/health" || r.path = "/metrics" then .publicPath
  else if cfg.any (fun c => !c.secure) then .insecure
  else if r.key = "" then .missingKey
  else if cfg.any (fun c => c.secretKey ≠ "" && c.secretKey = r.key) then .master
  else match lookup r.key with
    | none => .invalidKey
    | some k =>
      if !k.isValid now then .expiredKey
      else if getResourceFromPath r.path = "" then .unknownResource
      else if !hasPermission k.scopes (getResourceFromPath r.path) r.method then .insufficient
      else .apiKey k

/-! ### Key management -/

/-- The table `blnk.api_keys`. -/
abbrev Store := List Key

/-- `GetAPIKey` (`database/api_key.go:124-189`) without its cache (see `Model/KeyCache`). -/
def find (s : Store) (secret : String) : Option Key := s.find? (fun k => k.secret == secret)

/-- Who calls: `isMasterKeyRequest` and `currentAPIKeyPrincipal` (`api/apikeys.go:22-36`). -/
inductive Caller
  | master
  | key (k : Key)
  | nobody
deriving DecidableEq, Repr

/-- The caller a decision leaves in the request context. -/
def Decision.caller : Decision → Caller
  | .master => .master
  | .apiKey k => .key k
  | _ => .nobody

/-- `resolveAPIKeyOwner` (`api/apikeys.go:38-55`); `none` is any of its errors. -/
def resolveOwner (c : Caller) (requested : String) (required : Bool) : Option String :=
  match c with
  | .master => if required && requested = "" then none else some requested
  | .nobody => none
  | .key k => if requested ≠ "" && requested ≠ k.owner then none else some k.owner

/-- `validateGrantedScopes` (`api/apikeys.go:57-71`). -/
def grantOk (c : Caller) (requested : List String) : Bool :=
  match c with
  | .master => true
  | .nobody => false
  | .key k => canGrantScopes k.scopes requested

/-- The body of a creation request. -/
structure CreateReq where
  owner : String
  scopes : List String
  expiresAt : Nat
deriving DecidableEq, Repr

/-- `CreateAPIKey` (`api/apikeys.go:102-128`, `database/api_key.go:65-108`). `id` and `secret`
are freshly generated; a repetition is refused by the primary key (`id`) or has negligible
probability (`secret`, 32 random bytes) and is modelled as a refusal. -/
def createKey (s : Store) (c : Caller) (q : CreateReq) (id secret : String) : Store :=
  match resolveOwner c q.owner true with
  | none => s
  | some owner =>
    if !grantOk c q.scopes then s
    else if s.any (fun k => k.id == id || k.secret == secret) then s
    else s ++ [{ id, secret, owner, scopes := q.scopes, expiresAt := q.expiresAt
                 creator := match c with | .key k => some k.id | _ => none }]

/-- `ListAPIKeys` (`api/apikeys.go:138-154`, `database/api_key.go:296-333`). -/
def listKeys (s : Store) (c : Caller) (owner : String) : Option (List Key) :=
  (resolveOwner c owner (c == .master)).map fun o => s.filter (fun k => k.owner == o)

/-- `RevokeAPIKey` (`api/apikeys.go:165-190`, `database/api_key.go:204-258`). -/
def revokeKey (s : Store) (c : Caller) (id owner : String) : Store :=
  match resolveOwner c owner (c == .master) with
  | none => s
  | some o => s.map fun k => if k.id = id ∧ k.owner = o then { k with revoked := true } else k

/-- A request to the key endpoints. -/
inductive Ev
  | create (now : Nat) (key : String) (q : CreateReq) (id secret : String)
  | revoke (now : Nat) (key : String) (id owner : String)
deriving Repr

/-- The caller of a request on the key endpoints. -/
def callerOf (cfg : Cfg) (s : Store) (now : Nat) (method key : String) : Caller :=
  (authenticate (some cfg) (find s) now { path := "/api-keys", method, key }).caller

/-- One request (`api/api.go:146-148`); a refused check means the handler is not run, and a
handler run without a caller changes nothing. -/
def step (cfg : Cfg) (s : Store) : Ev → Store
  | .create now key q id secret => createKey s (callerOf cfg s now "POST" key) q id secret
  | .revoke now key id owner => revokeKey s (callerOf cfg s now "DELETE" key) id owner

/-- A history. -/
def run (cfg : Cfg) (s : Store) : List Ev → Store
  | [] => s
  | e :: es => run cfg (step cfg s e) es

/-! ### The rewritten body -/

/-- Nearest `float64` of a natural number below `2^1024`: 53 significant bits, ties to even.
`json.Unmarshal` into `map[string]interface{}` reads every number this way
(`api/middleware/auth.go:148`). -/
def toFloat (n : Nat) : Nat :=
  if n < 2 ^ 53 then n
  else
    let e := Nat.log2 n - 52
    let q := n / 2 ^ e
    let r := n % 2 ^ e
    let q' := if 2 * r < 2 ^ e then q else if 2 ^ e < 2 * r then q + 1 else if q % 2 = 0 then q else q + 1
    q' * 2 ^ e

/-- A whole-number field of a POST body as the handler sees it after
`injectAPIKeyToMetadata` (`api/middleware/auth.go:128-180`): decoded to a float, encoded again
by `enc` (`json.Marshal`: the shortest decimal text that reads back as the same float). -/
def throughInject (enc : Nat → Nat) (n : Nat) : Nat := enc (toFloat n)

end Blnk.Auth
