import Verif.Model.Errors
/-
The door of the HTTP servers: who sees the metrics (`api/middleware/middleware.go:90-173`,
`cmd/server.go:203-216`, `cmd/workers.go:635-648`) and how much of a request body is read
(`api/middleware/middleware.go:212-225`, `api/middleware/auth.go:128-180`, `api/reconciliation_api.go:48-57`).
-/
namespace Blnk.Front

open Blnk.Errs (Text statusForCode)

/-! ### Metrics -/

/-- What the middleware does with a request: hand it on, or answer with a code. -/
inductive Door
  | pass
  | refuse (code : String)
deriving DecidableEq, Repr

/-- `subtle.ConstantTimeCompare(a, b) == 1`. -/
def same (a b : Text) : Bool := a.length == b.length && a == b

/-- `MetricsAuth` (`api/middleware/middleware.go:90-122`), in front of `/metrics` of the server. -/
def metricsAuth (secure : Bool) (token : Text) (auth : Text) : Door :=
  if secure ∧ token = [] then .refuse "AUTH_METRICS_DISABLED"
  else if token = [] then .pass
  else if auth = [] then .refuse "AUTH_METRICS_TOKEN_REQUIRED"
  else if (t! "Bearer ").isPrefixOf auth = false then .refuse "AUTH_METRICS_TOKEN_REQUIRED"
  else if same (auth.drop 7) token = false then .refuse "AUTH_INVALID_BEARER_TOKEN"
  else .pass

/-- `MetricsAuthHandler` (`api/middleware/middleware.go:128-160`), in front of `/metrics` and `/monitoring/` of the workers.
What it does is settled when it is made: closed, open, or asking. -/
inductive Handler
  | closed | open | asks (token : Text)
deriving DecidableEq, Repr

def makeHandler (secure : Bool) (token : Text) : Handler :=
  if secure ∧ token = [] then .closed else if token = [] then .open else .asks token

def serve : Handler → Text → Door
  | .closed, _ => .refuse "AUTH_METRICS_DISABLED"
  | .open, _ => .pass
  | .asks token, auth =>
    if auth = [] then .refuse "AUTH_METRICS_TOKEN_REQUIRED"
    else if (t! "Bearer ").isPrefixOf auth = false then .refuse "AUTH_METRICS_TOKEN_REQUIRED"
    else if same (auth.drop 7) token = false then .refuse "AUTH_INVALID_BEARER_TOKEN"
    else .pass

/-! ### Bodies -/

/-- The limits in bytes; `MaxRequestBodySizeMB` and `MaxUploadSizeMB` times 1024². -/
structure Limits where
  request : Int
  upload : Int
deriving DecidableEq, Repr

/-- Who sends a request (`api/middleware/auth.go:194-284`). -/
inductive Caller
  /-- secure mode is off, or the master key -/
  | trusted
  /-- a valid API key that may use the route -/
  | key
deriving DecidableEq, Repr

structure Req where
  post : Bool
  contentType : Text
  /-- `POST /reconciliation/upload` -/
  isUpload : Bool
  caller : Caller
  /-- the length of the body that is sent -/
  size : Nat
deriving DecidableEq, Repr

/-- `RequestSizeLimit` (`api/middleware/middleware.go:212-225`). -/
def requestLimit (l : Limits) (r : Req) : Option Nat :=
  if l.request ≤ 0 then none
  else if (t! "multipart/form-data").isPrefixOf r.contentType then none
  else some l.request.toNat

/-- `http.MaxBytesReader`. -/
def capped (limit : Option Nat) (n : Nat) : Nat :=
  match limit with
  | some m => min m n
  | none => n

/-- The bytes that `injectAPIKeyToMetadata` reads into memory (`api/middleware/auth.go:128-144`, `269-274`): all there are. -/
def injected (l : Limits) (r : Req) : Nat :=
  if r.caller = .key ∧ r.post then capped (requestLimit l r) r.size else 0

/-- The limit of the upload handler (`api/reconciliation_api.go:50-53`). -/
def uploadLimit (l : Limits) (r : Req) : Option Nat := if r.isUpload ∧ 0 < l.upload then some l.upload.toNat else none

/-- The bytes that the handler may read: all the limits let through. -/
def handled (l : Limits) (r : Req) : Nat := capped (uploadLimit l r) (capped (requestLimit l r) r.size)

/-- The most that is read of a request. -/
def taken (l : Limits) (r : Req) : Nat := max (injected l r) (handled l r)

end Blnk.Front
