import Verif.Model.Auth
/-
The service's own webhook (`webhooks.go`): what is announced (`ledger.go`, `balance.go`,
`identity.go`, `transaction_execution.go`, `transaction_rejection.go`, `transaction_bulk.go`,
`cmd/workers.go`), what is queued, and what the receiver gets; and the signature of hook calls
(`internal/hooks/client.go`).

Simplifications: a payload is a list of named fields that are whole numbers or something else;
meta data is something else, its numbers are floats already. `json.Marshal`, HMAC and the
shortest text of a float are parameters (`Env`). Header names are lower case throughout.
-/
namespace Blnk.Web

/-- A field of a payload. -/
inductive Val
  | whole (n : Int) | other (text : String)
deriving DecidableEq, Repr

abbrev Data := List (String × Val)

/-- What is left open: HMAC-SHA256 in hex, the text of a webhook, and the number whose text
`json.Marshal` writes for a whole float. -/
structure Env where
  mac : String → String → String
  text : String → Data → String
  enc : Nat → Nat

/-- `Notification.Webhook` and `Server.SecretKey` of the configuration. -/
structure Conf where
  url : String
  secret : String := ""
  headers : List (String × String) := []
deriving DecidableEq, Repr

/-! ### What is announced -/

/-- What happens in the service. -/
inductive Deed
  | ledgerMade | ledgerRenamed | balanceMade | identityMade | identityChanged | monitorMet
  /-- A transaction is stored as queued or scheduled. -/
  | queued | scheduled
  /-- A transaction with this status is executed. -/
  | executed (status : String) (inflight : Bool)
  /-- A queued transaction is refused, by the worker or by recovery. An atomic one names its
  batch or not. -/
  | refused (worker : Bool) (atomic : Option Bool)
  /-- An asynchronous batch is over. -/
  | batch (status : String)
deriving DecidableEq, Repr

/-- The status an executed transaction gets (`transaction_execution.go:198-209`). -/
def settled (status : String) (inflight : Bool) : String :=
  if inflight then "INFLIGHT"
  else if status = "QUEUED" ∨ status = "APPLIED" ∨ status = "SCHEDULED" ∨ status = "COMMIT" then "APPLIED"
  else if status = "VOID" then "VOID"
  else ""

/-- `getEventFromStatus` (`webhooks.go:49-66`), for the statuses the service writes. -/
def eventOf (status : String) : String :=
  if status = "QUEUED" then "transaction.queued"
  else if status = "APPLIED" then "transaction.applied"
  else if status = "SCHEDULED" then "transaction.scheduled"
  else if status = "INFLIGHT" then "transaction.inflight"
  else if status = "VOID" then "transaction.void"
  else if status = "REJECTED" then "transaction.rejected"
  else "transaction.unknown"

/-- The events sent for a deed: `postLedgerActions` (`ledger.go:34-47`, called by
`CreateLedger` and `UpdateLedger`, lines 64 and 139), `postBalanceActions`
(`balance.go:217-238`), `postIdentityActions` (`identity.go:34-48`), `checkBalanceMonitors`
(`balance.go:79-106`), `postTransactionActions` (`transaction_execution.go:224-262`),
`RejectTransaction` (`transaction_rejection.go:67-79`), `handleTransactionRejection`
(`cmd/workers.go:154-165`), `sendBulkTransactionWebhook` (`transaction_bulk.go:112-137`). -/
def events : Deed → List String
  | .ledgerMade => ["ledger.created"]
  | .ledgerRenamed => ["ledger.created"]
  | .balanceMade => ["balance.created"]
  | .identityMade => ["identity.created"]
  | .identityChanged => []
  | .monitorMet => ["balance.monitor"]
  | .queued => []
  | .scheduled => []
  | .executed st inflight => [eventOf (settled st inflight)]
  | .refused worker atomic =>
    match atomic with
    | some false => []
    | some true => "bulk_transaction.failed" :: eventOf "REJECTED" :: (if worker then ["transaction.rejected"] else [])
    | none => eventOf "REJECTED" :: (if worker then ["transaction.rejected"] else [])
  | .batch st => ["bulk_transaction." ++ st]

/-! ### Queue and deliveries -/

inductive TSt
  | waiting | done | dead
deriving DecidableEq, Repr

/-- A task of `SendWebhook` (`webhooks.go:139-158`). -/
structure Task where
  event : String
  data : Data
  st : TSt := .waiting
  tries : Nat := 0
deriving DecidableEq, Repr

/-- What the receiver gets. -/
structure Delivery where
  task : Nat
  url : String
  event : String
  data : Data
  body : String
  headers : List (String × String)
deriving DecidableEq, Repr

structure Sys where
  conf : Conf
  tasks : List Task := []
  got : List Delivery := []

/-- `SendWebhook`: without a URL nothing is queued; a failed enqueue is reported and forgotten
(`webhooks.go:142-157`, `transaction_execution.go:254-257`). -/
def send (s : Sys) (event : String) (data : Data) (ok : Bool) : Sys :=
  if s.conf.url = "" ∨ ok = false then s else { s with tasks := s.tasks ++ [{ event, data }] }

def sendAll (s : Sys) (data : Data) : List String → List Bool → Sys
  | [], _ => s
  | e :: es, oks => sendAll (send s e data (oks.head?.getD true)) data es oks.tail

/-- A field after `json.Unmarshal` into `interface{}` and `json.Marshal` (`webhooks.go:183`,
`:82`): a whole number has become a float. -/
def reread (env : Env) : Val → Val
  | .whole n => .whole (n.sign * env.enc (Auth.toFloat n.natAbs))
  | .other t => .other t

/-- `Header.Set`. -/
def setHeader (hs : List (String × String)) (k v : String) : List (String × String) :=
  (k, v) :: hs.filter fun x => x.1 ≠ k

def header (hs : List (String × String)) (k : String) : Option String := (hs.find? fun x => x.1 == k).map Prod.snd

/-- What is signed (`webhooks.go:104`, `internal/hooks/client.go:80`). -/
def signed (ts body : String) : String := ts ++ "." ++ body

/-- The headers of a webhook (`webhooks.go:100-117`). -/
def headersOf (env : Env) (c : Conf) (now : Nat) (body : String) : List (String × String) :=
  let h := [("content-type", "application/json")]
  let h := if c.secret = "" then h
    else setHeader (setHeader h "x-blnk-signature" (env.mac c.secret (signed (toString now) body))) "x-blnk-timestamp" (toString now)
  c.headers.foldl (fun h kv => setHeader h kv.1 kv.2) h

/-- The headers of a hook call (`internal/hooks/client.go:74-95`): signed also without a secret. -/
def hookHeaders (env : Env) (secret : String) (now : Nat) (body id typ : String) : List (String × String) :=
  [("content-type", "application/json"), ("x-blnk-signature", env.mac secret (signed (toString now) body)),
   ("x-blnk-timestamp", toString now), ("x-hook-id", id), ("x-hook-type", typ)]

/-- What comes of an attempt: not received, received without an answer that arrives, answered. -/
inductive Answer
  | unsent | unheard | heard (status : Nat)
deriving DecidableEq, Repr

/-- asynq's default number of retries; `SendWebhook` sets none. -/
def maxRetry : Nat := 25

def Task.over (t : Task) (ok : Bool) : Task :=
  { t with tries := t.tries + 1, st := if ok then .done else if maxRetry ≤ t.tries then .dead else .waiting }

def ok2xx : Answer → Bool
  | .heard st => 200 ≤ st && st < 300
  | _ => false

/-- `ProcessWebhook` and `processHTTP` (`webhooks.go:168-187`, `:76-130`), with the
configuration of the moment. -/
def attempt (env : Env) (s : Sys) (k : Nat) (t : Task) (now : Nat) (a : Answer) : Sys :=
  if s.conf.url = "" then { s with tasks := s.tasks.set k (t.over true) }
  else
    let data := t.data.map fun f => (f.1, reread env f.2)
    let body := env.text t.event data
    { s with
      tasks := s.tasks.set k (t.over (ok2xx a))
      got := if a = .unsent then s.got
        else s.got ++ [{ task := k, url := s.conf.url, event := t.event, data, body, headers := headersOf env s.conf now body }] }

inductive Ev
  | deed (d : Deed) (data : Data) (oks : List Bool)
  | try (k now : Nat) (a : Answer)
  | configure (c : Conf)

def wstep (env : Env) (s : Sys) : Ev → Sys
  | .deed d data oks => sendAll s data (events d) oks
  | .try k now a =>
    match s.tasks[k]? with
    | some t => if t.st = .waiting then attempt env s k t now a else s
    | none => s
  | .configure c => { s with conf := c }

def wsteps (env : Env) (s : Sys) : List Ev → Sys
  | [] => s
  | e :: es => wsteps env (wstep env s e) es

end Blnk.Web
