import Verif.Model.Auth
/-
The routes of the API (`api/api.go:45-151`) behind the check of keys (`Model/Auth`): which records the
handler of each may show, and which it may change, when an API key is used.

"Shows" means that the answer may carry data of stored records that the request did not bring along;
"changes" that stored records may be made, altered or removed. The lists are read off the handlers; what a
handler does with which input is the subject of the other modules. A path that fits several patterns is
handled by one of them (gin prefers literal segments); the model allows any.
-/
namespace Blnk.Routes

/-- Kinds of stored records. `clear` is the clear text of tokenized values, `rebuild` the rebuilding of the
search index, `backup` the files of backups. -/
inductive Kind
  | ledger | balance | account | identity | clear | transaction | monitor | recon | rebuild | backup | apiKey | hook | snapshot
deriving DecidableEq, Repr

def kinds : List Kind :=
  [.ledger, .balance, .account, .identity, .clear, .transaction, .monitor, .recon, .rebuild, .backup, .apiKey, .hook, .snapshot]

/-- A segment of a pattern: a text or `:name`. -/
inductive Seg
  | lit (s : String)
  | param
deriving DecidableEq, Repr

structure Route where
  method : String
  pattern : List Seg
  shows_ : List Kind := []
  changes : List Kind := []
  /-- the metadata route, where the id decides (`metadata.go:25-40`) -/
  byId : Bool := false
deriving DecidableEq, Repr

open Seg in
/-- `Router` (`api/api.go:52-148`), in the order of the code. -/
def routes : List Route :=
  [-- ledgers (`api/ledger.go`)
   { method := "POST", pattern := [lit "ledgers"], changes := [.ledger] },
   { method := "GET", pattern := [lit "ledgers", param], shows_ := [.ledger] },
   { method := "GET", pattern := [lit "ledgers"], shows_ := [.ledger] },
   { method := "POST", pattern := [lit "ledgers", lit "filter"], shows_ := [.ledger] },
   { method := "PUT", pattern := [lit "ledgers", param], shows_ := [.ledger], changes := [.ledger] },
   -- balances (`api/balance.go`); single reads include the owner and the ledger (`database/balance.go:60-106`)
   { method := "POST", pattern := [lit "balances"], changes := [.balance] },
   { method := "GET", pattern := [lit "balances"], shows_ := [.balance] },
   { method := "POST", pattern := [lit "balances", lit "filter"], shows_ := [.balance] },
   { method := "GET", pattern := [lit "balances", param], shows_ := [.balance, .identity, .ledger] },
   { method := "GET", pattern := [lit "balances", lit "indicator", param, lit "currency", param], shows_ := [.balance] },
   { method := "GET", pattern := [lit "balances", param, lit "at"], shows_ := [.balance] },
   { method := "POST", pattern := [lit "balances-snapshots"], changes := [.snapshot] },
   { method := "PUT", pattern := [lit "balances", param, lit "identity"], changes := [.balance] },
   { method := "GET", pattern := [lit "balances", param, lit "lineage"], shows_ := [.balance] },
   -- monitors
   { method := "POST", pattern := [lit "balance-monitors"], changes := [.monitor] },
   { method := "GET", pattern := [lit "balance-monitors", param], shows_ := [.monitor] },
   { method := "GET", pattern := [lit "balance-monitors"], shows_ := [.monitor] },
   { method := "GET", pattern := [lit "balance-monitors", lit "balances", param], shows_ := [.monitor] },
   { method := "PUT", pattern := [lit "balance-monitors", param], changes := [.monitor] },
   { method := "DELETE", pattern := [lit "balance-monitors", param], changes := [.monitor] },
   -- transactions (`api/transactions.go`); dry runs show balances (`transaction_dryrun.go:645-670`)
   { method := "POST", pattern := [lit "transactions"], shows_ := [.balance], changes := [.transaction, .balance] },
   { method := "POST", pattern := [lit "transactions", lit "bulk"], shows_ := [.balance], changes := [.transaction, .balance] },
   { method := "POST", pattern := [lit "transactions", lit "filter"], shows_ := [.transaction] },
   { method := "POST", pattern := [lit "refund-transaction", param], shows_ := [.transaction, .balance],
     changes := [.transaction, .balance] },
   { method := "GET", pattern := [lit "transactions"], shows_ := [.transaction] },
   { method := "GET", pattern := [lit "transactions", param], shows_ := [.transaction] },
   { method := "GET", pattern := [lit "transactions", lit "reference", param], shows_ := [.transaction] },
   { method := "PUT", pattern := [lit "transactions", lit "inflight", param], shows_ := [.transaction, .balance],
     changes := [.transaction, .balance] },
   { method := "POST", pattern := [lit "transactions", lit "inflight", lit "bulk", lit "void"], shows_ := [.transaction, .balance],
     changes := [.transaction, .balance] },
   { method := "POST", pattern := [lit "transactions", lit "inflight", lit "bulk", lit "commit"], shows_ := [.transaction, .balance],
     changes := [.transaction, .balance] },
   { method := "GET", pattern := [lit "transactions", param, lit "lineage"], shows_ := [.transaction] },
   { method := "POST", pattern := [lit "transactions", lit "recover"], changes := [.transaction, .balance] },
   -- identities (`api/identity.go`)
   { method := "POST", pattern := [lit "identities"], changes := [.identity] },
   { method := "GET", pattern := [lit "identities", param], shows_ := [.identity] },
   { method := "PUT", pattern := [lit "identities", param], changes := [.identity] },
   { method := "GET", pattern := [lit "identities"], shows_ := [.identity] },
   { method := "DELETE", pattern := [lit "identities", param], changes := [.identity] },
   { method := "POST", pattern := [lit "identities", lit "filter"], shows_ := [.identity] },
   { method := "GET", pattern := [lit "identities", param, lit "tokenized-fields"], shows_ := [.identity] },
   { method := "POST", pattern := [lit "identities", param, lit "tokenize", param], changes := [.identity] },
   { method := "GET", pattern := [lit "identities", param, lit "detokenize", param], shows_ := [.clear] },
   { method := "POST", pattern := [lit "identities", param, lit "tokenize"], changes := [.identity] },
   { method := "POST", pattern := [lit "identities", param, lit "detokenize"], shows_ := [.clear] },
   -- accounts (`api/accounts.go`); a new account takes the owner's name and the balance's ledger and currency
   -- (`account.go:82-125`), a single read includes owner, balance and ledger (`database/account.go:113-175`)
   { method := "POST", pattern := [lit "accounts"], shows_ := [.identity, .balance], changes := [.account] },
   { method := "GET", pattern := [lit "accounts", param], shows_ := [.account, .identity, .balance, .ledger] },
   { method := "GET", pattern := [lit "accounts"], shows_ := [.account] },
   { method := "POST", pattern := [lit "accounts", lit "filter"], shows_ := [.account] },
   { method := "GET", pattern := [lit "mocked-account"] },
   -- backups (`api/admin.go`)
   { method := "GET", pattern := [lit "backup"], changes := [.backup] },
   { method := "GET", pattern := [lit "backup-s3"], changes := [.backup] },
   -- search (`api/api.go:233-280`): any of the five collections
   { method := "POST", pattern := [lit "search", param], shows_ := [.ledger, .balance, .transaction, .identity, .recon] },
   { method := "POST", pattern := [lit "multi-search"], shows_ := [.ledger, .balance, .transaction, .identity, .recon] },
   { method := "POST", pattern := [lit "search", lit "reindex"], changes := [.rebuild] },
   { method := "GET", pattern := [lit "search", lit "reindex"], shows_ := [.rebuild] },
   -- reconciliation (`api/reconciliation_api.go`); matched transactions are marked (`Model/Marks`)
   { method := "POST", pattern := [lit "reconciliation", lit "upload"], changes := [.recon] },
   { method := "POST", pattern := [lit "reconciliation", lit "matching-rules"], changes := [.recon] },
   { method := "PUT", pattern := [lit "reconciliation", lit "matching-rules", param], shows_ := [.recon], changes := [.recon] },
   { method := "DELETE", pattern := [lit "reconciliation", lit "matching-rules", param], changes := [.recon] },
   { method := "POST", pattern := [lit "reconciliation", lit "start"], changes := [.recon, .transaction] },
   { method := "POST", pattern := [lit "reconciliation", lit "start-instant"], changes := [.recon, .transaction] },
   { method := "GET", pattern := [lit "reconciliation", param], shows_ := [.recon] },
   -- metadata (`api/metadata.go`)
   { method := "POST", pattern := [param, lit "metadata"], byId := true },
   -- hooks: refused unless the master key is used (`api/hooks.go:29-36`)
   { method := "POST", pattern := [lit "hooks"] },
   { method := "PUT", pattern := [lit "hooks", param] },
   { method := "GET", pattern := [lit "hooks", param] },
   { method := "GET", pattern := [lit "hooks"] },
   { method := "DELETE", pattern := [lit "hooks", param] },
   -- keys of the same owner (`api/apikeys.go`, C47)
   { method := "POST", pattern := [lit "api-keys"], changes := [.apiKey] },
   { method := "GET", pattern := [lit "api-keys"], shows_ := [.apiKey] },
   { method := "DELETE", pattern := [lit "api-keys", param], changes := [.apiKey] }]

/-- The segments of a path. -/
def segments (path : String) : List String :=
  (Auth.splitOn '/' (match path.toList with | '/' :: rest => rest | l => l)).map String.ofList

/-- gin's matching: a parameter is a segment that is not empty. -/
def fits : List Seg → List String → Bool
  | [], [] => true
  | .lit s :: ps, x :: xs => s = x && fits ps xs
  | .param :: ps, x :: xs => x ≠ "" && fits ps xs
  | _, _ => false

/-- `getEntityTypeFromID` (`metadata.go:25-40`). -/
def entityKind (id : String) : Option Kind :=
  if "txn_".toList.isPrefixOf id.toList || "bulk_".toList.isPrefixOf id.toList then some .transaction
  else if "ldg_".toList.isPrefixOf id.toList then some .ledger
  else if "bln_".toList.isPrefixOf id.toList then some .balance
  else if "idt_".toList.isPrefixOf id.toList then some .identity
  else none

/-- What the handler of a route may show and change. -/
def effects (r : Route) (path : String) : List Kind × List Kind :=
  if r.byId then match entityKind (Auth.firstSegment path) with
    | some k => ([k], [k])
    | none => ([], [])
  else (r.shows_, r.changes)

/-- A request reaches the handler of a route with an API key. -/
structure Reaches (cfg : Option Auth.Cfg) (lookup : String → Option Auth.Key) (now : Nat) (q : Auth.Req) (key : Auth.Key) (r : Route) :
    Prop where
  passed : Auth.authenticate cfg lookup now q = .apiKey key
  known : r ∈ routes
  method : r.method = q.method
  path : fits r.pattern (segments q.path) = true

end Blnk.Routes
