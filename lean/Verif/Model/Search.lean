import Verif.Model.Auth
/-
What is sent to the search server (`internal/search/search.go`): the JSON of a stored record
(`model/balance.go:24-47`, `model/transaction.go:56-86`, `model/ledger.go:20-26`,
`model/identity.go:23-43`, `model/reconciliation_model.go:38-48`), read back into a map and
put into the shape of the collection by `HandleNotification`; and the same for the rows a
rebuild of the index reads (`database/balance.go:642-722`,
`database/transaction_queries.go:270-363`, `database/ledger.go:84-126`,
`database/identity.go:339-385`).

Simplifications: a JSON value is one of those of `JV`; times are whole seconds and always
have a text (years 0 to 9999); maps are association lists, looked up by first occurrence;
meta data is an opaque object; fractional amounts are opaque. Values that no record has in a
place (for example a fractional number for a precise amount) are passed through.
-/
namespace Blnk.Srch

/-- The collections (`internal/search/search.go:32-38`). -/
inductive Coll
  | ledgers | identities | balances | transactions | reconciliations
deriving DecidableEq, Repr

/-- A JSON value. `time` is a text in RFC 3339, `real` a number that is not whole. -/
inductive JV
  | str (s : String) | num (n : Int) | real (t : String) | bool (b : Bool)
  | obj (t : String) | null | time (sec : Int)
deriving DecidableEq, Repr

abbrev Data := List (String × JV)

/-- Reading a key of a map. -/
def look (d : Data) (k : String) : Option JV := (d.find? (fun e => e.1 == k)).map (·.2)

/-- `delete(data, k)`. -/
def del (d : Data) (k : String) : Data := d.filter (fun e => e.1 != k)

/-- `data[k] = v`. -/
def put (d : Data) (k : String) (v : JV) : Data := (k, v) :: del d k

/-! ### Collections -/

/-- Types of fields of a schema. -/
inductive Ty
  | string | int | float | bool | object
deriving DecidableEq, Repr

structure Field where
  name : String
  ty : Ty
  optional : Bool := false
deriving DecidableEq, Repr

/-- `getLedgerSchema`, `getBalanceSchema`, `getTransactionSchema`, `getReconciliationSchema`,
`getIdentitySchema` (`internal/search/search.go:525-659`): names, types and what is optional. `int32` and
`int64` are one type. -/
def schema : Coll → List Field
  | .ledgers => [⟨"ledger_id", .string, false⟩, ⟨"name", .string, false⟩, ⟨"created_at", .int, false⟩,
      ⟨"meta_data", .object, true⟩]
  | .balances => [⟨"balance", .string, false⟩, ⟨"version", .int, false⟩, ⟨"inflight_balance", .string, false⟩,
      ⟨"credit_balance", .string, false⟩, ⟨"inflight_credit_balance", .string, false⟩,
      ⟨"debit_balance", .string, false⟩, ⟨"inflight_debit_balance", .string, false⟩,
      ⟨"precision", .float, false⟩, ⟨"ledger_id", .string, false⟩, ⟨"identity_id", .string, true⟩,
      ⟨"balance_id", .string, false⟩, ⟨"indicator", .string, false⟩, ⟨"currency", .string, false⟩,
      ⟨"created_at", .int, false⟩, ⟨"inflight_expires_at", .int, false⟩, ⟨"meta_data", .object, true⟩]
  | .transactions => [⟨"precise_amount", .string, false⟩, ⟨"amount", .float, false⟩,
      ⟨"precision", .float, false⟩, ⟨"transaction_id", .string, false⟩,
      ⟨"parent_transaction", .string, false⟩, ⟨"source", .string, false⟩,
      ⟨"destination", .string, false⟩, ⟨"reference", .string, false⟩, ⟨"currency", .string, false⟩,
      ⟨"description", .string, false⟩, ⟨"status", .string, false⟩, ⟨"hash", .string, false⟩,
      ⟨"allow_overdraft", .bool, false⟩, ⟨"inflight", .bool, false⟩, ⟨"created_at", .int, false⟩,
      ⟨"scheduled_for", .int, false⟩, ⟨"inflight_expiry_date", .int, false⟩,
      ⟨"effective_date", .int, false⟩, ⟨"meta_data", .object, true⟩]
  | .reconciliations => [⟨"reconciliation_id", .string, false⟩, ⟨"upload_id", .string, false⟩,
      ⟨"status", .string, false⟩, ⟨"matched_transactions", .int, false⟩,
      ⟨"unmatched_transactions", .int, false⟩, ⟨"started_at", .int, false⟩,
      ⟨"completed_at", .int, false⟩]
  | .identities => [⟨"identity_id", .string, false⟩, ⟨"identity_type", .string, false⟩,
      ⟨"organization_name", .string, false⟩, ⟨"category", .string, false⟩,
      ⟨"first_name", .string, false⟩, ⟨"last_name", .string, false⟩, ⟨"other_names", .string, false⟩,
      ⟨"gender", .string, false⟩, ⟨"email_address", .string, false⟩, ⟨"phone_number", .string, false⟩,
      ⟨"nationality", .string, false⟩, ⟨"street", .string, false⟩, ⟨"country", .string, false⟩,
      ⟨"state", .string, false⟩, ⟨"post_code", .string, false⟩, ⟨"city", .string, false⟩,
      ⟨"dob", .int, false⟩, ⟨"created_at", .int, false⟩, ⟨"meta_data", .object, true⟩]

/-- `IDField` (`internal/search/search.go:52-84`). -/
def idField : Coll → String
  | .ledgers => "ledger_id" | .balances => "balance_id" | .transactions => "transaction_id"
  | .reconciliations => "reconciliation_id" | .identities => "identity_id"

/-- `TimeFields` (`internal/search/search.go:52-84`). -/
def timeFields : Coll → List String
  | .ledgers => ["created_at"]
  | .balances => ["created_at", "inflight_expires_at"]
  | .transactions => ["created_at", "scheduled_for", "inflight_expiry_date", "effective_date"]
  | .reconciliations => ["started_at", "completed_at"]
  | .identities => ["created_at", "dob"]

/-- `BigIntFields` (`internal/search/search.go:52-84`). -/
def bigFields : Coll → List String
  | .balances => ["balance", "credit_balance", "debit_balance", "inflight_balance",
      "inflight_credit_balance", "inflight_debit_balance"]
  | .transactions => ["precise_amount"]
  | _ => []

/-! ### The document made from a record -/

/-- A whole number after `json.Unmarshal` into an interface: the nearest float. -/
def asFloat (n : Int) : Int := n.sign * (Auth.toFloat n.natAbs : Nat)

/-- `json.Marshal` and `json.Unmarshal` into a map (`toMap`, `internal/search/search.go:282-300`;
`queue.go:199-225` with `cmd/workers.go:208-222`). -/
def throughJson (d : Data) : Data :=
  d.map fun e => (e.1, match e.2 with
    | .num n => .num (asFloat n)
    | v => v)

/-- `processMetadata` (`internal/search/search.go:303-320`). -/
def metaStep (d : Data) : Data :=
  match look d "meta_data" with
  | some .null => put d "meta_data" (.obj "{}")
  | _ => d

/-- `convertNumberField` (`internal/search/search.go:330-340`): `%.0f` of a whole float is its value in
decimals. -/
def bigStep (d : Data) (f : String) : Data :=
  match look d f with
  | some (.num n) => put d f (.str (toString n))
  | _ => d

/-- `getDefaultValue` (`internal/search/search.go:507-522`). -/
def default : Ty → JV
  | .string => .str "" | .int => .num 0 | .float => .num 0 | .bool => .bool false
  | .object => .null

/-- First loop of `ensureSchemaFields` (`internal/search/search.go:353-360`). -/
def needStep (d : Data) (f : Field) : Data :=
  match look d f.name with
  | some _ => d
  | none => if f.optional then d else put d f.name (default f.ty)

/-- Second loop of `ensureSchemaFields` (`internal/search/search.go:362-368`). -/
def emptyStep (d : Data) (f : Field) : Data :=
  if f.optional then
    match look d f.name with
    | some (.str "") => del d f.name
    | _ => d
  else d

/-- `normalizeTimeFields` (`internal/search/search.go:372-403`), for one field. -/
def timeStep (d : Data) (f : String) : Data :=
  match look d f with
  | none => d
  | some (.time s) => put d f (.num s)
  | some (.num n) => put d f (.num n)
  | some (.str s) => if s = "" then del d f else put d f (.num 0)
  | some _ => put d f (.num 0)

/-- `upsertDocument` (`internal/search/search.go:414-436`): the document names itself. -/
def idStep (c : Coll) (d : Data) : Data :=
  match look d (idField c) with
  | some (.str s) => if s = "" then d else put d "id" (.str s)
  | _ => d

/-- `HandleNotification` (`internal/search/search.go:231-247`): the document sent. -/
def handle (c : Coll) (d : Data) : Data :=
  let d := metaStep d
  let d := (bigFields c).foldl bigStep d
  let d := (schema c).foldl needStep d
  let d := (schema c).foldl emptyStep d
  let d := (timeFields c).foldl timeStep d
  idStep c d

/-! ### Records -/

/-- A text, or nothing at all if empty (`omitempty`). -/
def unlessEmpty (k s : String) : Data := if s = "" then [] else [(k, .str s)]

/-- Meta data: a nil map is `null`. -/
def metaOf : Option String → JV
  | some t => .obj t
  | none => .null

structure BalanceRec where
  balance : Int
  version : Int
  inflight : Int
  credit : Int
  inflightCredit : Int
  debit : Int
  inflightDebit : Int
  ledger : String
  identity : String
  id : String
  indicator : String
  currency : String
  created : Int
  expires : Int
  md : Option String
  track : Bool
  strategy : String
deriving DecidableEq, Repr

/-- JSON of `model.Balance` (`model/balance.go:24-47`), without nested objects and queued
amounts, which the indexing callers do not load. -/
def BalanceRec.json (r : BalanceRec) : Data :=
  [("balance", .num r.balance), ("version", .num r.version), ("inflight_balance", .num r.inflight),
   ("credit_balance", .num r.credit), ("inflight_credit_balance", .num r.inflightCredit),
   ("debit_balance", .num r.debit), ("inflight_debit_balance", .num r.inflightDebit),
   ("ledger_id", .str r.ledger), ("identity_id", .str r.identity), ("balance_id", .str r.id)]
  ++ unlessEmpty "indicator" r.indicator ++
  [("currency", .str r.currency), ("created_at", .time r.created),
   ("inflight_expires_at", .time r.expires), ("meta_data", metaOf r.md),
   ("track_fund_lineage", .bool r.track)]
  ++ unlessEmpty "allocation_strategy" r.strategy

/-- Seconds of Go's zero time. -/
def zeroTime : Int := -62135596800

/-- What `GetAllBalances` reads of a stored balance (`database/balance.go:644-649`): no
version, no expiry, no lineage settings. -/
def BalanceRec.row (r : BalanceRec) : BalanceRec :=
  { r with version := 0, expires := zeroTime, track := false, strategy := "" }

structure TxnRec where
  precise : Int
  amount : JV
  amountString : String
  precision : Int
  overdraft : Int
  id : String
  parent : String
  source : String
  destination : String
  reference : String
  currency : String
  description : String
  status : String
  hash : String
  allowOverdraft : Bool
  inflight : Bool
  skipQueue : Bool
  atomic : Bool
  created : Int
  effective : Option Int
  scheduled : Int
  expiry : Int
  commit : Int
  md : Option String
deriving DecidableEq, Repr

/-- JSON of `model.Transaction` (`model/transaction.go:56-86`), without legs. Whole precisions
and limits only. -/
def TxnRec.json (r : TxnRec) : Data :=
  [("precise_amount", .num r.precise), ("amount", r.amount)]
  ++ unlessEmpty "amount_string" r.amountString ++
  [("precision", .num r.precision), ("overdraft_limit", .num r.overdraft),
   ("transaction_id", .str r.id), ("parent_transaction", .str r.parent)]
  ++ unlessEmpty "source" r.source ++ unlessEmpty "destination" r.destination ++
  [("reference", .str r.reference), ("currency", .str r.currency)]
  ++ unlessEmpty "description" r.description ++
  [("status", .str r.status), ("hash", .str r.hash), ("allow_overdraft", .bool r.allowOverdraft),
   ("inflight", .bool r.inflight), ("skip_queue", .bool r.skipQueue), ("atomic", .bool r.atomic),
   ("created_at", .time r.created)]
  ++ (match r.effective with
      | some e => [("effective_date", JV.time e)]
      | none => []) ++
  [("scheduled_for", .time r.scheduled), ("inflight_expiry_date", .time r.expiry),
   ("inflight_commit_date", .time r.commit)]
  ++ (match r.md with
      | some t => [("meta_data", JV.obj t)]
      | none => [])

/-- What `GetAllTransactions` reads of a stored transaction
(`database/transaction_queries.go:276-281`). The flags are not columns at all. -/
def TxnRec.row (r : TxnRec) : TxnRec :=
  { r with amountString := "", overdraft := 0, allowOverdraft := false, inflight := false,
           skipQueue := false, atomic := false, scheduled := zeroTime, expiry := zeroTime,
           commit := zeroTime }

structure LedgerRec where
  id : String
  name : String
  created : Int
  md : Option String
deriving DecidableEq, Repr

/-- JSON of `model.Ledger` (`model/ledger.go:20-26`). -/
def LedgerRec.json (r : LedgerRec) : Data :=
  [("ledger_id", .str r.id), ("name", .str r.name), ("created_at", .time r.created),
   ("meta_data", metaOf r.md)]

structure IdentityRec where
  id : String
  kind : String
  organization : String
  category : String
  first : String
  last : String
  others : String
  gender : String
  email : String
  phone : String
  nationality : String
  street : String
  country : String
  state : String
  post : String
  city : String
  dob : Int
  created : Int
  md : Option String
deriving DecidableEq, Repr

/-- JSON of `model.Identity` (`model/identity.go:23-43`). -/
def IdentityRec.json (r : IdentityRec) : Data :=
  [("identity_id", .str r.id), ("identity_type", .str r.kind), ("organization_name", .str r.organization),
   ("category", .str r.category), ("first_name", .str r.first), ("last_name", .str r.last),
   ("other_names", .str r.others), ("gender", .str r.gender), ("email_address", .str r.email),
   ("phone_number", .str r.phone), ("nationality", .str r.nationality), ("street", .str r.street),
   ("country", .str r.country), ("state", .str r.state), ("post_code", .str r.post),
   ("city", .str r.city), ("dob", .time r.dob), ("created_at", .time r.created),
   ("meta_data", metaOf r.md)]

structure ReconRec where
  id : String
  upload : String
  status : String
  matched : Int
  unmatched : Int
  dry : Bool
  started : Int
  completed : Option Int
deriving DecidableEq, Repr

/-- JSON of `model.Reconciliation` (`model/reconciliation_model.go:38-48`). -/
def ReconRec.json (r : ReconRec) : Data :=
  [("reconciliation_id", .str r.id), ("upload_id", .str r.upload), ("status", .str r.status),
   ("matched_transactions", .num r.matched), ("unmatched_transactions", .num r.unmatched),
   ("is_dry_run", .bool r.dry), ("started_at", .time r.started),
   ("completed_at", match r.completed with
      | some t => .time t
      | none => .null)]

/-- A record of any collection. -/
inductive Rec
  | ledger (r : LedgerRec) | identity (r : IdentityRec) | balance (r : BalanceRec)
  | txn (r : TxnRec) | recon (r : ReconRec)
deriving DecidableEq, Repr

def Rec.coll : Rec → Coll
  | .ledger _ => .ledgers | .identity _ => .identities | .balance _ => .balances
  | .txn _ => .transactions | .recon _ => .reconciliations

def Rec.id : Rec → String
  | .ledger r => r.id | .identity r => r.id | .balance r => r.id | .txn r => r.id | .recon r => r.id

def Rec.json : Rec → Data
  | .ledger r => r.json | .identity r => r.json | .balance r => r.json | .txn r => r.json
  | .recon r => r.json

/-- The document an index task sends for a record. -/
def doc (r : Rec) : Data := handle r.coll (throughJson r.json)

/-- What a rebuild reads of a record; reconciliations are not read
(`internal/search/reindex.go:130-146`). -/
def Rec.row : Rec → Option Rec
  | .ledger r => some (.ledger r)
  | .identity r => some (.identity r)
  | .balance r => some (.balance r.row)
  | .txn r => some (.txn r.row)
  | .recon _ => none

/-- The document a rebuild sends for a record (`internal/search/reindex.go:286-497`). -/
def rebuilt (r : Rec) : Option Data := r.row.map doc

end Blnk.Srch
