import Verif.Model.Records
/-
What is shown of a transaction and of a balance, by each of the requests that read one.

Numbers are exact here: that an amount passes through a float on its way is the matter of
`Model/Request.lean`. Metadata is a list of keys with their values, of which only truth values matter.
Not modelled: rows that cannot be read for other reasons than the ones shown, and queued amounts.
-/
namespace Blnk.Views
open Errs

/-- A value in metadata: a truth value, or something else, as its JSON text. -/
inductive Val
  | bool (b : Bool)
  | other (json : Text)
deriving DecidableEq, Repr

/-- A JSON object; no key occurs twice. -/
abbrev Info := List (Text × Val)

def look (k : Text) (m : Info) : Option Val := (m.find? (fun e => e.1 = k)).map (·.2)

def without (k : Text) (m : Info) : Info := m.filter (fun e => e.1 ≠ k)

/-- `m[k] = v`. -/
def put (k : Text) (v : Val) (m : Info) : Info := without k m ++ [(k, v)]

/-- Go's zero time, in nanoseconds since 1970. -/
def zeroTime : Int := -62135596800000000000

/-! ### Transactions -/

/-- A row of `blnk.transactions` (`database/transaction.go:58-60`); a parent or effective date that is NULL
is `none`, metadata is `none` for JSON null. -/
structure TxnRow where
  id : Text
  source : Text
  destination : Text
  reference : Text
  currency : Text
  description : Text
  status : Text
  hash : Text
  parent : Option Text
  amount : Rat
  precise : Int
  precision : Rat
  createdAt : Int
  effectiveDate : Option Int
  scheduledFor : Int
  info : Option Info
deriving DecidableEq

/-- `model.Transaction` as JSON (`model/transaction.go:56-86`); a field that is not set has Go's zero. -/
structure TxnView where
  precise : Int := 0
  amount : Rat := 0
  amountString : Text := []
  precision : Rat := 0
  overdraftLimit : Rat := 0
  id : Text := []
  parent : Text := []
  source : Text := []
  destination : Text := []
  reference : Text := []
  currency : Text := []
  description : Text := []
  status : Text := []
  hash : Text := []
  allowOverdraft : Bool := false
  inflight : Bool := false
  skipQueue : Bool := false
  atomic : Bool := false
  createdAt : Int := zeroTime
  effectiveDate : Option Int := none
  scheduledFor : Int := zeroTime
  inflightExpiry : Int := zeroTime
  inflightCommit : Int := zeroTime
  info : Option Info := none
deriving DecidableEq

/-- The requests that read transactions: `/transactions/:id`, `/transactions/reference/:reference`, and the
lists without and with filters. -/
inductive TxnRead
  | byId | byReference | listed | filtered
deriving DecidableEq, Repr

/-- The columns each of them selects and scans (`database/transaction_queries.go:34-83,214-262,270-365`,
`database/transaction_filters.go:74,112-183`). -/
def scanTxn : TxnRead → TxnRow → TxnView
  | .byId, r =>
    { id := r.id, source := r.source, reference := r.reference, amount := r.amount, precise := r.precise,
      precision := r.precision, currency := r.currency, destination := r.destination,
      description := r.description, status := r.status, createdAt := r.createdAt, info := r.info,
      parent := r.parent.getD [], hash := r.hash }
  | .byReference, r =>
    { id := r.id, source := r.source, reference := r.reference, amount := r.amount, precise := r.precise,
      currency := r.currency, destination := r.destination, description := r.description,
      status := r.status, createdAt := r.createdAt, info := r.info, parent := r.parent.getD [] }
  | .listed, r | .filtered, r =>
    { id := r.id, source := r.source, reference := r.reference, amount := r.amount, precise := r.precise,
      precision := r.precision, currency := r.currency, destination := r.destination,
      description := r.description, status := r.status, hash := r.hash, createdAt := r.createdAt,
      effectiveDate := r.effectiveDate, info := r.info, parent := r.parent.getD [] }

/-- `transformTransaction` (`api/transactions.go:45-89`), which every answer goes through. -/
def transform (v : TxnView) : TxnView :=
  match v.info with
  | none => v
  | some m =>
    if look (t! "inflight") m = some (.bool true) then
      { v with inflight := true, info := if without (t! "inflight") m = [] then none else some (without (t! "inflight") m) }
    else { v with info := if m = [] then none else some m }

/-- What a request that finds the row shows of it (`api/transactions.go:304-310,331-337,387-394,404-410,448-458`). -/
def showTxn (k : TxnRead) (r : TxnRow) : TxnView := transform (scanTxn k r)

/-- A transaction to be applied at once, as submitted (`api/model/transaction.go:24-47`), with one source and one
destination given by their balances' ids. -/
structure Submitted where
  source : Text
  destination : Text
  reference : Text
  currency : Text
  description : Text := []
  amount : Rat
  precise : Int
  precision : Rat
  overdraftLimit : Rat := 0
  allowOverdraft : Bool := false
  inflight : Bool := false
  atomic : Bool := false
  effectiveDate : Option Int := none
  scheduledFor : Int := zeroTime
  info : Option Info := none

/-- `setTransactionMetadata` (`transaction_queue.go:342-368`). -/
def flagged (s : Submitted) : Info :=
  let m0 := s.info.getD []
  let m1 := if s.inflight then put (t! "inflight") (.bool true) m0 else m0
  let m2 := if s.atomic then put (t! "atomic") (.bool true) m1 else m1
  if s.allowOverdraft then put (t! "allow_overdraft") (.bool true) m2 else m2

/-- The row of a transaction applied at once: the status of `updateTransactionDetails`
(`transaction_execution.go:198-209`), `clearTerminalInflightMetadata` (`transaction_inflight.go:86-95`) and the
insertion (`database/transaction.go:89-93`). -/
def stored (id hash : Text) (now : Int) (s : Submitted) : TxnRow where
  id
  hash
  source := s.source
  destination := s.destination
  reference := s.reference
  currency := s.currency
  description := s.description
  status := if s.inflight then t! "INFLIGHT" else t! "APPLIED"
  parent := some []
  amount := s.amount
  precise := s.precise
  precision := s.precision
  createdAt := now
  effectiveDate := some (s.effectiveDate.getD now)
  scheduledFor := s.scheduledFor
  info := some (if s.inflight then flagged s else without (t! "inflight") (flagged s))

/-- `m || patch` of JSON objects. -/
def merge (m patch : Info) : Info := patch.foldl (fun m e => put e.1 e.2 m) m

/-- An update of a transaction's metadata (`database/metadata.go:53-58`, `metadata.go:88-120`). -/
def updateInfo (patch : Info) (r : TxnRow) : TxnRow := { r with info := some (merge (r.info.getD []) patch) }

/-! ### Balances -/

/-- A row of `blnk.balances`; an owner, indicator or strategy that is NULL is `none`. -/
structure BalRow where
  id : Text
  balance : Int
  credit : Int
  debit : Int
  inflightBalance : Int
  inflightCredit : Int
  inflightDebit : Int
  version : Nat
  currency : Text
  ledger : Text
  identity : Option Text
  indicator : Option Text
  createdAt : Int
  info : Option Info
  track : Bool
  strategy : Option Text
deriving DecidableEq

/-- `model.Balance` as JSON (`model/balance.go:24-47`), the records included left out. -/
structure BalView where
  id : Text
  balance : Int
  credit : Int
  debit : Int
  inflightBalance : Int
  inflightCredit : Int
  inflightDebit : Int
  version : Nat := 0
  currency : Text
  ledger : Text
  identity : Text
  indicator : Text
  createdAt : Int
  info : Option Info := none
  track : Bool := false
  strategy : Text := []
deriving DecidableEq

/-- The requests that read balances: `/balances/:id`, `/balances/indicator/:indicator/currency/:currency`, and
the lists without and with filters. -/
inductive BalRead
  | byId | byIndicator | listed | filtered
deriving DecidableEq, Repr

/-- The columns each of them selects and scans (`database/balance.go:63-69,121-125,557-582,644-684,1765,1812-1853`). -/
def showBal : BalRead → BalRow → BalView
  | .byId, r =>
    { id := r.id, balance := r.balance, credit := r.credit, debit := r.debit, currency := r.currency,
      ledger := r.ledger, identity := r.identity.getD [], createdAt := r.createdAt, info := r.info,
      inflightBalance := r.inflightBalance, inflightCredit := r.inflightCredit, inflightDebit := r.inflightDebit,
      version := r.version, indicator := r.indicator.getD [], track := r.track, strategy := r.strategy.getD (t! "FIFO") }
  | .byIndicator, r =>
    { id := r.id, indicator := r.indicator.getD [], currency := r.currency, ledger := r.ledger,
      balance := r.balance, credit := r.credit, debit := r.debit, inflightBalance := r.inflightBalance,
      inflightCredit := r.inflightCredit, inflightDebit := r.inflightDebit, createdAt := r.createdAt,
      version := r.version, track := r.track, strategy := r.strategy.getD (t! "FIFO"), identity := r.identity.getD [] }
  | .listed, r | .filtered, r =>
    { id := r.id, indicator := r.indicator.getD [], balance := r.balance, credit := r.credit, debit := r.debit,
      inflightBalance := r.inflightBalance, inflightCredit := r.inflightCredit, inflightDebit := r.inflightDebit,
      currency := r.currency, ledger := r.ledger, identity := r.identity.getD [], createdAt := r.createdAt,
      info := r.info }

/-- The identity included in a balance: the columns of `i` selected, the others empty
(`database/balance.go:72-78,128-133`). -/
def included (i : Book.Identity) : Book.Identity :=
  { i with get := fun f => if f = .identityType then [] else i.get f, info := none }

/-- A balance with the records asked for. -/
structure Full where
  view : BalView
  owner : Option Book.Identity := none
  ledger : Option Book.Ledger := none

/-- `GET /balances/:id?include=…` (`api/balance.go:74-94`, `database/balance.go:60-106,110-192,291-308`). The identity is
joined from the left: without one its columns are NULL, which a string cannot hold, and the row is not
read. The ledger is always there. Other words than the two are not looked at. -/
def getBalance (rows : List BalRow) (idents : List Book.Identity) (ledgers : List Book.Ledger) (include_ : List Text)
    (id : Text) : Except Resp Full :=
  match rows.find? (fun r => r.id = id) with
  | none => .error (respondError { upgrades := [("GEN_NOT_FOUND", "BAL_NOT_FOUND")] }
      (api "NOT_FOUND" (t! "Balance with ID '" ++ id ++ t! "' not found") none))
  | some r =>
    let owner := r.identity.bind (fun o => idents.find? (fun i => i.id = o))
    let ledger := ledgers.find? (fun l => l.id = r.ledger)
    let wantOwner := decide (t! "identity" ∈ include_)
    let wantLedger := decide (t! "ledger" ∈ include_)
    if (wantOwner && owner.isNone) || (wantLedger && ledger.isNone) then
      .error (respondError { upgrades := [("GEN_NOT_FOUND", "BAL_NOT_FOUND")] }
        (api "INTERNAL_SERVER_ERROR" (t! "Failed to scan balance data") none))
    else .ok { view := showBal .byId r, owner := if wantOwner then owner.map included else none,
               ledger := if wantLedger then ledger.map (fun l => { l with info := none }) else none }

/-- `GET /balances/indicator/:indicator/currency/:currency` (`api/balance.go:453-473`, `database/balance.go:545-588`). -/
def getByIndicator (rows : List BalRow) (indicator currency : Text) : Except Resp BalView :=
  match rows.find? (fun r => r.indicator = some indicator ∧ r.currency = currency) with
  | some r => .ok (showBal .byIndicator r)
  | none => .error (respondError { upgrades := [("GEN_NOT_FOUND", "BAL_NOT_FOUND")] }
      (plain (t! "balance with indicator '" ++ indicator ++ t! "' not found")))

end Blnk.Views
