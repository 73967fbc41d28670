import Verif.Model.Ledger
/-
Holds: committing and voiding inflight transactions (`transaction_inflight.go`).
Each call runs under the lock `inflight-commit:<id>` (`:202-210`, `:465-473`), so for one
transaction calls are modelled as one step after the other.
-/
namespace Blnk

/-- Refusals before anything is posted. -/
inductive InfErr
  /-- no such row (`transaction_inflight.go:523-545`; `GetTransaction` wraps `sql.ErrNoRows`,
  so the queue lookup of `:527` is not reached) -/
  | notFound
  /-- "transaction is not in inflight status" (`:548`) -/
  | notInflight
  /-- "transaction has already been voided" (`:560`) -/
  | voided
  /-- "cannot commit/void. Transaction already committed" (`:323`, `:487`) -/
  | alreadyCommitted
  /-- "commit amount cannot be negative" (`:339`) -/
  | negative
  /-- "cannot commit more than the original transaction amount" (`:350`) -/
  | exceedsOriginal
  /-- "cannot commit more than the remaining amount" (`:356`) -/
  | exceedsRemaining
deriving DecidableEq, Repr

/-- `GetTransaction` (`database/transaction_queries.go:34-83`): the flags that have no
column come back unset; metadata is kept. -/
def DB.getTxn (db : DB) (id : String) : Option Txn :=
  (db.txns.find? (fun t => t.id = id)).map fun t =>
    { t with allowOverdraft := false, overdraftLimit := 0, inflight := false, atomic := false, skipQueue := false }

/-- `IsInflightTransaction` (`transaction_inflight.go:79-84`). -/
def isInflightTxn (t : Txn) : Bool := t.status = .inflight || (t.status = .queued && t.metaInflight = some true)

/-- `IsParentTransactionVoid` (`database/transaction_queries.go:93-123`). -/
def DB.parentVoid (db : DB) (id : String) : Bool := db.txns.any (fun t => t.parent = id && t.status = .void)

/-- `GetTotalCommittedTransactions` (`database/transaction_inflight.go:31-72`). -/
def DB.totalCommitted (db : DB) (id : String) : Int :=
  ((db.txns.filter (fun t => t.parent = id && t.status = .applied)).map (fun t => t.preciseAmount.getD 0)).sum

/-- `fetchAndValidateInflightTransaction` (`transaction_inflight.go:517-565`). -/
def fetchInflight (db : DB) (id : String) : Except InfErr Txn :=
  match db.getTxn id with
  | none => .error .notFound
  | some t =>
    if isInflightTxn t then
      if db.parentVoid id then .error .voided else .ok t
    else .error .notInflight

/-- `calculateRemainingAmount` (`transaction_inflight.go:577-591`). -/
def remaining (db : DB) (t : Txn) : Int := t.preciseAmount.getD 0 - db.totalCommitted t.id

/-- `validateRequestedAmount` and `updateTransactionAmount`
(`transaction_inflight.go:337-376`): the amount to settle. -/
def settleAmount (t : Txn) (amt left : Int) : Except InfErr Int :=
  if left = 0 then .error .alreadyCommitted
  else if amt < 0 then .error .negative
  else if amt = 0 then .ok left
  else if amt > t.preciseAmount.getD 0 then .error .exceedsOriginal
  else if amt > left then .error .exceedsRemaining
  else .ok amt

/-- `finalizeCommitment` (`transaction_inflight.go:403-417`): the settlement row. When the
whole remainder is committed the decimal amount is recomputed too (`:372-374`). -/
def commitTxn (t : Txn) (p : Int) (amt : Rat) (newId ref : String) : Txn :=
  { t with status := .commit, inflight := false, parent := t.id, id := newId, reference := ref,
           preciseAmount := some p, amount := amt }

/-- `CommitInflightTransactionWithRef` (`transaction_inflight.go:198-236`). -/
def commitInflight (cfg : Cfg) (db : DB) (id : String) (amt : Int) (newId ref n1 n2 : String) :
    DB × Except InfErr Outcome :=
  match fetchInflight db id with
  | .error e => (db, .error e)
  | .ok t => match settleAmount t amt (remaining db t) with
    | .error e => (db, .error e)
    | .ok p =>
      let a := if amt = 0 then (p : Rat) / t.precision else t.amount
      let r := recordSingle cfg db (commitTxn t p a newId ref) n1 n2
      (r.1, .ok r.2)

/-- `finalizeVoidTransaction` (`transaction_inflight.go:604-627`). `ApplyPrecision` runs on
the row before it is recorded. -/
def voidTxn (t : Txn) (left : Int) (newId ref : String) : Txn :=
  ({ t with status := .void, inflight := false, parent := t.id, id := newId, reference := ref,
            preciseAmount := some left } : Txn).applyPrecision

/-- `VoidInflightTransactionWithRef` (`transaction_inflight.go:461-505`). -/
def voidInflight (cfg : Cfg) (db : DB) (id : String) (newId ref n1 n2 : String) : DB × Except InfErr Outcome :=
  match fetchInflight db id with
  | .error e => (db, .error e)
  | .ok t =>
    if remaining db t = 0 then (db, .error .alreadyCommitted)
    else
      let r := recordSingle cfg db (voidTxn t (remaining db t) newId ref) n1 n2
      (r.1, .ok r.2)

/-- The reads and checks of a commit, up to the transaction handed to `RecordTransaction`
(`transaction_inflight.go:211-229`, `403-417`). -/
def decideCommit (db : DB) (id : String) (amt : Int) (newId ref : String) : Except InfErr Txn :=
  match fetchInflight db id with
  | .error e => .error e
  | .ok t => match settleAmount t amt (remaining db t) with
    | .error e => .error e
    | .ok p => .ok (commitTxn t p (if amt = 0 then (p : Rat) / t.precision else t.amount) newId ref)

/-- The reads and checks of a void, up to the transaction handed to `RecordTransaction`
(`transaction_inflight.go:474-497`, `604-620`). -/
def decideVoid (db : DB) (id newId ref : String) : Except InfErr Txn :=
  match fetchInflight db id with
  | .error e => .error e
  | .ok t => if remaining db t = 0 then .error .alreadyCommitted else .ok (voidTxn t (remaining db t) newId ref)

/-- What can happen to a ledger with holds. -/
inductive Act
  /-- an ordinary operation: open an account, post, post a batch, store a row -/
  | base (op : Op)
  | commit (id : String) (amt : Int) (newId ref n1 n2 : String)
  | void (id newId ref n1 n2 : String)
deriving Repr

/-- The next state. -/
def act (cfg : Cfg) (db : DB) : Act → DB
  | .base op => (step cfg db op).1
  | .commit id amt newId ref n1 n2 => (commitInflight cfg db id amt newId ref n1 n2).1
  | .void id newId ref n1 n2 => (voidInflight cfg db id newId ref n1 n2).1

/-- A history. -/
def acts (cfg : Cfg) (db : DB) : List Act → DB
  | [] => db
  | a :: as => acts cfg (act cfg db a) as

/-- `inflightActionReference` (`transaction_inflight.go:639-644`). -/
def inflightActionReference (leg action actionID : String) : String :=
  if actionID = "" then "" else leg ++ "_" ++ action ++ "_" ++ actionID

end Blnk
