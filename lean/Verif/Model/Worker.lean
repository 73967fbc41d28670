import Verif.Model.Queue
/-
One delivery of a queued transaction: `processTransaction` (`cmd/workers.go:61-179`), and one
recovery pass over a stuck row: `processStuckTransaction` (`queue_recovery.go:160-224`).

Both decide by the *text* of the error, so errors are modelled by their texts.
-/
namespace Blnk.Queue

/-- `strings.Contains`. -/
def containsChars (sub : List Char) : List Char → Bool
  | [] => sub.isEmpty
  | c :: cs => sub.isPrefixOf (c :: cs) || containsChars sub cs

/-- `strings.Contains(strings.ToLower(msg), sub)`. Simplified: lower-casing is ASCII. -/
def says (msg sub : String) : Bool := containsChars sub.toList (msg.toList.map Char.toLower)

/-- `IsDuplicateReferenceError` (`transaction_execution.go:293-308`). The database error is wrapped
in an `APIError` without `Unwrap` (`internal/apierror/apierror.go`), so the first branch, which
looks for a `pq.Error`, is never taken here. -/
def isDuplicateText (msg : String) : Bool :=
  (says msg "duplicate key value violates unique constraint" && says msg "reference") ||
  (says msg "reference" && says msg "already been used")

/-- The message for a missing account (`database/balance.go:307`, `:389`, wrapped at
`transaction_execution.go:674`). The id is what the client wrote. -/
def notFoundText (id : String) : String :=
  "failed to get source and destination balances: NOT_FOUND: Balance with ID '" ++ id ++ "' not found"

/-- The message of a lost update (`database/balance.go:900`, wrapped at
`transaction_execution.go:749`). -/
def conflictText (id : String) : String :=
  "failed to persist transaction with balances: CONFLICT: Optimistic locking failure: balance with ID '" ++ id ++
    "' may have been updated or deleted by another transaction"

/-- Texts of the balance errors (`model/model.go:200`, `204`, `209-224`, `450-461`, wrapped at
`transaction_execution.go:710`). -/
def balText : BalErr → String
  | .insufficientFunds => "failed to apply transaction to balances: insufficient funds in source balance"
  | .exceedsOverdraft => "failed to apply transaction to balances: transaction exceeds overdraft limit"
  | .amountNotPositive => "failed to apply transaction to balances: transaction amount must be positive"
  | .preciseNotPositive => "failed to apply transaction to balances: transaction precise amount must be positive"
  | .insufficientInflightDebit =>
      "failed to apply transaction to balances: commit inflight debit failed: insufficient inflight debit balance"
  | .insufficientInflightCredit =>
      "failed to apply transaction to balances: commit inflight credit failed: insufficient inflight credit balance"
  | .nilAmount => "runtime error: invalid memory address or nil pointer dereference"

/-- The text of a refusal of the single path. -/
def errText (db : DB) (t : Txn) : OpErr → String
  | .duplicateRef => "transaction validation failed: reference " ++ t.reference ++ " has already been used"
  | .balanceNotFound => notFoundText (if (db.find t.source).isNone then t.source else t.destination)
  | .conflict => conflictText t.source
  | .bal e => balText e
  | .duplicateId => "failed to persist transaction with balances: INTERNAL_SERVER_ERROR: Failed to record transaction"
  | .balanceExists => "failed to resolve balance IDs: CONFLICT: Balance already exists"
  | .mixedCurrencies => "coalescing batch contains multiple currencies"
  | .missingRef => "batch transaction validation failed"
  | .zeroAmount => "batch coalescing does not support zero-amount transactions"

/-- Worker configuration (`config.Queue`). -/
structure WCfg where
  base : Cfg := {}
  insufficientFundRetries : Bool := false
  rejectContention : Bool := false
  maxRetry : Nat := 5

/-- `hasReachedMaxRetryAttempt` (`cmd/workers.go:167-172`). -/
def WCfg.exhausted (w : WCfg) (retry : Nat) : Bool := 0 < w.maxRetry && w.maxRetry ≤ retry

/-- `IsLockContentionError` (`internal/hotpairs/router.go:165-179`) on texts. -/
def isContention (msg : String) : Bool :=
  says msg "already held" || says msg "failed to acquire lock" || says msg "failed to acquire batch lock"

/-- What the worker tells the queue: the task is done, or deliver it again. -/
inductive Ans
  | ack
  | retry
deriving DecidableEq, Repr

/-- Everything about a delivery that is not decided by the worker: the siblings each coalescing
attempt finds (empty: no attempt), what other processes do in between, a fault of the lock, the
hooks or the database during the single attempt, and faults while rejecting. -/
structure Env where
  hot : Bool := false
  sibs1 : List Txn := []
  sibs2 : List Txn := []
  sibs3 : List Txn := []
  gap1 : List Act := []
  gap2 : List Act := []
  gap3 : List Act := []
  gap4 : List Act := []
  fault : Option String := none
  n1 : String := ""
  n2 : String := ""
  rejectFault : Bool := false
  afterReject : Bool := false

/-- `tryRecordQueuedTransactionBatch` (`transaction_coalescing.go:45-125`): batches of at least
two; a refused batch is "not handled". -/
def tryBatch (cfg : Cfg) (db : DB) (leader : Txn) (sibs : List Txn) : DB × Bool :=
  match sibs with
  | [] => (db, false)
  | sibs => match recordBatch cfg db (leader :: sibs) with
    | (db', .posted _) => (db', true)
    | (db', _) => (db', false)

/-- `handleTransactionRejection` (`cmd/workers.go:154-165`); what an atomic rejection takes back is in
`Model/GroupUndo.lean`. `afterReject` stands for an atomic
transaction without its parent mark or a failing webhook: the row is stored but an error is
returned. -/
def doReject (cfg : Cfg) (e : Env) (db : DB) (t : Txn) : DB × Ans :=
  if e.rejectFault then (db, .retry)
  else match step cfg db (.store (rejectedRow t)) with
    | (db', .posted _) => (db', if e.afterReject then .retry else .ack)
    | (db', _) => (db', .retry)

/-- The error branch (`cmd/workers.go:87-140`). -/
def onError (w : WCfg) (e : Env) (retry : Nat) (db : DB) (t : Txn) (msg : String) : DB × Ans :=
  if isDuplicateText msg then (db, .ack)
  else if says msg "insufficient funds" then
    if !w.insufficientFundRetries || w.exhausted retry then doReject w.base e (acts w.base db e.gap4) t
    else (db, .retry)
  else if says msg "transaction exceeds overdraft limit" then doReject w.base e (acts w.base db e.gap4) t
  else if w.rejectContention && isContention msg then doReject w.base e (acts w.base db e.gap4) t
  else if w.exhausted retry then doReject w.base e (acts w.base db e.gap4) t
  else (db, .retry)

/-- The single attempt of a delivery (`transaction_execution.go:490-555`). -/
def singleAttempt (w : WCfg) (e : Env) (retry : Nat) (db : DB) (t : Txn) : DB × Ans :=
  match e.fault with
  | some msg => onError w e retry db t msg
  | none => match recordSingle w.base db t e.n1 e.n2 with
    | (db', .refused err) => onError w e retry db' t (errText db' t err)
    | (db', _) => (db', .ack)

/-- `processTransaction` (`cmd/workers.go:61-152`). On the hot queue the batch is tried a second
time whatever the first attempt said (`:76-78`). -/
def deliver (w : WCfg) (e : Env) (retry : Nat) (db : DB) (t : Txn) : DB × Ans :=
  let r1 := tryBatch w.base db t e.sibs1
  let db1 := acts w.base r1.1 e.gap1
  let r2 := if e.hot then tryBatch w.base db1 t e.sibs2 else (db1, r1.2)
  if r2.2 then (r2.1, .ack)
  else
    let db2 := acts w.base r2.1 e.gap2
    let r3 := tryBatch w.base db2 t e.sibs3
    if r3.2 then (r3.1, .ack)
    else singleAttempt w e retry (acts w.base r3.1 e.gap3) t

/-! ### Recovery -/

/-- A recovery system: the database and the `recovery_attempts` entry of each row's metadata
(absent reads as `0`; the stored number is trusted, whoever wrote it). -/
structure RSys where
  db : DB := {}
  attempts : String → Int := fun _ => 0

/-- Faults of one recovery pass over one row. -/
structure REnv where
  newId : String := ""
  sibs : List Txn := []
  n1 : String := ""
  n2 : String := ""
  /-- an error before the database is reached: lock, hook, connection -/
  fault : Bool := false
  /-- the metadata write fails (only logged, `queue_recovery.go:243-245`), or the process stops
  before it -/
  metaLost : Bool := false

/-- What a pass did. -/
inductive Pass
  /-- the row was not stuck: not QUEUED, or it has a child -/
  | skipped
  /-- an atomic sibling was rejected (`queue_recovery.go:183-199`) -/
  | sibling
  /-- replayed; `true` if the replay was applied -/
  | replayed (applied : Bool)
  /-- rejected, or tried to -/
  | rejected
deriving DecidableEq, Repr

/-- `GetStuckQueuedTransactions` (`database/transaction_recovery.go:33-105`), apart from the age
threshold: QUEUED rows without a child. -/
def isStuck (db : DB) (t : Txn) : Bool := t.status = .queued && !db.txns.any (fun c => c.parent = t.id)

/-- `processStuckTransaction` (`queue_recovery.go:160-224`) for a row found stuck; `max` is
`maxRecoveryAttempts`, 3 (`queue_recovery.go:52`). The siblings are read from the table, without the
limit of a hundred and the cache of `GetTransactionsByParent`; `SiblingPage.lean` has these. -/
def recoverRow (cfg : Cfg) (max : Int) (e : REnv) (s : RSys) (row : Txn) : RSys × Pass :=
  let t := restore (scan row)
  let n := s.attempts row.id + 1
  if max < n then
    ({ s with db := (step cfg s.db (.store (rejectedRow (queueCopy t e.newId)))).1 }, .rejected)
  else if t.atomic && t.metaQueuedParent ≠ "" &&
      s.db.txns.any (fun c => c.parent = t.metaQueuedParent && c.status = .rejected) then (s, .sibling)
  else
    let r := if e.fault then (s.db, false)
      else match tryBatch cfg s.db (queueCopy t e.newId) e.sibs with
        | (db', true) => (db', true)
        | (db', false) => match recordSingle cfg db' (queueCopy t e.newId) e.n1 e.n2 with
          | (db'', .posted _) => (db'', true)
          | (db'', _) => (db'', false)
    ({ db := r.1, attempts := if e.metaLost then s.attempts else fun i => if i = row.id then n else s.attempts i },
     .replayed r.2)

/-- One entry of a recovery history: the row a sweep picked, what others did between the sweep's
query and the pass over this row, and the faults of the pass. -/
structure Sweep where
  row : Txn
  gap : List Act := []
  env : REnv := {}

/-- One pass of a sweep (`recoverWithThreshold`, `queue_recovery.go:138-155`): only rows the query
returned are processed. -/
def sweep (cfg : Cfg) (max : Int) (s : RSys) (w : Sweep) : RSys × Pass :=
  if w.row ∈ s.db.txns ∧ isStuck s.db w.row = true then
    recoverRow cfg max w.env { s with db := acts cfg s.db w.gap } w.row
  else ({ s with db := acts cfg s.db w.gap }, .skipped)

/-- A history of passes. -/
def sweeps (cfg : Cfg) (max : Int) : RSys → List Sweep → RSys
  | s, [] => s
  | s, w :: ws => sweeps cfg max (sweep cfg max s w).1 ws

/-- Specification: how often row `i` was replayed. -/
def replays (cfg : Cfg) (max : Int) (i : String) : RSys → List Sweep → Nat
  | _, [] => 0
  | s, w :: ws =>
    (match (sweep cfg max s w).2 with
      | .replayed _ => if w.row.id = i then 1 else 0
      | _ => 0) + replays cfg max i (sweep cfg max s w).1 ws

end Blnk.Queue
