/-
What a failed request is told: the error values the core returns, the classifier that turns
them into an error code and a status (`api/errors.go`, `internal/apierror`), the handlers that
call it, and the decisions the queue worker takes from the same error texts (`cmd/workers.go`).

Texts are lists of characters. Lower-casing is modelled for ASCII letters only; `strings.ToLower`
also maps other letters, which no compared text contains.
-/

namespace Blnk.Errs

abbrev Text := List Char

/-- A text constant of the code, spelled out as its characters. -/
macro "t!" s:str : term => do
  let cs := (s.getString.toList.map Lean.Syntax.mkCharLit).toArray
  `(([$cs,*] : List Char))

/-- `strings.Contains s sub`. -/
def has (sub : Text) : Text → Bool
  | [] => sub.isEmpty
  | c :: t => sub.isPrefixOf (c :: t) || has sub t

/-! ### Codes -/

/-- `statusByCode` (`internal/apierror/codes.go:129-240`). -/
def statusByCode : List (String × Nat) :=
  [("GEN_MALFORMED_REQUEST", 400), ("GEN_VALIDATION_ERROR", 400),
   ("GEN_MISSING_PARAMETER", 400), ("GEN_BAD_REQUEST", 400), ("GEN_NOT_FOUND", 404),
   ("GEN_CONFLICT", 409), ("GEN_RESOURCE_LOCKED", 423), ("GEN_PAYLOAD_TOO_LARGE", 413),
   ("GEN_RATE_LIMITED", 429), ("GEN_INTERNAL", 500), ("AUTH_MISSING_API_KEY", 401),
   ("AUTH_INVALID_API_KEY", 401), ("AUTH_EXPIRED_API_KEY", 401),
   ("AUTH_MISSING_PRINCIPAL", 401), ("AUTH_INSUFFICIENT_PERMISSIONS", 403),
   ("AUTH_UNKNOWN_RESOURCE", 403), ("AUTH_MASTER_KEY_REQUIRED", 403),
   ("AUTH_CROSS_OWNER_ACCESS", 403), ("AUTH_SCOPE_ESCALATION", 403),
   ("AUTH_METRICS_TOKEN_REQUIRED", 401), ("AUTH_INVALID_BEARER_TOKEN", 401),
   ("AUTH_METRICS_DISABLED", 403), ("APIKEY_NOT_FOUND", 404), ("APIKEY_OWNER_REQUIRED", 400),
   ("APIKEY_INVALID", 400), ("TXN_NOT_FOUND", 404), ("TXN_INSUFFICIENT_FUNDS", 400),
   ("TXN_INVALID_AMOUNT", 400), ("TXN_PRECISION_NOT_INTEGER", 400),
   ("TXN_INVALID_DISTRIBUTION", 400), ("TXN_DUPLICATE_REFERENCE", 409),
   ("TXN_NOT_INFLIGHT", 400), ("TXN_ALREADY_COMMITTED", 409), ("TXN_ALREADY_VOIDED", 409),
   ("TXN_COMMIT_AMOUNT_EXCEEDED", 400), ("TXN_INVALID_STATUS_ACTION", 400),
   ("TXN_BULK_EMPTY", 400), ("TXN_BULK_LIMIT_EXCEEDED", 400), ("TXN_VALIDATION_ERROR", 400),
   ("BAL_NOT_FOUND", 404), ("BAL_HISTORY_NOT_FOUND", 404), ("BAL_INVALID_TIMESTAMP", 400),
   ("BAL_VALIDATION_ERROR", 400), ("BAL_MONITOR_NOT_FOUND", 404), ("LGR_NOT_FOUND", 404),
   ("LGR_DUPLICATE", 409), ("ACC_NOT_FOUND", 404), ("ACC_DUPLICATE", 409),
   ("ACC_GENERATION_FAILED", 500), ("IDT_NOT_FOUND", 404), ("IDT_VALIDATION_ERROR", 400),
   ("IDT_FIELD_NOT_TOKENIZABLE", 400), ("IDT_FIELD_ALREADY_TOKENIZED", 409),
   ("IDT_FIELD_NOT_TOKENIZED", 400), ("IDT_FIELD_NOT_FOUND", 400),
   ("IDT_TOKENIZATION_DISABLED", 403), ("RECON_NOT_FOUND", 404),
   ("RECON_RULE_NOT_FOUND", 404), ("RECON_UPLOAD_FAILED", 400),
   ("RECON_UPLOAD_PROCESSING_FAILED", 500), ("RECON_UPLOAD_URL_INVALID", 400),
   ("RECON_UPLOAD_HOST_NOT_ALLOWED", 400), ("RECON_RULE_INVALID", 400),
   ("RECON_MATCHING_RULES_REQUIRED", 400), ("RECON_EXTERNAL_TXNS_REQUIRED", 400),
   ("RECON_START_FAILED", 500), ("META_ENTITY_NOT_FOUND", 404),
   ("META_UNSUPPORTED_ENTITY", 400), ("META_INVALID_ENTITY_ID", 400), ("HOOK_NOT_FOUND", 404),
   ("HOOK_INVALID", 400), ("HOOK_OPERATION_FAILED", 500), ("QUEUE_BACKPRESSURE", 503),
   ("SRCH_QUERY_INVALID", 400), ("SRCH_FAILED", 500), ("SRCH_REINDEX_IN_PROGRESS", 409),
   ("SRCH_REINDEX_NOT_STARTED", 404), ("ADMIN_BACKUP_FAILED", 500), ("NOT_FOUND", 404),
   ("CONFLICT", 409), ("BAD_REQUEST", 400), ("INVALID_INPUT", 400),
   ("INTERNAL_SERVER_ERROR", 500), ("RATE_LIMITED", 429)]

/-- `legacyToCanonical` (`internal/apierror/codes.go:242-252`). -/
def legacyToCanonical : List (String × String) :=
  [("NOT_FOUND", "GEN_NOT_FOUND"), ("CONFLICT", "GEN_CONFLICT"), ("BAD_REQUEST", "GEN_BAD_REQUEST"),
   ("INVALID_INPUT", "GEN_VALIDATION_ERROR"), ("INTERNAL_SERVER_ERROR", "GEN_INTERNAL"),
   ("RATE_LIMITED", "GEN_RATE_LIMITED")]

/-- `Normalize` (`internal/apierror/codes.go:254-261`). -/
def normalize (c : String) : String :=
  match legacyToCanonical.lookup c with
  | some c' => c'
  | none => c

/-- `StatusForCode` (`internal/apierror/codes.go:263-269`). -/
def statusForCode (c : String) : Nat :=
  match statusByCode.lookup c with
  | some s => s
  | none => 500

/-! ### Error values -/

/-- The sentinels `classifySentinel` looks for (`api/errors.go:161-181`). -/
inductive Sentinel where
  | apiKeyNotFound | invalidApiKey | tokenizationDisabled | lockHeld | lockWait
  | precision | entityNotFound | backpressure | noRows
deriving DecidableEq, Repr

/-- The innermost error of a chain: a bare text, a sentinel with the text it shows (a `lockError`,
`internal/lock/lock.go:35-47`, shows another text than the sentinel it unwraps to), or an `APIError`,
which unwraps to nothing (`internal/apierror/apierror.go:42-52`). `details` is what its JSON shows, when it has any:
for the errors of the PostgreSQL driver and of the network these are their fields. -/
inductive Leaf where
  | plain (s : Text)
  | sentinel (s : Sentinel) (shown : Text)
  | api (code : String) (msg : Text) (details : Option Text)
deriving DecidableEq, Repr

def Leaf.text : Leaf → Text
  | .plain s => s
  | .sentinel _ t => t
  | .api c m _ => c.toList ++ t! ": " ++ m

/-- An error: what `fmt.Errorf("…: %w")` put in front, and the innermost error. -/
structure Err where
  pre : Text := []
  leaf : Leaf
deriving DecidableEq, Repr

/-- `Error()`. -/
def Err.text (e : Err) : Text := e.pre ++ e.leaf.text

/-- `fmt.Errorf(p + "%w", e)`. -/
def wrap (p : Text) (e : Err) : Err := { e with pre := p ++ e.pre }

/-- `errors.New` and `fmt.Errorf` without `%w`. -/
def plain (s : Text) : Err := ⟨[], .plain s⟩

/-- `apierror.NewAPIError`. -/
def api (code : String) (msg : Text) (details : Option Text) : Err := ⟨[], .api code msg details⟩

/-! ### The classifier -/

/-- `classifySentinel` (`api/errors.go:161-181`). -/
def classifySentinel : Sentinel → String
  | .apiKeyNotFound => "APIKEY_NOT_FOUND"
  | .invalidApiKey => "AUTH_INVALID_API_KEY"
  | .tokenizationDisabled => "IDT_TOKENIZATION_DISABLED"
  | .lockHeld => "GEN_RESOURCE_LOCKED"
  | .lockWait => "GEN_RESOURCE_LOCKED"
  | .precision => "TXN_PRECISION_NOT_INTEGER"
  | .entityNotFound => "META_ENTITY_NOT_FOUND"
  | .backpressure => "QUEUE_BACKPRESSURE"
  | .noRows => "GEN_NOT_FOUND"

/-- `messagePatterns` (`api/errors.go:195-236`), in order. -/
def messagePatterns : List (List Text × String) :=
  [([t! "transaction", t! "not found"], "TXN_NOT_FOUND"),
   ([t! "not in inflight status"], "TXN_NOT_INFLIGHT"),
   ([t! "Transaction already committed"], "TXN_ALREADY_COMMITTED"),
   ([t! "has already been voided"], "TXN_ALREADY_VOIDED"),
   ([t! "has already been refunded"], "GEN_CONFLICT"),
   ([t! "has already been used"], "TXN_DUPLICATE_REFERENCE"),
   ([t! "cannot commit more than"], "TXN_COMMIT_AMOUNT_EXCEEDED"),
   ([t! "insufficient funds"], "TXN_INSUFFICIENT_FUNDS"),
   ([t! "transaction amount must be positive"], "TXN_INVALID_AMOUNT"),
   ([t! "transaction validation failed"], "TXN_VALIDATION_ERROR"),
   ([t! "reference is required"], "TXN_VALIDATION_ERROR"),
   ([t! "no balance data found for time"], "BAL_HISTORY_NOT_FOUND"),
   ([t! "invalid timestamp format"], "BAL_INVALID_TIMESTAMP"),
   ([t! "balance validation failed"], "BAL_VALIDATION_ERROR"),
   ([t! "identity validation failed"], "BAL_VALIDATION_ERROR"),
   ([t! "is not tokenizable"], "IDT_FIELD_NOT_TOKENIZABLE"),
   ([t! "is already tokenized"], "IDT_FIELD_ALREADY_TOKENIZED"),
   ([t! "is not tokenized"], "IDT_FIELD_NOT_TOKENIZED"),
   ([t! "field", t! "not found"], "IDT_FIELD_NOT_FOUND"),
   ([t! "rule name is required"], "RECON_RULE_INVALID"),
   ([t! "matching criteria is required"], "RECON_RULE_INVALID"),
   ([t! "field and operator are required"], "RECON_RULE_INVALID"),
   ([t! "invalid operator"], "RECON_RULE_INVALID"),
   ([t! "invalid field"], "RECON_RULE_INVALID"),
   ([t! "drift for"], "RECON_RULE_INVALID"),
   ([t! "entity not found"], "META_ENTITY_NOT_FOUND"),
   ([t! "unsupported entity type"], "META_UNSUPPORTED_ENTITY"),
   ([t! "invalid entity ID"], "META_INVALID_ENTITY_ID"),
   ([t! "does not have fund lineage tracking enabled"], "GEN_BAD_REQUEST"),
   ([t! "failed to acquire lock"], "GEN_RESOURCE_LOCKED"),
   ([t! "no rows in result set"], "GEN_NOT_FOUND"),
   ([t! "not found"], "GEN_NOT_FOUND")]

/-- `classifyMessage` (`api/errors.go:238-252`). -/
def classifyIn : List (List Text × String) → Text → Option String
  | [], _ => none
  | (subs, c) :: ps, m => if subs.all (fun s => has s m) then some c else classifyIn ps m

def classifyMessage (m : Text) : Option String := classifyIn messagePatterns m

/-- `respondOptions` (`api/errors.go:45-98`), without the legacy key and value, which do not
influence the rest of the answer. The last upgrade given for a code wins. -/
structure Opts where
  default : Option String := none
  fallback : Option Text := none
  upgrades : List (String × String) := []
deriving DecidableEq, Repr

/-- An error answer: status and `error_detail`; the legacy field repeats the message. -/
structure Resp where
  status : Nat
  code : String
  message : Text
  details : Option Text
deriving DecidableEq, Repr

/-- `writeError` (`api/errors.go:145-158`). -/
def writeError (o : Opts) (code : String) (msg : Text) (details : Option Text) : Resp :=
  let c := normalize code
  let c := match o.upgrades.lookup c with
    | some c' => c'
    | none => c
  ⟨statusForCode c, c, msg, details⟩

/-- `sanitizedInternalMessage` (`api/errors.go:43`). -/
def sanitized : Text := t! "internal server error"

/-- `respondError` (`api/errors.go:108-143`) for an error that is not nil. -/
def respondError (o : Opts) (e : Err) : Resp :=
  match e.leaf with
  | .api c m d => writeError o c m d
  | .sentinel s _ => writeError o (classifySentinel s) e.text none
  | .plain _ =>
    match classifyMessage e.text with
    | some c => writeError o c e.text none
    | none =>
      match o.default with
      | some c => writeError o c (match o.fallback with | some m => m | none => e.text) none
      | none => writeError o "GEN_INTERNAL" sanitized none

/-- `respondCode` (`api/errors.go:101-103`) without options. -/
def respondCode (c : String) (m : Text) : Resp := writeError {} c m none

/-! ### Posting a transaction -/

/-- Options of `QueueTransaction` and of previews (`api/transactions.go:102-104,190`). -/
def postOpts : Opts := { default := some "TXN_VALIDATION_ERROR", upgrades := [("GEN_NOT_FOUND", "TXN_NOT_FOUND")] }

/-- Options of commit, void and refund (`api/transactions.go:275,541,552,563`). -/
def settleOpts : Opts := { default := some "GEN_BAD_REQUEST", upgrades := [("GEN_NOT_FOUND", "TXN_NOT_FOUND")] }

/-- Options of reading a transaction (`api/transactions.go:306,333`). -/
def readOpts : Opts := { upgrades := [("GEN_NOT_FOUND", "TXN_NOT_FOUND")] }

/-- Why recording one transaction with `recordTransactionSingle` fails (`transaction_execution.go:477-523`),
in the order the steps run. `t` stands for the text of a Redis error, `d` for what the JSON of a
database error shows. -/
inductive Fail where
  /-- the lock wait timed out (`transaction_execution.go:634-640`, `internal/lock/lock.go:266-270`) -/
  | lockWait
  /-- no waiting configured and the lock is held (`internal/lock/lock.go:224-229`) -/
  | lockHeld (key : Text)
  /-- Redis fails while locking (the same lines) -/
  | lockRedis (key t : Text)
  /-- Redis fails while the pre-transaction hooks are listed or queued (`transaction_execution.go:485-488`) -/
  | hooks (t : Text)
  /-- the reference query fails (`database/transaction_queries.go:145-147`) -/
  | refCheck (d : Option Text)
  /-- the reference is used (`transaction_execution.go:282-287`) -/
  | duplicate (ref : Text)
  /-- a balance does not exist (`database/balance.go:307,389`) -/
  | balanceMissing (id : Text)
  /-- a balance cannot be read (`database/balance.go:310,391`) -/
  | balanceRead (d : Option Text)
  /-- the amount is not positive (`model/model.go:449-463`); `precise` tells the two texts apart -/
  | notPositive (precise : Bool)
  /-- the source may not go below its overdraft limit (`model/model.go:200`) -/
  | overdraft
  /-- the source cannot pay (`model/model.go:204`) -/
  | funds
  /-- the hold does not cover a commit or void (`transaction_execution.go:327-352`, `model/model.go:209-225`) -/
  | holdShort (void credit : Bool) (held need : Text)
  /-- another writer changed a balance first (`database/balance.go:898-901`) -/
  | conflict (id : Text)
  /-- beginning, updating, inserting or committing fails (`database/transaction.go:86-96,268,304`,
  `database/balance.go:888,895`, `database/lineage.go:165`); a concurrent insert of the same
  reference is one of these: the unique index makes the insert fail -/
  | persist (step : Text) (d : Option Text)
deriving DecidableEq, Repr

/-- The fixed part of the text of a hold that is too small. -/
def holdText : Bool → Bool → Text
  | false, false => t! "commit inflight debit failed: insufficient inflight debit balance: have "
  | false, true => t! "commit inflight credit failed: insufficient inflight credit balance: have "
  | true, false => t! "void inflight debit failed: insufficient inflight debit balance: have "
  | true, true => t! "void inflight credit failed: insufficient inflight credit balance: have "

/-- The error `recordTransactionSingle` returns. -/
def Fail.err : Fail → Err
  | .lockWait => wrap (t! "failed to acquire lock: ") ⟨[], .sentinel .lockWait (t! "failed to acquire all locks within the wait timeout")⟩
  | .lockHeld k => wrap (t! "failed to acquire lock: ") ⟨t! "failed to acquire lock for key " ++ k ++ t! ": ",
      .sentinel .lockHeld (t! "lock for key " ++ k ++ t! " is already held")⟩
  | .lockRedis k t => wrap (t! "failed to acquire lock: ") ⟨t! "failed to acquire lock for key " ++ k ++ t! ": ", .plain t⟩
  | .hooks t => plain t
  | .refCheck d => wrap (t! "transaction validation failed: ")
      (api "INTERNAL_SERVER_ERROR" (t! "Failed to check if transaction exists") d)
  | .duplicate r => wrap (t! "transaction validation failed: ")
      (plain (t! "reference " ++ r ++ t! " has already been used"))
  | .balanceMissing id => wrap (t! "failed to get source and destination balances: ")
      (api "NOT_FOUND" (t! "Balance with ID '" ++ id ++ t! "' not found") none)
  | .balanceRead d => wrap (t! "failed to get source and destination balances: ")
      (api "INTERNAL_SERVER_ERROR" (t! "Failed to scan balance data") d)
  | .notPositive precise => wrap (t! "failed to apply transaction to balances: ")
      (plain (if precise then t! "transaction precise amount must be positive"
        else t! "transaction amount must be positive"))
  | .overdraft => wrap (t! "failed to apply transaction to balances: ") (plain (t! "transaction exceeds overdraft limit"))
  | .funds => wrap (t! "failed to apply transaction to balances: ") (plain (t! "insufficient funds in source balance"))
  | .holdShort void credit held need => wrap (t! "failed to apply transaction to balances: ")
      (plain ((holdText void credit) ++ held ++ t! ", need " ++ need))
  | .conflict id => wrap (t! "failed to persist transaction with balances: ")
      (api "CONFLICT" (t! "Optimistic locking failure: balance with ID '" ++ id
        ++ t! "' may have been updated or deleted by another transaction") none)
  | .persist step d => wrap (t! "failed to persist transaction with balances: ")
      (api "INTERNAL_SERVER_ERROR" step d)

/-- The answer to `POST /transactions` with `skip_queue` and one source and destination
(`api/transactions.go:186-193`, `transaction_queue.go:85-91,230-236`). -/
def postAnswer (f : Fail) : Resp := respondError postOpts f.err

/-- A leg of a split fails (`transaction_queue.go:238-246`). -/
def splitErr (i : Text) (f : Fail) : Err :=
  { f.err with pre := t! "failed to record split transaction " ++ i ++ t! ": " ++ f.err.pre }

def splitAnswer (i : Text) (f : Fail) : Resp := respondError postOpts (splitErr i f)

/-- How a failed synchronous bulk request ends (`transaction_bulk.go:232-247`). -/
inductive Ending where
  | kept
  | rolledBack (action : Text)
  | rollbackFailed (t : Text)
deriving DecidableEq, Repr

def Ending.text : Ending → Text
  | .kept => t! ". Previous transactions were not rolled back."
  | .rolledBack a => t! ". All transactions in this batch have been " ++ a ++ t! "."
  | .rollbackFailed t => t! ". Failed to roll back all transactions: " ++ t

/-- The item a bulk request failed on: its number, reference, source, destination and amount as
printed (`transaction_bulk.go:48-49`). -/
structure Item where
  num : Text
  ref : Text
  src : Text
  dst : Text
  amount : Text
deriving DecidableEq, Repr

/-- `responseError` (`transaction_bulk.go:46-50,232-257`). -/
def bulkText (it : Item) (f : Fail) (e : Ending) : Text :=
  t! "failed to queue transaction " ++ it.num ++ t! " (Reference: " ++ it.ref ++ t! ", Source: " ++ it.src
    ++ t! ", Destination: " ++ it.dst ++ t! ", Amount: " ++ it.amount ++ t! "): " ++ f.err.text ++ e.text

/-- The bulk handler's own answer (`api/transactions.go:640-660`). -/
def bulkAnswer (it : Item) (f : Fail) (e : Ending) : Resp :=
  let m := bulkText it f e
  let c := match classifyMessage m with | some c => c | none => "GEN_BAD_REQUEST"
  ⟨statusForCode c, normalize c, m, none⟩

/-! ### Previews -/

/-- `resolvePreviewRejectionCode` (`api/transactions.go:115-125`). -/
def previewCode (m : Text) : String :=
  match classifyMessage m with
  | some c => c
  | none => "TXN_VALIDATION_ERROR"

/-- What stands in the way of one transfer, all at once: its reference is used, applying it to the
balances fails, source and destination are the same row. -/
structure Obstacles where
  duplicate : Option Text
  apply : Option Fail
  same : Option Text
deriving DecidableEq, Repr

/-- `sameBalanceErr` (`transaction_dryrun.go:575-590`). -/
def sameBalanceText (id : Text) : Text :=
  t! "Optimistic locking failure: balance with ID '" ++ id
    ++ t! "' may have been updated or deleted by another transaction"

/-- The rejection of a preview (`transaction_dryrun.go:258-274,593-628`): the same-balance caveat
is set first, the duplicate reference replaces it, and a failure to apply replaces both. -/
def previewRejection (o : Obstacles) : Option Text :=
  match o.apply with
  | some f => some f.err.text
  | none =>
    match o.duplicate with
    | some r => some (t! "transaction validation failed: reference " ++ r ++ t! " has already been used")
    | none => o.same.map sameBalanceText

/-- The failure of the real post (`transaction_execution.go:477-523`): the reference is checked
before the balances, and the same row is noticed when it is updated the second time. -/
def realFail (o : Obstacles) : Option Fail :=
  match o.duplicate with
  | some r => some (.duplicate r)
  | none =>
    match o.apply with
    | some f => some f
    | none => o.same.map .conflict

/-! ### Commit, void and refund -/

/-- Why settling one leg fails (`transaction_inflight.go:198-228,315-362,462-498,511-566,576-592`). -/
inductive SettleFail where
  /-- another commit or void of it is running -/
  | locked (void : Bool) (key : Text)
  /-- Redis fails while locking -/
  | lockRedis (void : Bool) (t : Text)
  /-- `database/transaction_queries.go:56` -/
  | notFound (id : Text)
  /-- the row, its parent's status or its commits cannot be read (`database/transaction_queries.go:59,113`,
  `database/transaction_inflight.go:56`, `transaction_inflight.go:551-553,583-585`); `front` is the text in front -/
  | read (front msg : Text) (d : Option Text)
  | notInflight
  | voided
  | committed (void : Bool)
  | negative
  /-- `which` is `original transaction` or `remaining`, `rest` the amounts as printed -/
  | exceeds (which rest : Text)
  /-- recording the settlement fails (`transaction_inflight.go:423-426,620-624`) -/
  | save (f : Fail)
deriving DecidableEq, Repr

def SettleFail.err : SettleFail → Err
  | .locked v k => wrap (if v then t! "failed to acquire lock for inflight void: " else t! "failed to acquire lock for inflight commit: ")
      ⟨[], .sentinel .lockHeld (t! "lock for key " ++ k ++ t! " is already held")⟩
  | .lockRedis v t => wrap (if v then t! "failed to acquire lock for inflight void: " else t! "failed to acquire lock for inflight commit: ")
      (plain t)
  | .notFound id => api "NOT_FOUND" (t! "Transaction with ID '" ++ id ++ t! "' not found") none
  | .read front m d => ⟨front, .api "INTERNAL_SERVER_ERROR" m d⟩
  | .notInflight => plain (t! "transaction is not in inflight status")
  | .voided => plain (t! "transaction has already been voided")
  | .committed v => plain (if v then t! "cannot void. Transaction already committed"
      else t! "cannot commit. Transaction already committed")
  | .negative => plain (t! "commit amount cannot be negative")
  | .exceeds which rest => plain (t! "cannot commit more than the " ++ which ++ t! " amount. " ++ rest)
  | .save f => wrap (t! "saving transaction to db error: ") f.err

/-- `%v` of the errors of a batch (`transaction_batch_processing.go:107-113`): the texts, separated
by blanks, between brackets. The chain ends here. -/
def batchErr (es : List Err) : Err :=
  plain (t! "error occurred during processing: [" ++ List.intercalate [' '] (es.map Err.text) ++ t! "]")

/-- What `ProcessTransactionInBatches` may return when listing the legs ended with `fetch`, the legs
that failed did so with `errs`, and `n` legs went through (`transaction_batch_processing.go:88-117`):
when the listing fails, its error and the end of the workers compete in one `select`. -/
inductive Batch (fetch : Option Err) (errs : List Err) (n : Nat) : Except Err Nat → Prop where
  | fetch (e : Err) (h : fetch = some e) : Batch fetch errs n (.error e)
  | errs (h : errs ≠ []) : Batch fetch errs n (.error (batchErr errs))
  | done (h : errs = []) : Batch fetch errs n (.ok n)

/-- The answer of the synchronous commit and void (`api/transactions.go:549-573`); `none` is 200. -/
def settleAnswer (void : Bool) : Except Err Nat → Option Resp
  | .error e => some (respondError settleOpts e)
  | .ok 0 => some (respondCode "TXN_NOT_INFLIGHT" (if void then t! "no transaction to void" else t! "no transaction to commit"))
  | .ok (_ + 1) => none

/-- The answer of the refund (`api/transactions.go:273-283`); `none` is 201. -/
def refundAnswer : Except Err Nat → Option Resp
  | .error e => some (respondError settleOpts e)
  | .ok 0 => some (respondCode "TXN_NOT_FOUND" (t! "no transaction to refund"))
  | .ok (_ + 1) => none

/-- `classifyInflightError` (`transaction_inflight.go:913-937`). -/
def classifyInflight (m : Text) : String :=
  if has (t! "transaction not found") m || has (t! "no rows in result set") m || has (t! "not found") m then "NOT_FOUND"
  else if has (t! "has already been voided") m then "ALREADY_VOIDED"
  else if has (t! "Transaction already committed") m || has (t! "cannot void. Transaction already committed") m then
    "ALREADY_COMMITTED"
  else if has (t! "not in inflight status") m then "NOT_INFLIGHT"
  else if has (t! "cannot commit more than") m then "INVALID_AMOUNT"
  else if has (t! "failed to acquire lock") m then "LOCKED"
  else "INTERNAL_ERROR"

/-! ### The queue worker -/

/-- `strings.ToLower`. -/
def lower (t : Text) : Text := t.map Char.toLower

/-- `IsDuplicateReferenceError` (`transaction_execution.go:292-308`). No error of the recording
path carries a driver error in its chain, so the first test never applies. -/
def isDuplicate (e : Err) : Bool :=
  let m := lower e.text
  if has (t! "duplicate key value violates unique constraint") m && has (t! "reference") m then true
  else has (t! "reference") m && has (t! "already been used") m

/-- `IsLockContentionError` (`internal/hotpairs/router.go:165-179`); cancelled contexts are left out. -/
def isContention (e : Err) : Bool :=
  match e.leaf with
  | .sentinel .lockHeld _ => true
  | .sentinel .lockWait _ => true
  | _ =>
    let m := lower e.text
    has (t! "already held") m || has (t! "failed to acquire lock") m || has (t! "failed to acquire batch lock") m

/-- The settings the worker reads (`config/config.go`). -/
structure Cfg where
  fundRetries : Bool
  rejectContention : Bool
  maxRetries : Int
deriving DecidableEq, Repr

/-- `hasReachedMaxRetryAttempt` (`cmd/workers.go:167-172`). -/
def exhausted (c : Cfg) (retry : Nat) : Bool := if c.maxRetries ≤ 0 then false else decide (c.maxRetries ≤ (retry : Int))

inductive Verdict where
  /-- acknowledged without a trace -/
  | drop
  | reject
  | retry
deriving DecidableEq, Repr

/-- What `processTransaction` does with a failure (`cmd/workers.go:85-140`). -/
def verdict (c : Cfg) (retry : Nat) (e : Err) : Verdict :=
  if isDuplicate e then .drop
  else if has (t! "insufficient funds") (lower e.text) then
    if !c.fundRetries then .reject else if exhausted c retry then .reject else .retry
  else if has (t! "transaction exceeds overdraft limit") (lower e.text) then .reject
  else if c.rejectContention && isContention e then .reject
  else if exhausted c retry then .reject
  else .retry

end Blnk.Errs
