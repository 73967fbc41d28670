import Verif.Model.Refund
import Verif.Model.Split
/-
What becomes of the numbers in a request: decoding (`encoding/json` into the `float64` fields
of `api/model/transaction.go`), validation (`api/model/model.go:246-309`), conversion to minor
units and back (`model/model.go:285-439`), and the amount of a commit
(`api/transactions.go:471-520`, `:915-950`).

A `float64` is the rational number it stands for.  `f64` is the reading of a decimal
(`strconv.ParseFloat`): the nearest double, ties to even, subnormals included.  Writing a
double out (`strconv.FormatFloat(x, 'f', -1, 64)`, also `decimal.NewFromFloat`) is a parameter
`P`, of which only what its documentation promises is assumed (`Shortest`, in
`Props/RequestSpec.lean`): the text reads back as the same double, and no decimal reading as
that double has fewer digits.

Not modelled: NaN and infinities, which no JSON number reads as; the sign of zero.
-/
namespace Blnk.Request
open Blnk

/-! ### Doubles -/

/-- `2^k`. -/
def pow2 (k : Int) : Rat := if 0 ≤ k then (2 : Rat) ^ k.toNat else 1 / (2 : Rat) ^ (-k).toNat

/-- The binary exponent of a positive number: `2^(ilog2 q) ≤ q < 2^(ilog2 q + 1)`. -/
def ilog2 (q : Rat) : Int :=
  let k : Int := (q.num.toNat.log2 : Int) - (q.den.log2 : Int)
  if pow2 k ≤ q then k else k - 1

/-- The double nearest a non-negative number: 53 significant bits, no bit below `2^-1074`,
ties to even (IEEE 754 binary64, which Go's `float64` is). -/
def f64pos (q : Rat) : Rat :=
  if q = 0 then 0
  else
    let e := max (ilog2 q - 52) (-1074)
    (roundHalfEven (q / pow2 e) : Rat) * pow2 e

/-- The double nearest a number. -/
def f64 (q : Rat) : Rat := if q < 0 then - f64pos (-q) else f64pos q

/-- Decoding of a JSON number into a `float64` field: a number that rounds to `2^1024` or
beyond is refused by `strconv.ParseFloat`, and with it the whole body. -/
def readF64 (q : Rat) : Option Rat :=
  if (2 : Rat) ^ 1024 ≤ f64pos (if q < 0 then -q else q) then none else some (f64 q)

/-! ### Digits -/

/-- Digits after the decimal point of the shortest way to write a decimal number. -/
def places (v : Rat) : Nat :=
  ((List.range (v.den.log2 + 1)).find? (fun s => 10 ^ s % v.den = 0)).getD 0

/-- `significantDigits` (`api/model/model.go:258-268`): the digits of the text without the
decimal point and without leading zeros.  For a negative number the text keeps its sign,
which the code counts; such amounts are refused by the next rule anyway, so the sign is left
out here. -/
def significant (v : Rat) : Nat :=
  (Nat.toDigits 10 (v.num.natAbs * (10 ^ places v / v.den))).length

/-! ### Requests -/

/-- A request body (`RecordTransaction`, `api/model/transaction.go:25-58`): numbers as the
client wrote them, a missing number being `0`.  Dates: `none` is the empty or missing text,
`some none` a text `time.Parse` refuses. -/
structure Raw where
  amount : Rat := 0
  preciseAmount : Option Int := none
  precision : Rat := 0
  overdraftLimit : Rat := 0
  allowOverdraft : Bool := false
  inflight : Bool := false
  skipQueue : Bool := false
  atomic : Bool := false
  source : String := ""
  destination : String := ""
  reference : String := ""
  description : String := ""
  currency : String := ""
  sources : List Split.Dist := []
  destinations : List Split.Dist := []
  scheduledFor : Option (Option Nat) := none
  expiryDate : Option (Option Nat) := none
  commitDate : Option (Option Nat) := none
deriving DecidableEq

/-- The reasons of `ValidateRecordTransaction` (`api/model/model.go:246-309`). -/
inductive Problem
  | bothAmounts | noAmount | tooManyDigits | negativeAmount | negativePrecise
  | fractionalPrecision | negativePrecision
  | missing
  | sourceOrSources | destinationOrDestinations | sameBalance
  | badDate
deriving DecidableEq, Repr

/-- Codes of a refused request (`internal/apierror/codes.go`). -/
inductive Code
  /-- GEN_MALFORMED_REQUEST -/
  | malformed
  /-- TXN_PRECISION_NOT_INTEGER -/
  | precisionNotInteger
  /-- TXN_VALIDATION_ERROR -/
  | validation
  /-- TXN_INVALID_AMOUNT -/
  | invalidAmount
  /-- TXN_BULK_EMPTY -/
  | bulkEmpty
  /-- TXN_BULK_LIMIT_EXCEEDED -/
  | bulkLimit
deriving DecidableEq, Repr

/-- A body after decoding: the numeric fields hold doubles. -/
def decode (r : Raw) : Option Raw :=
  match readF64 r.amount, readF64 r.precision, readF64 r.overdraftLimit with
  | some a, some p, some o => some { r with amount := a, precision := p, overdraftLimit := o }
  | _, _, _ => none

/-- The rules of the field `amount` (`api/model/model.go:248-277`) and
`validateAmountNotNegative` (`:93-103`); the first that fails is reported. -/
def amountProblem (P : Rat → Rat) (r : Raw) : Option Problem :=
  if r.amount ≠ 0 ∧ r.preciseAmount.isSome then some .bothAmounts
  else if r.amount = 0 ∧ r.preciseAmount.isNone then some .noAmount
  else if r.amount ≠ 0 ∧ significant (P r.amount) > 15 then some .tooManyDigits
  else if r.amount < 0 then some .negativeAmount
  else match r.preciseAmount with
    | some p => if p < 0 then some .negativePrecise else none
    | none => none

/-- `validatePrecisionIsInteger` and `validatePrecisionNotNegative`
(`api/model/model.go:35-69`, `:278`). -/
def precisionProblem (r : Raw) : Option Problem :=
  if ((Split.trunc r.precision : Int) : Rat) ≠ r.precision then some .fractionalPrecision
  else if r.precision < 0 then some .negativePrecision
  else none

/-- `validation.Required` on a text. -/
def required (s : String) : Option Problem := if s = "" then some .missing else none

/-- `sourceOrSourcesValidation` (`api/model/model.go:105-112`). -/
def sourceProblem (r : Raw) : Option Problem :=
  if (r.source = "" ∧ r.sources = []) ∨ (r.source ≠ "" ∧ r.sources ≠ []) then some .sourceOrSources else none

/-- `destinationOrDestinationsValidation` and `sameBalanceValidation`
(`api/model/model.go:114-160`). -/
def destinationProblem (r : Raw) : Option Problem :=
  if (r.destination = "" ∧ r.destinations = []) ∨ (r.destination ≠ "" ∧ r.destinations ≠ []) then
    some .destinationOrDestinations
  else if r.source ≠ "" ∧ r.destination ≠ "" ∧ r.source = r.destination then some .sameBalance
  else if r.source ≠ "" ∧ r.destinations.any (fun d => d.id = r.source) then some .sameBalance
  else if r.destination ≠ "" ∧ r.sources.any (fun s => s.id = r.destination) then some .sameBalance
  else none

/-- `validateDateFormat` under `validation.When` (`api/model/model.go:284-308`). -/
def dateProblem : Option (Option Nat) → Option Problem
  | some none => some .badDate
  | _ => none

/-- The fields of `ValidateRecordTransaction` (`api/model/model.go:246-309`) under the names
`validation.ValidateStruct` files their errors: the JSON names (`ozzo-validation` v4,
`ErrorTag = "json"`; `api/transaction_api_test.go:412` shows the resulting text). -/
def fields (P : Rat → Rat) (r : Raw) : List (String × Option Problem) :=
  [("amount", amountProblem P r), ("precision", precisionProblem r),
   ("currency", required r.currency), ("reference", required r.reference), ("description", required r.description),
   ("source", sourceProblem r), ("destination", destinationProblem r),
   ("scheduled_for", dateProblem r.scheduledFor), ("inflight_expiry_date", dateProblem r.expiryDate),
   ("inflight_commit_date", dateProblem r.commitDate)]

/-- `ValidateRecordTransaction`: the errors by field. -/
def problems (P : Rat → Rat) (r : Raw) : List (String × Problem) :=
  (fields P r).filterMap (fun x => x.2.map (fun p => (x.1, p)))

/-- `handleRecordTransactionValidationError` (`api/transactions.go:134-150`).  The second
test there, `errors.Is(err, …)`, never holds: `validation.Errors` does not unwrap. -/
def refusalCode (es : List (String × Problem)) : Code :=
  if (es.find? (fun e => e.1 = "Precision")).map (·.2) = some .fractionalPrecision then .precisionNotInteger
  else .validation

/-- `ToTransaction` (`api/model/model.go:356-391`): the amount is the number the printed
double stands for, because every later step prints it first. -/
def toTxn (P : Rat → Rat) (newId : String) (r : Raw) : Txn :=
  { id := newId, source := r.source, destination := r.destination, reference := r.reference, currency := r.currency
    amount := P r.amount, preciseAmount := r.preciseAmount, precision := r.precision
    overdraftLimit := P r.overdraftLimit, allowOverdraft := r.allowOverdraft, inflight := r.inflight
    atomic := r.atomic, skipQueue := r.skipQueue
    scheduledFor := r.scheduledFor.getD none }

/-- `POST /transactions` up to the queue (`api/transactions.go:161-190`). -/
def accept (P : Rat → Rat) (newId : String) (r : Raw) : Except Code Txn :=
  match decode r with
  | none => .error .malformed
  | some d => match problems P d with
    | [] => .ok (toTxn P newId d)
    | es => .error (refusalCode es)

/-- The item loop of `CreateBulkTransactions` (`api/transactions.go:604-617`): the first bad
item refuses the batch; its index is in the answer.  `none` is a JSON `null`. -/
def bulkItems (P : Rat → Rat) (newId : Nat → String) (i : Nat) : List (Option Raw) → Except (Code × Nat) (List Txn)
  | [] => .ok []
  | none :: _ => .error (.validation, i)
  | some r :: rest => match problems P r with
    | [] => match bulkItems P newId (i + 1) rest with
      | .ok ts => .ok (toTxn P (newId i) r :: ts)
      | .error e => .error e
    | _ => .error (.validation, i)

/-- Decoding of a whole batch: one number out of range refuses the body. -/
def decodeAll : List (Option Raw) → Option (List (Option Raw))
  | [] => some []
  | none :: rest => (decodeAll rest).map (none :: ·)
  | some r :: rest => (decode r).bind fun d => (decodeAll rest).map (some d :: ·)

/-- `MaxBulkTransactionItems` (`api/model/transaction.go:121`). -/
def maxItems : Nat := 10000

/-- `POST /transactions/bulk` up to the service (`api/transactions.go:588-619`). -/
def acceptBulk (P : Rat → Rat) (newId : Nat → String) (rs : List (Option Raw)) : Except (Code × Nat) (List Txn) :=
  match decodeAll rs with
  | none => .error (.malformed, 0)
  | some ds =>
    if ds = [] then .error (.bulkEmpty, 0)
    else if ds.length > maxItems then .error (.bulkLimit, 0)
    else bulkItems P newId 0 ds

/-! ### Minor units and the amount shown -/

/-- Precision `0` means "not given" (`model/model.go:286-288`). -/
def orOne (p : Rat) : Rat := if p = 0 then 1 else p

/-- `convertDecimalToPrecise` (`model/model.go:418-439`) of a double amount at a double
precision: the amount is printed, the precision is printed without a fraction. -/
def minorUnits (P : Rat → Rat) (fa fp : Rat) : Int := roundHalfAway (P fa * (roundHalfEven (orOne fp) : Rat))

/-- `decimal.Div`: sixteen digits after the point, halves away from zero
(`DivisionPrecision` of shopspring/decimal). -/
def div16 (a b : Rat) : Rat := (roundHalfAway (a / b * 10 ^ 16) : Rat) / 10 ^ 16

/-- `convertPreciseToDecimal` (`model/model.go:397-414`): `AmountString`, the amount that is
stored (`database/transaction.go:60,92`).  The precision is printed first. -/
def shownAmount (P : Rat → Rat) (n : Int) (fp : Rat) : Rat := div16 (n : Rat) (P (orOne fp))

/-- The `amount` of the answer: the stored decimal as a double, printed again. -/
def answeredAmount (P : Rat → Rat) (n : Int) (fp : Rat) : Rat := P (f64 (shownAmount P n fp))

/-- What an accepted request moves, in minor units: the two passes of `ApplyPrecision`
(`transaction_queue.go:341-368`) leave a positive `precise_amount` alone and otherwise
convert the amount. -/
def recorded (P : Rat → Rat) (d : Raw) : Int :=
  match d.preciseAmount with
  | some n => if 0 < n then n else minorUnits P d.amount d.precision
  | none => minorUnits P d.amount d.precision

/-! ### The amount of a commit -/

/-- What `fetchTransactionPrecisionFromDB` comes back with (`model/model.go:313-354`). -/
inductive Look
  /-- a row, or a remembered row, with this precision -/
  | found (p : Rat)
  /-- no row, or a row whose precision is not positive -/
  | missing
  /-- the query failed -/
  | failed
deriving DecidableEq, Repr

/-- The answers the query may give: any row with the id or with the id as parent
(`LIMIT 1` without an order; the cache holds what an earlier query gave). -/
def Answers (db : DB) (id : String) : Look → Prop
  | .found p => ∃ t ∈ db.txns, (t.id = id ∨ t.parent = id) ∧ t.precision = p ∧ 0 < p
  | .missing => (∀ t ∈ db.txns, ¬ (t.id = id ∨ t.parent = id)) ∨ ∃ t ∈ db.txns, (t.id = id ∨ t.parent = id) ∧ t.precision ≤ 0
  | .failed => True

/-- The precision `ApplyPrecisionWithDBLookup` ends up with (`model/model.go:359-393`) for the
bare transaction of a commit request, which carries none itself. -/
def lookedUp : Look → Rat
  | .found p => if 0 < p then p else 1
  | _ => 1

/-- A commit request (`InflightUpdate`, `api/model/transaction.go:95-99`;
`BulkInflightCommitItem`, `:154-158`), numbers as written. -/
structure CommitReq where
  amount : Rat := 0
  preciseAmount : Option Int := none
deriving DecidableEq

/-- The amount handed on by `PUT /transactions/inflight/:txID` (`api/transactions.go:516-525`). -/
def commitAmount (P : Rat → Rat) (k : Look) (r : CommitReq) : Except Code Int :=
  match readF64 r.amount with
  | none => .error .malformed
  | some fa => match r.preciseAmount with
    | some n => if n ≤ 0 then .error .invalidAmount else .ok n
    | none => .ok (minorUnits P fa (lookedUp k))

/-- The amount handed on for one item of the bulk commit (`api/transactions.go:938-949`). -/
def bulkCommitAmount (P : Rat → Rat) (k : Look) (r : CommitReq) : Except Code Int :=
  match readF64 r.amount with
  | none => .error .malformed
  | some fa => match r.preciseAmount with
    | some n => .ok n
    | none => .ok (minorUnits P fa (lookedUp k))

/-- A commit request decided against the ledger: the settlement row, or nothing. -/
def commitRequest (P : Rat → Rat) (k : Look) (db : DB) (id : String) (r : CommitReq) (newId ref : String) : Option Txn :=
  match commitAmount P k r with
  | .error _ => none
  | .ok n => (decideCommit db id n newId ref).toOption

/-- The same for one item of the bulk commit. -/
def bulkCommitRequest (P : Rat → Rat) (k : Look) (db : DB) (id : String) (r : CommitReq) (newId ref : String) : Option Txn :=
  match bulkCommitAmount P k r with
  | .error _ => none
  | .ok n => (decideCommit db id n newId ref).toOption

/-! ### The movements of a request -/

/-- What an accepted request asks the ledger to move (`transaction_queue.go:69-85`, `:204-213`;
`model/transaction.go:403-418`): the transaction itself, or its legs if either list is given. -/
def movements (ord : List String → List String) (r : Raw) (t : Txn) (newId : Nat → String) : Except Split.SplitErr (List Txn) :=
  if r.sources = [] ∧ r.destinations = [] then .ok [submit t]
  else Split.split ord (submit t) ((submit t).preciseAmount.getD 0) r.sources r.destinations newId

end Blnk.Request
