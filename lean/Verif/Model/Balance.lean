/-
Balance arithmetic of the ledger: `model/model.go`, `model/balance.go`, and
`applyTransactionToBalances` of `transaction_execution.go`.

Amounts: every `*big.Int` is an `Int` (both are unbounded).  Every `float64`
amount, precision and limit is a `Rat`: the exact value of its shortest decimal
rendering, which is what `strconv.FormatFloat(x,'f',-1,64)` and
`decimal.NewFromFloat` feed into the arithmetic.
-/
namespace Blnk

/-- Transaction status strings (`transaction.go:31-39`, constants `Status*`).
`blank` is the empty string; the map lookup in `updateTransactionDetails` yields
it for statuses it does not list. -/
inductive Status
  | blank | queued | applied | scheduled | inflight | void | commit | rejected
deriving DecidableEq, Repr

/-- `model.Balance` (`model/balance.go:24-46`), numeric part plus identity and
currency.  `nil` big integers are read as `0`, which is what
`InitializeBalanceFields` (`model/model.go:94-113`) does before every use.
`queuedDebit = none` is the `nil` that means "queued checks are off". -/
structure Balance where
  id : String
  currency : String := "USD"
  indicator : String := ""
  balance : Int := 0
  credit : Int := 0
  debit : Int := 0
  inflightBalance : Int := 0
  inflightCredit : Int := 0
  inflightDebit : Int := 0
  queuedDebit : Option Int := none
  version : Nat := 0
deriving DecidableEq, Repr

/-- The parts of `model.Transaction` (`model/transaction.go:56-87`) that the
ledger reads.  Times are `Nat` ticks; metadata keys the ledger itself reads are
separate fields (`metaInflight` is `meta_data["inflight"]`, and so on). -/
structure Txn where
  id : String
  parent : String := ""
  source : String := ""
  destination : String := ""
  reference : String := ""
  currency : String := "USD"
  amount : Rat := 0
  preciseAmount : Option Int := none
  precision : Rat := 0
  overdraftLimit : Rat := 0
  allowOverdraft : Bool := false
  inflight : Bool := false
  atomic : Bool := false
  skipQueue : Bool := false
  status : Status := .blank
  createdAt : Nat := 0
  effectiveDate : Nat := 0
  scheduledFor : Option Nat := none
  metaInflight : Option Bool := none
  metaAtomic : Option Bool := none
  metaAllowOverdraft : Option Bool := none
  metaQueuedParent : String := ""
deriving DecidableEq, Repr

/-- Errors raised while applying a transaction to balances. -/
inductive BalErr
  /-- "transaction amount must be positive" (`model/model.go:450-452`, `459-461`) -/
  | amountNotPositive
  /-- "transaction precise amount must be positive" (`model/model.go:454-456`) -/
  | preciseNotPositive
  /-- "transaction exceeds overdraft limit" (`model/model.go:200`) -/
  | exceedsOverdraft
  /-- "insufficient funds in source balance" (`model/model.go:204`) -/
  | insufficientFunds
  /-- "insufficient inflight debit balance" (`model/model.go:209-215`) -/
  | insufficientInflightDebit
  /-- "insufficient inflight credit balance" (`model/model.go:218-224`) -/
  | insufficientInflightCredit
  /-- nil pointer dereference on a missing precise amount (Go panics) -/
  | nilAmount
deriving DecidableEq, Repr

deriving instance DecidableEq for Except

/-- `decimal.Round(0)` of shopspring/decimal: nearest integer, halves away from
zero (used at `model/model.go:191` and `:432`). -/
def roundHalfAway (q : Rat) : Int :=
  if 0 ≤ q then (q + 1/2).floor else - ((-q + 1/2).floor)

/-- `strconv.FormatFloat(x, 'f', 0, 64)`: nearest integer, halves to even
(used for the precision at `model/model.go:424`). -/
def roundHalfEven (q : Rat) : Int :=
  let f := q.floor
  if q - f < 1/2 then f
  else if q - f = 1/2 then (if f % 2 = 0 then f else f + 1)
  else f + 1

/-- `big.Int.Int64()` as used by `decimal.IntPart()` (`model/model.go:191`): the
low 64 bits read as two's complement. -/
def int64Wrap (n : Int) : Int := n.bmod (2 ^ 64)

/-- `addCredit` (`model/model.go:117-125`). -/
def Balance.addCredit (b : Balance) (amt : Int) (inflight : Bool) : Balance :=
  if inflight then { b with inflightCredit := b.inflightCredit + amt }
  else { b with credit := b.credit + amt }

/-- `addDebit` (`model/model.go:129-136`). -/
def Balance.addDebit (b : Balance) (amt : Int) (inflight : Bool) : Balance :=
  if inflight then { b with inflightDebit := b.inflightDebit + amt }
  else { b with debit := b.debit + amt }

/-- `computeBalance` (`model/model.go:140-147`): only the selected column is
recomputed. -/
def Balance.computeBalance (b : Balance) (inflight : Bool) : Balance :=
  if inflight then { b with inflightBalance := b.inflightCredit - b.inflightDebit }
  else { b with balance := b.credit - b.debit }

/-- Funds available for a new debit (`model/model.go:166-174`). -/
def Balance.available (b : Balance) : Int :=
  b.balance - b.inflightDebit - b.queuedDebit.getD 0

/-- The overdraft limit in minor units as the code computes it
(`model/model.go:190-192`): decimal product, rounded, truncated to `int64`. -/
def overdraftLimitPrecise (t : Txn) : Int :=
  int64Wrap (roundHalfAway (t.overdraftLimit * t.precision))

/-- `canProcessTransaction` (`model/model.go:153-205`).  The amount compared is
`transaction.PreciseAmount`, set by the caller just before. -/
def canProcessTransaction (t : Txn) (src : Balance) : Except BalErr Unit :=
  if t.allowOverdraft && t.overdraftLimit = 0 then .ok ()
  else
    let amt := t.preciseAmount.getD 0
    let avail := src.available
    if avail ≥ amt then .ok ()
    else if t.overdraftLimit > 0 then
      if avail - amt ≥ - overdraftLimitPrecise t then .ok ()
      else .error .exceedsOverdraft
    else .error .insufficientFunds

/-- `convertDecimalToPrecise` (`model/model.go:418-439`). -/
def convertDecimalToPrecise (t : Txn) : Int :=
  roundHalfAway (t.amount * (roundHalfEven t.precision : Rat))

/-- `ApplyPrecision` / `applyPrecisionLogic` (`model/model.go:285-308`) with
`convertPreciseToDecimal` (`model/model.go:397-414`).  Simplified: the decimal
division is exact here (the code keeps 16 fractional digits and then a
`float64`); the quotient is only a display value. -/
def Txn.applyPrecision (t : Txn) : Txn :=
  let t := if t.precision = 0 then { t with precision := 1 } else t
  match t.preciseAmount with
  | some p =>
    if 0 < p then { t with amount := (p : Rat) / t.precision }
    else { t with preciseAmount := some (convertDecimalToPrecise t) }
  | none => { t with preciseAmount := some (convertDecimalToPrecise t) }

/-- `Transaction.validate` (`model/model.go:449-463`). -/
def Txn.validate (t : Txn) : Except BalErr Unit :=
  if t.amount < 0 then .error .amountNotPositive
  else match t.preciseAmount with
    | some p => if p ≤ 0 then .error .preciseNotPositive else .ok ()
    | none => if t.amount ≤ 0 then .error .amountNotPositive else .ok ()

/-- Source side of `UpdateBalances` (`model/model.go:485-486`). -/
def Balance.postDebit (b : Balance) (amt : Int) (inflight : Bool) : Balance :=
  (b.addDebit amt inflight).computeBalance inflight

/-- Destination side of `UpdateBalances` (`model/model.go:492-493`). -/
def Balance.postCredit (b : Balance) (amt : Int) (inflight : Bool) : Balance :=
  (b.addCredit amt inflight).computeBalance inflight

/-- `CommitInflightDebit` (`model/model.go:228-241`); `amt` is the value
`ApplyPrecision` returned. -/
def Balance.commitInflightDebit (b : Balance) (amt : Int) : Except BalErr Balance :=
  if b.inflightDebit < amt then .error .insufficientInflightDebit
  else .ok (({ b with inflightDebit := b.inflightDebit - amt, debit := b.debit + amt }.computeBalance true).computeBalance false)

/-- `CommitInflightCredit` (`model/model.go:244-257`). -/
def Balance.commitInflightCredit (b : Balance) (amt : Int) : Except BalErr Balance :=
  if b.inflightCredit < amt then .error .insufficientInflightCredit
  else .ok (({ b with inflightCredit := b.inflightCredit - amt, credit := b.credit + amt }.computeBalance true).computeBalance false)

/-- `RollbackInflightDebit` (`model/model.go:271-279`). -/
def Balance.rollbackInflightDebit (b : Balance) (amt : Int) : Except BalErr Balance :=
  if b.inflightDebit < amt then .error .insufficientInflightDebit
  else .ok ({ b with inflightDebit := b.inflightDebit - amt }.computeBalance true)

/-- `RollbackInflightCredit` (`model/model.go:260-268`). -/
def Balance.rollbackInflightCredit (b : Balance) (amt : Int) : Except BalErr Balance :=
  if b.inflightCredit < amt then .error .insufficientInflightCredit
  else .ok ({ b with inflightCredit := b.inflightCredit - amt }.computeBalance true)

/-- What one side of a transaction does to a balance, once the checks that read
the *other* fields have passed.  The three branches are the three branches of
`applyTransactionToBalances` (`transaction_execution.go:326-364`). -/
def applySource (t : Txn) (b : Balance) : Except BalErr Balance :=
  match t.status with
  | .commit => b.commitInflightDebit (t.applyPrecision.preciseAmount.getD 0)
  | .void => match t.preciseAmount with
    | none => .error .nilAmount
    | some p => b.rollbackInflightDebit p
  | _ => do
    let t' := t.applyPrecision
    t'.validate
    canProcessTransaction t' b
    return b.postDebit (t'.preciseAmount.getD 0) t.inflight

/-- Destination side; see `applySource`. -/
def applyDestination (t : Txn) (b : Balance) : Except BalErr Balance :=
  match t.status with
  | .commit => b.commitInflightCredit (t.applyPrecision.preciseAmount.getD 0)
  | .void => match t.preciseAmount with
    | none => .error .nilAmount
    | some p => b.rollbackInflightCredit p
  | _ => .ok (b.postCredit (t.applyPrecision.preciseAmount.getD 0) t.inflight)

/-- The transaction record after `applyTransactionToBalances`: commit and plain
postings run `ApplyPrecision` on it, a void does not. -/
def applyRecord (t : Txn) : Txn :=
  match t.status with
  | .void => t
  | _ => t.applyPrecision

/-- `applyTransactionToBalances` (`transaction_execution.go:320-365`) on two
separate in-memory balances.  In a self-transfer on the single-transaction path
these are two separately loaded copies of the same row
(`transaction_execution.go:41-100`). -/
def applyToBalances (t : Txn) (s d : Balance) : Except BalErr (Balance × Balance) := do
  let s' ← applySource t s
  let d' ← applyDestination t d
  return (s', d')

/-- `applyTransactionToBalances` when both list entries point at the same
in-memory balance, as the batch path does for a self-transfer
(`transaction_coalescing.go:461-473`). -/
def applyToAliased (t : Txn) (b : Balance) : Except BalErr Balance := do
  let b' ← applySource t b
  applyDestination t b'

end Blnk
