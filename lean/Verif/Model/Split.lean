import Verif.Model.Balance
/-
Splitting a transaction over several sources or destinations: `model/transaction.go:124-467`
and `updateSplitTransactions` of `transaction_queue.go`.

Decimals are `Rat`. `decimal.Div` keeps 16 decimal places; here the division by 100 is exact,
which is the same for percentages with at most 14 decimal places. Texts are already parsed:
see `DStr` and `PStr`. Go maps are lists of pairs with distinct keys; where the code's result
depends on the order in which Go iterates a map, the order is the parameter `ord`.
-/
namespace Blnk.Split

/-- `Distribution.Distribution` (`model/transaction.go:39`) after parsing. -/
inductive DStr
  | blank
  | left
  /-- ends in `%` and the rest is a number -/
  | percent (p : Rat)
  /-- ends in `%` and the rest is not a number -/
  | badPercent
  | number (a : Rat)
  | bad
deriving DecidableEq, Repr

/-- `Distribution.PreciseDistribution` (`model/transaction.go:40`) after parsing. -/
inductive PStr
  | blank
  | left
  | int (a : Int)
  | bad
deriving DecidableEq, Repr

/-- `Distribution` (`model/transaction.go:37-42`). -/
structure Dist where
  id : String
  share : DStr := .blank
  precise : PStr := .blank
deriving DecidableEq, Repr

inductive SplitErr
  | badFormat
  | fixedExceeds
  | totalExceeds
  | leftTwice
deriving DecidableEq, Repr

/-- `isLeftDistribution` (`model/transaction.go:132-134`). -/
def Dist.isLeft (d : Dist) : Bool := d.share == .left || d.precise == .left

/-- `isPercentageDistribution` (`model/transaction.go:137-139`). -/
def Dist.isPercent (d : Dist) : Bool :=
  match d.share with
  | .percent _ | .badPercent => true
  | _ => false

/-! ### Maps -/

/-- Assign a key. -/
def put {α : Type} (m : List (String × α)) (k : String) (v : α) : List (String × α) :=
  match m with
  | [] => [(k, v)]
  | (j, u) :: t => if j = k then (j, v) :: t else (j, u) :: put t k v

/-- Look a key up. -/
def get? {α : Type} (m : List (String × α)) (k : String) : Option α :=
  match m with
  | [] => none
  | (j, u) :: t => if j = k then some u else get? t k

def keys {α : Type} (m : List (String × α)) : List String := m.map (·.1)

/-- The loop that finds the largest positive value (`model/transaction.go:253-263`, `:306-312`),
over the keys in iteration order, starting from no key and zero. -/
def search {α : Type} (lt : α → α → Bool) (m : List (String × α)) (best : String × α) : List String → String × α
  | [] => best
  | k :: ks =>
    match get? m k with
    | some v => search lt m (if lt best.2 v then (k, v) else best) ks
    | none => search lt m best ks

def largestRat (m : List (String × Rat)) (order : List String) : String × Rat :=
  search (fun a b => decide (a < b)) m ("", 0) order

def largestInt (m : List (String × Int)) (order : List String) : String × Int :=
  search (fun a b => decide (a < b)) m ("", 0) order

/-- `Decimal.BigInt`: truncation towards zero. -/
def trunc (q : Rat) : Int := if 0 ≤ q then q.floor else q.ceil

/-! ### The passes -/

/-- `parseFixedAmount` (`model/transaction.go:168-186`); `prec` is `int64(transaction.Precision)`. -/
def parseFixed (prec : Int) (d : Dist) : Except SplitErr Rat :=
  match d.precise with
  | .int a => .ok a
  | .bad => .error .badFormat
  | .left => .error .badFormat
  | .blank =>
    match d.share with
    | .number a => .ok (a * prec)
    | .blank => .ok 0
    | _ => .error .badFormat

/-- Fixed amounts so far: what is left, their total, and the map. -/
structure Fixed where
  left : Rat
  total : Rat
  amounts : List (String × Rat)

/-- `processFixedDistributions` (`model/transaction.go:142-165`). -/
def fixedPass (prec : Int) (s : Fixed) : List Dist → Except SplitErr Fixed
  | [] => .ok s
  | d :: ds =>
    if d.isLeft || d.isPercent then fixedPass prec s ds
    else
      match parseFixed prec d with
      | .error e => .error e
      | .ok a =>
        if a = 0 then fixedPass prec s ds
        else if s.left < a then .error .fixedExceeds
        else fixedPass prec { left := s.left - a, total := s.total + a, amounts := put s.amounts d.id a } ds

/-- Percentages so far: their total and the map. -/
structure Percent where
  total : Rat
  amounts : List (String × Rat)

/-- `processPercentageDistributions` (`model/transaction.go:189-216`); `total` is the amount to split. -/
def percentPass (total : Rat) (s : Percent) : List Dist → Except SplitErr Percent
  | [] => .ok s
  | d :: ds =>
    if d.isLeft || !d.isPercent then percentPass total s ds
    else
      match d.share with
      | .percent p =>
        let raw := total * p / 100
        let amount := if 0 < raw ∧ raw < 1 then 0 else raw
        percentPass total { total := s.total + p, amounts := put s.amounts d.id amount } ds
      | _ => .error .badFormat

/-- Sum of a map's values. -/
def sumR (m : List (String × Rat)) : Rat := (m.map (·.2)).sum
def sumI (m : List (String × Int)) : Int := (m.map (·.2)).sum

/-- `adjustPercentageAmounts` (`model/transaction.go:228-250`). -/
def adjust (ord : List String → List String) (total : Rat) (s : Percent) : List (String × Rat) :=
  if s.amounts = [] then s.amounts
  else
    let diff := total * s.total / 100 - sumR s.amounts
    if diff = 0 then s.amounts
    else
      let best := largestRat s.amounts (ord (keys s.amounts))
      if best.1 ≠ "" ∧ 0 < best.2 then put s.amounts best.1 (best.2 + diff) else s.amounts

/-- First loop of `combineDistributions` (`model/transaction.go:267-269`). -/
def combineFixed (m : List (String × Rat)) : List (String × Int) := m.map (fun x => (x.1, trunc x.2))

/-- Second loop of `combineDistributions` (`model/transaction.go:271-274`), on the result map. -/
def combinePercent (r : List (String × Int)) : List (String × Rat) → List (String × Int)
  | [] => r
  | (k, a) :: t => combinePercent (put r k (trunc a)) t

/-- `processLeftDistribution` (`model/transaction.go:278-292`): the first `left` entry only. -/
def leftPass (left : Rat) (r : List (String × Int)) : List Dist → Except SplitErr (List (String × Int))
  | [] => .ok r
  | d :: ds =>
    if d.isLeft then
      match get? r d.id with
      | some _ => .error .leftTwice
      | none => .ok (put r d.id (trunc left))
    else leftPass left r ds

/-- `balanceDistributions` (`model/transaction.go:295-318`). -/
def rebalance (ord : List String → List String) (total : Int) (r : List (String × Int)) : List (String × Int) :=
  if sumI r = total then r
  else
    let best := largestInt r (ord (keys r))
    if best.1 ≠ "" then put r best.1 (best.2 + (total - sumI r)) else r

/-- `handleZeroAmount` (`model/transaction.go:379-385`). -/
def zeros (r : List (String × Int)) : List Dist → List (String × Int)
  | [] => r
  | d :: ds => zeros (put r d.id 0) ds

/-- `CalculateDistributionsPrecise` (`model/transaction.go:321-376`) with `handleSmallAmount`
(`:388-400`). -/
def distribute (ord : List String → List String) (total : Int) (ds : List Dist) (prec : Int) :
    Except SplitErr (List (String × Int)) :=
  if total = 0 then .ok (zeros [] ds)
  else
    match ds, decide (total = 1) with
    | d :: rest, true => .ok (zeros [(d.id, total)] rest)
    | _, _ =>
      match fixedPass prec { left := total, total := 0, amounts := [] } ds with
      | .error e => .error e
      | .ok f =>
        match percentPass total { total := 0, amounts := [] } ds with
        | .error e => .error e
        | .ok p =>
          if 100 < p.total ∨ (total : Rat) < f.total then .error .totalExceeds
          else
            let pa := adjust ord total p
            let r := combinePercent (combineFixed f.amounts) pa
            match leftPass (f.left - sumR pa) r ds with
            | .error e => .error e
            | .ok r => .ok (rebalance ord total r)

/-! ### The legs -/

/-- One leg (`model/transaction.go:431-455`): `n` is the counter, `newId` the generated id. -/
def leg (t : Txn) (bySource : Bool) (newId : String) (n : Nat) (party : String) (amount : Int) : Txn :=
  { t with
    id := newId
    preciseAmount := some amount
    amount := (amount : Rat) / t.precision
    parent := t.id
    source := if bySource then party else t.source
    destination := if bySource then t.destination else party
    reference := t.reference ++ "-" ++ Nat.repr n }

/-- The loop over the map (`model/transaction.go:429-461`), in iteration order `ks`. -/
def legs (t : Txn) (bySource : Bool) (newId : Nat → String) (r : List (String × Int)) (n : Nat) : List String → List Txn
  | [] => []
  | k :: ks =>
    match get? r k with
    | some a => leg t bySource (newId n) n k a :: legs t bySource newId r (n + 1) ks
    | none => legs t bySource newId r n ks

/-- `SplitTransactionPrecise` (`model/transaction.go:403-467`) for a transaction whose precise
amount is known; `sources` and `destinations` are its lists. -/
def split (ord : List String → List String) (t : Txn) (total : Int) (sources destinations : List Dist)
    (newId : Nat → String) : Except SplitErr (List Txn) :=
  let bySource := !sources.isEmpty
  match distribute ord total (if bySource then sources else destinations) t.precision.floor with
  | .error e => .error e
  | .ok r => .ok (legs t bySource newId r 1 (ord (keys r)))

/-- `updateSplitTransactions` (`transaction_queue.go:394-399`): on the queued path the legs get
new references. -/
def renumber (parent ref : String) (n : Nat) : List Txn → List Txn
  | [] => []
  | t :: ts => { t with parent := parent, reference := ref ++ "_" ++ Nat.repr n } :: renumber parent ref (n + 1) ts

end Blnk.Split
