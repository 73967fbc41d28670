import Verif.Model.Paging
/-
Reconciliation (`reconciliation.go`): the rules and the one-to-one strategy.

Simplifications: amounts, drifts and times are rationals (the code has `float64` and `time.Time`; times
here are seconds); fields and operators are those `validateRule` lets through
(`reconciliation.go:1256-1353`); the text operations of the Go library are a parameter.
-/
namespace Blnk.Recon

inductive Field
  | amount | date | description | reference | currency
deriving DecidableEq, Repr

inductive Operator
  | equals | greaterThan | lessThan | contains
deriving DecidableEq, Repr

/-- `model.MatchingCriteria` (`model/reconciliation_model.go:74-80`); `value` and `pattern` are never read. -/
structure Criterion where
  field : Field
  operator : Operator
  drift : Rat := 0
deriving DecidableEq, Repr

/-- `model.MatchingRule` (`model/reconciliation_model.go:64-72`). -/
structure Rule where
  name : String
  criteria : List Criterion
deriving DecidableEq, Repr

/-- `validateDrift` (`reconciliation.go:1336-1353`). -/
def Criterion.ok (c : Criterion) : Bool :=
  if c.operator = .equals then
    match c.field with
    | .amount => 0 ≤ c.drift && c.drift ≤ 1
    | .date => 0 ≤ c.drift
    | _ => true
  else true

/-- `validateRule` (`reconciliation.go:1256-1290`). -/
def Rule.ok (r : Rule) : Bool := r.name ≠ "" && !r.criteria.isEmpty && r.criteria.all Criterion.ok

/-- What the rules look at, of an external record (`ToInternalTransaction`, `model/model.go:520-529`)
or of an internal transaction. -/
structure Rec where
  id : String
  amount : Rat
  date : Rat := 0
  description : String := ""
  reference : String := ""
  currency : String := "USD"
deriving DecidableEq, Repr

/-- The text operations: `strings.EqualFold`, `partialMatch` (`reconciliation.go:1405-1423`) with its
drift, and `strings.Split` at `" | "`. -/
structure Text where
  same : String → String → Bool
  near : Rat → String → String → Bool
  parts : String → List String

/-- `strings.Split(s, " | ")`. -/
def splitBar : List Char → List Char → List (List Char)
  | acc, ' ' :: '|' :: ' ' :: cs => acc.reverse :: splitBar [] cs
  | acc, c :: cs => splitBar (c :: acc) cs
  | acc, [] => [acc.reverse]

/-- Edit distance, every edit costing one (`levenshtein.DefaultOptionsWithSub`). -/
def editDistance : List Char → List Char → Nat
  | [], b => b.length
  | a, [] => a.length
  | x :: a, y :: b => min (min (editDistance a (y :: b) + 1) (editDistance (x :: a) b + 1)) (editDistance a b + if x = y then 0 else 1)

def infixOf (a : List Char) : List Char → Bool
  | [] => a.isEmpty
  | c :: cs => a.isPrefixOf (c :: cs) || infixOf a cs

/-- The text operations on ASCII. -/
def ascii : Text where
  same a b := a.toList.map Char.toLower = b.toList.map Char.toLower
  near d a b :=
    let a := a.toList.map Char.toLower
    let b := b.toList.map Char.toLower
    infixOf b a || infixOf a b || ((editDistance a b : Nat) : Int) ≤ ((max a.length b.length : Nat) * (d / 100) : Rat).floor
  parts s := (splitBar [] s.toList).map String.ofList

def Rat.dist (a b : Rat) : Rat := if a ≤ b then b - a else a - b

def Rat.size (a : Rat) : Rat := if 0 ≤ a then a else -a

/-- `matchesString` (`reconciliation.go:1378-1398`). -/
def matchesString (x : Text) (c : Criterion) (ext int : String) : Bool :=
  match c.operator with
  | .equals => (x.parts int).any (x.same ext)
  | .contains => (x.parts int).any (x.near c.drift ext)
  | _ => false

/-- `matchesCurrency` (`reconciliation.go:1431-1437`). -/
def matchesCurrency (x : Text) (c : Criterion) (ext int : String) : Bool :=
  if int = "MIXED" then true else matchesString x c ext int

/-- `matchesGroupAmount` (`reconciliation.go:1445-1456`). -/
def matchesAmount (c : Criterion) (ext int : Rat) : Bool :=
  match c.operator with
  | .equals => Rat.dist ext int ≤ Rat.size int * c.drift
  | .greaterThan => int < ext
  | .lessThan => ext < int
  | .contains => false

/-- `matchesGroupDate` (`reconciliation.go:1464-1475`). -/
def matchesDate (c : Criterion) (ext int : Rat) : Bool :=
  match c.operator with
  | .equals => Rat.dist ext int ≤ c.drift
  | .greaterThan => int < ext
  | .lessThan => ext < int
  | .contains => false

/-- One criterion (`reconciliation.go:280-300`). -/
def meets (x : Text) (c : Criterion) (e t : Rec) : Bool :=
  match c.field with
  | .amount => matchesAmount c e.amount t.amount
  | .date => matchesDate c e.date t.date
  | .description => matchesString x c e.description t.description
  | .reference => matchesString x c e.reference t.reference
  | .currency => matchesCurrency x c e.currency t.currency

/-- `matchesRules` (`reconciliation.go:275-311`). -/
def matchesRules (x : Text) (rules : List Rule) (e t : Rec) : Bool := rules.any fun r => r.criteria.all fun c => meets x c e t

/-- Widening an interval by another one (`reconciliation.go:1504-1514`, `1522-1532`). -/
def widen (b : Option (Rat × Rat)) (lo hi : Rat) : Option (Rat × Rat) :=
  match b with
  | none => some (lo, hi)
  | some (l, h) => some (if lo < l then lo else l, if h < hi then hi else h)

/-- The amount bounds over all criteria (`calculateMatchingBounds`, `reconciliation.go:1479-1551`). -/
def amountBounds (e : Rec) : List Criterion → Option (Rat × Rat) → Option (Rat × Rat)
  | [], b => b
  | c :: cs, b =>
    if c.field = .amount ∧ c.operator = .equals then
      amountBounds e cs (widen b (e.amount - Rat.size e.amount * c.drift) (e.amount + Rat.size e.amount * c.drift))
    else amountBounds e cs b

/-- The date bounds; `time.Duration(drift)` drops the fraction of a second (`reconciliation.go:1518`). -/
def dateBounds (e : Rec) : List Criterion → Option (Rat × Rat) → Option (Rat × Rat)
  | [], b => b
  | c :: cs, b =>
    if c.field = .date ∧ c.operator = .equals then
      dateBounds e cs (widen b (e.date - (c.drift.floor : Rat)) (e.date + (c.drift.floor : Rat)))
    else dateBounds e cs b

def criteriaOf (rules : List Rule) : List Criterion := rules.flatMap (·.criteria)

def within (b : Option (Rat × Rat)) (v : Rat) : Bool :=
  match b with
  | none => true
  | some (lo, hi) => lo ≤ v && v ≤ hi

/-- The rows `GetTransactionsByCriteria` selects (`database/transaction_criteria.go:37-77`). -/
def selects (rules : List Rule) (e t : Rec) : Bool :=
  within (amountBounds e (criteriaOf rules) none) t.amount && (e.currency = "" || t.currency = e.currency) &&
    within (dateBounds e (criteriaOf rules) none) t.date

structure Match where
  external : String
  internal : String
  amount : Rat
  date : Rat
deriving DecidableEq, Repr

structure Outcome where
  matched : List Match
  unmatched : List String
deriving DecidableEq, Repr

/-- The workers of `findMatchingInternalTransaction` (`reconciliation.go:1034-1055`): each takes rows in
order and stops at its first match, so together they report the first `workers` matching rows. -/
def reported (x : Text) (workers : Nat) (rules : List Rule) (e : Rec) (rows : List Rec) : List Match :=
  ((rows.filter (matchesRules x rules e)).take workers).map fun t =>
    { external := e.id, internal := t.id, amount := e.amount, date := e.date }

/-- The rows handed to the workers before a page could not be read (`transaction_batch_processing.go:189-195`). -/
inductive Cut {α : Type} (size : Nat) (q : Nat → List α) : Nat → Nat → List α → Prop
  | fail {k off} : Cut size q k off []
  | next {k off out} : Paging.page (q k) size off ≠ [] → Cut size q (k + 1) (off + (Paging.page (q k) size off).length) out →
      Cut size q k off (Paging.page (q k) size off ++ out)

/-- What is reported of a record once all pages were read (`reconciliation.go:1061-1067`). -/
def verdict (x : Text) (workers : Nat) (rules : List Rule) (e : Rec) (rows : List Rec) : Outcome :=
  { matched := reported x workers rules e rows
    unmatched := if (reported x workers rules e rows).isEmpty then [e.id] else [] }

/-- One record under `one_to_one` (`reconciliation.go:630-680`, `1016-1070`). `q k` is the internal
table in creation order when the `k`-th page is read.
`lost`: a page could not be read, and the record is reported unmatched besides (`reconciliation.go:655-659`). -/
inductive OneToOne (x : Text) (size workers : Nat) (rules : List Rule) (q : Nat → List Rec) (e : Rec) : Outcome → Prop
  | done {rows} : Paging.Walk size (fun k => (q k).filter (selects rules e)) 0 0 rows →
      OneToOne x size workers rules q e (verdict x workers rules e rows)
  | lost {rows} : Cut size (fun k => (q k).filter (selects rules e)) 0 0 rows →
      OneToOne x size workers rules q e { matched := reported x workers rules e rows, unmatched := [e.id] }

end Blnk.Recon
