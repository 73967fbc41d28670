import Verif.Model.Recon
/-
Grouped reconciliation: `one_to_many` and `many_to_one` (`reconciliation.go:689-1000`).

The processor hands the strategies one record at a time (`reconciliation.go:456`), so the group map of
a page and its lock are shared with nobody. `rows` are what the grouping query returns in its order,
each with its group key; a page that cannot be read ends the pages like the last one does
(`reconciliation.go:797-800`, `959-962`).
-/
namespace Blnk.Recon

/-- The pages of a query whose offset grows by the batch size (`reconciliation.go:796-823`, `957-981`). -/
def chunksUpTo (size : Nat) : Nat → List (String × Rec) → List (List (String × Rec))
  | 0, _ => []
  | n + 1, rows => if rows.isEmpty then [] else rows.take size :: chunksUpTo size n (rows.drop size)

def chunks (size : Nat) (rows : List (String × Rec)) : List (List (String × Rec)) := chunksUpTo size rows.length rows

/-- `groupedTransactions[groupKey] = append(…)` (`database/transaction_grouping.go:204`,
`database/reconciliation.go:778`). -/
def addTo (k : String) (t : Rec) : List (String × List Rec) → List (String × List Rec)
  | [] => [(k, [t])]
  | (k', g) :: gs => if k' = k then (k', g ++ [t]) :: gs else (k', g) :: addTo k t gs

def groupsFrom (gs : List (String × List Rec)) : List (String × Rec) → List (String × List Rec)
  | [] => gs
  | (k, t) :: rows => groupsFrom (addTo k t gs) rows

def groupsOf (rows : List (String × Rec)) : List (String × List Rec) := groupsFrom [] rows

/-- `dominantCurrency` (`reconciliation.go:1156-1163`). -/
def dominantCurrency : List Rec → String
  | [] => "MIXED"
  | t :: g => if g.all (fun u => u.currency = t.currency) then t.currency else "MIXED"

def earliest : List Rec → Rat
  | [] => 0
  | [t] => t.date
  | t :: g => if t.date ≤ earliest g then t.date else earliest g

def total : List Rec → Rat
  | [] => 0
  | t :: g => t.amount + total g

/-- The transaction a group is compared as (`matchesGroup`, `reconciliation.go:1118-1149`). -/
def combined (g : List Rec) : Rec :=
  { id := "", amount := total g, date := earliest g, description := " | ".intercalate (g.map (·.description))
    reference := " | ".intercalate (g.map (·.reference)), currency := dominantCurrency g }

def matchesGroup (x : Text) (rules : List Rule) (s : Rec) (g : List Rec) : Bool := matchesRules x rules s (combined g)

/-- The matches of a record with a group (`reconciliation.go:915-930`). -/
def pairs (externalGrouped : Bool) (s : Rec) (g : List Rec) : List Match :=
  g.map fun t =>
    if externalGrouped then { external := t.id, internal := s.id, amount := t.amount, date := t.date }
    else { external := s.id, internal := t.id, amount := t.amount, date := t.date }

/-- `matchSingleTransaction` (`reconciliation.go:892-934`) on one page, the groups taken in this order. -/
def claim (x : Text) (rules : List Rule) (s : Rec) (groups : List (String × List Rec)) : Option (String × List Rec) :=
  groups.find? fun g => matchesGroup x rules s g.2

/-- The pages of one record (`reconciliation.go:796-823`, `957-981`): the matches and the unmatched
reports sent. `stop`: the only group of the page was claimed before the loop looked
(`reconciliation.go:972-977`). The order of a Go map is any. -/
inductive Scan (x : Text) (rules : List Rule) (ext : Bool) (s : Rec) : List (List (String × Rec)) → List Match → List String → Prop
  | nil : Scan x rules ext s [] [] []
  | hit {p ps groups g ms us} : groups.Perm (groupsOf p) → claim x rules s groups = some g → Scan x rules ext s ps ms us →
      Scan x rules ext s (p :: ps) (pairs ext s g.2 ++ ms) us
  | stop {p ps g} : groupsOf p = [g] → claim x rules s [g] = some g → Scan x rules ext s (p :: ps) (pairs ext s g.2) []
  | miss {p ps groups ms us} : groups.Perm (groupsOf p) → claim x rules s groups = none → Scan x rules ext s ps ms us →
      Scan x rules ext s (p :: ps) ms (s.id :: us)

/-- One record under a grouped strategy (`reconciliation.go:689-766`). The matches are collected until
every page's goroutine has ended, the unmatched reports only afterwards
(`reconciliation.go:717-725`): they wait in a channel with room for one. -/
inductive Grouped (x : Text) (rules : List Rule) (ext : Bool) (pages : List (List (String × Rec))) (s : Rec) : Option Outcome → Prop
  | none_read : pages = [] → Grouped x rules ext pages s (some { matched := [], unmatched := [s.id] })
  | ends {ms us} : pages ≠ [] → Scan x rules ext s pages ms us → us.length ≤ 1 → Grouped x rules ext pages s (some { matched := ms, unmatched := us })
  | hangs {ms us} : pages ≠ [] → Scan x rules ext s pages ms us → 1 < us.length → Grouped x rules ext pages s none

end Blnk.Recon
