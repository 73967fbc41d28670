import Verif.Model.Search
/-
What a start does to the collections of the search index: `initializeTypeSense` (`cmd/server.go:226-244`) with
`retryWithBackoff` (`:249-267`), `EnsureCollectionsExist` (`internal/search/search.go:175-187`),
`migrateTypeSenseSchema` (`cmd/server.go:108-120`), `MigrateTypeSenseSchema` and `compareSchemas`
(`internal/search/search.go:440-504`). The collections may be those of another version.

Simplified: a field is its name, type and whether it is optional; references between collections and facets
are left out. Every request to Typesense may be done, refused, or done with the answer lost. Waiting times and
the end of the context (which is one more way to stop early) are left out.
-/
namespace Blnk.Upgrade
open Blnk.Srch (Coll Field Data JV Ty look schema)

/-- What becomes of a request to Typesense. -/
inductive Ans
  | ok | lost | refused
deriving DecidableEq, Repr

structure St where
  /-- the fields of the collections that exist -/
  fields : Coll → Option (List Field)
  /-- requests so far -/
  calls : Nat := 0

def St.tick (s : St) : St := { s with calls := s.calls + 1 }

def St.set (s : St) (c : Coll) (fs : List Field) : St := { s with fields := fun x => if x = c then some fs else s.fields x }

/-- `compareSchemas` (`internal/search/search.go:479-504`), the new fields. -/
def missing (old new : List Field) : List Field := new.filter (fun f => !old.any (fun o => o.name = f.name))

/-- The removed fields of `compareSchemas`; not used by `MigrateTypeSenseSchema`
(`internal/search/search.go:459`). -/
def removed (old new : List Field) : List String := (old.filter (fun o => !new.any (fun f => f.name = o.name))).map (·.name)

/-- `CreateCollection` (`internal/search/search.go:203-212`): one that exists is left as it is. -/
def create (s : St) (c : Coll) : St := match s.fields c with
  | some _ => s
  | none => s.set c (schema c)

def createOne (ans : Nat → Ans) (c : Coll) (s : St) : Bool × St := match ans s.calls with
  | .ok => (true, create s.tick c)
  | .lost => (false, create s.tick c)
  | .refused => (false, s.tick)

/-- A value a field of the type takes. -/
def takes : Ty → JV → Bool
  | .string, .str _ => true
  | .int, .num _ => true
  | .float, .num _ => true
  | .float, .real _ => true
  | .bool, .bool _ => true
  | .object, .obj _ => true
  | _, _ => false

/-- Typesense takes a document when every field that is not optional is there and every field there has its
type. -/
def accepts (fs : List Field) (d : Data) : Bool := fs.all fun f => match look d f.name with
  | none => f.optional
  | some v => takes f.ty v

/-- The document of `ensureDefaultGeneralLedger` (`internal/search/search.go:190-199`, `414-423`). -/
def generalDoc (now : Int) : Data :=
  [("id", .str "general_ledger_id"), ("ledger_id", .str "general_ledger_id"), ("name", .str "General Ledger"), ("created_at", .num now)]

def putGeneral (ans : Nat → Ans) (now : Int) (s : St) : Bool × St :=
  (match s.fields .ledgers with
    | some fs => accepts fs (generalDoc now) && ans s.calls = .ok
    | none => false, s.tick)

/-- A loop over collections that stops at the first error. -/
def each (f : Coll → St → Bool × St) : List Coll → St → Bool × St
  | [], s => (true, s)
  | c :: cs, s => match f c s with
    | (true, s') => each f cs s'
    | (false, s') => (false, s')

/-- The loop of `MigrateTypeSenseSchema` (`internal/search/search.go:461-471`). -/
def addAll (ans : Nat → Ans) (c : Coll) : List Field → List Field → St → Bool × St
  | [], _, s => (true, s)
  | f :: fs, cur, s => match ans s.calls with
    | .ok => addAll ans c fs (cur ++ [f]) (s.tick.set c (cur ++ [f]))
    | .lost => (false, s.tick.set c (cur ++ [f]))
    | .refused => (false, s.tick)

/-- `MigrateTypeSenseSchema` (`internal/search/search.go:440-474`). -/
def migrateOne (ans : Nat → Ans) (c : Coll) (s : St) : Bool × St :=
  if ans s.calls = .ok then match s.fields c with
    | some fs => addAll ans c (missing fs (schema c)) fs s.tick
    | none => (false, s.tick)
  else (false, s.tick)

/-- `migrateTypeSenseSchema` (`cmd/server.go:110`). -/
def migrated : List Coll := [.ledgers, .balances, .transactions, .identities, .reconciliations]

/-- One attempt (`cmd/server.go:234-239`); `order` is that of a Go map. -/
def attempt (ans : Nat → Ans) (now : Int) (order : List Coll) (s : St) : Bool × St :=
  match each (createOne ans) order s with
  | (false, s) => (false, s)
  | (true, s) => match putGeneral ans now s with
    | (false, s) => (false, s)
    | (true, s) => each (migrateOne ans) migrated s

/-- `retryWithBackoff` (`cmd/server.go:249-267`). -/
def tries (ans : Nat → Ans) (now : Int) (order : Nat → List Coll) : Nat → St → Bool × St
  | 0, s => (false, s)
  | n + 1, s => match attempt ans now (order n) s with
    | (true, s') => (true, s')
    | (false, s') => tries ans now order n s'

/-- A start: five attempts. -/
def start (ans : Nat → Ans) (now : Int) (order : Nat → List Coll) (s : St) : Bool × St := tries ans now order 5 s

end Blnk.Upgrade
