/-
Metadata of ledgers, balances, identities and transactions and its update endpoint
(`metadata.go`, `database/metadata.go`, `api/metadata.go:27-51`).

A JSON object is a list of keys with the JSON text of their values; `none` is a column holding SQL
NULL or JSON null. Values are kept as they were stored: Go decodes JSON numbers as float64 both when
a value is first accepted and when it is read for a merge, so a second pass changes nothing.
Not modelled: other writers of the column, the search index task, database failures.
-/
namespace Blnk.Meta

abbrev Obj := List (String × String)

/-- The value of a key. -/
def get (m : Obj) (k : String) : Option String := (m.find? (fun p => p.1 = k)).map (·.2)

/-- The keys. -/
def keys (m : Obj) : List String := m.map (·.1)

/-- `m[k] = v` of a Go map. -/
def put : Obj → String → String → Obj
  | [], k, v => [(k, v)]
  | p :: m, k, v => if p.1 = k then (k, v) :: m else p :: put m k v

/-- The loop of `mergeMetadata` (`metadata.go:194-196`), over the new keys in some order. -/
def putAll (cur : Obj) : Obj → Obj
  | [] => cur
  | (k, v) :: new => putAll (put cur k v) new

/-- `mergeMetadata` (`metadata.go:189-199`). -/
def merge (cur : Option Obj) (new : Obj) : Obj := putAll (cur.getD []) new

/-- `||` on jsonb objects, after coercing the left operand (`database/metadata.go:53-57`). -/
def concat (cur : Option Obj) (new : Obj) : Obj :=
  (cur.getD []).filter (fun p => !(keys new).contains p.1) ++ new

inductive Kind
  | transactions | ledgers | balances | identities
deriving DecidableEq, Repr

/-- `strings.HasPrefix`. -/
def hasPrefix (s p : String) : Bool := p.toList.isPrefixOf s.toList

/-- `getEntityTypeFromID` (`metadata.go:25-40`). -/
def kindOf (id : String) : Option Kind :=
  if hasPrefix id "txn_" then some .transactions
  else if hasPrefix id "bulk_" then some .transactions
  else if hasPrefix id "ldg_" then some .ledgers
  else if hasPrefix id "bln_" then some .balances
  else if hasPrefix id "idt_" then some .identities
  else none

/-- A row of one of the four tables; only transactions have a parent. -/
structure Row where
  kind : Kind
  id : String
  parent : String := ""
  data : Option Obj := none
deriving DecidableEq, Repr

/-- The metadata part of the reconciliation trigger (`sql/1742101752.sql:26-72`), fired by every update
of a balance row: the request key is removed and a result is recorded. `res` is the result text. -/
def fire (res : String) (k : Kind) (m : Obj) : Obj :=
  if k = .balances ∧ get m "BLNK_RUN_RECONCILIATION" = some "\"SOURCE\"" then
    put (m.filter (fun p => p.1 ≠ "BLNK_RUN_RECONCILIATION")) "BLNK_RECONCILIATION_RESULT" res
  else m

/-- `UPDATE … SET meta_data = $1 WHERE …_id = $2` (`database/metadata.go:18-31`, `71-105`). -/
def replace (res : String) (rows : List Row) (k : Kind) (id : String) (m : Obj) : List Row :=
  rows.map fun r => if r.kind = k ∧ r.id = id then { r with data := some (fire res k m) } else r

/-- `UpdateTransactionMetadata` (`database/metadata.go:43-59`): one statement, merging in SQL. -/
def mergeRows (rows : List Row) (id : String) (new : Obj) : List Row :=
  rows.map fun r => if r.kind = .transactions ∧ (r.id = id ∨ r.parent = id) then { r with data := some (concat r.data new) } else r

inductive Err
  | invalidId
  | notFound
deriving DecidableEq, Repr

/-- What `UpdateMetadata` keeps between its read and its write. -/
inductive Read
  | entity (k : Kind) (cur : Option Obj)
  | transactions
deriving DecidableEq, Repr

/-- The reading half of `UpdateMetadata` (`metadata.go:54-140`). -/
def start (rows : List Row) (id : String) : Except Err Read :=
  match kindOf id with
  | none => .error .invalidId
  | some .transactions =>
    if rows.any (fun r => r.kind = .transactions && (r.id = id || r.parent = id)) then .ok .transactions else .error .notFound
  | some k => match rows.find? (fun r => r.kind = k && r.id = id) with
    | none => .error .notFound
    | some r => .ok (.entity k r.data)

/-- The writing half, and the metadata answered. -/
def finish (res : String) (rows : List Row) (id : String) (new : Obj) : Read → List Row × Obj
  | .entity k cur => (replace res rows k id (merge cur new), merge cur new)
  | .transactions => (mergeRows rows id new, new)

/-- One request with nothing in between. -/
def update (res : String) (rows : List Row) (id : String) (new : Obj) : List Row × Except Err Obj :=
  match start rows id with
  | .error e => (rows, .error e)
  | .ok rd => ((finish res rows id new rd).1, .ok (finish res rows id new rd).2)

/-- A request under way. -/
structure Pending where
  req : Nat
  id : String
  new : Obj
  rd : Read
deriving DecidableEq, Repr

structure State where
  rows : List Row
  pending : List Pending := []
deriving DecidableEq, Repr

/-- The two halves of concurrent requests, in any order. -/
inductive Ev
  | read (req : Nat) (id : String) (new : Obj)
  | write (req : Nat)
deriving DecidableEq, Repr

def step (res : String) (s : State) : Ev → State
  | .read i id new => match start s.rows id with
    | .error _ => s
    | .ok rd => { s with pending := { req := i, id, new, rd } :: s.pending }
  | .write i => match s.pending.find? (fun p => p.req = i) with
    | none => s
    | some p => { rows := (finish res s.rows p.id p.new p.rd).1, pending := s.pending.filter (fun p => p.req ≠ i) }

def exec (res : String) (s : State) : List Ev → State
  | [] => s
  | e :: es => exec res (step res s e) es

end Blnk.Meta
