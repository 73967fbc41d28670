import Verif.Model.Balance
/-
Balance monitors: creating, updating and deleting them, their cache, and the check made after each
posting (`balance.go:79-139`, `361-500`; `model/model.go:72-90`, `498-516`;
`database/balance.go:1118-1373`).

Simplifications: numbers that Go holds as `float64` are exact rationals (the product
`Value * Precision` is exact for integers below 2^53); webhooks are delivered, and delivery is
outside the model; the cache is the two-level one of `internal/cache/cache.go` (a local copy per process
in front of Redis), entries may disappear at any time (expiry, eviction).
-/
namespace Blnk.Mon

/-- `model.BalanceMonitor` with its `AlertCondition` (`model/balance.go:49-56`, `84-90`). -/
structure Monitor where
  id : String
  balanceId : String
  field : String
  op : String
  value : Rat
  precision : Rat
  precise : Int
deriving DecidableEq, Repr

/-- `compare` (`model/model.go:72-90`). -/
def compare (v : Int) (op : String) (t : Int) : Bool :=
  if op = ">" then t < v
  else if op = "<" then v < t
  else if op = ">=" then t ≤ v
  else if op = "<=" then v ≤ t
  else if op = "!=" then v ≠ t
  else if op = "==" then v = t
  else false

/-- `CheckCondition` (`model/model.go:500-516`). -/
def check (m : Monitor) (b : Balance) : Bool :=
  if m.field = "debit_balance" then compare b.debit m.op m.precise
  else if m.field = "credit_balance" then compare b.credit m.op m.precise
  else if m.field = "balance" then compare b.balance m.op m.precise
  else if m.field = "inflight_debit_balance" then compare b.inflightDebit m.op m.precise
  else if m.field = "inflight_credit_balance" then compare b.inflightCredit m.op m.precise
  else if m.field = "inflight_balance" then compare b.inflightBalance m.op m.precise
  else false

def fields : List String := ["debit_balance", "credit_balance", "balance", "inflight_debit_balance",
  "inflight_credit_balance", "inflight_balance"]

/-- The operators the table accepts (`sql/1713790634.sql:19`). -/
def operators : List String := [">", "<", ">=", "<=", "=", "!="]

/-- `int64(x)` of a `float64` (`balance.go:365`): truncation; out of range the result is what amd64
gives. -/
def toInt64 (q : Rat) : Int :=
  let n : Int := if 0 ≤ q then q.floor else q.ceil
  if -(2 ^ 63) ≤ n ∧ n < 2 ^ 63 then n else -(2 ^ 63)

/-- `ValidateMonitorCondition` (`api/model/model.go:237-244`); `Required` refuses zero values. -/
def validRequest (m : Monitor) : Bool :=
  fields.contains m.field && m.op ≠ "" && m.precision ≠ 0 && 0 ≤ m.precision && m.value ≠ 0 && m.balanceId ≠ ""

/-- What the table takes (`sql/1708676327.sql:88-99`, `sql/1713790634.sql:16-19`): `value` is BIGINT,
so the text of a number with a fraction is refused. -/
def storable (m : Monitor) : Bool :=
  fields.contains m.field && operators.contains m.op && m.value.den = 1 &&
    -(2 ^ 63) ≤ m.value.num && m.value.num < 2 ^ 63

structure State where
  table : List Monitor := []
  redis : String → Option (List Monitor) := fun _ => none
  /-- the local cache of each process -/
  locals : Nat → String → Option (List Monitor) := fun _ _ => none

/-- `GetBalanceMonitors` (`database/balance.go:1258-1304`). -/
def stored (st : State) (bal : String) : List Monitor := st.table.filter (fun m => m.balanceId = bal)

/-- `cache.Delete` of process `p`: its local copy and Redis. -/
def drop (st : State) (p : Nat) (bal : String) : State :=
  { st with redis := fun k => if k = bal then none else st.redis k,
            locals := fun q k => if q = p && k = bal then none else st.locals q k }

/-- `CreateMonitor` up to the insert (`balance.go:361-371`, `database/balance.go:1118-1157`). `id` is the
generated monitor id. -/
def insert (st : State) (m : Monitor) : Option State :=
  let m := { m with precise := toInt64 (m.value * m.precision) }
  if validRequest m && storable m then some { st with table := st.table ++ [m] } else none

/-- `UpdateMonitor` up to the statement (`balance.go:457-465`, `database/balance.go:1313-1343`): neither
`precision` nor `precise_value` is set. The request is not validated; the table's checks apply. -/
def overwrite (st : State) (m : Monitor) : Option State :=
  if storable m && st.table.any (fun x => x.id = m.id) then
    some { st with table := st.table.map fun x =>
      if x.id = m.id then { x with balanceId := m.balanceId, field := m.field, op := m.op, value := m.value } else x }
  else none

/-- `getBalanceMonitorsCached` (`balance.go:119-139`) by process `p`, without interruption: local copy,
Redis (copied to the local cache), database (stored in both). -/
def lookup (st : State) (p : Nat) (bal : String) : State × List Monitor :=
  match st.locals p bal with
  | some l => (st, l)
  | none => match st.redis bal with
    | some l => ({ st with locals := fun q k => if q = p && k = bal then some l else st.locals q k }, l)
    | none =>
      let l := stored st bal
      ({ st with redis := fun k => if k = bal then some l else st.redis k,
                 locals := fun q k => if q = p && k = bal then some l else st.locals q k }, l)

/-- `checkBalanceMonitors` (`balance.go:79-106`): the monitors notified. -/
def fired (st : State) (p : Nat) (b : Balance) : List Monitor :=
  (lookup st p b.id).2.filter (fun m => check m b)

inductive Ev
  /-- process `p` serves `POST /balance-monitors` -/
  | create (p : Nat) (m : Monitor)
  /-- process `p` serves `PUT /balance-monitors/{id}` -/
  | update (p : Nat) (m : Monitor)
  /-- process `p` serves `DELETE /balance-monitors/{id}` (`balance.go:482-500`) -/
  | delete (p : Nat) (id : String)
  /-- process `p` posts to a balance and checks its monitors -/
  | post (p : Nat) (b : Balance)
  /-- a cache entry expires or is evicted -/
  | expireLocal (p : Nat) (bal : String)
  | expireRedis (bal : String)

def step (st : State) : Ev → State
  | .create p m => match insert st m with
    | some st' => drop st' p m.balanceId
    | none => st
  | .update p m => match overwrite st m with
    | some st' => drop st' p m.balanceId
    | none => st
  | .delete p id => match st.table.find? (fun m => m.id = id) with
    | none => st
    | some m => drop { st with table := st.table.filter (fun x => x.id ≠ id) } p m.balanceId
  | .post p b => (lookup st p b.id).1
  | .expireLocal p bal => { st with locals := fun q k => if q = p && k = bal then none else st.locals q k }
  | .expireRedis bal => { st with redis := fun k => if k = bal then none else st.redis k }

def exec (st : State) : List Ev → State
  | [] => st
  | e :: es => exec (step st e) es

/-- The second half of an interrupted `getBalanceMonitorsCached`: what was read before is stored now
(`balance.go:127-138`). -/
def fill (st : State) (p : Nat) (bal : String) (l : List Monitor) : State :=
  { st with redis := fun k => if k = bal then some l else st.redis k,
            locals := fun q k => if q = p && k = bal then some l else st.locals q k }

end Blnk.Mon
