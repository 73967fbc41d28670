import Verif.Model.Inflight
/-
Daily balance snapshots (`blnk.take_daily_balance_snapshots_batched`, last defined in
`sql/1740493523.sql`) and the historical balance query
(`database/balance.go:1404-1679`).

The snapshot function is one SQL transaction under READ COMMITTED: `NOW()` is fixed when it starts,
but each iteration of its loop is a statement of its own and reads what is committed by then. So a
run is a sequence of batches, and postings, new balances and other runs may happen in between. What
a run inserts is visible to the run itself at once and to everybody else when it commits.

Simplifications: times are counted from Go's zero time (year 1) as naturals, so dates before year 1
do not exist; database sessions are assumed to run in UTC (rows store UTC in columns without time
zone, `database/transaction.go:34-42`; a snapshot time read back carries the session's zone); the serial `id` of a balance row is its position in
the table. The date a row takes effect (`COALESCE(effective_date, created_at)`) never changes after
the row is stored; it is given by a function of the row's id.
-/
namespace Blnk.Snap

/-- A row of `blnk.balance_snapshots` (`sql/1740373196.sql:16-33`). `seen` is a ghost: how many
transaction rows were stored when the snapshot's batch read the balance. -/
structure Snapshot where
  balanceId : String
  balance : Int
  credit : Int
  debit : Int
  inflightBalance : Int
  inflightCredit : Int
  inflightDebit : Int
  currency : String
  time : Nat
  lastTx : Option String
  seen : Nat
deriving DecidableEq, Repr

/-- Microseconds of a day. -/
def dayLength : Nat := 86400000000

/-- `DATE_TRUNC('day', t)`. -/
def day (t : Nat) : Nat := t / dayLength

/-- The variables of a running call (`sql/1740493523.sql:9-20`). `last = none` is SQL NULL. -/
structure Run where
  time : Nat
  size : Nat
  maxId : Nat
  last : Option Nat := some 0
  rows : List Snapshot := []
deriving DecidableEq, Repr

structure State where
  db : DB := {}
  snaps : List Snapshot := []
  runs : List Run := []
deriving Repr

/-- The balance rows with their serial ids, from `n` on. -/
def numbered (n : Nat) : List Balance → List (Nat × Balance)
  | [] => []
  | b :: bs => (n, b) :: numbered (n + 1) bs

/-- `b.id > v_last_processed_id`; a comparison with NULL is not true. -/
def after (last : Option Nat) (i : Nat) : Bool :=
  match last with
  | none => false
  | some l => l < i

/-- `EXISTS (… bs.balance_id = b.balance_id AND DATE_TRUNC('day', bs.snapshot_time) = …)`
(`sql/1740493523.sql:39-44`). -/
def taken (visible : List Snapshot) (time : Nat) (id : String) : Bool :=
  visible.any (fun s => s.balanceId = id && day s.time = day time)

/-- The balances one iteration reads (`sql/1740493523.sql:24-48`). -/
def batchOf (db : DB) (visible : List Snapshot) (r : Run) : List Balance :=
  (((numbered 1 db.balances).filter (fun p => after r.last p.1 && !taken visible r.time p.2.id)).take r.size).map (·.2)

/-- The last stored transaction of a balance (`sql/1740493523.sql:76-82`): rows are stored in
creation order here. -/
def lastTxOf (db : DB) (id : String) : Option String :=
  ((db.txns.filter (fun t => t.source = id || t.destination = id)).getLast?).map (·.id)

/-- The snapshot of one balance (`sql/1740493523.sql:49-84`). -/
def shot (db : DB) (time : Nat) (b : Balance) : Snapshot :=
  { balanceId := b.id, balance := b.balance, credit := b.credit, debit := b.debit,
    inflightBalance := b.inflightBalance, inflightCredit := b.inflightCredit, inflightDebit := b.inflightDebit,
    currency := b.currency, time := time, lastTx := lastTxOf db b.id, seen := db.txns.length }

/-- `SELECT MAX(id) FROM (… id > v_last ORDER BY id LIMIT batch_size)`
(`sql/1740493523.sql:90-97`). -/
def nextLast (db : DB) (r : Run) : Option Nat :=
  ((((numbered 1 db.balances).filter (fun p => after r.last p.1)).take r.size).getLast?).map (·.1)

/-- One iteration of the loop; the second component says whether the loop exits
(`sql/1740493523.sql:22-101`). -/
def iterate (db : DB) (snaps : List Snapshot) (r : Run) : Run × Bool :=
  let b := batchOf db (snaps ++ r.rows) r
  let l := nextLast db r
  ({ r with last := l, rows := r.rows ++ b.map (shot db r.time) },
   b.isEmpty || (match l with | none => false | some l => r.maxId ≤ l))

inductive Ev
  /-- a ledger operation -/
  | act (a : Act)
  /-- `SELECT blnk.take_daily_balance_snapshots_batched(size)` starts
  (`database/balance.go:1386-1402`; the endpoint refuses sizes that are not positive,
  `api/balance.go:371-375`) -/
  | start (now size : Nat)
  /-- the `k`-th running call executes one iteration; when its loop exits it commits -/
  | batch (k : Nat)
  /-- the `k`-th running call fails and is rolled back -/
  | abort (k : Nat)
deriving Repr

/-- The next state. -/
def step (cfg : Cfg) (st : State) : Ev → State
  | .act a => { st with db := Blnk.act cfg st.db a }
  | .start now size =>
    if size = 0 then st
    else { st with runs := st.runs ++ [{ time := now, size := size, maxId := st.db.balances.length }] }
  | .batch k => match st.runs[k]? with
    | none => st
    | some r =>
      let (r', exit) := iterate st.db st.snaps r
      if exit then { st with snaps := st.snaps ++ r'.rows, runs := st.runs.eraseIdx k }
      else { st with runs := st.runs.set k r' }
  | .abort k => { st with runs := st.runs.eraseIdx k }

/-- An execution. -/
def exec (cfg : Cfg) (st : State) : List Ev → State
  | [] => st
  | e :: es => exec cfg (step cfg st e) es

/-! ### The historical query -/

/-- `getMostRecentSnapshot` (`database/balance.go:1437-1480`): `ORDER BY snapshot_time DESC LIMIT 1`;
of two snapshots with the same time the database may return either, here the earlier one. -/
def mostRecent (id : String) (target : Nat) : List Snapshot → Option Snapshot
  | [] => none
  | s :: ss =>
    let r := mostRecent id target ss
    if s.balanceId = id && s.time ≤ target then
      match r with
      | none => some s
      | some s' => if s.time < s'.time then some s' else some s
    else r

/-- A timestamp as a client sends it (`api/balance.go:404-414`, RFC 3339 with an offset): the instant
it names and the clock reading it is written with. `GetBalanceAtTime` does not convert it to UTC and
`lib/pq` sends the reading followed by the offset. PostgreSQL honours the offset where it compares
with `snapshot_time` (a column with time zone, `sql/1740373196.sql:27`) and discards it where it
compares with `effective_date` and `created_at` (columns without). -/
structure Stamp where
  instant : Nat
  reading : Nat
deriving DecidableEq, Repr

/-- A timestamp written in UTC. -/
def utc (t : Nat) : Stamp := ⟨t, t⟩

/-- `fetchTransactions` (`database/balance.go:1484-1505`). -/
def fetch (eff : String → Nat) (db : DB) (id : String) (start target : Nat) : List Txn :=
  db.txns.filter (fun t => (t.source = id || t.destination = id) && start < eff t.id && eff t.id ≤ target &&
    t.status = .applied)

/-- `applyTransaction` over the fetched rows (`database/balance.go:1508-1579`): credit and debit. -/
def tally (id : String) : List Txn → Int × Int → Int × Int
  | [], p => p
  | t :: ts, (c, d) =>
    tally id ts (if t.destination = id then c + t.preciseAmount.getD 0 else c,
      if t.source = id then d + t.preciseAmount.getD 0 else d)

/-- The answer of `GetBalanceAtTime`. -/
structure Answer where
  credit : Int
  debit : Int
  balance : Int
deriving DecidableEq, Repr

/-- `GetBalanceAtTime` (`database/balance.go:1596-1679`) for an existing balance. -/
def balanceAt (eff : String → Nat) (st : State) (id : String) (target : Stamp) (fromSource : Bool) : Answer :=
  let (c, d, start) := if fromSource then ((0 : Int), (0 : Int), 0)
    else match mostRecent id target.instant st.snaps with
      | some s => (s.credit, s.debit, s.time)
      | none => (0, 0, 0)
  let (c', d') := tally id (fetch eff st.db id start target.reading) (c, d)
  { credit := c', debit := d', balance := c' - d' }

/-! ### The update trigger on snapshots -/

/-- The columns `prevent_snapshot_update` compares, each possibly NULL
(`sql/1742099489.sql:19-41`). Values are texts. -/
structure Cols where
  balanceId : Option String
  ledgerId : Option String
  balance : Option Int
  credit : Option Int
  debit : Option Int
  inflightBalance : Option Int
  inflightCredit : Option Int
  inflightDebit : Option Int
  currency : Option String
  time : Option Nat
  createdAt : Option Nat
  lastTx : Option String
  metaData : Option String
deriving DecidableEq, Repr

/-- SQL `=`: true only for two equal values that are not NULL; what the `IF` sees. -/
def sqlEq {α : Type} [DecidableEq α] (a b : Option α) : Bool :=
  match a, b with
  | some x, some y => x = y
  | _, _ => false

/-- `prevent_snapshot_update` (`sql/1742099489.sql:17-41`): whether the update goes through. -/
def updateAllowed (old new : Cols) : Bool :=
  new.metaData ≠ old.metaData && (sqlEq new.balanceId old.balanceId && sqlEq new.ledgerId old.ledgerId &&
    sqlEq new.balance old.balance && sqlEq new.credit old.credit && sqlEq new.debit old.debit &&
    sqlEq new.inflightBalance old.inflightBalance && sqlEq new.inflightCredit old.inflightCredit &&
    sqlEq new.inflightDebit old.inflightDebit && sqlEq new.currency old.currency && sqlEq new.time old.time &&
    sqlEq new.createdAt old.createdAt && sqlEq new.lastTx old.lastTx)

end Blnk.Snap
