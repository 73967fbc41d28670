import Verif.Model.Worker
import Verif.Model.Split
/-
The goroutine behind `QueueTransaction` for a transaction that was split over several sources or
destinations: `processTransactionAsync` (`transaction_queue.go:136-163`), `processSplitTransactions`
(`:298-319`) and `enqueueTransactions` (`:413-428`).

The legs are stored one SQL statement at a time, not in one SQL transaction. The first leg that
cannot be stored ends the loop; the rows before it stay. The error is only noted in a trace span,
and the list of queue copies is dropped: `enqueueTransactions` then enqueues the transaction the
client sent, which names no source or no destination.
-/
namespace Blnk.Halves
open Queue

/-- What the server draws for one leg: ids for a missing source or destination indicator, and the
id of the leg's queue copy. -/
structure Ids where
  n1 : String := ""
  n2 : String := ""
  copy : String := ""

/-- A leg as it is stored: `setTransactionMetadata` and `setTransactionStatus` run on it again
(`transaction_queue.go:37-38`), and it shares the metadata map of the request (`model/transaction.go:430`),
which names the request or its bulk (`transaction_queue.go:105-111`). -/
def readyLeg (mark : String) (l : Txn) : Txn := { submit l with metaQueuedParent := mark }

/-- One turn of the loop (`transaction_queue.go:302-310`): resolve both parties, then insert. `none`:
the leg could not be stored; indicator balances made on the way stay. The queue lane is left out. -/
def storeLeg (cfg : Cfg) (db : DB) (l : Txn) (i : Ids) : DB × Option Txn :=
  match db.resolve l.source l.currency i.n1 with
  | .error _ => (db, none)
  | .ok (db1, sid) => match db1.resolve l.destination l.currency i.n2 with
    | .error _ => (db1, none)
    | .ok (db2, did) =>
      match db2.load cfg sid, db2.load cfg did with
      | .ok _, .ok _ =>
        match db2.insertTxn { l with source := sid, destination := did } with
        | .ok db3 => (db3, some { l with source := sid, destination := did })
        | .error _ => (db2, none)
      | _, _ => (db2, none)

/-- The loop over the legs (`transaction_queue.go:302-316`): the database, the rows stored with the
queue copy made of each, and whether all were stored. -/
def storeLegs (cfg : Cfg) : DB → List (Txn × Ids) → DB × List (Txn × Txn) × Bool
  | db, [] => (db, [], true)
  | db, (l, i) :: ls =>
    match storeLeg cfg db l i with
    | (db1, none) => (db1, [], false)
    | (db1, some row) =>
      let r := storeLegs cfg db1 ls
      (r.1, (row, queueCopy row i.copy) :: r.2.1, r.2.2)

/-- What the goroutine leaves: the database, the rows it stored and the tasks it enqueued. -/
structure Left where
  db : DB
  rows : List Txn
  tasks : List Txn

/-- The goroutine for a split request (`transaction_queue.go:136-163`, `413-428`): `t` is the request
as `QueueTransaction` changed it, `ls` its legs, renumbered (`:394-399`), with the ids drawn. Redis
takes every task here. -/
def take (cfg : Cfg) (db : DB) (t : Txn) (ls : List (Txn × Ids)) : Left :=
  let r := storeLegs cfg db ls
  let copies := if r.2.2 then r.2.1.map (·.2) else []
  { db := r.1, rows := r.2.1.map (·.1), tasks := if copies.isEmpty then [t] else copies }

/-- The legs of a request as the loop sees them. -/
def ready (t : Txn) (mark : String) (legs : List Txn) : List Txn :=
  (Split.renumber t.id t.reference 1 legs).map (readyLeg mark)

end Blnk.Halves
