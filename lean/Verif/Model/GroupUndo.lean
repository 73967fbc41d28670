import Verif.Model.AtomicBulk
import Verif.Model.Worker
/-
All-or-nothing transactions with several sources or destinations (`atomic: true`). With `skip_queue`
the legs are recorded one after the other, and a failure takes back those before it (`processTxns`,
`transaction_queue.go:228-256`). Without it each leg is a task, and the worker that rejects one takes
back those that were applied so far (`RejectTransaction`, `transaction_rejection.go:69-76`). Both call
`handleAsyncBulkTransactionFailure` (`transaction_bulk.go:141-166`), whose message is left out.
-/
namespace Blnk.Group
open Queue Atomic

/-- A leg with the account ids the server would generate for it. -/
structure Part where
  leg : Txn
  n1 : String := ""
  n2 : String := ""

/-- The loop over the legs with `skip_queue` (`transaction_queue.go:237-249`); the first refusal ends it.
A zero amount is discarded without an error. -/
def placeParts (cfg : Cfg) : DB → List Part → DB × Bool
  | db, [] => (db, true)
  | db, p :: ps =>
    let r := recordSingle cfg db p.leg p.n1 p.n2
    match r.2 with
    | .refused _ => (r.1, false)
    | _ => placeParts cfg r.1 ps

/-- `processTxns` for a split request `t` with `skip_queue` (`transaction_queue.go:228-250`). The legs are
copies of `t`, so their flags are those of `t`. Nobody else acts in between; the rows to take back are read
once. -/
def splitNow (cfg : Cfg) (fresh : Nat → String) (db : DB) (t : Txn) (ps : List Part) : DB × Bool :=
  let r := placeParts cfg db ps
  if r.2 then r else if t.atomic then (rollback cfg t.id t.inflight fresh r.1, false) else (r.1, false)

/-- Did this delivery reject the task? The row is stored last (`cmd/workers.go:154-165`). -/
def rejects (db db' : DB) (t : Txn) : Bool := db'.txns.any (fun r => r = rejectedRow t) && !db.txns.any (fun r => r = rejectedRow t)

/-- A delivery (`cmd/workers.go:61-165`) with what `RejectTransaction` does after storing the row
(`transaction_rejection.go:69-76`): the other parts that name the same request or bulk are taken back.
Without the name an error is returned. -/
def deliverPart (w : WCfg) (e : Env) (fresh : Nat → String) (n : Nat) (db : DB) (t : Txn) : DB × Ans :=
  let r := deliver w e n db t
  if rejects db r.1 t && t.atomic then
    if t.metaQueuedParent = "" then (r.1, .retry) else (rollback w.base t.metaQueuedParent t.inflight fresh r.1, r.2)
  else r

/-- Deliveries one after the other. -/
structure Turn where
  task : Txn
  env : Env := {}
  fresh : Nat → String
  n : Nat := 0

def deliverParts (w : WCfg) : DB → List Turn → DB
  | db, [] => db
  | db, u :: us => deliverParts w (deliverPart w u.env u.fresh u.n db u.task).1 us

end Blnk.Group
