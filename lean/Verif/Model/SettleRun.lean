import Verif.Model.SettleCall
/-
One call of `PUT /transactions/inflight/:txID` with `skip_queue`, while the holds are read page by page and
others are at work.
-/
namespace Blnk.Undo
open Blnk

/-- A settlement call while it runs (`ProcessTransactionInBatches`, `transaction_batch_processing.go:59-133`,
with one worker, `api/transactions.go:548-571`). -/
structure Clearing where
  db : DB
  /-- rows fetched and not yet worked on -/
  jobs : List Txn := []
  /-- `offset` of `fetchTransactions` -/
  off : Nat := 0
  /-- the jobs channel is closed -/
  closed : Bool := false
  /-- what the worker sent back, oldest first, with the row it worked on -/
  done : List (Txn × Except InfErr Outcome) := []

/-- What can happen next: the fetching goroutine, the worker, or any other request. -/
inductive CEv
  | fetch
  | work
  | other (a : Act)
deriving Repr

/-- One step. `fetch` is one round of `fetchTransactions` (`transaction_batch_processing.go:185-218`), `work` one
round of `CommitWorker` or `VoidWorker` (`transaction_inflight.go:111-125`, `:143-157`). Simplified: rows are
listed newest first by the order they were stored in, the channel has room for a page, no query fails, the
lock of the hold is free and nobody cancels the request. -/
def Clearing.step (cfg : Cfg) (id : String) (size : Nat) (void : Bool) (amt : Int) (fresh refs : Nat → String) (c : Clearing) : CEv → Clearing
  | .fetch =>
    if c.closed then c
    else match ((Atomic.inflightLegs c.db id).drop c.off).take size with
      | [] => { c with closed := true }
      | ts => { c with jobs := c.jobs ++ ts, off := c.off + ts.length }
  | .work => match c.jobs with
    | [] => c
    | t :: ts =>
      if isInflightTxn t then
        let r := settleOne cfg c.db t.id void amt (fresh c.done.length) (refs c.done.length)
        { c with db := r.1, jobs := ts, done := c.done ++ [(t, r.2)] }
      else { c with jobs := ts, done := c.done ++ [(t, .error .notInflight)] }
  | .other a => { c with db := act cfg c.db a }

/-- A schedule. -/
def Clearing.run (cfg : Cfg) (id : String) (size : Nat) (void : Bool) (amt : Int) (fresh refs : Nat → String) (c : Clearing) : List CEv → Clearing
  | [] => c
  | e :: es => Clearing.run cfg id size void amt fresh refs (c.step cfg id size void amt fresh refs e) es

/-- The results channel is closed: everything fetched was worked on. -/
def Clearing.finished (c : Clearing) : Bool := c.closed && c.jobs.isEmpty

/-- What the client is told. -/
inductive Told
  /-- "error occurred during processing" (`transaction_batch_processing.go:107-114`) -/
  | failed
  /-- "no transaction to commit", "no transaction to void" (`api/transactions.go:555-558`, `:566-569`) -/
  | nothing
  /-- 200 with the first settlement (`api/transactions.go:559`, `:570-573`) -/
  | settled (rows : List Txn)
deriving DecidableEq, Repr

/-- `processResults` (`transaction_batch_processing.go:144-159`) and the end of the handler. -/
def told (ds : List (Txn × Except InfErr Outcome)) : Told :=
  if ds.any (fun d => match d.2 with | .ok (.posted _) => false | _ => true) then .failed
  else match ds with
    | (_, .ok (.posted rows)) :: _ => .settled rows
    | _ => .nothing

end Blnk.Undo
