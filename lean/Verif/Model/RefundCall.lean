import Verif.Model.Preview
/-
One call of `POST /refund-transaction/:id`: its dry run (`PreviewRefund`) and its answer while the
rows to refund are read page by page.
-/
namespace Blnk.Undo
open Blnk Preview

/-! ### The dry run -/

/-- Why a leg of a refund would fail. -/
inductive Why
  | refund (e : RefErr)
  | post (e : OpErr)
deriving DecidableEq, Repr

/-- What `GetRefundableTransactionsByParentID` reads of a row (`database/transaction_refunds.go:36-39`):
as `GetTransaction`, no flags. It reads `scheduled_for`, which `GetTransaction` does not; no projection
looks at it. -/
def bare (t : Txn) : Txn :=
  { t with allowOverdraft := false, overdraftLimit := 0, inflight := false, atomic := false, skipQueue := false }

/-- One leg of `PreviewRefund` (`transaction_dryrun.go:115-168`): the leg's reason, or the amount it
would move back. An unresolvable balance ends the preview. No reference is looked at. -/
def leg (cfg : Cfg) (db : DB) (m : BSet) (o : Txn) (newId : String) : Except OpErr (BSet × Except Why Int) :=
  match validateRefund db (bare o) with
  | .error e => .ok (m, .error (.refund e))
  | .ok () => match legStep cfg db m (refundTxn (bare o) true newId) with
    | .error e => .error e
    | .ok (m', some e) => .ok (m', .error (.post e))
    | .ok (m', none) => .ok (m', .ok ((projected (refundTxn (bare o) true newId)).preciseAmount.getD 0))

/-- The loop of `PreviewRefund` (`transaction_dryrun.go:115-168`): a failing leg does not stop it. -/
def legs (cfg : Cfg) (db : DB) (fresh : Nat → String) : BSet → Nat → List Txn → Except OpErr (BSet × List (Except Why Int))
  | m, _, [] => .ok (m, [])
  | m, k, o :: os => match leg cfg db m o (fresh k) with
    | .error e => .error e
    | .ok (m', x) => match legs cfg db fresh m' (k + 1) os with
      | .error e => .error e
      | .ok (m'', xs) => .ok (m'', x :: xs)

/-- The projection of a refund (`model.TransactionPreview`), as far as it is settled here. -/
structure Shown where
  wouldApply : Bool
  total : Int
  legs : List (Except Why Int)
  balances : BSet

/-- Whether a leg failed. -/
def Why.of : Except Why Int → Bool
  | .error _ => true
  | .ok _ => false

/-- What a leg adds to the total. -/
def moved : Except Why Int → Int
  | .error _ => 0
  | .ok a => a

/-- `PreviewRefund` (`transaction_dryrun.go:85-187`). `.error none` is "not found for refund"
(`:94-98`). The pages read by `refundableLegsForPreview` (`:195-212`) are one reading here. `fresh`
are the ids `GenerateUUIDWithSuffix` would give; nothing of them is shown. -/
def previewRefund (cfg : Cfg) (db : DB) (id : String) (fresh : Nat → String) : Except (Option OpErr) Shown :=
  if db.refundables id = [] then .error none
  else match legs cfg db fresh [] 0 (db.refundables id) with
    | .error e => .error (some e)
    | .ok (m, xs) => .ok ⟨!xs.any Why.of, (xs.map moved).sum, xs, m⟩

/-! ### The call -/

/-- A refund call while it runs (`ProcessTransactionInBatches`, `transaction_batch_processing.go:59-133`,
with one worker, `api/transactions.go:273`). -/
structure Call where
  db : DB
  /-- rows fetched and not yet worked on -/
  jobs : List Txn := []
  /-- `offset` of `fetchTransactions` -/
  off : Nat := 0
  /-- the jobs channel is closed -/
  closed : Bool := false
  /-- what the worker sent back, oldest first, with the row it worked on -/
  done : List (Txn × Except RefErr Outcome) := []

/-- What can happen next: the fetching goroutine, the worker, or any other request. -/
inductive Ev
  | fetch
  | work
  | other (s : RStep)
deriving Repr

/-- One step. `fetch` is one round of `fetchTransactions` (`transaction_batch_processing.go:185-218`), `work` one
round of the worker (`transaction_refunds.go:70-87`). Simplified: rows are listed newest first by the order
they were stored in, the channel has room for a page, no query fails and nobody cancels the request. -/
def Call.step (cfg : Cfg) (id : String) (size : Nat) (skip : Bool) (fresh : Nat → String) (c : Call) : Ev → Call
  | .fetch =>
    if c.closed then c
    else match ((c.db.refundables id).drop c.off).take size with
      | [] => { c with closed := true }
      | ts => { c with jobs := c.jobs ++ ts, off := c.off + ts.length }
  | .work => match c.jobs with
    | [] => c
    | t :: ts =>
      let r := refund cfg c.db t.id skip (fresh c.done.length) "" ""
      { c with db := r.1, jobs := ts, done := c.done ++ [(t, r.2)] }
  | .other s => { c with db := rstep cfg c.db s }

/-- A schedule. -/
def Call.run (cfg : Cfg) (id : String) (size : Nat) (skip : Bool) (fresh : Nat → String) (c : Call) : List Ev → Call
  | [] => c
  | e :: es => Call.run cfg id size skip fresh (c.step cfg id size skip fresh e) es

/-- The results channel is closed: everything fetched was worked on. -/
def Call.finished (c : Call) : Bool := c.closed && c.jobs.isEmpty

/-- What the client is told. -/
inductive Answer
  /-- "error occurred during processing" (`transaction_batch_processing.go:107-114`) -/
  | failed
  /-- "no transaction to refund" (`api/transactions.go:278-281`) -/
  | notFound
  /-- 201 with the first refund (`api/transactions.go:282-283`) -/
  | created (rows : List Txn)
deriving DecidableEq, Repr

/-- `processResults` (`transaction_batch_processing.go:144-159`) and the end of the handler. -/
def answer (ds : List (Txn × Except RefErr Outcome)) : Answer :=
  if ds.any (fun d => match d.2 with | .ok (.posted _) => false | _ => true) then .failed
  else match ds with
    | (_, .ok (.posted rows)) :: _ => .created rows
    | _ => .notFound

end Blnk.Undo
