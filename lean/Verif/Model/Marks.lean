import Verif.Model.Metadata
/-
What transactions say about their reconciliation: the marks that `updateMatchedTransactionsMetadata`
writes into the metadata of matched transactions (`reconciliation.go:507-524`), in the background, after
the matches are stored (`reconciliation.go:465-475`), and what becomes of them: they are merged into the
row and the rows under it (`database/metadata.go:43-59`), and transactions made from a transaction take its
metadata over (refunds, `transaction_refunds.go:199-238`; settlements, `transaction_inflight.go:403-442`;
queue copies, `transaction_queue.go:379-385`).

Which matches are found is not modelled (see `Model/Recon`, `Model/ReconRun`): a run may report any. The
date of the mark and the amount are given texts. Transactions have distinct ids; a run reports matches only of
transactions that it read from the table.
-/
namespace Blnk.Marks
open Blnk.Meta (Obj Row)

/-- A match as it is stored and as the mark names it. -/
structure Matched where
  recon : String
  external : String
  internal : String
  amount : String
deriving DecidableEq, Repr

/-- The mark of a match (`reconciliation.go:510-516`). -/
def mark (time : String) (m : Matched) : Obj :=
  [("reconciled", "true"), ("reconciliation_id", m.recon), ("reconciled_at", time), ("external_txn_id", m.external),
   ("reconciliation_amount", m.amount)]

/-- The keys of a mark. -/
def names : List String :=
  ["reconciled", "reconciliation_id", "reconciled_at", "external_txn_id", "reconciliation_amount"]

structure State where
  rows : List Row := []
  /-- transactions made from another one and not stored yet -/
  copies : List Row := []
  /-- the table `matches` -/
  matches_ : List Matched := []
  /-- goroutines, each with the matches it still has to mark -/
  todo : List (List Matched) := []
  /-- a ghost: matches whose mark was given up -/
  lost : List Matched := []

inductive Ev
  /-- a new transaction of a client -/
  | insert (id : String) (data : Option Obj)
  /-- a refund, settlement or queue copy of a transaction is made, with further metadata -/
  | copy (of_ id : String) (extra : Obj)
  /-- and stored -/
  | store (k : Nat)
  /-- the matches of one record are reported (`reconciliation.go:465-475`, `database/reconciliation.go:180-208`: all
  of them are stored or none) -/
  | record (dry : Bool) (ms : List Matched) (stored : Bool)
  /-- a goroutine writes its next mark -/
  | write (k : Nat) (time : String) (ok : Bool)
  /-- a client updates metadata (`metadata.go:89-105`) -/
  | client (id : String) (new : Obj)
  /-- the process ends; copies wait in Redis -/
  | crash

/-- The metadata of a copy: that of the transaction it is made from, without the inflight mark
(`transaction_inflight.go:86-95`), with what is added. -/
def inherit (data : Option Obj) (extra : Obj) : Obj := Meta.concat (data.map (·.filter (fun p => p.1 ≠ "inflight"))) extra

def known (s : State) (id : String) : Bool := s.rows.any (fun r => r.id = id)

def step (s : State) : Ev → State
  | .insert id data => if known s id then s else { s with rows := s.rows ++ [{ kind := .transactions, id := id, data := data }] }
  | .copy o id extra => match s.rows.find? (fun r => r.id = o) with
    | none => s
    | some r => { s with copies := s.copies ++ [{ kind := .transactions, id := id, parent := o, data := some (inherit r.data extra) }] }
  | .store k => match s.copies[k]? with
    | none => s
    | some c => if known s c.id then s else { s with rows := s.rows ++ [c] }
  | .record dry ms stored =>
    if dry || !stored || !ms.all (fun m => known s m.internal) then s
    else { s with matches_ := s.matches_ ++ ms, todo := s.todo ++ [ms] }
  | .write k time ok => match s.todo[k]? with
    | some (m :: ms) =>
      if ok then { s with rows := Meta.mergeRows s.rows m.internal (mark time m), todo := s.todo.set k ms }
      else { s with todo := s.todo.set k ms, lost := m :: s.lost }
    | _ => s
  | .client id new => { s with rows := Meta.mergeRows s.rows id new }
  | .crash => { s with todo := [], lost := s.todo.flatten ++ s.lost }

def run (s : State) : List Ev → State
  | [] => s
  | e :: es => run (step s e) es

end Blnk.Marks
