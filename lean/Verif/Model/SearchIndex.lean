import Verif.Model.Search
/-
How the search index follows the ledger: which changes of the database queue an index task,
what the task carries (`ledger.go:34-48`, `balance.go:217-238`, `identity.go:34-48`,
`metadata.go:58-178`, `transaction_execution.go:224-262`, `transaction_rejection.go:78`,
`reconciliation.go:122-131` and `593-618`, `queue.go:160-225`), and what the index worker does
with it (`cmd/workers.go:211-290`, `internal/search/search.go:175-200` and `252-279`).

Simplifications: a search server is configured; the index holds, for every document, the record
it was made from (the document itself is `doc`); collections exist; the queue keeps every
accepted task and gives it to workers in any order, as often as it fails; the server may refuse
any write (`fail`), and a refused write changes nothing. Only one worker holds a task at a time.
-/
namespace Blnk.Srch

/-- Collection and id. -/
def Rec.key (r : Rec) : Coll × String := (r.coll, r.id)

/-- The record under a key. -/
def find (l : List Rec) (k : Coll × String) : Option Rec := l.find? (fun r => r.key == k)

/-- Storing a record or a document: the one with the same key is replaced. -/
def store (l : List Rec) (r : Rec) : List Rec := r :: l.filter (fun x => x.key != r.key)

inductive TSt
  | waiting | done | dead
deriving DecidableEq, Repr

/-- An index task. `pos` counts the items written by the worker that holds it. -/
structure Task where
  items : List Rec
  st : TSt := .waiting
  pos : Option Nat := none
  tries : Nat := 0
deriving DecidableEq, Repr

structure Sys where
  /-- The rows as they are. -/
  db : List Rec := []
  /-- Every state a row has had. -/
  hist : List Rec := []
  tasks : List Task := []
  /-- Meta data updates that will read their row again. -/
  rereads : List (Coll × String) := []
  idx : List Rec := []
deriving DecidableEq, Repr

/-- A row is written. -/
def Sys.write (s : Sys) (r : Rec) : Sys := { s with db := store s.db r, hist := r :: s.hist }

/-- `queueIndexData` and `queueIndexBatch` (`queue.go:169-225`): the task is accepted or lost. -/
def Sys.queue (s : Sys) (items : List Rec) (sent : Bool) : Sys :=
  if sent then { s with tasks := s.tasks ++ [{ items }] } else s

/-- `Deduplicate` on the two balances (`internal/search/search.go:145-158`). -/
def deps (a b : BalanceRec) : List Rec :=
  if (Rec.balance a).key = (Rec.balance b).key then [.balance a] else [.balance a, .balance b]

/-- What the service does to a record. -/
inductive Deed
  /-- A ledger, balance or identity is created, or a ledger renamed. -/
  | made (r : Rec)
  /-- Meta data of a record is set (`metadata.go:58-178`). -/
  | metaSet (r : Rec)
  /-- `UpdateIdentity` (`identity.go:127-129`), also by tokenization (line 204). -/
  | identitySet (r : IdentityRec)
  /-- `DeleteIdentity` (`identity.go:138-140`). -/
  | identityGone (id : String)
  /-- `UpdateBalanceIdentity` (`balance.go:663-682`). -/
  | ownerSet (r : BalanceRec)
  /-- A transaction is executed on two balances. -/
  | executed (a b : BalanceRec) (t : TxnRec)
  /-- A transaction is stored as rejected. -/
  | refused (t : TxnRec)
  /-- A transaction is stored as queued or scheduled. -/
  | queued (t : TxnRec)
  /-- A reconciliation changes its status (`reconciliation.go:146-178`, `222`, `241`, `379`). -/
  | reconSet (r : ReconRec)
  /-- `finalizeReconciliation` (`reconciliation.go:593-618`): the row may fail to be updated. -/
  | reconDone (r : ReconRec) (stored : Bool)
deriving DecidableEq, Repr

/-- A deed, with the queue accepting its task or not. -/
def Sys.deed (s : Sys) (sent : Bool) : Deed → Sys
  | .made r => (s.write r).queue [r] sent
  | .metaSet r => { s.write r with rereads := s.rereads ++ [r.key] }
  | .identitySet r => s.write (.identity r)
  | .identityGone id => { s with db := s.db.filter (fun x => x.key != (.identities, id)) }
  | .ownerSet r => s.write (.balance r)
  | .executed a b t =>
    (((s.write (.balance a)).write (.balance b)).write (.txn t)).queue (deps a b ++ [.txn t]) sent
  | .refused t => (s.write (.txn t)).queue [.txn t] sent
  | .queued t => s.write (.txn t)
  | .reconSet r => s.write (.recon r)
  | .reconDone r stored =>
    let s := if r.dry then s else s.queue [.recon r] sent
    if stored then s.write (.recon r) else s

/-- `ensureDefaultGeneralLedger` (`internal/search/search.go:190-199`). -/
def general (now : Int) : Rec := .ledger { id := "general_ledger_id", name := "General Ledger", created := now, md := none }

/-- Tries after which asynq gives up a task (its default, none is set in `queue.go:179-215`). -/
def maxRetry : Nat := 25

inductive Ev
  | deed (d : Deed) (sent : Bool)
  /-- The goroutine of a meta data update reads the row and queues it (`metadata.go:76-86`). -/
  | reread (i : Nat) (sent : Bool)
  /-- A worker takes a task and ensures that the general ledger exists. -/
  | start (i : Nat) (now : Int)
  /-- The next item of the task is written. -/
  | put (i : Nat)
  /-- The task has written everything. -/
  | finish (i : Nat)
  /-- An error ends the attempt; the server was out of memory, or not. -/
  | fail (i : Nat) (memory : Bool)
  /-- A rebuild drops all collections (`internal/search/reindex.go:198-207`). -/
  | drop
deriving DecidableEq, Repr

/-- Changing a task. -/
def Sys.setTask (s : Sys) (i : Nat) (t : Task) : Sys := { s with tasks := s.tasks.set i t }

/-- A failed attempt: being out of memory is no failure (`isWorkerFailure`,
`cmd/workers.go:193-195`), and asynq retries it without counting. -/
def Task.failed (t : Task) (memory : Bool) : Task :=
  if memory then { t with pos := none }
  else if maxRetry ≤ t.tries then { t with pos := none, st := .dead }
  else { t with pos := none, tries := t.tries + 1 }

/-- One step. -/
def step (s : Sys) : Ev → Sys
  | .deed d sent => s.deed sent d
  | .reread i sent =>
    match s.rereads[i]? with
    | none => s
    | some k =>
      let s' := { s with rereads := s.rereads.eraseIdx i }
      match find s.db k with
      | none => s'
      | some r => s'.queue [r] sent
  | .start i now =>
    match s.tasks[i]? with
    | none => s
    | some t =>
      if t.st = .waiting ∧ t.pos = none then
        { s with idx := store s.idx (general now) }.setTask i { t with pos := some 0 }
      else s
  | .put i =>
    match s.tasks[i]? with
    | none => s
    | some t =>
      match t.pos with
      | none => s
      | some n =>
        match t.items[n]? with
        | none => s
        | some r => { s with idx := store s.idx r }.setTask i { t with pos := some (n + 1) }
  | .finish i =>
    match s.tasks[i]? with
    | none => s
    | some t =>
      if t.pos = some t.items.length then s.setTask i { t with st := .done, pos := none } else s
  | .fail i memory =>
    match s.tasks[i]? with
    | none => s
    | some t => if t.pos.isSome then s.setTask i (t.failed memory) else s
  | .drop => { s with idx := [] }

def run (s : Sys) : List Ev → Sys
  | [] => s
  | e :: es => run (step s e) es

end Blnk.Srch
