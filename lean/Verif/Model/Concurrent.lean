import Verif.Model.Ledger
/-
Concurrent posting: any number of workers, each reading balances one at a time,
computing in memory and then running one SQL transaction statement by statement.
There is no mutual exclusion between workers here; only the database rules hold.

PostgreSQL's READ COMMITTED rules that the code relies on (`sql.LevelDefault`,
`database/transaction.go:265`) are modelled directly:
* a statement sees the latest committed rows plus its own transaction's writes;
* a row written by an open transaction is locked, so another transaction that
  wants to write it waits (its step is not enabled);
* an inserted unique key of an open transaction makes another insert of that key
  wait;
* commit publishes everything at once; a crash or rollback publishes nothing.
-/
namespace Blnk

/-- What one worker is asked to do: the single path with resolved balance ids
(`recordTransactionSingle`, `transaction_execution.go:490-555`) or a coalesced batch
(`persistQueuedTransactionBatchLocked`, `transaction_coalescing.go:178-220`). -/
inductive Job
  | single (t : Txn)
  | batch (ts : List Txn)
deriving Repr

/-- The balances a job reads, in order (`transaction_execution.go:60-98`,
`transaction_coalescing.go:428-459`). -/
def Job.ids : Job → List String
  | .single t => [t.source, t.destination]
  | .batch ts => batchIds ts

/-- The job as one operation of the sequential machine. -/
def Job.op : Job → Op
  | .single t => .post t "" ""
  | .batch ts => .batch ts

/-- Generated balance ids never start with '@' (`model.GenerateUUIDWithSuffix("bln")`),
so after `resolveBalanceIDs` (`transaction_execution.go:115-146`) the single path works
on plain ids. -/
def Job.Resolved : Job → Prop
  | .single t => isIndicator t.source = false ∧ isIndicator t.destination = false
  | .batch _ => True

/-- The reference check before anything is read (`validateTxn`,
`transaction_execution.go:272-291`). The batch path checks while preparing. -/
def Job.refOK (db : DB) : Job → Prop
  | .single t => db.hasRef t.reference = false
  | .batch _ => True

/-- In-memory computation from the balances read (`transaction_execution.go:505-519`;
`transaction_coalescing.go:161-210`). `seen` is the committed state in which the stored
references were looked up. `none` is a discarded zero-amount posting. -/
def Job.compute (seen : DB) (got : List Balance) : Job → Except OpErr (Option Work)
  | .single t => match got with
    | [s, d] => match applyToBalances t s d with
      | .error e => .error (.bal e)
      | .ok (s', d') =>
        if (finalRow t).preciseAmount = some 0 then .ok none
        else .ok (some { rows := [finalRow t], balances := [s', d'] })
    | _ => .error .balanceNotFound
  | .batch ts =>
    if ts.any (fun t => t.currency ≠ (ts.head?.map (·.currency)).getD "") then .error .mixedCurrencies
    else match prepareMembers seen ts [] got with
      | .error e => .error e
      | .ok (rows, bs') => .ok (some { rows := rows, balances := bs' })

/-- Where a worker is. The last four stages are inside an open SQL transaction
(`database/transaction.go:261-315`, `326-367`). -/
inductive Phase
  | idle
  | reading (j : Job) (seen : DB) (todo : List String) (got : List Balance)
  | writing (j : Job) (w : Work) (done todo : List Balance)
  | inserting (j : Job) (w : Work) (done todo : List Txn)
  | ready (j : Job) (w : Work) (outbox : List String)

/-- Rows written, hence locked, by a worker's open transaction. -/
def Phase.locked : Phase → List String
  | .writing _ _ done _ => done.map (·.id)
  | .inserting _ w _ _ => w.balances.map (·.id)
  | .ready _ w _ => w.balances.map (·.id)
  | _ => []

/-- Transaction rows inserted, not yet committed. -/
def Phase.pending : Phase → List Txn
  | .inserting _ _ done _ => done
  | .ready _ w _ => w.rows
  | _ => []

/-- The whole system. `outbox` is the lineage outbox table (entry ids only). `log` and
`posted` are history variables: the committed operations in commit order and the
transaction rows they posted. -/
structure World where
  db : DB := {}
  outbox : List String := []
  phase : Nat → Phase := fun _ => .idle
  log : List Op := []
  posted : List Txn := []

/-- Change one worker's phase. -/
def World.set (W : World) (k : Nat) (p : Phase) : World :=
  { W with phase := fun i => if i = k then p else W.phase i }

/-- What a committed transaction's balance updates do to the table: the row checks were
done when each statement ran. -/
def writeAll : List Balance → List Balance → List Balance
  | rows, [] => rows
  | rows, b :: bs => writeAll (rows.map fun r => if r.id = b.id then
      { r with balance := b.balance, credit := b.credit, debit := b.debit,
               inflightBalance := b.inflightBalance, inflightCredit := b.inflightCredit,
               inflightDebit := b.inflightDebit, currency := b.currency, version := r.version + 1 }
      else r) bs

/-- One step of the system. `ob` gives the lineage outbox entry of a posted row, if any
(`prepareTransactionOutbox`, `transaction_execution.go:761-773`); it is a parameter. -/
inductive CStep (cfg : Cfg) (ob : Txn → Option String) : World → World → Prop
  /-- an account is opened, by the API or for an indicator (`balance.go:154-209`) -/
  | create {W : World} {db' : DB} (id ind cur : String) (h : W.db.createBalance id ind cur = .ok db') :
      CStep cfg ob W { W with db := db', log := W.log ++ [.create id ind cur] }
  /-- a row is stored without touching balances; its keys must not be held by an open
  transaction. Queued rows carry a non-negative minor-unit amount. -/
  | store {W : World} {db' : DB} (t : Txn) (hq : t.status = .queued → 0 ≤ t.preciseAmount.getD 0)
      (hfree : ∀ k, ∀ u ∈ (W.phase k).pending, u.id ≠ t.id ∧ u.reference ≠ t.reference)
      (h : W.db.insertTxn t = .ok db') : CStep cfg ob W { W with db := db', log := W.log ++ [.store t] }
  /-- a worker takes a job and checks its reference -/
  | start {W : World} (k : Nat) (j : Job) (hidle : W.phase k = .idle) (hres : j.Resolved) (href : j.refOK W.db) :
      CStep cfg ob W (W.set k (.reading j W.db j.ids []))
  /-- it reads one balance -/
  | read {W : World} (k : Nat) {j : Job} {seen : DB} {i : String} {todo : List String} {got : List Balance} {b : Balance}
      (hp : W.phase k = .reading j seen (i :: todo) got) (h : W.db.load cfg i = .ok b) :
      CStep cfg ob W (W.set k (.reading j seen todo (got ++ [b])))
  /-- it computes the new balances and begins its SQL transaction -/
  | compute {W : World} (k : Nat) {j : Job} {seen : DB} {got : List Balance} {w : Work}
      (hp : W.phase k = .reading j seen [] got) (h : j.compute seen got = .ok (some w)) :
      CStep cfg ob W (W.set k (.writing j w [] w.balances))
  /-- one balance update: the row is not locked by another transaction, this transaction
  has not already bumped it, and the version matches -/
  | write {W : World} (k : Nat) {j : Job} {w : Work} {done todo : List Balance} {b : Balance}
      (hp : W.phase k = .writing j w done (b :: todo)) (hlock : ∀ k', k' ≠ k → b.id ∉ (W.phase k').locked)
      (hown : b.id ∉ done.map (·.id)) (hrow : W.db.balances.any (fun r => r.id = b.id && r.version = b.version) = true) :
      CStep cfg ob W (W.set k (.writing j w (done ++ [b]) todo))
  /-- all balances are written -/
  | written {W : World} (k : Nat) {j : Job} {w : Work} {done : List Balance}
      (hp : W.phase k = .writing j w done []) : CStep cfg ob W (W.set k (.inserting j w [] w.rows))
  /-- one transaction row is inserted under the unique indexes -/
  | insert {W : World} (k : Nat) {j : Job} {w : Work} {done todo : List Txn} {t : Txn}
      (hp : W.phase k = .inserting j w done (t :: todo))
      (hfree : ∀ k', k' ≠ k → ∀ u ∈ (W.phase k').pending, u.id ≠ t.id ∧ u.reference ≠ t.reference)
      (hown : ∀ u ∈ done, u.id ≠ t.id ∧ u.reference ≠ t.reference)
      (hid : W.db.hasTxnId t.id = false) (href : W.db.hasRef t.reference = false) :
      CStep cfg ob W (W.set k (.inserting j w (done ++ [t]) todo))
  /-- the lineage outbox entries are inserted -/
  | outbox {W : World} (k : Nat) {j : Job} {w : Work} {done : List Txn}
      (hp : W.phase k = .inserting j w done []) : CStep cfg ob W (W.set k (.ready j w (done.filterMap ob)))
  /-- the SQL transaction commits -/
  | commit {W : World} (k : Nat) {j : Job} {w : Work} {o : List String} (hp : W.phase k = .ready j w o) :
      CStep cfg ob W { (W.set k .idle) with
        db := { balances := writeAll W.db.balances w.balances, txns := W.db.txns ++ w.rows }
        outbox := W.outbox ++ o
        log := W.log ++ [j.op]
        posted := W.posted ++ w.rows }
  /-- the worker gives up at any point: an error, a conflict, a zero amount, a timeout or a
  crash; an open SQL transaction is rolled back -/
  | abort {W : World} (k : Nat) : CStep cfg ob W (W.set k .idle)

/-- Any interleaving of steps from the empty system. -/
inductive CReach (cfg : Cfg) (ob : Txn → Option String) : World → Prop
  | init : CReach cfg ob {}
  | step {W W' : World} (h : CReach cfg ob W) (hs : CStep cfg ob W W') : CReach cfg ob W'

end Blnk
