import Verif.Model.Inflight
/-
The reconciliation trigger on `blnk.balances` (`sql/1742101752.sql:18-83`): BEFORE UPDATE, if the new
row's `meta_data` carries `BLNK_RUN_RECONCILIATION = 'SOURCE'`, the settled columns are overwritten
with sums over the APPLIED rows stored so far and the flag is removed.

Which statements update a balance row: postings (`database/balance.go:877-905`, `947-1010`, both
before the transaction rows are inserted, `database/transaction.go:216-233`, `337-347`, and neither
setting `meta_data`), metadata updates (`database/metadata.go:71-83`) and identity changes
(`database/balance.go:1690-1700`). A posting increments the row's version
(`database/balance.go:880`), so the rows it updated are those whose version changed.

Metadata other than the flag is not represented here.
-/
namespace Blnk.Trig

structure State where
  db : DB := {}
  /-- balances whose stored metadata carries the flag -/
  flagged : List String := []
deriving Repr

/-- `SUM(precise_amount)` of the APPLIED rows leaving the balance (`sql/1742101752.sql:33-37`).
`precise_amount` is never NULL in rows the service stores. -/
def sumOut (txns : List Txn) (id : String) : Int :=
  ((txns.filter (fun t => t.source = id && t.status = .applied)).map (fun t => t.preciseAmount.getD 0)).sum

/-- … entering it (`sql/1742101752.sql:40-44`). -/
def sumIn (txns : List Txn) (id : String) : Int :=
  ((txns.filter (fun t => t.destination = id && t.status = .applied)).map (fun t => t.preciseAmount.getD 0)).sum

/-- The assignments to NEW (`sql/1742101752.sql:46-52`). -/
def reconcile (txns : List Txn) (b : Balance) : Balance :=
  { b with debit := sumOut txns b.id, credit := sumIn txns b.id, balance := sumIn txns b.id - sumOut txns b.id }

/-- Whether a posting updated this row. -/
def updated (old : List Balance) (b : Balance) : Bool := old.any (fun o => o.id = b.id && o.version ≠ b.version)

inductive Ev
  /-- any operation of the ledger, with unflagged new balances -/
  | act (a : Act)
  /-- `POST /balances` with the flag in `meta_data` (`api/balance.go`, `database/balance.go:203-255`:
  stored as given; an INSERT does not fire the trigger) -/
  | createFlagged (id indicator currency : String)
  /-- `POST /{balance}/metadata`, with or without the flag in the request: the new metadata is merged
  into the stored one, so a stored flag is still there (`metadata.go:114-123`, `189-199`) -/
  | setMeta (id : String) (flag : Bool)
  /-- `PUT /balances/{id}/identity` (`database/balance.go:1689-1700`) -/
  | setIdentity (id : String)
deriving Repr

/-- An UPDATE of one row that sets no settled column. -/
def touch (st : State) (id : String) (flag : Bool) : State :=
  { db := { st.db with balances := st.db.balances.map fun b =>
      if b.id = id && (flag || st.flagged.contains id) then reconcile st.db.txns b else b },
    flagged := st.flagged.filter (· ≠ id) }

def step (cfg : Cfg) (st : State) : Ev → State
  | .act a =>
    let db' := Blnk.act cfg st.db a
    { db := { db' with balances := db'.balances.map fun b =>
        if st.flagged.contains b.id && updated st.db.balances b then reconcile st.db.txns b else b },
      flagged := st.flagged.filter fun i => !db'.balances.any (fun b => b.id = i && updated st.db.balances b) }
  | .createFlagged id ind cur => match st.db.createBalance id ind cur with
    | .ok db' => { db := db', flagged := id :: st.flagged }
    | .error _ => st
  | .setMeta id flag => touch st id flag
  | .setIdentity id => touch st id false

def exec (cfg : Cfg) (st : State) : List Ev → State
  | [] => st
  | e :: es => exec cfg (step cfg st e) es

end Blnk.Trig
