import Verif.Model.Worker
/-
One sweep of recovery over the stuck rows: the query with its limit
(`database/transaction_recovery.go:33-105`), the loop over its rows (`recoverWithThreshold`,
`queue_recovery.go:136-156`), and the call that starts a sweep by hand (`:126-133`,
`api/transactions.go:701-719`).

The rows of a sweep are read by one statement at its start, then handled one after the other; others
may act before and between. What others do is any growth of the database: rows are only added.
-/
namespace Blnk.Window
open Queue

/-- The most other processes may have done: rows were added, none taken away (`Act` only adds). -/
def Grown (db db' : DB) : Prop := db.txns <+: db'.txns

/-- The rows the query is about: QUEUED, older than the cutoff, without a child
(`database/transaction_recovery.go:40-47`). -/
def aged (db : DB) (cutoff : Nat) : List Txn :=
  db.txns.filter fun t => isStuck db t && decide (t.createdAt < cutoff)

/-- `ORDER BY created_at ASC LIMIT b`: any `b` oldest ones; of rows of the same time the database may
choose. -/
structure Picks (b cutoff : Nat) (db : DB) (picked : List Txn) : Prop where
  rest : ∃ rest, (picked ++ rest).Perm (aged db cutoff) ∧ (∀ p ∈ picked, ∀ q ∈ rest, p.createdAt ≤ q.createdAt) ∧
    (picked.length = b ∨ rest = [])
  size : picked.length ≤ b

/-- The loop over the rows of one sweep (`queue_recovery.go:149-153`). `reads` says which rows' metadata can
be read; the rest are left out after the limit was applied (`database/transaction_recovery.go:77-83`). The
ids drawn are new, and the metadata of the row is written. `others` is what other processes may do. -/
inductive Loop (cfg : Cfg) (reads : Txn → Bool) (others : DB → DB → Prop) : RSys → List Txn → RSys → Prop
  | nil (s : RSys) (db : DB) : others s.db db → Loop cfg reads others s [] { s with db := db }
  | skip {s s' : RSys} {row : Txn} {rows : List Txn} : reads row = false → Loop cfg reads others s rows s' →
      Loop cfg reads others s (row :: rows) s'
  | row {s s' : RSys} {row : Txn} {rows : List Txn} (db : DB) (e : REnv) : reads row = true → others s.db db →
      db.hasTxnId e.newId = false → e.metaLost = false →
      Loop cfg reads others (recoverRow cfg 3 e { s with db := db } row).1 rows s' → Loop cfg reads others s (row :: rows) s'

/-- One sweep with limit `b`: the rows it picked, and the state after it. -/
def Sweeps1 (cfg : Cfg) (reads : Txn → Bool) (others : DB → DB → Prop) (b cutoff : Nat) (s : RSys) (picked : List Txn) (s' : RSys) : Prop :=
  Picks b cutoff s.db picked ∧ Loop cfg reads others s picked s'

/-- `n` sweeps, one after the other, each with a cutoff of at least `cut`. -/
inductive Sweeping (cfg : Cfg) (reads : Txn → Bool) (others : DB → DB → Prop) (b cut : Nat) : Nat → RSys → RSys → Prop
  | zero (s : RSys) : Sweeping cfg reads others b cut 0 s s
  | succ {n cutoff : Nat} {s s1 s' : RSys} {picked : List Txn} : cut ≤ cutoff → Sweeps1 cfg reads others b cutoff s picked s1 →
      Sweeping cfg reads others b cut n s1 s' → Sweeping cfg reads others b cut (n + 1) s s'

/-- `batchSize` (`queue_recovery.go:48`). -/
def batchSize : Nat := 100

/-- `POST /transactions/recover` (`api/transactions.go:701-719`): what the client is told. Times are seconds. -/
structure Told where
  recovered : Nat
  threshold : Int
deriving DecidableEq, Repr

/-- The threshold in force (`queue_recovery.go:127-129`). -/
def inForce (threshold : Int) : Int := if threshold < 120 then 120 else threshold

/-- The answer to a call with this threshold (absent: two minutes); `read` are the rows the query gave, `none` if
the database did not answer (`queue_recovery.go:137-141`, `155`). -/
def answer (threshold : Option Int) (read : Option (List Txn)) : Told :=
  { recovered := match read with
      | none => 0
      | some rows => rows.length
    threshold := threshold.getD 120 }

end Blnk.Window
