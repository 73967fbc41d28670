import Verif.Model.Worker
/-
What recovery knows of the other parts of an all-or-nothing request: the page of rows under the
request's id that `GetTransactionsByParent` gives (`database/transaction_queue.go:120-217`, called at
`queue_recovery.go:189-201`), kept for five minutes in a cache of two levels
(`internal/cache/cache.go`). `Worker.lean` reads the table instead; here is what that leaves out.
-/
namespace Blnk.Sib
open Blnk.Queue

/-- `ORDER BY created_at DESC LIMIT 100 OFFSET 0` over the rows under one id
(`database/transaction_queue.go:138-145`, `queue_recovery.go:191`). Rows of the same moment come in
any order. -/
def IsPage (rows : List Txn) (mark : String) (pg : List Txn) : Prop :=
  ∃ l : List Txn, l.Perm (rows.filter (fun t => t.parent = mark)) ∧ l.Pairwise (fun x y => y.createdAt ≤ x.createdAt) ∧ pg = l.take 100

/-- How long Redis keeps a page, in seconds (`database/transaction_queue.go:206`). -/
def redisKeeps : Nat := 300

/-- A kept page. `since` is when it was put here; `read`, when the database was asked for it
(bookkeeping of the model). -/
structure Kept where
  page : List Txn
  since : Nat
  read : Nat

/-- The table, the clock and the kept pages for one id. Each row comes with the moment it was
inserted (bookkeeping). -/
structure State where
  now : Nat := 0
  rows : List (Txn × Nat) := []
  redis : Option Kept := none
  locals : Nat → Option Kept := fun _ => none

/-- The rows. -/
def State.table (s : State) : List Txn := s.rows.map (·.1)

/-- A kept page that is still good. -/
def fresh (keeps now : Nat) : Option Kept → Option Kept
  | some k => if now < k.since + keeps then some k else none
  | none => none

/-- `GetTransactionsByParent` (`database/transaction_queue.go:120-217`) by process `p`, when the
database would answer `pg`: the process's own copy, the one in Redis (copied), the database (kept in
both if there are rows). A process keeps what it was given for `L` seconds: a minute
(`internal/cache/cache.go:84-87`, `:109-112`) and what the library adds to it. Errors of the cache are left out. -/
def look (L : Nat) (s : State) (p : Nat) (pg : List Txn) : State × List Txn :=
  match fresh L s.now (s.locals p) with
  | some k => (s, k.page)
  | none => match fresh redisKeeps s.now s.redis with
    | some k => ({ s with locals := fun q => if q = p then some { k with since := s.now } else s.locals q }, k.page)
    | none =>
      if pg.isEmpty then (s, pg)
      else
        let k : Kept := { page := pg, since := s.now, read := s.now }
        ({ s with redis := some k, locals := fun q => if q = p then some k else s.locals q }, pg)

/-- What can happen. -/
inductive Step (L : Nat) (mark : String) : State → State → Prop
  /-- a row is stored, under whatever id -/
  | store (s : State) (t : Txn) : Step L mark s { s with rows := s.rows ++ [(t, s.now)] }
  /-- time passes -/
  | wait (s : State) (d : Nat) : Step L mark s { s with now := s.now + d }
  /-- a process looks -/
  | look (s : State) (p : Nat) (pg : List Txn) : IsPage s.table mark pg → Step L mark s (look L s p pg).1
  /-- an entry is evicted -/
  | dropLocal (s : State) (p : Nat) : Step L mark s { s with locals := fun q => if q = p then none else s.locals q }
  | dropRedis (s : State) : Step L mark s { s with redis := none }

/-- Any number of steps. -/
inductive Reach (L : Nat) (mark : String) : State → Prop
  | init : Reach L mark {}
  | step {s s'} : Reach L mark s → Step L mark s s' → Reach L mark s'

/-- The check (`queue_recovery.go:195-200`). -/
def seen (pg : List Txn) : Bool := pg.any (fun t => t.status = .rejected)

/-- `processStuckTransaction` (`queue_recovery.go:160-224`) with the page it was given. -/
def recoverSeen (cfg : Cfg) (max : Int) (e : REnv) (s : RSys) (row : Txn) (pg : List Txn) : RSys × Pass :=
  let t := restore (scan row)
  let n := s.attempts row.id + 1
  if max < n then
    ({ s with db := (Blnk.step cfg s.db (.store (rejectedRow (queueCopy t e.newId)))).1 }, .rejected)
  else if t.atomic && t.metaQueuedParent ≠ "" && seen pg then (s, .sibling)
  else
    let r := if e.fault then (s.db, false)
      else match tryBatch cfg s.db (queueCopy t e.newId) e.sibs with
        | (db', true) => (db', true)
        | (db', false) => match recordSingle cfg db' (queueCopy t e.newId) e.n1 e.n2 with
          | (db'', .posted _) => (db'', true)
          | (db'', _) => (db'', false)
    ({ db := r.1, attempts := if e.metaLost then s.attempts else fun i => if i = row.id then n else s.attempts i },
     .replayed r.2)

end Blnk.Sib
