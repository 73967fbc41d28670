import Verif.Model.Inflight
/-
Concurrent calls of `getOrCreateBalanceByIndicator` (`balance.go:154-209`), one database statement at a
time, among anything else that happens to the ledger. Not modelled: failing statements other than
the unique constraints; the second read of the balance with queued amounts, which keeps the id.
-/
namespace Blnk.Indicator

inductive Phase
  /-- before the first lookup (`balance.go:166`) -/
  | looking
  /-- not found; about to insert (`balance.go:168-174`) -/
  | missed
  /-- inserted, or the insert met a unique constraint (`balance.go:174-178`, `43-53`) -/
  | created
  /-- returned this balance -/
  | returned (id : String)
  /-- the second lookup found nothing (`balance.go:180-183`) -/
  | failed
deriving DecidableEq, Repr

structure Call where
  indicator : String
  currency : String
  /-- the id `CreateBalance` generates (`database/balance.go:211`) -/
  fresh : String
  phase : Phase := .looking
deriving DecidableEq, Repr

/-- `GetBalanceByIndicator` (`database/balance.go:545-600`). -/
def lookup (db : DB) (ind cur : String) : Option Balance := db.balances.find? (fun b => b.indicator = ind && b.currency = cur)

/-- One statement of a call. -/
def advance (db : DB) (c : Call) : DB × Call :=
  match c.phase with
  | .looking => match lookup db c.indicator c.currency with
    | some b => (db, { c with phase := .returned b.id })
    | none => (db, { c with phase := .missed })
  | .missed => match db.createBalance c.fresh c.indicator c.currency with
    | .ok db' => (db', { c with phase := .created })
    | .error _ => (db, { c with phase := .created })
  | .created => match lookup db c.indicator c.currency with
    | some b => (db, { c with phase := .returned b.id })
    | none => (db, { c with phase := .failed })
  | .returned _ => (db, c)
  | .failed => (db, c)

structure State where
  db : DB
  calls : List Call
deriving Repr

inductive Ev
  /-- the next statement of the `n`-th call -/
  | call (n : Nat)
  /-- anything else -/
  | act (a : Act)
deriving Repr

def step (cfg : Cfg) (s : State) : Ev → State
  | .call n => match s.calls[n]? with
    | none => s
    | some c => { db := (advance s.db c).1, calls := s.calls.set n (advance s.db c).2 }
  | .act a => { s with db := act cfg s.db a }

def exec (cfg : Cfg) (s : State) : List Ev → State
  | [] => s
  | e :: es => exec cfg (step cfg s e) es

end Blnk.Indicator
