import Verif.Model.Balance
/-
Balances as they are in memory: every figure is a pointer to a big integer which additions and
subtractions change in place (`model/model.go:94-279`, `:467-496`), and copies of balances are made
figure by figure (`model/clone.go:25-67`). `Model/Balance` describes the same functions on values;
here two balances, or a balance and a transaction, may point to the same integer or be the same object.

Simplified: integers that a function makes for itself and drops (`new(big.Int)` in
`canProcessTransaction`) are not kept; that function only reads, so the one of `Model/Balance` is used
on what the pointers lead to. Metadata is left out.
-/
namespace Blnk.Mem

/-- The six figures `InitializeBalanceFields` looks after (`model/model.go:94-113`). -/
inductive Fld
  | bal | cr | db | ib | ic | idb
deriving DecidableEq, Repr

/-- `model.Balance`: `base` holds what is not a figure (its figures are not looked at); `none` is nil. -/
structure PBal where
  base : Balance := { id := "" }
  fig : Fld → Option Nat := fun _ => none
  qd : Option Nat := none

structure Memory where
  /-- the first address at which no integer is -/
  next : Nat
  ints : Nat → Int
  /-- the first address at which no balance is -/
  nextObj : Nat
  objs : Nat → PBal

def upd {α β} [DecidableEq α] (f : α → β) (a : α) (b : β) : α → β := fun x => if x = a then b else f x

/-- The figure a pointer of a balance leads to; nil is read as zero. -/
def val (m : Memory) (b : Nat) (f : Fld) : Int :=
  match (m.objs b).fig f with
  | some x => m.ints x
  | none => 0

/-- The balance as a value. -/
def view (m : Memory) (b : Nat) : Balance :=
  { (m.objs b).base with
    balance := val m b .bal, credit := val m b .cr, debit := val m b .db
    inflightBalance := val m b .ib, inflightCredit := val m b .ic, inflightDebit := val m b .idb
    queuedDebit := (m.objs b).qd.map m.ints }

/-- `big.NewInt(v)`. -/
def alloc (m : Memory) (v : Int) : Memory := { m with next := m.next + 1, ints := upd m.ints m.next v }

/-- `balance.F = x` (the pointer). -/
def point (m : Memory) (b : Nat) (f : Fld) (x : Nat) : Memory :=
  { m with objs := upd m.objs b { m.objs b with fig := upd (m.objs b).fig f (some x) } }

def initFld (b : Nat) (m : Memory) (f : Fld) : Memory :=
  match (m.objs b).fig f with
  | some _ => m
  | none => point (alloc m 0) b f m.next

/-- `InitializeBalanceFields` (`model/model.go:94-113`). -/
def init (m : Memory) (b : Nat) : Memory :=
  [Fld.idb, .ic, .ib, .db, .cr, .bal].foldl (initFld b) m

/-- A method of a figure that changes it in place; of nil, it would panic. -/
def put (m : Memory) (b : Nat) (f : Fld) (v : Int) : Memory :=
  match (m.objs b).fig f with
  | some x => { m with ints := upd m.ints x v }
  | none => m

/-- `addCredit` (`model/model.go:117-125`); `a` points to the amount. -/
def addCredit (m : Memory) (b : Nat) (a : Nat) (inflight : Bool) : Memory :=
  let m := init m b
  if inflight then put m b .ic (val m b .ic + m.ints a) else put m b .cr (val m b .cr + m.ints a)

/-- `addDebit` (`model/model.go:129-136`). -/
def addDebit (m : Memory) (b : Nat) (a : Nat) (inflight : Bool) : Memory :=
  let m := init m b
  if inflight then put m b .idb (val m b .idb + m.ints a) else put m b .db (val m b .db + m.ints a)

/-- `computeBalance` (`model/model.go:140-147`). -/
def computeBalance (m : Memory) (b : Nat) (inflight : Bool) : Memory :=
  let m := init m b
  if inflight then put m b .ib (val m b .ic - val m b .idb) else put m b .bal (val m b .cr - val m b .db)

/-- `model.Transaction`: its amount in minor units is a pointer (`t.preciseAmount` is not looked at). -/
structure PTxn where
  t : Txn
  pa : Option Nat

def tview (m : Memory) (p : PTxn) : Txn := { p.t with preciseAmount := p.pa.map m.ints }

/-- `transaction.PreciseAmount = convertDecimalToPrecise(transaction)` (`model/model.go:306-307`). -/
def newAmount (m : Memory) (t : Txn) : Memory × PTxn :=
  (alloc m (convertDecimalToPrecise t), { t := t, pa := some m.next })

/-- `ApplyPrecision` (`model/model.go:285-308`); the amount it returns is the one it leaves in the
transaction. -/
def applyPrecision (m : Memory) (p : PTxn) : Memory × PTxn :=
  let t := if p.t.precision = 0 then { p.t with precision := 1 } else p.t
  match p.pa with
  | some a =>
    if 0 < m.ints a then (m, { t := { t with amount := (m.ints a : Rat) / t.precision }, pa := some a })
    else newAmount m t
  | none => newAmount m t

/-- What a method leaves: memory (also when it fails), the transaction, and its error. -/
abbrev Out := Memory × PTxn × Except BalErr Unit

/-- `CommitInflightDebit` (`model/model.go:228-241`). -/
def commitDebit (m : Memory) (b : Nat) (p : PTxn) : Out :=
  let m := init m b
  let (m, p) := applyPrecision m p
  let a := p.pa.getD 0
  if val m b .idb < m.ints a then (m, p, .error .insufficientInflightDebit)
  else
    let m := put m b .idb (val m b .idb - m.ints a)
    let m := put m b .db (val m b .db + m.ints a)
    (computeBalance (computeBalance m b true) b false, p, .ok ())

/-- `CommitInflightCredit` (`model/model.go:244-257`). -/
def commitCredit (m : Memory) (b : Nat) (p : PTxn) : Out :=
  let m := init m b
  let (m, p) := applyPrecision m p
  let a := p.pa.getD 0
  if val m b .ic < m.ints a then (m, p, .error .insufficientInflightCredit)
  else
    let m := put m b .ic (val m b .ic - m.ints a)
    let m := put m b .cr (val m b .cr + m.ints a)
    (computeBalance (computeBalance m b true) b false, p, .ok ())

/-- `RollbackInflightDebit` (`model/model.go:271-279`); comparing with a nil amount panics. -/
def rollbackDebit (m : Memory) (b : Nat) (p : PTxn) : Out :=
  let m := init m b
  match p.pa with
  | none => (m, p, .error .nilAmount)
  | some a =>
    if val m b .idb < m.ints a then (m, p, .error .insufficientInflightDebit)
    else (computeBalance (put m b .idb (val m b .idb - m.ints a)) b true, p, .ok ())

/-- `RollbackInflightCredit` (`model/model.go:260-268`). -/
def rollbackCredit (m : Memory) (b : Nat) (p : PTxn) : Out :=
  let m := init m b
  match p.pa with
  | none => (m, p, .error .nilAmount)
  | some a =>
    if val m b .ic < m.ints a then (m, p, .error .insufficientInflightCredit)
    else (computeBalance (put m b .ic (val m b .ic - m.ints a)) b true, p, .ok ())

/-- The checks of `UpdateBalances` and what it does to the source (`model/model.go:468-486`). -/
def updateSource (m : Memory) (p : PTxn) (s d : Nat) : Out :=
  let (m, p) := applyPrecision m p
  match (tview m p).validate with
  | .error e => (m, p, .error e)
  | .ok () =>
    match canProcessTransaction (tview m p) (view m s) with
    | .error e => (m, p, .error e)
    | .ok () =>
      let m := init (init m s) d
      (computeBalance (addDebit m s (p.pa.getD 0) p.t.inflight) s p.t.inflight, p, .ok ())

/-- What it does to the destination (`model/model.go:492-493`). -/
def updateDestination (m : Memory) (p : PTxn) (d : Nat) : Memory :=
  computeBalance (addCredit m d (p.pa.getD 0) p.t.inflight) d p.t.inflight

def sourceSide (m : Memory) (p : PTxn) (s d : Nat) : Out :=
  match p.t.status with
  | .commit => commitDebit m s p
  | .void => rollbackDebit m s p
  | _ => updateSource m p s d

def destinationSide (m : Memory) (p : PTxn) (d : Nat) : Out :=
  match p.t.status with
  | .commit => commitCredit m d p
  | .void => rollbackCredit m d p
  | _ => (updateDestination m p d, p, .ok ())

/-- `applyTransactionToBalances` (`transaction_execution.go:320-365`). -/
def apply (m : Memory) (p : PTxn) (s d : Nat) : Out :=
  match sourceSide m p s d with
  | (m, p, .error e) => (m, p, .error e)
  | (m, p, .ok ()) => destinationSide m p d

/-- One line of `Clone` for a figure (`model/clone.go:49-54`). -/
def cloneFld (b c : Nat) (m : Memory) (f : Fld) : Memory :=
  match (m.objs b).fig f with
  | none => m
  | some x => point (alloc m (m.ints x)) c f m.next

/-- What is queued is set to a new integer: `balance.QueuedDebitBalance = queuedDebit`
(`database/balance.go:320`), and the line of `Clone` for it (`model/clone.go:55`; queued credits are left
out). -/
def setQueued (c : Nat) (q : Option Int) (m : Memory) : Memory :=
  match q with
  | none => m
  | some v =>
    let m' := alloc m v
    { m' with objs := upd m'.objs c { m'.objs c with qd := some m.next } }

/-- `Clone` (`model/clone.go:42-67`): the new balance is at `m.nextObj`. -/
def clone (m : Memory) (b : Nat) : Memory :=
  let c := m.nextObj
  let m := { m with nextObj := c + 1, objs := upd m.objs c { base := (m.objs b).base } }
  setQueued c ((m.objs b).qd.map m.ints) ([Fld.bal, .ib, .cr, .ic, .db, .idb].foldl (cloneFld b c) m)

/-- The figure of a value. -/
def figure (v : Balance) : Fld → Int
  | .bal => v.balance
  | .cr => v.credit
  | .db => v.debit
  | .ib => v.inflightBalance
  | .ic => v.inflightCredit
  | .idb => v.inflightDebit

/-- Reading a row: every figure is parsed into an integer of its own (`parseBigInt`,
`database/balance.go:50-56`, as in `GetBalanceByIDLite`, `:336-425`). The balance is at `m.nextObj`. -/
def load (m : Memory) (v : Balance) : Memory :=
  let c := m.nextObj
  let m := { m with nextObj := c + 1, objs := upd m.objs c { base := v } }
  setQueued c v.queuedDebit
    ([Fld.bal, .cr, .db, .ib, .ic, .idb].foldl (fun m f => point (alloc m (figure v f)) c f m.next) m)

/-- Memory without balances. -/
def empty : Memory := { next := 0, ints := fun _ => 0, nextObj := 0, objs := fun _ => {} }

/-- `clone := *balance` alone: the new balance points to the same integers. -/
def shallow (m : Memory) (b : Nat) : Memory :=
  { m with nextObj := m.nextObj + 1, objs := upd m.objs m.nextObj (m.objs b) }

/-- The figures `previewSingleTransaction` shows (`transaction_dryrun.go:261-291`): for source and destination
those before and those after, and whether the payment would go through. Caveats are left out. -/
structure Shown where
  sourceBefore : Balance
  sourceAfter : Balance
  destBefore : Balance
  destAfter : Balance
  ok : Bool

def preview (m : Memory) (p : PTxn) (s d : Nat) : Shown :=
  let s0 := m.nextObj
  let m := clone m s
  let d0 := m.nextObj
  let m := clone m d
  match apply m p s d with
  | (m, _, .ok ()) => ⟨view m s0, view m s, view m d0, view m d, true⟩
  | (m, _, .error _) => ⟨view m s0, view m s0, view m d0, view m d0, false⟩

end Blnk.Mem
