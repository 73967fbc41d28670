import Verif.Model.RefundCall
import Verif.Model.AtomicBulk
/-
One call of `PUT /transactions/inflight/:txID` with an id that stands for one or several holds: its dry
run (`PreviewInflightAction`) and the synchronous settlement of the holds.
-/
namespace Blnk.Undo
open Blnk Preview

/-- Why a hold would not be settled. -/
inductive Hitch
  /-- refused before a balance is looked at -/
  | early (e : InfErr)
  /-- refused by the balances, which are left alone -/
  | post (e : OpErr)
  /-- refused by the destination after the source was changed (`applyTransactionToBalances`, `transaction_execution.go:320-363`,
  works on one side after the other) -/
  | late (e : OpErr)
deriving DecidableEq, Repr

/-- `shouldExpandInflightParent` (`transaction_inflight.go:798-811`). -/
def expands : InfErr → Bool
  | .notFound | .notInflight => true
  | _ => false

/-- `inflightLegsForPreview` (`transaction_dryrun_inflight.go:184-202`). An id that is itself a hold stands for
itself; the legs of any other are not looked at one by one. -/
def shownLegs (db : DB) (id : String) : Except InfErr (List Txn) :=
  match fetchInflight db id with
  | .ok t => .ok [t]
  | .error e =>
    if expands e then
      if Atomic.inflightLegs db id = [] then .error e else .ok ((Atomic.inflightLegs db id).map bare)
    else .error e

/-- `buildInflightSettlementForPreview` (`transaction_dryrun_inflight.go:210-238`). -/
def settlement (db : DB) (t : Txn) (void : Bool) (amt : Int) : Except InfErr Txn :=
  match (if void then (if remaining db t = 0 then .error .alreadyCommitted else .ok (remaining db t))
         else settleAmount t amt (remaining db t)) with
  | .error e => .error e
  | .ok p => .ok { t with status := if void then .void else .commit, preciseAmount := some p
                          amount := if void || amt = 0 then (p : Rat) / t.precision else t.amount }

/-- One settlement on the working balances (`transaction_dryrun_inflight.go:106-123`). -/
def moveOn (cfg : Cfg) (db : DB) (m : BSet) (u : Txn) : Except OpErr (BSet × Except Hitch Int) :=
  match m.resolve cfg db u.source u.currency with
  | .error e => .error e
  | .ok (m1, s) => match m1.resolve cfg db u.destination u.currency with
    | .error e => .error e
    | .ok (m2, d) =>
      if s.id = d.id then .ok (m2, .error (.post .conflict))
      else match applySource u s with
        | .error e => .ok (m2, .error (.post (.bal e)))
        | .ok s' => match applyDestination u d with
          | .error e => .ok (m2.put u.source s', .error (.late (.bal e)))
          | .ok d' => .ok ((m2.put u.source s').put u.destination d', .ok (u.preciseAmount.getD 0))

/-- One leg of `PreviewInflightAction` (`transaction_dryrun_inflight.go:98-136`). -/
def clearLeg (cfg : Cfg) (db : DB) (m : BSet) (t : Txn) (void : Bool) (amt : Int) : Except OpErr (BSet × Except Hitch Int) :=
  match settlement db t void amt with
  | .error e => .ok (m, .error (.early e))
  | .ok u => moveOn cfg db m u

/-- The loop over the legs (`transaction_dryrun_inflight.go:98-136`): a failing leg does not stop it. -/
def clearLegs (cfg : Cfg) (db : DB) (void : Bool) (amt : Int) : BSet → List Txn → Except OpErr (BSet × List (Except Hitch Int))
  | m, [] => .ok (m, [])
  | m, t :: ts => match clearLeg cfg db m t void amt with
    | .error e => .error e
    | .ok (m', x) => match clearLegs cfg db void amt m' ts with
      | .error e => .error e
      | .ok (m'', xs) => .ok (m'', x :: xs)

/-- The projection. -/
structure Cleared where
  wouldApply : Bool
  total : Int
  legs : List (Except Hitch Int)
  balances : BSet

/-- Whether a leg failed. -/
def Hitch.of : Except Hitch Int → Bool
  | .error _ => true
  | .ok _ => false

/-- What a leg adds to the total. -/
def cleared : Except Hitch Int → Int
  | .error _ => 0
  | .ok a => a

/-- `PreviewInflightAction` (`transaction_dryrun_inflight.go:37-176`). A voided or settled id is a rejection
(`:52-69`), any other failure to find the legs an error. -/
def previewClear (cfg : Cfg) (db : DB) (id : String) (void : Bool) (amt : Int) : Except (InfErr ⊕ OpErr) Cleared :=
  match shownLegs db id with
  | .error .voided | .error .notInflight => .ok ⟨false, 0, [], []⟩
  | .error e => .error (.inl e)
  | .ok ts => match clearLegs cfg db void amt [] ts with
    | .error e => .error (.inr e)
    | .ok (m, xs) => .ok ⟨!xs.any Hitch.of, (xs.map cleared).sum, xs, m⟩

/-- `CommitInflightTransaction` or `VoidInflightTransaction` of one hold (`transaction_inflight.go:189-196`,
`:454-459`). -/
def settleOne (cfg : Cfg) (db : DB) (id : String) (void : Bool) (amt : Int) (newId ref : String) : DB × Except InfErr Outcome :=
  if void then voidInflight cfg db id newId ref "" "" else commitInflight cfg db id amt newId ref "" ""

/-- The single worker over the listed holds (`CommitWorker`, `VoidWorker`, `transaction_inflight.go:106-159`); an
error does not stop it. `fresh k` and `refs k` are what is generated for the `k`-th hold. -/
def settleEach (cfg : Cfg) (void : Bool) (amt : Int) (fresh refs : Nat → String) : DB → Nat → List Txn → DB × List (Except InfErr Outcome)
  | db, _, [] => (db, [])
  | db, k, t :: ts =>
    let r := settleOne cfg db t.id void amt (fresh k) (refs k)
    let rest := settleEach cfg void amt fresh refs r.1 (k + 1) ts
    (rest.1, r.2 :: rest.2)

/-- The call with `skip_queue` (`api/transactions.go:548-571`). Simplified: the holds are listed once; the service
lists them page by page while it settles them. -/
def settleCall (cfg : Cfg) (db : DB) (id : String) (void : Bool) (amt : Int) (fresh refs : Nat → String) :
    DB × List (Except InfErr Outcome) :=
  settleEach cfg void amt fresh refs db 0 (Atomic.inflightLegs db id)

end Blnk.Undo
