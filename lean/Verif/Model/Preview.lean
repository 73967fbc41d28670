import Verif.Model.Refund
/-
Dry runs (`transaction_dryrun.go`, `transaction_dryrun_bulk.go`, `transaction_dryrun_inflight.go`).

Every datasource call on these paths is a read (`GetBalanceByIndicator`, `GetBalanceByID`,
`GetBalanceByIDLite`, `TransactionExistsByRef`, `GetTransaction`, `IsParentTransactionVoid`,
`GetTotalCommittedTransactions`), so the functions here take the database and return an answer
only.  Not modelled: notes, wording of rejections, the lock a single preview holds, database
errors (`resolveBalanceForPreview` takes any error on an indicator for "no balance yet").
-/
namespace Blnk.Preview

/-- `normalizePreviewStatus` (`transaction_dryrun.go:220-233`). -/
def normalize (t : Txn) : Txn :=
  match t.status with
  | .commit | .void => t
  | _ => { t with status := if t.inflight then .inflight else .applied }

/-- The transaction a preview applies (`transaction_dryrun.go:54-56`, `:347-349`;
`transaction_dryrun_bulk.go:176-177`, `:202-203`). -/
def projected (t : Txn) : Txn := (normalize t).applyPrecision

/-- The stand-in for an indicator without a balance (`transaction_dryrun.go:450-459`). -/
def standIn (ident currency : String) : Balance := { id := ident, indicator := ident, currency := currency }

/-- `resolveBalanceForPreview` (`transaction_dryrun.go:435-469`) with `fetchBalanceForPreview`
(`:478-483`).  `GetBalanceByIndicator` (`database/balance.go:545-600`) reads no queued total. -/
def lookup (cfg : Cfg) (db : DB) (ident currency : String) : Except OpErr Balance :=
  if ident = "" then .error .balanceNotFound
  else if isIndicator ident then
    match db.balances.find? (fun b => b.indicator = ident && b.currency = currency) with
    | some b => .ok { b with queuedDebit := none }
    | none => .ok (standIn ident currency)
  else db.load cfg ident

/-- What a preview of one movement reports: the two balances before and after. -/
structure Shown where
  wouldApply : Bool
  rejection : Option OpErr
  srcBefore : Balance
  srcAfter : Balance
  dstBefore : Balance
  dstAfter : Balance
deriving DecidableEq, Repr

/-- `sameBalanceErr` and the duplicate reference test of `notePreviewCaveats`
(`transaction_dryrun.go:577-628`); the later one wins. -/
def caveat (db : DB) (t : Txn) (s d : Balance) : Option OpErr :=
  if t.reference ≠ "" && db.hasRef t.reference then some .duplicateRef
  else if s.id = d.id then some .conflict
  else none

/-- `PreviewTransaction` of an unsplit transaction (`transaction_dryrun.go:43-70`,
`previewSingleTransaction` `:236-296`). -/
def previewSingle (cfg : Cfg) (db : DB) (t : Txn) : Except OpErr Shown :=
  match lookup cfg db t.source t.currency with
  | .error e => .error e
  | .ok s => match lookup cfg db t.destination t.currency with
    | .error e => .error e
    | .ok d => match applyToBalances (projected t) s d with
      | .error e => .ok ⟨false, some (.bal e), s, s, d, d⟩
      | .ok (s', d') => match caveat db t s d with
        | some e => .ok ⟨false, some e, s, s, d, d⟩
        | none => .ok ⟨true, none, s, s', d, d'⟩

/-! ### Several movements over one set of working balances -/

/-- `previewBalanceSet` (`transaction_dryrun.go:508-512`): working balances by the identifier
they were asked for. -/
abbrev BSet := List (String × Balance)

/-- `byID[identifier]`. -/
def BSet.get (m : BSet) (k : String) : Option Balance :=
  match m with
  | [] => none
  | (j, b) :: t => if j = k then some b else BSet.get t k

/-- Write a working balance (the code mutates it through a pointer). -/
def BSet.put (m : BSet) (k : String) (b : Balance) : BSet :=
  match m with
  | [] => [(k, b)]
  | (j, c) :: t => if j = k then (j, b) :: t else (j, c) :: BSet.put t k b

/-- `previewBalanceSet.resolve` (`transaction_dryrun.go:531-545`). The key is the identifier
alone, without the currency. -/
def BSet.resolve (cfg : Cfg) (db : DB) (m : BSet) (ident currency : String) : Except OpErr (BSet × Balance) :=
  match m.get ident with
  | some b => .ok (m, b)
  | none => match lookup cfg db ident currency with
    | .error e => .error e
    | .ok b => .ok (m.put ident b, b)

/-- One leg on the working balances (`transaction_dryrun.go:351-375`,
`transaction_dryrun_bulk.go:205-223`).  A refused leg leaves them alone: neither a commit nor a
void comes this way, and a plain posting fails before it touches a balance
(`model/model.go:466-495`). -/
def legStep (cfg : Cfg) (db : DB) (m : BSet) (t : Txn) : Except OpErr (BSet × Option OpErr) :=
  match m.resolve cfg db t.source t.currency with
  | .error e => .error e
  | .ok (m1, s) => match m1.resolve cfg db t.destination t.currency with
    | .error e => .error e
    | .ok (m2, d) =>
      if s.id = d.id then .ok (m2, some .conflict)
      else match applyToBalances (projected t) s d with
        | .error e => .ok (m2, some (.bal e))
        | .ok (s', d') => .ok ((m2.put t.source s').put t.destination d', none)

/-- The loop over legs in cumulative mode: it stops at the first refusal
(`transaction_dryrun.go:346-391`; `transaction_dryrun_bulk.go:201-246`).  No reference is looked
at here. -/
def legsWalk (cfg : Cfg) (db : DB) : BSet → List Txn → Except OpErr (BSet × Option OpErr)
  | m, [] => .ok (m, none)
  | m, t :: ts => match legStep cfg db m t with
    | .error e => .error e
    | .ok (m', some e) => .ok (m', some e)
    | .ok (m', none) => legsWalk cfg db m' ts

/-- `previewSplitTransaction` with `skip_queue` (`transaction_dryrun.go:317-404`), given its legs:
`none` is `would_apply`. -/
def previewSplit (cfg : Cfg) (db : DB) (legs : List Txn) : Except OpErr (BSet × Option OpErr) :=
  legsWalk cfg db [] legs

/-- An item of a batch: its reference and its legs; an unsplit item is its own only leg
(`transaction_dryrun_bulk.go:181-188`). -/
structure Item where
  ref : String
  legs : List Txn
deriving Repr

/-- The loop of `PreviewBulkTransactions` with `skip_queue` (`transaction_dryrun_bulk.go:80-108`)
with `bulkItemDuplicateReference` (`:133-163`): one answer per item.  It goes on after a refused
item. -/
def bulkWalk (cfg : Cfg) (db : DB) : List String → BSet → List Item → Except OpErr (BSet × List (Option OpErr))
  | _, m, [] => .ok (m, [])
  | seen, m, it :: rest =>
    if it.ref ≠ "" && (seen.contains it.ref || db.hasRef it.ref) then
      match bulkWalk cfg db seen m rest with
      | .error e => .error e
      | .ok (m', rs) => .ok (m', some .duplicateRef :: rs)
    else match legsWalk cfg db m it.legs with
      | .error e => .error e
      | .ok (m', r) => match bulkWalk cfg db (it.ref :: seen) m' rest with
        | .error e => .error e
        | .ok (m'', rs) => .ok (m'', r :: rs)

/-- `PreviewBulkTransactions` with `skip_queue`. -/
def previewBulk (cfg : Cfg) (db : DB) (items : List Item) : Except OpErr (BSet × List (Option OpErr)) :=
  bulkWalk cfg db [] [] items

/-! ### Settling a hold -/

/-- The projection of one settlement (`transaction_dryrun_inflight.go:104-122`). -/
def showSettle (cfg : Cfg) (db : DB) (u : Txn) : Except OpErr Shown :=
  match lookup cfg db u.source u.currency with
  | .error e => .error e
  | .ok s => match lookup cfg db u.destination u.currency with
    | .error e => .error e
    | .ok d =>
      if s.id = d.id then .ok ⟨false, some .conflict, s, s, d, d⟩
      else match applyToBalances u s d with
        | .error e => .ok ⟨false, some (.bal e), s, s, d, d⟩
        | .ok (s', d') => .ok ⟨true, none, s, s', d, d'⟩

/-- `PreviewInflightAction` for one hold (`transaction_dryrun_inflight.go:37-176`) with
`buildInflightSettlementForPreview` (`:210-238`).  `void` selects the action.  A refusal before
the balances are reached is an `InfErr`.  A void is given `amt = 0`. -/
def previewSettle (cfg : Cfg) (db : DB) (id : String) (void : Bool) (amt : Int) :
    Except InfErr (Except OpErr Shown) :=
  match fetchInflight db id with
  | .error e => .error e
  | .ok t =>
    match (if void then (if remaining db t = 0 then .error .alreadyCommitted else .ok (remaining db t))
           else settleAmount t amt (remaining db t)) with
    | .error e => .error e
    | .ok p => .ok (showSettle cfg db
        { t with status := if void then .void else .commit, preciseAmount := some p
                 amount := if amt = 0 then (p : Rat) / t.precision else t.amount })

/-! ### The real request -/

/-- `processTxns` with `skip_queue` (`transaction_queue.go:236-251`) and the loop of
`processBulkTransactions` (`transaction_bulk.go:32-53`): the movements one after another, stopping
at the first refusal.  Each carries the two balance ids the server would generate. -/
def postAll (cfg : Cfg) (db : DB) : List (Txn × String × String) → DB × Option OpErr
  | [] => (db, none)
  | (t, n1, n2) :: ts => match recordSingle cfg db t n1 n2 with
    | (db', .refused e) => (db', some e)
    | (db', _) => postAll cfg db' ts

end Blnk.Preview
