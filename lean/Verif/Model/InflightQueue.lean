import Verif.Model.Inflight
/-
The queued worker's side of commit and void (`transaction_inflight.go:639-749`,
`cmd/workers.go:292-327`).
-/
namespace Blnk

/-- One call of `applyInflightActionToLeg` (`transaction_inflight.go:687-695`): the leg, the
ids the server generates during the call, and what other processes did to the ledger since
the previous call. -/
structure LegCall where
  leg : String
  newId : String
  /-- random reference, used only when the task carries no action id -/
  newRef : String := ""
  n1 : String := ""
  n2 : String := ""
  before : List Act := []
deriving Repr

/-- `InflightActionPayload` (`queue.go:72-77`) without the parent id, which only selects the legs. -/
structure QAction where
  void : Bool
  amount : Int
  actionID : String
deriving Repr, DecidableEq

/-- Name of the action in a reference (`queue.go:58-61`). -/
def QAction.name (q : QAction) : String := if q.void then "void" else "commit"

/-- Reference given to the settlement of a leg (`transaction_inflight.go:639-644`, `:688`). -/
def QAction.ref (q : QAction) (c : LegCall) : String :=
  if q.actionID = "" then c.newRef else inflightActionReference c.leg q.name q.actionID

/-- The settlement attempted for a leg. -/
def QAction.toAct (q : QAction) (c : LegCall) : Act :=
  if q.void then .void c.leg c.newId (q.ref c) c.n1 c.n2 else .commit c.leg q.amount c.newId (q.ref c) c.n1 c.n2

/-- What a settlement answers. -/
def settleResult (cfg : Cfg) (db : DB) (q : QAction) (c : LegCall) : Except InfErr Outcome :=
  if q.void then (voidInflight cfg db c.leg c.newId (q.ref c) c.n1 c.n2).2
  else (commitInflight cfg db c.leg q.amount c.newId (q.ref c) c.n1 c.n2).2

/-- How `RunInflightActionByParent` sorts the result of one leg. -/
inductive LegClass
  | applied
  | terminal
  | transient
deriving DecidableEq, Repr

/-- `isTerminalInflightError` and `classifyInflightError` (`transaction_inflight.go:649-659`,
`:922-946`) on the errors the settlement can return: `NOT_FOUND` and everything that is
classified `INTERNAL_ERROR` or `LOCKED` is transient. -/
def legClass : Except InfErr Outcome → LegClass
  | .ok (.posted _) => .applied
  | .ok .discarded => .applied
  | .ok (.refused .duplicateRef) => .terminal
  | .ok (.refused _) => .transient
  | .error .alreadyCommitted => .terminal
  | .error .voided => .terminal
  | .error .notInflight => .terminal
  | .error .exceedsOriginal => .terminal
  | .error .exceedsRemaining => .terminal
  | .error .notFound => .transient
  | .error .negative => .transient

/-- The loop of `RunInflightActionByParent` (`transaction_inflight.go:719-736`) over the
snapshot of legs; a failing leg does not stop the loop. -/
def runAction (cfg : Cfg) (db : DB) (q : QAction) : List LegCall → DB × List LegClass
  | [] => (db, [])
  | c :: cs =>
    let db1 := acts cfg db c.before
    let r := runAction cfg (act cfg db1 (q.toAct c)) q cs
    (r.1, legClass (settleResult cfg db1 q c) :: r.2)

/-- The task is acknowledged (`transaction_inflight.go:738-748`, `cmd/workers.go:316-326`). -/
def acked (cs : List LegClass) : Bool := !cs.contains .transient

end Blnk
