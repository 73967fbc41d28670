import Verif.Model.Recon
import Verif.Model.Errors
/-
Matching rules and the records of reconciliations: requests for them (`api/reconciliation_api.go`,
`reconciliation.go`, `database/reconciliation.go`) and the background run of a reconciliation as far as
its record shows it.

Simplifications: a request body is its fields (JSON syntax is not modelled); drifts are rationals;
amounts and dates of external records are values; SQL statements on rules and records succeed unless a
value does not fit its column or its key is taken; statements that change the status of a
reconciliation may also fail, before or after they took effect (`Reply`). Limits on the size of index entries
and NUL characters in ids taken from the path are left out. What a run finds (numbers of
matched and unmatched records) is given by the event, except where it is nothing in any case.
-/
namespace Blnk.Rules
open Errs

/-! ### Rules -/

/-- `model.MatchingCriteria` as sent (`model/reconciliation_model.go:74-80`). -/
structure Crit where
  field : Text
  operator : Text
  value : Text := []
  pattern : Text := []
  drift : Rat := 0
deriving DecidableEq, Repr

/-- The part of `model.MatchingRule` a request can set (`model/reconciliation_model.go:64-72`); id and
times are overwritten. -/
structure Body where
  name : Text
  description : Text := []
  criteria : List Crit
deriving DecidableEq, Repr

/-- A row of `blnk.matching_rules` (`sql/1721922047.sql:68-76`). -/
structure RuleRow where
  id : Text
  name : Text
  description : Text
  criteria : List Crit
  created : Nat
  updated : Nat
deriving DecidableEq, Repr

/-- `validateField` (`reconciliation.go:1324-1330`). -/
def parseField (f : Text) : Option Recon.Field :=
  if f = t! "amount" then some .amount
  else if f = t! "date" then some .date
  else if f = t! "description" then some .description
  else if f = t! "reference" then some .reference
  else if f = t! "currency" then some .currency
  else none

/-- `validateOperator` (`reconciliation.go:1312-1318`). -/
def parseOperator (o : Text) : Option Recon.Operator :=
  if o = t! "equals" then some .equals
  else if o = t! "greater_than" then some .greaterThan
  else if o = t! "less_than" then some .lessThan
  else if o = t! "contains" then some .contains
  else none

/-- `validateDrift` (`reconciliation.go:1337-1353`). -/
def driftErr (f : Recon.Field) (o : Recon.Operator) (d : Rat) : Option Text :=
  if o = .equals then
    match f with
    | .amount => if d < 0 ∨ 1 < d then some (t! "drift for amount must be between 0 and 1 (fraction, e.g. 0.01 = 1%)") else none
    | .date => if d < 0 then some (t! "drift for date must be non-negative (seconds)") else none
    | _ => none
  else none

/-- `validateCriteria` (`reconciliation.go:1292-1306`). -/
def critErr (c : Crit) : Option Text :=
  if c.field = [] ∨ c.operator = [] then some (t! "field and operator are required for each criteria")
  else match parseOperator c.operator with
    | none => some (t! "invalid operator")
    | some o => match parseField c.field with
      | none => some (t! "invalid field")
      | some f => driftErr f o c.drift

/-- `validateRule`, `validateRuleBasics` (`reconciliation.go:1256-1286`). -/
def ruleErr (b : Body) : Option Text :=
  if b.name = [] then some (t! "rule name is required")
  else if b.criteria = [] then some (t! "at least one matching criteria is required")
  else b.criteria.findSome? critErr

/-- What a stored criterion means to the matching (`reconciliation.go:280-300`). -/
def Crit.parse (c : Crit) : Option Recon.Criterion :=
  match parseField c.field, parseOperator c.operator with
  | some f, some o => some { field := f, operator := o, drift := c.drift }
  | _, _ => none

/-- The criteria of a rule, for the matching. -/
def parsed (cs : List Crit) : List Recon.Criterion := cs.filterMap Crit.parse

/-- No NUL character: PostgreSQL takes none in texts. -/
def clean (t : Text) : Bool := !t.contains (Char.ofNat 0)

/-- Whether a rule fits its columns (`sql/1721922047.sql:68-76`). -/
def Body.fits (b : Body) : Bool :=
  decide (b.name.length ≤ 255) && clean b.name && clean b.description &&
    b.criteria.all fun c => clean c.value && clean c.pattern

/-! ### Reconciliations and external records -/

inductive Status
  | started | inProgress | completed | failed
deriving DecidableEq, Repr

/-- A row of `blnk.reconciliations` (`sql/1721922047.sql:19-28`): whether it was a dry run is not a
column (`database/reconciliation.go:44-51`). -/
structure ReconRow where
  id : Text
  upload : Text
  status : Status
  matched : Nat := 0
  unmatched : Nat := 0
  started : Nat
  completed : Option Nat := none
deriving DecidableEq, Repr

/-- What a reconciliation is shown as (`model.Reconciliation`, `model/reconciliation_model.go:38-48`). -/
structure ReconView where
  id : Text
  upload : Text
  status : Status
  matched : Nat
  unmatched : Nat
  dry : Bool
  started : Nat
  completed : Option Nat
deriving DecidableEq, Repr

/-- An external record as sent (`model/reconciliation_model.go:28-36`). -/
structure Ext where
  id : Text
  amount : Rat
  reference : Text := []
  currency : Text := t! "USD"
  description : Text := []
  date : Int := 0
  source : Text := []
deriving DecidableEq, Repr

/-- Whether a record fits its columns (`sql/1721922047.sql:49-58`, `sql/1765154909.sql:16-17`). -/
def Ext.fits (e : Ext) : Bool :=
  decide (e.reference.length ≤ 255) && decide (e.source.length ≤ 255) && clean e.id && clean e.reference &&
    clean e.currency && clean e.description && clean e.source

/-- What a run of a reconciliation does next (`processReconciliation`, `reconciliation.go:334-369`). -/
inductive Phase
  /-- accepted, the goroutine has not done anything yet -/
  | waiting
  /-- the status is `in_progress`, the rules are not read yet -/
  | begun
  /-- works with these rules -/
  | working (rules : List RuleRow)
  /-- ended with an error, which the goroutine has yet to record (`reconciliation.go:166-174`) -/
  | failing
  | over
deriving DecidableEq, Repr

/-- The background run of a reconciliation (`reconciliation.go:145-180`). -/
structure Job where
  recon : Text
  upload : Text
  strategy : Text
  rules : List Text
  dry : Bool
  phase : Phase := .waiting
deriving DecidableEq, Repr

/-- The database and the runs in progress. -/
structure Sys where
  rules : List RuleRow := []
  recons : List ReconRow := []
  exts : List (Text × Ext) := []
  jobs : List Job := []
deriving DecidableEq, Repr

/-- How a statement ends: done; refused, with nothing changed; or done, and the answer was lost. -/
inductive Reply
  | done | refused | lost
deriving DecidableEq, Repr

/-! ### Requests for rules -/

/-- `CreateMatchingRule` (`api/reconciliation_api.go:384-404`). -/
def createOpts : Opts := { default := some "GEN_INTERNAL", fallback := some (t! "Failed to create matching rule") }

/-- `UpdateMatchingRule` (`api/reconciliation_api.go:416-444`). -/
def updateOpts : Opts :=
  { default := some "GEN_INTERNAL", fallback := some (t! "Failed to update matching rule"), upgrades := [("GEN_NOT_FOUND", "RECON_RULE_NOT_FOUND")] }

/-- `DeleteMatchingRule` (`api/reconciliation_api.go:456-477`). -/
def deleteOpts : Opts :=
  { default := some "GEN_INTERNAL", fallback := some (t! "Failed to delete matching rule"), upgrades := [("GEN_NOT_FOUND", "RECON_RULE_NOT_FOUND")] }

/-- The error for a rule that is not there (`database/reconciliation.go:523, 556, 587`). -/
def noRule (id : Text) : Err := api "NOT_FOUND" (t! "Matching rule with ID '" ++ id ++ t! "' not found") none

/-- `GetMatchingRule` (`database/reconciliation.go:568-600`). -/
def findRule (s : Sys) (id : Text) : Option RuleRow := s.rules.find? fun r => r.id = id

/-- `CreateMatchingRule` (`reconciliation.go:1170-1188`, `database/reconciliation.go:414-436`). -/
def createRule (s : Sys) (b : Body) (id : Text) (now : Nat) : Sys × Except Resp RuleRow :=
  match ruleErr b with
  | some m => (s, .error (respondError createOpts (plain m)))
  | none =>
    if b.fits then
      let r : RuleRow := { id := id, name := b.name, description := b.description, criteria := b.criteria, created := now, updated := now }
      ({ s with rules := s.rules ++ [r] }, .ok r)
    else (s, .error (respondError createOpts (api "INTERNAL_SERVER_ERROR" (t! "Failed to record matching rule") none)))

/-- What `UPDATE blnk.matching_rules` sets (`database/reconciliation.go:506-510`): not `updated_at`. -/
def setRule (b : Body) (r : RuleRow) : RuleRow := { r with name := b.name, description := b.description, criteria := b.criteria }

/-- `UpdateMatchingRule` (`reconciliation.go:1209-1233`, `database/reconciliation.go:495-527`). -/
def updateRule (s : Sys) (id : Text) (b : Body) (now : Nat) : Sys × Except Resp RuleRow :=
  match findRule s id with
  | none => (s, .error (respondError updateOpts (noRule id)))
  | some r => match ruleErr b with
    | some m => (s, .error (respondError updateOpts (plain m)))
    | none =>
      if b.fits then
        ({ s with rules := s.rules.map fun x => if x.id = id then setRule b x else x }, .ok { setRule b r with updated := now })
      else (s, .error (respondError updateOpts (api "INTERNAL_SERVER_ERROR" (t! "Failed to update matching rule") none)))

/-- `DeleteMatchingRule` (`reconciliation.go:1240-1242`, `database/reconciliation.go:535-560`). -/
def deleteRule (s : Sys) (id : Text) : Sys × Except Resp Unit :=
  match findRule s id with
  | none => (s, .error (respondError deleteOpts (noRule id)))
  | some _ => ({ s with rules := s.rules.filter fun x => x.id ≠ id }, .ok ())

/-! ### Requests for reconciliations -/

/-- A request to reconcile (`api/reconciliation_api.go:243-249`), past `binding:"required"`: upload and
strategy are not empty and the ids of rules are given. -/
structure StartReq where
  upload : Text
  strategy : Text
  rules : List Text
  dry : Bool := false
deriving DecidableEq, Repr

/-- `StartReconciliation` (`api/reconciliation_api.go:242-280`, `reconciliation.go:145-180`,
`database/reconciliation.go:40-57`). -/
def start (s : Sys) (q : StartReq) (id : Text) (now : Nat) : Sys × Except Resp Text :=
  if q.rules = [] then (s, .error (respondCode "RECON_MATCHING_RULES_REQUIRED" (t! "matching_rule_ids is required")))
  else if clean q.upload then
    ({ s with recons := s.recons ++ [{ id := id, upload := q.upload, status := .started, started := now }],
              jobs := s.jobs ++ [{ recon := id, upload := q.upload, strategy := q.strategy, rules := q.rules, dry := q.dry }] }, .ok id)
  else (s, .error (respondError { default := some "RECON_START_FAILED", fallback := some (t! "Failed to start reconciliation") }
      (api "INTERNAL_SERVER_ERROR" (t! "Failed to record reconciliation") none)))

/-- `UPDATE blnk.reconciliations` (`database/reconciliation.go:100-125`). -/
def setStatus (id : Text) (st : Status) (m u now : Nat) (r : ReconRow) : ReconRow :=
  if r.id = id then { r with status := st, matched := m, unmatched := u, completed := if st = .completed then some now else none } else r

/-- The statement, and whether the caller sees an error. -/
def update (s : Sys) (id : Text) (st : Status) (m u now : Nat) : Reply → Sys × Bool
  | .done => ({ s with recons := s.recons.map (setStatus id st m u now) }, false)
  | .refused => (s, true)
  | .lost => ({ s with recons := s.recons.map (setStatus id st m u now) }, true)

/-- `RecordExternalTransaction` (`database/reconciliation.go:349-364`): ids are unique over all uploads. -/
def storeExt (s : Sys) (upload : Text) (e : Ext) : Option Sys :=
  if e.fits && !s.exts.any (fun x => x.2.id = e.id) then some { s with exts := s.exts ++ [(upload, e)] } else none

/-- The loop of `StartInstantReconciliation` (`reconciliation.go:218-229`): the records stored, and
whether all were. -/
def storeAll (s : Sys) (upload : Text) : List Ext → Sys × Bool
  | [] => (s, true)
  | e :: es => match storeExt s upload e with
    | some s' => storeAll s' upload es
    | none => (s, false)

/-- A request for an instant reconciliation (`api/reconciliation_api.go:294-300`). -/
structure InstantReq where
  exts : List Ext
  strategy : Text
  rules : List Text
  dry : Bool := false
deriving DecidableEq, Repr

/-- `MaxInstantReconciliationItems` (`api/model/transaction.go:126`). -/
def maxInstant : Nat := 10000

def instantOpts : Opts := { default := some "RECON_START_FAILED", fallback := some (t! "Failed to start instant reconciliation") }

/-- The error of a record that could not be stored: inside the branch `err` is the result of the status
update, not the error of the record (`reconciliation.go:219-228`). -/
def storeErr (late : Bool) : Err :=
  if late then wrap (t! "failed to store external transaction: ") (api "INTERNAL_SERVER_ERROR" (t! "Failed to update reconciliation status") none)
  else plain (t! "failed to store external transaction: %!w(<nil>)")

/-- `InstantReconciliation` (`api/reconciliation_api.go:293-340`, `reconciliation.go:194-249`).
`r` is how the status update after a failure ends. -/
def instant (s : Sys) (q : InstantReq) (id upload : Text) (now : Nat) (r : Reply) : Sys × Except Resp Text :=
  if q.exts = [] then (s, .error (respondCode "RECON_EXTERNAL_TXNS_REQUIRED" (t! "external_transactions is required")))
  else if maxInstant < q.exts.length then
    (s, .error (respondCode "GEN_VALIDATION_ERROR" (t! "too many external_transactions; max is 10000")))
  else if q.rules = [] then (s, .error (respondCode "RECON_MATCHING_RULES_REQUIRED" (t! "matching_rule_ids is required")))
  else
    let s1 := { s with recons := s.recons ++ [{ id := id, upload := upload, status := .started, started := now }] }
    match storeAll s1 upload q.exts with
    | (s2, true) =>
      ({ s2 with jobs := s2.jobs ++ [{ recon := id, upload := upload, strategy := q.strategy, rules := q.rules, dry := q.dry }] }, .ok id)
    | (s2, false) =>
      let (s3, late) := update s2 id .failed 0 0 now r
      (s3, .error (respondError instantOpts (storeErr late)))

/-- The scan into a new `model.Reconciliation` (`database/reconciliation.go:69-79`). -/
def view (r : ReconRow) : ReconView :=
  { id := r.id, upload := r.upload, status := r.status, matched := r.matched, unmatched := r.unmatched, dry := false,
    started := r.started, completed := r.completed }

/-- The error for a reconciliation that is not there (`reconciliation.go:258-265`, `database/reconciliation.go:81-83`). -/
def noRecon (id : Text) : Err :=
  wrap (t! "failed to retrieve reconciliation: ") (api "NOT_FOUND" (t! "Reconciliation with ID '" ++ id ++ t! "' not found") none)

/-- `GetReconciliation` (`api/reconciliation_api.go:352-372`). -/
def get (s : Sys) (id : Text) : Except Resp ReconView :=
  match s.recons.find? fun r => r.id = id with
  | some r => .ok (view r)
  | none => match classifyMessage (noRecon id).text with
    | some c => if statusForCode c = 404 then .error (respondCode "RECON_NOT_FOUND" (t! "Reconciliation not found"))
      else .error (respondCode "GEN_INTERNAL" (t! "Failed to retrieve reconciliation"))
    | none => .error (respondCode "GEN_INTERNAL" (t! "Failed to retrieve reconciliation"))

/-! ### Runs -/

/-- `getMatchingRules` (`reconciliation.go:1360-1370`): all of them, or an error. -/
def loadRules (s : Sys) : List Text → Option (List RuleRow)
  | [] => some []
  | i :: is => match findRule s i with
    | none => none
    | some r => (loadRules s is).map (r :: ·)

/-- The strategies there are (`createReconciler`, `reconciliation.go:406-423`). -/
def strategies : List Text := [t! "one_to_one", t! "one_to_many", t! "many_to_one"]

/-- What a run can find: with another strategy nothing (`reconciliation.go:418-420`), nor without a
record to look at, unless it looks at internal transactions (`reconciliation.go:544-584`). -/
def found (s : Sys) (j : Job) (m u : Nat) : Nat × Nat :=
  if j.strategy = t! "many_to_one" then (m, u)
  else if strategies.contains j.strategy && s.exts.any (fun x => x.1 = j.upload) then (m, u)
  else (0, 0)

def setJob (s : Sys) (k : Nat) (p : Phase) : Sys :=
  { s with jobs := s.jobs.modify k fun j => { j with phase := p } }

/-- What happens. -/
inductive Ev
  | create (b : Body) (id : Text) (now : Nat)
  | update (id : Text) (b : Body) (now : Nat)
  | delete (id : Text)
  | start (q : StartReq) (id : Text) (now : Nat)
  | instant (q : InstantReq) (id upload : Text) (now : Nat) (r : Reply)
  /-- a record of an upload is stored (`reconciliation.go:113-115`) -/
  | uploaded (upload : Text) (x : Ext)
  /-- run `k` sets its status -/
  | begin (k : Nat) (r : Reply)
  /-- run `k` reads its rules -/
  | load (k : Nat)
  /-- run `k` has found `m` matched and `u` unmatched and records it -/
  | finish (k m u now : Nat) (r : Reply)
  /-- run `k` meets an error -/
  | fail (k : Nat)
  /-- run `k` records that it failed -/
  | giveUp (k : Nat) (r : Reply)
  /-- the server stops; its runs are gone -/
  | crash
deriving DecidableEq, Repr

/-- A step (`reconciliation.go:334-369` for the runs). -/
def step (s : Sys) : Ev → Sys
  | .create b id now => (createRule s b id now).1
  | .update id b now => (updateRule s id b now).1
  | .delete id => (deleteRule s id).1
  | .start q id now => (start s q id now).1
  | .instant q id upload now r => (instant s q id upload now r).1
  | .uploaded up x => match storeExt s up x with
    | some s' => s'
    | none => s
  | .begin k r => match s.jobs[k]? with
    | some ⟨id, _, _, _, _, .waiting⟩ =>
      let (s', e) := update s id .inProgress 0 0 0 r
      setJob s' k (if e then .failing else .begun)
    | _ => s
  | .load k => match s.jobs[k]? with
    | some ⟨_, _, _, is, _, .begun⟩ => match loadRules s is with
      | some rs => setJob s k (.working rs)
      | none => setJob s k .failing
    | _ => s
  | .finish k m u now r => match s.jobs[k]? with
    | some ⟨id, up, st, is, dry, .working rs⟩ =>
      let (m', u') := found s ⟨id, up, st, is, dry, .working rs⟩ m u
      let (s', e) := update s id .completed m' u' now r
      setJob s' k (if e then .failing else .over)
    | _ => s
  | .fail k => match s.jobs[k]? with
    | some ⟨_, _, _, _, _, .working _⟩ => setJob s k .failing
    | _ => s
  | .giveUp k r => match s.jobs[k]? with
    | some ⟨id, _, _, _, _, .failing⟩ => setJob (update s id .failed 0 0 0 r).1 k .over
    | _ => s
  | .crash => { s with jobs := s.jobs.map fun j => { j with phase := .over } }

def run (s : Sys) : List Ev → Sys
  | [] => s
  | e :: es => run (step s e) es

end Blnk.Rules
