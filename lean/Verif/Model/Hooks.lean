import Verif.Model.Auth
/-
Transaction hooks: registration, change and removal in Redis, firing for transactions, the
worker that calls the receivers (`internal/hooks/*.go`, `api/hooks.go`).

Every Redis command is a step of its own, and the requests, the transactions that fire hooks
and the workers overlap in any order. A command can fail without effect, take effect and be
reported as failed, or its process can stop.

Simplifications: a hook's name is left out. Times are a counter. `json.Marshal` of a hook
never fails and reading it back gives the hook. Signatures are in `Model/Webhooks.lean`.
-/
namespace Blnk.Hooks

/-! ### Hooks -/

/-- `HookType` (`internal/hooks/types.go:28-34`). -/
def preType : String := "PRE_TRANSACTION"
def postType : String := "POST_TRANSACTION"

/-- `Hook` (`internal/hooks/types.go:37-48`). -/
structure Hook where
  id : String
  url : String
  typ : String
  active : Bool := true
  timeout : Int := 30
  retry : Int := 3
  created : Nat := 0
  lastRun : Nat := 0
  lastOk : Bool := false
deriving DecidableEq, Repr

/-- `validateHook` (`internal/hooks/manager.go:385-402`). -/
def validate (h : Hook) : Option Hook :=
  if h.url = "" then none
  else if h.typ ≠ preType ∧ h.typ ≠ postType then none
  else some { h with
    timeout := if h.timeout ≤ 0 then 30 else h.timeout
    retry := if h.retry < 0 then 3 else if 10 < h.retry then 10 else h.retry }

/-- `getTypeKey` (`internal/hooks/manager.go:411-420`). -/
def typeKey (t : String) : String :=
  if t = preType then "hooks:pre" else if t = postType then "hooks:post" else "hooks:"

/-- What a transaction, or a coalesced batch, fires: `ExecutePreHooks`/`ExecutePostHooks`
(`internal/hooks/manager.go:270-296`) for one, `listHooksForExecution` and then `ExecuteHooks` for each
(`transaction_coalescing.go:185,249`, `transaction_execution.go:581`) for a batch. `txns` are
ids and the marshalled transactions. -/
structure Fire where
  pre : Bool
  txns : List (String × String)
deriving DecidableEq, Repr

/-- The `HookType` asked for. -/
def Fire.stage (f : Fire) : String := if f.pre then preType else postType

/-- What a request or a transaction still has to do. -/
inductive Proc
  /-- `RegisterHook` (`internal/hooks/manager.go:80-110`): `SET`, then `SADD`. -/
  | regSet (h : Hook)
  | regAdd (h : Hook)
  /-- `UpdateHook` (`internal/hooks/manager.go:123-155`): `GET`; `SREM` and `SADD` if the type differs; `SET`. -/
  | updGet (id : String) (h : Hook)
  | updRem (old : String) (h : Hook)
  | updAdd (h : Hook)
  | updSet (h : Hook)
  /-- `DeleteHook` (`internal/hooks/manager.go:167-182`): `GET`; `DEL` and `SREM` in one pipeline, which other
  clients' commands can come between. -/
  | delGet (id : String)
  | delDel (id typ : String)
  | delRem (id typ : String)
  /-- `ListHooks` (`internal/hooks/manager.go:223-258`): `SMEMBERS`, then a `GET` for each. -/
  | fireList (f : Fire)
  | fireGet (f : Fire) (ids : List String) (acc : List Hook)
  /-- `ExecuteHooks` (`internal/hooks/manager.go:309-335`): one task for each active hook. -/
  | fireQueue (work : List (Hook × String × String × String))
  | idle
deriving DecidableEq, Repr

/-- Where a task is. `called ok` has the receiver's answer, but its outcome is not written
back yet. -/
inductive TSt
  | waiting | calling | called (ok : Bool) | done | dead
deriving DecidableEq, Repr

/-- A task of `queueHook` (`internal/hooks/manager.go:346-375`): the hook as it was then, stage, transaction
and data. `tries` counts the attempts that are over. -/
structure Task where
  hook : Hook
  stage : String
  txn : String
  data : String
  st : TSt := .waiting
  tries : Nat := 0
deriving DecidableEq, Repr

/-- A request the receiver got (`internal/hooks/client.go:84-95`); `typ` is the `X-Hook-Type` header, `task`
the number of the task. -/
structure Call where
  task : Nat
  hook : String
  url : String
  typ : String
  stage : String
  txn : String
  data : String
deriving DecidableEq, Repr

/-- Successful answers of the API. -/
inductive Ack
  | registered (h : Hook) | updated (h : Hook) | deleted (id : String)
deriving DecidableEq, Repr

structure Sys where
  store : String → Option Hook := fun _ => none
  sets : String → List String := fun _ => []
  procs : List Proc := []
  tasks : List Task := []
  calls : List Call := []
  acks : List Ack := []
  now : Nat := 0

/-- What a command does: it works, fails without effect, takes effect and is reported as
failed, or the process stops before it. -/
inductive Out
  | ok | err | lost | crash
deriving DecidableEq, Repr

def Sys.put (s : Sys) (h : Hook) : Sys :=
  { s with store := fun k => if k = h.id then some h else s.store k }

def Sys.del (s : Sys) (id : String) : Sys :=
  { s with store := fun k => if k = id then none else s.store k }

def Sys.sadd (s : Sys) (key id : String) : Sys :=
  { s with sets := fun k => if k = key then (if id ∈ s.sets k then s.sets k else s.sets k ++ [id]) else s.sets k }

def Sys.srem (s : Sys) (key id : String) : Sys :=
  { s with sets := fun k => if k = key then (s.sets k).filter (· ≠ id) else s.sets k }

def Sys.ack (s : Sys) (a : Ack) : Sys := { s with acks := s.acks ++ [a] }

/-- Add a task. -/
def Sys.enqueue (s : Sys) (w : Hook × String × String × String) : Sys :=
  { s with tasks := s.tasks ++ [{ hook := w.1, stage := w.2.1, txn := w.2.2.1, data := w.2.2.2 }] }

/-- The tasks a list of hooks makes. -/
def jobs (f : Fire) (hs : List Hook) : List (Hook × String × String × String) :=
  f.txns.flatMap fun x => (hs.filter Hook.active).map fun h => (h, f.stage, x.1, x.2)

/-- The result of a writing command: what becomes of the state and what the process does
next. -/
def write (o : Out) (s s' : Sys) (next : Sys → Sys × Proc) : Sys × Proc :=
  match o with
  | .ok => next s'
  | .err => (s, .idle)
  | .lost => (s', .idle)
  | .crash => (s, .idle)

/-- The hook `UpdateHook` stores (`internal/hooks/manager.go:128-131`). -/
def merged (old h : Hook) : Hook :=
  { h with id := old.id, created := old.created, lastRun := old.lastRun, lastOk := old.lastOk }

/-- The next command of a process. -/
def advance (s : Sys) (o : Out) : Proc → Sys × Proc
  | .regSet h => write o s (s.put h) fun s => (s, .regAdd h)
  | .regAdd h => write o s (s.sadd (typeKey h.typ) h.id) fun s => (s.ack (.registered h), .idle)
  | .updGet id h =>
    if o = .ok then
      match s.store id with
      | none => (s, .idle)
      | some old => (s, if old.typ ≠ h.typ then .updRem old.typ (merged old h) else .updSet (merged old h))
    else (s, .idle)
  | .updRem old h => write o s (s.srem (typeKey old) h.id) fun s => (s, .updAdd h)
  | .updAdd h => write o s (s.sadd (typeKey h.typ) h.id) fun s => (s, .updSet h)
  | .updSet h => write o s (s.put h) fun s => (s.ack (.updated h), .idle)
  | .delGet id =>
    if o = .ok then
      match s.store id with
      | none => (s, .idle)
      | some h => (s, .delDel id h.typ)
    else (s, .idle)
  | .delDel id typ =>
    -- a pipeline that breaks off stops there
    match o with
    | .ok => (s.del id, .delRem id typ)
    | .lost => (s.del id, .idle)
    | _ => (s, .idle)
  | .delRem id typ => write o s (s.srem (typeKey typ) id) fun s => (s.ack (.deleted id), .idle)
  | .fireList f => if o = .ok then (s, .fireGet f (s.sets (typeKey f.stage)) []) else (s, .idle)
  | .fireGet f [] acc => if o = .crash then (s, .idle) else (s, .fireQueue (jobs f acc))
  | .fireGet f (id :: ids) acc =>
    if o = .crash then (s, .idle)
    else match (if o = .ok then s.store id else none) with
      | some h => (s, .fireGet f ids (acc ++ [h]))
      | none => (s, .fireGet f ids acc)
  | .fireQueue [] => (s, .idle)
  | .fireQueue (w :: ws) =>
    match o with
    | .crash => (s, .idle)
    | .err => (s, .fireQueue ws)
    | _ => (s.enqueue w, .fireQueue ws)
  | .idle => (s, .idle)

/-! ### The worker -/

/-- A response body: nothing, not JSON, JSON that does not decode as a `HookResponse`, or one
that does, with its `success` (false if it is missing). -/
inductive Body
  | empty | text | odd | json (success : Bool)
deriving DecidableEq, Repr

structure Resp where
  status : Nat
  body : Body
deriving DecidableEq, Repr

/-- Whether an answer counts as success (`internal/hooks/client.go:118-205`). -/
def Resp.accepted (r : Resp) : Bool :=
  match r.body with
  | .empty => 200 ≤ r.status && r.status < 300
  | .text => (200 ≤ r.status && r.status < 300) || r.status < 400
  | .odd => r.status < 400
  | .json ok => ok

/-- What comes of a call: it is not sent, it is received and the answer is lost, or it is
answered. -/
inductive Answer
  | unsent | unheard | heard (r : Resp)
deriving DecidableEq, Repr

/-- `executeHook` up to the answer (`internal/hooks/client.go:51-110`). With no time the context is over
before anything is sent (`internal/hooks/worker.go:46`). -/
def callTask (s : Sys) (k : Nat) (t : Task) (a : Answer) : Sys :=
  let a := if t.hook.timeout ≤ 0 then .unsent else a
  { s with
    tasks := s.tasks.set k { t with st := .called (match a with | .heard r => r.accepted | _ => false) }
    calls := if a = .unsent then s.calls
      else s.calls ++ [{ task := k, hook := t.hook.id, url := t.hook.url, typ := t.hook.typ, stage := t.stage,
                         txn := t.txn, data := t.data }] }

/-- `asynq.MaxRetry` with a negative number is zero retries. -/
def Task.max (t : Task) : Nat := t.hook.retry.toNat

/-- An attempt is over: asynq drops the task, tries it again or archives it. -/
def Task.over (t : Task) (ok : Bool) : Task :=
  { t with tries := t.tries + 1, st := if ok then .done else if t.max ≤ t.tries then .dead else .waiting }

/-- `updateHookStatus` (`internal/hooks/client.go:208-232`) and the end of the attempt: the hook as the task
has it is stored, with the time and the outcome. Its failure is ignored. A worker that stops
loses its lease, and asynq counts that as a failed attempt. -/
def report (s : Sys) (o : Out) (k : Nat) (t : Task) (ok : Bool) : Sys :=
  let s' := if o = .ok ∨ o = .lost then s.put { t.hook with lastRun := s.now, lastOk := ok } else s
  { s' with tasks := s'.tasks.set k (t.over (ok && o ≠ .crash)) }

/-! ### Histories -/

/-- What a client of the API, or a transaction, can ask for. The id of a registration is the
client's, or a new one (`internal/hooks/manager.go:80-82`). -/
inductive Req
  | register (h : Hook)
  | update (id : String) (h : Hook)
  | delete (id : String)
  | fire (f : Fire)
deriving DecidableEq, Repr

def Req.start (now : Nat) : Req → Proc
  | .register h => match validate { h with created := now } with
    | none => .idle
    | some h => .regSet h
  | .update id h => .updGet id h
  | .delete id => .delGet id
  | .fire f => .fireList f

inductive Ev
  | ask (r : Req)
  /-- Process `i` goes on. -/
  | go (i : Nat) (o : Out)
  /-- A worker takes task `k`. -/
  | take (k : Nat)
  | call (k : Nat) (a : Answer)
  | report (k : Nat) (o : Out)
  | tick
deriving DecidableEq, Repr

def hstep (s : Sys) : Ev → Sys
  | .ask r => { s with procs := s.procs ++ [r.start s.now] }
  | .go i o =>
    match s.procs[i]? with
    | none => s
    | some p => let r := advance s o p; { r.1 with procs := r.1.procs.set i r.2 }
  | .take k =>
    match s.tasks[k]? with
    | some t => if t.st = .waiting then { s with tasks := s.tasks.set k { t with st := .calling } } else s
    | none => s
  | .call k a =>
    match s.tasks[k]? with
    | some t => if t.st = .calling then callTask s k t a else s
    | none => s
  | .report k o =>
    match s.tasks[k]? with
    | some t =>
      match t.st with
      | .called ok => Hooks.report s o k t ok
      | .calling => if o = .crash then { s with tasks := s.tasks.set k (t.over false) } else s
      | _ => s
    | none => s
  | .tick => { s with now := s.now + 1 }

def hsteps (s : Sys) : List Ev → Sys
  | [] => s
  | e :: es => hsteps (hstep s e) es

/-- `GetHook` (`internal/hooks/manager.go:194-210`). -/
def Sys.get (s : Sys) (id : String) : Option Hook := s.store id

/-- `ListHooks` of a type, undisturbed (`internal/hooks/manager.go:243-257`). -/
def Sys.list (s : Sys) (typ : String) : List Hook := (s.sets (typeKey typ)).filterMap s.store

end Blnk.Hooks
