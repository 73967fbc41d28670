import Verif.Model.Auth
import Verif.Model.Hooks
/-
Who may manage hooks: the check of keys (`Model/Auth`) in front of the hook handlers, which ask for the
master key (`api/hooks.go:23-121`), in front of the hook manager and its worker (`Model/Hooks`).

Refused requests have no effect; their answers are not modelled here, and neither is reading hooks.
-/
namespace Blnk.HookAdmin
open Blnk.Hooks (Sys Req hstep)

inductive Ev
  /-- a request to `/hooks`, under the settings of that moment -/
  | http (cfg : Option Auth.Cfg) (lookup : String → Option Auth.Key) (now : Nat) (a : Auth.Req) (r : Req)
  /-- a transaction fires hooks (`internal/hooks/manager.go:271-297`) -/
  | fire (f : Hooks.Fire)
  /-- a process or a worker goes on -/
  | go (i : Nat) (o : Hooks.Out)
  | take (k : Nat)
  | call (k : Nat) (a : Hooks.Answer)
  | report (k : Nat) (o : Hooks.Out)
  | tick

/-- `ensureHookManagementAuthorized` (`api/hooks.go:23-36`): only a request whose key was found to be the
master key has `isMasterKey` (`api/middleware/auth.go:228-235`). -/
def allowed (d : Auth.Decision) : Bool := d.caller = .master

/-- Of the requests only those that manage hooks come in by HTTP. -/
def manages : Req → Bool
  | .fire _ => false
  | _ => true

def step (s : Sys) : Ev → Sys
  | .http cfg lookup now a r =>
    if manages r && allowed (Auth.authenticate cfg lookup now a) then hstep s (.ask r) else s
  | .fire f => hstep s (.ask (.fire f))
  | .go i o => hstep s (.go i o)
  | .take k => hstep s (.take k)
  | .call k a => hstep s (.call k a)
  | .report k o => hstep s (.report k o)
  | .tick => hstep s .tick

def run (s : Sys) : List Ev → Sys
  | [] => s
  | e :: es => run (step s e) es

end Blnk.HookAdmin
