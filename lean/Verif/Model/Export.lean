import Verif.Model.Csv
/-
What leaves with the logs that are sent to remote monitoring (`internal/monitoringexporter/redact.go`,
`logs.go`).

Texts are lists of characters; lengths in bytes are lengths of these lists. `absoluteURLPattern` and
`redactURL`, which need `net/url`, are one parameter. Not modelled: trace identifiers, the HTTP request.
-/
namespace Blnk.Export

open Blnk.Errs (Text has)
open Blnk.Csv (trim lower)

/-! ### Texts -/

def redacted : Text := t! "[REDACTED]"

/-- `\s` of `regexp`. -/
def ws (c : Char) : Bool := c == ' ' || c == '\t' || c == '\n' || c == '\x0c' || c == '\r'

/-- `[^=\s&]` -/
def keyChar (c : Char) : Bool := c ≠ '=' && c ≠ '&' && !ws c

/-- `[^&\s]` -/
def valueChar (c : Char) : Bool := c ≠ '&' && !ws c

/-- A match of `[^=\s&]+=[^&\s]+` at the beginning of a text: the name and what follows the value. The
classes leave no choice, so the longest runs are the match. -/
def matchQuery (t : Text) : Option (Text × Text) :=
  let k := t.takeWhile keyChar
  match t.dropWhile keyChar with
  | '=' :: r => if k ≠ [] ∧ r.takeWhile valueChar ≠ [] then some (k, r.dropWhile valueChar) else none
  | _ => none

/-- `queryValuePattern.ReplaceAllString(value, "$1"+redacted)` (`internal/monitoringexporter/redact.go:34, 106`), with as many steps as
the text is long. -/
def redactQueryN : Nat → Text → Text
  | 0, _ => []
  | _, [] => []
  | n + 1, c :: t =>
    if c = '?' ∨ c = '&' then
      match matchQuery t with
      | some (k, rest) => c :: (k ++ (redacted ++ redactQueryN n rest))
      | none => c :: redactQueryN n t
    else c :: redactQueryN n t

def redactQuery (t : Text) : Text := redactQueryN t.length t

/-- `[0-9A-Za-z_]`, for `\b`. -/
def wordChar (c : Char) : Bool := c.isAlphanum || c == '_'

/-- `[A-Za-z0-9._~+/=-]` -/
def tokenChar (c : Char) : Bool := c.isAlphanum || c == '.' || c == '_' || c == '~' || c == '+' || c == '/' || c == '=' || c == '-'

/-- A match of `(?i)Bearer\s+[A-Za-z0-9._~+/=-]+` at the beginning of a text: what follows it. -/
def matchBearer (t : Text) : Option Text :=
  if lower (t.take 6) = t! "bearer" then
    let r := t.drop 6
    if r.takeWhile ws ≠ [] ∧ (r.dropWhile ws).takeWhile tokenChar ≠ [] then some ((r.dropWhile ws).dropWhile tokenChar) else none
  else none

/-- `bearerPattern.ReplaceAllString(value, "Bearer "+redacted)` (`internal/monitoringexporter/redact.go:35, 104`); `word` tells whether the
character before is one of a word. -/
def redactBearerN : Nat → Bool → Text → Text
  | 0, _, _ => []
  | _, _, [] => []
  | n + 1, word, c :: t =>
    if word = false then
      match matchBearer (c :: t) with
      | some rest => t! "Bearer [REDACTED]" ++ redactBearerN n false rest
      | none => c :: redactBearerN n (wordChar c) t
    else c :: redactBearerN n (wordChar c) t

def redactBearer (t : Text) : Text := redactBearerN t.length false t

/-- The replacements of `RedactString` (`internal/monitoringexporter/redact.go:104-106`). -/
def clean (urls : Text → Text) (t : Text) : Text := redactQuery (urls (redactBearer t))

/-- `RedactString` (`internal/monitoringexporter/redact.go:103-111`). -/
def redactString (urls : Text → Text) (t : Text) : Text :=
  let v := clean urls t
  if v.length ≤ 512 then v else v.take 512 ++ t! "...[truncated]"

/-! ### Values -/

/-- A value in a log entry. -/
inductive Val
  | none
  /-- numbers, flags, times: nothing to hide -/
  | plain (t : Text)
  /-- texts, errors and whatever writes itself as a text -/
  | text (t : Text)
  | list (vs : List Val)
  /-- a map whose keys are texts -/
  | map (kvs : List (Text × Val))
  /-- a struct, a pointer to one, or a map with other keys: the JSON of the entry shows its fields -/
  | struct (kvs : List (Text × Val))

/-- `sensitiveKeyParts` (`internal/monitoringexporter/redact.go:15-30`). -/
def sensitiveParts : List Text :=
  [t! "authorization", t! "token", t! "secret", t! "password", t! "api_key", t! "apikey", t! "credential", t! "dsn", t! "url", t! "uri",
   t! "endpoint", t! "callback", t! "metadata", t! "webhook"]

/-- `IsSensitiveKey` (`internal/monitoringexporter/redact.go:131-139`). -/
def sensitive (k : Text) : Bool :=
  sensitiveParts.any (fun p => has p (lower ((trim k).map (fun c => if c = '-' then '_' else c))))

mutual
/-- `RedactValue`, `redactReflectValue` (`internal/monitoringexporter/redact.go:54-101, 141-167`). -/
def redactValue (urls : Text → Text) : Val → Val
  | .none => .none
  | .plain t => .plain t
  | .text t => .text (redactString urls t)
  | .list vs => .list (redactList urls vs)
  | .map kvs => .map (redactMap urls kvs)
  | .struct kvs => .struct kvs
def redactList (urls : Text → Text) : List Val → List Val
  | [] => []
  | v :: vs => redactValue urls v :: redactList urls vs
/-- The fields of an entry are treated alike (`RedactFields`, `internal/monitoringexporter/redact.go:38-52`). -/
def redactMap (urls : Text → Text) : List (Text × Val) → List (Text × Val)
  | [] => []
  | (k, v) :: kvs => (k, if sensitive k then .text redacted else redactValue urls v) :: redactMap urls kvs
end

/-- `Fire` (`internal/monitoringexporter/logs.go:61-86`): the message and the fields that are sent. -/
def entry (urls : Text → Text) (message : Text) (fields : List (Text × Val)) : Text × List (Text × Val) :=
  (redactString urls message, redactMap urls fields)

/-! ### The hook -/

/-- A thread that logs (`Fire`, `internal/monitoringexporter/logs.go:61-86`). -/
inductive Logger
  /-- about to look whether the hook is closed -/
  | start
  /-- found it open; about to put the entry into the queue -/
  | ready
  | done
  /-- sending on a closed channel panics, also inside `select` -/
  | panicked
deriving DecidableEq, Repr

/-- The thread that shuts down (`Shutdown`, `internal/monitoringexporter/logs.go:88-92`). -/
inductive Stopper
  | idle
  /-- has set `closed`; about to close the queue -/
  | swapped
  | closedQueue
deriving DecidableEq, Repr

structure Hook where
  /-- `closed` -/
  closed : Bool := false
  /-- whether the channel is closed -/
  shut : Bool := false
  queue : List Nat := []
  sent : List Nat := []
  /-- entries dropped because the queue was full -/
  dropped : List Nat := []
  loggers : List Logger
  stopper : Stopper := .idle
deriving DecidableEq, Repr

/-- The length of the queue (`internal/monitoringexporter/logs.go:16`). -/
def queueSize : Nat := 1024

/-- A step of the hook and of those who use it; the entry of a logger is its number. -/
inductive Step : Hook → Hook → Prop
  | skip {h : Hook} {i : Nat} (hi : h.loggers[i]? = some .start) (hc : h.closed = true) : Step h { h with loggers := h.loggers.set i .done }
  | look {h : Hook} {i : Nat} (hi : h.loggers[i]? = some .start) (hc : h.closed = false) : Step h { h with loggers := h.loggers.set i .ready }
  | put {h : Hook} {i : Nat} (hi : h.loggers[i]? = some .ready) (hs : h.shut = false) (hq : h.queue.length < queueSize) :
      Step h { h with queue := h.queue ++ [i], loggers := h.loggers.set i .done }
  | drop {h : Hook} {i : Nat} (hi : h.loggers[i]? = some .ready) (hs : h.shut = false) (hq : queueSize ≤ h.queue.length) :
      Step h { h with dropped := h.dropped ++ [i], loggers := h.loggers.set i .done }
  | panic {h : Hook} {i : Nat} (hi : h.loggers[i]? = some .ready) (hs : h.shut = true) : Step h { h with loggers := h.loggers.set i .panicked }
  | swap {h : Hook} (hs : h.stopper = .idle) (hc : h.closed = false) : Step h { h with closed := true, stopper := .swapped }
  | close {h : Hook} (hs : h.stopper = .swapped) : Step h { h with shut := true, stopper := .closedQueue }
  /-- `run`, `send` (`internal/monitoringexporter/logs.go:108-138`): an entry is sent once, whatever the answer -/
  | send {h : Hook} {x : Nat} {q : List Nat} (hq : h.queue = x :: q) : Step h { h with queue := q, sent := h.sent ++ [x] }

inductive Steps : Hook → Hook → Prop
  | refl {h} : Steps h h
  | step {a b c} (hs : Steps a b) (h : Step b c) : Steps a c

def begin (n : Nat) : Hook := { loggers := List.replicate n .start }

end Blnk.Export
