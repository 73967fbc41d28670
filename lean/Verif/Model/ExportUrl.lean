import Verif.Model.Export
import Verif.Model.Telemetry
/-
What is left of the addresses in a log message (`absoluteURLPattern`, `redactURL`,
`internal/monitoringexporter/redact.go:33, 105, 113-129`): the step that Export takes as a parameter.

`net/url` is a parameter here: reading an address, hiding its user, hiding the values of its query and
writing it. `goLib` is a small version of it for the concrete cases.
-/
namespace Blnk.Export

open Blnk.Errs (Text has)

/-- What is used of `net/url`. -/
structure Lib where
  P : Type
  parse : Text → Option P
  /-- `parsed.User != nil` -/
  userSet : P → Bool
  /-- `parsed.User = url.User(redacted)` -/
  maskUser : P → P
  /-- `parsed.RawQuery != ""` -/
  querySet : P → Bool
  /-- every value of the query replaced -/
  maskQuery : P → P
  str : P → Text

/-- `redactURL` (`internal/monitoringexporter/redact.go:113-129`). -/
def redactURL (L : Lib) (raw : Text) : Text :=
  match L.parse raw with
  | none => redacted
  | some p =>
    let p := if L.userSet p then L.maskUser p else p
    let p := if L.querySet p then L.maskQuery p else p
    L.str p

/-- `[^\s"'<>]` -/
def urlChar (c : Char) : Bool := !ws c && c ≠ '"' && c ≠ '\'' && c ≠ '<' && c ≠ '>'

/-- `https?://` at the beginning of a text, and what follows. -/
def afterScheme (t : Text) : Option (Text × Text) :=
  if (t! "https://").isPrefixOf t then some (t! "https://", t.drop 8)
  else if (t! "http://").isPrefixOf t then some (t! "http://", t.drop 7) else none

/-- A match of `absoluteURLPattern` at the beginning of a text (`internal/monitoringexporter/redact.go:33`),
and what follows it. -/
def matchURL (t : Text) : Option (Text × Text) :=
  match afterScheme t with
  | some (s, r) => if r.takeWhile urlChar ≠ [] then some (s ++ r.takeWhile urlChar, r.dropWhile urlChar) else none
  | none => none

/-- `absoluteURLPattern.ReplaceAllStringFunc(value, f)` (`internal/monitoringexporter/redact.go:105`), with as
many steps as the text is long. -/
def replaceURLsN (f : Text → Text) : Nat → Text → Text
  | 0, _ => []
  | _, [] => []
  | n + 1, c :: t =>
    match matchURL (c :: t) with
    | some (u, rest) => f u ++ replaceURLsN f n rest
    | none => c :: replaceURLsN f n t

def urlStep (L : Lib) (t : Text) : Text := replaceURLsN (redactURL L) t.length t

/-- A small version of `net/url`, without queries; brackets are written as `%5B` and `%5D` in a user. -/
def goLib : Lib where
  P := Tele.Url
  parse := Tele.goParse
  userSet u := u.user.isSome
  maskUser u := { u with user := some (t! "%5BREDACTED%5D") }
  querySet _ := false
  maskQuery u := u
  str u := u.scheme ++ (t! "://" ++ ((match u.user with | some k => k ++ t! "@" | none => []) ++ (u.host ++ u.path)))

end Blnk.Export
