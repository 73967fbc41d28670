import Verif.Model.Csv
/-
Uploads by address: `downloadAndUpload` (`api/reconciliation_api.go:124-230`), the list of hosts it may
ask (`config/config.go:554-587`), and how the type of a file is found (`internal/files/files.go:64-87,
112-139, 168-226`).

Parsing of addresses (`net/url`) is a parameter. Servers are arbitrary: what one answers may depend on
how many requests were made before. Not modelled: name resolution, TLS, headers.
-/
namespace Blnk.Down

open Blnk.Errs (Text has)
open Blnk.Csv (trim lower)

/-- A parsed address; `host` is `Hostname()`, without the port. -/
structure Url where
  scheme : Text
  host : Text
  port : Text := []
  path : Text := []
deriving DecidableEq, Repr

/-- `strings.Split(s, ",")`: the pieces between commas; `cur` is the piece so far. -/
def pieces (cur : Text) : Text → List Text
  | [] => [cur]
  | c :: t => if c = ',' then cur :: pieces [] t else pieces (cur ++ [c]) t

/-- The host an entry of the list stands for (`config/config.go:567-579`); empty if it stands for none. -/
def entryHost (parse : Text → Option Url) (e : Text) : Text :=
  lower (trim (if has (t! "://") e then (match parse e with | some u => u.host | none => []) else e))

/-- `UploadDomainWhitelistHosts` (`config/config.go:554-587`). -/
def hosts (parse : Text → Option Url) (raw : Text) : List Text :=
  if trim raw = [] then []
  else ((((pieces [] (trim raw)).map trim).filter (· ≠ [])).map (entryHost parse)).filter (· ≠ []) |>.eraseDups

/-- The host of a request as it is looked up (`api/reconciliation_api.go:140, 182`). -/
def hostOf (u : Url) : Text := lower (trim u.host)

/-- `hostAllowed` (`api/reconciliation_api.go:223-230`). -/
def allowed (hs : List Text) (h : Text) : Bool := hs.any (· == h)

/-- What a server answers. -/
inductive Reply
  /-- a redirect that the client would follow -/
  | redirect (to : Url)
  /-- a status of 200 to 299 -/
  | ok (body : Text)
  /-- any other status -/
  | other
  /-- no answer in time, or no connection -/
  | failed
deriving DecidableEq, Repr

/-- The outcome of `client.Do` and of the check of the status (`api/reconciliation_api.go:190-202`). -/
inductive Got
  | body (b : Text)
  | nothing
deriving DecidableEq, Repr

/-- Whether `net/http` has a transport for the address. -/
def web (u : Url) : Bool := lower u.scheme == t! "http" || lower u.scheme == t! "https"

/-- `client.Do` from request number `n` on (`api/reconciliation_api.go:177-190`): the addresses that were
contacted and the outcome. A redirect that is not followed is the answer itself, which has another status.
The time allowed may be over after any request. -/
inductive Fetch (hs : List Text) (world : Nat → Url → Reply) : Nat → Url → List Url → Got → Prop
  | body {n u b} (h : world n u = .ok b) : Fetch hs world n u [u] (.body b)
  | other {n u} (h : world n u = .other) : Fetch hs world n u [u] .nothing
  | failed {n u} : Fetch hs world n u [u] .nothing
  | stop {n u v} (h : world n u = .redirect v) (hv : hostOf v = [] ∨ allowed hs (hostOf v) = false) : Fetch hs world n u [u] .nothing
  | noTransport {n u v} (h : world n u = .redirect v) (hw : web v = false) : Fetch hs world n u [u] .nothing
  | follow {n u v us g} (h : world n u = .redirect v) (h1 : hostOf v ≠ []) (h2 : allowed hs (hostOf v) = true) (hw : web v = true)
      (hf : Fetch hs world (n + 1) v us g) : Fetch hs world n u (u :: us) g

/-- The checks before the first request (`api/reconciliation_api.go:127-151`): the address or the error code. -/
def check (parse : Text → Option Url) (raw : Text) (address : Text) : Except String Url :=
  match parse address with
  | none => .error "RECON_UPLOAD_URL_INVALID"
  | some u =>
    if web u = false then .error "RECON_UPLOAD_URL_INVALID"
    else if hostOf u = [] then .error "RECON_UPLOAD_URL_INVALID"
    else if allowed (hosts parse raw) (hostOf u) = false then .error "RECON_UPLOAD_HOST_NOT_ALLOWED"
    else .ok u

/-- `path.Base(u.Path)` and what replaces an empty one (`api/reconciliation_api.go:155-158`): the last element of
the path. -/
def baseName (p : Text) : Text :=
  let q := (p.reverse.dropWhile (· == '/')).takeWhile (· ≠ '/')
  if q = [] ∨ q = ['.'] then t! "download" else q.reverse

/-- `io.LimitReader(resp.Body, limit+1)` (`api/reconciliation_api.go:206-210`). -/
def cut (limit : Nat) (body : Text) : Text := body.take (limit + 1)

/-! ### The type of a file -/

/-- Bytes that do not occur in texts, for `http.DetectContentType`. -/
def binary (c : Char) : Bool :=
  c.toNat ≤ 8 || c.toNat == 11 || (14 ≤ c.toNat && c.toNat ≤ 26) || (28 ≤ c.toNat && c.toNat ≤ 31)

structure Types where
  /-- `mime.TypeByExtension` for the extension of a name: the built-in table and what the system adds -/
  byName : Text → Option String
  /-- the signatures of `http.DetectContentType` for pictures, archives, HTML and so on -/
  signature : Text → Option String
  /-- `json.Valid` -/
  json : Text → Bool

/-- The first 512 bytes, in a buffer of zeros (`internal/files/files.go:113-114`). -/
def header (t : Text) : Text := t.take 512 ++ List.replicate (512 - t.length) '\x00'

def count (c : Char) (l : Text) : Nat := l.count c

/-- `bytes.Split(data, "\n")`. -/
def splitLines (cur : Text) : Text → List Text
  | [] => [cur]
  | c :: t => if c = '\n' then cur :: splitLines [] t else splitLines (cur ++ [c]) t

/-- `LooksLikeCSV` (`internal/files/files.go:203-226`). -/
def looksLikeCsv (data : Text) : Bool :=
  match splitLines [] data with
  | first :: rest =>
    rest ≠ [] && (rest.take 4).all (fun l => l.isEmpty || count ',' l == count ',' first) && decide (1 < count ',' first + 1)
  | [] => false

/-- `http.DetectContentType`: the signatures first, then text, then anything. -/
def sniff (ty : Types) (data : Text) : String :=
  match ty.signature data with
  | some s => s
  | none => if data.any binary then "application/octet-stream" else "text/plain; charset=utf-8"

/-- `DetectByContent`, `AnalyzeTextContent` (`internal/files/files.go:180-201`). -/
def byContent (ty : Types) (data : Text) : String :=
  let m := sniff ty data
  if m = "application/octet-stream" ∨ m = "text/plain" then
    if looksLikeCsv data then "text/csv" else if ty.json data then "application/json" else "text/plain"
  else if m = "text/csv; charset=utf-8" then "text/csv"
  else m

/-- `DetectFileType` (`internal/files/files.go:168-173`). -/
def fileType (ty : Types) (name t : Text) : String :=
  match ty.byName name with
  | some m => m
  | none => byContent ty (header t)

/-- Which reader the file is given to (`parseAndStoreData`, `internal/files/files.go:130-139`). -/
inductive Reader
  | csv | json | none
deriving DecidableEq, Repr

def reader (ty : Types) (name t : Text) : Reader :=
  let m := fileType ty name t
  if m = "text/csv" ∨ m = "text/csv; charset=utf-8" then .csv
  else if m = "application/json" then .json
  else .none

/-- The rows of a downloaded CSV file that reach the workers, or nothing if the file is refused. -/
def csvLines (limit : Nat) (body : Text) : Option (List Upload.Line) := Csv.lines (cut limit body)

end Blnk.Down
