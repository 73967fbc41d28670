import Verif.Model.Errors
/-
How the configured address of Redis is read (`ParseRedisURL`, `NewRedisClient`,
`internal/redis-db/redisdb.go:43-185`).

`redis.ParseURL` is a function of a library. The model takes any function in its place; `goParse` is a
small version of it for the concrete cases: the part after `#` is cut off, the scheme is `redis` or
`rediss`, the text before the last `@` of the authority is the user and the password and may only have
the characters net/url allows there, and what follows the last `:` of the host is a number. The path
(number of the database), the query, `%` escapes, unix sockets and default ports are left out.
-/
namespace Blnk.RedisAddr

abbrev Str := List Char

/-- What is used of `redis.Options`. -/
structure Opts where
  addr : Str
  user : Str := []
  password : Str := []
  tls : Bool := false
  verify : Bool := true
deriving DecidableEq, Repr

def count (c : Char) (s : Str) : Nat := (s.filter (· = c)).length

/-- `strings.Contains`. -/
def contains (p : Str) : Str → Bool
  | [] => p.isEmpty
  | c :: s => p.isPrefixOf (c :: s) || contains p s

/-- The text before and after the first `c`. -/
def cut (c : Char) (s : Str) : Str × Str := (s.takeWhile (· ≠ c), (s.dropWhile (· ≠ c)).drop 1)

/-- `strings.TrimPrefix`. -/
def trimPrefix (p s : Str) : Str := if p.isPrefixOf s then s.drop p.length else s

/-- An address that is only a host and a port (`internal/redis-db/redisdb.go:47`). -/
def plain (raw : Str) : Bool := count ':' raw = 1 && !('@' ∈ raw) && !contains (t! "//") raw

/-- A password alone is put behind a colon (`internal/redis-db/redisdb.go:54-63`). `strings.Split` at
`@` gives two parts when there is one `@`, and at `:` one part when there is none. -/
def rewrite (raw : Str) : Str :=
  if (t! "redis://").isPrefixOf raw && count '@' raw = 1 then
    let parts := cut '@' (trimPrefix (t! "redis://") raw)
    if count ':' parts.1 = 0 then t! "redis://:" ++ parts.1 ++ '@' :: parts.2 else raw
  else raw

/-- What is made of an address the library refuses (`internal/redis-db/redisdb.go:67-93`). -/
def byHand (raw : Str) : Opts :=
  let o : Opts :=
    if count '@' raw = 1 then
      { addr := (cut '@' raw).2, password := trimPrefix (t! "redis://") (cut '@' raw).1 }
    else { addr := raw }
  { o with tls := contains (t! "redis.cache.windows.net") o.addr }

/-- What is made of an address (`internal/redis-db/redisdb.go:66-93`). -/
def readURL (parse : Str → Option Opts) (raw : Str) : Opts :=
  match parse raw with
  | some o => o
  | none => byHand raw

/-- `ParseRedisURL` (`internal/redis-db/redisdb.go:45-103`). -/
def parseRedisURL (parse : Str → Option Opts) (raw : Str) (skip : Bool) : Opts :=
  if plain raw then { addr := raw }
  else
    let o := readURL parse (rewrite raw)
    if o.tls && skip then { o with verify := false } else o

/-- What is used of `redis.UniversalOptions`. -/
structure Cluster where
  addrs : List Str
  password : Str := []
  tls : Bool := false
  verify : Bool := true
deriving DecidableEq, Repr

/-- `NewRedisClient` with several addresses (`internal/redis-db/redisdb.go:149-184`): the password is
the first one there is, and neither users nor numbers of databases are used. -/
def cluster (parse : Str → Option Opts) (raws : List Str) (skip : Bool) : Cluster :=
  let os := raws.map (fun r => parseRedisURL parse r skip)
  { addrs := os.map Opts.addr
    password := ((os.map Opts.password).find? (· ≠ [])).getD []
    tls := os.any Opts.tls
    verify := !(os.any Opts.tls && skip) }

/-! ### A small version of the library function -/

/-- Characters of a user or password (net/url `validUserinfo`). -/
def userChar (c : Char) : Bool := c.isAlphanum || c ∈ t! "-._:~!$&'()*+,;=%@"

/-- The text before and after the last `c`, if there is one. -/
def cutLast (c : Char) (s : Str) : Option (Str × Str) :=
  if c ∈ s then some ((cut c s.reverse).2.reverse, (cut c s.reverse).1.reverse) else none

def hostOk (h : Str) : Bool :=
  match cutLast ':' h with
  | some (_, port) => port.all Char.isDigit
  | none => true

def goParse (u : Str) : Option Opts :=
  let u := (cut '#' u).1
  let scheme : Option (Bool × Str) :=
    if (t! "redis://").isPrefixOf u then some (false, u.drop 8)
    else if (t! "rediss://").isPrefixOf u then some (true, u.drop 9) else none
  match scheme with
  | none => none
  | some (tls, rest) =>
    let authority := rest.takeWhile (fun c => c ≠ '/' && c ≠ '?')
    match cutLast '@' authority with
    | none => if hostOk authority then some { addr := authority, tls := tls } else none
    | some (ui, host) =>
      if ui.all userChar && hostOk host then
        some { addr := host, user := (cut ':' ui).1, password := (cut ':' ui).2, tls := tls }
      else none

end Blnk.RedisAddr
