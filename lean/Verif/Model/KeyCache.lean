/-
The API key cache: `database/api_key.go:124-258` over `internal/cache/cache.go`, which keeps a
shared Redis entry and one local entry per server process (`internal/cache/cache.go:83-89`). One key; other
keys with the same 16-character prefix use the same entry but never match it. From the library
go-redis/cache: `Get` tries the local entry, then Redis, and copies a Redis hit into the local
entry; `Set` writes both; `Delete` removes the Redis entry and the local entry of the calling
process only.
-/
namespace Blnk.KeyCache

/-- A cached copy: the `is_revoked` flag it carries and when it expires. -/
structure Entry where
  revoked : Bool
  exp : Nat
deriving DecidableEq, Repr

/-- A lookup between its database read and its cache write. -/
structure Lookup where
  server : Nat
  /-- the request began after the revocation was acknowledged -/
  late : Bool
  /-- the flag read from the database; `none`: not read yet -/
  got : Option Bool := none
deriving DecidableEq, Repr

/-- The system, for one key. -/
structure State where
  now : Nat := 0
  /-- the database row -/
  revoked : Bool := false
  /-- `RevokeAPIKey` has returned -/
  acked : Bool := false
  redis : Option Entry := none
  local_ : List (Nat × Entry) := []
  pending : List Lookup := []
deriving DecidableEq, Repr

/-- How long entries live: Redis 5 minutes (`database/api_key.go:178`), local 1 minute
(`internal/cache/cache.go:88`, plus up to a tenth in the library). -/
structure Ttl where
  redis : Nat
  local_ : Nat
deriving DecidableEq, Repr

/-- An answer: was the request late, and was the key accepted? -/
structure Answer where
  late : Bool
  accepted : Bool
deriving DecidableEq, Repr

/-- The local entry of a server, if still fresh. -/
def State.fresh (s : State) (server : Nat) : Option Entry :=
  ((s.local_.find? (fun p => p.1 == server)).map Prod.snd).filter (fun e => s.now < e.exp)

/-- Write the local entry of a server. -/
def setLocal (l : List (Nat × Entry)) (server : Nat) (e : Entry) : List (Nat × Entry) :=
  (server, e) :: l.filter (fun p => p.1 != server)

/-- What can happen. -/
inductive Ev
  | tick (n : Nat)
  /-- a request with the key reaches a server; the cache is consulted
  (`database/api_key.go:130-139`) -/
  | request (server : Nat)
  /-- the `i`-th pending lookup reads the row (`:142-173`) -/
  | read (i : Nat)
  /-- the `i`-th pending lookup writes the cache and answers (`:174-186`) -/
  | fill (i : Nat)
  /-- the revocation's `UPDATE` (`:222-233`) -/
  | revokeRow
  /-- the revocation's cache deletion on a server (`:243-256`), or its failure, which is only
  logged; either way the revocation is acknowledged -/
  | ack (server : Nat) (deleted : Bool)
deriving DecidableEq, Repr

/-- One step. -/
def step (t : Ttl) (s : State) : Ev → State × List Answer
  | .tick n => ({ s with now := s.now + n }, [])
  | .request v =>
    match s.fresh v with
    | some e => (s, [⟨s.acked, !e.revoked⟩])
    | none => match s.redis.filter (fun e => s.now < e.exp) with
      | some e => ({ s with local_ := setLocal s.local_ v ⟨e.revoked, s.now + t.local_⟩ }, [⟨s.acked, !e.revoked⟩])
      | none => ({ s with pending := s.pending ++ [{ server := v, late := s.acked }] }, [])
  | .read i =>
    ({ s with pending := s.pending.modify i (fun l => { l with got := some (l.got.getD s.revoked) }) }, [])
  | .fill i =>
    match s.pending[i]? with
    | some ⟨v, late, some r⟩ =>
      ({ s with redis := some ⟨r, s.now + t.redis⟩, local_ := setLocal s.local_ v ⟨r, s.now + t.local_⟩
                pending := s.pending.eraseIdx i }, [⟨late, !r⟩])
    | _ => (s, [])
  | .revokeRow => ({ s with revoked := true }, [])
  | .ack v deleted =>
    if s.revoked then
      if deleted then ({ s with acked := true, redis := none, local_ := s.local_.filter (fun p => p.1 != v) }, [])
      else ({ s with acked := true }, [])
    else (s, [])

/-- A history and its answers. -/
def run (t : Ttl) (s : State) : List Ev → State × List Answer
  | [] => (s, [])
  | e :: es =>
    let (s1, a1) := step t s e
    let (s2, a2) := run t s1 es
    (s2, a1 ++ a2)

end Blnk.KeyCache
