import Verif.Model.Search
/-
Rebuilding the search index: `internal/search/reindex.go`, the requests that start it
(`api/reindex.go:53-117`) and the check at server start (`internal/search/reindex.go:540-620`,
`cmd/server.go:382-387`).

Simplifications: of a record only its id, its creation time and a version (counting its changes)
are kept; a document holds the version it was made from. Texts of errors are reduced to the record
they name. A server short of memory only delays a step (`retryWithMemoryBackpressure`,
`internal/search/reindex.go:223-241`): the event `memory` changes nothing; `stop` stands for an error of the database,
of a drop or a create, and for a cancelled context. Requests are those of one server process.
-/
namespace Blnk.Reidx
open Srch (Coll)

/-- A record, or the document made from it. -/
structure Row where
  id : String
  born : Int
  ver : Nat
deriving DecidableEq, Repr

abbrev Item := Coll × Row

def key (x : Item) : Coll × String := (x.1, x.2.id)

/-- Upserting a document (`internal/search/search.go:413-440`). -/
def store (l : List Item) (x : Item) : List Item := x :: l.filter (fun y => key y != key x)

/-- The rows of a collection. -/
def table (rows : List Item) (c : Coll) : List Row := (rows.filter (fun x => x.1 == c)).map (·.2)

/-- The rows one query returns at most: `GetAllLedgers` (`database/ledger.go:85-87`) and
`GetAllIdentitiesPaginated` (`database/identity.go:340-342`) take 20 for more than 100. -/
def limit (c : Coll) (batch : Nat) : Nat :=
  if (c = .ledgers ∨ c = .identities) ∧ (batch = 0 ∨ 100 < batch) then 20 else batch

/-- A possible answer order of `ORDER BY created_at DESC`: rows of equal time come in any order. -/
def ordered (order tbl : List Row) : Bool := order.isPerm tbl && decide (order.Pairwise (fun a b => b.born ≤ a.born))

inductive Ph
  | pending | drop (left : List Coll) | create | index (c : Coll) | done | failed
deriving DecidableEq, Repr

/-- `StartReindex` (`internal/search/reindex.go:119-170`): what follows a collection. -/
def Ph.next : Coll → Ph
  | .ledgers => .index .identities
  | .identities => .index .balances
  | .balances => .index .transactions
  | _ => .done

/-- `DropAllCollections` (`internal/search/reindex.go:521-538`). -/
def allColls : List Coll := [.ledgers, .identities, .balances, .transactions, .reconciliations]

/-- A rebuild: `ReindexService` and the local variables of its loops. `offset` is counted up when
the page is read. `written` counts the documents written; the code has no such variable. -/
structure Job where
  batch : Nat
  ph : Ph := .pending
  offset : Nat := 0
  page : List Row := []
  total : Nat := 0
  processed : Nat := 0
  all : Nat := 0
  errors : List (Coll × String) := []
  written : Nat := 0
deriving DecidableEq, Repr

/-- The status "in_progress". -/
def Job.running (j : Job) : Bool :=
  match j.ph with
  | .drop _ | .create | .index _ => true
  | _ => false

/-- `NewReindexService` (`internal/search/reindex.go:64-80`). -/
def Job.new (batch : Nat) : Job := { batch := if batch = 0 then 1000 else batch }

structure Sys where
  rows : List Item := []
  idx : List Item := []
  jobs : List Job := []
  cur : Option Nat := none
deriving DecidableEq, Repr

/-- `dbHasData` (`internal/search/reindex.go:540-574`). -/
def Sys.dbHasData (s : Sys) : Bool :=
  decide (1 < (table s.rows .ledgers).length) || !(table s.rows .transactions).isEmpty ||
  !(table s.rows .balances).isEmpty || !(table s.rows .identities).isEmpty

/-- `typesenseHasData` (`internal/search/reindex.go:576-586`). -/
def Sys.indexHasData (s : Sys) : Bool := !(table s.idx .transactions).isEmpty

inductive JEv
  | begin | drop | create (now : Int) | page (order : List Row) | put (ok : Bool) | memory | stop
deriving DecidableEq, Repr

/-- Beginning a collection: `indexLedgers` sets the counts to zero (`internal/search/reindex.go:283`), the others
keep them. -/
def Job.enter (j : Job) (ph : Ph) : Job := { j with ph := ph, offset := 0, page := [], total := 0 }

/-- The counts after a page: `internal/search/reindex.go:320` for ledgers, `370-373` and alike for the others. -/
def Job.counted (j : Job) (c : Coll) : Job :=
  if c = .ledgers then { j with processed := j.total, all := j.total }
  else { j with processed := j.processed + j.total, all := j.processed + j.total }

/-- One step of a rebuild over the shared index. -/
def Job.step (rows idx : List Item) (j : Job) : JEv → List Item × Job
  | .begin =>
    match j.ph with
    | .pending => (idx, { batch := j.batch, ph := .drop allColls })
    | _ => (idx, j)
  | .drop =>
    match j.ph with
    | .drop (c :: left) => (idx.filter (fun x => x.1 != c), { j with ph := .drop left })
    | .drop [] => (idx, { j with ph := .create })
    | _ => (idx, j)
  | .create now =>
    match j.ph with
    | .create => (store idx (.ledgers, ⟨"general_ledger_id", now, 0⟩), j.enter (.index .ledgers))
    | _ => (idx, j)
  | .page order =>
    match j.ph with
    | .index c =>
      if j.page = [] ∧ ordered order (table rows c) = true then
        let page := (order.drop j.offset).take (limit c j.batch)
        if page = [] then (idx, j.enter (Ph.next c))
        else (idx, { j with page := page, offset := j.offset + page.length })
      else (idx, j)
    | _ => (idx, j)
  | .put ok =>
    match j.ph, j.page with
    | .index c, r :: rest =>
      let j' := if ok then { j with page := rest, total := j.total + 1, written := j.written + 1 }
        else { j with page := rest, errors := j.errors ++ [(c, r.id)] }
      (if ok then store idx (c, r) else idx, if rest = [] then j'.counted c else j')
    | _, _ => (idx, j)
  | .memory => (idx, j)
  | .stop => if j.running then (idx, { j with ph := .failed }) else (idx, j)

inductive Ev
  /-- A record is made. -/
  | ins (c : Coll) (r : Row)
  /-- A record is changed. -/
  | upd (c : Coll) (id : String)
  /-- A record is deleted (identities only, `database/identity.go:310-312`). -/
  | gone (id : String)
  /-- An index task writes a document. -/
  | sync (x : Item)
  /-- `POST /reindex` (`api/reindex.go:53-96`). -/
  | post (batch : Nat)
  /-- The server starts (`TryReindexIfNeeded`). -/
  | startup
  | job (i : Nat) (e : JEv)
deriving DecidableEq, Repr

/-- Whether `POST /reindex` is accepted (`api/reindex.go:63-76`). -/
def Sys.free (s : Sys) : Bool :=
  match s.cur with
  | none => true
  | some i =>
    match s.jobs[i]? with
    | none => true
    | some j => !j.running

def bump (c : Coll) (id : String) (x : Item) : Item :=
  if x.1 = c ∧ x.2.id = id then (x.1, { x.2 with ver := x.2.ver + 1 }) else x

def step (s : Sys) : Ev → Sys
  | .ins c r => if s.rows.any (fun x => key x == (c, r.id)) then s else { s with rows := s.rows ++ [(c, r)] }
  | .upd c id => { s with rows := s.rows.map (bump c id) }
  | .gone id => { s with rows := s.rows.filter (fun x => key x != (.identities, id)) }
  | .sync x => { s with idx := store s.idx x }
  | .post batch => if s.free then { s with jobs := s.jobs ++ [Job.new batch], cur := some s.jobs.length } else s
  | .startup =>
    if s.dbHasData && !s.indexHasData then { s with jobs := s.jobs ++ [Job.new 1000] } else s
  | .job i e =>
    match s.jobs[i]? with
    | none => s
    | some j => { s with idx := (j.step s.rows s.idx e).1, jobs := s.jobs.set i (j.step s.rows s.idx e).2 }

def run (s : Sys) : List Ev → Sys
  | [] => s
  | e :: es => run (step s e) es

end Blnk.Reidx
