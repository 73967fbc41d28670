import Verif.Model.Inflight
/-
The worker pool behind bulk commit and void (`transaction_inflight.go:963-1015`) and the
response built from its results (`api/transactions.go:815-833`, `:887-905`).

The pool is modelled over an arbitrary call, so that the statements about scheduling do not
depend on what a commit does. A call is one step: that concurrent settlements behave as some
sequence of atomic ones is `c22_late_commit_is_atomic` and `c22_late_void_is_atomic`.
-/
namespace Blnk.Bulk

/-- A goroutine of the pool (`transaction_inflight.go:988-1011`). -/
inductive Worker (ι ω : Type) where
  /-- at `for j := range jobs` (`:991`) -/
  | idle
  /-- received a job, has not called the ledger -/
  | busy (i : Nat) (it : ι)
  /-- the call returned, `results[j.idx]` is not written yet (`:1003`) -/
  | got (i : Nat) (it : ι) (o : ω)
  /-- left the loop, `wg.Done()` ran (`:990`) -/
  | exited

/-- Record of one ledger call; only used to state what happened. -/
structure Entry (σ ι ω : Type) where
  idx : Nat
  item : ι
  before : σ
  after : σ
  out : ω

/-- State of a bulk request in progress. `results` has a slot for every item (`:976`). -/
structure St (σ ι ω : Type) where
  queue : List (Nat × ι)
  workers : List (Worker ι ω)
  results : List (Option (ι × ω))
  shared : σ
  log : List (Entry σ ι ω) := []

variable {σ ι ω : Type}

/-- Number of goroutines started (`transaction_inflight.go:967-975`). -/
def poolSize (maxWorkers : Int) (n : Nat) : Nat :=
  let m := if maxWorkers < 1 then 4 else maxWorkers
  let m := if m > 16 then 16 else m
  let m := if m > (n : Int) then (n : Int) else m
  m.toNat

/-- State after the jobs were sent, the channel closed and the workers started
(`transaction_inflight.go:976-989`). -/
def start (items : List ι) (maxWorkers : Int) (s : σ) : St σ ι ω where
  queue := (List.range items.length).zip items
  workers := List.replicate (poolSize maxWorkers items.length) .idle
  results := List.replicate items.length none
  shared := s

/-- A step of some worker. `call i it s s' o` says that the call for item `it` in state `s`
may end in `s'` answering `o`. -/
inductive WStep (call : Nat → ι → σ → σ → ω → Prop) : St σ ι ω → St σ ι ω → Prop
  | take {s i it q pre post} (hq : s.queue = (i, it) :: q) (hw : s.workers = pre ++ .idle :: post) :
      WStep call s { s with queue := q, workers := pre ++ .busy i it :: post }
  | call {s i it pre post s' o} (hw : s.workers = pre ++ .busy i it :: post) (hc : call i it s.shared s' o) :
      WStep call s { s with shared := s', workers := pre ++ .got i it o :: post,
                            log := ⟨i, it, s.shared, s', o⟩ :: s.log }
  | write {s i it o pre post} (hw : s.workers = pre ++ .got i it o :: post) :
      WStep call s { s with results := s.results.set i (some (it, o)), workers := pre ++ .idle :: post }
  | exit {s pre post} (hq : s.queue = []) (hw : s.workers = pre ++ .idle :: post) :
      WStep call s { s with workers := pre ++ .exited :: post }

/-- A run of the pool: worker steps, in any order, and steps `env` of other processes. The
number counts the worker steps. -/
inductive Run (call : Nat → ι → σ → σ → ω → Prop) (env : σ → σ → Prop) (s0 : St σ ι ω) : Nat → St σ ι ω → Prop
  | refl : Run call env s0 0 s0
  | work {k s s'} (h : Run call env s0 k s) (hs : WStep call s s') : Run call env s0 (k + 1) s'
  | env {k s x} (h : Run call env s0 k s) (he : env s.shared x) : Run call env s0 k { s with shared := x }

/-- `wg.Wait()` returns (`transaction_inflight.go:1013`). -/
def St.finished (s : St σ ι ω) : Prop := ∀ w ∈ s.workers, w = .exited

/-- The counts of the response (`api/transactions.go:815-833`). -/
def counts (ok : ω → Bool) (rs : List (ι × ω)) : Nat × Nat :=
  rs.foldl (fun (s, f) r => if ok r.2 then (s + 1, f) else (s, f + 1)) (0, 0)

end Blnk.Bulk

namespace Blnk

/-- An item of a bulk request (`transaction_inflight.go:892-895`). -/
structure BulkItem where
  txn : String
  amount : Int := 0
deriving Repr, DecidableEq

/-- What `BulkInflightUpdate` calls for an item (`transaction_inflight.go:994-1001`). The new
transaction id and the reference are fresh uuids (`:403-442`, `:604-633`, `model/model.go:50-55`). -/
def bulkCall (cfg : Cfg) (void : Bool) (_i : Nat) (it : BulkItem) (db db' : DB) (o : Except InfErr Outcome) : Prop :=
  ∃ newId ref n1 n2, db.hasTxnId newId = false ∧ db.hasRef ref = false ∧ isIndicator n1 = false ∧ isIndicator n2 = false ∧
    (db', o) = if void then voidInflight cfg db it.txn newId ref n1 n2
               else commitInflight cfg db it.txn it.amount newId ref n1 n2

end Blnk
