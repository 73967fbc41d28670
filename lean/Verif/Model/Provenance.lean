import Verif.Model.Lineage
/-
Fund lineage as a whole: which movements enter the outbox (`lineage_outbox.go`,
`transaction_execution.go:761-773`), what an outbox item writes (`lineage_processing.go`,
`lineage_credit.go`, `lineage_debit.go`), how settling a hold settles its lineage
(`lineage_shadow.go`, `transaction_inflight.go:200-275`, `460-505`), the names of the
lineage accounts (`lineage_allocation_metadata.go:81-99`) and the report
(`lineage_queries.go:29-110`).

Lineage rows are ordinary transactions between two internal accounts. Posting them is
modelled in `Model/Ledger.lean`; here an account's columns are the sums over its rows, which
is what C60 proves of the ledger, and posting is refused as there: reference in use, no
funds, same account on both sides. Not modelled: clients that post on lineage accounts
themselves, and clients that put `_shadow_for` into their metadata.
-/
namespace Blnk.Prov
open Lineage (Strategy Src Alloc calculate live)

/-! ### Identities and account names -/

/-- The parts of `model.Identity` that are used. -/
structure Ident where
  id : String
  first : String := ""
  last : String := ""
  org : String := ""
deriving DecidableEq, Repr

/-- `strings.ToLower`. Simplified: ASCII letters only. -/
def lower (s : String) : String := String.ofList (s.toList.map Char.toLower)

/-- `strings.ReplaceAll(s, " ", "_")`. -/
def unspace (s : String) : String := String.ofList (s.toList.map fun c => if c = ' ' then '_' else c)

/-- `idPart[:8]` (`lineage_allocation_metadata.go:93-96`). Simplified: characters for bytes. -/
def idPart (id : String) : String := String.ofList (id.toList.take 8)

/-- `getIdentityIdentifier` (`lineage_allocation_metadata.go:81-99`). -/
def Ident.name (i : Ident) : String :=
  if i.first ≠ "" ∧ i.last ≠ "" then lower (i.first ++ "_" ++ i.last) ++ "_" ++ idPart i.id
  else if i.org ≠ "" then lower (unspace i.org) ++ "_" ++ idPart i.id
  else i.id

/-- An internal balance: `getOrCreateBalanceByIndicator` (`balance.go:154-209`) gives one
balance for each indicator and currency (C55). -/
structure Acc where
  name : String
  cur : String
deriving DecidableEq, Repr

/-- The account of one provider (`lineage_credit.go:89`, `lineage_debit.go:388`). -/
def shadowAcc (p : String) (i : Ident) (cur : String) : Acc := ⟨"@" ++ p ++ "_" ++ i.name ++ "_lineage", cur⟩

/-- The account of all providers (`lineage_credit.go:90`, `lineage_debit.go:216`, `389`). -/
def aggAcc (i : Ident) (cur : String) : Acc := ⟨"@" ++ i.name ++ "_lineage", cur⟩

/-! ### Lineage rows -/

inductive Kind
  | credit | release | receive
deriving DecidableEq, Repr

/-- Where a lineage row stands: applied at once, held, or held and then settled. -/
inductive RStat
  | applied | held | committed | voided
deriving DecidableEq, Repr

/-- One lineage transaction; `parent` is `_shadow_for`. -/
structure Row where
  ref : String
  kind : Kind
  parent : String
  provider : String
  src : Acc
  dst : Acc
  amount : Int
  st : RStat
deriving DecidableEq, Repr

/-- The row counts in the settled columns. -/
def Row.settled (r : Row) : Bool := r.st == .applied || r.st == .committed

/-- The debit column of an account. -/
def debit (rows : List Row) (a : Acc) : Int :=
  (rows.map fun r => if r.settled && r.src == a then r.amount else 0).sum

/-- The credit column. -/
def credit (rows : List Row) (a : Acc) : Int :=
  (rows.map fun r => if r.settled && r.dst == a then r.amount else 0).sum

/-- The inflight debit column. -/
def heldDebit (rows : List Row) (a : Acc) : Int :=
  (rows.map fun r => if r.st == .held && r.src == a then r.amount else 0).sum

/-- What `canProcessTransaction` compares with (`model/model.go:170`). -/
def free (rows : List Row) (a : Acc) : Int := credit rows a - debit rows a - heldDebit rows a

/-- What a provider's account still holds: debit − credit (`lineage_allocation.go:53`,
`lineage_queries.go:97`). -/
def avail (rows : List Row) (a : Acc) : Int := debit rows a - credit rows a

/-! ### The rest of the state -/

/-- A balance of a customer. -/
structure TBal where
  id : String
  identity : String := ""
  cur : String := "USD"
  tracks : Bool := true
  strategy : Strategy := .fifo
deriving DecidableEq, Repr

/-- A row of `blnk.lineage_mappings` (`database/lineage.go:33-54`). -/
structure Mapping where
  balance : String
  provider : String
  shadow : Acc
  agg : Acc
  created : Nat
deriving DecidableEq, Repr

/-- A movement between customers' balances as stored. `child` says that it has a parent
transaction: the copy a worker records of a queued request (`transaction_queue.go:383`) and
the legs of a split have one. `paid` is what has been settled, `closed` that a hold was
voided. -/
structure Main where
  id : String
  ref : String
  src : String
  dst : String
  amount : Int
  cur : String := "USD"
  provider : String := ""
  held : Bool := false
  child : Bool := false
  overdraft : Bool := false
  paid : Int := 0
  closed : Bool := false
deriving DecidableEq, Repr

/-- What an outbox item asks for (`model/lineage.go`, `lineage_outbox.go:128-158`). -/
inductive Work
  | main (id : String)
  | commit (id : String)
  | void (id : String)
deriving DecidableEq, Repr

/-- An outbox item. `done` and `failed` are final (C38). -/
structure Item where
  work : Work
  attempts : Nat := 0
  done : Bool := false
  failed : Bool := false
deriving DecidableEq, Repr

structure Sys where
  idents : List Ident := []
  bals : List TBal := []
  mains : List Main := []
  rows : List Row := []
  maps : List Mapping := []
  items : List Item := []
  now : Nat := 0
deriving DecidableEq, Repr

def Sys.ident (s : Sys) (id : String) : Option Ident := s.idents.find? (·.id == id)
def Sys.bal (s : Sys) (id : String) : Option TBal := s.bals.find? (·.id == id)
def Sys.main (s : Sys) (id : String) : Option Main := s.mains.find? (·.id == id)

/-- `TransactionExistsByRef`: lineage rows and customers' movements share one table. -/
def Sys.used (s : Sys) (ref : String) : Bool :=
  s.rows.any (·.ref == ref) || s.mains.any (·.ref == ref)

/-- `GetTransactionByRef(...).PreciseAmount`; 0 if there is none. -/
def Sys.amountOf (s : Sys) (ref : String) : Int :=
  match s.rows.find? (·.ref == ref) with
  | some r => r.amount
  | none => match s.mains.find? (·.ref == ref) with
    | some m => m.amount
    | none => 0

/-- `GetLineageMappings` (`database/lineage.go:57-94`). -/
def Sys.mapsOf (s : Sys) (b : String) : List Mapping := s.maps.filter (·.balance == b)

/-- `GetLineageMappingByProvider` (`database/lineage.go:95-120`). -/
def Sys.mapping (s : Sys) (b p : String) : Option Mapping :=
  s.maps.find? fun m => m.balance == b && m.provider == p

/-- `UpsertLineageMapping` (`database/lineage.go:33-41`): an existing row keeps its creation
time. -/
def upsertMap (m : Mapping) : List Mapping → List Mapping
  | [] => [m]
  | x :: xs =>
    if x.balance = m.balance ∧ x.provider = m.provider then { x with shadow := m.shadow, agg := m.agg } :: xs
    else x :: upsertMap m xs

/-! ### Statements that may fail -/

/-- How one statement ends: done; not done and reported; done but reported as failed (the
answer was lost); the process dies before it. -/
inductive Out
  | ok | err | lost | crash
deriving DecidableEq, Repr

/-- The state together with how the next statements will end; when the list is used up,
everything succeeds. -/
structure W where
  sys : Sys
  outs : List Out := []
deriving DecidableEq, Repr

/-- A read, a lock: it changes nothing. -/
def W.tick (w : W) : W × Out :=
  match w.outs with
  | [] => (w, .ok)
  | .lost :: o => ({ w with outs := o }, .err)
  | x :: o => ({ w with outs := o }, x)

/-- A write. -/
def W.write (w : W) (f : Sys → Sys) : W × Out :=
  match w.outs with
  | [] => ({ w with sys := f w.sys }, .ok)
  | .ok :: o => ({ sys := f w.sys, outs := o }, .ok)
  | .lost :: o => ({ sys := f w.sys, outs := o }, .err)
  | x :: o => ({ w with outs := o }, x)

/-- Why posting a lineage row is refused: reference in use (`transaction_execution.go`, C12),
the same account twice (C13), no funds (C03). -/
def Sys.refuses (s : Sys) (r : Row) (overdraft : Bool) : Bool :=
  s.used r.ref || r.src == r.dst || (!overdraft && decide (free s.rows r.src < r.amount))

/-- `QueueTransaction` with `SkipQueue` (`lineage_credit.go:168`, `lineage_debit.go:303`,
`430`). -/
def W.post (w : W) (r : Row) (overdraft : Bool) : W × Out :=
  if w.sys.refuses r overdraft then (w, .err)
  else w.write fun s => { s with rows := s.rows ++ [r] }

/-- `UpsertLineageMapping`. -/
def W.upsert (w : W) (m : Mapping) : W × Out :=
  w.write fun s => { s with maps := upsertMap m s.maps, now := s.now + 1 }

/-! ### Processing an item -/

/-- State of a new lineage row (`Inflight: txn.Inflight`). -/
def newStat (m : Main) : RStat := if m.held then .held else .applied

/-- `queueShadowCreditTransaction` (`lineage_credit.go:146-174`). -/
def creditRow (i : Ident) (m : Main) (p : String) : Row :=
  { ref := m.ref ++ "_shadow_" ++ p, kind := .credit, parent := m.id, provider := p
    src := shadowAcc p i m.cur, dst := aggAcc i m.cur, amount := m.amount, st := newStat m }

/-- `releaseReference` (`lineage_debit.go:116-118`). -/
def releaseRef (m : Main) (p : String) : String := m.ref ++ "_release_" ++ p

/-- `queueReleaseTransaction` (`lineage_debit.go:283-305`). -/
def releaseRow (agg : Acc) (m : Main) (mp : Mapping) (a : Int) : Row :=
  { ref := releaseRef m mp.provider, kind := .release, parent := m.id, provider := mp.provider
    src := agg, dst := mp.shadow, amount := a, st := newStat m }

/-- `queueReceiveTransaction` (`lineage_debit.go:408-431`). -/
def receiveRow (d : TBal) (i : Ident) (m : Main) (p : String) (a : Int) : Row :=
  { ref := m.ref ++ "_receive_" ++ p, kind := .receive, parent := m.id, provider := p
    src := shadowAcc p i d.cur, dst := aggAcc i d.cur, amount := a, st := newStat m }

/-- `processLineageCredit` (`lineage_credit.go:30-67`). A failing mapping is only logged
(`:56-60`). -/
def creditPart (m : Main) (d : TBal) (p : String) (w : W) : W × Out :=
  match w.sys.ident d.identity with
  | none => (w, .err)
  | some i =>
    match w.tick with
    | (w, .ok) =>
      match w.post (creditRow i m p) true with
      | (w, .ok) =>
        match w.upsert ⟨d.id, p, shadowAcc p i m.cur, aggAcc i m.cur, w.sys.now⟩ with
        | (w, .crash) => (w, .crash)
        | (w, _) => (w, .ok)
      | r => r
    | r => r

/-- The destination of a debit, if it keeps lineage and its accounts were prepared
(`lineage_debit.go:62-73`, `319-333`). -/
abbrev Dest := Option (TBal × Ident)

/-- `processAllocations` (`lineage_debit.go:240-268`) with `processDestinationLineage`
(`:319-357`). Allocations are named by provider instead of by the provider's account. -/
def releaseLoop (m : Main) (b : TBal) (agg : Acc) (dest : Dest) : List Alloc → W → W × Out
  | [], w => (w, .ok)
  | (p, a) :: rest, w =>
    match w.sys.mapping b.id p with
    | none => releaseLoop m b agg dest rest w
    | some mp =>
      if w.sys.used (releaseRef m p) then releaseLoop m b agg dest rest w
      else match w.post (releaseRow agg m mp a) false with
        | (w, .ok) =>
          match dest with
          | none => releaseLoop m b agg dest rest w
          | some (d, i) =>
            match w.post (receiveRow d i m p a) true with
            | (w, .ok) =>
              match w.upsert ⟨d.id, p, shadowAcc p i d.cur, aggAcc i d.cur, w.sys.now⟩ with
              | (w, .ok) => releaseLoop m b agg dest rest w
              | r => r
            | r => r
        | r => r

/-- `getLineageSources` (`lineage_allocation.go:29-67`), before those without funds are left
out. -/
def Sys.sources (s : Sys) (b : String) : List Src :=
  (s.mapsOf b).map fun mp => ⟨mp.provider, avail s.rows mp.shadow, mp.created⟩

/-- `remainingDebitAmount` (`lineage_debit.go:126-144`). -/
def Sys.remaining (s : Sys) (m : Main) (b : String) : Int :=
  m.amount - ((s.mapsOf b).map fun mp =>
    if s.used (releaseRef m mp.provider) then s.amountOf (releaseRef m mp.provider) else 0).sum

/-- What an attempt sees apart from failing statements: a balance that cannot be read is
taken to be absent (`lineage_outbox.go:174-185`), a destination that cannot be prepared is
left out (`lineage_debit.go:64-67`), and a failing look for open credits ends the debit
(`:43-46`). -/
structure Sight where
  src : Bool := true
  dst : Bool := true
  prepared : Bool := true
  pending : Bool := true
deriving DecidableEq, Repr

/-- `HasPendingCreditOutbox` (`database/lineage.go:426-437`). -/
def Sys.pendingCredit (s : Sys) (b : String) : Bool :=
  s.items.any fun it => !it.done && !it.failed &&
    match it.work with
    | .main id => match s.main id with
      | some m => m.dst == b && m.provider != "" && (match s.bal b with | some d => d.tracks | none => false)
      | none => false
    | _ => false

/-- The destination of a debit that takes part. -/
def Sys.destOf (s : Sys) (g : Sight) (m : Main) : Dest :=
  if g.dst && g.prepared then
    match s.bal m.dst with
    | some d => if d.tracks && d.identity != "" then (s.ident d.identity).map fun i => (d, i) else none
    | none => none
  else none

/-- `processLineageDebit` (`lineage_debit.go:31-111`). Simplified: the note about the
allocation in the transaction's metadata is left out. -/
def debitPart (g : Sight) (m : Main) (b : TBal) (w : W) : W × Out :=
  match w.tick with
  | (w, .ok) =>
    if w.sys.mapsOf b.id = [] then
      (w, if g.pending && w.sys.pendingCredit b.id then .err else .ok)
    else
      let rem := w.sys.remaining m b.id
      if rem ≤ 0 then (w, .ok)
      else match w.sys.ident b.identity with
        | none => (w, .err)
        | some i =>
          releaseLoop m b (aggAcc i b.cur) (w.sys.destOf g m)
            (calculate b.strategy (live (w.sys.sources b.id)) rem) w
  | r => r

/-- `validateLineageProvider` (`lineage_processing.go:105-128`): a provider the source does
not know is ignored. -/
def validProvider (s : Sys) (m : Main) (src : Option TBal) : String :=
  if m.provider = "" then ""
  else match src with
    | none => m.provider
    | some b =>
      if !b.tracks then m.provider
      else if (s.mapping b.id m.provider).isSome then m.provider else ""

/-- The credit half of `processLineage` (`lineage_processing.go:52-59`). -/
def creditStep (m : Main) (p : String) (dst : Option TBal) (w : W) : W × Out :=
  match dst with
  | some d => if p ≠ "" ∧ d.tracks then creditPart m d p w else (w, .ok)
  | none => (w, .ok)

/-- The debit half (`lineage_processing.go:62-69`). -/
def debitStep (g : Sight) (m : Main) (src : Option TBal) (w : W) : W × Out :=
  match src with
  | some b => if b.tracks then debitPart g m b w else (w, .ok)
  | none => (w, .ok)

/-- A balance, if the attempt can read it. -/
def Sys.seen (s : Sys) (ok : Bool) (x : String) : Option TBal := if ok then s.bal x else none

/-- `processLineage` (`lineage_processing.go:32-75`): credit, then debit. -/
def processMain (g : Sight) (m : Main) (w : W) : W × Out :=
  match w.tick with
  | (w, .ok) =>
    match creditStep m (validProvider w.sys m (w.sys.seen g.src m.src)) (w.sys.seen g.dst m.dst) w with
    | (w', .ok) => debitStep g m (w.sys.seen g.src m.src) w'
    | r => r
  | r => r

/-- `commitShadowTransactions` / `voidShadowTransactions` (`lineage_shadow.go:31-112`): every
held row of the parent is settled in full; one that fails does not stop the others, and rows
that are settled already are passed over. The second list is what is left of the outcomes,
the last component whether all went well. -/
def settleRows (id : String) (to : RStat) : List Row → List Out → List Row × Out
  | [], _ => ([], .ok)
  | r :: rs, os =>
    if r.parent = id ∧ r.st = .held then
      match os with
      | .crash :: _ => (r :: rs, .crash)
      | .err :: o => let x := settleRows id to rs o; (r :: x.1, if x.2 = .ok then .err else x.2)
      | .lost :: o => let x := settleRows id to rs o; ({ r with st := to } :: x.1, if x.2 = .ok then .err else x.2)
      | .ok :: o => let x := settleRows id to rs o; ({ r with st := to } :: x.1, x.2)
      | [] => let x := settleRows id to rs []; ({ r with st := to } :: x.1, x.2)
    else let x := settleRows id to rs os; (r :: x.1, x.2)

/-- Settle the lineage of a hold. -/
def Sys.settle (s : Sys) (id : String) (to : RStat) (os : List Out) : Sys × Out :=
  let x := settleRows id to s.rows os
  ({ s with rows := x.1 }, x.2)

/-- One attempt at an item (`ProcessLineageFromOutbox`, `lineage_outbox.go:115-194`). -/
def attempt (g : Sight) (os : List Out) (wk : Work) (s : Sys) : Sys × Out :=
  match wk with
  | .main id =>
    match s.main id with
    | none => (s, .err)
    | some m => let r := processMain g m ⟨s, os⟩; (r.1.sys, r.2)
  | .commit id => s.settle id .committed os
  | .void id => s.settle id .voided os

/-- How an item is marked (`lineage_worker.go:170-182`, `database/lineage.go:356-383`,
`max_attempts` 5). After a crash nothing is marked. -/
def Item.mark (it : Item) : Out → Item
  | .ok => { it with done := true }
  | .crash => it
  | _ => { it with attempts := it.attempts + 1, failed := decide (5 ≤ it.attempts + 1) }

/-! ### Customers' movements -/

/-- What a balance holds. -/
def holds (mains : List Main) (b : String) : Int :=
  (mains.map fun m => (if m.dst = b then m.paid else 0) - (if m.src = b then m.paid else 0)).sum

/-- What is held back on a balance. -/
def reserved (mains : List Main) (b : String) : Int :=
  (mains.map fun m => if m.src = b ∧ m.held ∧ ¬ m.closed then m.amount - m.paid else 0).sum

/-- `prepareTransactionOutbox` (`transaction_execution.go:761-773`) and
`PrepareLineageOutbox` (`lineage_outbox.go:43-103`). A hold with a parent is taken for the
commit of a hold (`:767`). -/
def Sys.wantsItem (s : Sys) (m : Main) : Bool :=
  !(m.child && m.held) &&
  ((m.provider != "" && (match s.bal m.dst with | some d => d.tracks | none => false)) ||
   (match s.bal m.src with | some b => b.tracks | none => false))

/-- A movement is posted, with its outbox item in the same database transaction. -/
def Sys.record (s : Sys) (m : Main) : Sys :=
  if m.amount ≤ 0 ∨ m.src = m.dst ∨ s.used m.ref ∨ (s.main m.id).isSome ∨
     (!m.overdraft ∧ holds s.mains m.src - reserved s.mains m.src < m.amount) then s
  else
    { s with mains := s.mains ++ [{ m with paid := if m.held then 0 else m.amount, closed := false }]
             items := if s.wantsItem m then s.items ++ [{ work := .main m.id }] else s.items }

/-- Replace a stored movement. -/
def Sys.setMain (s : Sys) (m : Main) : Sys :=
  { s with mains := s.mains.map fun x => if x.id = m.id then m else x }

/-- The item queued when settling the lineage failed (`lineage_shadow.go:147-176`); the
unique index on its name admits one (`sql/1769343506.sql:39`). -/
def Sys.retryItem (s : Sys) (wk : Work) : Out → Sys
  | .err => if s.items.any (·.work == wk) then s else { s with items := s.items ++ [{ work := wk }] }
  | _ => s

/-- `CommitInflightTransaction` (`transaction_inflight.go:200-235`) of an amount; 0 means
what is left. The lineage is settled in full whatever the amount (`lineage_shadow.go:42`). -/
def Sys.commit (s : Sys) (id : String) (amt : Int) (os : List Out) : Sys :=
  match s.main id with
  | none => s
  | some m =>
    let left := m.amount - m.paid
    let a := if amt = 0 then left else amt
    if !m.held || m.closed || decide (left = 0) || decide (a ≤ 0) || decide (left < a) then s
    else
      let r := (s.setMain { m with paid := m.paid + a }).settle id .committed os
      r.1.retryItem (.commit id) r.2

/-- `VoidInflightTransaction` (`transaction_inflight.go:460-505`). -/
def Sys.void (s : Sys) (id : String) (os : List Out) : Sys :=
  match s.main id with
  | none => s
  | some m =>
    if !m.held || m.closed || decide (m.amount = m.paid) then s
    else
      let r := (s.setMain { m with closed := true }).settle id .voided os
      r.1.retryItem (.void id) r.2

/-! ### Histories -/

inductive Ev
  /-- an identity is created, or replaced -/
  | ident (i : Ident)
  /-- a balance is created -/
  | bal (b : TBal)
  | record (m : Main)
  /-- a worker attempts the k-th item -/
  | work (k : Nat) (g : Sight) (os : List Out)
  | commit (id : String) (amt : Int) (os : List Out)
  | void (id : String) (os : List Out)
deriving DecidableEq, Repr

/-- Replace or add an identity. -/
def putIdent (i : Ident) : List Ident → List Ident
  | [] => [i]
  | x :: xs => if x.id = i.id then i :: xs else x :: putIdent i xs

def pstep (s : Sys) : Ev → Sys
  | .ident i => { s with idents := putIdent i s.idents }
  | .bal b => if (s.bal b.id).isSome then s else { s with bals := s.bals ++ [b] }
  | .record m => s.record m
  | .work k g os =>
    match s.items[k]? with
    | none => s
    | some it =>
      if it.done || it.failed then s
      else
        let r := attempt g os it.work s
        { r.1 with items := r.1.items.set k (it.mark r.2) }
  | .commit id amt os => s.commit id amt os
  | .void id os => s.void id os

def psteps (s : Sys) : List Ev → Sys
  | [] => s
  | e :: es => psteps (pstep s e) es

/-! ### The report -/

/-- `GetBalanceLineage` (`lineage_queries.go:27-83`): per provider received, available and
spent, and the total. -/
structure Line where
  provider : String
  amount : Int
  available : Int
  spent : Int
deriving DecidableEq, Repr

def Sys.report (s : Sys) (b : String) : List Line :=
  (s.mapsOf b).map fun mp => ⟨mp.provider, debit s.rows mp.shadow, avail s.rows mp.shadow, credit s.rows mp.shadow⟩

/-- `TotalWithLineage`. -/
def Sys.total (s : Sys) (b : String) : Int := ((s.report b).map Line.available).sum

end Blnk.Prov
