/-
The audit hash chain: `model/chain.go`, `database/chain.go`, `chain_worker.go`, and the
trigger that keeps stored transactions unchanged (`sql/1781162328.sql`).
The hash function (`sha256` in hexadecimal) is a parameter `H`.
-/
namespace Blnk.Chain

/-- `ChainRow` (`model/chain.go:36-46`): the fields that are sealed, as text. Simplified:
`created` stands for the rendered time (`time.RFC3339Nano` of the instant in UTC). -/
structure ChainRow where
  transactionID : String
  source : String
  destination : String
  amount : String
  preciseAmount : String
  currency : String
  status : String
  reference : String
  created : String
deriving DecidableEq, Repr

/-- The sealed fields in order (`model/chain.go:54-65`). -/
def ChainRow.fields (r : ChainRow) : List String :=
  [r.transactionID, r.source, r.destination, r.amount, r.preciseAmount, r.currency, r.status, r.reference, r.created]

/-- The string that is hashed (`model/chain.go:54-65`). -/
def canonical (prev : String) (r : ChainRow) : String := "|".intercalate (prev :: r.fields)

/-- `ComputeChainHash` (`model/chain.go:53-68`). -/
def computeHash (H : String → String) (prev : String) (r : ChainRow) : String := H (canonical prev r)

/-- A row of `blnk.transactions` as the chain sees it: its serial key, its creation time, the
sealed fields and the three chain columns. -/
structure Row where
  key : Nat
  createdAt : Nat
  row : ChainRow
  seq : Option Nat := none
  prev : String := ""
  hash : String := ""
deriving DecidableEq, Repr

/-- The table and the `chain_state` row (`sql/1781162328.sql:26-39`). -/
structure State where
  rows : List Row := []
  lastSeq : Nat := 0
  head : String
  genesis : String
deriving DecidableEq, Repr

/-- A database that has just been migrated. -/
def init (genesis : String) : State := { head := genesis, genesis }

/-- Insert by a numeric key, ahead of equals. -/
def insertBy (k : Row → Nat) (x : Row) : List Row → List Row
  | [] => [x]
  | y :: ys => if k x ≤ k y then x :: y :: ys else y :: insertBy k x ys

/-- `ORDER BY`. -/
def sortBy (k : Row → Nat) : List Row → List Row
  | [] => []
  | x :: xs => insertBy k x (sortBy k xs)

/-- The scan of `ChainPendingTransactions` (`database/chain.go:60-67`). -/
def pending (rows : List Row) (cutoff batch : Nat) : List Row :=
  (sortBy Row.key (rows.filter (fun r => r.seq.isNone && r.createdAt < cutoff))).take batch

/-- The links computed for the batch (`database/chain.go:80-91`). -/
def link (H : String → String) : String → Nat → List Row → List Row
  | _, _, [] => []
  | head, seq, r :: rs =>
    let h := computeHash H head r.row
    { r with seq := some (seq + 1), prev := head, hash := h } :: link H h (seq + 1) rs

/-- The head after a batch. -/
def headAfter (H : String → String) : String → List Row → String
  | head, [] => head
  | head, r :: rs => headAfter H (computeHash H head r.row) rs

/-- The update statements (`database/chain.go:108-117`): the row with the same key gets its
chain columns. -/
def write (links : List Row) (rows : List Row) : List Row :=
  rows.map fun r => (links.find? (fun l => l.key == r.key)).getD r

/-- `ChainPendingTransactions` (`database/chain.go:40-133`), one database transaction that
holds the `chain_state` row. -/
def sealBatch (H : String → String) (cutoff batch : Nat) (s : State) : State :=
  let todo := pending s.rows cutoff batch
  { s with rows := write (link H s.head s.lastSeq todo) s.rows
           lastSeq := s.lastSeq + todo.length
           head := headAfter H s.head todo }

/-- What can happen. -/
inductive Ev
  /-- a transaction is stored; its key is new (`SERIAL PRIMARY KEY`) and unsealed -/
  | insert (key createdAt : Nat) (row : ChainRow)
  /-- a sealing round commits -/
  | round (cutoff batch : Nat)
  /-- a sealing round fails or crashes: the database transaction is rolled back -/
  | crashed (cutoff batch : Nat)
deriving Repr

/-- One step. -/
def step (H : String → String) (s : State) : Ev → State
  | .insert key createdAt row =>
    if s.rows.any (fun r => r.key == key) then s else { s with rows := s.rows ++ [{ key, createdAt, row }] }
  | .round cutoff batch => sealBatch H cutoff batch s
  | .crashed _ _ => s

/-- A history. -/
def run (H : String → String) (s : State) : List Ev → State
  | [] => s
  | e :: es => run H (step H s e) es

/-! ### Verification -/

/-- The chained rows in order (`database/chain.go:151-161`). -/
def chained (rows : List Row) : List Row :=
  sortBy (fun r => r.seq.getD 0) (rows.filter (fun r => r.seq.isSome))

/-- `ChainVerifyResult` (`chain_worker.go:158-165`), without the texts. -/
inductive Verdict
  | verified (lastSeq : Nat) (head : String)
  | broken (seq : Nat)
deriving DecidableEq, Repr

/-- Checks of one page (`chain_worker.go:190-211`): the running head, last and expected
number on success, the offending number on failure. -/
def walk (H : String → String) : String → Nat → List Row → Except Nat (String × Nat)
  | head, last, [] => .ok (head, last)
  | head, last, r :: rs =>
    if r.seq ≠ some (last + 1) then .error (r.seq.getD 0)
    else if r.prev ≠ head then .error (r.seq.getD 0)
    else if computeHash H head r.row ≠ r.hash then .error (r.seq.getD 0)
    else walk H r.hash (last + 1) rs

/-- `GetChainedTransactionsAfter` (`database/chain.go:150-181`). -/
def fetchAfter (rows : List Row) (after page : Nat) : List Row :=
  ((chained rows).filter (fun r => after < r.seq.getD 0)).take page

/-- The page loop (`chain_worker.go:182-212`); `fuel` bounds the number of pages read. -/
def pages (H : String → String) (rows : List Row) (page : Nat) : Nat → String → Nat → Except Nat (String × Nat)
  | 0, head, last => .ok (head, last)
  | fuel + 1, head, last =>
    match fetchAfter rows last page with
    | [] => .ok (head, last)
    | l => match walk H head last l with
      | .error n => .error n
      | .ok (h, n) => pages H rows page fuel h n

/-- The end of `VerifyChain` (`chain_worker.go:214-217`). -/
def conclude (s : State) : Except Nat (String × Nat) → Verdict
  | .error n => .broken n
  | .ok (head, last) => if last = s.lastSeq ∧ head ≠ s.head then .broken last else .verified last head

/-- `VerifyChain` (`chain_worker.go:171-218`) with pages of `page` rows (1000 in the code),
on a table nobody changes meanwhile. -/
def verify (H : String → String) (page : Nat) (s : State) : Verdict :=
  conclude s (pages H s.rows page (s.rows.length + 1) s.genesis 0)

/-! ### Per-row hash -/

/-- The string hashed by `HashTxn` (`model/model.go:65-69`): five fields with nothing between
them. `amount` is `strconv.FormatFloat(…, 'f', -1, 64)`. -/
def txnHashInput (amount reference currency source destination : String) : String :=
  amount ++ reference ++ currency ++ source ++ destination

/-! ### The immutability trigger -/

/-- All columns of `blnk.transactions` (`sql/1708676327.sql:101-119` and later additions). -/
structure Cols where
  transactionID : String
  source : Option String
  destination : Option String
  description : Option String
  reference : Option String
  amount : Option String
  preciseAmount : Option String
  precision : Option String
  currency : Option String
  status : Option String
  hash : Option String
  createdAt : Nat
  scheduledFor : Option Nat
  metaData : Option String
  chainSeq : Option Nat
  chainPrev : Option String
  chainHash : Option String
  parent : Option String
  effectiveDate : Option Nat
deriving DecidableEq, Repr

/-- The test of `prevent_transaction_update` (`sql/1781162328.sql:62-77`): a protected column
changes (`IS DISTINCT FROM` treats nulls as equal to each other). -/
def touchesProtected (new old : Cols) : Bool :=
  new.transactionID != old.transactionID || new.source != old.source || new.destination != old.destination ||
  new.description != old.description || new.reference != old.reference || new.amount != old.amount ||
  new.preciseAmount != old.preciseAmount || new.precision != old.precision || new.currency != old.currency ||
  new.status != old.status || new.hash != old.hash || new.createdAt != old.createdAt ||
  new.scheduledFor != old.scheduledFor

/-- An `UPDATE` statement: which rows, and what they become. Any raised exception aborts the
whole statement. -/
def update (sel : Cols → Bool) (f : Cols → Cols) (table : List Cols) : List Cols :=
  if table.any (fun r => sel r && touchesProtected (f r) r) then table
  else table.map (fun r => if sel r then f r else r)

/-- What clients of the table do to it. -/
inductive Stmt
  | insert (r : Cols)
  | update (sel : Cols → Bool) (f : Cols → Cols)

/-- One statement; `transaction_id` is unique. -/
def exec (table : List Cols) : Stmt → List Cols
  | .insert r => if table.any (fun x => x.transactionID == r.transactionID) then table else table ++ [r]
  | .update sel f => update sel f table

/-- Many statements. -/
def execs (table : List Cols) : List Stmt → List Cols
  | [] => table
  | s :: ss => execs (exec table s) ss

/-- `UpdateTransactionMetadata` (`database/metadata.go:53-57`): the transaction and its
children; `merge` is the JSON concatenation. -/
def metadataStmt (merge : Option String → Option String) (id : String) : Stmt :=
  .update (fun r => r.transactionID == id || r.parent == some id) (fun r => { r with metaData := merge r.metaData })

end Blnk.Chain
