/-
The database migrations: `runMigrations` (`cmd/migrate.go:52-78`) and the statements of `sql/*.sql`, in the order
of the file names. sql-migrate runs the files that are not recorded upwards, or all recorded ones downwards,
each in a transaction of its own unless it says `notransaction`, and stops at the first error.

Modelled: the existence of tables, of columns that migrations add, drop or need, of triggers, functions, named
constraints, and of the indexes that are unique or created without `IF NOT EXISTS`. Simplified: types of columns and
the casts between them, `CHECK` constraints, foreign keys inside `CREATE TABLE`, and indexes that are only for
speed are left out. Rows are left out except for the one statement that changes transactions
(`sql/1766887982.sql:17-19`, at the end of this file). A file may fail or be interrupted for any reason.
-/
namespace Blnk.Migr

/-- What the database holds. -/
inductive Obj
  -- tables
  | ledgers | identity | balances | accounts | balanceMonitors | transactions | reconciliations | matchesTable | unmatched
  | externalTransactions | reconciliationProgress | matchingRules | balanceSnapshots | apiKeys | transactionJournal
  | lineageMappings | lineageOutbox | chainState
  -- columns
  | currencyMultiplier | modificationRef | version | inflightBalance | inflightCredit | inflightDebit | preciseAmount | precision
  | rate | parentTransaction | monitorPrecision | monitorPreciseValue | effectiveDate | trackLineage | allocationStrategy
  | keyPrefix | chainSeq | chainPrevHash | chainHash
  -- functions; `getWide` and `getNarrow` are the two forms of `get_balances_by_id`, `nullSafe` tells that
  -- `prevent_transaction_update` has its last body
  | getWide | getNarrow | captureChanges | takeSnapshots | preventTransactionUpdate | nullSafe | preventSnapshotUpdate
  | logTransactionChanges | reconcileBalance
  -- triggers
  | transactionAfterInsert | ledgerAfterInsert | balanceAfterInsert | balanceAfterUpdate | preventTransactionTrigger
  | preventSnapshotTrigger | logTransactionTrigger | reconcileBalanceTrigger
  -- constraints
  | uniqueIndicatorCurrency | fkBalance | fkShadow | fkAggregate | fkIdentity
  -- indexes
  | ixReference | ixIndicator | ixUniqueIndicator | ixReconUpload | ixExternalUpload | ixProgress | ixSnapBalance | ixSnapTime
  | ixSnapLedger | ixReferenceUnique | ixOutboxTransaction | ixChainSeq
deriving DecidableEq, Repr

/-- What an object hangs on. -/
def Obj.deps : Obj → List Obj
  | .currencyMultiplier | .modificationRef | .version | .inflightBalance | .inflightCredit | .inflightDebit | .trackLineage
  | .allocationStrategy | .uniqueIndicatorCurrency | .ixIndicator | .ixUniqueIndicator => [.balances]
  | .preciseAmount | .precision | .rate | .parentTransaction | .effectiveDate | .chainSeq | .chainPrevHash | .chainHash
  | .ixReference | .ixReferenceUnique => [.transactions]
  | .monitorPrecision | .monitorPreciseValue => [.balanceMonitors]
  | .keyPrefix => [.apiKeys]
  | .nullSafe => [.preventTransactionUpdate]
  | .transactionAfterInsert => [.transactions, .captureChanges]
  | .ledgerAfterInsert => [.ledgers, .captureChanges]
  | .balanceAfterInsert | .balanceAfterUpdate => [.balances, .captureChanges]
  | .preventTransactionTrigger => [.transactions, .preventTransactionUpdate]
  | .preventSnapshotTrigger => [.balanceSnapshots, .preventSnapshotUpdate]
  | .logTransactionTrigger => [.transactions, .logTransactionChanges]
  | .reconcileBalanceTrigger => [.balances, .reconcileBalance]
  | .fkBalance | .fkShadow | .fkAggregate => [.lineageMappings, .balances]
  | .fkIdentity => [.lineageMappings, .identity]
  | .ixReconUpload => [.reconciliations]
  | .ixExternalUpload => [.externalTransactions]
  | .ixProgress => [.reconciliationProgress]
  | .ixSnapBalance | .ixSnapTime | .ixSnapLedger => [.balanceSnapshots]
  | .ixOutboxTransaction => [.lineageOutbox]
  | .ixChainSeq => [.transactions, .chainSeq]
  | _ => []

def Obj.isTrigger : Obj → Bool
  | .transactionAfterInsert | .ledgerAfterInsert | .balanceAfterInsert | .balanceAfterUpdate | .preventTransactionTrigger
  | .preventSnapshotTrigger | .logTransactionTrigger | .reconcileBalanceTrigger => true
  | _ => false

def Obj.isFunction : Obj → Bool
  | .getWide | .getNarrow | .captureChanges | .takeSnapshots | .preventTransactionUpdate | .preventSnapshotUpdate
  | .logTransactionChanges | .reconcileBalance => true
  | _ => false

/-- All objects. -/
def allObjs : List Obj :=
  [.ledgers, .identity, .balances, .accounts, .balanceMonitors, .transactions, .reconciliations, .matchesTable, .unmatched,
   .externalTransactions, .reconciliationProgress, .matchingRules, .balanceSnapshots, .apiKeys, .transactionJournal,
   .lineageMappings, .lineageOutbox, .chainState,
   .currencyMultiplier, .modificationRef, .version, .inflightBalance, .inflightCredit, .inflightDebit, .preciseAmount, .precision,
   .rate, .parentTransaction, .monitorPrecision, .monitorPreciseValue, .effectiveDate, .trackLineage, .allocationStrategy,
   .keyPrefix, .chainSeq, .chainPrevHash, .chainHash,
   .getWide, .getNarrow, .captureChanges, .takeSnapshots, .preventTransactionUpdate, .nullSafe, .preventSnapshotUpdate,
   .logTransactionChanges, .reconcileBalance,
   .transactionAfterInsert, .ledgerAfterInsert, .balanceAfterInsert, .balanceAfterUpdate, .preventTransactionTrigger,
   .preventSnapshotTrigger, .logTransactionTrigger, .reconcileBalanceTrigger,
   .uniqueIndicatorCurrency, .fkBalance, .fkShadow, .fkAggregate, .fkIdentity,
   .ixReference, .ixIndicator, .ixUniqueIndicator, .ixReconUpload, .ixExternalUpload, .ixProgress, .ixSnapBalance, .ixSnapTime,
   .ixSnapLedger, .ixReferenceUnique, .ixOutboxTransaction, .ixChainSeq]

def Obj.isTable (o : Obj) : Bool := (allObjs.take 18).contains o

/-- The objects there are, as the bits of a number. -/
abbrev Db := Nat

def Db.has (d : Db) (o : Obj) : Bool := Nat.testBit d o.ctorIdx
def Db.add (d : Db) (o : Obj) : Db := d ||| (1 <<< o.ctorIdx)
def Db.del (d : Db) (o : Obj) : Db := if d.has o then d ^^^ (1 <<< o.ctorIdx) else d

/-- A statement. `may` stands for `IF NOT EXISTS`, `IF EXISTS` and `OR REPLACE`. -/
inductive Op
  | create (o : Obj) (may : Bool)
  | drop (o : Obj) (may : Bool)
  /-- a statement that needs the object, such as `ALTER TABLE` -/
  | need (o : Obj)
  /-- `CREATE OR REPLACE` fails when the function exists with other result columns -/
  | absent (o : Obj)
deriving DecidableEq, Repr

/-- Dropping a table or a column takes what hangs on it; dropping a function is refused while a trigger
uses it. -/
def dropped (d : Db) (o : Obj) : Option Db :=
  if o.isFunction && allObjs.any (fun x => x.isTrigger && x.deps.contains o && d.has x) then none
  else some ((allObjs.filter (fun x => x.deps.contains o)).foldl Db.del (d.del o))

def Op.run (d : Db) : Op → Option Db
  | .create o may => if d.has o then (if may then some d else none) else if o.deps.all d.has then some (d.add o) else none
  | .drop o may => if d.has o then dropped d o else if may then some d else none
  | .need o => if d.has o then some d else none
  | .absent o => if d.has o then none else some d

def runOps : Db → List Op → Option Db
  | d, [] => some d
  | d, o :: os => match o.run d with
    | some d' => runOps d' os
    | none => none

structure Migration where
  up : List Op
  down : List Op
  /-- runs in a transaction -/
  tx : Bool := true

open Op Obj

def new (o : Obj) : Op := create o false
def orNew (o : Obj) : Op := create o true
def gone (o : Obj) : Op := drop o false
def orGone (o : Obj) : Op := drop o true

/-- `DROP TRIGGER IF EXISTS`, `CREATE TRIGGER`. -/
def anew (o : Obj) : List Op := [orGone o, new o]

/-- The files, in order. -/
def migrations : List Migration :=
  [ -- sql/1708676327.sql
    ⟨[orNew ledgers, orNew identity, orNew balances, orNew currencyMultiplier, orNew modificationRef, orNew accounts,
      orNew balanceMonitors, orNew transactions, new ixReference, new ixIndicator, new ixUniqueIndicator],
     [orGone ixReference, orGone ixIndicator, orGone transactions, orGone balanceMonitors, orGone accounts, orGone balances,
      orGone identity, orGone ledgers], true⟩,
    -- sql/1711640389.sql
    ⟨[new version], [need balances, orGone version], true⟩,
    -- sql/1712395973.sql
    ⟨[new inflightBalance, new inflightCredit, new inflightDebit],
     [need balances, orGone inflightBalance, orGone inflightCredit, orGone inflightDebit], true⟩,
    -- sql/1712660388.sql
    ⟨[need transactions, new preciseAmount, new precision, new rate, orGone ixUniqueIndicator],
     [need transactions, gone preciseAmount, gone precision, gone rate], true⟩,
    -- sql/1712749737.sql: no way down
    ⟨[need version, need inflightDebit, need currencyMultiplier, absent getNarrow, orNew getWide, orNew captureChanges,
      new transactionAfterInsert, new ledgerAfterInsert, new balanceAfterInsert, new balanceAfterUpdate], [], true⟩,
    -- sql/1713790634.sql
    ⟨[need balanceMonitors], [need balanceMonitors], true⟩,
    -- sql/1714213688.sql
    ⟨[new parentTransaction], [gone parentTransaction], true⟩,
    -- sql/1715045770.sql
    ⟨[new monitorPrecision, new monitorPreciseValue], [gone monitorPrecision, gone monitorPreciseValue], true⟩,
    -- sql/1721227454.sql
    ⟨[need transactions, need parentTransaction], [], true⟩,
    -- sql/1721922047.sql
    ⟨[orNew reconciliations, orNew matchesTable, orNew unmatched, orNew externalTransactions, orNew reconciliationProgress,
      orNew matchingRules, new ixReconUpload, new ixExternalUpload, new ixProgress],
     [orGone ixReconUpload, orGone ixExternalUpload, orGone ixProgress, orGone matchingRules, orGone externalTransactions,
      orGone matchesTable, orGone reconciliations, orGone reconciliationProgress], true⟩,
    -- sql/1723454727.sql
    ⟨[need currencyMultiplier], [need currencyMultiplier], true⟩,
    -- sql/1736998493.sql
    ⟨[need rate], [need rate], true⟩,
    -- sql/1740373196.sql
    ⟨[need balances, need ledgers, orNew balanceSnapshots, new ixSnapBalance, new ixSnapTime, new ixSnapLedger],
     [orGone ixSnapLedger, orGone ixSnapTime, orGone ixSnapBalance, orGone balanceSnapshots], true⟩,
    -- sql/1740373636.sql
    ⟨[orNew takeSnapshots], [orGone takeSnapshots], true⟩,
    -- sql/1740486534.sql
    ⟨[orNew takeSnapshots], [orGone takeSnapshots], true⟩,
    -- sql/1740493523.sql
    ⟨[orNew takeSnapshots], [orGone takeSnapshots], true⟩,
    -- sql/1741007609.sql
    ⟨[new effectiveDate], [gone effectiveDate], true⟩,
    -- sql/1741695343.sql
    ⟨[orNew apiKeys], [orGone apiKeys], true⟩,
    -- sql/1741885443.sql
    ⟨[need preciseAmount, need balances, need inflightBalance, need inflightCredit, need inflightDebit],
     [need preciseAmount, need balances, need inflightBalance, need inflightCredit, need inflightDebit], true⟩,
    -- sql/1742098199.sql
    ⟨[orNew preventTransactionUpdate, orGone nullSafe] ++ anew preventTransactionTrigger,
     [orGone preventTransactionTrigger, orGone preventTransactionUpdate], true⟩,
    -- sql/1742098787.sql
    ⟨[need balanceSnapshots], [need balanceSnapshots], true⟩,
    -- sql/1742099489.sql
    ⟨orNew preventSnapshotUpdate :: anew preventSnapshotTrigger, [orGone preventSnapshotTrigger, orGone preventSnapshotUpdate], true⟩,
    -- sql/1742100059.sql
    ⟨[orNew transactionJournal, orNew logTransactionChanges] ++ anew logTransactionTrigger,
     [orGone logTransactionTrigger, orGone logTransactionChanges, orGone transactionJournal], true⟩,
    -- sql/1742101752.sql
    ⟨orNew reconcileBalance :: anew reconcileBalanceTrigger, [orGone reconcileBalanceTrigger, orGone reconcileBalance], true⟩,
    -- sql/1742400213.sql
    ⟨[orNew preventTransactionUpdate, orGone nullSafe] ++ anew preventTransactionTrigger,
     [orGone preventTransactionTrigger, orGone preventTransactionUpdate], true⟩,
    -- sql/1748323024.sql
    ⟨[new uniqueIndicatorCurrency], [need balances, orGone uniqueIndicatorCurrency], true⟩,
    -- sql/1765154909.sql
    ⟨[need externalTransactions], [need externalTransactions], true⟩,
    -- sql/1766887982.sql
    ⟨[need effectiveDate], [], true⟩,
    -- sql/1768315575.sql
    ⟨[need transactions, need balances, need identity, need ledgers], [], true⟩,
    -- sql/1768746546.sql
    ⟨[orNew trackLineage, orNew allocationStrategy, orNew lineageMappings],
     [orGone lineageMappings, need balances, orGone trackLineage, orGone allocationStrategy], true⟩,
    -- sql/1769343506.sql
    ⟨[orNew lineageOutbox, orNew ixOutboxTransaction, new fkBalance, new fkShadow, new fkAggregate, new fkIdentity],
     [need lineageMappings, orGone fkBalance, orGone fkShadow, orGone fkAggregate, orGone fkIdentity, need lineageOutbox], true⟩,
    -- sql/1770461873.sql
    ⟨[orNew keyPrefix], [need apiKeys, orGone keyPrefix], true⟩,
    -- sql/1770611011.sql
    ⟨[orNew ixReferenceUnique], [orGone ixReferenceUnique], true⟩,
    -- sql/1780963200.sql
    ⟨[need transactions, orGone ixReference], [], false⟩,
    -- sql/1780963300.sql
    ⟨[orGone getWide, orGone getNarrow, need version, need inflightDebit, orNew getNarrow, need transactions, orGone rate,
      need balances, orGone currencyMultiplier, orGone modificationRef],
     [orNew modificationRef, orNew currencyMultiplier, orNew rate, orGone getNarrow, orGone getWide, need version,
      need inflightDebit, orNew getWide], true⟩,
    -- sql/1781162328.sql
    ⟨[orNew chainSeq, orNew chainPrevHash, orNew chainHash, orNew chainState, orNew ixChainSeq, orNew preventTransactionUpdate,
      orNew nullSafe],
     [orGone ixChainSeq, orGone chainState, need transactions, orGone chainHash, orGone chainPrevHash, orGone chainSeq,
      orNew preventTransactionUpdate, orGone nullSafe], true⟩,
    -- sql/1781162329.sql
    ⟨[need transactions, need chainSeq], [], false⟩ ]

/-- Recorded files, always the first ones, and the objects. -/
structure St where
  applied : Nat
  db : Db
deriving DecidableEq, Repr

/-- What may happen to a database: the next file runs, the last one is undone, or a file outside a
transaction stops after some statements. A command that is interrupted, or whose file fails, has done some of these. -/
inductive Ev
  | up | down | upCut (k : Nat) | downCut (k : Nat)
deriving Repr

def next (s : St) : Option Migration := migrations[s.applied]?

def last (s : St) : Option Migration := if s.applied = 0 then none else migrations[s.applied - 1]?

def step (s : St) : Ev → Option St
  | .up => (next s).bind fun m => (runOps s.db m.up).map fun d => ⟨s.applied + 1, d⟩
  | .down => (last s).bind fun m => (runOps s.db m.down).map fun d => ⟨s.applied - 1, d⟩
  | .upCut k => (next s).bind fun m => if m.tx then none else (runOps s.db (m.up.take k)).map fun d => ⟨s.applied, d⟩
  | .downCut k => (last s).bind fun m => if m.tx then none else (runOps s.db (m.down.take k)).map fun d => ⟨s.applied, d⟩

/-- A history: what cannot be done leaves everything as it is. -/
def runAll : St → List Ev → St
  | s, [] => s
  | s, e :: es => runAll ((step s e).getD s) es

/-- An empty database. -/
def empty : St := ⟨0, 0⟩

/-- `blnk migrate up` (`cmd/migrate.go:81-97`) when nothing interrupts it: whether it succeeded, and what is left. -/
def migrateUp : Nat → St → Bool × St
  | 0, s => (s.applied == migrations.length, s)
  | n + 1, s => if s.applied = migrations.length then (true, s) else match step s .up with
    | some s' => migrateUp n s'
    | none => (false, s)

/-- `blnk migrate down` (`cmd/migrate.go:100-116`). -/
def migrateDown : Nat → St → Bool × St
  | 0, s => (s.applied == 0, s)
  | n + 1, s => if s.applied = 0 then (true, s) else match step s .down with
    | some s' => migrateDown n s'
    | none => (false, s)

/-! ### The statement that changes transactions -/

/-- A transaction as `prevent_transaction_update` (`sql/1742400213.sql:18-43`) sees it: the eleven columns it compares,
and the effective date; `none` is `NULL`. -/
structure TxnRow where
  compared : List (Option Nat)
  effective : Option Nat
  created : Nat
deriving DecidableEq, Repr

/-- `=` of SQL. -/
def sqlEq (a b : Option Nat) : Option Bool := match a, b with
  | some x, some y => some (x == y)
  | _, _ => none

/-- `AND` of SQL. -/
def sqlAnd : Option Bool → Option Bool → Option Bool
  | some false, _ => some false
  | _, some false => some false
  | some true, some true => some true
  | _, _ => none

/-- The trigger lets the update pass when its condition is true. -/
def triggerPasses (old new : TxnRow) : Bool :=
  ((old.compared.zip new.compared).foldl (fun acc p => sqlAnd acc (sqlEq p.2 p.1)) (some true)) = some true

/-- `UPDATE blnk.transactions SET effective_date = created_at WHERE effective_date IS NULL`
(`sql/1766887982.sql:17-19`) under that trigger; `none` is an error. -/
def backfill : List TxnRow → Option (List TxnRow)
  | [] => some []
  | r :: rs => match r.effective with
    | some _ => (backfill rs).map (r :: ·)
    | none => if triggerPasses r { r with effective := some r.created } then (backfill rs).map ({ r with effective := some r.created } :: ·)
        else none

end Blnk.Migr
