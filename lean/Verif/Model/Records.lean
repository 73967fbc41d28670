import Verif.Model.Errors
/-
The records a ledger is made of, besides its transactions: ledgers, identities, balances, accounts
and the fund-lineage mappings. What creating, reading, changing and deleting them does, with the
references and the UNIQUE columns the schema has (`sql/1708676327.sql:18-85`,
`sql/1748323024.sql:16`, `sql/1768746546.sql:22-31`, `sql/1769343506.sql:63-77`), and what the
requests answer.

Simplifications: of balances only what other records depend on is kept. Metadata is its JSON text,
`none` for null. Every statement of the database is one step and succeeds unless a constraint stands
against it. Details of errors are left out; their codes and messages are kept. Lengths are counted in
characters where the code counts bytes, which differs only for texts that are not ASCII.
-/
namespace Blnk.Book
open Errs

/-! ### Rows -/

/-- A row of `blnk.ledgers` (`sql/1708676327.sql:19-26`). -/
structure Ledger where
  id : Text
  name : Text
  info : Option Text := none
deriving DecidableEq, Repr

/-- The text columns of `blnk.identity` (`sql/1708676327.sql:29-51`), the id left out. -/
inductive Field where
  | identityType | firstName | lastName | otherNames | gender | email | phone | nationality
  | organization | category | street | country | state | postCode | city
deriving DecidableEq, Repr

/-- A date of birth as sent: the day and the time of day it names, and its offset from UTC in seconds.
The zero time stands for one that was not sent. -/
structure Dob where
  day : Int
  time : Nat
  offset : Int
deriving DecidableEq, Repr

/-- Go's zero `time.Time`: the first day of year 1, 719162 days before 1970. -/
def Dob.zero : Dob := ⟨-719162, 0, 0⟩

/-- `IsZero`: the instant is that of the zero time. -/
def Dob.isZero (d : Dob) : Bool :=
  d.day * 86400000000000 + d.time - d.offset * 1000000000 = Dob.zero.day * 86400000000000

/-- A `DATE` column (`sql/1708676327.sql:37`): the driver writes the time as it stands, the column keeps
the day, and reading gives midnight UTC of it. -/
def Dob.stored (d : Dob) : Dob := ⟨d.day, 0, 0⟩

/-- A row of `blnk.identity`. -/
structure Identity where
  id : Text
  get : Field → Text
  dob : Dob := Dob.zero
  info : Option Text := none

/-- What of a row of `blnk.balances` other records depend on (`sql/1708676327.sql:54-69`); an identity or
indicator that is NULL is `none`. -/
structure Balance where
  id : Text
  ledger : Text
  identity : Option Text := none
  currency : Text
  indicator : Option Text := none
deriving DecidableEq, Repr

/-- A row of `blnk.accounts` (`sql/1708676327.sql:72-85`). -/
structure Account where
  id : Text
  name : Text
  number : Text
  bank : Text
  currency : Text
  ledger : Text
  identity : Text
  balance : Text
  info : Option Text := none
deriving DecidableEq, Repr

/-- A row of `blnk.lineage_mappings` (`sql/1768746546.sql:22-31`). -/
structure Mapping where
  balance : Text
  provider : Text
  shadow : Text
  aggregate : Text
  identity : Text
deriving DecidableEq, Repr

/-- The tables. -/
structure DB where
  ledgers : List Ledger
  idents : List Identity := []
  balances : List Balance := []
  accounts : List Account := []
  maps : List Mapping := []

/-- `GeneralLedgerID` (`api/model/model.go:184`). -/
def generalId : Text := t! "general_ledger_id"

/-- The database after its migrations (`sql/1708676327.sql:127-129`). -/
def DB.fresh : DB := { ledgers := [⟨generalId, t! "General Ledger", some (t! "{}")⟩] }

def DB.ledger? (db : DB) (id : Text) : Option Ledger := db.ledgers.find? (·.id == id)
def DB.ident? (db : DB) (id : Text) : Option Identity := db.idents.find? (·.id == id)
def DB.balance? (db : DB) (id : Text) : Option Balance := db.balances.find? (·.id == id)
def DB.account? (db : DB) (id : Text) : Option Account := db.accounts.find? (·.id == id)

/-- `GenerateUUIDWithSuffix` (`model/model.go:50-55`); `u` is the UUID drawn. -/
def newId (kind u : Text) : Text := kind ++ '_' :: u

/-! ### Ledgers -/

/-- `POST /ledgers` (`api/ledger.go:39-59`, `api/model/model.go:162-166`, `database/ledger.go:41-72`). -/
def createLedger (db : DB) (u name : Text) (info : Option Text) : DB × Except Resp Ledger :=
  if name = [] then (db, .error (respondCode "GEN_VALIDATION_ERROR" (t! "name: cannot be blank.")))
  else
    let l : Ledger := ⟨newId (t! "ldg") u, name, info⟩
    if db.ledgers.any (·.id == l.id) then
      (db, .error (respondError { upgrades := [("GEN_CONFLICT", "LGR_DUPLICATE")] }
        (api "CONFLICT" (t! "Ledger with this name or ID already exists") none)))
    else ({ db with ledgers := db.ledgers ++ [l] }, .ok l)

/-- The options `GET` and `PUT /ledgers/:id` answer failures with (`api/ledger.go:82`, `:224`). -/
def ledgerOpts : Opts := { upgrades := [("GEN_NOT_FOUND", "LGR_NOT_FOUND")] }

/-- `GET /ledgers/:id` (`api/ledger.go:72-87`, `database/ledger.go:140-167`). -/
def getLedger (db : DB) (id : Text) : Except Resp Ledger :=
  match db.ledger? id with
  | none => .error (respondError ledgerOpts (api "NOT_FOUND" (t! "Ledger not found") none))
  | some l => .ok l

/-- `PUT /ledgers/:id` (`api/ledger.go:203-229`, `database/ledger.go:179-209`): the answer is the ledger
read before, with the new name. -/
def updateLedger (db : DB) (id name : Text) : DB × Except Resp Ledger :=
  if name = [] then (db, .error (respondCode "GEN_VALIDATION_ERROR" (t! "name: cannot be blank.")))
  else match getLedger db id with
    | .error r => (db, .error r)
    | .ok l =>
      ({ db with ledgers := db.ledgers.map fun x => if x.id = id then { x with name } else x },
        .ok { l with name })

/-! ### Identities -/

/-- `xtob` of `github.com/google/uuid`, for one digit. -/
def hexVal (c : Char) : Option Nat :=
  if '0' ≤ c ∧ c ≤ '9' then some (c.toNat - 48)
  else if 'a' ≤ c ∧ c ≤ 'f' then some (c.toNat - 87)
  else if 'A' ≤ c ∧ c ≤ 'F' then some (c.toNat - 55)
  else none

def hexAll : Text → Option (List Nat)
  | [] => some []
  | c :: cs => match hexVal c, hexAll cs with
    | some v, some vs => some (v :: vs)
    | _, _ => none

/-- The form `xxxxxxxx-xxxx-xxxx-xxxx-xxxxxxxxxxxx`, whatever follows it. -/
def dashed (s : Text) : Option (List Nat) :=
  if s[8]? = some '-' ∧ s[13]? = some '-' ∧ s[18]? = some '-' ∧ s[23]? = some '-' then
    hexAll (s.take 8 ++ (s.drop 9).take 4 ++ (s.drop 14).take 4 ++ (s.drop 19).take 4 ++ (s.drop 24).take 12)
  else none

/-- `uuid.Parse` of `github.com/google/uuid` v1.6.0 (`go.mod:16`): the digits of the UUID. It takes the
plain form, the form after `urn:uuid:`, the form with one character on either side (meant for braces,
which are not checked), and the digits alone. -/
def parseUuid (s : Text) : Option (List Nat) :=
  if s.length = 36 then dashed s
  else if s.length = 45 then if lower (s.take 9) = t! "urn:uuid:" then dashed (s.drop 9) else none
  else if s.length = 38 then dashed (s.drop 1)
  else if s.length = 32 then hexAll s
  else none

/-- The options of `POST /identities` (`api/identity.go:49`). -/
def createIdentOpts : Opts :=
  { upgrades := [("GEN_BAD_REQUEST", "IDT_VALIDATION_ERROR"), ("GEN_CONFLICT", "IDT_VALIDATION_ERROR")] }

/-- The options of the other requests for identities (`api/identity.go:76`, `:110`, `:136`). -/
def identOpts : Opts := { upgrades := [("GEN_NOT_FOUND", "IDT_NOT_FOUND")] }

/-- The id an identity gets, or why not (`database/identity.go:60-70`). -/
def chosenId (given u : Text) : Except Err Text :=
  if given = [] then .ok (newId (t! "idt") u)
  else if (t! "idt_").isPrefixOf given then
    match parseUuid (given.drop 4) with
    | some _ => .ok given
    | none => .error (api "BAD_REQUEST" (t! "identity_id suffix after 'idt_' must be a valid UUID") none)
  else .error (api "BAD_REQUEST" (t! "identity_id must start with the 'idt_' prefix") none)

/-- `POST /identities` (`api/identity.go:40-54`, `database/identity.go:53-90`); the answer is what was
sent, with the id. -/
def createIdentity (db : DB) (u : Text) (i : Identity) : DB × Except Resp Identity :=
  match chosenId i.id u with
  | .error e => (db, .error (respondError createIdentOpts e))
  | .ok id =>
    if db.idents.any (·.id == id) then
      (db, .error (respondError createIdentOpts
        (api "CONFLICT" (t! "Identity already exists: " ++ id) none)))
    else
      ({ db with idents := db.idents ++ [{ i with id, dob := i.dob.stored }] }, .ok { i with id })

/-- The error of `GetIdentityByID`, `UpdateIdentity` and `DeleteIdentity` for an id nobody has
(`database/identity.go:130`, `:296`, `:327`). -/
def noIdentity (id : Text) : Err := api "NOT_FOUND" (t! "Identity with ID '" ++ id ++ t! "' not found") none

/-- `GET /identities/:id` (`api/identity.go:67-81`, `database/identity.go:98-150`). -/
def getIdentity (db : DB) (id : Text) : Except Resp Identity :=
  match db.ident? id with
  | none => .error (respondError identOpts (noIdentity id))
  | some i => .ok i

/-- The columns an update sets (`database/identity.go:212-267`): the texts that are not empty, a date of
birth that is not the zero time, metadata that is not null. -/
def applyUpdate (q : Identity) (i : Identity) : Identity :=
  { i with
    get := fun f => if q.get f = [] then i.get f else q.get f
    dob := if q.dob.isZero then i.dob else q.dob.stored
    info := match q.info with | none => i.info | some m => some m }

/-- The body of `PUT /identities/:id`: each value may be there or not. -/
structure Patch where
  get : Field → Option Text
  dob : Option Dob := none
  info : Option Text := none

/-- `ShouldBindJSON` into an `Identity`, and the id of the path (`api/identity.go:95-107`): a value that is not
there is the empty one. -/
def Patch.bind (id : Text) (p : Patch) : Identity :=
  ⟨id, fun f => (p.get f).getD [], p.dob.getD Dob.zero, p.info⟩

/-- All the text columns, as the update goes through them (`database/identity.go:241-256`). -/
def allFields : List Field :=
  [.identityType, .firstName, .lastName, .otherNames, .gender, .email, .phone, .nationality,
   .organization, .category, .street, .country, .state, .postCode, .city]

/-- Nothing to set (`database/identity.go:270`). -/
def emptyUpdate (q : Identity) : Bool :=
  allFields.all (fun f => (q.get f).isEmpty) && q.dob.isZero && q.info.isNone

/-- `PUT /identities/:id` (`api/identity.go:94-115`, `database/identity.go:211-300`); `none` means
"updated". -/
def updateIdentity (db : DB) (id : Text) (q : Identity) : DB × Option Resp :=
  if emptyUpdate q then
    (db, some (respondError identOpts (api "BAD_REQUEST" (t! "No fields provided for update") none)))
  else if db.idents.any (·.id == id) then
    ({ db with idents := db.idents.map fun i => if i.id = id then applyUpdate q i else i }, none)
  else (db, some (respondError identOpts (noIdentity id)))

/-- `DELETE /identities/:id` (`api/identity.go:127-141`, `database/identity.go:308-331`): balances and
accounts that refer to the identity forbid it (`sql/1708676327.sql:65`, `:82`), mappings that do go with
it (`sql/1769343506.sql:75-77`). -/
def deleteIdentity (db : DB) (id : Text) : DB × Option Resp :=
  if db.idents.any (·.id == id) then
    if db.balances.any (·.identity == some id) || db.accounts.any (·.identity == id) then
      (db, some (respondError identOpts (api "INTERNAL_SERVER_ERROR" (t! "Failed to delete identity") none)))
    else
      ({ db with idents := db.idents.filter (·.id != id), maps := db.maps.filter (·.identity != id) }, none)
  else (db, some (respondError identOpts (noIdentity id)))

/-! ### Balances -/

/-- `INSERT` of a balance (`database/balance.go:203-278`). -/
def insertBalance (db : DB) (b : Balance) : DB × Except Err Balance :=
  if db.balances.any (fun x => x.indicator == b.indicator && b.indicator.isSome && x.currency == b.currency) then
    (db, .error (api "CONFLICT" (t! "Balance already exists for indicator '" ++ b.indicator.getD [] ++
      t! "' and '" ++ b.currency ++ t! "'") none))
  else if db.balances.any (·.id == b.id) then
    (db, .error (api "CONFLICT" (t! "Balance already exists: " ++ b.id) none))
  else if db.ledgers.any (·.id == b.ledger) &&
      (match b.identity with | none => true | some i => db.idents.any (·.id == i)) then
    ({ db with balances := db.balances ++ [b] }, .ok b)
  else (db, .error (api "BAD_REQUEST" (t! "Invalid ledger ID") none))

/-- A text column that may be NULL (`database/balance.go:214-223`). -/
def nullable (t : Text) : Option Text := if t = [] then none else some t

/-- What `POST /balances` takes (`api/model/model.go:190-219`), the rules on indicators and allocation
left out: `indicator` is one that passed them, or nothing. -/
structure BalanceReq where
  ledger : Text
  identity : Text := []
  currency : Text
  indicator : Text := []
  track : Bool := false
deriving DecidableEq, Repr

/-- `POST /balances` (`api/balance.go:41-61`). -/
def createBalance (db : DB) (u : Text) (q : BalanceReq) : DB × Except Resp Balance :=
  if q.ledger = [] ∨ q.currency = [] ∨ (q.track = true ∧ q.identity = []) then
    (db, .error (respondCode "GEN_VALIDATION_ERROR" (t! "cannot be blank")))
  else match insertBalance db ⟨newId (t! "bln") u, q.ledger, nullable q.identity, q.currency, nullable q.indicator⟩ with
    | (db', .ok b) => (db', .ok b)
    | (db', .error e) =>
      (db', .error (respondError { upgrades := [("GEN_VALIDATION_ERROR", "BAL_VALIDATION_ERROR")] } e))

/-- `getOrCreateBalanceByIndicator` (`balance.go:154-209`) when the balance is missing. -/
def ensureBalance (db : DB) (u ind cur : Text) : DB :=
  (insertBalance db ⟨newId (t! "bln") u, generalId, none, cur, nullable ind⟩).1

/-- The error of `GetBalanceByIDLite` for an id nobody has (`database/balance.go:389`). -/
def noBalance (id : Text) : Err := api "NOT_FOUND" (t! "Balance with ID '" ++ id ++ t! "' not found") none

/-- `PUT /balances/:id/identity` (`api/balance.go:477-501`, `balance.go:663-682`,
`database/balance.go:1689-1714`). -/
def moveBalance (db : DB) (id owner : Text) : DB × Option Resp :=
  let o : Opts := { upgrades := [("GEN_NOT_FOUND", "BAL_NOT_FOUND")] }
  if owner = [] then (db, some (respondCode "GEN_VALIDATION_ERROR" (t! "identity_id is required")))
  else match db.ident? owner with
    | none => (db, some (respondError o (wrap (t! "identity validation failed: ") (noIdentity owner))))
    | some _ => match db.balance? id with
      | none => (db, some (respondError o (wrap (t! "balance validation failed: ") (noBalance id))))
      | some _ =>
        ({ db with balances := db.balances.map fun b => if b.id = id then { b with identity := some owner } else b },
          none)

/-! ### Fund lineage -/

/-- `UpsertLineageMapping` (`database/lineage.go:33-54`): one row for a balance and a provider; a second
one changes its shadow and aggregate balances, not its identity. -/
def upsert (m : Mapping) (ms : List Mapping) : List Mapping :=
  if ms.any (fun x => x.balance == m.balance && x.provider == m.provider) then
    ms.map fun x => if x.balance = m.balance ∧ x.provider = m.provider then
      { x with shadow := m.shadow, aggregate := m.aggregate } else x
  else ms ++ [m]

/-- A credit is tracked (`lineage_credit.go:30-68`, `:117-131`): the mapping of the balance that got money
from the provider, under the owner it has then. `shadow` and `aggregate` are balances that were found or
made (`:82-103`). -/
def track (db : DB) (id provider shadow aggregate : Text) : DB :=
  match db.balance? id, db.balance? shadow, db.balance? aggregate with
  | some b, some _, some _ =>
    match b.identity with
    | some i =>
      if db.idents.any (·.id == i) then { db with maps := upsert ⟨id, provider, shadow, aggregate, i⟩ db.maps } else db
    | none => db
  | _, _, _ => db

/-- `GetLineageMappings` (`database/lineage.go:57-92`): what reports and debits of a balance go by. -/
def mapsOf (db : DB) (id : Text) : List Mapping := db.maps.filter (·.balance == id)

/-! ### Accounts -/

/-- `CreateAccount` (`api/model/account.go:18-26`). -/
structure AccountReq where
  bank : Text := []
  number : Text := []
  currency : Text := []
  identity : Text := []
  ledger : Text := []
  balance : Text := []
  info : Option Text := none
deriving DecidableEq, Repr

/-- `ValidateCreateAccount` (`api/model/model.go:311-329`). -/
def validAccount (q : AccountReq) : Bool :=
  if q.balance = [] then q.ledger ≠ [] && q.identity ≠ [] && q.currency ≠ []
  else q.ledger = [] && q.currency = []

/-- What the service for account numbers does (`account.go:39-71`): it is not in use, it fails, or it
answers a number and a bank. -/
inductive Numbers where
  | off
  | fails (e : Err)
  | answers (number bank : Text)
deriving DecidableEq, Repr

/-- `applyAccountName` (`account.go:82-96`). -/
def accountName (i : Identity) : Text :=
  if i.get .identityType = t! "organization" then i.get .organization
  else i.get .firstName ++ ' ' :: i.get .lastName

/-- The driver's text for a number that is in use, and for a reference to nothing: these errors reach the
handler as they are (`database/account.go:52-58`). -/
def dupNumber : Err := plain (t! "pq: duplicate key value violates unique constraint \"accounts_number_key\"")
def dupAccount : Err := plain (t! "pq: duplicate key value violates unique constraint \"accounts_account_id_key\"")
def danglingAccount : Err :=
  plain (t! "pq: insert or update on table \"accounts\" violates foreign key constraint")

/-- The owner of a new account (`overrideLedgerAndIdentity`, `account.go:107-125`): the balance's, if it has one. -/
def ownerOf (b : Balance) (given : Text) : Text :=
  match b.identity with
  | some i => if i = [] then given else i
  | none => given

/-- Number and bank of a new account (`account.go:39-71`): the service's, when it answers both. -/
def numberOf (n : Numbers) (q : AccountReq) : Text × Text :=
  match n with
  | .answers num bank => if num = [] ∨ bank = [] then (q.number, q.bank) else (num, bank)
  | _ => (q.number, q.bank)

/-- `INSERT` of an account (`database/account.go:40-59`). -/
def insertAccount (db : DB) (a : Account) : DB × Except Err Account :=
  if db.accounts.any (·.id == a.id) then (db, .error dupAccount)
  else if db.accounts.any (·.number == a.number) then (db, .error dupNumber)
  else if db.ledgers.any (·.id == a.ledger) then ({ db with accounts := db.accounts ++ [a] }, .ok a)
  else (db, .error danglingAccount)

/-- `CreateAccount` (`account.go:136-152`) for a valid request. -/
def openAccount (db : DB) (u : Text) (n : Numbers) (q : AccountReq) : DB × Except Err Account :=
  match db.balance? q.balance with
  | none => (db, .error (noBalance q.balance))
  | some b =>
    let owner := ownerOf b q.identity
    let ledger := if b.ledger = [] then q.ledger else b.ledger
    let currency := if b.currency = [] then q.currency else b.currency
    match db.ident? owner with
    | none => (db, .error (noIdentity owner))
    | some i =>
      match n with
      | .fails e => (db, .error e)
      | n =>
        insertAccount db ⟨newId (t! "acc") u, accountName i, (numberOf n q).1, (numberOf n q).2, currency, ledger, owner,
          q.balance, q.info⟩

/-- `POST /accounts` (`api/accounts.go:40-59`). -/
def createAccount (db : DB) (u : Text) (n : Numbers) (q : AccountReq) : DB × Except Resp Account :=
  if validAccount q then
    match openAccount db u n q with
    | (db', .ok a) => (db', .ok a)
    | (db', .error e) => (db', .error (respondError { upgrades := [("GEN_CONFLICT", "ACC_DUPLICATE")] } e))
  else (db, .error (respondCode "GEN_VALIDATION_ERROR" (t! "invalid account")))

/-- `GET /accounts/:id` (`api/accounts.go:72-83`, `database/account.go:69-104`). -/
def getAccount (db : DB) (id : Text) : Except Resp Account :=
  match db.account? id with
  | none => .error (respondError { upgrades := [("GEN_NOT_FOUND", "ACC_NOT_FOUND")] }
      (plain (t! "account with ID '" ++ id ++ t! "' not found")))
  | some a => .ok a

/-- `GET /accounts` without filters (`api/accounts.go:134-140`, `database/account.go:284-322`): every
account, of each some columns only. -/
def listAccounts (db : DB) : List Account :=
  db.accounts.map fun a => { a with ledger := [], identity := [], balance := [] }

/-- `POST /accounts/filter`, and `GET /accounts` with filters (`database/account.go:430-527`), for a
condition on rows: all columns. The order and the page are left out. -/
def filterAccounts (db : DB) (p : Account → Bool) : List Account := db.accounts.filter p

/-! ### Histories -/

/-- What can happen to the records. -/
inductive Ev where
  | createLedger (u name : Text) (info : Option Text)
  | updateLedger (id name : Text)
  | createIdentity (u : Text) (i : Identity)
  | updateIdentity (id : Text) (q : Identity)
  | deleteIdentity (id : Text)
  | createBalance (u : Text) (q : BalanceReq)
  | ensureBalance (u ind cur : Text)
  | moveBalance (id owner : Text)
  | track (id provider shadow aggregate : Text)
  | createAccount (u : Text) (n : Numbers) (q : AccountReq)

def step (db : DB) : Ev → DB
  | .createLedger u name info => (createLedger db u name info).1
  | .updateLedger id name => (updateLedger db id name).1
  | .createIdentity u i => (createIdentity db u i).1
  | .updateIdentity id q => (updateIdentity db id q).1
  | .deleteIdentity id => (deleteIdentity db id).1
  | .createBalance u q => (createBalance db u q).1
  | .ensureBalance u ind cur => ensureBalance db u ind cur
  | .moveBalance id owner => (moveBalance db id owner).1
  | .track id p sh ag => track db id p sh ag
  | .createAccount u n q => (createAccount db u n q).1

def run (db : DB) : List Ev → DB
  | [] => db
  | e :: es => run (step db e) es

/-! ### Times -/

/-- How long before the nearest microsecond a time is, in a `TIMESTAMP` column
(`sql/1708676327.sql:24`, `:49`, `:66`, `:80`). The driver writes the time with the server's offset from UTC, the column
drops the offset and keeps microseconds, and reading takes them as UTC. Times are nanoseconds since
1970, the offset is in seconds. Simplified: a time exactly between two microseconds goes up. -/
def throughTimestamp (offset : Int) (ns : Int) : Int := (ns + offset * 1000000000 + 500) / 1000 * 1000

/-- The kinds of records with a creation time. -/
inductive Kind where
  | ledger | identity | balance | account
deriving DecidableEq, Repr

/-- When a record was created, as answered and as read later: the server's clock, except that ledgers are
inserted without a time (`database/ledger.go:50-56`) and the column's default is the database's
`NOW()` in its own zone (`dbClock`); the others send it (`database/identity.go:71-77`,
`database/balance.go:212`, `database/account.go:49`). -/
def createdAnswer (clock : Int) : Int := clock
def createdRead (k : Kind) (offset clock dbClock : Int) : Int :=
  match k with
  | .ledger => dbClock
  | _ => throughTimestamp offset clock

end Blnk.Book
