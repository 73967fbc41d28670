import Verif.Model.Paging
import Verif.Model.Filter
/-
The lists of transactions, balances, ledgers, identities and accounts: which part of which rows a
request is answered with, in which order, with which count and in which shape.

Which rows a filter selects is `Model/Filter.lean`; here the selected rows are given. What is shown of
a row is `Model/Views.lean`. Not modelled: a query or a row that cannot be read, which is answered with
an error, and numbers outside 64 bits in a request body, which are refused when the body is read.
-/
namespace Blnk.Lists
open Paging (page)

inductive Table
  | transactions | balances | ledgers | identities | accounts
deriving DecidableEq, Repr

/-- The name the filter package knows the table by (`api/transactions.go:436`, `api/balance.go:176`,
`api/ledger.go:173`, `api/identity.go:225`, `api/accounts.go:164`). -/
def Table.name : Table → String
  | .transactions => "transactions"
  | .balances => "balances"
  | .ledgers => "ledgers"
  | .identities => "identity"
  | .accounts => "accounts"

/-- A number in the URL as `strconv.Atoi` finds it: not given, not a number of 64 bits, or a number. -/
inductive Param
  | absent | unreadable | num (n : Int)
deriving DecidableEq, Repr

/-- `LIMIT` (none: no such clause) and `OFFSET` of the query. -/
structure Window where
  limit : Option Nat
  offset : Nat
deriving DecidableEq, Repr

/-- Limit and offset of `GetAllTransactions`, `GetAllIdentities` and `GetAllAccounts`
(`api/transactions.go:358-369`, `api/identity.go:161-172`, `api/accounts.go:101-112`). -/
def lenientLimit : Param → Int
  | .num n => if n ≤ 0 then 20 else n
  | _ => 20

def lenientOffset : Param → Int
  | .num n => if n < 0 then 0 else n
  | _ => 0

/-- Limit and offset of `GetBalances` and `GetAllLedgers`, refused with GEN_VALIDATION_ERROR where the
result is `none` (`api/balance.go:113-123`, `api/ledger.go:107-121`). -/
def strictLimit : Param → Option Int
  | .absent => some 10
  | .unreadable => none
  | .num n => if n ≤ 0 then none else some n

def strictOffset : Param → Option Int
  | .absent => some 0
  | .unreadable => none
  | .num n => if n < 0 then none else some n

/-- What the queries with filters make of the limit (`database/transaction_filters.go:56-58`,
`database/balance.go:1748-1750`, `database/ledger.go:243-245`, `database/identity.go:418-420`,
`database/account.go:431-433`). -/
def capped : Table → Int → Int
  | .transactions, n | .balances, n => if n ≤ 0 ∨ 1000 < n then 1000 else n
  | _, n => if n ≤ 0 ∨ 100 < n then 20 else n

/-- The window of a GET request, with or without filters in the URL; `none` is the refusal. Without
filters transactions and balances use the limit as it is (`database/transaction_queries.go:276-281`,
`database/balance.go:644-649`), ledgers cap it (`database/ledger.go:85-95`), and identities and accounts
are listed whole (`api/identity.go:195-196`, `database/identity.go:158-162`, `api/accounts.go:135-136`,
`database/account.go:286-290`). -/
def getWindow (t : Table) (filtered : Bool) (limit offset : Param) : Option Window :=
  match t with
  | .transactions =>
    some ⟨some (if filtered then capped .transactions (lenientLimit limit) else lenientLimit limit).toNat, (lenientOffset offset).toNat⟩
  | .balances =>
    match strictLimit limit, strictOffset offset with
    | some l, some o => some ⟨some (if filtered then capped .balances l else l).toNat, o.toNat⟩
    | _, _ => none
  | .ledgers =>
    match strictLimit limit, strictOffset offset with
    | some l, some o => some ⟨some (capped .ledgers l).toNat, o.toNat⟩
    | _, _ => none
  | t =>
    if filtered then some ⟨some (capped t (lenientLimit limit)).toNat, (lenientOffset offset).toNat⟩
    else some ⟨none, 0⟩

/-- The window of a POST request to a filter endpoint; a number left out is 0
(`ParseFiltersFromBody`, `api/filter_helper.go:91-100`). -/
def bodyWindow (t : Table) (limit offset : Int) : Window :=
  ⟨some (capped t (if limit ≤ 0 ∨ 100 < limit then 20 else limit)).toNat, (if offset < 0 then 0 else offset).toNat⟩

/-- Column and direction of `ORDER BY`. -/
structure Order where
  column : String
  asc : Bool
deriving DecidableEq, Repr

/-- A GET request has no options, whatever its URL says: the queries with filters are called with nil
options (`database/transaction_filters.go:33-36`, `database/balance.go:1728-1731`) and the others have the
order written out (`database/transaction_queries.go:279`, `database/balance.go:647`, `database/ledger.go:93`,
`database/identity.go:161`, `database/account.go:289`). `ParseQueryOptions` (`api/filter_helper.go:143-165`)
is called by nothing but tests. -/
def getOrder : Order := ⟨"created_at", false⟩

/-- The order of a POST request (`api/filter_helper.go:102-117`, `internal/filter/sql_builder.go:219-240`,
`460-473`). Both words are trimmed and put in lower case first, and are meant here as they are then. -/
def bodyOrder (t : Table) (sortBy sortOrder : String) : Order :=
  ⟨Filter.sortColumn t.name sortBy, sortOrder == "asc"⟩

variable {R : Type}

/-- `LIMIT` and `OFFSET` of an ordered answer. -/
def cut (w : Window) (l : List R) : List R :=
  match w.limit with
  | some n => page l n w.offset
  | none => l.drop w.offset

/-- Of the fields one may sort by, the columns of the table: a transaction has neither a balance's id nor an
indicator (`sql/1708676327.sql:19-51,54-69,72-85,102-119`, `internal/filter/sql_builder.go:259-449`). -/
def hasColumn : Table → String → Bool
  | .transactions, c => (Filter.safeColumns "transactions").contains c && c != "balance_id" && c != "indicator"
  | t, c => (Filter.safeColumns t.name).contains c

/-- What the database may answer over these rows, if the column exists: they are ordered by the column
and by nothing else, so rows that agree in it come in any order, and in another one each time. `key` is the
column's order, NULLs included. -/
structure Answer (key : String → R → Int) (t : Table) (o : Order) (rows : List R) (w : Window) (out : List R) : Prop where
  column : hasColumn t o.column
  possible : ∃ l : List R, l.Perm rows ∧ l.Pairwise (fun a b => if o.asc then key o.column a ≤ key o.column b else key o.column b ≤ key o.column a) ∧
    out = cut w l

/-- A request for a list, and the column and direction it names: by URL, with or without filters, or by
body. In a URL the two are no filters either (`Filter.parseParam`). -/
inductive Req
  | get (filtered : Bool) (sortBy sortOrder : String := "")
  | post (sortBy sortOrder : String)
deriving DecidableEq, Repr

/-- Its window, when it names a limit and an offset. -/
def window (t : Table) (req : Req) (limit offset : Int) : Option Window :=
  match req with
  | .get filtered _ _ => getWindow t filtered (.num limit) (.num offset)
  | .post _ _ => some (bodyWindow t limit offset)

def order (t : Table) : Req → Order
  | .get _ _ _ => getOrder
  | .post sortBy sortOrder => bodyOrder t sortBy sortOrder

/-- What a request for `limit` rows from `offset` on may be answered with. -/
def Asked (key : String → R → Int) (t : Table) (req : Req) (rows : List R) (limit offset : Int) (out : List R) : Prop :=
  ∃ w, window t req limit offset = some w ∧ Answer key t (order t req) rows w out

/-- JSON of a Go slice. -/
inductive Shown (R : Type)
  | null | list (l : List R)
deriving DecidableEq, Repr

/-- A slice that was never appended to is `null` (`database/balance.go:660,1803`, `database/identity.go:168,472`,
`database/account.go:297,485`); ledgers start from an empty one (`database/ledger.go:103,297`) and
transactions are copied to one made for them (`api/transactions.go:388,405,449`). -/
def body (t : Table) : List R → Shown R
  | [] => match t with
    | .transactions | .ledgers => .list []
    | _ => .null
  | x :: l => .list (x :: l)

/-- `total_count` of an answer with `include_count`: `COUNT(*) OVER()` of the first row, and left out when
there is no row (`database/transaction_filters.go:75-77,145-147`, `api/filter_helper.go:76-80`). -/
def total (rows out : List R) : Option Nat := if out = [] then none else some rows.length

end Blnk.Lists
