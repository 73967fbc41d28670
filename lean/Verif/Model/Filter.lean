/-
Query filters: `internal/filter`. A filter list is validated and turned into the text of a
WHERE condition with numbered placeholders, and a list of arguments. The model keeps the text
as a list of tokens (`Tok`), with `Tok.text` its exact spelling. All callers pass an empty table
alias (`database/transaction_filters.go:67`, `database/account.go:442`, `database/ledger.go:254`,
`database/identity.go:429`, `database/balance.go:1759`), so aliases are left out.
-/
namespace Blnk.Filter

/-- `internal/filter/types.go:8-21`. -/
inductive Op
  | eq | ne | gt | gte | lt | lte | isIn | between | like | ilike | isnull | isnotnull
deriving DecidableEq, Repr

/-- `IsValidOperator` (`internal/filter/operators.go:53-63`): the exact spellings. -/
def parseOp (s : String) : Option Op :=
  if s = "eq" then some .eq else if s = "ne" then some .ne
  else if s = "gt" then some .gt else if s = "gte" then some .gte
  else if s = "lt" then some .lt else if s = "lte" then some .lte
  else if s = "in" then some .isIn else if s = "between" then some .between
  else if s = "like" then some .like else if s = "ilike" then some .ilike
  else if s = "isnull" then some .isnull else if s = "isnotnull" then some .isnotnull
  else none

/-- The precision with which an instant was written (`internal/filter/datetime.go:40-77`). -/
inductive Prec
  | microseconds | milliseconds | second | minute | hour | day
deriving DecidableEq, Repr

/-- The length of a period in nanoseconds. -/
def Prec.length : Prec → Nat
  | .microseconds => 1000
  | .milliseconds => 1000000
  | .second => 1000000000
  | .minute => 60000000000
  | .hour => 3600000000000
  | .day => 86400000000000

/-- A filter value. `time` is a `TimestampValue` (only the URL parser makes them), in
nanoseconds; `nonFinite` is a float that is NaN or infinite. Arrays and objects as values are
not modelled. -/
inductive Val
  | null
  | text (s : String)
  | int (i : Int)
  | float (q : Rat)
  | nonFinite
  | bool (b : Bool)
  | time (t : Nat) (p : Prec)
  | instant (t : Nat)
deriving DecidableEq, Repr

/-- `QueryFilter` (`internal/filter/types.go:30-35`); the operator is the client's text. -/
structure Filter where
  field : String
  op : String
  value : Val := .null
  values : List Val := []
deriving DecidableEq, Repr

/-- `GetValidFieldsForTable` (`internal/filter/validation.go:70-180`). -/
def validFields (table : String) : List String :=
  if table = "transactions" then ["transaction_id", "parent_transaction", "amount", "currency", "source",
    "destination", "balance_id", "reference", "status", "created_at", "effective_date", "indicator",
    "description", "precision", "meta_data"]
  else if table = "balances" then ["balance_id", "ledger_id", "identity_id", "indicator", "currency", "balance",
    "credit_balance", "debit_balance", "inflight_balance", "inflight_credit_balance", "inflight_debit_balance",
    "created_at", "meta_data"]
  else if table = "ledgers" then ["ledger_id", "name", "created_at", "meta_data"]
  else if table = "identity" then ["identity_id", "first_name", "last_name", "other_names", "gender", "dob",
    "email_address", "phone_number", "nationality", "street", "country", "state", "organization_name", "category",
    "identity_type", "post_code", "city", "created_at", "meta_data"]
  else if table = "reconciliations" then ["reconciliation_id", "upload_id", "status", "matched_transactions",
    "unmatched_transactions", "started_at", "completed_at"]
  else if table = "matching_rules" then ["rule_id", "name", "description", "created_at", "updated_at"]
  else if table = "external_transactions" then ["id", "amount", "reference", "currency", "description", "date",
    "source", "upload_id"]
  else if table = "accounts" then ["account_id", "name", "number", "bank_name", "currency", "ledger_id",
    "identity_id", "balance_id", "created_at", "meta_data"]
  else []

/-- The cases of `safeColumnForTableAndField` (`internal/filter/sql_builder.go:259-449`), which all return the
name they match. -/
def safeColumns (table : String) : List String :=
  if table = "transactions" then ["transaction_id", "parent_transaction", "amount", "currency", "source",
    "destination", "balance_id", "reference", "status", "created_at", "effective_date", "indicator",
    "description", "precision", "meta_data"]
  else if table = "balances" then ["balance_id", "ledger_id", "identity_id", "indicator", "currency", "balance",
    "credit_balance", "debit_balance", "inflight_balance", "inflight_credit_balance", "inflight_debit_balance",
    "created_at", "meta_data"]
  else if table = "ledgers" then ["ledger_id", "name", "created_at", "meta_data"]
  else if table = "identity" then ["identity_id", "first_name", "last_name", "other_names", "gender", "dob",
    "email_address", "phone_number", "nationality", "street", "country", "state", "organization_name", "category",
    "identity_type", "post_code", "city", "created_at", "meta_data"]
  else if table = "accounts" then ["account_id", "name", "number", "bank_name", "currency", "ledger_id",
    "identity_id", "balance_id", "created_at", "meta_data"]
  else if table = "reconciliations" then ["reconciliation_id", "upload_id", "status", "matched_transactions",
    "unmatched_transactions", "started_at", "completed_at"]
  else if table = "matching_rules" then ["rule_id", "name", "description", "created_at", "updated_at"]
  else if table = "external_transactions" then ["id", "amount", "reference", "currency", "description", "date",
    "source", "upload_id"]
  else []

/-- The result is `none` where the code returns the empty string. -/
def safeColumn (table field : String) : Option String :=
  if field ∈ safeColumns table then some field else none

def isLetter (c : Char) : Bool := ('a' ≤ c && c ≤ 'z') || ('A' ≤ c && c ≤ 'Z')
def isDigit (c : Char) : Bool := '0' ≤ c && c ≤ '9'

/-- `jsonKeyRegex` (`internal/filter/validation.go:9`), and the same check in `sanitizeJSONKey`
(`internal/filter/sql_json.go:155-177`). -/
def keyOk : List Char → Bool
  | [] => false
  | c :: cs => isLetter c && cs.all (fun c => isLetter c || isDigit c || c == '_')

def metaPrefix : List Char := "meta_data.".toList

/-- `Validate` for one filter (`internal/filter/validation.go:26-65`). -/
def validOne (table : String) (f : Filter) : Bool :=
  match parseOp f.op with
  | none => false
  | some op =>
    (match op with
      | .isIn => !f.values.isEmpty
      | .between => f.values.length == 2
      | _ => true) &&
    (if table = "transactions" ∧ f.field = "balance_id" then
      (match op with | .eq | .ne | .isIn | .isnull | .isnotnull => true | _ => false) else true) &&
    (if metaPrefix.isPrefixOf f.field.toList && (validFields table).contains "meta_data" then
      keyOk (f.field.toList.drop metaPrefix.length)
     else (validFields table).contains f.field)

/-- `Validate` (`internal/filter/validation.go:11-68`). The logical operator is `none` when the text is
neither `and` nor `or` (nor empty). -/
def validate (table : String) (fs : List Filter) : Bool :=
  !(validFields table).isEmpty && fs.all (validOne table)

/-! ### SQL text -/

inductive Cmp
  | eq | ne | gt | ge | lt | le | like | ilike
deriving DecidableEq, Repr

/-- What is compared. -/
inductive Operand
  | col (name : String)
  | jsonText (key : List Char)
  | jsonNum (key : List Char)
  | jsonTime (key : List Char)
deriving DecidableEq, Repr

/-- A comparison; numbers are placeholders. -/
inductive Atom
  | cmp (e : Operand) (op : Cmp) (n : Nat)
  | anyOf (e : Operand) (n : Nat)
  | inList (e : Operand) (ns : List Nat)
  | between (e : Operand) (m n : Nat)
  | isNull (e : Operand)
  | notNull (e : Operand)
  | contains (n : Nat)
  | hasKey (key : List Char) (b : Bool)
  | inMatches (e : Operand)
deriving DecidableEq, Repr

inductive Tok
  | atom (a : Atom)
  | and | or | lp | rp
deriving DecidableEq, Repr

def Cmp.text : Cmp → String
  | .eq => "=" | .ne => "!=" | .gt => ">" | .ge => ">=" | .lt => "<" | .le => "<="
  | .like => "LIKE" | .ilike => "ILIKE"

def ph (n : Nat) : String := "$" ++ toString n

def Operand.text : Operand → String
  | .col c => c
  | .jsonText k => "meta_data->>'" ++ String.ofList k ++ "'"
  | .jsonNum k => "(meta_data->>'" ++ String.ofList k ++ "')::numeric"
  | .jsonTime k => "(meta_data->>'" ++ String.ofList k ++ "')::timestamp"

def Atom.text : Atom → String
  | .cmp e op n => e.text ++ " " ++ op.text ++ " " ++ ph n
  | .anyOf e n => e.text ++ " = ANY(" ++ ph n ++ ")"
  | .inList e ns => e.text ++ " IN (" ++ String.intercalate ", " (ns.map ph) ++ ")"
  | .between e m n => e.text ++ " BETWEEN " ++ ph m ++ " AND " ++ ph n
  | .isNull e => e.text ++ " IS NULL"
  | .notNull e => e.text ++ " IS NOT NULL"
  | .contains n => "meta_data @> " ++ ph n ++ "::jsonb"
  | .hasKey k b => "meta_data ? '" ++ String.ofList k ++ "' = " ++ (if b then "true" else "false")
  | .inMatches e => e.text ++ " IN (SELECT balance_id FROM _indicator_matches)"

def Tok.text : Tok → String
  | .atom a => a.text
  | .and => " AND " | .or => " OR " | .lp => "(" | .rp => ")"

def sqlText (ts : List Tok) : String := String.join (ts.map Tok.text)

/-- An argument: a value, an array of texts (`pq.Array`), or the JSON object with one key of
`buildContainmentJSON` (`internal/filter/helpers.go:31-34`). -/
inductive Arg
  | one (v : Val)
  | arr (ss : List String)
  | obj (key : List Char) (v : Val)
deriving DecidableEq, Repr

/-- `extractValueForSQL` (`internal/filter/helpers.go:24-29`). -/
def plain : Val → Val
  | .time t _ => .instant t
  | v => v

/-- Booleans are compared with JSON text as `true` and `false` (`internal/filter/sql_json.go:64-66`). -/
def jsonPlain : Val → Val
  | .bool b => .text (if b then "true" else "false")
  | v => plain v

/-- `isStringArray`, `convertToStringArray` (`internal/filter/helpers.go:8-22`). -/
def texts : List Val → Option (List String)
  | [] => some []
  | .text s :: vs => (texts vs).map (s :: ·)
  | _ :: _ => none

/-- `computeTimestampRange` (`internal/filter/datetime.go:95-122`), for times in UTC. -/
def periodOf (t : Nat) (p : Prec) : Nat × Nat := (t / p.length * p.length, t / p.length * p.length + p.length)

/-- What one filter contributes: the condition, its arguments, and the CTE if any. -/
structure Piece where
  toks : List Tok
  args : List Arg
  cte : Option Atom := none
deriving DecidableEq, Repr

def positions (pos : Nat) : Nat → List Nat
  | 0 => []
  | n + 1 => pos :: positions (pos + 1) n

def simple (e : Operand) (op : Cmp) (pos : Nat) (v : Val) : Option Piece :=
  some ⟨[.atom (.cmp e op pos)], [.one (plain v)], none⟩

/-- `in` on a column (`internal/filter/sql_builder.go:174-190`). -/
def inAtom (e : Operand) (pos : Nat) (vs : List Val) : Atom × List Arg :=
  match texts vs with
  | some ss => (.anyOf e pos, [.arr ss])
  | none => (.inList e (positions pos vs.length), vs.map (fun v => .one (plain v)))

/-- `buildStandardCondition` (`internal/filter/sql_builder.go:106-215`); `none` is the empty condition. -/
def buildStandard (table : String) (f : Filter) (op : Op) (pos : Nat) : Option Piece :=
  match safeColumn table f.field with
  | none => none
  | some c =>
    let e := Operand.col c
    match op with
    | .eq => match f.value with
      | .time t p =>
        some ⟨[.atom (.cmp e .ge pos), .and, .atom (.cmp e .lt (pos + 1))],
          [.one (.instant (periodOf t p).1), .one (.instant (periodOf t p).2)], none⟩
      | v => simple e .eq pos v
    | .ne => simple e .ne pos f.value
    | .gt => simple e .gt pos f.value
    | .gte => simple e .ge pos f.value
    | .lt => simple e .lt pos f.value
    | .lte => simple e .le pos f.value
    | .like => simple e .like pos f.value
    | .ilike => simple e .ilike pos f.value
    | .isIn => if f.values.isEmpty then none
      else some ⟨[.atom (inAtom e pos f.values).1], (inAtom e pos f.values).2, none⟩
    | .between => match f.values with
      | [a, b] => some ⟨[.atom (.between e pos (pos + 1))], [.one (plain a), .one (plain b)], none⟩
      | _ => none
    | .isnull => some ⟨[.atom (.isNull e)], [], none⟩
    | .isnotnull => some ⟨[.atom (.notNull e)], [], none⟩

/-- `buildJSONPathCondition` (`internal/filter/sql_json.go:9-139`), after the field has been split at the first
dot. Marshalling fails exactly for non-finite numbers (`internal/filter/sql_json.go:53-56`). -/
def buildJSON (k : List Char) (f : Filter) (op : Op) (pos : Nat) : Option Piece :=
  if keyOk k then
    match op with
    | .eq => match f.value with
      | .time t p =>
        some ⟨[.atom (.cmp (.jsonTime k) .ge pos), .and, .atom (.cmp (.jsonTime k) .lt (pos + 1))],
          [.one (.instant (periodOf t p).1), .one (.instant (periodOf t p).2)], none⟩
      | .nonFinite => none
      | v => some ⟨[.atom (.contains pos)], [.obj k v], none⟩
    | .ne => some ⟨[.atom (.cmp (.jsonText k) .ne pos)], [.one (jsonPlain f.value)], none⟩
    | .gt => simple (.jsonNum k) .gt pos f.value
    | .gte => simple (.jsonNum k) .ge pos f.value
    | .lt => simple (.jsonNum k) .lt pos f.value
    | .lte => simple (.jsonNum k) .le pos f.value
    | .like => simple (.jsonText k) .like pos f.value
    | .ilike => simple (.jsonText k) .ilike pos f.value
    | .isIn => if f.values.isEmpty then none
      else some ⟨[.atom (.inList (.jsonText k) (positions pos f.values.length))],
        f.values.map (fun v => .one (jsonPlain v)), none⟩
    | .between => match f.values with
      | [a, b] => some ⟨[.atom (.between (.jsonNum k) pos (pos + 1))], [.one (plain a), .one (plain b)], none⟩
      | _ => none
    | .isnull => some ⟨[.lp, .atom (.isNull (.jsonText k)), .or, .atom (.hasKey k false), .rp], [], none⟩
    | .isnotnull => some ⟨[.lp, .atom (.notNull (.jsonText k)), .and, .atom (.hasKey k true), .rp], [], none⟩
  else none

def src : Operand := .col "source"
def dst : Operand := .col "destination"

/-- `buildBalanceIdCondition` (`internal/filter/sql_special.go:10-64`). -/
def buildBalanceId (f : Filter) (op : Op) (pos : Nat) : Option Piece :=
  match op with
  | .eq => some ⟨[.lp, .atom (.cmp src .eq pos), .or, .atom (.cmp dst .eq pos), .rp], [.one (plain f.value)], none⟩
  | .ne => some ⟨[.lp, .atom (.cmp src .ne pos), .and, .atom (.cmp dst .ne pos), .rp], [.one (plain f.value)], none⟩
  | .isIn => if f.values.isEmpty then none
    else some ⟨[.lp, .atom (inAtom src pos f.values).1, .or, .atom (inAtom dst pos f.values).1, .rp],
      (inAtom src pos f.values).2, none⟩
  | .isnull => some ⟨[.lp, .atom (.isNull src), .and, .atom (.isNull dst), .rp], [], none⟩
  | .isnotnull => some ⟨[.lp, .atom (.notNull src), .or, .atom (.notNull dst), .rp], [], none⟩
  | _ => none

/-- The condition on `b.indicator` in `buildIndicatorCondition` (`internal/filter/sql_special.go:66-152`). -/
def indicatorAtom (f : Filter) (op : Op) (pos : Nat) : Option (Atom × List Arg) :=
  let e := Operand.col "b.indicator"
  let cmp (c : Cmp) := some (Atom.cmp e c pos, [Arg.one (plain f.value)])
  match op with
  | .eq => cmp .eq
  | .ne => cmp .ne
  | .gt => cmp .gt
  | .gte => cmp .ge
  | .lt => cmp .lt
  | .lte => cmp .le
  | .like => cmp .like
  | .ilike => cmp .ilike
  | .isIn => if f.values.isEmpty then none else some (inAtom e pos f.values)
  | .between => match f.values with
    | [a, b] => some (.between e pos (pos + 1), [.one (plain a), .one (plain b)])
    | _ => none
  | .isnull => some (.isNull e, [])
  | .isnotnull => some (.notNull e, [])

/-- `buildIndicatorCondition` (`internal/filter/sql_special.go:66-168`). -/
def buildIndicator (f : Filter) (op : Op) (pos : Nat) : Option Piece :=
  match indicatorAtom f op pos with
  | none => none
  | some (a, args) => some ⟨[.lp, .atom (.inMatches src), .or, .atom (.inMatches dst), .rp], args, some a⟩

/-- The text up to the first dot and after it (`strings.SplitN(field, ".", 2)`). -/
def splitDot : List Char → Option (List Char × List Char)
  | [] => none
  | c :: cs => if c = '.' then some ([], cs) else (splitDot cs).map (fun p => (c :: p.1, p.2))

/-- The choice made in `Build` (`internal/filter/sql_builder.go:34-79`). -/
def buildOne (table : String) (f : Filter) (pos : Nat) : Option Piece :=
  match parseOp f.op with
  | none => none
  | some op =>
    if f.field.toList.contains '.' && "meta_data".toList.isPrefixOf f.field.toList then
      match splitDot f.field.toList with
      | some (c, k) => if c = "meta_data".toList then buildJSON k f op pos else none
      | none => none
    else if f.field = "balance_id" ∧ table = "transactions" then buildBalanceId f op pos
    else if f.field = "indicator" ∧ table = "transactions" then buildIndicator f op pos
    else buildStandard table f op pos

/-- `BuildResult` (`internal/filter/types.go:73-79`). -/
structure Built where
  conds : List (List Tok)
  args : List Arg
  ctes : List Atom
  next : Nat
deriving DecidableEq, Repr

/-- The loop of `Build` (`internal/filter/sql_builder.go:34-86`). -/
def buildLoop (table : String) : List Filter → Nat → Built
  | [], pos => ⟨[], [], [], pos⟩
  | f :: fs, pos =>
    match buildOne table f pos with
    | none => buildLoop table fs pos
    | some p =>
      let r := buildLoop table fs (pos + p.args.length)
      ⟨p.toks :: r.conds, p.args ++ r.args, p.cte.toList ++ r.ctes, r.next⟩

/-- `Build` (`internal/filter/sql_builder.go:11-86`); `none` is a refusal. -/
def build (table : String) (fs : List Filter) (start : Nat) : Option Built :=
  if fs.isEmpty then some ⟨[], [], [], start⟩
  else if validate table fs then some (buildLoop table fs start) else none

/-- `BuildConditionExpression` (`internal/filter/sql_builder.go:90-104`). -/
def joinAnd : List (List Tok) → List Tok
  | [] => []
  | [c] => c
  | c :: cs => c ++ .and :: joinAnd cs

def joinOr : List (List Tok) → List Tok
  | [] => []
  | [c] => .lp :: c ++ [.rp]
  | c :: cs => .lp :: c ++ .rp :: .or :: joinOr cs

def whereToks (anyOf : Bool) (conds : List (List Tok)) : List Tok :=
  if anyOf then joinOr conds else joinAnd conds

/-! ### Sorting -/

def lowerTrim (s : String) : String := s.trimAscii.toString.toLower

/-- `ResolveSortField` and `BuildOrderBy` (`internal/filter/sql_builder.go:245-255`, `452-473`); the API has
checked the field before (`api/filter_helper.go:105-113`), falling back to no field. -/
def sortColumn (table sortBy : String) : String :=
  if (validFields table).contains sortBy then (safeColumn table sortBy).getD "created_at" else "created_at"

/-! ### What the database does -/

/-- The database, seen through comparisons of a row with a bound value. Comparisons are those of
SQL that come out true, so a NULL never satisfies one. -/
structure Db (Row : Type) where
  /-- the row's operand compares with the value -/
  cmp : Operand → Cmp → Val → Row → Bool
  isNull : Operand → Row → Bool
  /-- the metadata contain the key with the value -/
  contains : List Char → Val → Row → Bool
  /-- `meta_data ? 'key'` is true, resp. false (neither when `meta_data` is NULL) -/
  hasKey : List Char → Bool → Row → Bool
  /-- the rows of the balances table -/
  balances : List Row
  /-- the row's operand is the balance's id -/
  refers : Operand → Row → Row → Bool

variable {Row : Type}

/-- The arguments by placeholder number. -/
def look (start : Nat) (args : List Arg) (n : Nat) : Option Arg := if start ≤ n then args[n - start]? else none

def cmpArg (db : Db Row) (e : Operand) (op : Cmp) (a : Option Arg) (r : Row) : Bool :=
  match a with | some (.one v) => db.cmp e op v r | _ => false

/-- A comparison other than the one against the CTE. -/
def evalPlain (db : Db Row) (arg : Nat → Option Arg) (r : Row) : Atom → Bool
  | .cmp e op n => cmpArg db e op (arg n) r
  | .anyOf e n => match arg n with | some (.arr ss) => ss.any (fun s => db.cmp e .eq (.text s) r) | _ => false
  | .inList e ns => ns.any (fun n => cmpArg db e .eq (arg n) r)
  | .between e m n => cmpArg db e .ge (arg m) r && cmpArg db e .le (arg n) r
  | .isNull e => db.isNull e r
  | .notNull e => !db.isNull e r
  | .contains n => match arg n with | some (.obj k v) => db.contains k v r | _ => false
  | .hasKey k b => db.hasKey k b r
  | .inMatches _ => false

/-- A comparison; `cte` is the condition of `_indicator_matches`. -/
def evalAtom (db : Db Row) (arg : Nat → Option Arg) (cte : Option Atom) (r : Row) : Atom → Bool
  | .inMatches e => match cte with
    | some c => db.balances.any (fun b => evalPlain db arg b c && db.refers e b r)
    | none => false
  | a => evalPlain db arg r a

/-- The value of a condition as SQL reads it: parentheses first, then AND, then OR. `o` is the
value of the alternatives so far, `a` of the current conjunction; `want` tells whether an
operand comes next; enclosing parentheses are on the stack. `none`: syntax error. -/
def evalToks (ev : Atom → Bool) : List (Bool × Bool) → Bool → Bool → Bool → List Tok → Option Bool
  | [], o, a, false, [] => some (o || a)
  | _, _, _, _, [] => none
  | st, o, a, true, .atom x :: ts => evalToks ev st o (a && ev x) false ts
  | st, o, a, true, .lp :: ts => evalToks ev ((o, a) :: st) false true true ts
  | (o', a') :: st, o, a, false, .rp :: ts => evalToks ev st o' (a' && (o || a)) false ts
  | st, o, a, false, .and :: ts => evalToks ev st o a true ts
  | st, o, a, false, .or :: ts => evalToks ev st (o || a) true true ts
  | _, _, _, _, _ => none

/-- Whether a query selects a row: `none` is a database error. No condition: no WHERE clause.
Two CTEs of one name are an error of PostgreSQL. -/
def selects (db : Db Row) (anyOf : Bool) (start : Nat) (b : Built) (r : Row) : Option Bool :=
  if b.ctes.length ≥ 2 then none
  else if b.conds.isEmpty then some true
  else evalToks (evalAtom db (look start b.args) b.ctes.head? r) [] false true true (whereToks anyOf b.conds)

/-- The columns of the tables: `sql/1708676327.sql:19-119` and the later `ADD COLUMN`s
(`1712660388.sql`, `1713790634.sql`, `1714213688.sql`, `1741007609.sql`, `1768746546.sql`,
`1781162328.sql`), `sql/1721922047.sql:19-80`. -/
def columns (table : String) : List String :=
  if table = "transactions" then ["id", "transaction_id", "source", "destination", "description", "reference",
    "amount", "currency", "status", "hash", "created_at", "scheduled_for", "meta_data", "precise_amount",
    "precision", "rate", "parent_transaction", "effective_date", "chain_seq", "chain_prev_hash", "chain_hash"]
  else if table = "balances" then ["id", "balance_id", "indicator", "balance", "credit_balance", "debit_balance",
    "currency", "currency_multiplier", "ledger_id", "identity_id", "created_at", "modification_ref", "meta_data",
    "inflight_balance", "inflight_credit_balance", "inflight_debit_balance", "version", "track_fund_lineage",
    "allocation_strategy"]
  else if table = "ledgers" then ["id", "name", "ledger_id", "created_at", "meta_data"]
  else if table = "identity" then ["id", "identity_id", "first_name", "last_name", "other_names", "gender", "dob",
    "email_address", "phone_number", "nationality", "street", "country", "state", "organization_name", "category",
    "identity_type", "post_code", "city", "created_at", "meta_data"]
  else if table = "accounts" then ["id", "account_id", "name", "number", "bank_name", "currency", "created_at",
    "ledger_id", "identity_id", "balance_id", "meta_data"]
  else if table = "reconciliations" then ["id", "reconciliation_id", "upload_id", "status", "matched_transactions",
    "unmatched_transactions", "started_at", "completed_at"]
  else if table = "external_transactions" then ["id", "amount", "reference", "currency", "description", "date",
    "source", "upload_id"]
  else if table = "matching_rules" then ["id", "rule_id", "created_at", "updated_at", "name", "description", "criteria"]
  else []

/-! ### Filters in the URL -/

/-- `strings.Split(key, "_")`, reduced to the part before the last underscore and the part
after it (`internal/filter/parser.go:66-73`). -/
def splitLast : List Char → Option (List Char × List Char)
  | [] => none
  | c :: cs => match splitLast cs with
    | some (a, b) => some (c :: a, b)
    | none => if c = '_' then some ([], cs) else none

/-- `ResolveOperator` (`internal/filter/operators.go:5-34`) on a text already in lower case. -/
def resolveOp (s : String) : Option Op :=
  if s = "neq" then some .ne else if s = "gteq" then some .gte else if s = "lteq" then some .lte else parseOp s

/-- What becomes of a query parameter (`internal/filter/parser.go:55-145`): silently skipped, or a filter made
from its first value. Errors and reserved names are left out. -/
def parseParam (key : String) (values : List String) : Option (String × Op × String) :=
  match values with
  | [] => none
  | v :: _ => match splitLast key.toList with
    | none => none
    | some (a, b) => (resolveOp (String.ofList b).toLower).map (fun op => (String.ofList a, op, v))

/-- `strconv.ParseInt(value, 10, 64)` (`internal/filter/values.go:8`). -/
def parseDigits : List Char → Option Nat → Option Nat
  | [], acc => acc
  | c :: cs, acc => if isDigit c then parseDigits cs (some (acc.getD 0 * 10 + (c.toNat - '0'.toNat))) else none

def parseInt (s : String) : Option Int :=
  let r := match s.toList with
    | '-' :: cs => (parseDigits cs none).map (fun n => -(n : Int))
    | '+' :: cs => (parseDigits cs none).map (fun n => (n : Int))
    | cs => (parseDigits cs none).map (fun n => (n : Int))
  r.filter (fun i => decide (-(2 ^ 63) ≤ i ∧ i < 2 ^ 63))

/-- `parseValue` (`internal/filter/values.go:7-31`). Reading floats and dates is a parameter. -/
def parseValue (float date : String → Option Val) (s : String) : Val :=
  match parseInt s with
  | some i => .int i
  | none => match float s with
    | some v => v
    | none => if s = "true" then .bool true else if s = "false" then .bool false
      else (date s).getD (.text s)

end Blnk.Filter
