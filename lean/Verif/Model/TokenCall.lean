import Verif.Model.Token
import Verif.Model.Errors
/-
The tokenization calls of the API with the names of fields that clients give them: `api/identity.go:254-452`,
`identity.go:150-321`, `model/identity.go:47-117`. The cipher is the one of `Model/Token`. Calls are served one after the
other here; overlapping ones are the matter of C64.
-/
namespace Blnk.Token

/-- The name of a field. -/
abbrev Name := List Char

/-- `convertToStructFieldName` (`identity.go:395-401`, `model/identity.go:47-53`): the first letter made a capital.
Simplified: a name that starts with a letter outside ASCII (of which the code makes no field name either) is kept. -/
def structName : Name → Name
  | [] => []
  | c :: cs => c.toUpper :: cs

/-- `TokenizableFields` (`internal/tokenization/tokenization.go:28-36`). -/
def tokenizable : List Name :=
  [t! "FirstName", t! "LastName", t! "OtherNames", t! "EmailAddress", t! "PhoneNumber", t! "Street", t! "PostCode"]

/-- The fields of an identity that are texts (`model/identity.go:23-43`). -/
def textFields : List Name :=
  [t! "IdentityID", t! "IdentityType", t! "OrganizationName", t! "Category", t! "FirstName", t! "LastName", t! "OtherNames",
   t! "Gender", t! "EmailAddress", t! "PhoneNumber", t! "Nationality", t! "Street", t! "Country", t! "State", t! "PostCode",
   t! "City"]

/-- The JSON names of the tokenizable fields (`model/identity.go:28-38`). -/
def jsonNames : List Name :=
  [t! "first_name", t! "last_name", t! "other_names", t! "email_address", t! "phone_number", t! "street", t! "post_code"]

/-- A stored identity: its texts, and `meta_data["tokenized_fields"]`, of which clients can write anything: `none` if it
is missing or no object, else its entries (the values: a truth value, or `none` for anything else). -/
structure Person where
  value : Name → List Char
  marks : Option (List (Name × Option Bool)) := none

/-- The entry of a name, if it is a truth value. -/
def entry (l : List (Name × Option Bool)) (n : Name) : Option Bool :=
  match l.find? (fun x => x.1 = n) with
  | some (_, some b) => some b
  | _ => none

/-- `IsFieldTokenized` (`model/identity.go:55-87`); what is read from the database is never a `map[string]bool`. -/
def isMarked (p : Person) (n : Name) : Bool :=
  match p.marks with
  | none => false
  | some l => match entry l (structName n) with
    | some b => b
    | none => (entry l n).getD false

/-- `MarkFieldAsTokenized` (`model/identity.go:89-117`): the entries that are truth values, and the field. -/
def addMark (m : Option (List (Name × Option Bool))) (n : Name) : List (Name × Option Bool) :=
  ((m.getD []).filter (fun x => x.2.isSome && x.1 ≠ structName n)) ++ [(structName n, some true)]

inductive Refusal
  | notTokenizable | already | notTokenized | notFound | badToken
deriving DecidableEq, Repr

/-- `TokenizeIdentityField` (`identity.go:150-205`): check the name, read, check the mark, seal, mark, write. -/
def tokenizeNamed (C : Cipher) (hmac : List Char → Nat → Nat) (nonce : Nat) (n : Name) (p : Person) : Except Refusal Person :=
  if structName n ∉ tokenizable then .error .notTokenizable
  else if isMarked p n then .error .already
  else .ok { value := fun g => if g = structName n then tokenizeFormat C hmac nonce (p.value g) else p.value g
             marks := some (addMark p.marks n) }

/-- `TokenizeIdentity` (`identity.go:267-275`, `api/identity.go:320-345`): one field after the other, each written
before the next is looked at; the first refusal is the answer. Every seal has its nonce. -/
def tokenizeMany (C : Cipher) (hmac : List Char → Nat → Nat) : List (Nat × Name) → Person → Person × Option Refusal
  | [], p => (p, none)
  | (k, n) :: ns, p => match tokenizeNamed C hmac k n p with
    | .error e => (p, some e)
    | .ok q => tokenizeMany C hmac ns q

/-- What reflection gives as text of the field of that name (`identity.go:237-248`; `reflect.Value.String` of what is no
text is a description of its type). -/
def textOf (p : Person) (n : Name) : Option (List Char) :=
  if n ∈ textFields then some (p.value n)
  else if n = t! "DOB" ∨ n = t! "CreatedAt" then some (t! "<time.Time Value>")
  else if n = t! "MetaData" then some (t! "<map[string]interface {} Value>")
  else none

/-- `DetokenizeIdentityField` (`identity.go:216-257`). -/
def detokenizeNamed (C : Cipher) (n : Name) (p : Person) : Except Refusal (List Char) :=
  if !isMarked p n && !isMarked p (structName n) then .error .notTokenized
  else match (textOf p (structName n)).or (textOf p n) with
    | none => .error .notFound
    | some t => match detokenize C t with
      | none => .error .badToken
      | some v => .ok v

/-- The names with a mark (`api/identity.go:404-452`, `GET /identities/{id}/tokenized-fields`; in no particular order). -/
def listed (p : Person) : List Name := ((p.marks.getD []).filter (fun x => x.2 = some true)).map Prod.fst

/-- The answers for a list of names, or nothing if one is refused (`api/identity.go:383-391`, `identity.go:309-317`). -/
def answers (C : Cipher) (p : Person) : List Name → Option (List (Name × List Char))
  | [] => some []
  | n :: ns => match detokenizeNamed C n p with
    | .error _ => none
    | .ok v => (answers C p ns).map ((n, v) :: ·)

/-- `POST /identities/{id}/detokenize` (`api/identity.go:357-394`, `identity.go:285-321`): the fields named, or all that
are marked if none is named. -/
def detokenizeCall (C : Cipher) (p : Person) (ns : List Name) : Option (List (Name × List Char)) :=
  answers C p (if ns.isEmpty then listed p else ns)

end Blnk.Token
