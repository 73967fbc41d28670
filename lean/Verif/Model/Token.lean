/-
Tokenized personal data: `internal/tokenization/tokenization.go` and the identity operations
of `identity.go`. AES-GCM with base64 (`internal/tokenization/tokenization.go:102-124`, `163-197`) is a parameter:
`seal nonce value` is the standard token and `opn token` its inverse. Texts are lists of
characters.
-/
namespace Blnk.Token

/-- The cipher with its encoding, and what is assumed of it: a sealed value opens again, and
the base64 alphabet has no colon, so a text with a colon is neither produced nor accepted. -/
structure Cipher where
  seal_ : Nat → List Char → List Char
  opn : List Char → Option (List Char)
  correct : ∀ n v, opn (seal_ n v) = some v
  alphabet : ∀ t, ':' ∈ t → opn t = none

/-- One character of the visible part (`internal/tokenization/tokenization.go:268-282`); `b` is the seed byte. -/
def mask (b : Nat) (c : Char) : Char :=
  if 'A'.toNat ≤ c.toNat ∧ c.toNat ≤ 'Z'.toNat then Char.ofNat ('A'.toNat + b % 26)
  else if 'a'.toNat ≤ c.toNat ∧ c.toNat ≤ 'z'.toNat then Char.ofNat ('a'.toNat + b % 26)
  else if '0'.toNat ≤ c.toNat ∧ c.toNat ≤ '9'.toNat then Char.ofNat ('0'.toNat + b % 10)
  else c

/-- `generateTokenWithFormat` (`internal/tokenization/tokenization.go:261-285`), starting at position `i`; the seed
is the HMAC of the value, as a function of the position. -/
def maskAll (seed : Nat → Nat) : Nat → List Char → List Char
  | _, [] => []
  | i, c :: cs => mask (seed i) c :: maskAll seed (i + 1) cs

/-- `formatPreservingTokenize` (`internal/tokenization/tokenization.go:208-231`). -/
def tokenizeFormat (C : Cipher) (hmac : List Char → Nat → Nat) (nonce : Nat) (v : List Char) : List Char :=
  "FPT:".toList ++ maskAll (hmac v) 0 v ++ ':' :: C.seal_ nonce v

/-- `TokenizeWithMode` in standard mode (`internal/tokenization/tokenization.go:92-124`). -/
def tokenizeStandard (C : Cipher) (nonce : Nat) (v : List Char) : List Char := C.seal_ nonce v

/-- The text after the first separator, if there is one. -/
def afterColon : List Char → Option (List Char)
  | [] => none
  | c :: cs => if c = ':' then some cs else afterColon cs

/-- `formatPreservingDetokenize` (`internal/tokenization/tokenization.go:241-258`): `SplitN(token, ":", 3)[2]`. -/
def detokenizeFormat (C : Cipher) (t : List Char) : Option (List Char) :=
  match afterColon t with
  | none => none
  | some r => match afterColon r with
    | none => none
    | some std => C.opn std

/-- `Detokenize` (`internal/tokenization/tokenization.go:134-143`); `none` is an error. -/
def detokenize (C : Cipher) (t : List Char) : Option (List Char) :=
  if "FPT:".toList.isPrefixOf t then detokenizeFormat C t else C.opn t

/-! ### Identities -/

/-- The fields that can be tokenized (`internal/tokenization/tokenization.go:28-36`). -/
inductive Field
  | firstName | lastName | otherNames | emailAddress | phoneNumber | street | postCode
deriving DecidableEq, Repr

/-- An identity: the tokenizable fields and `meta_data["tokenized_fields"]`. -/
structure Identity where
  value : Field → List Char
  marked : Field → Bool

/-- `UpdateIdentity` (`database/identity.go:211-300`) with an identity read before: every
non-empty field is written, and the metadata as a whole. -/
def store (new old : Identity) : Identity :=
  { value := fun f => if new.value f = [] then old.value f else new.value f, marked := new.marked }

/-- `TokenizeIdentityField` (`identity.go:150-205`) from the identity it has read to the one it
writes; `none`: already tokenized. -/
def tokenizeField (C : Cipher) (hmac : List Char → Nat → Nat) (nonce : Nat) (f : Field) (i : Identity) : Option Identity :=
  if i.marked f then none
  else some { value := fun g => if g = f then tokenizeFormat C hmac nonce (i.value f) else i.value g
              marked := fun g => g = f || i.marked g }

/-- `DetokenizeIdentityField` (`identity.go:216-257`). -/
def detokenizeField (C : Cipher) (f : Field) (i : Identity) : Option (List Char) :=
  if i.marked f then detokenize C (i.value f) else none

/-- A tokenization request served alone. -/
def tokenizeStep (C : Cipher) (hmac : List Char → Nat → Nat) (nonce : Nat) (f : Field) (i : Identity) : Identity × Bool :=
  match tokenizeField C hmac nonce f i with
  | none => (i, false)
  | some n => (store n i, true)

/-- Many, one after the other: each with its nonce. -/
def tokenizeSteps (C : Cipher) (hmac : List Char → Nat → Nat) (i : Identity) : List (Nat × Field) → Identity
  | [] => i
  | (n, f) :: fs => tokenizeSteps C hmac (tokenizeStep C hmac n f i).1 fs

/-- A client's update (`api/identity.go:94-115`, `database/identity.go:211-299`): the fields the
client names, and `meta_data` when the client gives it (`marks`: what its `tokenized_fields`
says, usually nothing). -/
def update (fields : Field → List Char) (marks : Option (Field → Bool)) (i : Identity) : Identity :=
  { value := fun f => if fields f = [] then i.value f else fields f
    marked := match marks with | none => i.marked | some m => m }

end Blnk.Token
