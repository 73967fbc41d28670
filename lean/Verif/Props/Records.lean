import Verif.Lemmas.Records
/-
C147–C150: ledgers, identities, balances and accounts refer to each other; what requests for them do
and answer, in every state requests lead to.
-/
namespace Blnk.Book
open Errs

/-! ### Two people, a balance, an account -/

def person (first last : Text) : Identity :=
  { id := [], get := fun | .firstName => first | .lastName => last | .identityType => t! "individual" | _ => [] }

/-- Two identities, a ledger, and a balance of the first in it. -/
def start : List Ev :=
  [.createIdentity (t! "1") (person (t! "Ada") (t! "Bell")), .createIdentity (t! "2") (person (t! "Cy") (t! "Dunn")),
   .createLedger (t! "1") (t! "Main") none,
   .createBalance (t! "1") { ledger := t! "ldg_1", identity := t! "idt_1", currency := t! "USD" }]

/-- The same, and an account for the balance. -/
def withAccount : List Ev :=
  start ++ [.createAccount (t! "1") .off { bank := t! "First", number := t! "001", balance := t! "bln_1" }]

example : (run DB.fresh withAccount).accounts =
    [⟨t! "acc_1", t! "Ada Bell", t! "001", t! "First", t! "USD", t! "ldg_1", t! "idt_1", t! "bln_1", none⟩] := by
  decide +kernel

theorem run_append (db : DB) (es fs : List Ev) : run db (es ++ fs) = run (run db es) fs := by
  induction es generalizing db with
  | nil => rfl
  | cons e es ih => exact ih _

theorem good (es : List Ev) : Good (run DB.fresh es) := good_run good_fresh es

theorem balance?_mem {db : DB} (g : Good db) {b : Balance} (h : b ∈ db.balances) : db.balance? b.id = some b :=
  find_mem Balance.id g.balanceIds h

theorem ident?_mem {db : DB} (g : Good db) {i : Identity} (h : i ∈ db.idents) : db.ident? i.id = some i :=
  find_mem Identity.id g.identIds h

theorem account?_mem {db : DB} (g : Good db) {a : Account} (h : a ∈ db.accounts) : db.account? a.id = some a :=
  find_mem Account.id g.accountIds h

theorem ledger?_mem {db : DB} (g : Good db) {l : Ledger} (h : l ∈ db.ledgers) : db.ledger? l.id = some l :=
  find_mem Ledger.id g.ledgerIds h

/-! ### C147: an account for a ledger, an owner and a currency -/

/-- The refusal of a request. -/
def refused {α : Type} (status : Nat) (code : String) (r : Except Resp α) : Prop :=
  ∃ e, r = .error e ∧ e.status = status ∧ e.code = code

/-- **C147 in full**: an account can be opened by naming the ledger, the owner and the currency, as the
validation of the request allows, when the ledger and the owner are there and the number is free. -/
def C147Full : Prop :=
  ∀ (es : List Ev) (u : Text) (q : AccountReq),
    q.balance = [] → q.currency ≠ [] → q.ledger ∈ (run DB.fresh es).ledgers.map (·.id) →
    q.identity ∈ (run DB.fresh es).idents.map (·.id) →
    newId (t! "acc") u ∉ (run DB.fresh es).accounts.map (·.id) →
    q.number ∉ (run DB.fresh es).accounts.map (·.number) →
    ∃ a, (createAccount (run DB.fresh es) u .off q).2 = .ok a ∧
      a.ledger = q.ledger ∧ a.identity = q.identity ∧ a.currency = q.currency

/-- No request without a balance opens an account, in any state: those that pass the validation are
answered that something was not found, and nothing changes. -/
theorem c147_never (es : List Ev) (u : Text) (n : Numbers) (q : AccountReq) (h0 : q.balance = []) :
    (createAccount (run DB.fresh es) u n q).1 = run DB.fresh es ∧
    (q.ledger ≠ [] ∧ q.identity ≠ [] ∧ q.currency ≠ [] →
      refused 404 "GEN_NOT_FOUND" (createAccount (run DB.fresh es) u n q).2) ∧
    (¬ (q.ledger ≠ [] ∧ q.identity ≠ [] ∧ q.currency ≠ []) →
      refused 400 "GEN_VALIDATION_ERROR" (createAccount (run DB.fresh es) u n q).2) := by
  have g := good es
  generalize run DB.fresh es = db at g
  have hb : db.balance? q.balance = none := by
    unfold DB.balance?
    rw [List.find?_eq_none]
    intro b hb
    rw [h0]
    simpa using g.balNamed b hb
  have ho : openAccount db u n q = (db, .error (noBalance q.balance)) := by
    unfold openAccount
    rw [hb]
  have hv : validAccount q = true ↔ (q.ledger ≠ [] ∧ q.identity ≠ [] ∧ q.currency ≠ []) := by
    simp [validAccount, h0, and_assoc]
  unfold createAccount
  rw [ho]
  by_cases h : validAccount q = true
  · rw [if_pos h]
    refine ⟨rfl, fun _ => ⟨_, rfl, ?_, ?_⟩, fun hn => absurd (hv.1 h) hn⟩
    · rw [h0]; decide +kernel
    · rw [h0]; decide +kernel
  · rw [if_neg h]
    exact ⟨rfl, fun hn => absurd (hv.2 hn) h, fun _ => ⟨_, rfl, by decide +kernel, by decide +kernel⟩⟩

theorem c147_full_fails : ¬ C147Full := by
  intro h
  obtain ⟨a, ha, _⟩ := h start (t! "1")
    { ledger := t! "ldg_1", identity := t! "idt_1", currency := t! "USD", number := t! "001", bank := t! "First" }
    rfl (by decide) (by decide +kernel) (by decide +kernel) (by decide +kernel) (by decide +kernel)
  obtain ⟨e, he, _⟩ := (c147_never start (t! "1") .off
    { ledger := t! "ldg_1", identity := t! "idt_1", currency := t! "USD", number := t! "001", bank := t! "First" }
    rfl).2.1 ⟨by decide, by decide, by decide⟩
  rw [he] at ha
  cases ha

theorem openAccount_eq {db : DB} {u : Text} {n : Numbers} {q : AccountReq} {b : Balance} {i : Identity}
    (hb : db.balance? q.balance = some b) (hi : db.ident? (ownerOf b q.identity) = some i)
    (hn : ∀ e, n ≠ .fails e) :
    openAccount db u n q = insertAccount db ⟨newId (t! "acc") u, accountName i, (numberOf n q).1, (numberOf n q).2,
      if b.currency = [] then q.currency else b.currency, if b.ledger = [] then q.ledger else b.ledger,
      ownerOf b q.identity, q.balance, q.info⟩ := by
  unfold openAccount
  rw [hb]
  dsimp only
  rw [hi]
  cases n with
  | fails e => exact absurd rfl (hn e)
  | off => rfl
  | answers num bank => rfl

/-- The owner of an account for the balance: the balance's, or the one named if it has none. -/
def OwnerIs (b : Balance) (named owner : Text) : Prop :=
  b.identity = some owner ∨ (b.identity = none ∧ owner = named)

theorem ownerOf_of {db : DB} (g : Good db) {b : Balance} (hb : b ∈ db.balances) {named owner : Text}
    (h : OwnerIs b named owner) : ownerOf b named = owner := by
  unfold ownerOf
  rcases h with h | ⟨h, rfl⟩
  · rw [h]
    obtain ⟨i, hi, e⟩ := List.mem_map.1 (g.balIdent b hb owner h)
    have : owner ≠ [] := e ▸ g.identNamed i hi
    simp [this]
  · rw [h]

theorem ownerIs_ownerOf {db : DB} (g : Good db) {b : Balance} (hb : b ∈ db.balances) (named : Text) :
    OwnerIs b named (ownerOf b named) := by
  cases h : b.identity with
  | none => exact .inr ⟨h, by simp [ownerOf, h]⟩
  | some o => rw [ownerOf_of g hb (.inl h)]; exact .inl h

/-- What `POST /accounts` can do, part of C147: for a balance, when its owner (or, if it has none, the one
named) is there and the number is free, the account is opened under the balance's ledger, currency and
owner and the owner's name, with the number and bank given, and reads back so. -/
theorem c147_partial (es : List Ev) (u : Text) (q : AccountReq) (b : Balance) (i : Identity)
    (hb : b ∈ (run DB.fresh es).balances) (hq : q.balance = b.id) (hl : q.ledger = []) (hc : q.currency = [])
    (hi : i ∈ (run DB.fresh es).idents) (ho : OwnerIs b q.identity i.id)
    (hid : newId (t! "acc") u ∉ (run DB.fresh es).accounts.map (·.id))
    (hnum : q.number ∉ (run DB.fresh es).accounts.map (·.number)) :
    ∃ a, (createAccount (run DB.fresh es) u .off q).2 = .ok a ∧
      getAccount (createAccount (run DB.fresh es) u .off q).1 a.id = .ok a ∧
      a.balance = b.id ∧ a.ledger = b.ledger ∧ a.currency = b.currency ∧ a.identity = i.id ∧
      a.number = q.number ∧ a.bank = q.bank ∧ a.info = q.info ∧
      a.name = if i.get .identityType = t! "organization" then i.get .organization
        else i.get .firstName ++ t! " " ++ i.get .lastName := by
  have g := good es
  generalize run DB.fresh es = db at *
  have e := openAccount_eq (db := db) (u := u) (n := .off) (q := q) (b := b) (i := i)
    (by rw [hq]; exact balance?_mem g hb) (by rw [ownerOf_of g hb ho]; exact ident?_mem g hi) (by simp)
  rw [hc, hl, ownerOf_of g hb ho] at e
  have hv : validAccount q = true := by
    unfold validAccount
    rw [if_neg (hq ▸ g.balNamed b hb), hl, hc]
    rfl
  have hcur : (if b.currency = [] then [] else b.currency) = b.currency := by split <;> simp_all
  have hled : (if b.ledger = [] then [] else b.ledger) = b.ledger := by split <;> simp_all
  rw [hcur, hled] at e
  generalize ha : (⟨newId (t! "acc") u, accountName i, (numberOf .off q).1, (numberOf .off q).2, b.currency, b.ledger,
    i.id, q.balance, q.info⟩ : Account) = a at e
  have e2 : insertAccount db a = ({ db with accounts := db.accounts ++ [a] }, .ok a) := by
    subst ha
    exact insertAccount_ok hid hnum (g.balLedger b hb)
  have e3 : createAccount db u .off q = ({ db with accounts := db.accounts ++ [a] }, .ok a) := by
    unfold createAccount
    rw [if_pos hv, e, e2]
  rw [e3]
  refine ⟨a, rfl, ?_, ?_⟩
  · unfold getAccount DB.account?
    rw [List.find?_append, List.find?_eq_none.2]
    · simp
    · intro x hx
      subst ha
      intro h
      exact hid (List.mem_map.2 ⟨x, hx, by simpa using h⟩)
  · subst ha
    refine ⟨hq, rfl, rfl, rfl, rfl, rfl, rfl, ?_⟩
    simp only [accountName]
    split <;> simp

/-- A request it speaks of. -/
example : ∃ b ∈ (run DB.fresh start).balances, ∃ i ∈ (run DB.fresh start).idents,
    b.id = t! "bln_1" ∧ OwnerIs b [] i.id ∧ (run DB.fresh start).accounts = [] := by
  refine ⟨⟨t! "bln_1", t! "ldg_1", some (t! "idt_1"), t! "USD", none⟩, by decide +kernel,
    { person (t! "Ada") (t! "Bell") with id := t! "idt_1", dob := Dob.zero.stored }, ?_, rfl, .inl rfl, by decide +kernel⟩
  show _ ∈ [_, _]
  exact List.mem_cons_self

/-! ### C148: an account and its balance -/

/-- **C148 in full**: an account says of its balance what the balance says: ledger, currency and owner. -/
def C148Full : Prop :=
  ∀ (es : List Ev), ∀ a ∈ (run DB.fresh es).accounts, ∃ b ∈ (run DB.fresh es).balances,
    b.id = a.balance ∧ b.ledger = a.ledger ∧ b.currency = a.currency ∧ b.identity = some a.identity

/-- A balance that gets another owner leaves its account with the first. -/
theorem c148_full_fails : ¬ C148Full := by
  intro h
  have h1 : ∀ a ∈ (run DB.fresh (withAccount ++ [.moveBalance (t! "bln_1") (t! "idt_2")])).accounts,
      a.identity = t! "idt_1" := by decide +kernel
  have h2 : ∀ b ∈ (run DB.fresh (withAccount ++ [.moveBalance (t! "bln_1") (t! "idt_2")])).balances,
      b.identity = some (t! "idt_2") := by decide +kernel
  have h3 : (run DB.fresh (withAccount ++ [.moveBalance (t! "bln_1") (t! "idt_2")])).accounts ≠ [] := by decide +kernel
  obtain ⟨a, ha⟩ := List.exists_mem_of_ne_nil _ h3
  obtain ⟨b, hb, _, _, _, e⟩ := h _ a ha
  rw [h2 b hb, h1 a ha] at e
  revert e
  decide +kernel

/-- So does opening an account, under any owner, for a balance that has none. -/
theorem c148_full_fails_unowned :
    ∃ es, ∃ a ∈ (run DB.fresh es).accounts, ∃ b ∈ (run DB.fresh es).balances, b.id = a.balance ∧ b.identity = none :=
  ⟨[.createIdentity (t! "1") (person (t! "Ada") (t! "Bell")),
    .createBalance (t! "1") { ledger := generalId, currency := t! "USD" },
    .createAccount (t! "1") .off { number := t! "001", balance := t! "bln_1", identity := t! "idt_1" }],
   ⟨t! "acc_1", t! "Ada Bell", t! "001", [], t! "USD", generalId, t! "idt_1", t! "bln_1", none⟩, by decide +kernel,
   ⟨t! "bln_1", generalId, none, t! "USD", none⟩, by decide +kernel, rfl, rfl⟩

/-- Ledger and currency always agree, and there is one balance only to agree with. -/
theorem c148_partial (es : List Ev) (a : Account) (ha : a ∈ (run DB.fresh es).accounts) :
    ∃ b ∈ (run DB.fresh es).balances, b.id = a.balance ∧ b.ledger = a.ledger ∧ b.currency = a.currency ∧
      ∀ b' ∈ (run DB.fresh es).balances, b'.id = a.balance → b' = b := by
  have g := good es
  obtain ⟨b, hb, h1, h2, h3⟩ := g.accBal a ha
  refine ⟨b, hb, h1, h2.symm, h3.symm, fun b' hb' e => ?_⟩
  have e1 := balance?_mem g hb
  have e2 := balance?_mem g hb'
  rw [e, ← h1, e1] at e2
  injection e2 with e2
  exact e2.symm

/-- Of the balance `x` and its accounts: one owner. -/
def Agree (x : Text) (db : DB) : Prop :=
  ∀ a ∈ db.accounts, a.balance = x → ∀ b ∈ db.balances, b.id = x → b.identity = none ∨ b.identity = some a.identity

theorem agree_insert {db : DB} (g : Good db) {x : Text} (h : Agree x db) (b : Balance) :
    Agree x (insertBalance db b).1 := by
  rcases insertBalance_cases db b with e | ⟨h1, _, _, e⟩
  · rw [e]; exact h
  · rw [e]
    intro a ha hax c hc hcx
    rcases List.mem_append.1 hc with hc | hc
    · exact h a ha hax c hc hcx
    · simp only [List.mem_singleton] at hc
      subst hc
      obtain ⟨d, hd, hd', _⟩ := g.accBal a ha
      exact absurd (List.mem_map.2 ⟨d, hd, by rw [hd', hax, hcx]⟩) h1

theorem agree_step {db : DB} (g : Good db) {x : Text} (h : Agree x db) {e : Ev} (he : ∀ o, e ≠ .moveBalance x o) :
    Agree x (step db e) := by
  cases e with
  | createLedger u name info =>
    show Agree x (createLedger db u name info).1
    rcases createLedger_cases db u name info with e | ⟨_, e⟩ <;> rw [e] <;> exact h
  | updateLedger id name =>
    show Agree x (updateLedger db id name).1
    rcases updateLedger_cases db id name with e | e <;> rw [e] <;> exact h
  | createIdentity u i =>
    show Agree x (createIdentity db u i).1
    rcases createIdentity_cases db u i with ⟨e, _⟩ | ⟨_, _, _, _, e⟩ <;> rw [e] <;> exact h
  | updateIdentity id q =>
    show Agree x (updateIdentity db id q).1
    rcases updateIdentity_cases db id q with e | e <;> rw [e] <;> exact h
  | deleteIdentity id =>
    show Agree x (deleteIdentity db id).1
    rcases deleteIdentity_cases db id with ⟨e, _⟩ | ⟨_, _, _, e⟩ <;> rw [e] <;> exact h
  | createBalance u q =>
    show Agree x (createBalance db u q).1
    rcases createBalance_cases db u q with e | ⟨b, _, e⟩
    · rw [e]; exact h
    · rw [← e]; exact agree_insert g h b
  | ensureBalance u ind cur => exact agree_insert g h _
  | moveBalance id owner =>
    show Agree x (moveBalance db id owner).1
    rcases moveBalance_cases db id owner with e | ⟨_, e⟩
    · rw [e]; exact h
    · rw [e]
      intro a ha hax b hb hbx
      obtain ⟨y, hy, rfl⟩ := List.mem_map.1 hb
      have hne : y.id ≠ id := by
        intro hy'
        rw [if_pos hy'] at hbx
        exact he owner (by rw [← hbx]; simp [hy'])
      rw [if_neg hne] at hbx ⊢
      exact h a ha hax y hy hbx
  | track id p sh ag =>
    show Agree x (track db id p sh ag)
    rcases track_cases db id p sh ag with e | ⟨_, _, _, _, _, _, e⟩ <;> rw [e] <;> exact h
  | createAccount u n q =>
    show Agree x (createAccount db u n q).1
    rcases createAccount_cases db u n q with ⟨e, _⟩ | ⟨hv, b, hb, hbi, i, hi, hii, _, _, _, e⟩
    · rw [e]; exact h
    · rw [e]
      intro a ha hax c hc hcx
      rcases List.mem_append.1 ha with ha | ha
      · exact h a ha hax c hc hcx
      · simp only [List.mem_singleton] at ha
        subst ha
        have e1 := balance?_mem g hb
        have e2 := balance?_mem g hc
        rw [hcx, ← hax] at e2
        dsimp only at e2
        rw [← hbi, e1] at e2
        injection e2 with e2
        subst e2
        rcases ownerIs_ownerOf g hb q.identity with h | h
        · exact .inr h
        · exact .inl h.1

/-- As long as nobody moves the balance, it has the owner its account names, or none. -/
theorem c148_owner_partial (es : List Ev) (a : Account) (ha : a ∈ (run DB.fresh es).accounts)
    (he : ∀ o, .moveBalance a.balance o ∉ es) (b : Balance) (hb : b ∈ (run DB.fresh es).balances)
    (e : b.id = a.balance) : b.identity = none ∨ b.identity = some a.identity := by
  have key : ∀ (es : List Ev) (db : DB), Good db → Agree a.balance db → (∀ o, .moveBalance a.balance o ∉ es) →
      Agree a.balance (run db es) := by
    intro es
    induction es with
    | nil => intro db _ h _; exact h
    | cons e es ih =>
      intro db g h hm
      exact ih _ (good_step g e) (agree_step g h fun o hc => hm o (hc ▸ List.mem_cons_self))
        (fun o hc => hm o (List.mem_cons_of_mem _ hc))
  exact key es DB.fresh good_fresh (by intro a ha; simp [DB.fresh] at ha) he a ha rfl b hb e

example : ∀ o, Ev.moveBalance (t! "bln_1") o ∉ withAccount := by
  intro o h
  simp [withAccount, start] at h

/-! ### C149: references lead somewhere -/

/-- Something was read. -/
def found {α : Type} (r : Except Resp α) : Prop := ∃ a, r = .ok a

theorem getLedger_found {db : DB} {x : Text} (h : x ∈ db.ledgers.map (·.id)) : found (getLedger db x) := by
  unfold getLedger
  cases e : db.ledger? x with
  | none => exact absurd h (find_none Ledger.id e)
  | some l => exact ⟨l, rfl⟩

theorem getIdentity_found {db : DB} {x : Text} (h : x ∈ db.idents.map (·.id)) : found (getIdentity db x) := by
  unfold getIdentity
  cases e : db.ident? x with
  | none => exact absurd h (find_none Identity.id e)
  | some l => exact ⟨l, rfl⟩

/-- **C149**: whatever has been created, changed, moved and deleted, the ledger and owner of every balance,
the ledger, owner and balance of every account, and the owner and balance of every fund-lineage mapping can
be read. -/
theorem c149 (es : List Ev) :
    (∀ b ∈ (run DB.fresh es).balances, found (getLedger (run DB.fresh es) b.ledger) ∧
      ∀ i, b.identity = some i → found (getIdentity (run DB.fresh es) i)) ∧
    (∀ a ∈ (run DB.fresh es).accounts, found (getLedger (run DB.fresh es) a.ledger) ∧
      found (getIdentity (run DB.fresh es) a.identity) ∧ ∃ b ∈ (run DB.fresh es).balances, b.id = a.balance) ∧
    (∀ m ∈ (run DB.fresh es).maps, found (getIdentity (run DB.fresh es) m.identity) ∧
      ∃ b ∈ (run DB.fresh es).balances, b.id = m.balance) := by
  have g := good es
  refine ⟨fun b hb => ⟨getLedger_found (g.balLedger b hb), fun i hi => getIdentity_found (g.balIdent b hb i hi)⟩,
    fun a ha => ⟨getLedger_found (g.accLedger a ha), getIdentity_found (g.accIdent a ha), ?_⟩,
    fun m hm => ⟨getIdentity_found (g.mapIdent m hm), ?_⟩⟩
  · obtain ⟨b, hb, h, _⟩ := g.accBal a ha
    exact ⟨b, hb, h⟩
  · obtain ⟨b, hb, h⟩ := List.mem_map.1 (g.mapBal m hm)
    exact ⟨b, hb, h⟩

/-- An identity with a balance or an account is not deleted: the request fails with an internal error and
changes nothing. -/
theorem c149_refused (es : List Ev) (id : Text)
    (h : (∃ b ∈ (run DB.fresh es).balances, b.identity = some id) ∨ ∃ a ∈ (run DB.fresh es).accounts, a.identity = id) :
    (deleteIdentity (run DB.fresh es) id).1 = run DB.fresh es ∧
    ∃ r, (deleteIdentity (run DB.fresh es) id).2 = some r ∧ r.status = 500 ∧ r.code = "GEN_INTERNAL" := by
  have g := good es
  generalize run DB.fresh es = db at *
  have h1 : db.idents.any (·.id == id) = true := by
    rw [any_id Identity.id]
    rcases h with ⟨b, hb, e⟩ | ⟨a, ha, rfl⟩
    · exact g.balIdent b hb id e
    · exact g.accIdent a ha
  have h2 : (db.balances.any (·.identity == some id) || db.accounts.any (·.identity == id)) = true := by
    rw [Bool.or_eq_true, List.any_eq_true, List.any_eq_true]
    rcases h with ⟨b, hb, e⟩ | ⟨a, ha, e⟩
    · exact .inl ⟨b, hb, by simp [e]⟩
    · exact .inr ⟨a, ha, by simp [e]⟩
  unfold deleteIdentity
  rw [if_pos h1, if_pos h2]
  exact ⟨rfl, _, rfl, by decide +kernel, by decide +kernel⟩

/-- An identity nothing refers to is deleted, and is then unknown; the others stay. -/
theorem c149_deleted (es : List Ev) (i : Identity) (hi : i ∈ (run DB.fresh es).idents)
    (hb : ∀ b ∈ (run DB.fresh es).balances, b.identity ≠ some i.id)
    (ha : ∀ a ∈ (run DB.fresh es).accounts, a.identity ≠ i.id) :
    (deleteIdentity (run DB.fresh es) i.id).2 = none ∧
    (∀ x, getIdentity (deleteIdentity (run DB.fresh es) i.id).1 x =
      if x = i.id then .error (respondError identOpts (noIdentity i.id)) else getIdentity (run DB.fresh es) x) := by
  generalize run DB.fresh es = db at *
  have e : deleteIdentity db i.id =
      ({ db with idents := db.idents.filter (·.id != i.id), maps := db.maps.filter (·.identity != i.id) }, none) := by
    unfold deleteIdentity
    rw [if_pos ((any_id Identity.id _ _).2 (List.mem_map.2 ⟨i, hi, rfl⟩)), if_neg]
    simp only [Bool.or_eq_true, List.any_eq_true, beq_iff_eq, not_or, not_exists, not_and]
    exact ⟨hb, ha⟩
  rw [e]
  refine ⟨rfl, fun x => ?_⟩
  unfold getIdentity DB.ident?
  dsimp only
  rw [List.find?_filter]
  by_cases hx : x = i.id
  · rw [if_pos hx, List.find?_eq_none.2]
    · rw [hx]
    · intro y _
      simp only [bne_iff_ne, ne_eq, beq_iff_eq, not_and, decide_eq_true_eq]
      intro h1 h2
      exact h1 (h2.trans hx)
  · rw [if_neg hx]
    congr 1
    have : (fun a : Identity => decide ((a.id != i.id) = true ∧ (a.id == x) = true)) = fun a => a.id == x := by
      funext a
      by_cases h : a.id = x
      · simp [h, hx]
      · simp [h]
    simp only [this]

example : (∃ b ∈ (run DB.fresh start).balances, b.identity = some (t! "idt_1")) ∧
    (∀ b ∈ (run DB.fresh start).balances, b.identity ≠ some (t! "idt_2")) ∧
    t! "idt_2" ∈ (run DB.fresh start).idents.map (·.id) := by
  decide +kernel

/-! ### C150: fund lineage outlives its owner's record -/

/-- The balance's funds from the provider are known. -/
def Known (db : DB) (balance provider : Text) : Prop := ∃ m ∈ mapsOf db balance, m.provider = provider

/-- **C150 in full**: nothing that happens makes the funds of a balance unknown. -/
def C150Full : Prop :=
  ∀ (es : List Ev) (e : Ev) (x p : Text), Known (run DB.fresh es) x p → Known (step (run DB.fresh es) e) x p

/-- A balance with funds from a provider, moved from its first owner to the second. -/
def moved : List Ev :=
  start ++ [.ensureBalance (t! "2") (t! "@stripe_lineage") (t! "USD"), .ensureBalance (t! "3") (t! "@all_lineage") (t! "USD"),
    .track (t! "bln_1") (t! "stripe") (t! "bln_2") (t! "bln_3"), .moveBalance (t! "bln_1") (t! "idt_2")]

theorem c150_full_fails : ¬ C150Full := by
  intro h
  obtain ⟨m, hm, _⟩ := h moved (.deleteIdentity (t! "idt_1")) (t! "bln_1") (t! "stripe")
    ⟨⟨t! "bln_1", t! "stripe", t! "bln_2", t! "bln_3", t! "idt_1"⟩, by decide +kernel, rfl⟩
  revert hm
  have : mapsOf (step (run DB.fresh moved) (.deleteIdentity (t! "idt_1"))) (t! "bln_1") = [] := by decide +kernel
  rw [this]
  simp

theorem upsert_keeps {m x : Mapping} {ms : List Mapping} (h : x ∈ ms) :
    ∃ y ∈ upsert m ms, y.balance = x.balance ∧ y.provider = x.provider ∧ y.identity = x.identity := by
  unfold upsert
  split
  · refine ⟨_, List.mem_map_of_mem h, ?_⟩
    split <;> simp
  · exact ⟨x, List.mem_append_left _ h, rfl, rfl, rfl⟩

/-- What is known stays known, under the same owner, through everything but the deletion of the owner it was
recorded under, and through that too while the balance still belongs to them. -/
theorem c150_partial (es : List Ev) (e : Ev) (m : Mapping) (hm : m ∈ (run DB.fresh es).maps)
    (h : e ≠ .deleteIdentity m.identity ∨
      ∃ b ∈ (run DB.fresh es).balances, b.id = m.balance ∧ b.identity = some m.identity) :
    ∃ m' ∈ mapsOf (step (run DB.fresh es) e) m.balance, m'.provider = m.provider ∧ m'.identity = m.identity := by
  generalize run DB.fresh es = db at *
  suffices hs : ∃ m' ∈ (step db e).maps, m'.balance = m.balance ∧ m'.provider = m.provider ∧ m'.identity = m.identity by
    obtain ⟨m', h1, h2, h3⟩ := hs
    exact ⟨m', List.mem_filter.2 ⟨h1, by simpa using h2⟩, h3⟩
  have same : ∀ db' : DB, db'.maps = db.maps →
      ∃ m' ∈ db'.maps, m'.balance = m.balance ∧ m'.provider = m.provider ∧ m'.identity = m.identity :=
    fun db' e => ⟨m, e ▸ hm, rfl, rfl, rfl⟩
  have ins : ∀ b : Balance, (insertBalance db b).1.maps = db.maps := by
    intro b
    rcases insertBalance_cases db b with e | ⟨_, _, _, e⟩ <;> rw [e]
  cases e with
  | createLedger u name info =>
    apply same
    rcases createLedger_cases db u name info with e | ⟨_, e⟩ <;> (have h := congrArg DB.maps e; exact h)
  | updateLedger id name =>
    apply same
    rcases updateLedger_cases db id name with e | e <;> (have h := congrArg DB.maps e; exact h)
  | createIdentity u i =>
    apply same
    rcases createIdentity_cases db u i with ⟨e, _⟩ | ⟨_, _, _, _, e⟩ <;> (have h := congrArg DB.maps e; exact h)
  | updateIdentity id q =>
    apply same
    rcases updateIdentity_cases db id q with e | e <;> (have h := congrArg DB.maps e; exact h)
  | deleteIdentity id =>
    show ∃ m' ∈ (deleteIdentity db id).1.maps, _
    rcases deleteIdentity_cases db id with ⟨e, _⟩ | ⟨_, h1, _, e⟩
    · rw [e]; exact same db rfl
    · rw [e]
      have hne : m.identity ≠ id := by
        rcases h with h | ⟨b, hb, _, hi⟩
        · exact fun hc => h (by rw [hc])
        · exact fun hc => h1 b hb (hc ▸ hi)
      exact ⟨m, List.mem_filter.2 ⟨hm, by simpa using hne⟩, rfl, rfl, rfl⟩
  | createBalance u q =>
    apply same
    show (createBalance db u q).1.maps = _
    rcases createBalance_cases db u q with e | ⟨b, _, e⟩
    · rw [e]
    · rw [← e]; exact ins b
  | ensureBalance u ind cur => exact same _ (ins _)
  | moveBalance id owner =>
    apply same
    rcases moveBalance_cases db id owner with e | ⟨_, e⟩ <;> (have h := congrArg DB.maps e; exact h)
  | track id p sh ag =>
    show ∃ m' ∈ (track db id p sh ag).maps, _
    rcases track_cases db id p sh ag with e | ⟨_, _, _, i, _, _, e⟩
    · rw [e]; exact same db rfl
    · rw [e]; exact upsert_keeps hm
  | createAccount u n q =>
    apply same
    rcases createAccount_cases db u n q with ⟨e, _⟩ | ⟨_, b, _, _, i, _, _, _, _, _, e⟩
    · (have h := congrArg DB.maps e; exact h)
    · (have h := congrArg (fun r => DB.maps r.1) e; exact h)

/-- Without the move the deletion is refused and the funds stay known. -/
example : Known (run DB.fresh (moved.dropLast ++ [.deleteIdentity (t! "idt_1")])) (t! "bln_1") (t! "stripe") :=
  ⟨⟨t! "bln_1", t! "stripe", t! "bln_2", t! "bln_3", t! "idt_1"⟩, by decide +kernel, rfl⟩

end Blnk.Book
