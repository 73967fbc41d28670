import Verif.Model.Records
import Verif.Lemmas.Errors
/-
Facts about the record tables used in `Verif.Props.Records`: what each request can leave behind, and
what holds of every state requests lead to.
-/
namespace Blnk.Book
open Errs

theorem any_id {α : Type} (f : α → Text) (l : List α) (x : Text) :
    l.any (fun a => f a == x) = true ↔ x ∈ l.map f := by
  rw [List.any_eq_true, List.mem_map]
  simp only [beq_iff_eq]

theorem any_id_false {α : Type} (f : α → Text) (l : List α) (x : Text) :
    l.any (fun a => f a == x) = false ↔ x ∉ l.map f := by
  rw [← any_id f l x]; simp

theorem find_id {α : Type} (f : α → Text) {l : List α} {x : Text} {a : α}
    (h : l.find? (fun a => f a == x) = some a) : a ∈ l ∧ f a = x :=
  ⟨List.mem_of_find?_eq_some h, by simpa using List.find?_some h⟩

theorem find_mem {α : Type} (f : α → Text) {l : List α} (hn : (l.map f).Nodup) {a : α} (h : a ∈ l) :
    l.find? (fun b => f b == f a) = some a := by
  induction l with
  | nil => simp at h
  | cons b l ih =>
    rw [List.map_cons, List.nodup_cons] at hn
    rcases List.mem_cons.1 h with rfl | h
    · simp
    · have : f b ≠ f a := fun e => hn.1 (e ▸ List.mem_map_of_mem h)
      rw [List.find?_cons_of_neg (by simpa using this)]
      exact ih hn.2 h

theorem find_none {α : Type} (f : α → Text) {l : List α} {x : Text}
    (h : l.find? (fun a => f a == x) = none) : x ∉ l.map f := by
  intro hm
  obtain ⟨a, ha, rfl⟩ := List.mem_map.1 hm
  exact absurd (beq_self_eq_true (f a)) (List.find?_eq_none.1 h a ha)

/-- What holds of the tables at all times. -/
structure Good (db : DB) : Prop where
  ledgerIds : (db.ledgers.map (·.id)).Nodup
  identIds : (db.idents.map (·.id)).Nodup
  balanceIds : (db.balances.map (·.id)).Nodup
  accountIds : (db.accounts.map (·.id)).Nodup
  numbers : (db.accounts.map (·.number)).Nodup
  general : generalId ∈ db.ledgers.map (·.id)
  balNamed : ∀ b ∈ db.balances, b.id ≠ []
  balLedger : ∀ b ∈ db.balances, b.ledger ∈ db.ledgers.map (·.id)
  balIdent : ∀ b ∈ db.balances, ∀ i, b.identity = some i → i ∈ db.idents.map (·.id)
  identNamed : ∀ i ∈ db.idents, i.id ≠ []
  accLedger : ∀ a ∈ db.accounts, a.ledger ∈ db.ledgers.map (·.id)
  accIdent : ∀ a ∈ db.accounts, a.identity ∈ db.idents.map (·.id)
  accBal : ∀ a ∈ db.accounts, ∃ b ∈ db.balances, b.id = a.balance ∧ a.ledger = b.ledger ∧ a.currency = b.currency
  mapIdent : ∀ m ∈ db.maps, m.identity ∈ db.idents.map (·.id)
  mapBal : ∀ m ∈ db.maps, m.balance ∈ db.balances.map (·.id)

theorem good_fresh : Good DB.fresh where
  ledgerIds := by simp [DB.fresh]
  identIds := by simp [DB.fresh]
  balanceIds := by simp [DB.fresh]
  accountIds := by simp [DB.fresh]
  numbers := by simp [DB.fresh]
  general := by simp [DB.fresh]
  balNamed := by simp [DB.fresh]
  balLedger := by simp [DB.fresh]
  balIdent := by simp [DB.fresh]
  identNamed := by simp [DB.fresh]
  accLedger := by simp [DB.fresh]
  accIdent := by simp [DB.fresh]
  accBal := by simp [DB.fresh]
  mapIdent := by simp [DB.fresh]
  mapBal := by simp [DB.fresh]

/-! ### What a request leaves behind -/

theorem createLedger_cases (db : DB) (u name : Text) (info : Option Text) :
    (createLedger db u name info).1 = db ∨
      newId (t! "ldg") u ∉ db.ledgers.map (·.id) ∧
      (createLedger db u name info).1 = { db with ledgers := db.ledgers ++ [⟨newId (t! "ldg") u, name, info⟩] } := by
  unfold createLedger
  split
  · exact .inl rfl
  · dsimp only
    split
    · exact .inl rfl
    · rename_i h
      exact .inr ⟨(any_id_false _ _ _).1 (by simpa only [Bool.not_eq_true] using h), rfl⟩

theorem updateLedger_cases (db : DB) (id name : Text) :
    (updateLedger db id name).1 = db ∨
      (updateLedger db id name).1 =
        { db with ledgers := db.ledgers.map fun x => if x.id = id then { x with name } else x } := by
  unfold updateLedger
  split
  · exact .inl rfl
  · split
    · exact .inl rfl
    · exact .inr rfl

theorem newId_ne (k u : Text) : newId k u ≠ [] := by simp [newId]

theorem chosenId_ne {g u id : Text} (h : chosenId g u = .ok id) : id ≠ [] := by
  unfold chosenId at h
  split at h
  · injection h with h; subst h; exact newId_ne _ _
  · split at h
    · split at h
      · injection h with h; subst h; assumption
      · cases h
    · cases h

theorem createIdentity_cases (db : DB) (u : Text) (i : Identity) :
    (createIdentity db u i).1 = db ∧ (∃ r, (createIdentity db u i).2 = .error r) ∨
      ∃ id, chosenId i.id u = .ok id ∧ id ∉ db.idents.map (·.id) ∧
        (createIdentity db u i).2 = .ok { i with id } ∧
        (createIdentity db u i).1 = { db with idents := db.idents ++ [{ i with id, dob := i.dob.stored }] } := by
  unfold createIdentity
  split
  · exact .inl ⟨rfl, _, rfl⟩
  · rename_i id hc
    split
    · exact .inl ⟨rfl, _, rfl⟩
    · rename_i h
      exact .inr ⟨id, hc, (any_id_false _ _ _).1 (by simpa only [Bool.not_eq_true] using h), rfl, rfl⟩

theorem updateIdentity_cases (db : DB) (id : Text) (q : Identity) :
    (updateIdentity db id q).1 = db ∨
      (updateIdentity db id q).1 =
        { db with idents := db.idents.map fun i => if i.id = id then applyUpdate q i else i } := by
  unfold updateIdentity
  split
  · exact .inl rfl
  · split
    · exact .inr rfl
    · exact .inl rfl

theorem deleteIdentity_cases (db : DB) (id : Text) :
    (deleteIdentity db id).1 = db ∧ (deleteIdentity db id).2 ≠ none ∨
      id ∈ db.idents.map (·.id) ∧ (∀ b ∈ db.balances, b.identity ≠ some id) ∧ (∀ a ∈ db.accounts, a.identity ≠ id) ∧
      deleteIdentity db id =
        ({ db with idents := db.idents.filter (·.id != id), maps := db.maps.filter (·.identity != id) }, none) := by
  unfold deleteIdentity
  split
  · rename_i h0
    split
    · exact .inl ⟨rfl, by simp⟩
    · rename_i h
      simp only [Bool.or_eq_true, List.any_eq_true, not_or, not_exists, not_and, beq_iff_eq] at h
      exact .inr ⟨(any_id _ _ _).1 h0, h.1, h.2, rfl⟩
  · exact .inl ⟨rfl, by simp⟩

theorem insertBalance_cases (db : DB) (b : Balance) :
    (insertBalance db b).1 = db ∨
      b.id ∉ db.balances.map (·.id) ∧ b.ledger ∈ db.ledgers.map (·.id) ∧
      (∀ i, b.identity = some i → i ∈ db.idents.map (·.id)) ∧
      (insertBalance db b).1 = { db with balances := db.balances ++ [b] } := by
  unfold insertBalance
  split
  · exact .inl rfl
  · split
    · exact .inl rfl
    · rename_i h
      obtain ⟨id, l, o, c, n⟩ := b
      cases o with
      | none =>
        dsimp only
        split
        · rename_i h'
          rw [Bool.and_true] at h'
          exact .inr ⟨(any_id_false _ _ _).1 (by simpa only [Bool.not_eq_true] using h), (any_id _ _ _).1 h', by simp, rfl⟩
        · exact .inl rfl
      | some o =>
        dsimp only
        split
        · rename_i h'
          rw [Bool.and_eq_true] at h'
          refine .inr ⟨(any_id_false _ _ _).1 (by simpa only [Bool.not_eq_true] using h), (any_id _ _ _).1 h'.1, ?_, rfl⟩
          intro i hi
          injection hi with hi
          subst hi
          exact (any_id _ _ _).1 h'.2
        · exact .inl rfl

theorem createBalance_cases (db : DB) (u : Text) (q : BalanceReq) :
    (createBalance db u q).1 = db ∨ ∃ b : Balance, b.id = newId (t! "bln") u ∧ (insertBalance db b).1 = (createBalance db u q).1 := by
  unfold createBalance
  split
  · exact .inl rfl
  · generalize hr : insertBalance db ⟨newId (t! "bln") u, q.ledger, nullable q.identity, q.currency, nullable q.indicator⟩ = r
    obtain ⟨db', x⟩ := r
    refine .inr ⟨⟨newId (t! "bln") u, q.ledger, nullable q.identity, q.currency, nullable q.indicator⟩, rfl, ?_⟩
    rw [hr]; cases x <;> rfl

theorem moveBalance_cases (db : DB) (id owner : Text) :
    (moveBalance db id owner).1 = db ∨
      owner ∈ db.idents.map (·.id) ∧
      (moveBalance db id owner).1 =
        { db with balances := db.balances.map fun b => if b.id = id then { b with identity := some owner } else b } := by
  unfold moveBalance
  dsimp only
  split
  · exact .inl rfl
  · split
    · exact .inl rfl
    · rename_i x h
      split
      · exact .inl rfl
      · have := find_id _ h
        exact .inr ⟨this.2 ▸ List.mem_map_of_mem (f := (·.id)) this.1, rfl⟩

theorem track_cases (db : DB) (id p sh ag : Text) :
    track db id p sh ag = db ∨
      ∃ b ∈ db.balances, b.id = id ∧ ∃ i, b.identity = some i ∧ i ∈ db.idents.map (·.id) ∧
        track db id p sh ag = { db with maps := upsert ⟨id, p, sh, ag, i⟩ db.maps } := by
  unfold track
  split
  · rename_i b _ _ hb _ _
    split
    · rename_i i hi
      split
      · rename_i h
        have := find_id _ hb
        exact .inr ⟨b, this.1, this.2, i, hi, (any_id _ _ _).1 h, rfl⟩
      · exact .inl rfl
    · exact .inl rfl
  · exact .inl rfl

theorem insertAccount_cases (db : DB) (a : Account) :
    (insertAccount db a).1 = db ∧ (∃ e, (insertAccount db a).2 = .error e) ∨
      a.id ∉ db.accounts.map (·.id) ∧ a.number ∉ db.accounts.map (·.number) ∧
      a.ledger ∈ db.ledgers.map (·.id) ∧
      insertAccount db a = ({ db with accounts := db.accounts ++ [a] }, .ok a) := by
  unfold insertAccount
  split
  · exact .inl ⟨rfl, _, rfl⟩
  · rename_i h1
    split
    · exact .inl ⟨rfl, _, rfl⟩
    · rename_i h2
      split
      · rename_i h3
        exact .inr ⟨(any_id_false _ _ _).1 (by simpa only [Bool.not_eq_true] using h1),
          (any_id_false _ _ _).1 (by simpa only [Bool.not_eq_true] using h2), (any_id _ _ _).1 h3, rfl⟩
      · exact .inl ⟨rfl, _, rfl⟩

theorem insertAccount_ok {db : DB} {a : Account} (h1 : a.id ∉ db.accounts.map (·.id))
    (h2 : a.number ∉ db.accounts.map (·.number)) (h3 : a.ledger ∈ db.ledgers.map (·.id)) :
    insertAccount db a = ({ db with accounts := db.accounts ++ [a] }, .ok a) := by
  unfold insertAccount
  rw [if_neg fun h => h1 ((any_id Account.id _ _).1 h), if_neg fun h => h2 ((any_id Account.number _ _).1 h),
    if_pos ((any_id Ledger.id _ _).2 h3)]

theorem insertAccount_dup {db : DB} {a : Account} (h1 : a.id ∉ db.accounts.map (·.id))
    (h2 : a.number ∈ db.accounts.map (·.number)) : insertAccount db a = (db, .error dupNumber) := by
  unfold insertAccount
  rw [if_neg fun h => h1 ((any_id Account.id _ _).1 h), if_pos ((any_id Account.number _ _).2 h2)]

theorem openAccount_cases (db : DB) (u : Text) (n : Numbers) (q : AccountReq) :
    (openAccount db u n q).1 = db ∧ (∃ e, (openAccount db u n q).2 = .error e) ∨
      ∃ b ∈ db.balances, b.id = q.balance ∧ ∃ i ∈ db.idents, i.id = ownerOf b q.identity ∧
        let a : Account := ⟨newId (t! "acc") u, accountName i, (numberOf n q).1, (numberOf n q).2,
          if b.currency = [] then q.currency else b.currency, if b.ledger = [] then q.ledger else b.ledger,
          ownerOf b q.identity, q.balance, q.info⟩
        a.id ∉ db.accounts.map (·.id) ∧ a.number ∉ db.accounts.map (·.number) ∧
        a.ledger ∈ db.ledgers.map (·.id) ∧
        openAccount db u n q = ({ db with accounts := db.accounts ++ [a] }, .ok a) := by
  unfold openAccount
  split
  · exact .inl ⟨rfl, _, rfl⟩
  · rename_i b hb
    have hb' := find_id _ hb
    dsimp only
    split
    · exact .inl ⟨rfl, _, rfl⟩
    · rename_i i hi
      have hi' := find_id _ hi
      cases n with
      | fails e => exact .inl ⟨rfl, _, rfl⟩
      | off =>
        rcases insertAccount_cases db ⟨newId (t! "acc") u, accountName i, (numberOf .off q).1, (numberOf .off q).2,
          if b.currency = [] then q.currency else b.currency, if b.ledger = [] then q.ledger else b.ledger,
          ownerOf b q.identity, q.balance, q.info⟩ with h | ⟨h1, h2, h3, h4⟩
        · exact .inl h
        · exact .inr ⟨b, hb'.1, hb'.2, i, hi'.1, hi'.2, h1, h2, h3, h4⟩
      | answers num bank =>
        rcases insertAccount_cases db ⟨newId (t! "acc") u, accountName i, (numberOf (.answers num bank) q).1,
          (numberOf (.answers num bank) q).2,
          if b.currency = [] then q.currency else b.currency, if b.ledger = [] then q.ledger else b.ledger,
          ownerOf b q.identity, q.balance, q.info⟩ with h | ⟨h1, h2, h3, h4⟩
        · exact .inl h
        · exact .inr ⟨b, hb'.1, hb'.2, i, hi'.1, hi'.2, h1, h2, h3, h4⟩

theorem createAccount_cases (db : DB) (u : Text) (n : Numbers) (q : AccountReq) :
    (createAccount db u n q).1 = db ∧ (∃ e, (createAccount db u n q).2 = .error e) ∨
      validAccount q = true ∧
      ∃ b ∈ db.balances, b.id = q.balance ∧ ∃ i ∈ db.idents, i.id = ownerOf b q.identity ∧
        let a : Account := ⟨newId (t! "acc") u, accountName i, (numberOf n q).1, (numberOf n q).2,
          if b.currency = [] then q.currency else b.currency, if b.ledger = [] then q.ledger else b.ledger,
          ownerOf b q.identity, q.balance, q.info⟩
        a.id ∉ db.accounts.map (·.id) ∧ a.number ∉ db.accounts.map (·.number) ∧
        a.ledger ∈ db.ledgers.map (·.id) ∧
        createAccount db u n q = ({ db with accounts := db.accounts ++ [a] }, .ok a) := by
  unfold createAccount
  split
  · rename_i hv
    rcases openAccount_cases db u n q with ⟨h1, e, h2⟩ | ⟨b, hb, hbi, i, hi, hii, h1, h2, h3, h4⟩
    · generalize openAccount db u n q = r at h1 h2
      obtain ⟨db', x⟩ := r
      simp only at h1 h2
      subst h2
      exact .inl ⟨h1, _, rfl⟩
    · refine .inr ⟨hv, b, hb, hbi, i, hi, hii, h1, h2, h3, ?_⟩
      rw [h4]
  · exact .inl ⟨rfl, _, rfl⟩

/-! ### The invariant -/

theorem nodup_snoc {l : List Text} {x : Text} (h : l.Nodup) (hx : x ∉ l) : (l ++ [x]).Nodup := by
  rw [List.nodup_append]
  refine ⟨h, by simp, ?_⟩
  intro a ha b hb
  simp only [List.mem_singleton] at hb
  subst hb
  exact fun e => hx (e ▸ ha)

theorem map_if_id {α : Type} (f : α → Text) (p : α → Prop) [DecidablePred p] (g : α → α) (h : ∀ a, f (g a) = f a)
    (l : List α) : (l.map fun a => if p a then g a else a).map f = l.map f := by
  rw [List.map_map]
  apply List.map_congr_left
  intro a _
  simp only [Function.comp_apply]
  split
  · exact h a
  · rfl

theorem upsert_mem {m x : Mapping} {ms : List Mapping} (h : x ∈ upsert m ms) :
    (∃ y ∈ ms, x.identity = y.identity ∧ x.balance = y.balance) ∨ x = m := by
  unfold upsert at h
  split at h
  · obtain ⟨y, hy, rfl⟩ := List.mem_map.1 h
    refine .inl ⟨y, hy, ?_⟩
    split <;> simp
  · rcases List.mem_append.1 h with h | h
    · exact .inl ⟨x, h, rfl, rfl⟩
    · exact .inr (by simpa using h)

theorem good_step {db : DB} (g : Good db) (e : Ev) : Good (step db e) := by
  cases e with
  | createLedger u name info =>
    show Good (createLedger db u name info).1
    rcases createLedger_cases db u name info with h | ⟨hn, h⟩
    · rw [h]; exact g
    · rw [h]
      refine { g with ledgerIds := ?_, general := ?_, balLedger := ?_, accLedger := ?_ }
      · simpa using nodup_snoc g.ledgerIds hn
      · simpa using .inl (by simpa using g.general)
      · intro b hb; have := g.balLedger b hb; simp only [List.map_append, List.mem_append]; exact .inl this
      · intro a ha; have := g.accLedger a ha; simp only [List.map_append, List.mem_append]; exact .inl this
  | updateLedger id name =>
    show Good (updateLedger db id name).1
    rcases updateLedger_cases db id name with h | h
    · rw [h]; exact g
    · rw [h]
      have e := map_if_id (·.id) (fun x : Ledger => x.id = id) (fun x => { x with name }) (fun _ => rfl) db.ledgers
      refine { g with ledgerIds := ?_, general := ?_, balLedger := ?_, accLedger := ?_ }
      · dsimp only; rw [e]; exact g.ledgerIds
      · dsimp only; rw [e]; exact g.general
      · dsimp only; rw [e]; exact g.balLedger
      · dsimp only; rw [e]; exact g.accLedger
  | createIdentity u i =>
    show Good (createIdentity db u i).1
    rcases createIdentity_cases db u i with ⟨h, _⟩ | ⟨id, hc, hn, _, h⟩
    · rw [h]; exact g
    · rw [h]
      refine { g with identIds := ?_, balIdent := ?_, accIdent := ?_, mapIdent := ?_, identNamed := ?_ }
      · simpa using nodup_snoc g.identIds hn
      · intro b hb j hj; have := g.balIdent b hb j hj; simp only [List.map_append, List.mem_append]; exact .inl this
      · intro j hj
        rcases List.mem_append.1 hj with hj | hj
        · exact g.identNamed j hj
        · simp only [List.mem_singleton] at hj; subst hj; exact chosenId_ne hc
      · intro a ha; have := g.accIdent a ha; simp only [List.map_append, List.mem_append]; exact .inl this
      · intro a ha; have := g.mapIdent a ha; simp only [List.map_append, List.mem_append]; exact .inl this
  | updateIdentity id q =>
    show Good (updateIdentity db id q).1
    rcases updateIdentity_cases db id q with h | h
    · rw [h]; exact g
    · rw [h]
      have e := map_if_id (·.id) (fun x : Identity => x.id = id) (applyUpdate q) (fun _ => rfl) db.idents
      refine { g with identIds := ?_, balIdent := ?_, accIdent := ?_, mapIdent := ?_, identNamed := ?_ }
      · dsimp only; rw [e]; exact g.identIds
      · dsimp only; rw [e]; exact g.balIdent
      · intro j hj
        obtain ⟨y, hy, rfl⟩ := List.mem_map.1 hj
        split <;> exact g.identNamed y hy
      · dsimp only; rw [e]; exact g.accIdent
      · dsimp only; rw [e]; exact g.mapIdent
  | deleteIdentity id =>
    show Good (deleteIdentity db id).1
    rcases deleteIdentity_cases db id with ⟨h, _⟩ | ⟨_, hb, ha, h⟩
    · rw [h]; exact g
    · rw [h]
      have keep : ∀ x, x ∈ db.idents.map (·.id) → x ≠ id → x ∈ (db.idents.filter (·.id != id)).map (·.id) := by
        intro x hx hne
        obtain ⟨i, hi, rfl⟩ := List.mem_map.1 hx
        refine List.mem_map.2 ⟨i, List.mem_filter.2 ⟨hi, ?_⟩, rfl⟩
        simpa using hne
      refine { g with identIds := ?_, balIdent := ?_, accIdent := ?_, mapIdent := ?_, mapBal := ?_, identNamed := ?_ }
      · exact (List.filter_sublist.map _).nodup g.identIds
      · intro b hb' j hj
        exact keep j (g.balIdent b hb' j hj) (fun e => hb b hb' (e ▸ hj))
      · intro j hj
        exact g.identNamed j (List.mem_filter.1 hj).1
      · intro a ha'
        exact keep _ (g.accIdent a ha') (ha a ha')
      · intro m hm
        have := List.mem_filter.1 hm
        exact keep _ (g.mapIdent m this.1) (by simpa using this.2)
      · intro m hm
        exact g.mapBal m (List.mem_filter.1 hm).1
  | createBalance u q =>
    show Good (createBalance db u q).1
    rcases createBalance_cases db u q with h | ⟨b, hbi, h⟩
    · rw [h]; exact g
    · rw [← h]; exact good_insert g (hbi ▸ newId_ne _ _)
  | ensureBalance u ind cur =>
    exact good_insert g (newId_ne _ _)
  | moveBalance id owner =>
    show Good (moveBalance db id owner).1
    rcases moveBalance_cases db id owner with h | ⟨ho, h⟩
    · rw [h]; exact g
    · rw [h]
      have e := map_if_id (·.id) (fun x : Balance => x.id = id) (fun b => { b with identity := some owner })
        (fun _ => rfl) db.balances
      refine { g with balanceIds := ?_, balNamed := ?_, balLedger := ?_, balIdent := ?_, accBal := ?_, mapBal := ?_ }
      · dsimp only; rw [e]; exact g.balanceIds
      · intro j hj
        obtain ⟨y, hy, rfl⟩ := List.mem_map.1 hj
        split <;> exact g.balNamed y hy
      · intro j hj
        obtain ⟨y, hy, rfl⟩ := List.mem_map.1 hj
        dsimp only
        split <;> exact g.balLedger y hy
      · intro j hj i hi
        obtain ⟨y, hy, rfl⟩ := List.mem_map.1 hj
        split at hi
        · injection hi with hi; subst hi; exact ho
        · exact g.balIdent y hy i hi
      · intro a ha
        obtain ⟨b, hb, h1, h2, h3⟩ := g.accBal a ha
        refine ⟨_, List.mem_map_of_mem hb, ?_⟩
        split <;> exact ⟨h1, h2, h3⟩
      · dsimp only; rw [e]; exact g.mapBal
  | track id p sh ag =>
    show Good (track db id p sh ag)
    rcases track_cases db id p sh ag with h | ⟨b, hb, hbi, i, _, hi, h⟩
    · rw [h]; exact g
    · rw [h]
      refine { g with mapIdent := ?_, mapBal := ?_ }
      · intro m hm
        rcases upsert_mem hm with ⟨y, hy, e, _⟩ | rfl
        · rw [e]; exact g.mapIdent y hy
        · exact hi
      · intro m hm
        rcases upsert_mem hm with ⟨y, hy, _, e⟩ | rfl
        · rw [e]; exact g.mapBal y hy
        · exact hbi ▸ List.mem_map_of_mem (f := (·.id)) hb
  | createAccount u n q =>
    show Good (createAccount db u n q).1
    rcases createAccount_cases db u n q with ⟨h, _⟩ | ⟨hv, b, hb, hbi, i, hi, hii, h1, h2, h3, h4⟩
    · rw [h]; exact g
    · rw [h4]
      have hq : q.balance ≠ [] := hbi ▸ g.balNamed b hb
      rw [validAccount, if_neg hq, Bool.and_eq_true, decide_eq_true_eq, decide_eq_true_eq] at hv
      refine { g with accountIds := ?_, numbers := ?_, accLedger := ?_, accIdent := ?_, accBal := ?_ }
      · simpa using nodup_snoc g.accountIds h1
      · simpa using nodup_snoc g.numbers h2
      · intro a ha
        rcases List.mem_append.1 ha with ha | ha
        · exact g.accLedger a ha
        · simp only [List.mem_singleton] at ha; subst ha; exact h3
      · intro a ha
        rcases List.mem_append.1 ha with ha | ha
        · exact g.accIdent a ha
        · simp only [List.mem_singleton] at ha; subst ha
          exact hii ▸ List.mem_map_of_mem (f := (·.id)) hi
      · intro a ha
        rcases List.mem_append.1 ha with ha | ha
        · exact g.accBal a ha
        · simp only [List.mem_singleton] at ha; subst ha
          refine ⟨b, hb, hbi, ?_, ?_⟩
          · dsimp only; split
            · rename_i e; rw [hv.1, e]
            · rfl
          · dsimp only; split
            · rename_i e; rw [hv.2, e]
            · rfl
where
  good_insert {db : DB} (g : Good db) {b : Balance} (hb : b.id ≠ []) : Good (insertBalance db b).1 := by
    rcases insertBalance_cases db b with h | ⟨h1, h2, h3, h⟩
    · rw [h]; exact g
    · rw [h]
      refine { g with balanceIds := ?_, balNamed := ?_, balLedger := ?_, balIdent := ?_, accBal := ?_, mapBal := ?_ }
      · simpa using nodup_snoc g.balanceIds h1
      · intro j hj
        rcases List.mem_append.1 hj with hj | hj
        · exact g.balNamed j hj
        · simp only [List.mem_singleton] at hj; subst hj; exact hb
      · intro j hj
        rcases List.mem_append.1 hj with hj | hj
        · exact g.balLedger j hj
        · simp only [List.mem_singleton] at hj; subst hj; exact h2
      · intro j hj
        rcases List.mem_append.1 hj with hj | hj
        · exact g.balIdent j hj
        · simp only [List.mem_singleton] at hj; subst hj; exact h3
      · intro a ha
        obtain ⟨x, hx, hx'⟩ := g.accBal a ha
        exact ⟨x, List.mem_append_left _ hx, hx'⟩
      · intro m hm
        have := g.mapBal m hm
        simp only [List.map_append, List.mem_append]
        exact .inl this

theorem good_run {db : DB} (g : Good db) : ∀ es, Good (run db es)
  | [] => g
  | e :: es => good_run (good_step g e) es

end Blnk.Book
