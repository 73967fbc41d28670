import Verif.Lemmas.PreviewPost
import Verif.Props.Queue
/-
What balances are called: their ids, indicators and currencies. Postings change none of these, and
no two balances share an indicator in one currency.
-/
namespace Blnk

/-- The naming columns of a balance. -/
def Balance.name (b : Balance) : String × String × String := (b.id, b.indicator, b.currency)

/-- The naming columns of all balances. -/
def names (db : DB) : List (String × String × String) := db.balances.map Balance.name

/-- No two entries share an indicator in one currency. -/
def OneEach (l : List (String × String × String)) : Prop :=
  l.Pairwise fun a b => ¬ (a.2.1 ≠ "" ∧ a.2.1 = b.2.1 ∧ a.2.2 = b.2.2)

/-- One table of names extends another, by balances whose ids are among `gens`. -/
structure NamesGrow (gens : List String) (l l' : List (String × String × String)) : Prop where
  ext : ∃ new, l' = l ++ new ∧ ∀ n ∈ new, n.1 ∈ gens
  one : OneEach l → OneEach l'

theorem NamesGrow.refl {gens : List String} (l : List (String × String × String)) : NamesGrow gens l l := ⟨⟨[], by simp, by simp⟩, id⟩

theorem NamesGrow.trans {gens : List String} {a b c : List (String × String × String)} (h1 : NamesGrow gens a b) (h2 : NamesGrow gens b c) :
    NamesGrow gens a c := by
  obtain ⟨n1, e1, g1⟩ := h1.ext
  obtain ⟨n2, e2, g2⟩ := h2.ext
  refine ⟨⟨n1 ++ n2, by rw [e2, e1, List.append_assoc], ?_⟩, fun h => h2.one (h1.one h)⟩
  intro n hn
  rcases List.mem_append.1 hn with h | h
  · exact g1 n h
  · exact g2 n h

theorem NamesGrow.mono {g g' : List String} {a b : List (String × String × String)} (h : NamesGrow g a b) (hs : ∀ x ∈ g, x ∈ g') : NamesGrow g' a b := by
  obtain ⟨n1, e1, g1⟩ := h.ext
  exact ⟨⟨n1, e1, fun n hn => hs _ (g1 n hn)⟩, h.one⟩

theorem createBalance_names {db db' : DB} {i ind cur : String} (h : db.createBalance i ind cur = .ok db') :
    names db' = names db ++ [(i, ind, cur)] ∧ NamesGrow [i] (names db) (names db') := by
  obtain ⟨_, h2, rfl⟩ := createBalance_ok h
  have e : names { db with balances := db.balances ++ [{ id := i, indicator := ind, currency := cur }] } = names db ++ [(i, ind, cur)] := by
    simp [names, Balance.name]
  refine ⟨e, ⟨⟨_, e, by simp⟩, ?_⟩⟩
  intro ho
  rw [e]
  refine List.pairwise_append.2 ⟨ho, by simp, ?_⟩
  intro a ha b hb
  simp only [List.mem_singleton] at hb
  subst hb
  obtain ⟨x, hx, rfl⟩ := List.mem_map.1 ha
  rintro ⟨h3, h4, h5⟩
  exact h2 (by rw [← show x.name.2.1 = ind from h4]; exact h3) x hx ⟨h4, h5⟩

theorem resolve_names {db db' : DB} {s cur n i : String} (h : db.resolve s cur n = .ok (db', i)) : NamesGrow [n] (names db) (names db') := by
  rcases resolve_ok h with ⟨rfl, _, _⟩ | ⟨rfl, _, _⟩ | ⟨_, _, hc⟩
  · exact .refl _
  · exact .refl _
  · exact (createBalance_names hc).2

theorem updateRows_names {rows rows' bs : List Balance} (h : updateRows rows bs = .ok rows')
    (hc : ∀ b ∈ bs, ∀ x ∈ rows, x.id = b.id → x.currency = b.currency) : rows'.map Balance.name = rows.map Balance.name := by
  obtain ⟨f, rfl, hf⟩ := Preview.updateRows_map h hc
  rw [List.map_map]
  apply List.map_congr_left
  intro x hx
  have := hf x hx
  simp [Balance.name, this]

/-- What a balance in memory is called is what some stored row is called. -/
def FromRows (rows : List Balance) (b : Balance) : Prop := ∃ r ∈ rows, r.id = b.id ∧ r.currency = b.currency

theorem fromRows_currency {rows bs : List Balance} (hn : (ids rows).Nodup) (h : ∀ b ∈ bs, FromRows rows b) :
    ∀ b ∈ bs, ∀ x ∈ rows, x.id = b.id → x.currency = b.currency := by
  intro b hb x hx he
  obtain ⟨r, hr, e1, e2⟩ := h b hb
  rw [eq_of_mem_ids hn hx hr (he.trans e1.symm)]
  exact e2

theorem prepareMembers_fromRows {db : DB} {rows0 : List Balance} : ∀ {ts : List Txn} {refs : List String}
    {bs : List Balance} {rows : List Txn} {bs' : List Balance}, (∀ b ∈ bs, FromRows rows0 b) →
    prepareMembers db ts refs bs = .ok (rows, bs') → ∀ b ∈ bs', FromRows rows0 b := by
  intro ts
  induction ts with
  | nil => intro refs bs rows bs' hb h; simp [prepareMembers] at h; rw [← h.2]; exact hb
  | cons t ts ih =>
    intro refs bs rows bs' hb h
    obtain ⟨_, _, _, _, mid, rest, hm, hp, _⟩ := prepareMembers_cons h
    refine ih ?_ hp
    unfold applyInMemory at hm
    split at hm
    · rename_i s d hs hd
      split at hm
      · split at hm
        · cases hm
        · rename_i b' hab
          cases hm
          intro x hx
          rcases putBalance_mem hx with h1 | rfl
          · exact hb x h1.1
          · unfold applyToAliased at hab
            obtain ⟨m, a1, a2⟩ := bind_ok.1 hab
            have e1 := applySource_effect a1
            have e2 := applyDestination_effect a2
            unfold FromRows
            rw [e2.id, e2.currency, e1.id, e1.currency]
            exact hb s (find_mem hs).1
      · split at hm
        · cases hm
        · rename_i s' d' hab
          cases hm
          obtain ⟨a1, a2⟩ := applyToBalances_inv hab
          have e1 := applySource_effect a1
          have e2 := applyDestination_effect a2
          intro b hbm
          rcases putBalance_mem hbm with h1 | rfl
          · rcases putBalance_mem h1.1 with h2 | rfl
            · exact hb b h2.1
            · unfold FromRows; rw [e1.id, e1.currency]; exact hb s (find_mem hs).1
          · unfold FromRows; rw [e2.id, e2.currency]; exact hb d (find_mem hd).1
    · cases hm

theorem loaded_fromRows {cfg : Cfg} {db : DB} {i : String} {b : Balance} (h : db.load cfg i = .ok b) : FromRows db.balances b := by
  obtain ⟨r, hr, _, _, rfl⟩ := load_ok h
  exact ⟨r, hr, rfl, rfl⟩

theorem postResolved_names {cfg : Cfg} {db : DB} {t : Txn} (hi : Inv db) : names (postResolved cfg db t).1 = names db := by
  unfold postResolved
  split
  · rfl
  · rfl
  · rename_i w hw
    split
    · rename_i db' hp
      obtain ⟨rows', h1, h2, rfl⟩ := persist_ok hp
      obtain ⟨_, s, d, s', d', hs, hd, ha, _, rfl⟩ := prepareSingle_some hw
      obtain ⟨a1, a2⟩ := applyToBalances_inv ha
      have e1 := applySource_effect a1
      have e2 := applyDestination_effect a2
      refine updateRows_names h1 (fromRows_currency hi.nodup ?_)
      intro b hb
      simp at hb
      rcases hb with rfl | rfl
      · unfold FromRows; rw [e1.id, e1.currency]; exact loaded_fromRows hs
      · unfold FromRows; rw [e2.id, e2.currency]; exact loaded_fromRows hd
    · rfl

theorem recordSingle_names {cfg : Cfg} {db : DB} {t : Txn} {n1 n2 : String} (hi : Inv db) :
    NamesGrow [n1, n2] (names db) (names (recordSingle cfg db t n1 n2).1) := by
  unfold recordSingle
  split
  · exact .refl _
  · rename_i db1 sid h1
    have g1 := (resolve_names h1).mono (g' := [n1, n2]) (by simp)
    split
    · exact g1
    · rename_i db2 did h2
      have g2 := (resolve_names h2).mono (g' := [n1, n2]) (by simp)
      rw [postResolved_names (resolve_inv (resolve_inv hi h1) h2)]
      exact g1.trans g2

/-- The balance ids an action may generate. -/
def Act.newBalances : Act → List String
  | .base op => op.gens
  | .commit _ _ _ _ n1 n2 => [n1, n2]
  | .void _ _ _ n1 n2 => [n1, n2]

theorem act_names {cfg : Cfg} {db : DB} {a : Act} (hi : Inv db) : NamesGrow a.newBalances (names db) (names (act cfg db a)) := by
  cases a with
  | base op =>
    cases op with
    | create i ind cur =>
      simp only [act, step, Act.newBalances, Op.gens]
      split
      · rename_i db' h; exact (createBalance_names h).2
      · exact .refl _
    | post t n1 n2 => exact recordSingle_names hi
    | batch ts =>
      simp only [act, step, recordBatch]
      split
      · exact .refl _
      · rename_i w hw
        split
        · rename_i db' hp
          obtain ⟨rows', h1, h2, rfl⟩ := persist_ok hp
          obtain ⟨bs, hl, hm⟩ := prepareBatch_ok hw
          have : names ⟨rows', db.txns ++ w.rows⟩ = names db := updateRows_names h1 (fromRows_currency hi.nodup
            (prepareMembers_fromRows (fun b hb => loaded_fromRows ((loadAll_ok hl).2 b hb)) hm))
          rw [this]
          exact .refl _
        · exact .refl _
    | store t =>
      simp only [act, step]
      split
      · rename_i db' h; obtain ⟨_, _, rfl⟩ := insertTxn_ok h; exact .refl _
      · exact .refl _
  | commit i amt newId ref n1 n2 =>
    simp only [act, commitInflight]
    split
    · exact .refl _
    · split
      · exact .refl _
      · exact recordSingle_names hi
  | void i newId ref n1 n2 =>
    simp only [act, voidInflight]
    split
    · exact .refl _
    · split
      · exact .refl _
      · exact recordSingle_names hi

/-- In every ledger built by actions an indicator names at most one balance per currency. -/
theorem acts_oneEach {cfg : Cfg} : ∀ {as : List Act} {db : DB}, Inv db → OneEach (names db) → OneEach (names (acts cfg db as)) := by
  intro as
  induction as with
  | nil => intro db _ h; exact h
  | cons a as ih => intro db hi h; exact ih (Queue.act_inv hi) ((act_names hi).one h)

end Blnk
