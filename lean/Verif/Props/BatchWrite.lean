import Verif.Model.BatchWrite
import Verif.Props.Batch
import Verif.Props.Concurrent
import Verif.Props.RefundPreview
/-
C189: a coalesced batch is stored whole, however large it is.
-/
namespace Blnk.Big
open Blnk

/-! ### The balances -/

/-- What a statement makes of one row. -/
def after (bs : List Balance) (r : Balance) : Balance :=
  match bs.find? (hits · r) with
  | some b => written b r
  | none => r

theorem after_cons (b : Balance) (bs : List Balance) (r : Balance) :
    after (b :: bs) r = if hits b r then written b r else after bs r := by
  unfold after
  rw [List.find?_cons]
  cases h : hits b r <;> simp

theorem hits_id {b r : Balance} (h : hits b r = true) : r.id = b.id := by
  simp only [hits, Bool.and_eq_true, decide_eq_true_eq] at h
  exact h.1

theorem not_hits {c r : Balance} (h : r.id ≠ c.id) : hits c r = false := by simp [hits, h]

theorem hits_write {b c r : Balance} (hn : c.id ≠ b.id) :
    hits c (if hits b r then written b r else r) = hits c r := by
  by_cases h : hits b r = true
  · have hid := hits_id h
    rw [if_pos h]
    have h1 : hits c (written b r) = false := not_hits (fun e => hn (e.symm.trans hid))
    have h2 : hits c r = false := not_hits (fun e => hn (e.symm.trans hid))
    rw [h1, h2]
  · rw [if_neg h]

theorem updateRow_eq (rows : List Balance) (b : Balance) :
    updateRow rows b = if rows.any (hits b) then .ok (rows.map fun r => if hits b r then written b r else r)
      else .error .conflict := rfl

/-- Balance by balance, as one formula. -/
theorem updateRows_eq : ∀ (bs rows : List Balance), (ids bs).Nodup →
    updateRows rows bs = if bs.all (fun b => rows.any (hits b)) then .ok (rows.map (after bs)) else .error .conflict := by
  intro bs
  induction bs with
  | nil =>
    intro rows _
    have : after [] = id := by funext r; rfl
    simp [updateRows, this]
  | cons b bs ih =>
    intro rows hn
    simp only [ids, List.map_cons, List.nodup_cons] at hn
    have hne : ∀ c ∈ bs, c.id ≠ b.id := fun c hc e => hn.1 (e ▸ List.mem_map.2 ⟨c, hc, rfl⟩)
    unfold updateRows
    rw [updateRow_eq]
    cases hb : rows.any (hits b) with
    | false => simp [hb]
    | true =>
      simp only [if_true]
      rw [ih _ hn.2]
      have h1 : (bs.all fun c => (rows.map fun r => if hits b r then written b r else r).any (hits c))
          = bs.all fun c => rows.any (hits c) := by
        rw [Bool.eq_iff_iff]
        simp only [List.all_eq_true]
        have key : ∀ c ∈ bs, (rows.map fun r => if hits b r then written b r else r).any (hits c) = rows.any (hits c) := by
          intro c hc
          rw [List.any_map]
          congr 1
          funext r
          exact hits_write (hne c hc)
        exact ⟨fun h c hc => (key c hc) ▸ h c hc, fun h c hc => (key c hc).symm ▸ h c hc⟩
      rw [h1]
      simp only [List.all_cons, hb, Bool.true_and]
      split
      · congr 1
        rw [List.map_map]
        apply List.map_congr_left
        intro r _
        simp only [Function.comp]
        rw [after_cons]
        by_cases h : hits b r = true
        · rw [if_pos h, if_pos h]
          unfold after
          have : bs.find? (fun c => hits c (written b r)) = none := by
            rw [List.find?_eq_none]
            intro c hc
            have := hits_write (r := r) (hne c hc)
            rw [if_pos h] at this
            rw [this]
            intro hh
            exact hne c hc ((hits_id hh).symm.trans (hits_id h))
          rw [this]
        · rw [if_neg h, if_neg h]
      · rfl

theorem updateRows_append : ∀ (xs ys rows : List Balance), updateRows rows (xs ++ ys) =
    match updateRows rows xs with
    | .ok rows' => updateRows rows' ys
    | .error e => .error e := by
  intro xs ys
  induction xs with
  | nil => intro rows; simp [updateRows]
  | cons x xs ih =>
    intro rows
    simp only [List.cons_append, updateRows]
    split
    · rename_i rows' h; rw [ih]
    · rename_i e h; rfl

/-- An outcome of the plain model, as an outcome here. -/
def lift {α : Type} : Except OpErr α → Except BigErr α
  | .ok a => .ok a
  | .error e => .error (.op e)

theorem same_id : ∀ {bs : List Balance}, (ids bs).Nodup → ∀ {b c : Balance}, b ∈ bs → c ∈ bs → b.id = c.id → b = c := by
  intro bs
  induction bs with
  | nil => intro _ b c hb; cases hb
  | cons x bs ih =>
    intro hn b c hb hc e
    simp only [ids, List.map_cons, List.nodup_cons] at hn
    rcases List.mem_cons.1 hb with rfl | hb' <;> rcases List.mem_cons.1 hc with rfl | hc'
    · rfl
    · exact absurd (e ▸ List.mem_map.2 ⟨c, hc', rfl⟩) hn.1
    · exact absurd (e ▸ List.mem_map.2 ⟨b, hb', rfl⟩) hn.1
    · exact ih hn.2 hb' hc' e

/-- One statement for a chunk does what one statement a balance does. -/
theorem updateChunk_eq {rows chunk : List Balance} (hn : (ids chunk).Nodup) (hk : 11 * chunk.length ≤ maxParams) :
    updateChunk rows chunk = lift (updateRows rows chunk) := by
  unfold updateChunk
  rw [if_neg (by omega), updateRows_eq _ _ hn]
  have h1 : (chunk.all fun b => ((rows.filter (fun r => chunk.any (hits · r))).map (·.id)).contains b.id)
      = chunk.all fun b => rows.any (hits b) := by
    rw [Bool.eq_iff_iff]
    simp only [List.all_eq_true]
    constructor
    · intro h b hb
      have := h b hb
      simp only [List.contains_iff_mem, List.mem_map, List.mem_filter, List.any_eq_true] at this
      obtain ⟨r, ⟨hr, c, hc, hh⟩, hid⟩ := this
      rw [List.any_eq_true]
      refine ⟨r, hr, ?_⟩
      have : c = b := same_id hn hc hb ((hits_id hh).symm.trans hid)
      exact this ▸ hh
    · intro h b hb
      have := h b hb
      rw [List.any_eq_true] at this
      obtain ⟨r, hr, hh⟩ := this
      simp only [List.contains_iff_mem, List.mem_map, List.mem_filter, List.any_eq_true]
      exact ⟨r, ⟨hr, b, hb, hh⟩, hits_id hh⟩
  simp only [h1]
  split
  · rfl
  · rfl

theorem updateLoop_eq {k : Nat} (hk : 11 * (k + 1) ≤ maxParams) : ∀ (n : Nat) (bs rows : List Balance), bs.length ≤ n →
    (ids bs).Nodup → updateLoop k rows bs = lift (updateRows rows bs) := by
  intro n
  induction n with
  | zero =>
    intro bs rows hl _
    have : bs = [] := List.length_eq_zero_iff.1 (by omega)
    subst this
    simp [updateLoop, updateRows, lift]
  | succ n ih =>
    intro bs rows hl hn
    cases bs with
    | nil => simp [updateLoop, updateRows, lift]
    | cons b bs =>
      have hsplit := List.take_append_drop (k + 1) (b :: bs)
      have hn' := hn
      rw [← hsplit] at hn'
      simp only [ids, List.map_append, List.nodup_append] at hn'
      rw [updateLoop, updateChunk_eq hn'.1 (by simp only [List.length_take]; omega)]
      conv => rhs; rw [← hsplit, updateRows_append]
      cases h : updateRows rows ((b :: bs).take (k + 1)) with
      | error e => rfl
      | ok rows' =>
        simp only [lift]
        rw [ih _ _ (by simp only [List.length_drop, List.length_cons] at hl ⊢; omega) hn'.2.1]
        cases updateRows rows' ((b :: bs).drop (k + 1)) <;> rfl

theorem uniq_eq : ∀ (bs : List Balance) (seen : List String), (ids bs).Nodup → (∀ b ∈ bs, b.id ≠ "" ∧ b.id ∉ seen) →
    uniq seen bs = bs := by
  intro bs
  induction bs with
  | nil => intros; rfl
  | cons b bs ih =>
    intro seen hn h
    simp only [ids, List.map_cons, List.nodup_cons] at hn
    have hb := h b (by simp)
    unfold uniq
    rw [if_neg (by rintro (e | e); exact hb.1 e; exact hb.2 e)]
    rw [ih _ hn.2]
    intro c hc
    refine ⟨(h c (by simp [hc])).1, ?_⟩
    simp only [List.mem_cons, not_or]
    exact ⟨fun e => hn.1 (e ▸ List.mem_map.2 ⟨c, hc, rfl⟩), (h c (by simp [hc])).2⟩

theorem updateSet_eq {rows bs : List Balance} (hn : (ids bs).Nodup) (he : ∀ b ∈ bs, b.id ≠ "") :
    updateSet rows bs = lift (updateRows rows bs) := by
  unfold updateSet
  rw [uniq_eq _ _ hn (fun b hb => ⟨he b hb, by simp⟩)]
  exact updateLoop_eq (by decide) _ _ _ (Nat.le_refl _) hn

/-! ### The order the balances are taken in -/

theorem find_perm {l l' : List Balance} (hp : l.Perm l') {p : Balance → Bool}
    (hu : ∀ b ∈ l, ∀ c ∈ l, p b = true → p c = true → b = c) : l.find? p = l'.find? p := by
  cases h : l.find? p with
  | none =>
    symm
    rw [List.find?_eq_none] at h ⊢
    intro x hx
    exact h x (hp.mem_iff.2 hx)
  | some b =>
    have hb := List.mem_of_find?_eq_some h
    have pb := List.find?_some h
    cases h' : l'.find? p with
    | none =>
      rw [List.find?_eq_none] at h'
      exact absurd pb (h' b (hp.mem_iff.1 hb))
    | some c =>
      rw [hu b hb c (hp.mem_iff.2 (List.mem_of_find?_eq_some h')) pb (List.find?_some h')]

theorem find_id_perm {l l' : List Balance} (hp : l.Perm l') (hn : (ids l).Nodup) (i : String) :
    l.find? (fun b => b.id = i) = l'.find? (fun b => b.id = i) := by
  apply find_perm hp
  intro b hb c hc pb pc
  simp only [decide_eq_true_eq] at pb pc
  exact same_id hn hb hc (pb.trans pc.symm)

/-- Same answer, up to the order of the balances. -/
def Alike {α : Type} (r : α → α → Prop) : Except OpErr α → Except OpErr α → Prop
  | .ok a, .ok b => r a b
  | .error e, .error f => e = f
  | _, _ => False

theorem loadAll_perm {cfg : Cfg} {db : DB} {is js : List String} (hp : is.Perm js) :
    Alike List.Perm (loadAll cfg db is) (loadAll cfg db js) := by
  have one : ∀ i, (∃ b, db.load cfg i = .ok b) ∨ db.load cfg i = .error .balanceNotFound := by
    intro i
    unfold DB.load
    split
    · exact .inr rfl
    · exact .inl ⟨_, rfl⟩
  have all : ∀ is, (∃ bs, loadAll cfg db is = .ok bs) ∨ loadAll cfg db is = .error .balanceNotFound := by
    intro is
    induction is with
    | nil => exact .inl ⟨_, rfl⟩
    | cons i is ih =>
      simp only [loadAll]
      rcases one i with ⟨b, h⟩ | h <;> rcases ih with ⟨bs, h'⟩ | h' <;> rw [h] <;> simp [h']
  induction hp with
  | nil => exact List.Perm.refl _
  | cons i _ ih =>
    rename_i l l' _
    simp only [loadAll]
    rcases one i with ⟨b, h⟩ | h <;> rw [h]
    · rcases all l with ⟨bs, h1⟩ | h1 <;> rcases all l' with ⟨bs', h2⟩ | h2 <;> rw [h1, h2] at ih ⊢ <;> simp only [Alike] at ih ⊢
      exact ih.cons b
    · simp only [Alike]
  | swap i j l =>
    simp only [loadAll]
    rcases one i with ⟨b, h⟩ | h <;> rcases one j with ⟨c, h'⟩ | h' <;> rcases all l with ⟨bs, h1⟩ | h1 <;> rw [h, h', h1] <;>
      simp only [Alike]
    exact List.Perm.swap _ _ _
  | trans _ _ ih1 ih2 =>
    rename_i l1 l2 l3 _ _
    rcases all l1 with ⟨b1, h1⟩ | h1 <;> rcases all l2 with ⟨b2, h2⟩ | h2 <;> rcases all l3 with ⟨b3, h3⟩ | h3 <;>
      rw [h1, h2] at ih1 <;> rw [h2, h3] at ih2 <;> rw [h1, h3] <;> simp only [Alike] at ih1 ih2 ⊢
    exact ih1.trans ih2

theorem applyInMemory_perm {t : Txn} {bs bs' : List Balance} (hp : bs.Perm bs') (hn : (ids bs).Nodup) :
    Alike List.Perm (applyInMemory t bs) (applyInMemory t bs') := by
  unfold applyInMemory
  rw [← find_id_perm hp hn t.source, ← find_id_perm hp hn t.destination]
  split
  · split
    · split
      · exact rfl
      · exact hp.map _
    · split
      · exact rfl
      · exact (hp.map _).map _
  · exact rfl

theorem prepareMembers_perm {db : DB} : ∀ {ts : List Txn} {refs : List String} {bs bs' : List Balance}, bs.Perm bs' →
    (ids bs).Nodup → Alike (fun x y => x.1 = y.1 ∧ x.2.Perm y.2) (prepareMembers db ts refs bs) (prepareMembers db ts refs bs') := by
  intro ts
  induction ts with
  | nil => intro refs bs bs' hp _; exact ⟨rfl, hp⟩
  | cons t ts ih =>
    intro refs bs bs' hp hn
    simp only [prepareMembers]
    rw [← find_id_perm hp hn t.source, ← find_id_perm hp hn t.destination]
    split
    · exact rfl
    · split
      · exact rfl
      · split
        · exact rfl
        · have ha := applyInMemory_perm (t := batchMember t) hp hn
          cases h1 : applyInMemory (batchMember t) bs with
          | error e =>
            cases h2 : applyInMemory (batchMember t) bs' with
            | error f => rw [h1, h2] at ha; exact ha
            | ok m => rw [h1, h2] at ha; exact ha.elim
          | ok n =>
            cases h2 : applyInMemory (batchMember t) bs' with
            | error f => rw [h1, h2] at ha; exact ha.elim
            | ok m =>
              rw [h1, h2] at ha
              simp only
              split
              · exact rfl
              · have hm : (ids n).Nodup := by rw [(applyInMemory_step hn h1).ids]; exact hn
                have := ih (refs := t.reference :: refs) ha hm
                cases h3 : prepareMembers db ts (t.reference :: refs) n with
                | error e =>
                  cases h4 : prepareMembers db ts (t.reference :: refs) m with
                  | error f => rw [h3, h4] at this; exact this
                  | ok z => rw [h3, h4] at this; exact this.elim
                | ok y =>
                  cases h4 : prepareMembers db ts (t.reference :: refs) m with
                  | error f => rw [h3, h4] at this; exact this.elim
                  | ok z =>
                    rw [h3, h4] at this
                    exact ⟨congrArg (List.cons _) this.1, this.2⟩

theorem updateRows_perm {rows bs bs' : List Balance} (hp : bs.Perm bs') (hn : (ids bs).Nodup) :
    updateRows rows bs = updateRows rows bs' := by
  rw [updateRows_eq _ _ hn, updateRows_eq _ _ ((hp.map _).nodup_iff.1 hn)]
  have h1 : (bs.all fun b => rows.any (hits b)) = bs'.all fun b => rows.any (hits b) := by
    rw [Bool.eq_iff_iff]
    simp only [List.all_eq_true]
    exact ⟨fun h b hb => h b (hp.mem_iff.2 hb), fun h b hb => h b (hp.mem_iff.1 hb)⟩
  have h2 : after bs = after bs' := by
    funext r
    unfold after
    rw [find_perm hp (p := (hits · r))]
    intro b hb c hc pb pc
    exact same_id hn hb hc ((hits_id pb).symm.trans (hits_id pc))
  rw [h1, h2]

/-! ### The outbox -/

theorem keys_nodup : ∀ {l : List String}, l.Nodup → keys l = l := by
  intro l
  induction l with
  | nil => intro _; rfl
  | cons j l ih =>
    intro h
    rw [List.nodup_cons] at h
    unfold keys
    rw [ih h.2, if_neg h.1]

theorem insertTxns_ids : ∀ {ts : List Txn} {db db' : DB}, db.insertTxns ts = .ok db' →
    (ts.map (·.id)).Nodup ∧ ∀ t ∈ ts, db.hasTxnId t.id = false := by
  intro ts
  induction ts with
  | nil => intro _ _ _; exact ⟨by simp, by simp⟩
  | cons t ts ih =>
    intro db db' h
    simp only [DB.insertTxns] at h
    split at h
    · rename_i mid hm
      obtain ⟨h1, _, rfl⟩ := insertTxn_ok hm
      obtain ⟨k1, k2⟩ := ih h
      have k3 : ∀ u ∈ ts, db.hasTxnId u.id = false ∧ t.id ≠ u.id := by
        intro u hu
        have := k2 u hu
        simp only [DB.hasTxnId, List.any_append, Bool.or_eq_false_iff] at this
        exact ⟨this.1, by simpa using this.2⟩
      refine ⟨?_, ?_⟩
      · rw [List.map_cons, List.nodup_cons]
        refine ⟨?_, k1⟩
        intro hm
        obtain ⟨u, hu, e⟩ := List.mem_map.1 hm
        exact (k3 u hu).2 e.symm
      · intro u hu
        rcases List.mem_cons.1 hu with rfl | hu
        · exact h1
        · exact (k3 u hu).1
    · cases h

theorem boxes_nodup {needs : Txn → Bool} {ts : List Txn}
    (h : ((ts.map fun t => finalRow (batchMember t)).map (·.id)).Nodup) : (boxes needs ts).Nodup := by
  unfold boxes
  have h1 : (ts.map fun t => finalRow (batchMember t)).map (·.id) = (ts.map batchMember).map (·.id) := by
    simp only [List.map_map]
    apply List.map_congr_left
    intro t _
    exact (finalRow_keeps _).2.1
  rw [h1] at h
  exact h.sublist (List.filter_sublist.map _)

/-! ### The batch -/

/-- What the code does, in terms of what the ledger model does: nothing differs, except that too many outbox
entries make the whole batch fail. -/
theorem c189_exact (cfg : Cfg) (needs : Txn → Bool) (is : List String) (db : DB) (ts : List Txn) (hp : is.Perm (batchIds ts)) :
    (∀ e, (recordBatch cfg db ts).2 = .refused e → record cfg needs is db ts = (db, .error (.op e))) ∧
    (∀ rows, (recordBatch cfg db ts).2 = .posted rows → 10 * (boxes needs ts).length ≤ 65535 →
      record cfg needs is db ts = ((recordBatch cfg db ts).1, .ok rows)) ∧
    (∀ rows, (recordBatch cfg db ts).2 = .posted rows → 65535 < 10 * (boxes needs ts).length →
      record cfg needs is db ts = (db, .error .tooMany)) ∧
    (recordBatch cfg db ts).2 ≠ .discarded := by
  unfold recordBatch prepareBatch record
  generalize (ts.any fun t => decide (t.currency ≠ (ts.head?.map (·.currency)).getD "")) = c
  cases c
  case true => refine ⟨?_, ?_, ?_, ?_⟩ <;> simp
  case false =>
    simp only [Bool.false_eq_true, if_false]
    have hl := loadAll_perm (cfg := cfg) (db := db) hp
    cases h1 : loadAll cfg db (batchIds ts) with
    | error e =>
      cases h2 : loadAll cfg db is with
      | ok bs => rw [h1, h2] at hl; exact hl.elim
      | error f =>
        rw [h1, h2] at hl
        cases (show f = e from hl)
        refine ⟨?_, ?_, ?_, ?_⟩ <;> simp
    | ok bs =>
      cases h2 : loadAll cfg db is with
      | error f => rw [h1, h2] at hl; exact hl.elim
      | ok cs =>
        rw [h1, h2] at hl
        have hids := (loadAll_ok h2).1
        have hn : (ids cs).Nodup := by rw [hids]; exact hp.nodup_iff.2 (batchIds_nodup ts)
        have hm := prepareMembers_perm (db := db) (ts := ts) (refs := []) (show cs.Perm bs from hl) hn
        simp only
        cases h3 : prepareMembers db ts [] bs with
        | error e =>
          cases h4 : prepareMembers db ts [] cs with
          | ok z => rw [h3, h4] at hm; exact hm.elim
          | error f =>
            rw [h3, h4] at hm
            cases (show f = e from hm)
            refine ⟨?_, ?_, ?_, ?_⟩ <;> simp
        | ok y =>
          cases h4 : prepareMembers db ts [] cs with
          | error f => rw [h3, h4] at hm; exact hm.elim
          | ok z =>
            rw [h3, h4] at hm
            obtain ⟨rows, bs'⟩ := y
            obtain ⟨rows2, cs'⟩ := z
            obtain ⟨hr, hp'⟩ := (show rows2 = rows ∧ cs'.Perm bs' from hm)
            subst hr
            have hn' : (ids cs').Nodup := by rw [(prepareMembers_step hn h4).ids]; exact hn
            have hne : ∀ b ∈ cs', b.id ≠ "" := by
              intro b hb
              have : b.id ∈ ids cs' := List.mem_map.2 ⟨b, hb, rfl⟩
              rw [(prepareMembers_step hn h4).ids, hids] at this
              exact (mem_batchIds_iff.1 (hp.mem_iff.1 this)).1
            simp only [persist, DB.persist]
            rw [updateSet_eq hn' hne, updateRows_perm hp' hn']
            cases h5 : updateRows db.balances bs' with
            | error e => refine ⟨?_, ?_, ?_, ?_⟩ <;> simp [lift]
            | ok rs =>
              simp only [lift]
              cases h6 : ({ db with balances := rs } : DB).insertTxns rows2 with
              | error e => refine ⟨?_, ?_, ?_, ?_⟩ <;> simp
              | ok db' =>
                have hb : (boxes needs ts).Nodup := boxes_nodup (prepareMembers_rows h3 ▸ (insertTxns_ids h6).1)
                have hk := keys_nodup hb
                refine ⟨?_, ?_, ?_, ?_⟩
                · simp
                · intro rows hr hle
                  cases hr
                  simp only [insertBoxes, hk]
                  rw [if_neg (by simp only [maxParams]; omega)]
                  simp
                · intro rows hr hlt
                  simp only [insertBoxes]
                  rw [if_pos (by simp only [maxParams]; omega)]
                · simp

/-- **C189, order.** The order in which the balances are taken makes no difference. -/
theorem c189_order (cfg : Cfg) (needs : Txn → Bool) (is js : List String) (db : DB) (ts : List Txn)
    (hi : is.Perm (batchIds ts)) (hj : js.Perm (batchIds ts)) : record cfg needs is db ts = record cfg needs js db ts := by
  obtain ⟨a1, a2, a3, a4⟩ := c189_exact cfg needs is db ts hi
  obtain ⟨b1, b2, b3, _⟩ := c189_exact cfg needs js db ts hj
  cases h : (recordBatch cfg db ts).2 with
  | refused e => rw [a1 e h, b1 e h]
  | discarded => exact absurd h a4
  | posted rows =>
    by_cases hk : 10 * (boxes needs ts).length ≤ 65535
    · rw [a2 rows h hk, b2 rows h hk]
    · rw [a3 rows h (by omega), b3 rows h (by omega)]

/-- **C189, whole.** Either nothing at all is written, or one row for every member, in order, and every account has
moved by what the members say. -/
theorem c189_whole (cfg : Cfg) (needs : Txn → Bool) (is : List String) (db : DB) (ts : List Txn) (hr : Reachable cfg db)
    (hp : is.Perm (batchIds ts)) :
    ((record cfg needs is db ts).1 = db ∧ ∃ e, (record cfg needs is db ts).2 = .error e) ∨
    ((record cfg needs is db ts).2 = .ok (ts.map fun t => finalRow (batchMember t)) ∧
      (record cfg needs is db ts).1.txns = db.txns ++ ts.map (fun t => finalRow (batchMember t)) ∧
      Effect db (record cfg needs is db ts).1 (ts.map batchMember)) := by
  obtain ⟨a1, a2, a3, a4⟩ := c189_exact cfg needs is db ts hp
  cases h : (recordBatch cfg db ts).2 with
  | refused e => rw [a1 e h]; exact .inl ⟨rfl, _, rfl⟩
  | discarded => exact absurd h a4
  | posted rows =>
    by_cases hk : 10 * (boxes needs ts).length ≤ 65535
    · obtain ⟨k1, k2, k3⟩ := recordBatch_effect hr.inv h
      rw [List.map_map] at k1
      rw [a2 rows h hk]
      exact .inr ⟨congrArg _ k1, k1 ▸ k2, k3⟩
    · rw [a3 rows h (by omega)]; exact .inl ⟨rfl, _, rfl⟩

theorem updateChunk_few {rows chunk : List Balance} (hk : 11 * chunk.length ≤ maxParams) :
    updateChunk rows chunk ≠ .error .tooMany := by
  unfold updateChunk
  rw [if_neg (by omega)]
  simp only
  split <;> simp

theorem updateLoop_few {k : Nat} (hk : 11 * (k + 1) ≤ maxParams) : ∀ (n : Nat) (bs rows : List Balance), bs.length ≤ n →
    updateLoop k rows bs ≠ .error .tooMany := by
  intro n
  induction n with
  | zero =>
    intro bs rows hl
    have : bs = [] := List.length_eq_zero_iff.1 (by omega)
    subst this
    simp [updateLoop]
  | succ n ih =>
    intro bs rows hl
    cases bs with
    | nil => simp [updateLoop]
    | cons b bs =>
      rw [updateLoop]
      split
      · rename_i e h
        intro he
        cases he
        exact updateChunk_few (by simp only [List.length_take]; omega) h
      · exact ih _ _ (by simp only [List.length_drop, List.length_cons] at hl ⊢; omega)

/-- **C189, accounts.** However many accounts a batch touches, writing them never takes a statement with too many
parameters, and comes to the same as writing them one by one. -/
theorem c189_accounts (rows bs : List Balance) : updateSet rows bs ≠ .error .tooMany ∧
    ((ids bs).Nodup → (∀ b ∈ bs, b.id ≠ "") → updateSet rows bs = lift (updateRows rows bs)) :=
  ⟨updateLoop_few (by decide) _ _ _ (Nat.le_refl _), updateSet_eq⟩

/-- The members can be posted one after the other, are in one currency and carry references, and there are no more
of them than a batch may hold (`maxQueuedCoalescingBatchSize`,
`transaction.go:46`). -/
structure Batch (cfg : Cfg) (db : DB) (ts : List Txn) (cur : String) (db' : DB) : Prop where
  plain : cfg.queuedChecks = false
  reach : Reachable cfg db
  queued : QueuedNonneg db
  members : ∀ t ∈ ts, Coalescible t ∧ t.reference ≠ "" ∧ t.currency = cur
  size : ts.length ≤ 10000
  posts : OneByOne cfg db ts db'

/-- **C189, full claim.** A batch whose members can be posted one after the other is stored, and the books are those
of posting them one after the other. -/
def C189Full : Prop := ∀ (cfg : Cfg) (tracks : String → Bool) (named : Txn → Bool) (is : List String) (db db' : DB)
    (ts : List Txn) (cur : String), Batch cfg db ts cur db' → is.Perm (batchIds ts) →
    ∃ db2 rows, record cfg (needsBox tracks named) is db ts = (db2, .ok rows) ∧ SameBooks db2 db'

/-- A batch of the full claim is posted in the ledger model. -/
theorem Batch.posted {cfg : Cfg} {db db' : DB} {ts : List Txn} {cur : String} (h : Batch cfg db ts cur db') :
    ∃ rows, (recordBatch cfg db ts).2 = .posted rows ∧ SameBooks (recordBatch cfg db ts).1 db' := by
  obtain ⟨rows, hb⟩ := (c14_batch_accepted_iff cfg h.plain db h.reach h.queued ts cur h.members).2 ⟨db', h.posts⟩
  have hco := fun t ht => (h.members t ht).1
  obtain ⟨db2, h1, h2⟩ := c14_batch_equals_one_by_one cfg db h.reach h.queued ts hco rows hb
  have e1 := (oneByOne_iff hco).1 h1
  have e2 := (oneByOne_iff hco).1 h.posts
  rw [e1] at e2
  cases e2
  exact ⟨rows, hb, h2⟩

/-- **C189, proved part.** It holds when at most 6553 members need an entry in the lineage outbox; missing are larger
batches. -/
theorem c189_stored_partial (cfg : Cfg) (tracks : String → Bool) (named : Txn → Bool) (is : List String) (db db' : DB)
    (ts : List Txn) (cur : String) (hb : Batch cfg db ts cur db') (hp : is.Perm (batchIds ts))
    (hk : ((ts.map batchMember).filter (needsBox tracks named)).length ≤ 6553) :
    ∃ db2 rows, record cfg (needsBox tracks named) is db ts = (db2, .ok rows) ∧ SameBooks db2 db' := by
  obtain ⟨rows, h1, h2⟩ := hb.posted
  have := (c189_exact cfg (needsBox tracks named) is db ts hp).2.1 rows h1 (by simp only [boxes, List.length_map]; omega)
  exact ⟨_, _, this, h2⟩

/-- **C189, marked members.** A member that has a parent and carries the inflight mark in its metadata needs no entry:
a batch of such members is stored however many of them touch accounts that track lineage. -/
theorem c189_marked (cfg : Cfg) (tracks : String → Bool) (named : Txn → Bool) (is : List String) (db db' : DB)
    (ts : List Txn) (cur : String) (hb : Batch cfg db ts cur db') (hp : is.Perm (batchIds ts))
    (hm : ∀ t ∈ ts, t.parent ≠ "" ∧ t.metaInflight = some true) :
    ∃ db2 rows, record cfg (needsBox tracks named) is db ts = (db2, .ok rows) ∧ SameBooks db2 db' := by
  refine c189_stored_partial cfg tracks named is db db' ts cur hb hp ?_
  have : (ts.map batchMember).filter (needsBox tracks named) = [] := by
    rw [List.filter_eq_nil_iff]
    intro r hr
    obtain ⟨t, ht, rfl⟩ := List.mem_map.1 hr
    obtain ⟨h1, h2⟩ := hm t ht
    simp [needsBox, batchMember, h1, h2]
  rw [this]
  exact Nat.zero_le _

/-- **C189, too many.** With more than 6553 such members the batch is never stored, whatever else holds. -/
theorem c189_too_many (cfg : Cfg) (tracks : String → Bool) (named : Txn → Bool) (is : List String) (db : DB)
    (ts : List Txn) (hp : is.Perm (batchIds ts)) (hk : 6553 < ((ts.map batchMember).filter (needsBox tracks named)).length) :
    ∃ e, record cfg (needsBox tracks named) is db ts = (db, .error e) := by
  obtain ⟨a1, _, a3, a4⟩ := c189_exact cfg (needsBox tracks named) is db ts hp
  cases h : (recordBatch cfg db ts).2 with
  | refused e => exact ⟨_, a1 e h⟩
  | discarded => exact absurd h a4
  | posted rows => exact ⟨_, a3 rows h (by simp only [boxes, List.length_map]; omega)⟩

/-! ### A batch that is too large -/

/-- A queued payment of 1 from `a` to `b`, with an overdraft. -/
def unit (k : Nat) : Txn :=
  { id := Undo.longIds (2 * k), parent := Undo.longIds (2 * k + 1), source := "a", destination := "b", reference := Undo.longIds (2 * k),
    amount := 1, preciseAmount := some 1, precision := 1, allowOverdraft := true, status := .queued }

/-- `n` of them, the first with number `k`. -/
def units : Nat → Nat → List Txn
  | _, 0 => []
  | k, n + 1 => unit k :: units (k + 1) n

theorem units_mem : ∀ {n k : Nat} {t : Txn}, t ∈ units k n → ∃ j, k ≤ j ∧ t = unit j := by
  intro n
  induction n with
  | zero => intro k t h; cases h
  | succ n ih =>
    intro k t h
    rcases List.mem_cons.1 h with rfl | h
    · exact ⟨k, Nat.le_refl _, rfl⟩
    · obtain ⟨j, h1, h2⟩ := ih h
      exact ⟨j, by omega, h2⟩

theorem units_length : ∀ (n k : Nat), (units k n).length = n := by
  intro n
  induction n with
  | zero => intro k; rfl
  | succ n ih => intro k; simp [units, ih]

/-- Two empty accounts. -/
def two : DB := run {} {} [.create "a" "" "USD", .create "b" "" "USD"]

theorem unit_source (k : Nat) (b : Balance) : applySource (batchMember (unit k)) b = .ok (b.postDebit 1 false) := by
  simp [applySource, batchMember, unit, finalStatus, Txn.applyPrecision, Txn.validate, canProcessTransaction]
  have : ¬ ((1 : Rat) / 1 < 0) := by decide +kernel
  rw [if_neg this]
  rfl

theorem unit_destination (k : Nat) (b : Balance) : applyDestination (batchMember (unit k)) b = .ok (b.postCredit 1 false) := by
  simp [applyDestination, batchMember, unit, finalStatus, Txn.applyPrecision]

theorem unit_amount (k : Nat) : (finalRow (batchMember (unit k))).preciseAmount = some 1 := by
  simp [finalRow, clearTerminalInflight, applyRecord, batchMember, unit, finalStatus, Txn.applyPrecision]

theorem unit_applies (k : Nat) {x y : Balance} (hx : x.id = "a") (hy : y.id = "b") :
    applyInMemory (batchMember (unit k)) [x, y] = .ok [x.postDebit 1 false, y.postCredit 1 false] := by
  have e1 : (batchMember (unit k)).source = "a" := rfl
  have e2 : (batchMember (unit k)).destination = "b" := rfl
  have h1 : [x, y].find? (fun b => b.id = "a") = some x := by simp [hx]
  have h2 : [x, y].find? (fun b => b.id = "b") = some y := by simp [hx, hy]
  unfold applyInMemory
  rw [e1, e2, h1, h2]
  simp only
  rw [if_neg (by decide)]
  have happ : applyToBalances (batchMember (unit k)) x y = .ok (x.postDebit 1 false, y.postCredit 1 false) := by
    unfold applyToBalances
    rw [unit_source, unit_destination]
    rfl
  rw [happ]
  have i1 : (x.postDebit 1 false).id = "a" := hx
  have i2 : (y.postCredit 1 false).id = "b" := hy
  simp [putBalance, i1, i2, hx, hy]

theorem units_prepared : ∀ (n k : Nat) (refs : List String) (x y : Balance), x.id = "a" → y.id = "b" →
    (∀ r ∈ refs, ∃ j, j < k ∧ r = Undo.longIds (2 * j)) →
    ∃ rows bs', prepareMembers two (units k n) refs [x, y] = .ok (rows, bs') := by
  intro n
  induction n with
  | zero => intro k refs x y _ _ _; exact ⟨_, _, rfl⟩
  | succ n ih =>
    intro k refs x y hx hy hr
    simp only [units, prepareMembers]
    have e1 : (unit k).source = "a" := rfl
    have e2 : (unit k).destination = "b" := rfl
    have e3 : (unit k).reference = Undo.longIds (2 * k) := rfl
    have h1 : [x, y].find? (fun b => b.id = "a") = some x := by simp [hx]
    have h2 : [x, y].find? (fun b => b.id = "b") = some y := by simp [hx, hy]
    rw [e1, e2, e3, h1, h2, if_neg (by simp), if_neg (Ne.symm (Undo.longIds_not (by decide)))]
    have hc : refs.contains (Undo.longIds (2 * k)) = false := by
      rw [Bool.eq_false_iff]
      intro h
      obtain ⟨j, hj, e⟩ := hr _ (List.contains_iff_mem.1 h)
      have := Undo.longIds_inj _ _ e
      omega
    have hd : two.hasRef (Undo.longIds (2 * k)) = false := rfl
    rw [hc, hd, if_neg (by decide), unit_applies k hx hy]
    simp only
    rw [unit_amount, if_neg (by decide)]
    obtain ⟨rows, bs', h⟩ := ih (k + 1) (Undo.longIds (2 * k) :: refs) (x.postDebit 1 false) (y.postCredit 1 false)
      hx hy (by
        intro r h
        rcases List.mem_cons.1 h with rfl | h
        · exact ⟨k, by omega, rfl⟩
        · obtain ⟨j, hj, e⟩ := hr r h
          exact ⟨j, by omega, e⟩)
    rw [h]
    exact ⟨_, _, rfl⟩

theorem units_ids (n k : Nat) : batchIds (units k (n + 1)) = ["a", "b"] := by
  induction n generalizing k with
  | zero =>
    show addId "a" (addId "b" []) = ["a", "b"]
    decide +kernel
  | succ n ih =>
    rw [units, batchIds, ih]
    show addId "a" (addId "b" ["a", "b"]) = ["a", "b"]
    decide +kernel

theorem units_posted (n : Nat) : ∃ rows, (recordBatch {} two (units 0 (n + 1))).2 = .posted rows := by
  obtain ⟨x, y, hl, hx, hy⟩ : ∃ x y, loadAll {} two ["a", "b"] = .ok [x, y] ∧ x.id = "a" ∧ y.id = "b" := by
    have hm : (match loadAll {} two ["a", "b"] with
      | .ok [x, y] => decide (x.id = "a" ∧ y.id = "b")
      | _ => false) = true := by decide +kernel
    split at hm
    · rename_i x y h
      exact ⟨x, y, h, by simpa using hm⟩
    · cases hm
  obtain ⟨rows, bs', hm⟩ := units_prepared (n + 1) 0 [] x y hx hy (by simp)
  have hn : (ids [x, y]).Nodup := by simp [ids, hx, hy]
  have hv := prepareMembers_versions (rows0 := two.balances) (fun t ht => by
      obtain ⟨j, _, rfl⟩ := units_mem ht
      show "a" ≠ "b"
      decide) (by
    intro z hz
    obtain ⟨r, hr, _, h1, h2⟩ := load_ok ((loadAll_ok hl).2 z hz)
    exact ⟨r, hr, h1, by rw [h2], by rw [h2]⟩) hm
  obtain ⟨rows', hu⟩ := updateRows_of_mem (rows := two.balances) (bs := bs')
    (by rw [(prepareMembers_step hn hm).ids]; exact hn)
    (fun b hb => by obtain ⟨r, h1, h2, h3, _⟩ := hv b hb; exact ⟨r, h1, h2, h3⟩)
  have hins : Insertable ({ two with balances := rows' } : DB) rows := by
    rw [prepareMembers_rows hm]
    constructor
    · rw [List.pairwise_map]
      have : ∀ n k, (units k n).Pairwise fun u t => (finalRow (batchMember u)).id ≠ (finalRow (batchMember t)).id ∧
          (finalRow (batchMember u)).reference ≠ (finalRow (batchMember t)).reference := by
        intro n
        induction n with
        | zero => intro k; exact List.Pairwise.nil
        | succ n ih =>
          intro k
          refine List.Pairwise.cons ?_ (ih (k + 1))
          intro t ht
          obtain ⟨j, hj, rfl⟩ := units_mem ht
          rw [(finalRow_keeps _).2.1, (finalRow_keeps _).2.1, (finalRow_keeps _).1, (finalRow_keeps _).1]
          have : Undo.longIds (2 * k) ≠ Undo.longIds (2 * j) := by
            intro e
            have := Undo.longIds_inj _ _ e
            omega
          exact ⟨this, this⟩
      exact this _ _
    · intro t _
      exact ⟨rfl, rfl⟩
  have hcur : ((units 0 (n + 1)).any fun t => decide (t.currency ≠ ((units 0 (n + 1)).head?.map (·.currency)).getD "")) = false := by
    rw [List.any_eq_false]
    intro t ht
    obtain ⟨j, _, rfl⟩ := units_mem ht
    simp [units, unit]
  refine ⟨rows, ?_⟩
  simp only [recordBatch, prepareBatch]
  rw [hcur, units_ids, hl]
  simp only [Bool.false_eq_true, if_false, hm, DB.persist, hu, insertTxns_of hins]

/-- Any number of them up to ten thousand is a batch that could be posted one after the other. -/
theorem units_batch (n : Nat) (hn : n + 1 ≤ 10000) : ∃ db', Batch {} two (units 0 (n + 1)) "USD" db' := by
  have hr : Reachable {} two := ⟨_, rfl⟩
  have hq : QueuedNonneg two := fun t ht => by cases ht
  have hm : ∀ t ∈ units 0 (n + 1), Coalescible t ∧ t.reference ≠ "" ∧ t.currency = "USD" := by
    intro t ht
    obtain ⟨j, _, rfl⟩ := units_mem ht
    refine ⟨⟨rfl, ?_, ⟨?_, ?_⟩, ⟨?_, ?_⟩⟩, Ne.symm (Undo.longIds_not (by decide)), rfl⟩
    · show "a" ≠ "b"; decide
    · show "a" ≠ ""; decide
    · show isIndicator "a" = false; decide +kernel
    · show "b" ≠ ""; decide
    · show isIndicator "b" = false; decide +kernel
  obtain ⟨db', h⟩ := (c14_batch_accepted_iff {} rfl two hr hq _ "USD" hm).1 (units_posted n)
  exact ⟨db', rfl, hr, hq, hm, by rw [units_length]; exact hn, h⟩

theorem units_boxes (n k : Nat) :
    (((units k n).map batchMember).filter (needsBox (fun i => i = "a") (fun _ => false))).length = n := by
  rw [List.filter_eq_self.2, List.length_map, units_length]
  intro t ht
  obtain ⟨u, hu, rfl⟩ := List.mem_map.1 ht
  obtain ⟨j, _, rfl⟩ := units_mem hu
  simp [needsBox, batchMember, unit, finalStatus]

/-- **C189, the full claim fails.** 6554 payments from an account that tracks lineage: each could be posted, the
batch of all of them is refused. -/
theorem c189_full_fails : ¬ C189Full := by
  intro h
  obtain ⟨db', hb⟩ := units_batch 6553 (by decide)
  obtain ⟨db2, rows, hr, _⟩ := h {} (fun i => i = "a") (fun _ => false) _ two db' _ "USD" hb (List.Perm.refl _)
  obtain ⟨e, he⟩ := c189_too_many {} (fun i => i = "a") (fun _ => false) _ two (units 0 6554) (List.Perm.refl _)
    (by rw [units_boxes]; decide)
  rw [he] at hr
  cases hr

/-- One fewer is stored. -/
example : ∃ db2 rows, record {} (needsBox (fun i => i = "a") (fun _ => false)) ["b", "a"] two (units 0 6553) = (db2, .ok rows) := by
  obtain ⟨db', hb⟩ := units_batch 6552 (by decide)
  obtain ⟨db2, rows, h, _⟩ := c189_stored_partial {} (fun i => i = "a") (fun _ => false) ["b", "a"] two db' _ "USD" hb
    (by rw [units_ids]; exact List.Perm.swap _ _ _) (by rw [units_boxes]; decide)
  exact ⟨db2, rows, h⟩

/-- Two holds as the queue posts them, from an account that tracks lineage: no entry. -/
def holds : List Txn := ["h1", "h2"].map fun i =>
  { id := i, parent := "p" ++ i, source := "a", destination := "b", reference := i, amount := 1, preciseAmount := some 1, precision := 1,
    allowOverdraft := true, status := .queued, inflight := true, metaInflight := some true }

example : ∃ db2 rows, record {} (needsBox (fun i => i = "a") (fun _ => false)) ["a", "b"] two holds = (db2, .ok rows) := by
  have hr : Reachable {} two := ⟨_, rfl⟩
  have hq : QueuedNonneg two := fun t ht => by cases ht
  have hm : ∀ t ∈ holds, Coalescible t ∧ t.reference ≠ "" ∧ t.currency = "USD" := by
    intro t ht
    simp only [holds, List.map_cons, List.map_nil, List.mem_cons, List.not_mem_nil, or_false] at ht
    rcases ht with rfl | rfl <;>
      exact ⟨⟨rfl, by decide, ⟨by decide, by decide +kernel⟩, ⟨by decide, by decide +kernel⟩⟩, by decide, rfl⟩
  have hp : ∃ rows, (recordBatch {} two holds).2 = .posted rows := by
    cases h : (recordBatch {} two holds).2 with
    | posted rows => exact ⟨rows, rfl⟩
    | discarded => exact absurd h (by decide +kernel)
    | refused e =>
      have : (match (recordBatch {} two holds).2 with | .refused _ => true | _ => false) = false := by decide +kernel
      rw [h] at this; cases this
  obtain ⟨db', h⟩ := (c14_batch_accepted_iff {} rfl two hr hq _ "USD" hm).1 hp
  obtain ⟨db2, rows, h, _⟩ := c189_marked {} (fun i => i = "a") (fun _ => false) ["a", "b"] two db' _ "USD" ⟨rfl, hr, hq, hm, by decide, h⟩
    (by decide +kernel) (by decide +kernel)
  exact ⟨db2, rows, h⟩

/-- Two chunks of one, the second stale: nothing of the first is kept. -/
example : updateLoop 0 [{ id := "a", version := 3 }, { id := "b", version := 4 }] [{ id := "a", balance := 5, version := 3 }, { id := "b", version := 3 }]
    = .error (.op .conflict) := by
  rw [updateLoop_eq (by decide) 2 _ _ (by decide) (by decide +kernel)]
  decide +kernel

/-- Of a balance given twice the first counts. -/
example : updateSet [{ id := "a", version := 3 }] [{ id := "a", balance := 5, version := 3 }, { id := "a", balance := 6, version := 3 }]
    = .ok [{ id := "a", balance := 5, version := 4 }] := by
  simp [updateSet, uniq, chunkSize, updateLoop, updateChunk, maxParams, hits, written]

end Blnk.Big
