import Verif.Model.Chain
/-
C39–C43: the audit chain, its verification, the sealed text, and immutability.
-/
namespace Blnk.Chain

/-! ### Sorting -/

theorem insertBy_perm (k) (x : Row) : ∀ l, (insertBy k x l).Perm (x :: l)
  | [] => .refl _
  | y :: ys => by
    unfold insertBy; split
    · exact .refl _
    · exact ((insertBy_perm k x ys).cons y).trans (.swap x y ys)

theorem sortBy_perm (k) : ∀ l, (sortBy k l).Perm l
  | [] => .refl _
  | x :: xs => (insertBy_perm k x _).trans ((sortBy_perm k xs).cons x)

theorem insertBy_sorted (k) (x : Row) : ∀ l, l.Pairwise (fun a b => k a ≤ k b) →
    (insertBy k x l).Pairwise (fun a b => k a ≤ k b)
  | [], _ => by simp [insertBy]
  | y :: ys, h => by
    have hy := List.pairwise_cons.1 h
    unfold insertBy; split
    · refine List.pairwise_cons.2 ⟨fun z hz => ?_, h⟩
      rcases List.mem_cons.1 hz with rfl | hz
      · assumption
      · have := hy.1 z hz; omega
    · refine List.pairwise_cons.2 ⟨fun z hz => ?_, insertBy_sorted k x ys hy.2⟩
      rcases List.mem_cons.1 ((insertBy_perm k x ys).mem_iff.1 hz) with rfl | hz
      · omega
      · exact hy.1 z hz

theorem sortBy_sorted (k) : ∀ l, (sortBy k l).Pairwise (fun a b => k a ≤ k b)
  | [] => .nil
  | x :: xs => insertBy_sorted k x _ (sortBy_sorted k xs)

/-! ### C39: sealing -/

/-- Rows linked one after the other: numbers `n+1, n+2, …`, each with the previous hash and
the hash of its own fields on top of it. -/
def Linked (H : String → String) : String → Nat → List Row → Prop
  | _, _, [] => True
  | head, n, r :: rs => r.seq = some (n + 1) ∧ r.prev = head ∧ r.hash = computeHash H head r.row ∧ Linked H r.hash (n + 1) rs

/-- The hash of the last row, or the start. -/
def lastHash : String → List Row → String
  | head, [] => head
  | _, r :: rs => lastHash r.hash rs

/-- The sealed rows of a database form one chain from the genesis hash to the recorded head,
numbered from 1 without gaps, of the recorded length; keys are unique, so no transaction is in
it twice. -/
def WellChained (H : String → String) (s : State) : Prop :=
  (s.rows.map Row.key).Nodup ∧
  ∃ chain : List Row, chain.Perm (s.rows.filter (fun r => r.seq.isSome)) ∧ Linked H s.genesis 0 chain ∧
    s.lastSeq = chain.length ∧ s.head = lastHash s.genesis chain

theorem link_keys (H) : ∀ (l : List Row) (head n), (link H head n l).map Row.key = l.map Row.key
  | [], _, _ => rfl
  | _ :: rs, _, _ => by simp [link, link_keys H rs]

theorem link_linked (H) : ∀ (l : List Row) (head n), Linked H head n (link H head n l)
  | [], _, _ => trivial
  | _ :: rs, _, _ => ⟨rfl, rfl, rfl, link_linked H rs _ _⟩

theorem link_last (H) : ∀ (l : List Row) (head n), lastHash head (link H head n l) = headAfter H head l
  | [], _, _ => rfl
  | _ :: rs, _, _ => link_last H rs _ _

theorem link_length (H) : ∀ (l : List Row) (head n), (link H head n l).length = l.length
  | [], _, _ => rfl
  | _ :: rs, _, _ => by simp [link, link_length H rs]

theorem link_sealed (H) : ∀ (l : List Row) (head n), ∀ r ∈ link H head n l, r.seq.isSome = true
  | [], _, _, r, h => by simp [link] at h
  | x :: rs, head, n, r, h => by
    rcases List.mem_cons.1 h with rfl | h
    · rfl
    · exact link_sealed H rs _ _ r h

theorem linked_append (H) : ∀ (a b : List Row) (head n), Linked H head n a →
    Linked H (lastHash head a) (n + a.length) b → Linked H head n (a ++ b)
  | [], _, _, _, _, hb => hb
  | r :: rs, b, head, n, ha, hb => by
    refine ⟨ha.1, ha.2.1, ha.2.2.1, linked_append H rs b _ _ ha.2.2.2 ?_⟩
    have e : n + 1 + rs.length = n + (r :: rs).length := by simp; omega
    rw [e]; exact hb

theorem lastHash_append : ∀ (a b : List Row) (head), lastHash head (a ++ b) = lastHash (lastHash head a) b
  | [], _, _ => rfl
  | _ :: rs, b, _ => lastHash_append rs b _

theorem link_find (H) : ∀ (l : List Row) (head n), (l.map Row.key).Nodup →
    l.map (fun r => ((link H head n l).find? (fun x => x.key == r.key)).getD r) = link H head n l
  | [], _, _, _ => rfl
  | r :: rs, head, n, hn => by
    rw [List.map_cons, List.nodup_cons] at hn
    have ih := link_find H rs (computeHash H head r.row) (n + 1) hn.2
    rw [List.map_cons]
    have hrest : rs.map (fun x => ((link H head n (r :: rs)).find? (fun y => y.key == x.key)).getD x) =
        rs.map (fun x => ((link H (computeHash H head r.row) (n + 1) rs).find? (fun y => y.key == x.key)).getD x) := by
      apply List.map_congr_left
      intro x hx
      have : (r.key == x.key) = false := by
        simp only [beq_eq_false_iff_ne, ne_eq]; intro e
        exact hn.1 (e ▸ List.mem_map_of_mem hx)
      simp [link, this]
    rw [hrest, ih]
    simp [link]

theorem find_key_none {l : List Row} {k : Nat} (h : k ∉ l.map Row.key) : l.find? (fun x => x.key == k) = none := by
  rw [List.find?_eq_none]
  intro x hx hk
  simp only [beq_iff_eq] at hk
  exact h (hk ▸ List.mem_map_of_mem hx)

theorem same_key : ∀ {l : List Row}, (l.map Row.key).Nodup → ∀ {a b}, a ∈ l → b ∈ l → a.key = b.key → a = b
  | [], _, _, _, ha, _, _ => by simp at ha
  | x :: l, hn, a, b, ha, hb, he => by
    rw [List.map_cons, List.nodup_cons] at hn
    rcases List.mem_cons.1 ha with ea | ha' <;> rcases List.mem_cons.1 hb with eb | hb'
    · rw [ea, eb]
    · exact absurd (ea ▸ he ▸ List.mem_map_of_mem hb') hn.1
    · exact absurd (eb ▸ he ▸ List.mem_map_of_mem ha') hn.1
    · exact same_key hn.2 ha' hb' he

theorem pending_mem {rows : List Row} {c b : Nat} {r : Row} (h : r ∈ pending rows c b) :
    r ∈ rows ∧ r.seq = none ∧ r.createdAt < c := by
  have := (sortBy_perm Row.key _).mem_iff.1 (List.mem_of_mem_take h)
  rw [List.mem_filter] at this
  simpa using this

theorem pending_nodup {rows : List Row} {c b : Nat} (h : (rows.map Row.key).Nodup) :
    ((pending rows c b).map Row.key).Nodup := by
  refine List.Nodup.sublist ((List.take_sublist _ _).map _) ?_
  refine ((sortBy_perm Row.key _).map Row.key).nodup_iff.2 ?_
  exact h.sublist (List.filter_sublist.map _)

/-- How the table splits: the sealed rows, the batch, the rest. -/
theorem rows_split (rows : List Row) (c b : Nat) : ∃ rest : List Row, (∀ r ∈ rest, r.seq = none) ∧
    rows.Perm (rows.filter (fun r => r.seq.isSome) ++ (pending rows c b ++ rest)) := by
  have h1 := (List.filter_append_perm (fun r : Row => r.seq.isSome) rows).symm
  have h2 := (List.filter_append_perm (fun r : Row => decide (r.createdAt < c)) (rows.filter (fun r => !r.seq.isSome))).symm
  refine ⟨(sortBy Row.key (rows.filter (fun r => r.seq.isNone && r.createdAt < c))).drop b ++
      (rows.filter (fun r => !r.seq.isSome)).filter (fun r => !decide (r.createdAt < c)), ?_, ?_⟩
  · intro r hr
    rcases List.mem_append.1 hr with hr | hr
    · have := (sortBy_perm Row.key _).mem_iff.1 (List.mem_of_mem_drop hr)
      rw [List.mem_filter] at this
      have := this.2
      simp at this
      exact this.1
    · have := (List.mem_filter.1 (List.mem_filter.1 hr).1).2
      simpa using this
  · refine h1.trans (List.Perm.append_left _ (h2.trans ?_))
    rw [← List.append_assoc]
    refine List.Perm.append_right _ ?_
    unfold pending
    rw [List.take_append_drop, List.filter_filter]
    refine (List.Perm.of_eq ?_).trans (sortBy_perm Row.key _).symm
    apply List.filter_congr
    intro r _
    cases r.seq <;> simp

theorem seal_wellChained {H : String → String} {s : State} (h : WellChained H s) (c b : Nat) :
    WellChained H (sealBatch H c b s) := by
  obtain ⟨hn, chain, hp, hl, hlen, hhead⟩ := h
  obtain ⟨rest, hrest, hsplit⟩ := rows_split s.rows c b
  have hpn := pending_nodup (c := c) (b := b) hn
  have hpm : ∀ r ∈ pending s.rows c b, r ∈ s.rows ∧ r.seq = none ∧ r.createdAt < c := fun r hr => pending_mem hr
  generalize hL : link H s.head s.lastSeq (pending s.rows c b) = L
  have hLk : L.map Row.key = (pending s.rows c b).map Row.key := by rw [← hL]; exact link_keys H _ _ _
  have hkeys : (write L s.rows).map Row.key = s.rows.map Row.key := by
    unfold write
    rw [List.map_map]
    apply List.map_congr_left
    intro r _
    simp only [Function.comp]
    cases hf : L.find? (fun l => l.key == r.key) with
    | none => rfl
    | some x => have := List.find?_some hf; simpa using this
  have hsealedfix : (s.rows.filter (fun r => r.seq.isSome)).map
      (fun r => (L.find? (fun l => l.key == r.key)).getD r) = s.rows.filter (fun r => r.seq.isSome) := by
    conv => rhs; rw [← List.map_id (s.rows.filter (fun r => r.seq.isSome))]
    apply List.map_congr_left
    intro r hr
    obtain ⟨hr1, hr2⟩ := List.mem_filter.1 hr
    rw [find_key_none]
    · rfl
    · rw [hLk]
      intro hk
      obtain ⟨x, hx, e⟩ := List.mem_map.1 hk
      have := hpm x hx
      have := same_key hn this.1 hr1 e
      subst this
      simp [this] at hr2
  have htodo : (pending s.rows c b).map (fun r => (L.find? (fun l => l.key == r.key)).getD r) = L := by
    rw [← hL]; exact link_find H _ _ _ hpn
  have hrestfix : ∀ r ∈ rest.map (fun r => (L.find? (fun l => l.key == r.key)).getD r), r.seq = none := by
    intro r hr
    obtain ⟨x, hx, e⟩ := List.mem_map.1 hr
    have hxk : x.key ∉ L.map Row.key := by
      rw [hLk]
      have := (hsplit.map Row.key).nodup_iff.1 hn
      rw [List.map_append, List.map_append, List.nodup_append] at this
      have := List.nodup_append.1 this.2.1
      intro hm
      exact this.2.2 _ hm _ (List.mem_map_of_mem hx) rfl
    rw [find_key_none hxk] at e
    rw [← e]; exact hrest x hx
  have hw : (write L s.rows).Perm (s.rows.filter (fun r => r.seq.isSome) ++ (L ++ rest.map (fun r => (L.find? (fun l => l.key == r.key)).getD r))) := by
    have := hsplit.map (fun r => (L.find? (fun l => l.key == r.key)).getD r)
    rw [List.map_append, List.map_append, hsealedfix, htodo] at this
    exact this
  refine ⟨?_, chain ++ L, ?_, ?_, ?_, ?_⟩
  · show ((write (link H s.head s.lastSeq (pending s.rows c b)) s.rows).map Row.key).Nodup
    rw [hL, hkeys]; exact hn
  · show (chain ++ L).Perm ((write (link H s.head s.lastSeq (pending s.rows c b)) s.rows).filter _)
    rw [hL]
    have := hw.filter (fun r => r.seq.isSome)
    rw [List.filter_append, List.filter_append, List.filter_filter] at this
    have h1 : L.filter (fun r => r.seq.isSome) = L := by
      rw [List.filter_eq_self]; rw [← hL]; exact link_sealed H _ _ _
    have h2 : (rest.map (fun r => (L.find? (fun l => l.key == r.key)).getD r)).filter (fun r => r.seq.isSome) = [] := by
      rw [List.filter_eq_nil_iff]
      intro r hr; simp [hrestfix r hr]
    simp only [Bool.and_self] at this
    rw [h1, h2, List.append_nil] at this
    exact (List.Perm.append_right L hp).trans this.symm
  · show Linked H s.genesis 0 (chain ++ L)
    apply linked_append H chain L _ _ hl
    rw [← hhead, Nat.zero_add, ← hlen, ← hL]
    exact link_linked H _ _ _
  · show s.lastSeq + _ = _
    rw [List.length_append, ← hlen, ← hL, link_length]
  · show headAfter H s.head _ = _
    show _ = lastHash s.genesis (chain ++ L)
    rw [lastHash_append, ← hhead, ← hL, link_last]

theorem step_wellChained {H : String → String} {s : State} (h : WellChained H s) (e : Ev) :
    WellChained H (step H s e) := by
  cases e with
  | insert key t row =>
    unfold step; simp only
    split
    · exact h
    · rename_i hk
      obtain ⟨hn, chain, hp, hl, hlen, hhead⟩ := h
      refine ⟨?_, chain, ?_, hl, hlen, hhead⟩
      · show ((s.rows ++ _).map Row.key).Nodup
        rw [List.map_append]
        refine List.nodup_append.2 ⟨hn, by simp, ?_⟩
        intro a ha b hb e
        simp only [List.map_cons, List.map_nil, List.mem_singleton] at hb
        obtain ⟨x, hx, hxa⟩ := List.mem_map.1 ha
        apply hk
        rw [List.any_eq_true]
        exact ⟨x, hx, by simp; omega⟩
      · show chain.Perm ((s.rows ++ _).filter _)
        rw [List.filter_append]
        simpa using hp
  | round c b => exact seal_wellChained h c b
  | crashed c b => exact h

theorem run_wellChained {H : String → String} : ∀ (evs : List Ev) {s : State}, WellChained H s → WellChained H (run H s evs)
  | [], _, h => h
  | e :: es, _, h => run_wellChained es (step_wellChained h e)

/-- **C39** After any history of stored transactions, sealing rounds and crashed rounds, the
sealed transactions form one chain: numbers from 1 without gaps, each linked to the hash
before it, nobody in it twice, and the recorded head and length are those of the chain. -/
theorem c39_contiguous (H : String → String) (genesis : String) (evs : List Ev) :
    WellChained H (run H (init genesis) evs) :=
  run_wellChained evs ⟨List.nodup_nil, [], .refl _, trivial, rfl, rfl⟩

theorem step_keeps {H : String → String} {s : State} (h : WellChained H s) (e : Ev) {r : Row} (hr : r ∈ s.rows) :
    ∃ r' ∈ (step H s e).rows, r'.key = r.key ∧ r'.row = r.row ∧ (r.seq.isSome = true → r' = r) := by
  cases e with
  | insert key t row =>
    unfold step; simp only
    split
    · exact ⟨r, hr, rfl, rfl, fun _ => rfl⟩
    · exact ⟨r, List.mem_append_left _ hr, rfl, rfl, fun _ => rfl⟩
  | crashed c b => exact ⟨r, hr, rfl, rfl, fun _ => rfl⟩
  | round c b =>
    have hn := h.1
    unfold step sealBatch; simp only
    refine ⟨_, List.mem_map_of_mem hr, ?_⟩
    cases hf : (link H s.head s.lastSeq (pending s.rows c b)).find? (fun l => l.key == r.key) with
    | none => exact ⟨rfl, rfl, fun _ => rfl⟩
    | some x =>
      have hk : x.key = r.key := by have := List.find?_some hf; simpa using this
      have hx := List.mem_of_find?_eq_some hf
      -- the link comes from a pending row with the same key, which is `r`
      have src : ∀ (l : List Row) (hd n), ∀ y ∈ link H hd n l, ∃ z ∈ l, z.key = y.key ∧ z.row = y.row := by
        intro l
        induction l with
        | nil => intro hd n y hy; simp [link] at hy
        | cons z zs ih =>
          intro hd n y hy
          rcases List.mem_cons.1 hy with rfl | hy
          · exact ⟨z, List.mem_cons_self .., rfl, rfl⟩
          · obtain ⟨w, hw, h1, h2⟩ := ih _ _ y hy
            exact ⟨w, List.mem_cons_of_mem _ hw, h1, h2⟩
      obtain ⟨z, hz, hz1, hz2⟩ := src _ _ _ x hx
      have hzm := pending_mem hz
      have : z = r := same_key hn hzm.1 hr (hz1.trans hk)
      subst this
      refine ⟨hk, hz2.symm, fun hs => ?_⟩
      rw [hzm.2.1] at hs; cases hs

/-- **C39** Sealing never touches what a transaction says, and a sealed transaction's number
and hashes never change again. -/
theorem c39_sealed_for_good (H : String → String) (genesis : String) (evs more : List Ev) (r : Row)
    (hr : r ∈ (run H (init genesis) evs).rows) :
    ∃ r' ∈ (run H (run H (init genesis) evs) more).rows, r'.key = r.key ∧ r'.row = r.row ∧
      (r.seq.isSome = true → r' = r) := by
  have hw := c39_contiguous H genesis evs
  generalize run H (init genesis) evs = s at hr hw
  induction more generalizing s r with
  | nil => exact ⟨r, hr, rfl, rfl, fun _ => rfl⟩
  | cons e es ih =>
    obtain ⟨r1, h1, h2, h3, h4⟩ := step_keeps hw e hr
    obtain ⟨r2, g1, g2, g3, g4⟩ := ih r1 _ h1 (step_wellChained hw e)
    refine ⟨r2, g1, g2.trans h2, g3.trans h3, fun hs => ?_⟩
    have := h4 hs
    subst this
    exact g4 hs

/-- Rows waiting to be sealed. -/
def backlog (s : State) (cutoff : Nat) : Nat := (s.rows.filter (fun r => r.seq.isNone && r.createdAt < cutoff)).length

theorem pending_length (rows : List Row) (c b : Nat) :
    (pending rows c b).length = min b (rows.filter (fun r => r.seq.isNone && r.createdAt < c)).length := by
  unfold pending
  rw [List.length_take, (sortBy_perm Row.key _).length_eq]

theorem length_of_filter_split (l : List Row) (p : Row → Bool) :
    l.length = (l.filter p).length + (l.filter (fun x => !p x)).length := by
  have := (List.filter_append_perm p l).length_eq
  rw [List.length_append] at this
  omega

/-- A round seals a full batch or everything that is waiting. -/
theorem seal_backlog {H : String → String} {s : State} (h : WellChained H s) (c b : Nat) :
    backlog (sealBatch H c b s) c = backlog s c - b := by
  obtain ⟨hn, chain, hp, hl, hlen, hhead⟩ := h
  have h2 := seal_wellChained ⟨hn, chain, hp, hl, hlen, hhead⟩ c b
  obtain ⟨hn2, chain2, hp2, hl2, hlen2, hhead2⟩ := h2
  -- old rows keep their creation time; the sealed ones grew by the size of the batch
  have hsame : ∀ q : Nat → Bool, ((sealBatch H c b s).rows.filter (fun r => q r.createdAt)).length =
      (s.rows.filter (fun r => q r.createdAt)).length := by
    intro q
    have : ((sealBatch H c b s).rows.map Row.createdAt) = s.rows.map Row.createdAt := by
      show (write _ s.rows).map Row.createdAt = _
      unfold write
      rw [List.map_map]
      apply List.map_congr_left
      intro r hr
      simp only [Function.comp]
      cases hf : (link H s.head s.lastSeq (pending s.rows c b)).find? (fun l => l.key == r.key) with
      | none => rfl
      | some x =>
        have hk : x.key = r.key := by have := List.find?_some hf; simpa using this
        have hx := List.mem_of_find?_eq_some hf
        have src : ∀ (l : List Row) (hd n), ∀ y ∈ link H hd n l, ∃ z ∈ l, z.key = y.key ∧ z.createdAt = y.createdAt := by
          intro l
          induction l with
          | nil => intro hd n y hy; simp [link] at hy
          | cons z zs ih =>
            intro hd n y hy
            rcases List.mem_cons.1 hy with rfl | hy
            · exact ⟨z, List.mem_cons_self .., rfl, rfl⟩
            · obtain ⟨w, hw, h1, h2⟩ := ih _ _ y hy
              exact ⟨w, List.mem_cons_of_mem _ hw, h1, h2⟩
        obtain ⟨z, hz, hz1, hz2⟩ := src _ _ _ x hx
        have : z = r := same_key hn (pending_mem hz).1 hr (hz1.trans hk)
        subst this
        simpa using hz2.symm
    have e : ∀ l : List Row, (l.filter (fun r => q r.createdAt)).length = ((l.map Row.createdAt).filter q).length := by
      intro l; rw [List.filter_map, List.length_map]; rfl
    rw [e, e, this]
  obtain ⟨rest, hrest, hsplit⟩ := rows_split s.rows c b
  -- count the waiting rows through the write
  have hwait : ∀ r ∈ s.rows, (((link H s.head s.lastSeq (pending s.rows c b)).find? (fun l => l.key == r.key)).getD r).seq.isNone
      = (r.seq.isNone && !((pending s.rows c b).any (fun p => p.key == r.key))) := by
    intro r hr
    cases hf : (link H s.head s.lastSeq (pending s.rows c b)).find? (fun l => l.key == r.key) with
    | none =>
      have : (pending s.rows c b).any (fun p => p.key == r.key) = false := by
        rw [List.any_eq_false]
        intro p hpm hk
        rw [List.find?_eq_none] at hf
        have hm : p.key ∈ (link H s.head s.lastSeq (pending s.rows c b)).map Row.key := by
          rw [link_keys]; exact List.mem_map_of_mem hpm
        obtain ⟨x, hx, e⟩ := List.mem_map.1 hm
        exact hf x hx (by simp only [beq_iff_eq] at hk ⊢; omega)
      simp [this]
    | some x =>
      have hx := List.mem_of_find?_eq_some hf
      have hs := link_sealed H _ _ _ x hx
      have hk : x.key = r.key := by have := List.find?_some hf; simpa using this
      have : (pending s.rows c b).any (fun p => p.key == r.key) = true := by
        rw [List.any_eq_true]
        have hm : x.key ∈ (pending s.rows c b).map Row.key := by
          rw [← link_keys H _ s.head s.lastSeq]; exact List.mem_map_of_mem hx
        obtain ⟨p, hp', e⟩ := List.mem_map.1 hm
        exact ⟨p, hp', by simp; omega⟩
      rw [Option.getD_some, this]
      cases hsq : x.seq with
      | none => rw [hsq] at hs; cases hs
      | some _ => simp
  have hcreated : ∀ r ∈ s.rows, (((link H s.head s.lastSeq (pending s.rows c b)).find? (fun l => l.key == r.key)).getD r).createdAt = r.createdAt := by
    intro r hr
    cases hf : (link H s.head s.lastSeq (pending s.rows c b)).find? (fun l => l.key == r.key) with
    | none => rfl
    | some x =>
      have hk : x.key = r.key := by have := List.find?_some hf; simpa using this
      have hx := List.mem_of_find?_eq_some hf
      have src : ∀ (l : List Row) (hd n), ∀ y ∈ link H hd n l, ∃ z ∈ l, z.key = y.key ∧ z.createdAt = y.createdAt := by
        intro l
        induction l with
        | nil => intro hd n y hy; simp [link] at hy
        | cons z zs ih =>
          intro hd n y hy
          rcases List.mem_cons.1 hy with rfl | hy
          · exact ⟨z, List.mem_cons_self .., rfl, rfl⟩
          · obtain ⟨w, hw, h1, h2⟩ := ih _ _ y hy
            exact ⟨w, List.mem_cons_of_mem _ hw, h1, h2⟩
      obtain ⟨z, hz, hz1, hz2⟩ := src _ _ _ x hx
      have : z = r := same_key hn (pending_mem hz).1 hr (hz1.trans hk)
      subst this
      simpa using hz2.symm
  have hnew : backlog (sealBatch H c b s) c =
      ((s.rows.filter (fun r => r.seq.isNone && r.createdAt < c)).filter
        (fun r => !((pending s.rows c b).any (fun p => p.key == r.key)))).length := by
    unfold backlog sealBatch write
    simp only
    rw [List.filter_map, List.length_map, List.filter_filter]
    congr 1
    apply List.filter_congr
    intro r hr
    simp only [Function.comp, hwait r hr, hcreated r hr]
    cases r.seq.isNone <;> cases decide (r.createdAt < c) <;>
      cases (pending s.rows c b).any (fun p => p.key == r.key) <;> rfl
  have hold : ((s.rows.filter (fun r => r.seq.isNone && r.createdAt < c)).filter
      (fun r => (pending s.rows c b).any (fun p => p.key == r.key))).length = (pending s.rows c b).length := by
    -- those rows are the batch
    have hperm := sortBy_perm Row.key (s.rows.filter (fun r => r.seq.isNone && r.createdAt < c))
    have h1 := (hperm.filter (fun r => (pending s.rows c b).any (fun p => p.key == r.key))).length_eq
    rw [← h1]
    have hkn : ((sortBy Row.key (s.rows.filter (fun r => r.seq.isNone && r.createdAt < c))).map Row.key).Nodup :=
      ((hperm.map Row.key).nodup_iff).2 (hn.sublist (List.filter_sublist.map _))
    unfold pending
    generalize sortBy Row.key (s.rows.filter (fun r => r.seq.isNone && r.createdAt < c)) = L at hkn
    conv => lhs; rw [← List.take_append_drop b L]
    rw [List.filter_append, List.length_append]
    conv at hkn => rw [← List.take_append_drop b L]
    rw [List.map_append, List.nodup_append] at hkn
    have e1 : (L.take b).filter (fun r => (L.take b).any (fun p => p.key == r.key)) = L.take b := by
      rw [List.filter_eq_self]
      intro r hr
      rw [List.any_eq_true]; exact ⟨r, hr, by simp⟩
    have e2 : (L.drop b).filter (fun r => (L.take b).any (fun p => p.key == r.key)) = [] := by
      rw [List.filter_eq_nil_iff]
      intro r hr hk
      rw [List.any_eq_true] at hk
      obtain ⟨p, hp', e⟩ := hk
      simp only [beq_iff_eq] at e
      exact hkn.2.2 _ (List.mem_map_of_mem hp') _ (List.mem_map_of_mem hr) e
    have e0 : (L.take b ++ L.drop b).take b = L.take b := by rw [List.take_append_drop]
    rw [e0, e1, e2]; simp
  have := length_of_filter_split (s.rows.filter (fun r => r.seq.isNone && r.createdAt < c))
    (fun r => (pending s.rows c b).any (fun p => p.key == r.key))
  rw [hold, pending_length] at this
  rw [hnew]
  unfold backlog
  omega

/-- **C39** Every transaction older than the cutoff is sealed after enough rounds: `n` rounds
of batches of `b` clear a backlog of up to `n * b`. -/
theorem c39_backlog_cleared (H : String → String) (genesis : String) (evs : List Ev) (c b n : Nat)
    (hb : backlog (run H (init genesis) evs) c ≤ n * b) :
    ∀ r ∈ (run H (run H (init genesis) evs) (List.replicate n (.round c b))).rows, r.createdAt < c → r.seq.isSome = true := by
  have hw := c39_contiguous H genesis evs
  generalize run H (init genesis) evs = s at hb hw
  have key : backlog (run H s (List.replicate n (.round c b))) c = 0 := by
    induction n generalizing s with
    | zero => simp only [Nat.zero_mul, Nat.le_zero_eq] at hb; exact hb
    | succ n ih =>
      show backlog (run H (sealBatch H c b s) (List.replicate n (.round c b))) c = 0
      apply ih _ _ (seal_wellChained hw c b)
      rw [seal_backlog hw, Nat.add_mul] at *
      omega
  intro r hr hc
  unfold backlog at key
  rw [List.length_eq_zero_iff, List.filter_eq_nil_iff] at key
  have := key r hr
  simp [hc] at this
  cases h : r.seq with
  | none => simp [h] at this
  | some _ => rfl

/-- A sealed three-row history: two rounds, one crash, one row too young. -/
def exRow (id ref : String) : ChainRow := ⟨id, "bln_a", "bln_b", "1", "100", "USD", "APPLIED", ref, "2026-01-01T00:00:00Z"⟩
def exEvs : List Ev :=
  [.insert 1 0 (exRow "t1" "r1"), .insert 2 1 (exRow "t2" "r2"), .round 5 1, .crashed 5 1,
   .insert 3 2 (exRow "t3" "r3"), .insert 4 9 (exRow "t4" "r4"), .round 5 10]

example : ((run (fun x => x) (init "g") exEvs).rows.map (fun r => (r.key, r.seq))) =
    [(1, some 1), (2, some 2), (3, some 3), (4, none)] ∧
    backlog (run (fun x => x) (init "g") exEvs) 5 = 0 ∧ backlog (run (fun x => x) (init "g") (exEvs.take 2)) 5 = 2 := by decide +kernel

/-! ### Reading the whole chain page by page -/

/-- The numbers in the table are unique (`sql/1781162328.sql:41-45`, a unique index). -/
def UniqueSeqs (rows : List Row) : Prop := (rows.filterMap Row.seq).Nodup

/-- What a full scan returns. -/
def scan (rows : List Row) : List Row := (chained rows).filter (fun r => 0 < r.seq.getD 0)

theorem filterMap_seq : ∀ l : List Row, (l.filter (fun r => r.seq.isSome)).map (fun r => r.seq.getD 0) = l.filterMap Row.seq
  | [] => rfl
  | r :: rs => by
    cases h : r.seq <;> simp [h, filterMap_seq rs]

theorem chained_lt {rows : List Row} (h : UniqueSeqs rows) :
    (chained rows).Pairwise (fun a b => a.seq.getD 0 < b.seq.getD 0) := by
  have h1 := sortBy_sorted (fun r : Row => r.seq.getD 0) (rows.filter (fun r => r.seq.isSome))
  have h2 : ((chained rows).map (fun r => r.seq.getD 0)).Nodup := by
    refine (((sortBy_perm (fun r : Row => r.seq.getD 0) (rows.filter (fun r => r.seq.isSome))).map _).nodup_iff).2 ?_
    rw [filterMap_seq]; exact h
  have h3 : (chained rows).Pairwise (fun a b => a.seq.getD 0 ≠ b.seq.getD 0) := by
    rw [List.Nodup, List.pairwise_map] at h2
    exact h2
  exact (h1.and h3).imp (fun {a b} ⟨x, y⟩ => by omega)

theorem walk_append (H) : ∀ (a b : List Row) (head last), walk H head last (a ++ b) =
    match walk H head last a with | .error n => .error n | .ok (h, n) => walk H h n b
  | [], _, _, _ => rfl
  | r :: rs, b, head, last => by
    rw [List.cons_append, walk, walk]
    split
    · rfl
    · split
      · rfl
      · split
        · rfl
        · exact walk_append H rs b _ _

theorem walk_iff (H) : ∀ (l : List Row) (head last h n), walk H head last l = .ok (h, n) ↔
    Linked H head last l ∧ h = lastHash head l ∧ n = last + l.length
  | [], head, last, h, n => by
    simp only [walk, Linked, lastHash, List.length_nil, Nat.add_zero, true_and, Except.ok.injEq, Prod.mk.injEq]
    constructor <;> (rintro ⟨rfl, rfl⟩; exact ⟨rfl, rfl⟩)
  | r :: rs, head, last, h, n => by
    unfold walk Linked
    split
    · rename_i e; simp [e]
    · rename_i e; rw [Decidable.not_not] at e
      split
      · rename_i e'; simp [e']
      · rename_i e'; rw [Decidable.not_not] at e'
        split
        · rename_i e2; simp [Ne.symm e2]
        · rename_i e2; rw [Decidable.not_not] at e2
          rw [walk_iff H rs]
          simp only [e, e', e2, true_and, lastHash, List.length_cons]
          have : last + 1 + rs.length = last + (rs.length + 1) := by omega
          rw [this]

theorem linked_seq (H) : ∀ (l : List Row) (head n) (r : Row), Linked H head n l → r ∈ l →
    n < r.seq.getD 0 ∧ r.seq.getD 0 ≤ n + l.length ∧ r.seq.isSome = true
  | [], _, _, _, _, h => by simp at h
  | x :: xs, head, n, r, hl, h => by
    rcases List.mem_cons.1 h with rfl | h
    · rw [hl.1]; simp
    · obtain ⟨h1, h2, h3⟩ := linked_seq H xs _ _ r hl.2.2.2 h
      rw [List.length_cons]
      exact ⟨by omega, by omega, h3⟩

theorem linked_last_seq (H) : ∀ (l : List Row) (head n), Linked H head n l → l ≠ [] →
    ∃ r ∈ l, r.seq.getD 0 = n + l.length
  | [], _, _, _, h => absurd rfl h
  | [x], _, n, hl, _ => ⟨x, List.mem_cons_self .., by rw [hl.1]; rfl⟩
  | x :: y :: ys, _, n, hl, _ => by
    obtain ⟨r, hr, e⟩ := linked_last_seq H (y :: ys) _ _ hl.2.2.2 (by simp)
    refine ⟨r, List.mem_cons_of_mem _ hr, ?_⟩
    rw [e]; simp; omega

theorem pages_eq (H) {rows : List Row} (hu : UniqueSeqs rows) {page : Nat} (hp : 0 < page) :
    ∀ (fuel : Nat) (head last), ((chained rows).filter (fun r => last < r.seq.getD 0)).length < fuel →
    pages H rows page fuel head last = walk H head last ((chained rows).filter (fun r => last < r.seq.getD 0))
  | 0, _, _, h => by omega
  | fuel + 1, head, last, hf => by
    have hD : ((chained rows).filter (fun r => last < r.seq.getD 0)).Pairwise (fun a b => a.seq.getD 0 < b.seq.getD 0) :=
      (chained_lt hu).sublist List.filter_sublist
    unfold pages fetchAfter
    generalize hDe : (chained rows).filter (fun r => last < r.seq.getD 0) = D at *
    cases ht : D.take page with
    | nil =>
      have : D = [] := by
        cases D with
        | nil => rfl
        | cons x xs => rw [show page = (page - 1) + 1 by omega, List.take_succ_cons] at ht; cases ht
      rw [this]; rfl
    | cons x xs =>
      simp only
      have hne : D.take page ≠ [] := by rw [ht]; simp
      rw [← ht]
      conv => rhs; rw [← List.take_append_drop page D, walk_append]
      cases hw : walk H head last (D.take page) with
      | error n => rfl
      | ok p =>
        obtain ⟨h, n⟩ := p
        obtain ⟨hl, _, hn⟩ := (walk_iff H _ _ _ _ _).1 hw
        have hdrop : (chained rows).filter (fun r => n < r.seq.getD 0) = D.drop page := by
          have e1 : (chained rows).filter (fun r => n < r.seq.getD 0) = D.filter (fun r => n < r.seq.getD 0) := by
            rw [← hDe, List.filter_filter]
            apply List.filter_congr
            intro r _
            by_cases h1 : n < r.seq.getD 0
            · simp [h1]; omega
            · simp [h1]
          rw [e1]
          conv => lhs; rw [← List.take_append_drop page D]
          rw [List.filter_append]
          have a1 : (D.take page).filter (fun r => n < r.seq.getD 0) = [] := by
            rw [List.filter_eq_nil_iff]
            intro r hr
            have := linked_seq H _ _ _ r hl hr
            simp; omega
          have a2 : (D.drop page).filter (fun r => n < r.seq.getD 0) = D.drop page := by
            rw [List.filter_eq_self]
            intro r hr
            obtain ⟨z, hz, ez⟩ := linked_last_seq H _ _ _ hl hne
            have hD' := hD
            rw [← List.take_append_drop page D, List.pairwise_append] at hD'
            have := hD'.2.2 z hz r hr
            simp; omega
          rw [a1, a2, List.nil_append]
        have hlen : (D.drop page).length < fuel := by
          have : 0 < D.length := by
            cases D with
            | nil => simp at hne
            | cons _ _ => simp
          rw [List.length_drop]; omega
        simp only
        rw [pages_eq H hu hp fuel h n (by rw [hdrop]; exact hlen), hdrop]

/-- The verdict in terms of the whole table: the page size does not matter. -/
theorem verify_eq (H) {s : State} (hu : UniqueSeqs s.rows) {page : Nat} (hp : 0 < page) :
    verify H page s = conclude s (walk H s.genesis 0 (scan s.rows)) := by
  unfold verify scan
  rw [pages_eq H hu hp]
  have h1 : ((chained s.rows).filter (fun r => 0 < r.seq.getD 0)).length ≤ (chained s.rows).length := List.length_filter_le _ _
  have h2 : (chained s.rows).length = (s.rows.filter (fun r => r.seq.isSome)).length := (sortBy_perm _ _).length_eq
  have h3 : (s.rows.filter (fun r => r.seq.isSome)).length ≤ s.rows.length := List.length_filter_le _ _
  omega

theorem verify_iff (H) {s : State} (hu : UniqueSeqs s.rows) {page : Nat} (hp : 0 < page) (n : Nat) (h : String) :
    verify H page s = .verified n h ↔ Linked H s.genesis 0 (scan s.rows) ∧ n = (scan s.rows).length ∧
      h = lastHash s.genesis (scan s.rows) ∧ (n = s.lastSeq → h = s.head) := by
  rw [verify_eq H hu hp]
  cases hw : walk H s.genesis 0 (scan s.rows) with
  | error m =>
    simp only [conclude]
    constructor
    · intro h; cases h
    · rintro ⟨hl, _⟩
      have := (walk_iff H (scan s.rows) s.genesis 0 _ _).2 ⟨hl, rfl, rfl⟩
      rw [hw] at this; cases this
  | ok p =>
    obtain ⟨h', n'⟩ := p
    obtain ⟨hl, e1, e2⟩ := (walk_iff H _ _ _ _ _).1 hw
    rw [Nat.zero_add] at e2
    simp only [conclude]
    split
    · rename_i hc
      constructor
      · intro h; cases h
      · rintro ⟨_, e3, e4, e5⟩
        have : n = s.lastSeq := by rw [e3, ← e2]; exact hc.1
        exact absurd (e1.trans (e4.symm.trans (e5 this))) hc.2
    · rename_i hc
      constructor
      · intro h
        injection h with a b
        subst a; subst b
        refine ⟨hl, e2, e1, fun hn => ?_⟩
        exact Decidable.byContradiction fun hh => hc ⟨hn, hh⟩
      · rintro ⟨_, e3, e4, _⟩
        rw [e3, e4, ← e1, ← e2]

/-! ### An honest table -/

theorem linked_unique (H) : ∀ (l : List Row) (head n) (a b : Row), Linked H head n l → a ∈ l → b ∈ l →
    a.seq.getD 0 = b.seq.getD 0 → a = b
  | [], _, _, _, _, _, h, _, _ => by simp at h
  | x :: xs, head, n, a, b, hl, ha, hb, he => by
    rcases List.mem_cons.1 ha with ea | ha' <;> rcases List.mem_cons.1 hb with eb | hb'
    · rw [ea, eb]
    · have := linked_seq H xs _ _ b hl.2.2.2 hb'
      rw [ea, hl.1] at he; simp at he; omega
    · have := linked_seq H xs _ _ a hl.2.2.2 ha'
      rw [eb, hl.1] at he; simp at he; omega
    · exact linked_unique H xs _ _ a b hl.2.2.2 ha' hb' he

theorem linked_sorted (H) : ∀ (l : List Row) (head n), Linked H head n l →
    l.Pairwise (fun a b => a.seq.getD 0 < b.seq.getD 0)
  | [], _, _, _ => .nil
  | x :: xs, head, n, hl => by
    refine List.pairwise_cons.2 ⟨fun y hy => ?_, linked_sorted H xs _ _ hl.2.2.2⟩
    have := linked_seq H xs _ _ y hl.2.2.2 hy
    rw [hl.1]; simp; omega

/-- A table whose sealed rows are, in some order, a linked chain is read back as that chain. -/
theorem scan_of_linked (H) {rows chain : List Row} {g : String} (hp : chain.Perm (rows.filter (fun r => r.seq.isSome)))
    (hl : Linked H g 0 chain) : scan rows = chain ∧ UniqueSeqs rows := by
  have hperm : (chained rows).Perm chain := (sortBy_perm _ _).trans hp.symm
  have hs := linked_sorted H chain _ _ hl
  have e : chained rows = chain := by
    refine List.Perm.eq_of_pairwise (le := fun a b : Row => a.seq.getD 0 ≤ b.seq.getD 0) ?_ (sortBy_sorted _ _)
      (hs.imp (fun h => Nat.le_of_lt h)) hperm
    intro a b ha hb h1 h2
    exact linked_unique H chain _ _ a b hl (hperm.mem_iff.1 ha) hb (by omega)
  refine ⟨?_, ?_⟩
  · unfold scan
    rw [e, List.filter_eq_self]
    intro r hr
    have := linked_seq H chain _ _ r hl hr
    simp; omega
  · unfold UniqueSeqs
    rw [← filterMap_seq]
    refine ((hp.map _).nodup_iff).1 ?_
    rw [List.Nodup, List.pairwise_map]
    exact hs.imp (fun h => Nat.ne_of_lt h)

theorem wellChained_scan {H : String → String} {s : State} (h : WellChained H s) :
    Linked H s.genesis 0 (scan s.rows) ∧ UniqueSeqs s.rows ∧ s.lastSeq = (scan s.rows).length ∧
      s.head = lastHash s.genesis (scan s.rows) ∧ (scan s.rows).Perm (s.rows.filter (fun r => r.seq.isSome)) := by
  obtain ⟨_, chain, hp, hl, hlen, hhead⟩ := h
  obtain ⟨e, hu⟩ := scan_of_linked H hp hl
  rw [e]; exact ⟨hl, hu, hlen, hhead, hp⟩

/-- **C39** Verification of a chain nobody tampered with succeeds, whatever the page size, and
reports the recorded length and head. -/
theorem c39_honest_verifies (H : String → String) (genesis : String) (evs : List Ev) {page : Nat} (hp : 0 < page) :
    verify H page (run H (init genesis) evs) =
      .verified (run H (init genesis) evs).lastSeq (run H (init genesis) evs).head := by
  obtain ⟨h1, h2, h3, h4, _⟩ := wellChained_scan (c39_contiguous H genesis evs)
  exact (verify_iff H h2 hp _ _).2 ⟨h1, h3, h4, fun _ => rfl⟩

example : verify (fun x => x) 2 (run (fun x => x) (init "g") exEvs) =
    .verified 3 (run (fun x => x) (init "g") exEvs).head := c39_honest_verifies _ _ _ (by decide)

/-! ### C42: the sealed text -/

theorem first_sep {c : Char} : ∀ {a a' x x' : List Char}, c ∉ a → c ∉ a' → a ++ c :: x = a' ++ c :: x' → a = a' ∧ x = x'
  | [], [], _, _, _, _, h => by simpa using h
  | [], b :: bs, _, _, _, h2, h => by
    simp only [List.nil_append, List.cons_append, List.cons.injEq] at h
    exact absurd (h.1 ▸ List.mem_cons_self ..) h2
  | a :: as, [], _, _, h1, _, h => by
    simp only [List.nil_append, List.cons_append, List.cons.injEq] at h
    exact absurd (h.1 ▸ List.mem_cons_self ..) h1
  | a :: as, b :: bs, _, _, h1, h2, h => by
    simp only [List.cons_append, List.cons.injEq] at h
    have := first_sep (fun hm => h1 (List.mem_cons_of_mem _ hm)) (fun hm => h2 (List.mem_cons_of_mem _ hm)) h.2
    exact ⟨by rw [h.1, this.1], this.2⟩

theorem last_sep {c : Char} {a a' x x' : List Char} (h1 : c ∉ x) (h2 : c ∉ x') (h : a ++ c :: x = a' ++ c :: x') :
    a = a' ∧ x = x' := by
  have hr := congrArg List.reverse h
  simp only [List.reverse_append, List.reverse_cons, List.append_assoc, List.cons_append, List.nil_append] at hr
  have := first_sep (by simpa using h1) (by simpa using h2) hr
  exact ⟨List.reverse_inj.1 this.2, List.reverse_inj.1 this.1⟩

/-- A text without the separator. -/
def Plain (s : String) : Prop := '|' ∉ s.toList

/-- The part of the sealed text that comes from the row. -/
def body (r : ChainRow) : String := "|".intercalate r.fields

theorem canonical_split (prev : String) (r : ChainRow) : (canonical prev r).toList = prev.toList ++ '|' :: (body r).toList := by
  unfold canonical body
  rw [String.toList_intercalate, String.toList_intercalate]
  simp [ChainRow.fields, List.intercalate, List.intersperse]

theorem body_split (r : ChainRow) : (body r).toList = r.transactionID.toList ++ '|' :: (r.source.toList ++ '|' ::
    (r.destination.toList ++ '|' :: (r.amount.toList ++ '|' :: (r.preciseAmount.toList ++ '|' :: (r.currency.toList ++ '|' ::
    (r.status.toList ++ '|' :: (r.reference.toList ++ '|' :: r.created.toList))))))) := by
  unfold body
  rw [String.toList_intercalate]
  simp [ChainRow.fields, List.intercalate, List.intersperse]

theorem canonical_inj {p p' : String} {r r' : ChainRow} (h1 : Plain p) (h2 : Plain p') (h : canonical p r = canonical p' r') :
    p = p' ∧ body r = body r' := by
  have := congrArg String.toList h
  rw [canonical_split, canonical_split] at this
  have := first_sep h1 h2 this
  exact ⟨String.toList_inj.1 this.1, String.toList_inj.1 this.2⟩

/-- Every field but the reference is free of the separator. -/
def PlainRow (r : ChainRow) : Prop :=
  Plain r.transactionID ∧ Plain r.source ∧ Plain r.destination ∧ Plain r.amount ∧ Plain r.preciseAmount ∧
    Plain r.currency ∧ Plain r.status ∧ Plain r.created

theorem body_inj {r r' : ChainRow} (h : PlainRow r) (h' : PlainRow r') (e : body r = body r') : r = r' := by
  obtain ⟨a1, a2, a3, a4, a5, a6, a7, a9⟩ := h
  obtain ⟨b1, b2, b3, b4, b5, b6, b7, b9⟩ := h'
  have e := congrArg String.toList e
  rw [body_split, body_split] at e
  obtain ⟨e1, e⟩ := first_sep a1 b1 e
  obtain ⟨e2, e⟩ := first_sep a2 b2 e
  obtain ⟨e3, e⟩ := first_sep a3 b3 e
  obtain ⟨e4, e⟩ := first_sep a4 b4 e
  obtain ⟨e5, e⟩ := first_sep a5 b5 e
  obtain ⟨e6, e⟩ := first_sep a6 b6 e
  obtain ⟨e7, e⟩ := first_sep a7 b7 e
  obtain ⟨e8, e9⟩ := last_sep a9 b9 e
  cases r; cases r'
  simp only [String.toList_inj] at *
  simp [*]

/-- **C42** in full: different sealed fields, different sealed texts, for both hashes. -/
def C42Full : Prop :=
  (∀ p r r', r ≠ r' → canonical p r ≠ canonical p r') ∧
  ∀ a a' b b' c c' d d' e e' : String, (a, b, c, d, e) ≠ (a', b', c', d', e') →
    txnHashInput a b c d e ≠ txnHashInput a' b' c' d' e'

/-- Currency `USD|APPLIED` with reference `x`, and currency `USD` with reference `APPLIED|x`. -/
def ambA : ChainRow := ⟨"t1", "bln_a", "bln_b", "1", "100", "USD|APPLIED", "APPLIED", "x", "2026-01-01T00:00:00Z"⟩
def ambB : ChainRow := ⟨"t1", "bln_a", "bln_b", "1", "100", "USD", "APPLIED", "APPLIED|x", "2026-01-01T00:00:00Z"⟩

theorem amb_same (p : String) : ambA ≠ ambB ∧ canonical p ambA = canonical p ambB := by
  have hb : body ambA = body ambB := by decide +kernel
  refine ⟨by decide, String.toList_inj.1 ?_⟩
  rw [canonical_split, canonical_split, hb]

/-- **C42** (violated) The chain text does not escape its separator: two transactions with
different currency and reference have the same text on top of any previous hash. -/
theorem c42_chain_text_fails : ∀ p, ∃ r r', r ≠ r' ∧ r.currency ≠ r'.currency ∧ canonical p r = canonical p r' :=
  fun p => ⟨ambA, ambB, (amb_same p).1, by decide, (amb_same p).2⟩

/-- **C42** (violated) The per-row hash joins its fields with nothing between them: amount 1
with reference `0x` and amount 10 with reference `x` have the same text. -/
theorem c42_row_text_fails : ∃ a b a' b' c d e : String, a ≠ a' ∧ b ≠ b' ∧ txnHashInput a b c d e = txnHashInput a' b' c d e :=
  ⟨"1", "0x", "10", "x", "USD", "s", "d", by decide +kernel⟩

theorem c42_full_fails : ¬ C42Full := fun h => h.1 "" ambA ambB (amb_same "").1 (amb_same "").2

/-- **C42, partial.** Texts of rows in which only the reference may contain `|`, on top of
separator-free hashes, determine the previous hash and every field. Missing: rows with `|` in
the currency or another field (`c42_chain_text_fails`). -/
theorem c42_chain_text_partial {p p' : String} {r r' : ChainRow} (hp : Plain p) (hp' : Plain p')
    (h : PlainRow r) (h' : PlainRow r') (e : canonical p r = canonical p' r') : p = p' ∧ r = r' := by
  obtain ⟨e1, e2⟩ := canonical_inj hp hp' e
  exact ⟨e1, body_inj h h' e2⟩

theorem append_ne_left {a a' b : String} (h : a ≠ a') : a ++ b ≠ a' ++ b := by
  intro e
  have := congrArg String.toList e
  rw [String.toList_append, String.toList_append] at this
  exact h (String.toList_inj.1 (List.append_cancel_right this))

theorem append_ne_right {a b b' : String} (h : b ≠ b') : a ++ b ≠ a ++ b' := by
  intro e
  have := congrArg String.toList e
  rw [String.toList_append, String.toList_append] at this
  exact h (String.toList_inj.1 (List.append_cancel_left this))

/-- **C42, partial.** The per-row text changes whenever exactly one of its five fields does.
Missing: changes to two or more fields at once (`c42_row_text_fails`). -/
theorem c42_row_text_partial (a a' b b' c c' d d' e e' : String) :
    (a ≠ a' → txnHashInput a b c d e ≠ txnHashInput a' b c d e) ∧
    (b ≠ b' → txnHashInput a b c d e ≠ txnHashInput a b' c d e) ∧
    (c ≠ c' → txnHashInput a b c d e ≠ txnHashInput a b c' d e) ∧
    (d ≠ d' → txnHashInput a b c d e ≠ txnHashInput a b c d' e) ∧
    (e ≠ e' → txnHashInput a b c d e ≠ txnHashInput a b c d e') := by
  unfold txnHashInput
  refine ⟨fun h => ?_, fun h => ?_, fun h => ?_, fun h => ?_, fun h => ?_⟩
  · exact append_ne_left (append_ne_left (append_ne_left (append_ne_left h)))
  · exact append_ne_left (append_ne_left (append_ne_left (append_ne_right h)))
  · exact append_ne_left (append_ne_left (append_ne_right h))
  · exact append_ne_left (append_ne_right h)
  · exact append_ne_right h

/-- A row whose reference contains the separator is covered. -/
example : PlainRow ambB ∧ ¬ Plain ambB.reference ∧ ¬ PlainRow ambA ∧
    canonical "g" ambB ≠ canonical "g" (exRow "t1" "r1") := by
  refine ⟨⟨?_, ?_, ?_, ?_, ?_, ?_, ?_, ?_⟩, ?_, ?_, ?_⟩
  all_goals first | (unfold Plain; decide +kernel) | (intro h; exact absurd h.2.2.2.2.2.1 (by unfold Plain; decide +kernel)) | decide +kernel

/-! ### C40: tampering -/

/-- Two hashed texts, one from each chain, that differ and have the same hash. -/
def Clash (H : String → String) (a b : List Row) : Prop :=
  ∃ x ∈ a, ∃ y ∈ b, canonical x.prev x.row ≠ canonical y.prev y.row ∧
    H (canonical x.prev x.row) = H (canonical y.prev y.row)

theorem linked_determined {H : String → String} (hH : ∀ x, Plain (H x)) : ∀ (a b : List Row) (h1 h2 : String) (n m : Nat),
    Plain h1 → Plain h2 → Linked H h1 n a → Linked H h2 m b → a.length = b.length → lastHash h1 a = lastHash h2 b →
    Clash H a b ∨ (h1 = h2 ∧ a.map (fun r => body r.row) = b.map (fun r => body r.row))
  | [], [], _, _, _, _, _, _, _, _, _, e => .inr ⟨e, rfl⟩
  | [], _ :: _, _, _, _, _, _, _, _, _, h, _ => by simp at h
  | _ :: _, [], _, _, _, _, _, _, _, _, h, _ => by simp at h
  | x :: xs, y :: ys, h1, h2, n, m, p1, p2, l1, l2, hlen, e => by
    obtain ⟨_, a2, a3, a4⟩ := l1
    obtain ⟨_, b2, b3, b4⟩ := l2
    have px : Plain x.hash := by rw [a3]; exact hH _
    have py : Plain y.hash := by rw [b3]; exact hH _
    rcases linked_determined hH xs ys x.hash y.hash _ _ px py a4 b4 (by simpa using hlen) e with
      ⟨u, hu, v, hv, hc⟩ | ⟨ehash, ebody⟩
    · exact .inl ⟨u, List.mem_cons_of_mem _ hu, v, List.mem_cons_of_mem _ hv, hc⟩
    · by_cases hc : canonical x.prev x.row = canonical y.prev y.row
      · right
        rw [a2, b2] at hc
        obtain ⟨e1, e2⟩ := canonical_inj p1 p2 hc
        exact ⟨e1, by rw [List.map_cons, List.map_cons, e2, ebody]⟩
      · left
        refine ⟨x, List.mem_cons_self .., y, List.mem_cons_self .., hc, ?_⟩
        rw [a3, b3] at ehash
        rw [a2, b2]; exact ehash

/-- The sealed contents in chain order. -/
def contents (rows : List Row) : List ChainRow := (scan rows).map Row.row

/-- **C40 in full**, for a hash without collisions: a table that was sealed honestly and then
changed so that its sealed contents differ is reported, the `chain_state` row being left alone. -/
def C40Full (H : String → String) : Prop :=
  ∀ (genesis : String) (evs : List Ev) (rows' : List Row) (page : Nat), 0 < page → UniqueSeqs rows' →
    contents rows' ≠ contents (run H (init genesis) evs).rows →
    ∀ n h, verify H page { run H (init genesis) evs with rows := rows' } ≠ .verified n h

/-- **C40, partial.** Any change that leaves as many sealed rows as the recorded length is
reported, unless two different hashed texts are exhibited with the same hash, or the sealed
contents read the same once joined with `|`. `rows'` is an arbitrary table: fields altered,
rows swapped, replaced or renumbered, hashes recomputed. Missing: a different number of sealed
rows (`c40_other_length_fails`) and rows that only differ in where `|` falls
(`c40_ambiguous_fails`). -/
theorem c40_detected_partial {H : String → String} (hH : ∀ x, Plain (H x)) {genesis : String} (hg : Plain genesis)
    (evs : List Ev) (rows' : List Row) {page : Nat} (hp : 0 < page) (hu : UniqueSeqs rows')
    (hlen : (scan rows').length = (run H (init genesis) evs).lastSeq)
    (hdiff : (contents rows').map body ≠ (contents (run H (init genesis) evs).rows).map body)
    (hclash : ¬ Clash H (scan rows') (scan (run H (init genesis) evs).rows)) :
    ∃ n, verify H page { run H (init genesis) evs with rows := rows' } = .broken n := by
  cases hv : verify H page { run H (init genesis) evs with rows := rows' } with
  | broken n => exact ⟨n, rfl⟩
  | verified n h =>
    exfalso
    have hw := wellChained_scan (c39_contiguous H genesis evs)
    have hgen : (run H (init genesis) evs).genesis = genesis := by
      have : ∀ (l : List Ev) (s : State), (run H s l).genesis = s.genesis := by
        intro l
        induction l with
        | nil => intro s; rfl
        | cons e es ih =>
          intro s
          show (run H (step H s e) es).genesis = _
          rw [ih]
          cases e <;> simp only [step]
          · split <;> rfl
          · rfl
      rw [this]; rfl
    generalize run H (init genesis) evs = s at *
    obtain ⟨w1, w2, w3, w4, w5⟩ := hw
    obtain ⟨v1, v2, v3, v4⟩ := (verify_iff H (s := { s with rows := rows' }) hu hp n h).1 hv
    simp only at v1 v2 v3 v4
    have hh := v4 (v2.trans hlen)
    rcases linked_determined hH (scan rows') (scan s.rows) s.genesis s.genesis 0 0 (hgen ▸ hg) (hgen ▸ hg) v1 w1
      (hlen.trans w3) (by rw [← v3, hh, w4]) with hc | ⟨_, hb⟩
    · exact hclash hc
    · apply hdiff
      unfold contents
      rw [List.map_map, List.map_map]
      exact hb

/-- **C40, partial.** Spelled out for rows in which only the reference may contain `|`: if the
number of sealed rows is right and the verdict is good, the sealed contents are the original
ones, in the original order, or a collision is at hand. -/
theorem c40_contents_partial {H : String → String} (hH : ∀ x, Plain (H x)) {genesis : String} (hg : Plain genesis)
    (evs : List Ev) (rows' : List Row) {page : Nat} (hp : 0 < page) (hu : UniqueSeqs rows')
    (hlen : (scan rows').length = (run H (init genesis) evs).lastSeq)
    (hr : ∀ r ∈ contents rows', PlainRow r) (hr' : ∀ r ∈ contents (run H (init genesis) evs).rows, PlainRow r)
    (hclash : ¬ Clash H (scan rows') (scan (run H (init genesis) evs).rows)) {n h}
    (hv : verify H page { run H (init genesis) evs with rows := rows' } = .verified n h) :
    contents rows' = contents (run H (init genesis) evs).rows := by
  apply Decidable.byContradiction
  intro hne
  have hd : (contents rows').map body ≠ (contents (run H (init genesis) evs).rows).map body := by
    have key : ∀ (a b : List ChainRow), (∀ r ∈ a, PlainRow r) → (∀ r ∈ b, PlainRow r) → a.map body = b.map body → a = b := by
      intro a
      induction a with
      | nil => intro b _ _ h; cases b <;> simp_all
      | cons x xs ih =>
        intro b ha hb h
        cases b with
        | nil => simp at h
        | cons y ys =>
          simp only [List.map_cons, List.cons.injEq] at h
          rw [body_inj (ha x (List.mem_cons_self ..)) (hb y (List.mem_cons_self ..)) h.1,
            ih ys (fun r hr => ha r (List.mem_cons_of_mem _ hr)) (fun r hr => hb r (List.mem_cons_of_mem _ hr)) h.2]
    exact fun e => hne (key _ _ hr hr' e)
  obtain ⟨m, hm⟩ := c40_detected_partial hH hg evs rows' hp hu hlen hd hclash
  rw [hm] at hv; cases hv

/-- A stand-in for a hexadecimal hash: never contains the separator. -/
def exH (x : String) : String := String.ofList (x.toList.map (fun c => if c = '|' then '/' else c))

theorem exH_plain (x : String) : Plain (exH x) := by
  unfold Plain exH
  rw [String.toList_ofList, List.mem_map]
  rintro ⟨c, _, hc⟩
  split at hc
  · exact absurd hc (by decide)
  · rename_i h; exact h hc

/-- The amount of the second of three sealed rows is altered. -/
def exTampered : List Row :=
  (run exH (init "g") exEvs).rows.map (fun r => if r.key = 2 then { r with row := { r.row with preciseAmount := "900" } } else r)

example : Plain "g" ∧ UniqueSeqs exTampered ∧ (scan exTampered).length = (run exH (init "g") exEvs).lastSeq ∧
    (contents exTampered).map body ≠ (contents (run exH (init "g") exEvs).rows).map body ∧
    ¬ Clash exH (scan exTampered) (scan (run exH (init "g") exEvs).rows) ∧
    verify exH 1000 { run exH (init "g") exEvs with rows := exTampered } = .broken 2 := by
  unfold Plain UniqueSeqs Clash
  decide +kernel

/-- **C40, partial.** A hole in the numbers is reported whatever the hash function does: if
some row numbered above 1 has no predecessor in the table, the verdict is bad. -/
theorem c40_removed_partial (H : String → String) (s : State) {page : Nat} (hp : 0 < page) (hu : UniqueSeqs s.rows)
    {k : Nat} (hk : ∃ r ∈ s.rows, r.seq = some (k + 1)) (hgap : ∀ r ∈ s.rows, r.seq ≠ some k) (hk0 : 0 < k) :
    ∃ n, verify H page s = .broken n := by
  cases hv : verify H page s with
  | broken n => exact ⟨n, rfl⟩
  | verified n h =>
    exfalso
    obtain ⟨v1, -, -, -⟩ := (verify_iff H hu hp n h).1 hv
    obtain ⟨r, hr, hrs⟩ := hk
    have hmem : ∀ x : Row, x ∈ scan s.rows ↔ x ∈ s.rows ∧ x.seq.isSome = true ∧ 0 < x.seq.getD 0 := by
      intro x
      unfold scan chained
      rw [List.mem_filter, (sortBy_perm _ _).mem_iff, List.mem_filter]
      simp [and_assoc]
    have hr' : r ∈ scan s.rows := (hmem r).2 ⟨hr, by simp [hrs], by simp [hrs]⟩
    have pred : ∀ (l : List Row) (head n), Linked H head n l → ∀ x ∈ l, n + 1 < x.seq.getD 0 →
        ∃ y ∈ l, y.seq = some (x.seq.getD 0 - 1) := by
      intro l
      induction l with
      | nil => intro _ _ _ x hx; simp at hx
      | cons z zs ih =>
        intro head n hl x hx hlt
        rcases List.mem_cons.1 hx with rfl | hx
        · rw [hl.1] at hlt; simp at hlt
        · by_cases h2 : n + 1 + 1 < x.seq.getD 0
          · obtain ⟨y, hy, e⟩ := ih _ _ hl.2.2.2 x hx h2
            exact ⟨y, List.mem_cons_of_mem _ hy, e⟩
          · refine ⟨z, List.mem_cons_self .., ?_⟩
            rw [hl.1]; congr 1; omega
    obtain ⟨y, hy, e⟩ := pred _ _ _ v1 r hr' (by rw [hrs]; simp; omega)
    rw [hrs] at e
    exact hgap y ((hmem y).1 hy).1 (by simpa using e)

/-- **C40, C41** (violated) A table with any other number of sealed rows passes as soon as it
is consistent in itself: the recorded head is not looked at. Covers deleting from the end,
and deleting or inserting anywhere when the later links are recomputed. -/
theorem c40_other_length_fails (H : String → String) (s : State) (rows' chain : List Row) {page : Nat} (hp : 0 < page)
    (hperm : chain.Perm (rows'.filter (fun r => r.seq.isSome))) (hl : Linked H s.genesis 0 chain)
    (hlen : chain.length ≠ s.lastSeq) :
    verify H page { s with rows := rows' } = .verified chain.length (lastHash s.genesis chain) := by
  obtain ⟨e, hu⟩ := scan_of_linked H hperm hl
  refine (verify_iff H (s := { s with rows := rows' }) hu hp _ _).2 ?_
  simp only [e]
  exact ⟨hl, trivial, trivial, fun h => absurd h hlen⟩

/-- **C40** (violated) For every hash function: currency and reference of a sealed row are
altered, its hashes left alone, and the verdict is good. -/
theorem c40_ambiguous_fails (H : String → String) (genesis : String) {page : Nat} (hp : 0 < page) :
    ∃ evs rows', contents rows' ≠ contents (run H (init genesis) evs).rows ∧ UniqueSeqs rows' ∧
      (scan rows').length = (run H (init genesis) evs).lastSeq ∧
      ∃ n h, verify H page { run H (init genesis) evs with rows := rows' } = .verified n h := by
  refine ⟨[.insert 1 0 ambA, .round 1 1],
    [{ key := 1, createdAt := 0, row := ambB, seq := some 1, prev := genesis, hash := computeHash H genesis ambA }], ?_, ?_, ?_, 1,
    computeHash H genesis ambA, ?_⟩
  · intro h
    exact absurd (congrArg (List.map (fun r => r.currency)) h) (by simp [contents, scan, chained, run, step, init, sealBatch, pending, sortBy, insertBy, write, link, ambA, ambB])
  · simp [UniqueSeqs]
  · simp [scan, chained, run, step, init, sealBatch, pending, sortBy, insertBy, write, link]
  · have hu : UniqueSeqs [({ key := 1, createdAt := 0, row := ambB, seq := some 1, prev := genesis, hash := computeHash H genesis ambA } : Row)] := by
      simp [UniqueSeqs]
    refine (verify_iff H (s := { run H (init genesis) [.insert 1 0 ambA, .round 1 1] with rows := _ }) hu hp _ _).2 ?_
    have hsame : computeHash H genesis ambA = computeHash H genesis ambB := congrArg H (amb_same genesis).2
    refine ⟨?_, ?_, ?_, fun _ => ?_⟩
    · simp only [scan, chained, List.filter_cons]
      exact ⟨rfl, rfl, hsame, trivial⟩
    · rfl
    · rfl
    · rfl

theorem c40_full_fails (H : String → String) : ¬ C40Full H := by
  intro h
  obtain ⟨evs, rows', h1, h2, _, n, hd, h3⟩ := c40_ambiguous_fails H "g" (page := 1) (by decide)
  exact h "g" evs rows' 1 (by decide) h2 h1 n hd h3

/-! ### C41: the end of the chain -/

/-- The table after the rows numbered above `n` are deleted. -/
def truncate (n : Nat) (rows : List Row) : List Row := rows.filter (fun r => r.seq.getD 0 ≤ n)

/-- **C41 in full.** -/
def C41Full (H : String → String) : Prop :=
  ∀ (genesis : String) (evs : List Ev) (n page : Nat), 0 < page → n < (run H (init genesis) evs).lastSeq →
    ∃ k, verify H page { run H (init genesis) evs with rows := truncate n (run H (init genesis) evs).rows } = .broken k

theorem linked_take (H) : ∀ (l : List Row) (head n k), Linked H head n l → Linked H head n (l.take k)
  | [], _, _, _, _ => by simp [Linked]
  | _ :: _, _, _, 0, _ => trivial
  | _ :: xs, _, _, _ + 1, h => ⟨h.1, h.2.1, h.2.2.1, linked_take H xs _ _ _ h.2.2.2⟩

theorem linked_filter_le (H) : ∀ (l : List Row) (head n k), Linked H head n l →
    l.filter (fun r => r.seq.getD 0 ≤ n + k) = l.take k
  | [], _, _, _, _ => by simp
  | x :: xs, _, n, 0, h => by
    rw [List.take_zero, List.filter_eq_nil_iff]
    intro r hr
    have := linked_seq H _ _ _ r h hr
    simp; omega
  | x :: xs, _, n, k + 1, h => by
    have hx : x.seq.getD 0 ≤ n + (k + 1) := by rw [h.1]; simp
    have := linked_filter_le H xs _ (n + 1) k h.2.2.2
    rw [List.take_succ_cons, List.filter_cons]
    simp only [hx, decide_true, if_true]
    rw [← this, show n + 1 + k = n + (k + 1) by omega]

/-- **C41** (violated, always) Deleting any number of the last sealed transactions is never
reported: whatever the history and the hash function, the shortened chain is verified. -/
theorem c41_truncation_never_reported (H : String → String) (genesis : String) (evs : List Ev) (n : Nat) {page : Nat}
    (hp : 0 < page) (hn : n < (run H (init genesis) evs).lastSeq) :
    ∃ h, verify H page { run H (init genesis) evs with rows := truncate n (run H (init genesis) evs).rows } = .verified n h := by
  obtain ⟨w1, w2, w3, w4, w5⟩ := wellChained_scan (c39_contiguous H genesis evs)
  generalize run H (init genesis) evs = s at *
  have hlen : ((scan s.rows).take n).length = n := by rw [List.length_take]; omega
  refine ⟨lastHash s.genesis ((scan s.rows).take n), ?_⟩
  conv => rhs; rw [← hlen]
  have := c40_other_length_fails H s (truncate n s.rows) ((scan s.rows).take n) hp ?_ (linked_take H _ _ _ _ w1) (by omega)
  · rw [this, hlen]
  · unfold truncate
    have h1 := w5.filter (fun r => decide (r.seq.getD 0 ≤ n))
    rw [show n = 0 + n by omega, linked_filter_le H _ _ _ n w1] at h1
    refine h1.trans (List.Perm.of_eq ?_)
    rw [List.filter_filter, List.filter_filter, Nat.zero_add]
    apply List.filter_congr
    intro r _
    exact Bool.and_comm _ _

theorem c41_full_fails (H : String → String) : ¬ C41Full H := by
  intro h
  have hn : 0 < (run H (init "g") exEvs).lastSeq := by
    simp [exEvs, run, step, init, sealBatch, pending, sortBy, insertBy, write, link]
  obtain ⟨k, hk⟩ := h "g" exEvs 0 1 (by decide) hn
  obtain ⟨hd, hv⟩ := c41_truncation_never_reported H "g" exEvs 0 (page := 1) (by decide) hn
  rw [hk] at hv; cases hv

/-- **C41, partial.** A good verdict reports how many transactions it checked, so a caller who
compares that with the recorded length sees the truncation. Missing: the endpoint itself does
not compare (`c41_truncation_never_reported`). -/
theorem c41_reported_length_partial (H : String → String) (s : State) (rows' : List Row) {page : Nat} (hp : 0 < page)
    (hu : UniqueSeqs rows') {n : Nat} {h : String}
    (hv : verify H page { s with rows := rows' } = .verified n h) :
    n = (rows'.filter (fun r => 0 < r.seq.getD 0)).length := by
  obtain ⟨_, v2, _⟩ := (verify_iff H (s := { s with rows := rows' }) hu hp n h).1 hv
  have e : (scan rows').length = (rows'.filter (fun r => 0 < r.seq.getD 0)).length := by
    have := ((sortBy_perm (fun r : Row => r.seq.getD 0) (rows'.filter (fun r => r.seq.isSome))).filter
      (fun r => decide (0 < r.seq.getD 0))).length_eq
    unfold scan chained
    rw [this, List.filter_filter]
    congr 1
    apply List.filter_congr
    intro r _
    cases r.seq <;> simp
  have v2' : n = (scan rows').length := v2
  rw [v2', e]

example : (∃ n, verify (fun x => x) 2 { run (fun x => x) (init "g") exEvs with
      rows := (run (fun x => x) (init "g") exEvs).rows.filter (fun r => r.key != 2) } = .broken n) ∧
    (∃ h, verify (fun x => x) 2 { run (fun x => x) (init "g") exEvs with
      rows := truncate 1 (run (fun x => x) (init "g") exEvs).rows } = .verified 1 h) := by
  refine ⟨⟨3, by decide +kernel⟩, ⟨_, rfl⟩⟩

/-! ### C43: stored transactions do not change -/

/-- The columns a client relies on. -/
def committed (r : Cols) : List (Option String) × Nat × Option Nat :=
  ([some r.transactionID, r.source, r.destination, r.description, r.reference, r.amount, r.preciseAmount, r.precision,
    r.currency, r.status, r.hash], r.createdAt, r.scheduledFor)

theorem untouched {new old : Cols} (h : touchesProtected new old = false) : committed new = committed old := by
  simp only [touchesProtected, Bool.or_eq_false_iff, bne_eq_false_iff_eq] at h
  simp [committed, h]

/-- **C43** No sequence of statements changes a committed column of a stored transaction or
drops it. -/
theorem c43_immutable (table : List Cols) (ss : List Stmt) (r : Cols) (hr : r ∈ table) :
    ∃ r' ∈ execs table ss, committed r' = committed r := by
  induction ss generalizing table r with
  | nil => exact ⟨r, hr, rfl⟩
  | cons s ss ih =>
    have h1 : ∃ r1 ∈ exec table s, committed r1 = committed r := by
      cases s with
      | insert x =>
        simp only [exec]
        split
        · exact ⟨r, hr, rfl⟩
        · exact ⟨r, List.mem_append_left _ hr, rfl⟩
      | update sel f =>
        unfold exec update; simp only
        split
        · exact ⟨r, hr, rfl⟩
        · rename_i hany
          refine ⟨_, List.mem_map_of_mem hr, ?_⟩
          split
          · rename_i hsel
            apply untouched
            rw [Bool.not_eq_true, List.any_eq_false] at hany
            have := hany r hr
            simpa [hsel] using this
          · rfl
    obtain ⟨r1, h2, h3⟩ := h1
    obtain ⟨r2, h4, h5⟩ := ih _ r1 h2
    exact ⟨r2, h4, h5.trans h3⟩

/-- **C43** An update is all or nothing: if it would change a committed column of one selected
row, no row changes. -/
theorem c43_refused_whole (sel : Cols → Bool) (f : Cols → Cols) (table : List Cols) (r : Cols) (hr : r ∈ table)
    (hs : sel r = true) (hc : committed (f r) ≠ committed r) : exec table (.update sel f) = table := by
  unfold exec update; simp only
  rw [if_pos]
  rw [List.any_eq_true]
  refine ⟨r, hr, ?_⟩
  rw [hs, Bool.true_and]
  cases h : touchesProtected (f r) r with
  | true => rfl
  | false => exact absurd (untouched h) hc

/-- **C43** A metadata update changes the metadata of the transaction and of its children, and
nothing else anywhere. -/
theorem c43_metadata_only (merge : Option String → Option String) (id : String) (table : List Cols) :
    exec table (metadataStmt merge id) =
      table.map (fun r => if r.transactionID = id ∨ r.parent = some id then { r with metaData := merge r.metaData } else r) := by
  unfold exec metadataStmt update; simp only
  rw [if_neg]
  · apply List.map_congr_left
    intro r _
    simp
  · rw [Bool.not_eq_true, List.any_eq_false]
    intro r _
    simp [touchesProtected]

/-- A stored transaction; a status change is refused, a metadata change is not. -/
def exCols : Cols := ⟨"t1", some "a", some "b", none, some "r", some "1", some "100", some "100", some "USD", some "APPLIED",
  some "h", 0, none, none, none, none, none, none, none⟩

example : exec [exCols] (.update (fun _ => true) (fun r => { r with status := some "VOID" })) = [exCols] ∧
    exec [exCols] (metadataStmt (fun _ => some "{}") "t1") = [{ exCols with metaData := some "{}" }] := by decide +kernel

/-- **C43** (a gap) The effective date and the parent are neither protected nor sealed: an
update can change both, and the chain text stays the same. -/
theorem c43_unprotected_fails : ∃ (r : Cols) (f : Cols → Cols), (f r).effectiveDate ≠ r.effectiveDate ∧
    (f r).parent ≠ r.parent ∧ exec [r] (.update (fun _ => true) f) = [f r] :=
  ⟨exCols, fun r => { r with effectiveDate := some 7, parent := some "t0" }, by decide +kernel⟩

end Blnk.Chain
