import Verif.Model.Migrations
/-
C216: the database can be upgraded, whatever happened to earlier upgrades.
-/
namespace Blnk.Migr

/-! ### Specification -/

/-- What keeps the books safe: transactions and snapshots cannot be changed, changes are written down, references are
unique, an indicator names one balance in a currency, a transaction has one entry waiting for its lineage and the
chain has no number twice. -/
def guards : List Obj :=
  [.preventTransactionTrigger, .nullSafe, .preventSnapshotTrigger, .logTransactionTrigger, .transactionJournal,
   .ixReferenceUnique, .uniqueIndicatorCurrency, .ixOutboxTransaction, .ixChainSeq]

/-- C216: after any history of commands that were finished, interrupted or failed, `migrate up` succeeds and the guards
are in place, and `migrate down` succeeds and no table is left. -/
def C216Full : Prop := ∀ es : List Ev,
  ((migrateUp 40 (runAll empty es)).1 = true ∧ ∀ o ∈ guards, (migrateUp 40 (runAll empty es)).2.db.has o = true) ∧
  ((migrateDown 40 (runAll empty es)).1 = true ∧ ∀ o, o.isTable = true → (migrateDown 40 (runAll empty es)).2.db.has o = false)

/-! ### Reachable databases -/

/-- The databases that histories lead to. -/
def reach : List St :=
  [⟨0, 0⟩, ⟨0, 687194767360⟩, ⟨0, 687194767616⟩, ⟨0, 590295811045900484864⟩,
   ⟨1, 4035225266124750911⟩, ⟨1, 1729382256911056959⟩, ⟨1, 1730438475268489279⟩, ⟨1, 4035225953319518271⟩, ⟨1, 1729382944105824319⟩, ⟨1, 1730438475268489535⟩, ⟨1, 4035225953319518527⟩, ⟨1, 1729382944105824575⟩, ⟨1, 592026248833974206783⟩, ⟨1, 594331036312025235775⟩, ⟨1, 591449788081670783295⟩, ⟨1, 592025193302811541823⟩,
   ⟨2, 4035225266125799487⟩, ⟨2, 1729382256912105535⟩, ⟨2, 1730438475269537855⟩, ⟨2, 4035225953320566847⟩, ⟨2, 1729382944106872895⟩, ⟨2, 1730438475269538111⟩, ⟨2, 4035225953320567103⟩, ⟨2, 1729382944106873151⟩, ⟨2, 592026248833975255359⟩, ⟨2, 594331036312026284351⟩, ⟨2, 591449788081671831871⟩, ⟨2, 592025193302812590399⟩,
   ⟨3, 4035225266140479551⟩, ⟨3, 1729382256926785599⟩, ⟨3, 1730438475284217919⟩, ⟨3, 4035225953335246911⟩, ⟨3, 1729382944121552959⟩, ⟨3, 1730438475284218175⟩, ⟨3, 4035225953335247167⟩, ⟨3, 1729382944121553215⟩, ⟨3, 592026248833989935423⟩, ⟨3, 591449788081686511935⟩, ⟨3, 594331036312040964415⟩, ⟨3, 592025193302827270463⟩,
   ⟨4, 1729382257044226111⟩, ⟨4, 1730438475401658431⟩, ⟨4, 1729382944238993471⟩, ⟨4, 1730438475401658687⟩, ⟨4, 1729382944238993727⟩, ⟨4, 592026248834107375935⟩, ⟨4, 591449788081803952447⟩, ⟨4, 592025193302944710975⟩,
   ⟨5, 1730438475401658431⟩, ⟨5, 1730438475401658687⟩, ⟨5, 592026248834107375935⟩, ⟨5, 591449788081803952447⟩,
   ⟨6, 1730438475401658431⟩, ⟨6, 1730438475401658687⟩, ⟨6, 592026248834107375935⟩, ⟨6, 591449788081803952447⟩,
   ⟨7, 1730438475535876159⟩, ⟨7, 1730438475535876415⟩, ⟨7, 592026248834241593663⟩, ⟨7, 591449788081938170175⟩,
   ⟨8, 1730438476341182527⟩, ⟨8, 1730438476341182783⟩, ⟨8, 592026248835046900031⟩, ⟨8, 591449788082743476543⟩,
   ⟨9, 1730438476341182527⟩, ⟨9, 1730438476341182783⟩, ⟨9, 592026248835046900031⟩, ⟨9, 591449788082743476543⟩,
   ⟨10, 34012240605332901887⟩, ⟨10, 624308050964038619135⟩, ⟨10, 623731590211735195647⟩,
   ⟨11, 34012240605332901887⟩, ⟨11, 624308050964038619135⟩, ⟨11, 623731590211735195647⟩,
   ⟨12, 34012240605332901887⟩, ⟨12, 624308050964038619135⟩, ⟨12, 623731590211735195647⟩,
   ⟨13, 292266657637266628607⟩, ⟨13, 882562467995972345855⟩, ⟨13, 881986007243668922367⟩,
   ⟨14, 292266658736778256383⟩, ⟨14, 292266657637266628607⟩, ⟨14, 882562467995972345855⟩, ⟨14, 882562469095483973631⟩, ⟨14, 881986007243668922367⟩, ⟨14, 881986008343180550143⟩,
   ⟨15, 292266658736778256383⟩, ⟨15, 292266657637266628607⟩, ⟨15, 882562467995972345855⟩, ⟨15, 882562469095483973631⟩, ⟨15, 881986007243668922367⟩, ⟨15, 881986008343180550143⟩,
   ⟨16, 292266658736778256383⟩, ⟨16, 882562469095483973631⟩, ⟨16, 881986008343180550143⟩,
   ⟨17, 292266658737851998207⟩, ⟨17, 882562469096557715455⟩, ⟨17, 881986008344254291967⟩,
   ⟨18, 292266658737852006399⟩, ⟨18, 882562469096557723647⟩, ⟨18, 881986008344254300159⟩,
   ⟨19, 292266658737852006399⟩, ⟨19, 882562469096557723647⟩, ⟨19, 881986008344254300159⟩,
   ⟨20, 292267786836782104575⟩, ⟨20, 292266658737852006399⟩, ⟨20, 882562469096557723647⟩, ⟨20, 882563597195487821823⟩, ⟨20, 881986008344254300159⟩, ⟨20, 881987136443184398335⟩,
   ⟨21, 292267786836782104575⟩, ⟨21, 292266658737852006399⟩, ⟨21, 882562469096557723647⟩, ⟨21, 882563597195487821823⟩, ⟨21, 881986008344254300159⟩, ⟨21, 881987136443184398335⟩,
   ⟨22, 292270047432688812031⟩, ⟨22, 292268919333758713855⟩, ⟨22, 882564729692464431103⟩, ⟨22, 881988268940161007615⟩, ⟨22, 882565857791394529279⟩, ⟨22, 881989397039091105791⟩,
   ⟨23, 292274568624502243327⟩, ⟨23, 292273440525572145151⟩, ⟨23, 882569250884277862399⟩, ⟨23, 881992790131974438911⟩, ⟨23, 882570378983207960575⟩, ⟨23, 881993918230904537087⟩,
   ⟨24, 292283611008129073151⟩, ⟨24, 292282482909198974975⟩, ⟨24, 882578293267904692223⟩, ⟨24, 882001832515601268735⟩, ⟨24, 882579421366834790399⟩, ⟨24, 882002960614531366911⟩,
   ⟨25, 292283611008129073151⟩, ⟨25, 882579421366834790399⟩, ⟨25, 882002960614531366911⟩,
   ⟨26, 292301625406638555135⟩, ⟨26, 882597435765344272383⟩, ⟨26, 882020975013040848895⟩,
   ⟨27, 292301625406638555135⟩, ⟨27, 882597435765344272383⟩, ⟨27, 882020975013040848895⟩,
   ⟨28, 292301625406638555135⟩, ⟨28, 882597435765344272383⟩, ⟨28, 882020975013040848895⟩,
   ⟨29, 292301625406638555135⟩, ⟨29, 882597435765344272383⟩, ⟨29, 882020975013040848895⟩,
   ⟨30, 292301625413081038847⟩, ⟨30, 882597435771786756095⟩, ⟨30, 882020975019483332607⟩,
   ⟨31, 883137867727071215615⟩, ⟨31, 882561406974767792127⟩,
   ⟨32, 883137867735661150207⟩, ⟨32, 882561406983357726719⟩,
   ⟨33, 1178285772915013976063⟩, ⟨33, 1177709312162710552575⟩,
   ⟨34, 1177709312162710552575⟩,
   ⟨35, 1177709312300081610751⟩,
   ⟨36, 2358300937535798640639⟩,
   ⟨37, 2358300937535798640639⟩]

theorem reach_empty : empty ∈ reach := by decide +kernel

/-- Every event but those with a number, and those with the numbers that matter. -/
def someEvs : List Ev := [.up, .down, .upCut 0, .upCut 1, .upCut 2, .downCut 0, .downCut 1, .downCut 2]

theorem reach_some : ∀ s ∈ reach, ∀ e ∈ someEvs, (step s e).getD s ∈ reach := by decide +kernel

theorem short : ∀ m ∈ migrations, m.tx = false → m.up.length ≤ 2 ∧ m.down.length ≤ 2 := by decide +kernel

theorem next_mem {s : St} {m : Migration} (h : next s = some m) : m ∈ migrations := List.mem_of_getElem? h

theorem last_mem {s : St} {m : Migration} (h : last s = some m) : m ∈ migrations := by
  unfold last at h
  split at h
  · cases h
  · exact List.mem_of_getElem? h

theorem take_min {α : Type} (l : List α) (k : Nat) (h : l.length ≤ 2) : l.take k = l.take (min k 2) := by
  by_cases hk : k ≤ 2
  · rw [Nat.min_eq_left hk]
  · rw [Nat.min_eq_right (by omega), List.take_of_length_le (by omega), List.take_of_length_le h]

theorem upCut_min (s : St) (k : Nat) : step s (.upCut k) = step s (.upCut (min k 2)) := by
  simp only [step]
  cases h : next s with
  | none => rfl
  | some m =>
    simp only [Option.bind_some]
    cases ht : m.tx with
    | true => rfl
    | false => rw [take_min m.up k (short m (next_mem h) ht).1]

theorem downCut_min (s : St) (k : Nat) : step s (.downCut k) = step s (.downCut (min k 2)) := by
  simp only [step]
  cases h : last s with
  | none => rfl
  | some m =>
    simp only [Option.bind_some]
    cases ht : m.tx with
    | true => rfl
    | false => rw [take_min m.down k (short m (last_mem h) ht).2]

theorem reach_step {s : St} (hs : s ∈ reach) (e : Ev) : (step s e).getD s ∈ reach := by
  cases e with
  | up => exact reach_some s hs .up (by simp [someEvs])
  | down => exact reach_some s hs .down (by simp [someEvs])
  | upCut k =>
    rw [upCut_min]
    rcases (by omega : min k 2 = 0 ∨ min k 2 = 1 ∨ min k 2 = 2) with h | h | h <;> rw [h]
    · exact reach_some s hs (.upCut 0) (by simp [someEvs])
    · exact reach_some s hs (.upCut 1) (by simp [someEvs])
    · exact reach_some s hs (.upCut 2) (by simp [someEvs])
  | downCut k =>
    rw [downCut_min]
    rcases (by omega : min k 2 = 0 ∨ min k 2 = 1 ∨ min k 2 = 2) with h | h | h <;> rw [h]
    · exact reach_some s hs (.downCut 0) (by simp [someEvs])
    · exact reach_some s hs (.downCut 1) (by simp [someEvs])
    · exact reach_some s hs (.downCut 2) (by simp [someEvs])

theorem reach_all (es : List Ev) : runAll empty es ∈ reach := by
  suffices h : ∀ (es : List Ev) (s : St), s ∈ reach → runAll s es ∈ reach from h es empty reach_empty
  intro es
  induction es with
  | nil => exact fun s hs => hs
  | cons e es ih => exact fun s hs => ih _ (reach_step hs e)

/-! ### Theorems -/

/-- A database with every file recorded has what a new installation has and nothing else, whatever its history. -/
theorem c216_same (es : List Ev) (h : (runAll empty es).applied = migrations.length) : runAll empty es = (migrateUp 40 empty).2 :=
  (by decide +kernel : ∀ s ∈ reach, s.applied = migrations.length → s = (migrateUp 40 empty).2) _ (reach_all es) h

theorem c216_guards (es : List Ev) (h : (runAll empty es).applied = migrations.length) : ∀ o ∈ guards, (runAll empty es).db.has o = true :=
  (by decide +kernel : ∀ s ∈ reach, s.applied = migrations.length → ∀ o ∈ guards, s.db.has o = true) _ (reach_all es) h

/-- When `migrate up` succeeds: always, except where a way down ended among the first four files with the triggers of
the fifth still there. -/
theorem c216_up_iff (es : List Ev) : (migrateUp 40 (runAll empty es)).1 = true ↔
    ¬ (1 ≤ (runAll empty es).applied ∧ (runAll empty es).applied ≤ 4 ∧ (runAll empty es).db.has .transactionAfterInsert = true) :=
  (by decide +kernel : ∀ s ∈ reach, ((migrateUp 40 s).1 = true ↔ ¬ (1 ≤ s.applied ∧ s.applied ≤ 4 ∧ s.db.has .transactionAfterInsert = true)))
    _ (reach_all es)

/-- C216 upwards, from databases with no file or more than four recorded; then it ends where a new installation
does. Missing: the other databases (`c216_stuck`). -/
theorem c216_up_partial (es : List Ev) (h : (runAll empty es).applied = 0 ∨ 4 < (runAll empty es).applied) :
    (migrateUp 40 (runAll empty es)).1 = true ∧ ∀ o ∈ guards, (migrateUp 40 (runAll empty es)).2.db.has o = true :=
  (by decide +kernel : ∀ s ∈ reach, s.applied = 0 ∨ 4 < s.applied →
    (migrateUp 40 s).1 = true ∧ ∀ o ∈ guards, (migrateUp 40 s).2.db.has o = true) _ (reach_all es) h

/-- C216 downwards: `migrate down` always succeeds, and of the tables it leaves only two. Missing: those two
(`c216_left`). -/
theorem c216_down_partial (es : List Ev) : (migrateDown 40 (runAll empty es)).1 = true ∧
    ∀ o, o.isTable = true → (migrateDown 40 (runAll empty es)).2.db.has o = true → o = .unmatched ∨ o = .lineageOutbox := by
  have h := (by decide +kernel : ∀ s ∈ reach, (migrateDown 40 s).1 = true ∧
    ∀ o ∈ allObjs.take 18, (migrateDown 40 s).2.db.has o = true → o = .unmatched ∨ o = .lineageOutbox) _ (reach_all es)
  refine ⟨h.1, fun o ho => h.2 o ?_⟩
  unfold Obj.isTable at ho
  simpa using ho

/-- Whatever is left of a way down, going down to the end and up again works. -/
theorem c216_again (es : List Ev) : (migrateUp 40 (migrateDown 40 (runAll empty es)).2).1 = true :=
  (by decide +kernel : ∀ s ∈ reach, (migrateUp 40 (migrateDown 40 s).2).1 = true) _ (reach_all es)

/-! ### Where it fails -/

def ups (n : Nat) : List Ev := List.replicate n .up
def downs (n : Nat) : List Ev := List.replicate n .down

/-- A way down that was interrupted when one file was left: from there no `migrate up` ever succeeds. -/
theorem c216_stuck : ∀ n, 1 ≤ n → n ≤ 4 → (runAll empty (ups 37 ++ downs (37 - n))).applied = n ∧
    migrateUp 40 (runAll empty (ups 37 ++ downs (37 - n))) =
      (false, (migrateUp 40 (runAll empty (ups 37 ++ downs (37 - n)))).2) ∧
    (migrateUp 40 (migrateUp 40 (runAll empty (ups 37 ++ downs (37 - n)))).2).1 = false := by
  intro n h1 h2
  rcases (by omega : n = 1 ∨ n = 2 ∨ n = 3 ∨ n = 4) with rfl | rfl | rfl | rfl <;> decide +kernel

/-- All the way down, two tables are left with their rows. -/
theorem c216_left : (runAll empty (ups 37 ++ downs 37)).applied = 0 ∧ (runAll empty (ups 37 ++ downs 37)).db.has .unmatched = true ∧
    (runAll empty (ups 37 ++ downs 37)).db.has .lineageOutbox = true := by decide +kernel

/-- Going down to the file that first protected transactions leaves them without protection. -/
theorem c216_unprotected : (runAll empty (ups 37 ++ downs 13)).applied = 24 ∧ (runAll empty (ups 24)).applied = 24 ∧
    (runAll empty (ups 24)).db.has .preventTransactionTrigger = true ∧
    (runAll empty (ups 37 ++ downs 13)).db.has .preventTransactionTrigger = false := by decide +kernel

theorem c216_full_fails : ¬ C216Full := by
  intro h
  have := (h (ups 37 ++ downs 36)).1.1
  revert this
  decide +kernel

/-! ### The effective dates -/

theorem sqlEq_self (a : Option Nat) : sqlEq a a = some true ↔ a ≠ none := by
  cases a <;> simp [sqlEq]

theorem sqlAnd_true (a b : Option Bool) : sqlAnd a b = some true ↔ a = some true ∧ b = some true := by
  rcases a with _ | _ | _ <;> rcases b with _ | _ | _ <;> simp [sqlAnd]

theorem fold_true (l : List (Option Nat)) : ∀ acc, ((l.zip l).foldl (fun acc p => sqlAnd acc (sqlEq p.2 p.1)) acc = some true ↔
    acc = some true ∧ ∀ c ∈ l, c ≠ none) := by
  induction l with
  | nil => intro acc; simp
  | cons c l ih =>
    intro acc
    rw [List.zip_cons_cons, List.foldl_cons, ih, sqlAnd_true, sqlEq_self]
    simp [and_assoc]

/-- The upgrade that fills in effective dates succeeds just when no transaction without one has an empty column
among those the trigger compares. -/
theorem c216_backfill_iff (rows : List TxnRow) : (backfill rows ≠ none) ↔ ∀ r ∈ rows, r.effective = none → ∀ c ∈ r.compared, c ≠ none := by
  induction rows with
  | nil => simp [backfill]
  | cons r rs ih =>
    unfold backfill
    cases he : r.effective with
    | some d =>
      dsimp only
      rw [Ne, Option.map_eq_none_iff, ← Ne, ih, List.forall_mem_cons]
      simp [he]
    | none =>
      dsimp only
      rw [List.forall_mem_cons]
      have hp : triggerPasses r { r with effective := some r.created } = true ↔ ∀ c ∈ r.compared, c ≠ none := by
        unfold triggerPasses
        rw [decide_eq_true_iff, fold_true]
        simp
      split
      · rename_i hpass
        rw [Ne, Option.map_eq_none_iff, ← Ne, ih]
        exact ⟨fun h => ⟨fun _ => hp.1 hpass, h⟩, fun h => h.2⟩
      · rename_i hpass
        exact ⟨fun h => absurd rfl h, fun h => absurd (hp.2 (h.1 he)) hpass⟩

/-- When it succeeds, every transaction has an effective date: its own, or the moment it was recorded. -/
theorem c216_backfill {rows rows' : List TxnRow} (h : backfill rows = some rows') :
    rows' = rows.map (fun r => { r with effective := some (r.effective.getD r.created) }) := by
  induction rows generalizing rows' with
  | nil => simp only [backfill, Option.some.injEq] at h; rw [← h]; rfl
  | cons r rs ih =>
    unfold backfill at h
    cases he : r.effective with
    | some d =>
      rw [he] at h
      dsimp only at h
      rw [Option.map_eq_some_iff] at h
      obtain ⟨rs', h1, h2⟩ := h
      rw [← h2, ih h1, List.map_cons, he, Option.getD_some]
      congr 1
      cases r
      simp_all
    | none =>
      rw [he] at h
      dsimp only at h
      split at h
      · rw [Option.map_eq_some_iff] at h
        obtain ⟨rs', h1, h2⟩ := h
        rw [← h2, ih h1, List.map_cons, he, Option.getD_none]
      · cases h

/-- A transaction of an earlier version that was not scheduled stops the upgrade. -/
def unscheduled : TxnRow := ⟨[some 1, some 2, some 3, some 4, some 5, some 6, some 7, some 8, some 9, some 10, none], none, 10⟩

theorem c216_backfill_fails : backfill [unscheduled] = none := by decide +kernel

example : backfill [{ unscheduled with compared := [some 1, some 2] }, { unscheduled with effective := some 4 }] =
    some [{ unscheduled with compared := [some 1, some 2], effective := some 10 }, { unscheduled with effective := some 4 }] := by decide +kernel

/-! ### Cases -/

example : (runAll empty (ups 33 ++ [.upCut 1, .upCut 7, .down, .up, .up])).applied = 34 := by decide +kernel

example : (runAll empty (ups 37)).applied = migrations.length ∧ 4 < (runAll empty (ups 37 ++ downs 30)).applied := by decide +kernel

end Blnk.Migr
