import Verif.Model.SearchUpgrade
import Verif.Props.SearchDocs
/-
C215: after an upgrade the search index takes the records of the new version.
-/
namespace Blnk.Upgrade
open Blnk.Srch (Coll Field Data JV Ty look schema Rec doc Numeric Fits typeOk)

/-! ### Specification -/

/-- The collection of a record takes its document. -/
def Taken (s : St) (r : Rec) : Prop := ∃ fs, s.fields r.coll = some fs ∧ ∀ f ∈ fs,
  (look (doc r) f.name = none ∧ f.optional = true) ∨ ∃ v, look (doc r) f.name = some v ∧ typeOk f.ty v = true

/-- C215: after a start that succeeded every record can be indexed, whatever the collections were. -/
def C215Full : Prop := ∀ (ans : Nat → Ans) (now : Int) (order : Nat → List Coll) (s s' : St), start ans now order s = (true, s') →
  ∀ r, Numeric r → Taken s' r

/-- What a collection is to become: what it was, with the fields it lacks. -/
def target (o : Option (List Field)) (c : Coll) : List Field := match o with
  | none => schema c
  | some fs => fs ++ missing fs (schema c)

/-! ### Comparing -/

theorem missing_self (fs : List Field) : missing fs fs = [] := by
  unfold missing
  rw [List.filter_eq_nil_iff]
  intro f hf
  simp only [Bool.not_eq_true', Bool.not_eq_false]
  rw [List.any_eq_true]
  exact ⟨f, hf, by simp⟩

theorem missing_append (old more new : List Field) : missing (old ++ more) new = missing more (missing old new) := by
  unfold missing
  rw [List.filter_filter]
  congr 1
  funext f
  rw [List.any_append]
  cases old.any (fun o => decide (o.name = f.name)) <;> simp

theorem missing_step {f : Field} {fs : List Field} (hn : (f :: fs).Pairwise (fun a b => a.name ≠ b.name)) :
    missing [f] (f :: fs) = fs := by
  unfold missing
  rw [List.pairwise_cons] at hn
  rw [List.filter_cons, if_neg (by simp), List.filter_eq_self]
  intro g hg
  simpa using hn.1 g hg

theorem schema_names (c : Coll) : (schema c).Pairwise (fun a b => a.name ≠ b.name) := by
  cases c <;> decide +kernel

theorem missing_names (old : List Field) (c : Coll) : (missing old (schema c)).Pairwise (fun a b => a.name ≠ b.name) :=
  (schema_names c).sublist List.filter_sublist

theorem missing_add {cur : List Field} {c : Coll} {f : Field} {fs : List Field} (h : missing cur (schema c) = f :: fs) :
    missing (cur ++ [f]) (schema c) = fs := by
  rw [missing_append, h]
  exact missing_step (h ▸ missing_names cur c)

theorem target_schema (c : Coll) : target (some (schema c)) c = schema c := by
  unfold target; simp [missing_self]

theorem target_add {cur : List Field} {c : Coll} {f : Field} {fs : List Field} (h : missing cur (schema c) = f :: fs) :
    target (some (cur ++ [f])) c = target (some cur) c := by
  unfold target
  dsimp only
  rw [missing_add h, h, List.append_assoc]
  rfl

theorem target_done {fs : List Field} {c : Coll} (h : missing fs (schema c) = []) : target (some fs) c = fs := by
  unfold target
  dsimp only
  rw [h, List.append_nil]

/-! ### Steps -/

/-- On the way, and never with fewer fields. -/
def Way (s s' : St) : Prop := ∀ c, target (s'.fields c) c = target (s.fields c) c ∧
  (∀ fs, s.fields c = some fs → ∃ more, s'.fields c = some (fs ++ more))

theorem Way.refl {s s' : St} (h : s'.fields = s.fields) : Way s s' := by
  intro c
  rw [h]
  exact ⟨rfl, fun fs hf => ⟨[], by rw [List.append_nil]; exact hf⟩⟩

theorem Way.trans {a b c : St} (h1 : Way a b) (h2 : Way b c) : Way a c := by
  intro x
  refine ⟨(h2 x).1.trans (h1 x).1, fun fs hf => ?_⟩
  obtain ⟨m, hm⟩ := (h1 x).2 fs hf
  obtain ⟨m', hm'⟩ := (h2 x).2 _ hm
  exact ⟨m ++ m', by rw [hm', List.append_assoc]⟩

theorem create_way (s : St) (c : Coll) : Way s (create s c) ∧ (create s c).fields c ≠ none := by
  unfold create
  cases h : s.fields c with
  | some fs => exact ⟨Way.refl rfl, by simp [h]⟩
  | none =>
    refine ⟨fun x => ?_, by simp [St.set]⟩
    unfold St.set
    dsimp only
    by_cases hx : x = c
    · subst hx
      rw [if_pos rfl, h]
      exact ⟨target_schema x, fun fs hf => by cases hf⟩
    · rw [if_neg hx]
      exact ⟨rfl, fun fs hf => ⟨[], by rw [List.append_nil]; exact hf⟩⟩

theorem createOne_way (ans : Nat → Ans) (c : Coll) (s : St) :
    Way s (createOne ans c s).2 ∧ ((createOne ans c s).1 = true → (createOne ans c s).2.fields c ≠ none) := by
  unfold createOne
  split
  · exact ⟨(Way.refl rfl).trans (create_way s.tick c).1, fun _ => (create_way s.tick c).2⟩
  · exact ⟨(Way.refl rfl).trans (create_way s.tick c).1, fun h => by cases h⟩
  · exact ⟨Way.refl rfl, fun h => by cases h⟩

theorem set_way {s : St} {c : Coll} {cur : List Field} {f : Field} {fs : List Field} (hc : s.fields c = some cur)
    (h : missing cur (schema c) = f :: fs) : Way s (s.tick.set c (cur ++ [f])) := by
  intro x
  unfold St.set St.tick
  dsimp only
  by_cases hx : x = c
  · subst hx
    rw [if_pos rfl, hc]
    exact ⟨target_add h, fun fs hf => ⟨[f], by rw [Option.some.injEq] at hf; rw [hf]⟩⟩
  · rw [if_neg hx]
    exact ⟨rfl, fun fs hf => ⟨[], by rw [List.append_nil]; exact hf⟩⟩

theorem addAll_way (ans : Nat → Ans) (c : Coll) : ∀ (rem cur : List Field) (s : St), s.fields c = some cur → missing cur (schema c) = rem →
    Way s (addAll ans c rem cur s).2 ∧
    ((addAll ans c rem cur s).1 = true → ∃ fs, (addAll ans c rem cur s).2.fields c = some fs ∧ missing fs (schema c) = []) := by
  intro rem
  induction rem with
  | nil => intro cur s hc hm; exact ⟨Way.refl rfl, fun _ => ⟨cur, hc, hm⟩⟩
  | cons f fs ih =>
    intro cur s hc hm
    have hw := set_way hc hm
    unfold addAll
    split
    · obtain ⟨h1, h2⟩ := ih (cur ++ [f]) (s.tick.set c (cur ++ [f])) (by simp [St.set]) (missing_add hm)
      exact ⟨hw.trans h1, h2⟩
    · exact ⟨hw, fun h => by cases h⟩
    · exact ⟨Way.refl rfl, fun h => by cases h⟩

theorem migrateOne_way (ans : Nat → Ans) (c : Coll) (s : St) :
    Way s (migrateOne ans c s).2 ∧
    ((migrateOne ans c s).1 = true → ∃ fs, (migrateOne ans c s).2.fields c = some fs ∧ missing fs (schema c) = []) := by
  unfold migrateOne
  split
  · split
    · rename_i fs hf
      obtain ⟨h1, h2⟩ := addAll_way ans c _ fs s.tick hf rfl
      exact ⟨(Way.refl rfl : Way s s.tick).trans h1, h2⟩
    · exact ⟨Way.refl rfl, fun h => by cases h⟩
  · exact ⟨Way.refl rfl, fun h => by cases h⟩

/-- What is reached for one collection stays. -/
theorem each_way {f : Coll → St → Bool × St} {P : Coll → St → Prop} (hf : ∀ c s, Way s (f c s).2 ∧ ((f c s).1 = true → P c (f c s).2))
    (hP : ∀ c s s', P c s → Way s s' → P c s') : ∀ (cs : List Coll) (s : St),
    Way s (each f cs s).2 ∧ ((each f cs s).1 = true → ∀ c ∈ cs, P c (each f cs s).2) := by
  intro cs
  induction cs with
  | nil => intro s; exact ⟨Way.refl rfl, fun _ c hc => by cases hc⟩
  | cons c cs ih =>
    intro s
    obtain ⟨hw, hp⟩ := hf c s
    unfold each
    cases hr : f c s with
    | mk b s1 =>
      rw [hr] at hw hp
      cases b with
      | false => exact ⟨hw, fun h => by cases h⟩
      | true =>
        obtain ⟨h1, h2⟩ := ih s1
        refine ⟨hw.trans h1, fun h x hx => ?_⟩
        rcases List.mem_cons.1 hx with rfl | hx
        · exact hP x s1 _ (hp rfl) h1
        · exact h2 h x hx

/-- A collection that lacks nothing. -/
def Whole (c : Coll) (s : St) : Prop := ∃ fs, s.fields c = some fs ∧ missing fs (schema c) = []

theorem whole_way {c : Coll} {s s' : St} (h : Whole c s) (hw : Way s s') : Whole c s' := by
  obtain ⟨fs, hf, hm⟩ := h
  obtain ⟨more, hmore⟩ := (hw c).2 fs hf
  refine ⟨fs ++ more, hmore, ?_⟩
  rw [missing_append, hm]
  rfl

theorem attempt_way (ans : Nat → Ans) (now : Int) (order : List Coll) (s : St) :
    Way s (attempt ans now order s).2 ∧ ((attempt ans now order s).1 = true → ∀ c, Whole c (attempt ans now order s).2) := by
  have h1 := (each_way (P := fun _ _ => True) (fun c s => ⟨(createOne_way ans c s).1, fun _ => trivial⟩)
    (fun _ _ _ _ _ => trivial) order s).1
  unfold attempt
  cases hr : each (createOne ans) order s with
  | mk b s1 =>
    rw [hr] at h1
    cases b with
    | false => exact ⟨h1, fun h => by cases h⟩
    | true =>
      dsimp only
      cases hg : putGeneral ans now s1 with
      | mk b2 s2 =>
        have hs2 : s2.fields = s1.fields := by
          unfold putGeneral at hg
          injection hg with _ hg
          rw [← hg]
          rfl
        have h2 : Way s1 s2 := Way.refl hs2
        cases b2 with
        | false => exact ⟨h1.trans h2, fun h => by cases h⟩
        | true =>
          dsimp only
          obtain ⟨h3, h4⟩ := each_way (P := Whole) (migrateOne_way ans) (fun c s s' h hw => whole_way h hw) migrated s2
          refine ⟨(h1.trans h2).trans h3, fun h c => h4 h c ?_⟩
          cases c <;> decide

theorem tries_way (ans : Nat → Ans) (now : Int) (order : Nat → List Coll) : ∀ (n : Nat) (s : St),
    Way s (tries ans now order n s).2 ∧ ((tries ans now order n s).1 = true → ∀ c, Whole c (tries ans now order n s).2) := by
  intro n
  induction n with
  | zero => intro s; exact ⟨Way.refl rfl, fun h => by cases h⟩
  | succ n ih =>
    intro s
    obtain ⟨hw, hp⟩ := attempt_way ans now (order n) s
    unfold tries
    cases hr : attempt ans now (order n) s with
    | mk b s1 =>
      rw [hr] at hw hp
      cases b with
      | true => exact ⟨hw, hp⟩
      | false => obtain ⟨h1, h2⟩ := ih s1; exact ⟨hw.trans h1, h2⟩

/-! ### Theorems -/

/-- A start that succeeded leaves every collection as it was with the fields it lacked, whatever went wrong
in between. -/
theorem c215_fields {ans : Nat → Ans} {now : Int} {order : Nat → List Coll} {s s' : St} (h : start ans now order s = (true, s')) (c : Coll) :
    s'.fields c = some (target (s.fields c) c) := by
  have := tries_way ans now order 5 s
  rw [show tries ans now order 5 s = (true, s') from h] at this
  obtain ⟨fs, hf, hm⟩ := this.2 rfl c
  rw [← (this.1 c).1, hf, target_done hm]

/-- No start, whether it succeeded or not, takes a field away. -/
theorem c215_kept (ans : Nat → Ans) (now : Int) (order : Nat → List Coll) (s : St) {c : Coll} {fs : List Field} (hf : s.fields c = some fs) :
    ∃ more, (start ans now order s).2.fields c = some (fs ++ more) :=
  ((tries_way ans now order 5 s).1 c).2 fs hf

/-- A second start finds nothing to do. -/
theorem c215_again {ans ans2 : Nat → Ans} {now now2 : Int} {order order2 : Nat → List Coll} {s s' s'' : St}
    (h : start ans now order s = (true, s')) (h2 : start ans2 now2 order2 s' = (true, s'')) : s''.fields = s'.fields := by
  have hw := tries_way ans now order 5 s
  rw [show tries ans now order 5 s = (true, s') from h] at hw
  funext c
  rw [c215_fields h2]
  obtain ⟨fs, hf, hm⟩ := hw.2 rfl c
  rw [hf, target_done hm]

/-- The collection is of an earlier version that only lacks fields: what it has is in the schema with the
same type, or optional and no longer sent. -/
def Compatible (o : Option (List Field)) (r : Rec) : Prop := ∀ fs, o = some fs → ∀ f ∈ fs,
  (∃ g ∈ schema r.coll, g.name = f.name ∧ g.ty = f.ty ∧ (g.optional = true → f.optional = true)) ∨
  (f.optional = true ∧ look (doc r) f.name = none)

/-- C215 for collections that only lack fields. Missing: fields that were given up or changed their type
(`c215_retired_fails`, `c215_type_fails`). -/
theorem c215_taken_partial {ans : Nat → Ans} {now : Int} {order : Nat → List Coll} {s s' : St} (h : start ans now order s = (true, s'))
    {r : Rec} (hn : Numeric r) (hc : Compatible (s.fields r.coll) r) : Taken s' r := by
  refine ⟨_, c215_fields h r.coll, ?_⟩
  have hfit := Srch.doc_fits r hn
  intro f hf
  unfold target at hf
  cases ho : s.fields r.coll with
  | none => rw [ho] at hf; exact hfit f hf
  | some fs =>
    rw [ho] at hf
    dsimp only at hf
    rcases List.mem_append.1 hf with hf | hf
    · rcases hc fs ho f hf with ⟨g, hg, hname, hty, hopt⟩ | ⟨h1, h2⟩
      · rcases hfit g hg with ⟨h1, h2⟩ | ⟨v, h1, h2⟩
        · exact Or.inl ⟨hname ▸ h1, hopt h2⟩
        · exact Or.inr ⟨v, hname ▸ h1, hty ▸ h2⟩
      · exact Or.inl ⟨h2, h1⟩
    · exact hfit f (List.mem_filter.1 hf).1

/-- A new installation takes every record. -/
theorem c215_new {ans : Nat → Ans} {now : Int} {order : Nat → List Coll} {s s' : St} (h : start ans now order s = (true, s'))
    {r : Rec} (hn : Numeric r) (hc : s.fields r.coll = none) : Taken s' r :=
  c215_taken_partial h hn (fun fs hf => by rw [hc] at hf; cases hf)

/-! ### Where it fails -/

/-- Everything is answered. -/
def allOk : Nat → Ans := fun _ => .ok

def anyOrder : Nat → List Coll := fun _ => [.transactions, .ledgers, .identities, .reconciliations, .balances]

/-- Collections of another version: `dob` was a text, and reconciliations had a required field. -/
def other : St :=
  { fields := fun c => match c with
      | .identities => some [⟨"identity_id", .string, false⟩, ⟨"dob", .string, false⟩, ⟨"created_at", .int, false⟩]
      | .reconciliations => some (⟨"external_ref", .bool, false⟩ :: schema .reconciliations)
      | c => some (schema c) }

theorem other_starts : (start allOk 0 anyOrder other).1 = true := by decide +kernel

theorem other_fields : (start allOk 0 anyOrder other).2.fields .identities = some (target (other.fields .identities) .identities) ∧
    (start allOk 0 anyOrder other).2.fields .reconciliations = some (⟨"external_ref", .bool, false⟩ :: schema .reconciliations) := by
  have h : start allOk 0 anyOrder other = (true, (start allOk 0 anyOrder other).2) := Prod.ext other_starts rfl
  refine ⟨c215_fields h _, ?_⟩
  rw [c215_fields h]
  decide +kernel

/-- The start succeeds, and no reconciliation is taken: a field that was given up is still required. -/
theorem c215_retired_fails (r : Srch.ReconRec) : ¬ Taken (start allOk 0 anyOrder other).2 (.recon r) := by
  rintro ⟨fs, hf, h⟩
  rw [show (Rec.recon r).coll = .reconciliations from rfl, other_fields.2, Option.some.injEq] at hf
  subst hf
  rcases h ⟨"external_ref", .bool, false⟩ (by simp) with ⟨_, h⟩ | ⟨v, h, _⟩
  · cases h
  · have : look (doc (.recon r)) "external_ref" = none := by
      rw [Srch.look_doc _ _ (by decide)]
      obtain ⟨id, upload, status, matched, unmatched, dry, started, completed⟩ := r
      cases completed <;>
      simp [schema, Rec.coll, Rec.json, Srch.ReconRec.json, Srch.look_cons, Srch.look_nil, Srch.fieldOp, Srch.bigFields, Srch.timeFields]
    rw [show look (doc (.recon r)) (⟨"external_ref", .bool, false⟩ : Field).name = none from this] at h
    cases h

/-- The start succeeds, and no identity is taken: a field keeps the type it had. -/
theorem c215_type_fails (r : Srch.IdentityRec) : ¬ Taken (start allOk 0 anyOrder other).2 (.identity r) := by
  rintro ⟨fs, hf, h⟩
  rw [show (Rec.identity r).coll = .identities from rfl, other_fields.1, Option.some.injEq] at hf
  subst hf
  have hfit := Srch.doc_fits (.identity r) trivial ⟨"dob", .int, false⟩ (by simp [Rec.coll, schema])
  rcases hfit with ⟨_, hx⟩ | ⟨v, h1, h2⟩
  · cases hx
  · rcases h ⟨"dob", .string, false⟩ (by simp [target, other]) with ⟨_, hx⟩ | ⟨w, h3, h4⟩
    · cases hx
    · rw [h1, Option.some.injEq] at h3
      subst h3
      cases v <;> simp [typeOk] at h2 h4

def someIdentity : Srch.IdentityRec :=
  { id := "idt_1", kind := "individual", organization := "", category := "", first := "Jane", last := "Doe", others := "", gender := "", email := "",
    phone := "", nationality := "", street := "", country := "", state := "", post := "", city := "", dob := 0, created := 0, md := none }

theorem c215_full_fails : ¬ C215Full := by
  intro h
  have hs : start allOk 0 anyOrder other = (true, (start allOk 0 anyOrder other).2) := Prod.ext other_starts rfl
  exact c215_type_fails someIdentity (h _ _ _ _ _ hs (.identity someIdentity) trivial)

/-- A required field of ledgers that was given up: no start ever succeeds, because the general ledger is
put before anything else is looked at. -/
theorem c215_stuck {ans : Nat → Ans} {now : Int} {order : Nat → List Coll} {s : St} {fs : List Field} {f : Field}
    (hl : s.fields .ledgers = some fs) (hf : f ∈ fs) (hreq : f.optional = false) (hname : f.name ∉ ["id", "ledger_id", "name", "created_at"]) :
    (start ans now order s).1 = false := by
  have key : ∀ (n : Nat) (s : St), (∃ more, s.fields .ledgers = some (fs ++ more)) → (tries ans now order n s).1 = false := by
    intro n
    induction n with
    | zero => intro s _; rfl
    | succ n ih =>
      rintro s ⟨more, hm⟩
      have hw := attempt_way ans now (order n) s
      have hfalse : (attempt ans now (order n) s).1 = false := by
        have h1 := (each_way (P := fun _ _ => True) (fun c s => ⟨(createOne_way ans c s).1, fun _ => trivial⟩)
          (fun _ _ _ _ _ => trivial) (order n) s).1
        unfold attempt
        cases hr : each (createOne ans) (order n) s with
        | mk b s1 =>
          rw [hr] at h1
          cases b with
          | false => rfl
          | true =>
            dsimp only
            obtain ⟨more2, hm2⟩ := (h1 .ledgers).2 _ hm
            have hno : accepts (fs ++ more ++ more2) (generalDoc now) = false := by
              rw [← Bool.not_eq_true, accepts, List.all_eq_true]
              intro hall
              have := hall f (by simp [hf])
              have hlook : look (generalDoc now) f.name = none := by
                simp only [List.mem_cons, List.not_mem_nil, or_false, not_or] at hname
                simp [look, generalDoc, Ne.symm hname.1, Ne.symm hname.2.1, Ne.symm hname.2.2.1, Ne.symm hname.2.2.2]
              rw [hlook] at this
              rw [hreq] at this
              cases this
            have hg : putGeneral ans now s1 = (false, s1.tick) := by
              unfold putGeneral
              rw [hm2]
              dsimp only
              rw [hno]
              rfl
            rw [hg]
      unfold tries
      cases hr : attempt ans now (order n) s with
      | mk b s1 =>
        rw [hr] at hfalse hw
        dsimp only at hfalse
        subst hfalse
        dsimp only
        obtain ⟨more2, hm2⟩ := (hw.1 .ledgers).2 _ hm
        exact ih s1 ⟨more ++ more2, by rw [hm2, List.append_assoc]⟩
  exact key 5 s ⟨[], by rw [List.append_nil]; exact hl⟩

/-! ### Cases -/

/-- An earlier version without hashes and effective dates; the second request fails and the answer to the
ninth is lost. -/
def earlier : St :=
  { fields := fun c => match c with
      | .transactions => some ((schema .transactions).filter (fun f => f.name ≠ "hash" ∧ f.name ≠ "effective_date"))
      | .identities => none
      | c => some (schema c) }

def shaky : Nat → Ans := fun n => if n = 1 then .refused else if n = 8 then .lost else .ok

example : (start shaky 0 anyOrder earlier).1 = true ∧ ((start shaky 0 anyOrder earlier).2.fields .transactions).map (·.length) = some 19 := by
  decide +kernel

example (r : Srch.TxnRec) : Compatible (earlier.fields .transactions) (.txn r) := by
  intro fs hfs f hf
  have : fs = (schema .transactions).filter (fun f => f.name ≠ "hash" ∧ f.name ≠ "effective_date") := (Option.some.inj hfs).symm
  subst this
  exact Or.inl ⟨f, (List.mem_filter.1 hf).1, rfl, rfl, id⟩

end Blnk.Upgrade
