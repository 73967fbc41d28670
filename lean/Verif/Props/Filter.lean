import Verif.Model.Filter
/-
C49: filters cannot inject SQL and bind every argument. C50: no accepted filter is ignored.
C65: an equality filter compares with the value as given. C66: accepted requests can be run.
C67: no filter in the URL is dropped. C68: `ne` is the opposite of `eq`.
-/
namespace Blnk.Filter

variable {Row : Type}

/-! ### What a filter means -/

/-- The key named by a metadata field. -/
def keyOf (field : String) : Option (List Char) :=
  if metaPrefix.isPrefixOf field.toList then some (field.toList.drop metaPrefix.length) else none

/-- The row's value lies in the period of length `p` that contains `t`. -/
def within (db : Db Row) (e : Operand) (t : Nat) (p : Prec) (r : Row) : Bool :=
  db.cmp e .ge (.instant (t - t % p.length)) r && db.cmp e .lt (.instant (t - t % p.length + p.length)) r

/-- The meaning of the operators that compare with one value or several. -/
def compares (db : Db Row) (e : Operand) (op : Op) (v : Val) (vs : List Val) (r : Row) : Bool :=
  match op with
  | .eq => db.cmp e .eq v r
  | .ne => db.cmp e .ne v r
  | .gt => db.cmp e .gt v r
  | .gte => db.cmp e .ge v r
  | .lt => db.cmp e .lt v r
  | .lte => db.cmp e .le v r
  | .like => db.cmp e .like v r
  | .ilike => db.cmp e .ilike v r
  | .isIn => vs.any (fun w => db.cmp e .eq w r)
  | .between => match vs with
    | [a, b] => db.cmp e .ge a r && db.cmp e .le b r
    | _ => false
  | .isnull => db.isNull e r
  | .isnotnull => !db.isNull e r

/-- A filter on a column. -/
def meansColumn (db : Db Row) (e : Operand) (op : Op) (f : Filter) (r : Row) : Bool :=
  match op, f.value with
  | .eq, .time t p => within db e t p r
  | _, _ => compares db e op (plain f.value) (f.values.map plain) r

/-- A filter on a metadata key: equality is JSON equality, order is numeric, the rest textual. -/
def meansKey (db : Db Row) (k : List Char) (op : Op) (f : Filter) (r : Row) : Bool :=
  match op with
  | .eq => match f.value with
    | .time t p => within db (.jsonTime k) t p r
    | v => db.contains k v r
  | .gt | .gte | .lt | .lte | .between => compares db (.jsonNum k) op (plain f.value) (f.values.map plain) r
  | .like | .ilike => compares db (.jsonText k) op (plain f.value) [] r
  | _ => compares db (.jsonText k) op (jsonPlain f.value) (f.values.map jsonPlain) r

/-- A filter on either side of a transaction: both sides for the negative operators. -/
def meansSides (db : Db Row) (op : Op) (f : Filter) (r : Row) : Bool :=
  let s := compares db src op (plain f.value) (f.values.map plain) r
  let d := compares db dst op (plain f.value) (f.values.map plain) r
  match op with
  | .ne | .isnull => s && d
  | _ => s || d

/-- A filter on the indicator of a transaction: one of its sides is a balance whose indicator
is as asked. -/
def meansIndicator (db : Db Row) (op : Op) (f : Filter) (r : Row) : Bool :=
  let ok b := compares db (.col "b.indicator") op (plain f.value) (f.values.map plain) b
  db.balances.any (fun b => ok b && db.refers src b r) || db.balances.any (fun b => ok b && db.refers dst b r)

/-- What a filter asks of a row. -/
def means (db : Db Row) (table : String) (f : Filter) (r : Row) : Bool :=
  match parseOp f.op with
  | none => false
  | some op => match keyOf f.field with
    | some k => meansKey db k op f r
    | none =>
      if table = "transactions" ∧ f.field = "balance_id" then meansSides db op f r
      else if table = "transactions" ∧ f.field = "indicator" then meansIndicator db op f r
      else meansColumn db (.col f.field) op f r

/-- Facts about PostgreSQL's JSON operators: a key that is absent has no text, and a key with a
text is present. -/
structure Laws (db : Db Row) : Prop where
  absent : ∀ k r, db.hasKey k false r = true → db.isNull (.jsonText k) r = true
  present : ∀ k r, db.isNull (.jsonText k) r = false → db.hasKey k true r = true

/-- The one filter the builder drops. -/
def Dropped (f : Filter) : Prop := (keyOf f.field).isSome = true ∧ f.op = "eq" ∧ f.value = .nonFinite

instance (f : Filter) : Decidable (Dropped f) := by unfold Dropped; infer_instance

/-! ### Reading conditions -/

section Reading
variable (ev : Atom → Bool)

/-- The tokens read as an operand with this value, whatever surrounds them. -/
def Reads (ts : List Tok) (v : Bool) : Prop :=
  ∀ st o a rest, evalToks ev st o a true (ts ++ rest) = evalToks ev st o (a && v) false rest

/-- The tokens read as the inside of a parenthesis. -/
def Inner (ts : List Tok) (v : Bool) : Prop :=
  ∀ st o a rest, evalToks ev ((o, a) :: st) false true true (ts ++ .rp :: rest) = evalToks ev st o (a && v) false rest

theorem reads_atom (x : Atom) : Reads ev [.atom x] (ev x) := by
  intro st o a rest
  rw [List.cons_append, evalToks, List.nil_append]

theorem reads_and {A B : List Tok} {va vb : Bool} (ha : Reads ev A va) (hb : Reads ev B vb) :
    Reads ev (A ++ .and :: B) (va && vb) := by
  intro st o a rest
  rw [List.append_assoc, ha, List.cons_append, evalToks, hb, Bool.and_assoc]

theorem inner_reads {A : List Tok} {va : Bool} (ha : Reads ev A va) : Inner ev A va := by
  intro st o a rest
  rw [ha, evalToks]
  simp

theorem inner_or {A B : List Tok} {va vb : Bool} (ha : Reads ev A va) (hb : Reads ev B vb) :
    Inner ev (A ++ .or :: B) (va || vb) := by
  intro st o a rest
  rw [List.append_assoc, ha, List.cons_append, evalToks, hb, evalToks]
  simp

theorem reads_paren {A : List Tok} {v : Bool} (h : Inner ev A v) : Reads ev (.lp :: A ++ [.rp]) v := by
  intro st o a rest
  simp only [List.cons_append, List.append_assoc, List.nil_append]
  rw [evalToks, h]

/-- A list of conditions with their values. -/
inductive AllRead : List (List Tok) → List Bool → Prop
  | nil : AllRead [] []
  | cons {c cs v vs} : Reads ev c v → AllRead cs vs → AllRead (c :: cs) (v :: vs)

theorem reads_joinAnd : ∀ {cs vs}, AllRead ev cs vs → cs ≠ [] → Reads ev (joinAnd cs) (vs.all id)
  | _, _, .nil, h => absurd rfl h
  | _, _, @AllRead.cons _ c cs v vs hc hr, _ => by
    cases hr with
    | nil => simpa [joinAnd] using hc
    | @cons c2 cs2 v2 vs2 h2 hr2 =>
      have ih := reads_joinAnd (AllRead.cons h2 hr2) (by simp)
      simp only [joinAnd, List.all_cons, id]
      exact reads_and ev hc ih

theorem eval_joinAnd {cs vs} (h : AllRead ev cs vs) (hne : cs ≠ []) :
    evalToks ev [] false true true (joinAnd cs) = some (vs.all id) := by
  have := reads_joinAnd ev h hne [] false true []
  rw [List.append_nil] at this
  rw [this, evalToks]; simp

theorem eval_joinOr : ∀ {cs vs}, AllRead ev cs vs → cs ≠ [] → ∀ o,
    evalToks ev [] o true true (joinOr cs) = some (o || vs.any id)
  | _, _, .nil, h, _ => absurd rfl h
  | _, _, @AllRead.cons _ c cs v vs hc hr, _, o => by
    cases hr with
    | nil =>
      have := reads_paren ev (inner_reads ev hc) [] o true []
      rw [List.append_nil] at this
      simp only [joinOr]
      rw [this, evalToks]; simp
    | @cons c2 cs2 v2 vs2 h2 hr2 =>
      have ih := eval_joinOr (AllRead.cons h2 hr2) (by simp)
      have := reads_paren ev (inner_reads ev hc) [] o true (.or :: joinOr (c2 :: cs2))
      have e : joinOr (c :: c2 :: cs2) = (.lp :: c ++ [.rp]) ++ .or :: joinOr (c2 :: cs2) := by
        simp [joinOr]
      rw [e, this, evalToks, ih]; simp [Bool.or_assoc]

end Reading

/-! ### One filter -/

theorem texts_map : ∀ {vs : List Val} {ss : List String}, texts vs = some ss → vs.map plain = ss.map Val.text
  | [], ss, h => by simp [texts] at h; subst h; rfl
  | v :: vs, ss, h => by
    cases v with
    | text s =>
      simp only [texts, Option.map_eq_some_iff] at h
      obtain ⟨t, ht, rfl⟩ := h
      simp [plain, texts_map ht]
    | _ => simp [texts] at h

/-- The arguments of a piece are where its placeholders say. -/
def Placed (arg : Nat → Option Arg) (pos : Nat) (args : List Arg) : Prop :=
  ∀ i, i < args.length → arg (pos + i) = args[i]?

theorem Placed.tail {arg pos a as} (h : Placed arg pos (a :: as)) : Placed arg (pos + 1) as := by
  intro i hi
  have := h (i + 1) (by simpa using hi)
  rw [show pos + 1 + i = pos + (i + 1) by omega, this]; simp

theorem Placed.head {arg pos a as} (h : Placed arg pos (a :: as)) : arg pos = some a := by
  have := h 0 (by simp)
  simpa using this

theorem eval_positions (db : Db Row) (e : Operand) (g : Val → Val) (arg : Nat → Option Arg) (r : Row) :
    ∀ (vs : List Val) (pos : Nat), Placed arg pos (vs.map (fun v => Arg.one (g v))) →
      (positions pos vs.length).any (fun n => cmpArg db e .eq (arg n) r) = vs.any (fun v => db.cmp e .eq (g v) r)
  | [], _, _ => rfl
  | v :: vs, pos, h => by
    rw [List.map_cons] at h
    simp only [List.length_cons, positions, List.any_cons]
    rw [eval_positions db e g arg r vs (pos + 1) h.tail, h.head]
    rfl

/-- The `in` comparison holds when one of the values is equal. -/
theorem eval_inAtom (db : Db Row) (e : Operand) (arg : Nat → Option Arg) (r : Row) (vs : List Val) (pos : Nat)
    (h : Placed arg pos (inAtom e pos vs).2) :
    evalPlain db arg r (inAtom e pos vs).1 = (vs.map plain).any (fun w => db.cmp e .eq w r) := by
  unfold inAtom at h ⊢
  cases ht : texts vs with
  | some ss =>
    rw [ht] at h
    simp only at h ⊢
    simp only [evalPlain, h.head, texts_map ht, List.any_map]
    rfl
  | none =>
    rw [ht] at h
    simp only at h ⊢
    simp only [evalPlain]
    rw [eval_positions db e plain arg r vs pos h, List.any_map]
    rfl

theorem inAtom_not_matches (e : Operand) (pos : Nat) (vs : List Val) (e' : Operand) : (inAtom e pos vs).1 ≠ .inMatches e' := by
  unfold inAtom; cases texts vs <;> simp

theorem evalAtom_plain (db : Db Row) (arg cte) (r : Row) (a : Atom) (h : ∀ e, a ≠ .inMatches e) :
    evalAtom db arg cte r a = evalPlain db arg r a := by
  cases a <;> first | rfl | (rename_i e; exact absurd rfl (h e))

/-- What has to be shown of the piece made from a filter. -/
def Good (db : Db Row) (r : Row) (pos : Nat) (p : Piece) (v : Bool) : Prop :=
  ∀ arg cte, Placed arg pos p.args → (∀ c, p.cte = some c → cte = some c) →
    Reads (evalAtom db arg cte r) p.toks v

theorem good_simple (db : Db Row) (r : Row) (pos : Nat) (e : Operand) (c : Cmp) (w : Val) :
    Good db r pos ⟨[.atom (.cmp e c pos)], [.one w], none⟩ (db.cmp e c w r) := by
  intro arg cte hp _
  have := reads_atom (evalAtom db arg cte r) (.cmp e c pos)
  simpa [evalAtom, evalPlain, hp.head, cmpArg] using this

theorem good_period (db : Db Row) (r : Row) (pos : Nat) (e : Operand) (t : Nat) (p : Prec) :
    Good db r pos ⟨[.atom (.cmp e .ge pos), .and, .atom (.cmp e .lt (pos + 1))],
          [.one (.instant (periodOf t p).1), .one (.instant (periodOf t p).2)], none⟩ (within db e t p r) := by
  intro arg cte hp _
  have h1 := reads_atom (evalAtom db arg cte r) (.cmp e .ge pos)
  have h2 := reads_atom (evalAtom db arg cte r) (.cmp e .lt (pos + 1))
  have := reads_and _ h1 h2
  have e1 : t / p.length * p.length = t - t % p.length := by
    have := Nat.div_add_mod t p.length
    rw [Nat.mul_comm] at this; omega
  simpa [evalAtom, evalPlain, hp.head, hp.tail.head, cmpArg, within, periodOf, e1] using this

theorem good_between (db : Db Row) (r : Row) (pos : Nat) (e : Operand) (a b : Val) :
    Good db r pos ⟨[.atom (.between e pos (pos + 1))], [.one a, .one b], none⟩
      (db.cmp e .ge a r && db.cmp e .le b r) := by
  intro arg cte hp _
  have := reads_atom (evalAtom db arg cte r) (.between e pos (pos + 1))
  simpa [evalAtom, evalPlain, hp.head, hp.tail.head, cmpArg] using this

theorem good_in (db : Db Row) (r : Row) (pos : Nat) (e : Operand) (vs : List Val) :
    Good db r pos ⟨[.atom (inAtom e pos vs).1], (inAtom e pos vs).2, none⟩
      ((vs.map plain).any (fun w => db.cmp e .eq w r)) := by
  intro arg cte hp _
  have := reads_atom (evalAtom db arg cte r) (inAtom e pos vs).1
  rw [evalAtom_plain db arg cte r _ (inAtom_not_matches e pos vs), eval_inAtom db e arg r vs pos hp] at this
  exact this

theorem good_null (db : Db Row) (r : Row) (pos : Nat) (e : Operand) :
    Good db r pos ⟨[.atom (.isNull e)], [], none⟩ (db.isNull e r) ∧
    Good db r pos ⟨[.atom (.notNull e)], [], none⟩ (!db.isNull e r) :=
  ⟨fun arg cte _ _ => reads_atom (evalAtom db arg cte r) (.isNull e),
   fun arg cte _ _ => reads_atom (evalAtom db arg cte r) (.notNull e)⟩

/-- A column filter. -/
theorem good_standard (db : Db Row) (r : Row) (pos : Nat) (table : String) (f : Filter) (op : Op)
    (hc : f.field ∈ safeColumns table)
    (hin : op = .isIn → f.values ≠ []) (hbt : op = .between → f.values.length = 2) :
    ∃ p, buildStandard table f op pos = some p ∧ Good db r pos p (meansColumn db (.col f.field) op f r) := by
  unfold buildStandard safeColumn
  rw [if_pos hc]
  cases op with
  | eq =>
    cases hv : f.value with
    | time t p => exact ⟨_, rfl, by simpa [meansColumn, hv] using good_period db r pos (.col f.field) t p⟩
    | _ => exact ⟨_, rfl, by simpa [meansColumn, hv, compares, plain] using good_simple db r pos (.col f.field) .eq _⟩
  | isIn =>
    have hne : f.values.isEmpty = false := by simpa using hin rfl
    refine ⟨_, by simp only [hne]; rfl, ?_⟩
    simpa [meansColumn, compares] using good_in db r pos (.col f.field) f.values
  | between =>
    match hvs : f.values, hbt rfl with
    | [a, b], _ =>
      refine ⟨_, rfl, ?_⟩
      simpa [meansColumn, compares, hvs] using good_between db r pos (.col f.field) (plain a) (plain b)
  | isnull => exact ⟨_, rfl, by simpa [meansColumn, compares] using (good_null db r pos (.col f.field)).1⟩
  | isnotnull => exact ⟨_, rfl, by simpa [meansColumn, compares] using (good_null db r pos (.col f.field)).2⟩
  | _ => exact ⟨_, rfl, by simpa [meansColumn, compares] using good_simple db r pos (.col f.field) _ (plain f.value)⟩

/-- A metadata filter. -/
theorem good_json (db : Db Row) (hl : Laws db) (r : Row) (pos : Nat) (k : List Char) (f : Filter) (op : Op)
    (hk : keyOk k = true) (hin : op = .isIn → f.values ≠ []) (hbt : op = .between → f.values.length = 2)
    (hd : ¬ (op = .eq ∧ f.value = .nonFinite)) :
    ∃ p, buildJSON k f op pos = some p ∧ Good db r pos p (meansKey db k op f r) := by
  unfold buildJSON
  rw [if_pos hk]
  cases op with
  | eq =>
    cases hv : f.value with
    | time t p => exact ⟨_, rfl, by simpa [meansKey, hv] using good_period db r pos (.jsonTime k) t p⟩
    | nonFinite => exact absurd ⟨rfl, hv⟩ hd
    | _ =>
      refine ⟨_, rfl, ?_⟩
      intro arg cte hp _
      have := reads_atom (evalAtom db arg cte r) (.contains pos)
      simpa [evalAtom, evalPlain, hp.head, meansKey, hv] using this
  | ne => exact ⟨_, rfl, by simpa [meansKey, compares] using good_simple db r pos (.jsonText k) .ne (jsonPlain f.value)⟩
  | isIn =>
    have hne : f.values.isEmpty = false := by simpa using hin rfl
    refine ⟨_, by simp only [hne]; rfl, ?_⟩
    intro arg cte hp _
    have := reads_atom (evalAtom db arg cte r) (.inList (.jsonText k) (positions pos f.values.length))
    simp only [evalAtom, evalPlain] at this
    rw [eval_positions db _ jsonPlain arg r f.values pos hp] at this
    simpa [meansKey, compares, List.any_map, Function.comp_def] using this
  | between =>
    match hvs : f.values, hbt rfl with
    | [a, b], _ =>
      refine ⟨_, rfl, ?_⟩
      simpa [meansKey, compares, hvs] using good_between db r pos (.jsonNum k) (plain a) (plain b)
  | isnull =>
    refine ⟨_, rfl, ?_⟩
    intro arg cte _ _
    have h := reads_paren _ (inner_or _ (reads_atom (evalAtom db arg cte r) (.isNull (.jsonText k)))
      (reads_atom (evalAtom db arg cte r) (.hasKey k false)))
    have hv : (evalAtom db arg cte r (.isNull (.jsonText k)) || evalAtom db arg cte r (.hasKey k false)) = db.isNull (.jsonText k) r := by
      simp only [evalAtom, evalPlain]
      cases hn : db.isNull (.jsonText k) r with
      | true => rfl
      | false =>
        cases hh : db.hasKey k false r with
        | false => rfl
        | true => rw [hl.absent k r hh] at hn; cases hn
    rw [hv] at h
    simpa [meansKey, compares] using h
  | isnotnull =>
    refine ⟨_, rfl, ?_⟩
    intro arg cte _ _
    have h := reads_paren _ (inner_reads _ (reads_and _ (reads_atom (evalAtom db arg cte r) (.notNull (.jsonText k)))
      (reads_atom (evalAtom db arg cte r) (.hasKey k true))))
    have hv : (evalAtom db arg cte r (.notNull (.jsonText k)) && evalAtom db arg cte r (.hasKey k true)) = !db.isNull (.jsonText k) r := by
      simp only [evalAtom, evalPlain]
      cases hn : db.isNull (.jsonText k) r with
      | true => rfl
      | false => rw [hl.present k r hn]; rfl
    rw [hv] at h
    simpa [meansKey, compares] using h
  | gt => exact ⟨_, rfl, by simpa [meansKey, compares] using good_simple db r pos (.jsonNum k) .gt (plain f.value)⟩
  | gte => exact ⟨_, rfl, by simpa [meansKey, compares] using good_simple db r pos (.jsonNum k) .ge (plain f.value)⟩
  | lt => exact ⟨_, rfl, by simpa [meansKey, compares] using good_simple db r pos (.jsonNum k) .lt (plain f.value)⟩
  | lte => exact ⟨_, rfl, by simpa [meansKey, compares] using good_simple db r pos (.jsonNum k) .le (plain f.value)⟩
  | like => exact ⟨_, rfl, by simpa [meansKey, compares] using good_simple db r pos (.jsonText k) .like (plain f.value)⟩
  | ilike => exact ⟨_, rfl, by simpa [meansKey, compares] using good_simple db r pos (.jsonText k) .ilike (plain f.value)⟩

theorem inAtom_args (e e' : Operand) (pos : Nat) (vs : List Val) : (inAtom e pos vs).2 = (inAtom e' pos vs).2 := by
  unfold inAtom; cases texts vs <;> rfl

/-- A filter on either side. -/
theorem good_sides (db : Db Row) (r : Row) (pos : Nat) (f : Filter) (op : Op)
    (hop : op = .eq ∨ op = .ne ∨ op = .isIn ∨ op = .isnull ∨ op = .isnotnull) (hin : op = .isIn → f.values ≠ []) :
    ∃ p, buildBalanceId f op pos = some p ∧ Good db r pos p (meansSides db op f r) := by
  unfold buildBalanceId
  rcases hop with rfl | rfl | rfl | rfl | rfl
  · refine ⟨_, rfl, ?_⟩
    intro arg cte hp _
    have h := reads_paren _ (inner_or _ (reads_atom (evalAtom db arg cte r) (.cmp src .eq pos))
      (reads_atom (evalAtom db arg cte r) (.cmp dst .eq pos)))
    simpa [evalAtom, evalPlain, hp.head, cmpArg, meansSides, compares] using h
  · refine ⟨_, rfl, ?_⟩
    intro arg cte hp _
    have h := reads_paren _ (inner_reads _ (reads_and _ (reads_atom (evalAtom db arg cte r) (.cmp src .ne pos))
      (reads_atom (evalAtom db arg cte r) (.cmp dst .ne pos))))
    simpa [evalAtom, evalPlain, hp.head, cmpArg, meansSides, compares] using h
  · have hne : f.values.isEmpty = false := by simpa using hin rfl
    refine ⟨_, by simp only [hne]; rfl, ?_⟩
    intro arg cte hp _
    have h := reads_paren _ (inner_or _ (reads_atom (evalAtom db arg cte r) (inAtom src pos f.values).1)
      (reads_atom (evalAtom db arg cte r) (inAtom dst pos f.values).1))
    rw [evalAtom_plain db arg cte r _ (inAtom_not_matches _ pos _), evalAtom_plain db arg cte r _ (inAtom_not_matches _ pos _),
      eval_inAtom db _ arg r _ pos hp, eval_inAtom db _ arg r _ pos (by rw [inAtom_args dst src]; exact hp)] at h
    simpa [meansSides, compares] using h
  · refine ⟨_, rfl, ?_⟩
    intro arg cte hp _
    have h := reads_paren _ (inner_reads _ (reads_and _ (reads_atom (evalAtom db arg cte r) (.isNull src))
      (reads_atom (evalAtom db arg cte r) (.isNull dst))))
    simpa [evalAtom, evalPlain, meansSides, compares] using h
  · refine ⟨_, rfl, ?_⟩
    intro arg cte hp _
    have h := reads_paren _ (inner_or _ (reads_atom (evalAtom db arg cte r) (.notNull src))
      (reads_atom (evalAtom db arg cte r) (.notNull dst)))
    simpa [evalAtom, evalPlain, meansSides, compares] using h

theorem eval_indicatorAtom (db : Db Row) (pos : Nat) (f : Filter) (op : Op)
    (hin : op = .isIn → f.values ≠ []) (hbt : op = .between → f.values.length = 2) :
    ∃ a args, indicatorAtom f op pos = some (a, args) ∧ ∀ arg, Placed arg pos args → ∀ b,
      evalPlain db arg b a = compares db (.col "b.indicator") op (plain f.value) (f.values.map plain) b := by
  unfold indicatorAtom
  cases op with
  | isIn =>
    have hne : f.values.isEmpty = false := by simpa using hin rfl
    refine ⟨(inAtom (.col "b.indicator") pos f.values).1, (inAtom (.col "b.indicator") pos f.values).2, by simp only [hne]; rfl, ?_⟩
    intro arg hp b
    rw [eval_inAtom db _ arg b _ pos hp]; rfl
  | between =>
    match hvs : f.values, hbt rfl with
    | [a, b], _ =>
      refine ⟨_, _, rfl, ?_⟩
      intro arg hp x
      simp [evalPlain, hp.head, hp.tail.head, cmpArg, compares]
  | isnull => exact ⟨_, _, rfl, fun arg _ b => rfl⟩
  | isnotnull => exact ⟨_, _, rfl, fun arg _ b => rfl⟩
  | _ =>
    refine ⟨_, _, rfl, ?_⟩
    intro arg hp b
    simp [evalPlain, hp.head, cmpArg, compares]

/-- A filter on the indicator. -/
theorem good_indicator (db : Db Row) (r : Row) (pos : Nat) (f : Filter) (op : Op)
    (hin : op = .isIn → f.values ≠ []) (hbt : op = .between → f.values.length = 2) :
    ∃ p, buildIndicator f op pos = some p ∧ p.cte.isSome = true ∧ Good db r pos p (meansIndicator db op f r) := by
  obtain ⟨a, args, he, hev⟩ := eval_indicatorAtom db pos f op hin hbt
  unfold buildIndicator
  rw [he]
  refine ⟨_, rfl, rfl, ?_⟩
  intro arg cte hp hcte
  have hc := hcte a rfl
  subst hc
  have h := reads_paren _ (inner_or _ (reads_atom (evalAtom db arg (some a) r) (.inMatches src))
      (reads_atom (evalAtom db arg (some a) r) (.inMatches dst)))
  simp only [evalAtom, hev arg hp] at h
  exact h

/-! ### Fields -/

theorem valid_no_dot (table : String) : (validFields table).all (fun x => !x.toList.contains '.') = true := by
  unfold validFields; repeat' split
  all_goals decide +kernel

theorem valid_safe (table : String) : (validFields table).all (fun x => (safeColumns table).contains x) = true := by
  unfold validFields safeColumns; repeat' split
  all_goals first | decide +kernel | simp_all

theorem splitDot_meta (k : List Char) : splitDot ("meta_data".toList ++ '.' :: k) = some ("meta_data".toList, k) := by
  have h : ∀ (a : List Char), '.' ∉ a → splitDot (a ++ '.' :: k) = some (a, k) := by
    intro a
    induction a with
    | nil => intro _; simp [splitDot]
    | cons x xs ih =>
      intro hx
      have hx1 : x ≠ '.' := fun e => hx (e ▸ List.mem_cons_self ..)
      rw [List.cons_append, splitDot, if_neg hx1, ih (fun hm => hx (List.mem_cons_of_mem _ hm))]
      rfl
  exact h _ (by decide)

theorem keyOf_some {field : String} {k : List Char} (h : keyOf field = some k) :
    field.toList = "meta_data".toList ++ '.' :: k := by
  unfold keyOf at h
  split at h
  · rename_i hp
    cases h
    rw [List.isPrefixOf_iff_prefix] at hp
    obtain ⟨t, ht⟩ := hp
    rw [← ht]
    have : metaPrefix = "meta_data".toList ++ ['.'] := by decide
    rw [this]
    simp
  · cases h

/-- What validation has established about a filter. -/
theorem validOne_cases {table : String} {f : Filter} (h : validOne table f = true) :
    ∃ op, parseOp f.op = some op ∧ (op = .isIn → f.values ≠ []) ∧ (op = .between → f.values.length = 2) ∧
      (table = "transactions" → f.field = "balance_id" → op = .eq ∨ op = .ne ∨ op = .isIn ∨ op = .isnull ∨ op = .isnotnull) ∧
      ((∃ k, keyOf f.field = some k ∧ keyOk k = true ∧ "meta_data" ∈ validFields table) ∨
       (keyOf f.field = none ∧ f.field ∈ validFields table ∧ f.field ∈ safeColumns table ∧ '.' ∉ f.field.toList)) := by
  unfold validOne at h
  cases hop : parseOp f.op with
  | none => rw [hop] at h; cases h
  | some op =>
    rw [hop] at h
    simp only [Bool.and_eq_true] at h
    obtain ⟨⟨h1, h2⟩, h3⟩ := h
    refine ⟨op, rfl, ?_, ?_, ?_, ?_⟩
    · rintro rfl; simpa using h1
    · rintro rfl; simpa using h1
    · intro ht hf
      rw [if_pos ⟨ht, hf⟩] at h2
      cases op <;> simp_all
    · by_cases hp : metaPrefix.isPrefixOf f.field.toList = true
      · have hkey : keyOf f.field = some (f.field.toList.drop metaPrefix.length) := by unfold keyOf; rw [if_pos hp]
        by_cases hm : (validFields table).contains "meta_data" = true
        · rw [hp, hm] at h3
          exact Or.inl ⟨_, hkey, by simpa using h3, List.contains_iff_mem.1 hm⟩
        · exfalso
          rw [hp, Bool.eq_false_iff.2 hm] at h3
          simp only [Bool.false_eq_true] at h3
          have hnd := List.all_eq_true.1 (valid_no_dot table) _ (List.contains_iff_mem.1 h3)
          rw [keyOf_some hkey] at hnd
          simp at hnd
      · have hkey : keyOf f.field = none := by unfold keyOf; rw [if_neg hp]
        rw [Bool.eq_false_iff.2 hp] at h3
        simp only [Bool.false_eq_true] at h3
        have hm := List.contains_iff_mem.1 h3
        refine Or.inr ⟨hkey, hm, ?_, ?_⟩
        · exact List.contains_iff_mem.1 (List.all_eq_true.1 (valid_safe table) _ hm)
        · have hnd := List.all_eq_true.1 (valid_no_dot table) _ hm
          simpa using hnd

/-- Whether a filter is one on the indicator of transactions. -/
def onIndicator (table : String) (f : Filter) : Bool := f.field == "indicator" && table == "transactions"

theorem parseOp_eq {s : String} (h : parseOp s = some .eq) : s = "eq" := by
  unfold parseOp at h
  by_cases h1 : s = "eq"
  · exact h1
  · rw [if_neg h1] at h
    repeat' (split at h)
    all_goals simp_all

/-- Every accepted filter, except the dropped ones, becomes a condition that means it. -/
theorem good_one (db : Db Row) (hl : Laws db) (r : Row) (pos : Nat) (table : String) (f : Filter)
    (h : validOne table f = true) (hd : ¬ Dropped f) :
    ∃ p, buildOne table f pos = some p ∧ p.cte.isSome = onIndicator table f ∧ Good db r pos p (means db table f r) := by
  obtain ⟨op, hop, hin, hbt, hbal, hf⟩ := validOne_cases h
  unfold buildOne means
  rw [hop]
  rcases hf with ⟨k, hk, hok, _⟩ | ⟨hk, hv, hs, hdot⟩
  · have hfl := keyOf_some hk
    have hc : f.field.toList.contains '.' = true := by rw [hfl]; simp
    have hp : "meta_data".toList.isPrefixOf f.field.toList = true := by
      rw [hfl, List.isPrefixOf_iff_prefix]; exact List.prefix_append _ _
    have hnd : ¬ (op = .eq ∧ f.value = .nonFinite) := by
      rintro ⟨rfl, hvv⟩
      exact hd ⟨by rw [hk]; rfl, parseOp_eq hop, hvv⟩
    obtain ⟨p, hp1, hp2⟩ := good_json db hl r pos k f op hok hin hbt hnd
    have hi : onIndicator table f = false := by
      unfold onIndicator
      rw [Bool.and_eq_false_iff]; left
      rw [beq_eq_false_iff_ne]
      intro e
      rw [e] at hc; revert hc; decide
    have hcte : p.cte.isSome = false := by
      revert hp1
      unfold buildJSON simple
      repeat' split
      all_goals first | (intro h; cases h; rfl) | (intro h; cases h)
    refine ⟨p, ?_, by rw [hi]; exact hcte, by rw [hk]; exact hp2⟩
    simp only [hc, hp, Bool.and_true, if_true]
    rw [hfl, splitDot_meta]
    simpa using hp1
  · have hc : f.field.toList.contains '.' = false := by simpa using hdot
    simp only [hc, Bool.false_and, Bool.false_eq_true, if_false, hk]
    by_cases hb : f.field = "balance_id" ∧ table = "transactions"
    · rw [if_pos hb, if_pos ⟨hb.2, hb.1⟩]
      obtain ⟨p, h1, h2⟩ := good_sides db r pos f op (hbal hb.2 hb.1) hin
      refine ⟨p, h1, ?_, h2⟩
      have : p.cte.isSome = false := by
        revert h1
        unfold buildBalanceId
        repeat' split
        all_goals first | (intro h; cases h; rfl) | (intro h; cases h)
      rw [this]
      unfold onIndicator; rw [hb.1]; rfl
    · rw [if_neg hb, if_neg (c := table = "transactions" ∧ f.field = "balance_id") (fun hh => hb ⟨hh.2, hh.1⟩)]
      by_cases hi : f.field = "indicator" ∧ table = "transactions"
      · rw [if_pos hi, if_pos ⟨hi.2, hi.1⟩]
        obtain ⟨p, h1, h2, h3⟩ := good_indicator db r pos f op hin hbt
        exact ⟨p, h1, by rw [h2]; unfold onIndicator; rw [hi.1, hi.2]; rfl, h3⟩
      · rw [if_neg hi, if_neg (c := table = "transactions" ∧ f.field = "indicator") (fun hh => hi ⟨hh.2, hh.1⟩)]
        obtain ⟨p, h1, h2⟩ := good_standard db r pos table f op hs hin hbt
        refine ⟨p, h1, ?_, h2⟩
        have : p.cte.isSome = false := by
          revert h1
          unfold buildStandard simple
          dsimp only
          repeat' split
          all_goals first | (intro h; cases h; rfl) | (intro h; cases h)
        rw [this]
        unfold onIndicator
        symm
        rw [Bool.and_eq_false_iff, beq_eq_false_iff_ne, beq_eq_false_iff_ne]
        by_cases h1 : f.field = "indicator"
        · right; exact fun h2 => hi ⟨h1, h2⟩
        · left; exact h1

/-! ### C50 -/

theorem loop_good (db : Db Row) (hl : Laws db) (r : Row) (table : String) : ∀ (fs : List Filter) (pos : Nat),
    fs.all (validOne table) = true → (∀ f ∈ fs, ¬ Dropped f) →
    (buildLoop table fs pos).next = pos + (buildLoop table fs pos).args.length ∧
    (buildLoop table fs pos).conds.length = fs.length ∧
    (buildLoop table fs pos).ctes.length = (fs.filter (onIndicator table)).length ∧
    ∀ arg cte, Placed arg pos (buildLoop table fs pos).args → (∀ c ∈ (buildLoop table fs pos).ctes, cte = some c) →
      AllRead (evalAtom db arg cte r) (buildLoop table fs pos).conds (fs.map (means db table · r))
  | [], pos, _, _ => ⟨rfl, rfl, rfl, fun _ _ _ _ => .nil⟩
  | f :: fs, pos, hv, hd => by
    rw [List.all_cons, Bool.and_eq_true] at hv
    obtain ⟨p, hp, hcte, hgood⟩ := good_one db hl r pos table f hv.1 (hd f (List.mem_cons_self ..))
    obtain ⟨h1, h2, h3, h4⟩ := loop_good db hl r table fs (pos + p.args.length) hv.2 (fun g hg => hd g (List.mem_cons_of_mem _ hg))
    rw [buildLoop, hp]
    refine ⟨?_, ?_, ?_, ?_⟩
    · simp only [List.length_append]; rw [h1]; omega
    · simp [h2]
    · simp only [List.length_append, List.filter_cons]
      rw [h3, ← hcte]
      cases p.cte with
      | none => simp
      | some c => simp; omega
    · intro arg cte hpl hall
      refine .cons (hgood arg cte ?_ ?_) (h4 arg cte ?_ ?_)
      · intro i hi
        rw [hpl i (by simp; omega)]
        simp [List.getElem?_append_left hi]
      · intro c hc
        exact hall c (by simp [hc])
      · intro i hi
        have := hpl (p.args.length + i) (by simp; omega)
        rw [show pos + p.args.length + i = pos + (p.args.length + i) by omega, this]
        show (p.args ++ (buildLoop table fs (pos + p.args.length)).args)[p.args.length + i]? = _
        rw [List.getElem?_append_right (by omega)]
        congr 1; omega
      · intro c hc
        exact hall c (by simp [hc])

/-- Which rows a filter list asks for. -/
def asks (db : Db Row) (table : String) (anyOf : Bool) (fs : List Filter) (r : Row) : Bool :=
  if fs.isEmpty then true else if anyOf then fs.any (means db table · r) else fs.all (means db table · r)

/-- **C50 in full.** An accepted filter list is answered with the rows it asks for, or with an
error. -/
def C50Full : Prop :=
  ∀ (Row : Type) (db : Db Row), Laws db → ∀ (table : String) (fs : List Filter) (start : Nat) (anyOf : Bool) (b : Built),
    build table fs start = some b → b.conds.length = fs.length ∧
      ∀ r, selects db anyOf start b r = some (asks db table anyOf fs r) ∨ selects db anyOf start b r = none

/-- **C50, partial.** If no filter compares a metadata key with a number that is not finite,
there is one condition per filter, and the text of the query with its arguments selects exactly
the rows for which the filters hold: all of them, or one of them for `or`. At most one filter on
the indicator of transactions can be given (`c66_two_indicators`). Missing: non-finite numbers
(`c50_full_fails`). -/
theorem c50_partial (db : Db Row) (hl : Laws db) (table : String) (fs : List Filter) (start : Nat) (anyOf : Bool)
    (b : Built) (hb : build table fs start = some b) (hd : ∀ f ∈ fs, ¬ Dropped f) :
    b.conds.length = fs.length ∧
    ((fs.filter (onIndicator table)).length ≤ 1 → ∀ r, selects db anyOf start b r = some (asks db table anyOf fs r)) := by
  unfold build at hb
  cases fs with
  | nil =>
    simp at hb; subst hb
    exact ⟨rfl, fun _ r => by simp [selects, asks]⟩
  | cons f fs =>
    simp only [List.isEmpty_cons, Bool.false_eq_true, if_false] at hb
    split at hb
    · rename_i hv
      cases hb
      unfold validate at hv
      rw [Bool.and_eq_true] at hv
      refine ⟨?_, ?_⟩
      · by_cases hr : Nonempty Row
        · obtain ⟨r⟩ := hr
          exact (loop_good db hl r table (f :: fs) start hv.2 hd).2.1
        · -- the count does not depend on the row
          let db' : Db Unit := ⟨fun _ _ _ _ => false, fun _ _ => true, fun _ _ _ => false, fun _ _ _ => false, [], fun _ _ _ => false⟩
          exact (loop_good db' ⟨fun _ _ h => (Bool.false_ne_true h).elim, fun _ _ h => (Bool.false_ne_true h.symm).elim⟩ () table (f :: fs) start hv.2 hd).2.1
      · intro hone r
        obtain ⟨hn, hlen, hct, hread⟩ := loop_good db hl r table (f :: fs) start hv.2 hd
        unfold selects
        rw [if_neg (by rw [hct]; omega)]
        have hne : (buildLoop table (f :: fs) start).conds ≠ [] := by
          intro e; rw [e] at hlen; simp at hlen
        rw [if_neg (by simpa using hne)]
        have hread := hread (look start (buildLoop table (f :: fs) start).args) (buildLoop table (f :: fs) start).ctes.head?
          (by intro i hi; unfold look; rw [if_pos (by omega)]; congr 1; omega)
          (by
            intro c hc
            cases hcs : (buildLoop table (f :: fs) start).ctes with
            | nil => rw [hcs] at hc; cases hc
            | cons d ds =>
              have : ds = [] := by
                rw [hcs, List.length_cons] at hct
                exact List.eq_nil_of_length_eq_zero (by omega)
              subst this
              rw [hcs] at hc
              simp at hc
              simp [hc])
        unfold whereToks asks
        cases anyOf with
        | true =>
          simp only [if_true, List.isEmpty_cons, Bool.false_eq_true, if_false]
          rw [eval_joinOr _ hread hne]
          simp [List.any_map, Function.comp_def]
        | false =>
          simp only [List.isEmpty_cons, Bool.false_eq_true, if_false]
          rw [eval_joinAnd _ hread hne]
          simp [List.all_map, Function.comp_def]
    · cases hb

/-! ### A small database for the examples: a transaction with a time, a reference, metadata -/

structure ExRow where
  source : String
  destination : String
  reference : String
  createdAt : Nat
  indicator : Option String
  tag : Option String
deriving DecidableEq, Repr

/-- Comparisons of texts and instants, as far as the examples need them. -/
def exCmp (e : Operand) (c : Cmp) (v : Val) (r : ExRow) : Bool :=
  let str (s : String) : Bool := match c, v with
    | .eq, .text t => s == t
    | .ne, .text t => s != t
    | _, _ => false
  match e with
  | .col "source" => str r.source
  | .col "destination" => str r.destination
  | .col "reference" => str r.reference
  | .col "b.indicator" => match r.indicator with | some s => str s | none => false
  | .col "created_at" => match c, v with
    | .ge, .instant t => decide (t ≤ r.createdAt)
    | .lt, .instant t => decide (r.createdAt < t)
    | .ne, .instant t => r.createdAt != t
    | .eq, .instant t => r.createdAt == t
    | _, _ => false
  | .jsonText ['t', 'a', 'g'] => match r.tag with | some s => str s | none => false
  | _ => false

def exDb (bals : List ExRow) : Db ExRow where
  cmp := exCmp
  isNull e r := match e with
    | .jsonText ['t', 'a', 'g'] => r.tag.isNone
    | .jsonText _ => true
    | _ => false
  contains k v r := match k, v, r.tag with
    | ['t', 'a', 'g'], .text s, some t => s == t
    | _, _, _ => false
  hasKey k b r := (k == ['t', 'a', 'g'] && r.tag.isSome) == b
  balances := bals
  refers e b r := match e with
    | .col "source" => b.reference == r.source
    | .col "destination" => b.reference == r.destination
    | _ => false

theorem exLaws (bals : List ExRow) : Laws (exDb bals) := by
  constructor
  · intro k r h
    simp only [exDb] at h ⊢
    split
    · simp_all
    · rfl
    · rename_i h2; exact absurd rfl (h2 k)
  · intro k r h
    simp only [exDb] at h ⊢
    split at h
    · rename_i heq; cases heq; simp_all
    · cases h
    · rename_i h2; exact absurd rfl (h2 k)

def exBal (id ind : String) : ExRow := ⟨"", "", id, 0, some ind, none⟩
def exTx (s d ref : String) (t : Nat) (tag : Option String) : ExRow := ⟨s, d, ref, t, none, tag⟩

/-- A day, an indicator, a metadata key and a list, all in one query. -/
def exFilters : List Filter :=
  [⟨"created_at", "eq", .time 90000000000000 .day, []⟩, ⟨"indicator", "eq", .text "@w", []⟩,
   ⟨"meta_data.tag", "isnotnull", .null, []⟩, ⟨"reference", "in", .null, [.text "a", .text "b"]⟩]

example :
    (build "transactions" exFilters 1).map (fun b => (sqlText (whereToks false b.conds), b.args.length, b.next)) =
      some ("created_at >= $1 AND created_at < $2 AND (source IN (SELECT balance_id FROM _indicator_matches) OR destination IN (SELECT balance_id FROM _indicator_matches)) AND (meta_data->>'tag' IS NOT NULL AND meta_data ? 'tag' = true) AND reference = ANY($4)", 4, 5) ∧
    (∀ f ∈ exFilters, ¬ Dropped f) ∧ (exFilters.filter (onIndicator "transactions")).length = 1 ∧
    ((build "transactions" exFilters 1).map fun b =>
      [exTx "w1" "x" "a" 86400000000001 (some "t"), exTx "x" "y" "a" 86400000000001 (some "t"), exTx "w1" "x" "a" 5 (some "t")].map
        (selects (exDb [exBal "w1" "@w", exBal "x" "@x"]) false 1 b)) = some [some true, some false, some false] := by
  refine ⟨by decide +kernel, by decide +kernel, by decide +kernel, by decide +kernel⟩

/-- **C50** (violated) Comparing a metadata key with NaN or an infinity (`meta_data.tag_eq=NaN`
in the URL) is accepted and then dropped: the query returns every row. -/
theorem c50_full_fails : ¬ C50Full := by
  intro h
  have hb : build "transactions" [⟨"meta_data.tag", "eq", .nonFinite, []⟩] 1 = some ⟨[], [], [], 1⟩ := by decide +kernel
  have := (h ExRow (exDb []) (exLaws []) "transactions" _ 1 false _ hb).1
  simp at this

/-- And the answer then contains rows that were not asked for, in every database where no row
has such a value. -/
theorem c50_dropped_returns_all (db : Db Row) (table : String) (k : List Char) (hk : keyOk k = true)
    (hm : "meta_data" ∈ validFields table) (anyOf : Bool) (r : Row) :
    ∃ b, build table [⟨String.ofList (metaPrefix ++ k), "eq", .nonFinite, []⟩] 1 = some b ∧
      b.conds = [] ∧ selects db anyOf 1 b r = some true := by
  have hfl : (String.ofList (metaPrefix ++ k)).toList = "meta_data".toList ++ '.' :: k := by
    rw [String.toList_ofList, show metaPrefix = "meta_data".toList ++ ['.'] by decide]; simp
  have hv : validOne table ⟨String.ofList (metaPrefix ++ k), "eq", .nonFinite, []⟩ = true := by
    unfold validOne
    have hop : parseOp "eq" = some .eq := by decide
    have hp : metaPrefix.isPrefixOf (String.ofList (metaPrefix ++ k)).toList = true := by
      rw [String.toList_ofList, List.isPrefixOf_iff_prefix]; exact List.prefix_append _ _
    simp only [hop, hp, List.contains_iff_mem.2 hm]
    rw [String.toList_ofList, if_neg, List.drop_left, hk]
    · rfl
    · rintro ⟨_, e⟩
      have := congrArg String.toList e
      rw [hfl] at this
      revert this
      simp
  have hdrop : buildOne table ⟨String.ofList (metaPrefix ++ k), "eq", .nonFinite, []⟩ 1 = none := by
    unfold buildOne
    have hop : parseOp "eq" = some .eq := by decide
    simp only [hop, hfl, splitDot_meta]
    rw [if_pos (by simp)]
    simp only [if_true]
    unfold buildJSON
    rw [if_pos hk]
  have hne : (validFields table).isEmpty = false := by
    cases hc : validFields table with
    | nil => rw [hc] at hm; cases hm
    | cons _ _ => rfl
  refine ⟨⟨[], [], [], 1⟩, ?_, rfl, by simp [selects]⟩
  unfold build validate
  rw [List.all_cons, hv, hne, buildLoop, hdrop]
  rfl

/-! ### C49 -/

/-- A word of letters, digits and underscores, in the sense of the standard library. -/
def wordLike (k : List Char) : Bool := !k.isEmpty && k.all fun c => c.isAlphanum || c == '_'

theorem letter_alphanum {c : Char} (h : isLetter c = true) : c.isAlphanum = true := by
  simp only [isLetter, Char.isAlphanum, Char.isAlpha, Char.isLower, Char.isUpper, Bool.or_eq_true, Bool.and_eq_true,
    decide_eq_true_eq, ge_iff_le] at h ⊢
  rcases h with h | h
  · exact .inl (.inr h)
  · exact .inl (.inl h)

theorem digit_alphanum {c : Char} (h : isDigit c = true) : c.isAlphanum = true := by
  simp only [isDigit, Char.isAlphanum, Char.isDigit, Bool.or_eq_true, Bool.and_eq_true,
    decide_eq_true_eq, ge_iff_le] at h ⊢
  exact .inr h

theorem keyOk_word {k : List Char} (h : keyOk k = true) : wordLike k = true := by
  cases k with
  | nil => cases h
  | cons c cs =>
    simp only [keyOk, Bool.and_eq_true, List.all_eq_true, Bool.or_eq_true, beq_iff_eq] at h
    simp only [wordLike, List.isEmpty_cons, Bool.not_false, Bool.true_and, List.all_eq_true, Bool.or_eq_true, beq_iff_eq]
    intro x hx
    rcases List.mem_cons.1 hx with rfl | hx
    · exact .inl (letter_alphanum h.1)
    · rcases h.2 x hx with (h' | h') | h'
      · exact .inl (letter_alphanum h')
      · exact .inl (digit_alphanum h')
      · exact .inr h'

/-- The tables have this column. -/
def Operand.ok (table : String) : Operand → Bool
  | .col c => (columns table).contains c
  | .jsonText k | .jsonNum k | .jsonTime k => wordLike k && (columns table).contains "meta_data"

/-- An atom mentions columns of the table and word-like keys only. -/
def Atom.ok (table : String) : Atom → Bool
  | .cmp e _ _ | .anyOf e _ | .inList e _ | .between e _ _ | .isNull e | .notNull e | .inMatches e => e.ok table
  | .contains _ => (columns table).contains "meta_data"
  | .hasKey k _ => wordLike k && (columns table).contains "meta_data"

/-- The same for the subquery on balances: it reads the indicator. -/
def Atom.okCte : Atom → Bool
  | .cmp e _ _ | .anyOf e _ | .inList e _ | .between e _ _ | .isNull e | .notNull e => e == .col "b.indicator"
  | _ => false

/-- The placeholders of an atom. -/
def Atom.places : Atom → List Nat
  | .cmp _ _ n | .anyOf _ n | .contains n => [n]
  | .inList _ ns => ns
  | .between _ m n => [m, n]
  | .isNull _ | .notNull _ | .hasKey _ _ | .inMatches _ => []

def tokPlaces : List Tok → List Nat
  | [] => []
  | .atom a :: ts => a.places ++ tokPlaces ts
  | _ :: ts => tokPlaces ts

def tokOk (table : String) : List Tok → Bool
  | [] => true
  | .atom a :: ts => a.ok table && tokOk table ts
  | _ :: ts => tokOk table ts

/-- The placeholders of a piece are exactly its argument positions, and it mentions nothing
else than it may. -/
structure Fine (table : String) (pos : Nat) (p : Piece) : Prop where
  ok : tokOk table p.toks = true
  okCte : ∀ a, p.cte = some a → a.okCte = true
  places : ∀ n, (n ∈ tokPlaces p.toks ++ p.cte.toList.flatMap Atom.places) ↔ pos ≤ n ∧ n < pos + p.args.length

theorem mem_positions : ∀ (k pos n : Nat), n ∈ positions pos k ↔ pos ≤ n ∧ n < pos + k
  | 0, pos, n => by simp [positions] <;> omega
  | k + 1, pos, n => by simp only [positions, List.mem_cons, mem_positions k]; omega

theorem inAtom_fine (e : Operand) (pos : Nat) (vs : List Val) :
    (∀ n, n ∈ (inAtom e pos vs).1.places ↔ pos ≤ n ∧ n < pos + (inAtom e pos vs).2.length) ∧
    (∀ table, (inAtom e pos vs).1.ok table = e.ok table) ∧ ((inAtom e pos vs).1.okCte = (e == .col "b.indicator")) := by
  unfold inAtom
  cases texts vs with
  | some ss => refine ⟨fun n => ?_, fun _ => rfl, rfl⟩; simp [Atom.places] <;> omega
  | none => exact ⟨fun n => by simp [Atom.places, mem_positions], fun _ => rfl, rfl⟩

theorem fine_simple (table : String) (pos : Nat) (e : Operand) (c : Cmp) (w : Val) (h : e.ok table = true) :
    Fine table pos ⟨[.atom (.cmp e c pos)], [.one w], none⟩ :=
  ⟨by simp [tokOk, Atom.ok, h], by simp, fun n => by simp [tokPlaces, Atom.places] <;> omega⟩

theorem fine_two (table : String) (pos : Nat) (e : Operand) (c d : Cmp) (v w : Val) (h : e.ok table = true) :
    Fine table pos ⟨[.atom (.cmp e c pos), .and, .atom (.cmp e d (pos + 1))], [.one v, .one w], none⟩ :=
  ⟨by simp [tokOk, Atom.ok, h], by simp, fun n => by simp [tokPlaces, Atom.places] <;> omega⟩

theorem fine_between (table : String) (pos : Nat) (e : Operand) (v w : Val) (h : e.ok table = true) :
    Fine table pos ⟨[.atom (.between e pos (pos + 1))], [.one v, .one w], none⟩ :=
  ⟨by simp [tokOk, Atom.ok, h], by simp, fun n => by simp [tokPlaces, Atom.places] <;> omega⟩

theorem fine_none (table : String) (pos : Nat) (ts : List Tok) (h : tokOk table ts = true) (hp : tokPlaces ts = []) :
    Fine table pos ⟨ts, [], none⟩ :=
  ⟨h, by simp, fun n => by simp [hp] <;> omega⟩

theorem fine_standard (table : String) (f : Filter) (op : Op) (pos : Nat) (p : Piece) (h : buildStandard table f op pos = some p)
    (hc : (columns table).contains f.field = true) : Fine table pos p := by
  have he : (Operand.col f.field).ok table = true := hc
  unfold buildStandard safeColumn at h
  split at h
  · cases h
  · rename_i c hs
    split at hs
    · cases hs
      cases op with
      | eq =>
        simp only at h
        split at h
        · cases h; exact fine_two table pos _ _ _ _ _ he
        · cases h; exact fine_simple table pos _ _ _ he
      | isIn =>
        simp only at h
        split at h
        · cases h
        · cases h
          obtain ⟨h1, h2, _⟩ := inAtom_fine (.col f.field) pos f.values
          exact ⟨by simp [tokOk, h2, he], by simp, fun n => by simpa [tokPlaces] using h1 n⟩
      | between =>
        simp only at h
        split at h
        · cases h; exact fine_between table pos _ _ _ he
        · cases h
      | isnull => cases h; exact fine_none table pos _ (by simp [tokOk, Atom.ok, he]) rfl
      | isnotnull => cases h; exact fine_none table pos _ (by simp [tokOk, Atom.ok, he]) rfl
      | _ => cases h; exact fine_simple table pos _ _ _ he
    · cases hs

theorem fine_json (table : String) (k : List Char) (f : Filter) (op : Op) (pos : Nat) (p : Piece) (h : buildJSON k f op pos = some p)
    (hm : (columns table).contains "meta_data" = true) : Fine table pos p := by
  unfold buildJSON at h
  split at h
  · rename_i hk0
    have hk := keyOk_word hk0
    have h1 : (Operand.jsonText k).ok table = true := by simp only [Operand.ok, hk, hm, Bool.and_self]
    have h2 : (Operand.jsonNum k).ok table = true := by simp only [Operand.ok, hk, hm, Bool.and_self]
    have h3 : (Operand.jsonTime k).ok table = true := by simp only [Operand.ok, hk, hm, Bool.and_self]
    cases op with
    | eq =>
      simp only at h
      split at h
      · cases h; exact fine_two table pos _ _ _ _ _ h3
      · cases h
      · cases h
        exact ⟨by simp only [tokOk, Atom.ok, hm, Bool.and_self], by simp, fun n => by simp [tokPlaces, Atom.places] <;> omega⟩
    | isIn =>
      simp only at h
      split at h
      · cases h
      · cases h
        exact ⟨by simp [tokOk, Atom.ok, h1], by simp, fun n => by simp [tokPlaces, Atom.places, mem_positions]⟩
    | between =>
      simp only at h
      split at h
      · cases h; exact fine_between table pos _ _ _ h2
      · cases h
    | isnull => cases h; exact fine_none table pos _ (by simp only [tokOk, Atom.ok, h1, hk, hm, Bool.and_self]) rfl
    | isnotnull => cases h; exact fine_none table pos _ (by simp only [tokOk, Atom.ok, h1, hk, hm, Bool.and_self]) rfl
    | ne => cases h; exact fine_simple table pos _ _ _ h1
    | like => cases h; exact fine_simple table pos _ _ _ h1
    | ilike => cases h; exact fine_simple table pos _ _ _ h1
    | gt => cases h; exact fine_simple table pos _ _ _ h2
    | gte => cases h; exact fine_simple table pos _ _ _ h2
    | lt => cases h; exact fine_simple table pos _ _ _ h2
    | lte => cases h; exact fine_simple table pos _ _ _ h2
  · cases h

theorem sides_ok : src.ok "transactions" = true ∧ dst.ok "transactions" = true := by decide +kernel

theorem fine_sides (f : Filter) (op : Op) (pos : Nat) (p : Piece) (h : buildBalanceId f op pos = some p) :
    Fine "transactions" pos p := by
  obtain ⟨hs, hd⟩ := sides_ok
  unfold buildBalanceId at h
  cases op with
  | eq =>
    cases h
    exact ⟨by simp only [tokOk, Atom.ok, hs, hd, Bool.and_self], by simp, fun n => by simp [tokPlaces, Atom.places] <;> omega⟩
  | ne =>
    cases h
    exact ⟨by simp only [tokOk, Atom.ok, hs, hd, Bool.and_self], by simp, fun n => by simp [tokPlaces, Atom.places] <;> omega⟩
  | isIn =>
    simp only at h
    split at h
    · cases h
    · cases h
      obtain ⟨a1, a2, _⟩ := inAtom_fine src pos f.values
      obtain ⟨b1, b2, _⟩ := inAtom_fine dst pos f.values
      refine ⟨by simp only [tokOk, a2, b2, hs, hd, Bool.and_self], by simp, fun n => ?_⟩
      simp only [tokPlaces, List.append_nil, Option.toList_none, List.flatMap_nil, List.mem_append, a1 n, b1 n, inAtom_args dst src, or_self]
  | isnull => cases h; exact fine_none _ pos _ (by simp only [tokOk, Atom.ok, hs, hd, Bool.and_self]) rfl
  | isnotnull => cases h; exact fine_none _ pos _ (by simp only [tokOk, Atom.ok, hs, hd, Bool.and_self]) rfl
  | _ => cases h

theorem fine_indicator (f : Filter) (op : Op) (pos : Nat) (p : Piece) (h : buildIndicator f op pos = some p) :
    Fine "transactions" pos p := by
  obtain ⟨hs, hd⟩ := sides_ok
  unfold buildIndicator at h
  split at h
  · cases h
  · rename_i a args ha
    cases h
    have key : a.okCte = true ∧ ∀ n, n ∈ a.places ↔ pos ≤ n ∧ n < pos + args.length := by
      unfold indicatorAtom at ha
      cases op with
      | isIn =>
        simp only at ha
        split at ha
        · cases ha
        · have h1 := congrArg Prod.fst (Option.some.inj ha)
          have h2 := congrArg Prod.snd (Option.some.inj ha)
          simp only at h1 h2
          obtain ⟨i1, _, i3⟩ := inAtom_fine (.col "b.indicator") pos f.values
          rw [← h1, ← h2]
          exact ⟨i3, i1⟩
      | between =>
        simp only at ha
        split at ha
        · cases ha; exact ⟨by simp [Atom.okCte], fun n => by simp [Atom.places] <;> omega⟩
        · cases ha
      | isnull => cases ha; exact ⟨by decide +kernel, fun n => by simp [Atom.places] <;> omega⟩
      | isnotnull => cases ha; exact ⟨by decide +kernel, fun n => by simp [Atom.places] <;> omega⟩
      | _ => cases ha; exact ⟨by simp [Atom.okCte], fun n => by simp [Atom.places] <;> omega⟩
    refine ⟨by simp only [tokOk, Atom.ok, hs, hd, Bool.and_self], ?_, ?_⟩
    · intro b hb; cases hb; exact key.1
    · intro n; simp [tokPlaces, Atom.places, ← key.2 n]

/-- Every filterable field is a column, but for the two virtual fields of transactions. -/
theorem valid_columns (table : String) :
    (validFields table).all (fun x => (columns table).contains x || (table == "transactions" && (x == "balance_id" || x == "indicator"))) = true := by
  unfold validFields columns; repeat' split
  all_goals first | (subst_vars; decide +kernel) | simp_all

theorem fine_one (table : String) (f : Filter) (pos : Nat) (p : Piece) (hv : validOne table f = true)
    (h : buildOne table f pos = some p) : Fine table pos p := by
  obtain ⟨op, hop, _, _, _, hf⟩ := validOne_cases hv
  have hcol : ∀ x ∈ validFields table, ¬ (table = "transactions" ∧ (x = "balance_id" ∨ x = "indicator")) → (columns table).contains x = true := by
    intro x hx hn
    have := List.all_eq_true.1 (valid_columns table) x hx
    rw [Bool.or_eq_true] at this
    rcases this with h | h
    · exact h
    · simp only [Bool.and_eq_true, Bool.or_eq_true, beq_iff_eq] at h
      exact absurd h hn
  unfold buildOne at h
  rw [hop] at h
  rcases hf with ⟨k, hk, hok, hmd⟩ | ⟨hk, hval, hs, hdot⟩
  · have hfl := keyOf_some hk
    have hc : f.field.toList.contains '.' = true := by rw [hfl]; simp
    have hp : "meta_data".toList.isPrefixOf f.field.toList = true := by
      rw [hfl, List.isPrefixOf_iff_prefix]; exact List.prefix_append _ _
    simp only [hc, hp, Bool.and_true, if_true] at h
    rw [hfl, splitDot_meta] at h
    simp only [if_true] at h
    exact fine_json table k f op pos p h (hcol _ hmd (by
      rintro ⟨_, h | h⟩
      · exact absurd h (by decide)
      · exact absurd h (by decide)))
  · have hc : f.field.toList.contains '.' = false := by simpa using hdot
    simp only [hc, Bool.false_and, Bool.false_eq_true, if_false] at h
    split at h
    · rename_i hb; rw [hb.2]; exact fine_sides f op pos p h
    · rename_i hb
      split at h
      · rename_i hi; rw [hi.2]; exact fine_indicator f op pos p h
      · rename_i hi
        refine fine_standard table f op pos p h (hcol _ hval ?_)
        rintro ⟨ht, h1 | h1⟩
        · exact hb ⟨h1, ht⟩
        · exact hi ⟨h1, ht⟩

theorem loop_fine (table : String) : ∀ (fs : List Filter) (pos : Nat), fs.all (validOne table) = true →
    (∀ ts ∈ (buildLoop table fs pos).conds, tokOk table ts = true) ∧ (∀ a ∈ (buildLoop table fs pos).ctes, a.okCte = true) ∧
    (buildLoop table fs pos).next = pos + (buildLoop table fs pos).args.length ∧
    ∀ n, (n ∈ (buildLoop table fs pos).conds.flatMap tokPlaces ++ (buildLoop table fs pos).ctes.flatMap Atom.places) ↔
      pos ≤ n ∧ n < (buildLoop table fs pos).next
  | [], pos, _ => by refine ⟨by simp [buildLoop], by simp [buildLoop], rfl, fun n => ?_⟩; simp [buildLoop] <;> omega
  | f :: fs, pos, hv => by
    rw [List.all_cons, Bool.and_eq_true] at hv
    cases hb : buildOne table f pos with
    | none =>
      have := loop_fine table fs pos hv.2
      rw [buildLoop, hb]; exact this
    | some p =>
      have hp := fine_one table f pos p hv.1 hb
      obtain ⟨h1, h2, h3, h4⟩ := loop_fine table fs (pos + p.args.length) hv.2
      rw [buildLoop, hb]
      refine ⟨?_, ?_, ?_, ?_⟩
      · intro ts hts
        rcases List.mem_cons.1 hts with rfl | hts
        · exact hp.ok
        · exact h1 ts hts
      · intro a ha
        rcases List.mem_append.1 ha with ha | ha
        · exact hp.okCte a (by simpa using ha)
        · exact h2 a ha
      · simp only [List.length_append]; rw [h3]; omega
      · intro n
        have hp' := hp.places n
        have h4' := h4 n
        rw [h3] at h4' ⊢
        simp only [List.flatMap_cons, List.flatMap_append, List.mem_append] at hp' h4' ⊢
        have e : ∀ A B C D : Prop, ((A ∨ B) ∨ C ∨ D) ↔ ((A ∨ C) ∨ B ∨ D) := by
          intro A B C D
          constructor <;> rintro ((h | h) | h | h) <;> simp [h]
        rw [e, hp', h4']
        omega

/-- **C49** Whatever the caller sends, an accepted filter list becomes a text that mentions
only columns of the table (and `b.indicator` in the subquery) and metadata keys made of
letters, digits and underscores beginning with a letter; the placeholders in it are exactly
the positions of the arguments, from `start` up to `next`. -/
theorem c49_mentions (table : String) (fs : List Filter) (start : Nat) (b : Built) (hb : build table fs start = some b) :
    (∀ ts ∈ b.conds, tokOk table ts = true) ∧ (∀ a ∈ b.ctes, a.okCte = true) ∧ b.next = start + b.args.length ∧
    ∀ n, (n ∈ b.conds.flatMap tokPlaces ++ b.ctes.flatMap Atom.places) ↔ start ≤ n ∧ n < b.next := by
  unfold build at hb
  split at hb
  · cases hb
    refine ⟨by simp, by simp, rfl, fun n => ?_⟩
    simp
  · split at hb
    · rename_i hv
      cases hb
      unfold validate at hv
      rw [Bool.and_eq_true] at hv
      exact loop_fine table fs start hv.2
    · cases hb

/-- Two filters that differ in their values only. -/
def kindOf : Val → Nat
  | .time _ _ => 1
  | .nonFinite => 2
  | _ => 0

structure SameShape (f g : Filter) : Prop where
  field : f.field = g.field
  op : f.op = g.op
  kind : kindOf f.value = kindOf g.value
  count : f.values.length = g.values.length
  texts : (texts f.values).isSome = (texts g.values).isSome

/-- What is not a value in a piece. -/
def skeleton (p : Piece) : List Tok × Option Atom × Nat := (p.toks, p.cte, p.args.length)

theorem inAtom_shape (e : Operand) (pos : Nat) {vs ws : List Val} (hl : vs.length = ws.length)
    (ht : (texts vs).isSome = (texts ws).isSome) :
    (inAtom e pos vs).1 = (inAtom e pos ws).1 ∧ (inAtom e pos vs).2.length = (inAtom e pos ws).2.length := by
  unfold inAtom
  cases h1 : texts vs <;> cases h2 : texts ws <;> rw [h1, h2] at ht <;> simp_all

theorem two_or_not (vs : List Val) : (∃ a b, vs = [a, b]) ∨ ∀ a b, vs ≠ [a, b] := by
  rcases vs with _ | ⟨a, _ | ⟨b, _ | ⟨c, cs⟩⟩⟩
  · right; intro a b h; cases h
  · right; intro a b h; cases h
  · left; exact ⟨a, b, rfl⟩
  · right; intro a b h; cases h

theorem buildOne_shape (table : String) (pos : Nat) {f g : Filter} (h : SameShape f g) :
    (buildOne table f pos).map skeleton = (buildOne table g pos).map skeleton := by
  obtain ⟨ff, fo, fv, fvs⟩ := f
  obtain ⟨gf, go, gv, gvs⟩ := g
  obtain ⟨h1, h2, h3, h4, h5⟩ := h
  dsimp only at h1 h2 h3 h4 h5
  subst h1 h2
  have hemp : fvs.isEmpty = gvs.isEmpty := by
    cases fvs <;> cases gvs <;> simp at h4 ⊢
  have hin := fun e => inAtom_shape e pos h4 h5
  have hbt : (∃ a b c d, fvs = [a, b] ∧ gvs = [c, d]) ∨ (∀ a b, fvs ≠ [a, b]) ∧ ∀ a b, gvs ≠ [a, b] := by
    rcases two_or_not fvs with ⟨a, b, e⟩ | hf
    · subst e
      left
      match gvs, h4 with
      | [c, d], _ => exact ⟨a, b, c, d, rfl, rfl⟩
    · right
      refine ⟨hf, ?_⟩
      rintro c d rfl
      match fvs, h4 with
      | [a, b], _ => exact hf a b rfl
  unfold buildOne
  cases parseOp fo with
  | none => rfl
  | some op =>
    dsimp only
    split
    · cases splitDot ff.toList with
      | none => rfl
      | some ck =>
        obtain ⟨c, k⟩ := ck
        dsimp only
        split
        · unfold buildJSON
          split
          · cases op with
            | eq => cases fv <;> cases gv <;> simp_all [kindOf, skeleton]
            | between =>
              rcases hbt with ⟨a, b, c, d, rfl, rfl⟩ | ⟨hf, hg⟩
              · rfl
              · dsimp only
                repeat' split
                all_goals first | rfl | simp_all
            | isIn => dsimp only; rw [hemp, h4]; split <;> simp [skeleton, h4]
            | _ => rfl
          · rfl
        · rfl
    · split
      · unfold buildBalanceId
        cases op with
        | isIn =>
          dsimp only
          rw [hemp]
          split
          · rfl
          · simp [skeleton, (hin src).1, (hin dst).1, (hin src).2]
        | _ => rfl
      · split
        · unfold buildIndicator indicatorAtom
          cases op with
          | isIn =>
            dsimp only
            rw [hemp]
            split
            · split <;> simp_all
            · rename_i a args ha
              split at ha
              · cases ha
              · have e := Option.some.inj ha
                rename_i hne
                rw [if_neg hne]
                have := hin (.col "b.indicator")
                rw [e] at this
                simp [skeleton, ← this.1, ← this.2]
          | between =>
            rcases hbt with ⟨a, b, c, d, rfl, rfl⟩ | ⟨hf, hg⟩
            · rfl
            · rcases fvs with _ | ⟨a, _ | ⟨b, _ | ⟨c, cs⟩⟩⟩ <;> rcases gvs with _ | ⟨a', _ | ⟨b', _ | ⟨c', cs'⟩⟩⟩ <;>
                first | rfl | simp at h4 | exact absurd rfl (hf _ _)
          | _ => rfl
        · unfold buildStandard
          dsimp only
          cases safeColumn table ff with
          | none => rfl
          | some c =>
            dsimp only
            cases op with
            | eq => cases fv <;> cases gv <;> simp_all [kindOf, skeleton, simple]
            | between =>
              rcases hbt with ⟨a, b, c, d, rfl, rfl⟩ | ⟨hf, hg⟩
              · rfl
              · dsimp only
                repeat' split
                all_goals first | rfl | simp_all
            | isIn =>
              dsimp only
              rw [hemp]
              split
              · rfl
              · simp [skeleton, (hin (.col c)).1, (hin (.col c)).2]
            | _ => rfl

/-- Lists that differ in values only. -/
inductive SameShapes : List Filter → List Filter → Prop
  | nil : SameShapes [] []
  | cons {f g fs gs} : SameShape f g → SameShapes fs gs → SameShapes (f :: fs) (g :: gs)

theorem loop_shape (table : String) : ∀ {fs gs : List Filter}, SameShapes fs gs → ∀ pos,
    (buildLoop table fs pos).conds = (buildLoop table gs pos).conds ∧
    (buildLoop table fs pos).ctes = (buildLoop table gs pos).ctes ∧
    (buildLoop table fs pos).args.length = (buildLoop table gs pos).args.length ∧
    (buildLoop table fs pos).next = (buildLoop table gs pos).next
  | _, _, .nil, _ => ⟨rfl, rfl, rfl, rfl⟩
  | _, _, @SameShapes.cons f g fs gs h hs, pos => by
    have hsk := buildOne_shape table pos h
    rw [buildLoop, buildLoop]
    cases hf : buildOne table f pos with
    | none =>
      cases hg : buildOne table g pos with
      | none => exact loop_shape table hs pos
      | some q => rw [hf, hg] at hsk; cases hsk
    | some p =>
      cases hg : buildOne table g pos with
      | none => rw [hf, hg] at hsk; cases hsk
      | some q =>
        rw [hf, hg] at hsk
        simp only [Option.map_some, Option.some.injEq, skeleton, Prod.mk.injEq] at hsk
        obtain ⟨a, b, c⟩ := hsk
        obtain ⟨i1, i2, i3, i4⟩ := loop_shape table hs (pos + q.args.length)
        dsimp only
        rw [c]
        simp only [List.length_append, a, b, c, i1, i2, i3, i4, and_self]

theorem validOne_shape (table : String) {f g : Filter} (h : SameShape f g) : validOne table f = validOne table g := by
  have hemp : f.values.isEmpty = g.values.isEmpty := by
    have := h.count
    cases hf : f.values <;> cases hg : g.values <;> rw [hf, hg] at this <;> simp at this ⊢
  unfold validOne
  rw [h.field, h.op]
  cases parseOp g.op with
  | none => rfl
  | some op => dsimp only; rw [hemp, h.count]

theorem all_shape (table : String) : ∀ {fs gs : List Filter}, SameShapes fs gs → fs.all (validOne table) = gs.all (validOne table)
  | _, _, .nil => rfl
  | _, _, .cons h hs => by rw [List.all_cons, List.all_cons, validOne_shape table h, all_shape table hs]

/-- **C49** Values never reach the text: two filter lists that differ in their values only (of
the same kinds and number) are accepted or refused alike and produce the same text; only the
arguments differ. -/
theorem c49_values_bound (table : String) (fs gs : List Filter) (h : SameShapes fs gs) (start : Nat) (anyOf : Bool) :
    (build table fs start).map (fun b => (sqlText (whereToks anyOf b.conds), b.ctes, b.args.length, b.next)) =
    (build table gs start).map (fun b => (sqlText (whereToks anyOf b.conds), b.ctes, b.args.length, b.next)) := by
  have he : fs.isEmpty = gs.isEmpty := by cases h <;> rfl
  unfold build validate
  rw [he, all_shape table h]
  split
  · rfl
  · split
    · obtain ⟨h1, h2, h3, h4⟩ := loop_shape table h start
      simp only [Option.map_some, h1, h2, h3, h4]
    · rfl

example : SameShapes [⟨"reference", "eq", .text "'; DROP TABLE x; --", []⟩] [⟨"reference", "eq", .text "a", []⟩] ∧
    ((build "transactions" [⟨"reference", "eq", .text "'; DROP TABLE x; --", []⟩] 1).map fun b => sqlText (whereToks false b.conds)) =
      some "reference = $1" ∧
    build "transactions" [⟨"reference; --", "eq", .text "a", []⟩] 1 = none ∧
    build "transactions" [⟨"meta_data.a'b", "eq", .text "a", []⟩] 1 = none :=
  ⟨.cons ⟨rfl, rfl, rfl, rfl, rfl⟩ .nil, by decide +kernel, by decide +kernel, by decide +kernel⟩

/-! ### C66: accepted requests can be run -/

/-- **C66** (violated, always) Two filters on the indicator of transactions are accepted, and the
query is an error. -/
theorem c66_two_indicators (db : Db Row) (hl : Laws db) (fs : List Filter) (start : Nat) (anyOf : Bool) (b : Built)
    (hb : build "transactions" fs start = some b) (hd : ∀ f ∈ fs, ¬ Dropped f)
    (h2 : 2 ≤ (fs.filter (onIndicator "transactions")).length) (r : Row) : selects db anyOf start b r = none := by
  unfold build at hb
  cases fs with
  | nil => simp at h2
  | cons f fs =>
    simp only [List.isEmpty_cons, Bool.false_eq_true, if_false] at hb
    split at hb
    · rename_i hv
      cases hb
      unfold validate at hv
      rw [Bool.and_eq_true] at hv
      have := (loop_good db hl r "transactions" (f :: fs) start hv.2 hd).2.2.1
      unfold selects
      rw [if_pos (by omega)]
    · cases hb

example : (build "transactions" [⟨"indicator", "eq", .text "@a", []⟩, ⟨"indicator", "ne", .text "@b", []⟩] 1).isSome = true ∧
    2 ≤ ([⟨"indicator", "eq", .text "@a", []⟩, ⟨"indicator", "ne", .text "@b", []⟩].filter (onIndicator "transactions")).length := by
  decide +kernel

/-- **C66 in full**, for sorting: an accepted sort field is a column. -/
def C66SortFull : Prop := ∀ table sortBy, sortColumn table sortBy ∈ columns table

/-- **C66, partial.** Sorting is always by a column of the table, for the tables of the filter
endpoints, except by the two virtual fields of transactions. -/
theorem c66_sort_partial (table sortBy : String)
    (ht : table ∈ ["transactions", "balances", "ledgers", "identity", "accounts"])
    (h : ¬ (table = "transactions" ∧ (sortBy = "balance_id" ∨ sortBy = "indicator"))) : sortColumn table sortBy ∈ columns table := by
  have hca : "created_at" ∈ columns table := by
    have : ["transactions", "balances", "ledgers", "identity", "accounts"].all (fun t => (columns t).contains "created_at") = true := by
      decide +kernel
    exact List.contains_iff_mem.1 (List.all_eq_true.1 this table ht)
  unfold sortColumn
  split
  · rename_i hv
    have hm := List.contains_iff_mem.1 hv
    have hs := List.contains_iff_mem.1 (List.all_eq_true.1 (valid_safe table) _ hm)
    have hc := List.all_eq_true.1 (valid_columns table) _ hm
    unfold safeColumn
    rw [if_pos hs, Option.getD_some]
    rw [Bool.or_eq_true] at hc
    rcases hc with hc | hc
    · exact List.contains_iff_mem.1 hc
    · simp only [Bool.and_eq_true, Bool.or_eq_true, beq_iff_eq] at hc
      exact absurd hc h
  · exact hca

/-- **C66** (violated) Sorting transactions by `balance_id` or `indicator` is accepted, and the
table has no such column. -/
theorem c66_sort_fails : ¬ C66SortFull ∧
    sortColumn "transactions" "balance_id" ∉ columns "transactions" ∧ sortColumn "transactions" "indicator" ∉ columns "transactions" := by
  have h : sortColumn "transactions" "balance_id" ∉ columns "transactions" ∧ sortColumn "transactions" "indicator" ∉ columns "transactions" := by
    decide +kernel
  exact ⟨fun hf => h.1 (hf _ _), h⟩

/-! ### C65: an equality filter compares with the value as given -/

/-- How a value is sent to the database for comparison with a text column (`lib/pq` writes
integers in decimal). Floats and instants are left to `other`. -/
def sent (other : Val → String) : Val → String
  | .text s => s
  | .int i => toString i
  | .bool b => if b then "true" else "false"
  | v => other v

/-- **C65 in full.** The text in the URL is the text compared with. -/
def C65Full : Prop := ∀ float date other s, sent other (parseValue float date s) = s

/-- **C65** (violated) `reference_eq=007` looks for the reference `7`. -/
theorem c65_full_fails : ¬ C65Full := by
  intro h
  have := h (fun _ => none) (fun _ => none) (fun _ => "") "007"
  revert this
  decide +kernel

/-- **C65, partial.** Texts that read neither as a number nor as a date are compared as they
are. Missing: the others (`c65_full_fails`). -/
theorem c65_partial (float date : String → Option Val) (other : Val → String) (s : String)
    (hi : parseInt s = none) (hf : float s = none) (hd : date s = none) : sent other (parseValue float date s) = s := by
  unfold parseValue
  rw [hi, hf, hd]
  dsimp only
  split
  · rename_i e; rw [e]; rfl
  · split
    · rename_i e; rw [e]; rfl
    · rfl

example : parseInt "ref_001" = none ∧ parseInt "007" = some 7 ∧ parseInt "-12" = some (-12) ∧
    parseInt "9223372036854775808" = none := by decide +kernel

/-! ### C67: filters in the URL -/

/-- **C67 in full.** A parameter with an operator is either a filter for each of its values,
or refused. -/
def C67Full : Prop := ∀ key values v, v ∈ values → parseParam key values ≠ none → ∃ p, parseParam key values = some p ∧ p.2.2 = v

/-- **C67** (violated) Of a repeated parameter only the first value counts
(`status_eq=APPLIED&status_eq=VOID` lists the applied transactions only), and a misspelt operator is
no filter at all, so the listing is complete. -/
theorem c67_full_fails : ¬ C67Full ∧
    parseParam "status_eq" ["APPLIED", "VOID"] = some ("status", .eq, "APPLIED") ∧
    parseParam "status_equals" ["VOID"] = none ∧ parseParam "status" ["VOID"] = none := by
  have h : parseParam "status_eq" ["APPLIED", "VOID"] = some ("status", .eq, "APPLIED") := by decide +kernel
  refine ⟨?_, h, by decide +kernel, by decide +kernel⟩
  intro hf
  obtain ⟨p, hp, hv⟩ := hf "status_eq" ["APPLIED", "VOID"] "VOID" (by decide) (by rw [h]; simp)
  rw [h] at hp
  cases hp
  revert hv
  decide

theorem splitLast_none : ∀ {l : List Char}, '_' ∉ l → splitLast l = none
  | [], _ => rfl
  | c :: cs, h => by
    rw [splitLast, splitLast_none (fun hm => h (List.mem_cons_of_mem _ hm))]
    exact if_neg (fun (e : c = '_') => h (by rw [e]; exact List.mem_cons_self ..))

theorem splitLast_append : ∀ (a b : List Char), '_' ∉ b → splitLast (a ++ '_' :: b) = some (a, b)
  | [], b, h => by rw [List.nil_append, splitLast, splitLast_none h]; simp
  | c :: cs, b, h => by rw [List.cons_append, splitLast, splitLast_append cs b h]

/-- **C67, partial.** A parameter given once as `field_operator`, with any field and a known
operator in lower case, becomes the filter it says: underscores in the field do not matter. -/
theorem c67_partial (field : String) (op : String) (o : Op) (v : String)
    (hop : resolveOp op = some o) (hu : '_' ∉ op.toList) (hl : op.toLower = op) :
    parseParam (field ++ "_" ++ op) [v] = some (field, o, v) := by
  unfold parseParam
  have : (field ++ "_" ++ op).toList = field.toList ++ '_' :: op.toList := by
    rw [String.toList_append, String.toList_append]
    simp
  simp only [this, splitLast_append _ _ hu, String.ofList_toList, hl, hop, Option.map_some]

example : resolveOp "gteq" = some .gte ∧ '_' ∉ "gteq".toList ∧ "gteq".toLower = "gteq" ∧
    parseParam "effective_date_gteq" ["x"] = some ("effective_date", .gte, "x") := by decide +kernel

/-! ### C68: `ne` is the opposite of `eq` -/

/-- PostgreSQL's comparison operators on a column: `!=` holds when the column is not NULL and
`=` does not hold. -/
def NeLaw (db : Db Row) : Prop := ∀ e v r, v ≠ .null → db.cmp e .ne v r = (!db.isNull e r && !db.cmp e .eq v r)

/-- **C68 in full.** For a row with a value in the column, exactly one of `eq` and `ne`
selects it. -/
def C68Full : Prop :=
  ∀ (Row : Type) (db : Db Row), Laws db → NeLaw db → ∀ (field : String) (v : Val) (r : Row),
    keyOf field = none → v ≠ .null → db.isNull (.col field) r = false →
    meansColumn db (.col field) .ne ⟨field, "ne", v, []⟩ r = !meansColumn db (.col field) .eq ⟨field, "eq", v, []⟩ r

/-- **C68, partial.** For every value that is not a date or time. -/
theorem c68_partial (db : Db Row) (hne : NeLaw db) (field : String) (v : Val) (r : Row)
    (hn : db.isNull (.col field) r = false) (hv : kindOf v ≠ 1) (h0 : v ≠ .null) :
    meansColumn db (.col field) .ne ⟨field, "ne", v, []⟩ r = !meansColumn db (.col field) .eq ⟨field, "eq", v, []⟩ r := by
  have e : meansColumn db (.col field) .eq ⟨field, "eq", v, []⟩ r = db.cmp (.col field) .eq v r := by
    cases v with
    | time t p => exact absurd rfl hv
    | _ => rfl
  have e' : meansColumn db (.col field) .ne ⟨field, "ne", v, []⟩ r = db.cmp (.col field) .ne v r := by
    cases v with
    | time t p => exact absurd rfl hv
    | _ => rfl
  rw [e, e', hne _ _ _ h0, hn]
  rfl

/-- A database of instants. -/
def timeDb : Db Nat where
  cmp _ c v r := match c, v with
    | .eq, .instant t => r == t
    | .ne, .instant t => r != t
    | .ge, .instant t => decide (t ≤ r)
    | .lt, .instant t => decide (r < t)
    | .ne, _ => true
    | _, _ => false
  isNull e _ := match e with | .col _ => false | _ => false
  contains _ _ _ := false
  hasKey _ b _ := b
  balances := []
  refers _ _ _ := false

theorem timeLaws : Laws timeDb ∧ NeLaw timeDb := by
  refine ⟨⟨fun _ _ h => (Bool.false_ne_true h).elim, fun _ _ _ => rfl⟩, ?_⟩
  intro e v r _
  have hn : timeDb.isNull e r = false := by cases e <;> rfl
  rw [hn]
  cases v <;> first | rfl | simp [timeDb]

example : timeDb.isNull (.col "created_at") 5 = false ∧ kindOf (.instant 5) ≠ 1 ∧
    meansColumn timeDb (.col "created_at") .eq ⟨"created_at", "eq", .instant 5, []⟩ 5 = true := by decide +kernel

/-- **C68** (violated) A row created during a day is selected both by `created_at_eq` and by
`created_at_ne` of that day: `eq` asks for the day, `ne` for another instant than midnight. -/
theorem c68_full_fails : ¬ C68Full := by
  intro h
  have := h Nat timeDb timeLaws.1 timeLaws.2 "created_at" (.time 86400000000000 .day) 90000000000000 (by decide +kernel) (by simp) rfl
  revert this
  decide +kernel

end Blnk.Filter
