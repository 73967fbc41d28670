import Verif.Model.Search
/-! Reading one field of the document that `handle` makes. -/
namespace Blnk.Srch

theorem look_nil (j : String) : look [] j = none := rfl

theorem look_cons (k : String) (v : JV) (d : Data) (j : String) :
    look ((k, v) :: d) j = if j = k then some v else look d j := by
  unfold look
  by_cases h : j = k
  · subst h; simp
  · have : (k == j) = false := by simp; exact fun e => h e.symm
    simp [List.find?_cons, this, h]

theorem look_append (a b : Data) (j : String) :
    look (a ++ b) j = (look a j).or (look b j) := by
  induction a with
  | nil => simp [look_nil]
  | cons e a ih =>
    obtain ⟨k, v⟩ := e
    rw [List.cons_append, look_cons, look_cons, ih]
    by_cases h : j = k <;> simp [h]

theorem look_del (d : Data) (k j : String) : look (del d k) j = if j = k then none else look d j := by
  induction d with
  | nil => simp [del, look_nil]
  | cons e d ih =>
    obtain ⟨x, v⟩ := e
    unfold del at ih ⊢
    by_cases hx : x = k
    · subst hx
      rw [List.filter_cons_of_neg (by simp), ih, look_cons]
      by_cases h : j = x <;> simp [h]
    · rw [List.filter_cons_of_pos (by simp [hx]), look_cons, ih, look_cons]
      by_cases h : j = x
      · subst h; simp [hx]
      · simp [h]

theorem look_put (d : Data) (k j : String) (v : JV) :
    look (put d k v) j = if j = k then some v else look d j := by
  unfold put
  rw [look_cons, look_del]
  by_cases h : j = k <;> simp [h]

/-- `json.Unmarshal` of one value. -/
def floatOp : JV → JV
  | .num n => .num (asFloat n)
  | v => v

theorem look_throughJson (d : Data) (j : String) : look (throughJson d) j = (look d j).map floatOp := by
  induction d with
  | nil => rfl
  | cons e d ih =>
    obtain ⟨k, v⟩ := e
    unfold throughJson at ih ⊢
    rw [List.map_cons, look_cons, ih, look_cons]
    by_cases h : j = k
    · simp only [h, if_true, Option.map_some]; cases v <;> rfl
    · simp only [h, if_false]

def metaOp : Option JV → Option JV
  | some .null => some (.obj "{}")
  | v => v

def bigOp : Option JV → Option JV
  | some (.num n) => some (.str (toString n))
  | v => v

def needOp (f : Field) : Option JV → Option JV
  | some v => some v
  | none => if f.optional then none else some (default f.ty)

def emptyOp (f : Field) (o : Option JV) : Option JV :=
  if f.optional then
    match o with
    | some (.str "") => none
    | v => v
  else o

def timeOp : Option JV → Option JV
  | none => none
  | some (.time s) => some (.num s)
  | some (.num n) => some (.num n)
  | some (.str s) => if s = "" then none else some (.num 0)
  | some _ => some (.num 0)

theorem look_metaStep (d : Data) (j : String) :
    look (metaStep d) j = if j = "meta_data" then metaOp (look d j) else look d j := by
  unfold metaStep
  by_cases hj : j = "meta_data"
  · subst hj
    rw [if_pos rfl]
    cases h : look d "meta_data" with
    | none => simp [metaOp, h]
    | some v => cases v <;> simp [metaOp, h, look_put]
  · rw [if_neg hj]
    cases h : look d "meta_data" with
    | none => rfl
    | some v => cases v <;> simp [look_put, hj]

theorem look_bigStep (d : Data) (f j : String) :
    look (bigStep d f) j = if j = f then bigOp (look d j) else look d j := by
  unfold bigStep
  by_cases hj : j = f
  · subst hj
    rw [if_pos rfl]
    cases h : look d j with
    | none => simp [bigOp, h]
    | some v => cases v <;> simp [bigOp, h, look_put]
  · rw [if_neg hj]
    cases h : look d f with
    | none => rfl
    | some v => cases v <;> simp [look_put, hj]

theorem look_needStep (d : Data) (f : Field) (j : String) :
    look (needStep d f) j = if j = f.name then needOp f (look d j) else look d j := by
  unfold needStep
  by_cases hj : j = f.name
  · subst hj
    rw [if_pos rfl]
    cases h : look d f.name with
    | some v => simp [needOp, h]
    | none => by_cases ho : f.optional = true <;> simp [needOp, h, ho, look_put]
  · rw [if_neg hj]
    cases h : look d f.name with
    | some v => rfl
    | none => by_cases ho : f.optional = true <;> simp [ho, look_put, hj]

theorem look_emptyStep (d : Data) (f : Field) (j : String) :
    look (emptyStep d f) j = if j = f.name then emptyOp f (look d j) else look d j := by
  unfold emptyStep emptyOp
  by_cases ho : f.optional = true
  · simp only [ho, if_true]
    by_cases hj : j = f.name
    · subst hj
      rw [if_pos rfl]
      cases h : look d f.name with
      | none => simp [h]
      | some v =>
        cases v with
        | str s => by_cases hs : s = "" <;> simp [h, hs, look_del]
        | _ => simp [h]
    · rw [if_neg hj]
      cases h : look d f.name with
      | none => rfl
      | some v =>
        cases v with
        | str s => by_cases hs : s = "" <;> simp [hs, look_del, hj]
        | _ => rfl
  · simp [ho]

theorem look_timeStep (d : Data) (f j : String) :
    look (timeStep d f) j = if j = f then timeOp (look d j) else look d j := by
  unfold timeStep
  by_cases hj : j = f
  · subst hj
    rw [if_pos rfl]
    cases h : look d j with
    | none => simp [timeOp, h]
    | some v =>
      cases v with
      | str s => by_cases hs : s = "" <;> simp [timeOp, hs, look_put, look_del]
      | _ => simp [timeOp, look_put]
  · rw [if_neg hj]
    cases h : look d f with
    | none => rfl
    | some v =>
      cases v with
      | str s => by_cases hs : s = "" <;> simp [hs, look_put, look_del, hj]
      | _ => simp [look_put, hj]

/-- A loop over fields touches a field only where its name comes up. -/
theorem look_fold {α : Type} (step : Data → α → Data) (name : α → String)
    (op : α → Option JV → Option JV)
    (h : ∀ d a j, look (step d a) j = if j = name a then op a (look d j) else look d j)
    (l : List α) (d : Data) (j : String) :
    look (l.foldl step d) j = (l.filter (fun a => j == name a)).foldl (fun o a => op a o) (look d j) := by
  induction l generalizing d with
  | nil => rfl
  | cons a l ih =>
    rw [List.foldl_cons, ih, h]
    by_cases hj : j = name a
    · rw [List.filter_cons_of_pos (by simp [hj]), List.foldl_cons, if_pos hj]
    · rw [List.filter_cons_of_neg (by simp [hj]), if_neg hj]

/-- What `handle` makes of the value of one field, apart from `id`. -/
def fieldOp (c : Coll) (j : String) (o : Option JV) : Option JV :=
  let o := if j = "meta_data" then metaOp o else o
  let o := ((bigFields c).filter (fun a => j == a)).foldl (fun o _ => bigOp o) o
  let o := ((schema c).filter (fun f => j == f.name)).foldl (fun o f => needOp f o) o
  let o := ((schema c).filter (fun f => j == f.name)).foldl (fun o f => emptyOp f o) o
  ((timeFields c).filter (fun a => j == a)).foldl (fun o _ => timeOp o) o

theorem look_idStep (c : Coll) (d : Data) (j : String) (hj : j ≠ "id") : look (idStep c d) j = look d j := by
  unfold idStep
  cases h : look d (idField c) with
  | none => rfl
  | some v =>
    cases v with
    | str s => by_cases hs : s = "" <;> simp [hs, look_put, hj]
    | _ => rfl

theorem look_handle (c : Coll) (d : Data) (j : String) (hj : j ≠ "id") :
    look (handle c d) j = fieldOp c j (look d j) := by
  unfold handle
  dsimp only
  rw [look_idStep c _ j hj, look_fold timeStep id (fun _ => timeOp) (fun d a j => look_timeStep d a j),
    look_fold emptyStep Field.name emptyOp look_emptyStep, look_fold needStep Field.name needOp look_needStep,
    look_fold bigStep id (fun _ => bigOp) (fun d a j => look_bigStep d a j), look_metaStep]
  rfl

theorem look_handle_id (c : Coll) (d : Data) (s : String) (hs : s ≠ "")
    (h : fieldOp c (idField c) (look d (idField c)) = some (.str s)) :
    look (handle c d) "id" = some (.str s) := by
  have hne : idField c ≠ "id" := by cases c <;> simp [idField]
  have h1 := look_handle c d (idField c) hne
  unfold handle at h1 ⊢
  dsimp only at h1 ⊢
  rw [look_idStep c _ _ hne] at h1
  rw [h] at h1
  unfold idStep
  rw [h1]
  simp [hs, look_put]

theorem look_doc (r : Rec) (j : String) (hj : j ≠ "id") :
    look (doc r) j = fieldOp r.coll j ((look r.json j).map floatOp) := by
  unfold doc
  rw [look_handle _ _ _ hj, look_throughJson]

end Blnk.Srch
