import Verif.Model.Csv
/-
C141: the table in an uploaded CSV file is what the workers get, whatever its quoting, line ends and
order of columns.
-/
namespace Blnk.Csv

open Blnk.Errs (Text)

/-! ### Specification: how a table is written (RFC 4180) -/

/-- A quote inside quotes is written twice. -/
def double : Text → Text
  | [] => []
  | c :: t => if c = '"' then '"' :: '"' :: double t else c :: double t

/-- A field as it is written: as it is, if it holds nothing special, or in quotes. -/
inductive FieldText : Text → Text → Prop
  | plain {x} (h : ∀ c ∈ x, c ≠ ',' ∧ c ≠ '"' ∧ c ≠ '\n' ∧ c ≠ '\r') : FieldText x x
  | quoted {x} (h : '\r' ∉ x) : FieldText x ('"' :: (double x ++ ['"']))

/-- A record: fields with commas between them. -/
inductive RecordText : List Text → Text → Prop
  | one {x w} (h : FieldText x w) : RecordText [x] w
  | more {x w fs r} (h : FieldText x w) (hr : RecordText fs r) : RecordText (x :: fs) (w ++ ',' :: r)

inductive LineEnd : Text → Prop
  | lf : LineEnd ['\n']
  | crlf : LineEnd ['\r', '\n']

/-- A file: records on lines of their own, with blank lines anywhere and with or without a line end after
the last. -/
inductive Written : List (List Text) → Text → Prop
  | nil : Written [] []
  | last {fs r} (h : RecordText fs r) (hn : r ≠ []) : Written [fs] r
  | record {fs r e rest t} (h : RecordText fs r) (hn : r ≠ []) (he : LineEnd e) (ht : Written rest t) : Written (fs :: rest) (r ++ (e ++ t))
  | blank {e rest t} (he : LineEnd e) (ht : Written rest t) : Written rest (e ++ t)

/-! ### Line ends -/

theorem normalize_noCr (t : Text) : ∀ a : Text, '\r' ∉ a → normalize (a ++ t) = a ++ normalize t := by
  intro a
  induction a with
  | nil => intro _; rfl
  | cons c a ih =>
    intro h
    simp only [List.mem_cons, not_or] at h
    rw [List.cons_append, List.cons_append, ← ih h.2]
    rw [normalize.eq_4]
    · intro hc; exact absurd hc.symm h.1
    · intro x hc; exact absurd hc.symm h.1

theorem normalize_end {e : Text} (he : LineEnd e) (t : Text) : normalize (e ++ t) = '\n' :: normalize t := by
  cases he with
  | lf => exact normalize_noCr t ['\n'] (by decide)
  | crlf => rfl

theorem double_noCr {x : Text} (h : '\r' ∉ x) : '\r' ∉ double x := by
  induction x with
  | nil => exact h
  | cons c t ih =>
    simp only [List.mem_cons, not_or] at h
    unfold double
    split
    · simp only [List.mem_cons, not_or]; exact ⟨by decide, by decide, ih h.2⟩
    · simp only [List.mem_cons, not_or]; exact ⟨h.1, ih h.2⟩

theorem field_noCr {x w : Text} (h : FieldText x w) : '\r' ∉ w := by
  cases h with
  | plain h => exact fun hc => (h _ hc).2.2.2 rfl
  | quoted h =>
    simp only [List.mem_cons, List.mem_append, List.not_mem_nil, or_false, not_or]
    exact ⟨by decide, double_noCr h, by decide⟩

theorem record_noCr {fs : List Text} {r : Text} (h : RecordText fs r) : '\r' ∉ r := by
  induction h with
  | one h => exact field_noCr h
  | more h _ ih =>
    simp only [List.mem_cons, List.mem_append, not_or]
    exact ⟨field_noCr h, by decide, ih⟩

/-! ### Fields -/

/-- What follows a field. -/
inductive Ended : Text → Prop
  | eof : Ended []
  | comma {t} : Ended (',' :: t)
  | newline {t} : Ended ('\n' :: t)

def afterField (acc : List Text) (x : Text) : Text → List Row
  | [] => [some (acc ++ [x])]
  | c :: t => if c = ',' then read .field (acc ++ [x]) [] t else some (acc ++ [x]) :: read .line [] [] t

theorem read_plain {k : Text} (hk : Ended k) (acc : List Text) : ∀ (x cur : Text), (∀ c ∈ x, c ≠ ',' ∧ c ≠ '"' ∧ c ≠ '\n' ∧ c ≠ '\r') →
    read .plain acc cur (x ++ k) = afterField acc (cur ++ x) k := by
  intro x
  induction x with
  | nil =>
    intro cur _
    cases hk <;> simp [read, afterField]
  | cons c x ih =>
    intro cur h
    have hc := h c (by simp)
    rw [List.cons_append, read, if_neg hc.2.2.1, if_neg hc.2.1, if_neg hc.1, ih _ (fun y hy => h y (by simp [hy]))]
    simp

theorem read_quoted {k : Text} (hk : Ended k) (acc : List Text) : ∀ (x cur : Text),
    read .quoted acc cur (double x ++ '"' :: k) = afterField acc (cur ++ x) k := by
  intro x
  induction x with
  | nil =>
    intro cur
    cases hk <;> simp [double, read, afterField]
  | cons c x ih =>
    intro cur
    unfold double
    split
    · rename_i hc
      subst hc
      rw [List.cons_append, List.cons_append, read, if_pos rfl, read, if_pos rfl, ih]
      simp
    · rename_i hc
      rw [List.cons_append, read, if_neg hc, ih]
      simp

theorem read_field {x w k : Text} (h : FieldText x w) (hk : Ended k) (acc : List Text) :
    read .field acc [] (w ++ k) = afterField acc x k := by
  cases h with
  | plain h =>
    cases x with
    | nil => cases hk <;> simp [read, afterField]
    | cons c x =>
      have hc := h c (by simp)
      rw [List.cons_append, read, if_neg hc.2.2.1, if_neg hc.2.1, if_neg hc.1, read_plain hk _ _ _ (fun y hy => h y (by simp [hy]))]
      simp
  | quoted h =>
    rw [List.cons_append, List.append_assoc, read, if_neg (by decide), if_pos rfl]
    exact read_quoted hk acc x []

/-- What follows a record. -/
def afterRecord (fs : List Text) : Text → List Row
  | [] => [some fs]
  | _ :: t => some fs :: read .line [] [] t

inductive Closed : Text → Prop
  | eof : Closed []
  | newline {t} : Closed ('\n' :: t)

theorem read_record {fs : List Text} {r : Text} (h : RecordText fs r) {k : Text} (hk : Closed k) : ∀ acc : List Text,
    read .field acc [] (r ++ k) = afterRecord (acc ++ fs) k := by
  induction h with
  | one h =>
    intro acc
    rw [read_field h (by cases hk <;> constructor)]
    cases hk <;> simp [afterField, afterRecord]
  | more h _ ih =>
    intro acc
    rw [List.append_assoc, List.cons_append, read_field h .comma, afterField, if_pos rfl, ih]
    simp

theorem record_start {fs : List Text} {r : Text} (h : RecordText fs r) (hn : r ≠ []) : ∃ c t, r = c :: t ∧ c ≠ '\n' := by
  have hf : ∀ {x w}, FieldText x w → w ≠ [] → ∃ c t, w = c :: t ∧ c ≠ '\n' := by
    intro x w h hn
    cases h with
    | plain h =>
      cases x with
      | nil => exact absurd rfl hn
      | cons c x => exact ⟨c, x, rfl, (h c (by simp)).2.2.1⟩
    | quoted h => exact ⟨_, _, rfl, by decide⟩
  cases h with
  | one h => exact hf h hn
  | @more x w fs' r' h hr =>
    by_cases hw : w = []
    · subst hw; exact ⟨',', r', rfl, by decide⟩
    · obtain ⟨c, t, rfl, hc⟩ := hf h hw
      exact ⟨c, _, rfl, hc⟩

theorem line_field {c : Char} (hc : c ≠ '\n') (t : Text) : read .line [] [] (c :: t) = read .field [] [] (c :: t) := by
  rw [read, read, if_neg hc, if_neg hc]; rfl

theorem read_line {fs : List Text} {r k : Text} (h : RecordText fs r) (hn : r ≠ []) (hk : Closed k) :
    read .line [] [] (r ++ k) = afterRecord fs k := by
  have := read_record h hk []
  obtain ⟨c, t, rfl, hc⟩ := record_start h hn
  rw [List.cons_append, line_field hc, ← List.cons_append, this, List.nil_append]

/-- Every table, however it is written, is read as it is. -/
theorem rows_written {recs : List (List Text)} {t : Text} (h : Written recs t) : rows t = recs.map some := by
  unfold rows
  induction h with
  | nil => rfl
  | last h hn =>
    have e := normalize_noCr [] _ (record_noCr h)
    rw [List.append_nil, show normalize [] = [] from rfl, List.append_nil] at e
    rw [e]
    have := read_line h hn .eof
    rw [List.append_nil] at this
    rw [this]; rfl
  | record h hn he _ ih =>
    rw [normalize_noCr _ _ (record_noCr h), normalize_end he, read_line h hn .newline, afterRecord, ih]; rfl
  | blank he _ ih =>
    rw [normalize_end he, read, if_pos rfl, ih]

/-! ### Columns -/

/-- The value of a row in the column of some name. -/
def Under (headers record : List Text) (name : Text) (v : String) : Prop :=
  ∃ (i : Nat) (h x : Text), headers[i]? = some h ∧ normalName h = name ∧ record[i]? = some x ∧ v = String.ofList (trim x)

/-- What the workers should get for a row. -/
def Right (headers record : List Text) : Upload.Line → Prop
  | .broken => False
  | .cells c => Under headers record (t! "id") c.id ∧ Under headers record (t! "amount") c.amount ∧
      Under headers record (t! "currency") c.currency ∧ Under headers record (t! "reference") c.reference ∧
      Under headers record (t! "description") c.description ∧ Under headers record (t! "date") c.date

/-- Two lists agree element by element. -/
inductive Each {α β : Type} (R : α → β → Prop) : List α → List β → Prop
  | nil : Each R [] []
  | cons {a b as bs} (h : R a b) (hs : Each R as bs) : Each R (a :: as) (b :: bs)

/-- The columns a record needs. -/
def Complete (headers : List Text) : Prop :=
  ∀ n ∈ [t! "id", t! "amount", t! "currency", t! "reference", t! "description", t! "date"], ∃ h ∈ headers, normalName h = n

/-- **C141 in full**: the rows of every table that has the columns, written in any way, reach the workers
cell by cell. -/
def C141Full : Prop :=
  ∀ (headers : List Text) (recs : List (List Text)) (t : Text), Written (headers :: recs) t → Complete headers →
    (∀ r ∈ recs, r.length = headers.length) →
    ∃ ls, lines t = some ls ∧ Each (Right headers) recs ls

theorem column_some {headers : List Text} {name : Text} {i : Nat} (h : column headers name = some i) :
    ∃ x, headers[i]? = some x ∧ normalName x = name := by
  unfold column at h
  split at h
  · rename_i j hj
    rw [List.findIdx?_eq_some_iff_getElem] at hj
    obtain ⟨hlt, hp, _⟩ := hj
    have e := Option.some.inj h
    rw [List.length_reverse] at hlt
    refine ⟨headers.reverse[j], ?_, ?_⟩
    · rw [← e, List.getElem_reverse, List.getElem?_eq_getElem]
    · simpa using hp
  · cases h

theorem column_exists {headers : List Text} {name : Text} (h : ∃ x ∈ headers, normalName x = name) : (column headers name).isSome = true := by
  unfold column
  split
  · rfl
  · rename_i hn
    rw [List.findIdx?_eq_none_iff] at hn
    obtain ⟨x, hx, e⟩ := h
    have := hn x (by simpa using hx)
    simp [e] at this

theorem under_cell {headers record : List Text} {name : Text} (h : ∃ x ∈ headers, normalName x = name) (hl : record.length = headers.length) :
    Under headers record name (cell headers record name) := by
  have hs := column_exists h
  unfold cell
  cases hc : column headers name with
  | none => rw [hc] at hs; cases hs
  | some i =>
    obtain ⟨x, hx, hn⟩ := column_some hc
    have hi : i < record.length := by
      have := (List.getElem?_eq_some_iff.1 hx).1
      omega
    refine ⟨i, x, record[i], hx, hn, List.getElem?_eq_getElem hi, ?_⟩
    simp only
    rw [List.getD_eq_getElem?_getD, List.getElem?_eq_getElem hi]; rfl

theorem eraseDups_length {l : List Text} (h : l.Nodup) : l.eraseDups = l := by
  induction l with
  | nil => rfl
  | cons a l ih =>
    rw [List.eraseDups_cons]
    have hn := List.nodup_cons.1 h
    have : l.filter (fun b => !b == a) = l := by
      rw [List.filter_eq_self]
      intro b hb
      have : b ≠ a := fun e => hn.1 (e ▸ hb)
      simpa using this
    rw [this, ih hn.2]

/-- **C141, what holds**: as stated, for tables whose columns have different names, including those the
service does not use. -/
theorem c141_table_partial (headers : List Text) (recs : List (List Text)) (t : Text) (h : Written (headers :: recs) t)
    (hc : Complete headers) (hl : ∀ r ∈ recs, r.length = headers.length) (hd : (headers.map normalName).Nodup) :
    ∃ ls, lines t = some ls ∧ Each (Right headers) recs ls := by
  have hok : headerOk headers = true := by
    unfold headerOk
    rw [List.all_eq_true]
    intro c hm
    refine column_exists (hc c ?_)
    simp only [List.mem_cons, List.not_mem_nil, or_false] at hm
    rcases hm with e | e | e <;> rw [e] <;> simp
  refine ⟨recs.map (fun r => line headers (some r)), ?_, ?_⟩
  · unfold lines
    rw [rows_written h]
    simp only [List.map_cons, hok, if_true, List.map_map]
    rfl
  · have hcol : columns headers = headers.length := by
      unfold columns
      rw [eraseDups_length hd, List.length_map]
    clear h
    induction recs with
    | nil => exact .nil
    | cons r recs ih =>
      refine .cons ?_ (ih (fun x hx => hl x (by simp [hx])))
      have hr := hl r (by simp)
      unfold line
      simp only [sameLength, hr, if_true]
      unfold cells
      rw [if_neg (by rw [hcol, hr]; simp)]
      refine ⟨?_, ?_, ?_, ?_, ?_, ?_⟩ <;> exact under_cell (hc _ (by simp)) hr

/-- **C141, ragged tables.** A record that is shorter or longer than the header is not read as a row, and the
others are read as they would be without it. -/
theorem c141_ragged_partial (headers : List Text) (recs : List (List Text)) (t : Text) (h : Written (headers :: recs) t)
    (hc : Complete headers) (hd : (headers.map normalName).Nodup) :
    ∃ ls, lines t = some ls ∧
      Each (fun r l => (r.length = headers.length → Right headers r l) ∧ (r.length ≠ headers.length → l = .broken)) recs ls := by
  have hok : headerOk headers = true := by
    unfold headerOk
    rw [List.all_eq_true]
    intro c hm
    refine column_exists (hc c ?_)
    simp only [List.mem_cons, List.not_mem_nil, or_false] at hm
    rcases hm with e | e | e <;> rw [e] <;> simp
  refine ⟨recs.map (fun r => line headers (some r)), ?_, ?_⟩
  · unfold lines
    rw [rows_written h]
    simp only [List.map_cons, hok, if_true, List.map_map]
    rfl
  · have hcol : columns headers = headers.length := by
      unfold columns
      rw [eraseDups_length hd, List.length_map]
    clear h
    induction recs with
    | nil => exact .nil
    | cons r recs ih =>
      refine .cons ⟨fun hr => ?_, fun hr => ?_⟩ ih
      · unfold line
        simp only [sameLength, hr, if_true]
        unfold cells
        rw [if_neg (by rw [hcol, hr]; simp)]
        refine ⟨?_, ?_, ?_, ?_, ?_, ?_⟩ <;> exact under_cell (hc _ (by simp)) hr
      · unfold line
        simp only [sameLength, hr, if_false]

/-- The columns of this table are in another order, in capitals, with spaces; cells are quoted or not. -/
def sample : Text := t! "Date, AMOUNT ,id,currency,\"Reference\",description\r\n2024-01-01T00:00:00Z,10.5,x1,USD,r1,\"Fees, \"\"late\"\"\"\n\n2024-01-02T00:00:00Z,3, x2 ,USD,r2,d"

example : lines sample = some
    [.cells ⟨"x1", "10.5", "USD", "r1", "Fees, \"late\"", "2024-01-01T00:00:00Z"⟩, .cells ⟨"x2", "3", "USD", "r2", "d", "2024-01-02T00:00:00Z"⟩] := by
  decide +kernel

example : lines (t! "id,amount,currency,reference,description,date\nx,1,USD\ny,2,USD,r,d,z") = some [.broken, .cells ⟨"y", "2", "USD", "r", "d", "z"⟩] := by
  decide +kernel

/-- Two columns without a name, as spreadsheets write them. -/
def unnamed : List Text := [t! "id", t! "amount", t! "currency", t! "reference", t! "description", t! "date", [], []]

/-- **C141 fails when two columns have one name**, or none: every row is refused. -/
theorem c141_same_name_fails (headers : List Text) (recs : List (List Text)) (t : Text) (h : Written (headers :: recs) t)
    (hc : Complete headers) (hl : ∀ r ∈ recs, r.length = headers.length) (hd : ¬ (headers.map normalName).Nodup) (cfg : Upload.Cfg) :
    ∃ ls, lines t = some ls ∧ ls.length = recs.length ∧ ∀ l ∈ ls, ∃ c, l = .cells c ∧ Upload.parse cfg c = none := by
  have hok : headerOk headers = true := by
    unfold headerOk
    rw [List.all_eq_true]
    intro c hm
    refine column_exists (hc c ?_)
    simp only [List.mem_cons, List.not_mem_nil, or_false] at hm
    rcases hm with e | e | e <;> rw [e] <;> simp
  have hlt : columns headers < headers.length := by
    unfold columns
    have : ∀ l : List Text, l.eraseDups.length ≤ l.length ∧ (¬ l.Nodup → l.eraseDups.length < l.length) := by
      intro l
      generalize hn : l.length = n
      induction n using Nat.strongRecOn generalizing l with
      | _ n ih =>
        cases l with
        | nil => exact ⟨by simp, fun h => absurd List.nodup_nil h⟩
        | cons a l =>
          rw [List.eraseDups_cons]
          have hle := List.length_filter_le (fun b => !b == a) l
          simp only [List.length_cons] at hn ⊢
          have hf := ih _ (by omega) (l.filter (fun b => !b == a)) rfl
          refine ⟨by omega, fun hnd => ?_⟩
          by_cases ha : a ∈ l
          · have : (l.filter (fun b => !b == a)).length < l.length := by
              refine List.length_filter_lt_length_iff_exists.2 ⟨a, ha, by simp⟩
            omega
          · have hl : ¬ l.Nodup := fun h => hnd (List.nodup_cons.2 ⟨ha, h⟩)
            have hs : l.filter (fun b => !b == a) = l := by
              rw [List.filter_eq_self]
              intro b hb
              have : b ≠ a := fun e => ha (e ▸ hb)
              simpa using this
            rw [hs] at hf ⊢
            have := hf.2 hl
            omega
    have := (this (headers.map normalName)).2 hd
    rwa [List.length_map] at this
  refine ⟨recs.map (fun r => line headers (some r)), ?_, List.length_map _, ?_⟩
  · unfold lines
    rw [rows_written h]
    simp only [List.map_cons, hok, if_true, List.map_map]
    rfl
  · intro l hm
    obtain ⟨r, hr, rfl⟩ := List.mem_map.1 hm
    have hr := hl r hr
    unfold line
    simp only [sameLength, hr, if_true]
    unfold cells
    rw [if_pos (by rw [hr]; omega)]
    exact ⟨_, rfl, by simp [Upload.parse]⟩

theorem c141_full_fails : ¬ C141Full := by
  intro h
  have hw : Written [unnamed, [t! "x", t! "1", t! "USD", t! "r", t! "d", t! "2024-01-01T00:00:00Z", [], []]]
      (t! "id,amount,currency,reference,description,date,,\nx,1,USD,r,d,2024-01-01T00:00:00Z,,") := by
    refine .record (e := ['\n']) (r := t! "id,amount,currency,reference,description,date,,") ?_ (by simp) .lf (.last ?_ (by simp))
    all_goals
      exact .more (w := _) (.plain (by decide)) (.more (.plain (by decide)) (.more (.plain (by decide)) (.more (.plain (by decide))
        (.more (.plain (by decide)) (.more (.plain (by decide)) (.more (.plain (by decide)) (.one (.plain (by decide)))))))))
  obtain ⟨ls, hl, hr⟩ := h _ _ _ hw (by unfold Complete; decide +kernel) (by decide)
  have e : lines (t! "id,amount,currency,reference,description,date,,\nx,1,USD,r,d,2024-01-01T00:00:00Z,,") = some [.cells ⟨"", "", "", "", "", ""⟩] := by
    decide +kernel
  rw [e] at hl
  cases hl
  cases hr with
  | cons h1 _ =>
    obtain ⟨i, hh, x, h1, h2, h3, h4⟩ := h1.1
    have : ∀ i < 8, ∀ h x, unnamed[i]? = some h → normalName h = t! "id" →
        ([t! "x", t! "1", t! "USD", t! "r", t! "d", t! "2024-01-01T00:00:00Z", [], []] : List Text)[i]? = some x → trim x = ['x'] := by
      intro i hi h x hx hn hxx
      match i, hi with
      | 0, _ => cases hxx; decide
      | 1, _ => cases hx; exact absurd hn (by decide)
      | 2, _ => cases hx; exact absurd hn (by decide)
      | 3, _ => cases hx; exact absurd hn (by decide)
      | 4, _ => cases hx; exact absurd hn (by decide)
      | 5, _ => cases hx; exact absurd hn (by decide)
      | 6, _ => cases hx; exact absurd hn (by decide)
      | 7, _ => cases hx; exact absurd hn (by decide)
    have hi : i < 8 := (List.getElem?_eq_some_iff.1 h1).1
    have := this i hi _ _ h1 h2 h3
    rw [this] at h4
    exact absurd h4 (by decide +kernel)

/-- A file that begins with a byte order mark, as spreadsheets write them, is refused. -/
theorem c141_mark_fails : lines (t! "﻿id,amount,currency,reference,description,date\nx,1,USD,r,d,2024-01-01T00:00:00Z") = none := by
  decide +kernel

end Blnk.Csv
