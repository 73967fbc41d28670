import Verif.Model.Download
import Verif.Props.Csv
/-
C137–C140: whom an upload by address contacts, what it stores, and how files are recognised.
-/
namespace Blnk.Down

open Blnk.Errs (Text has)
open Blnk.Csv (trim lower isSpace Written FieldText RecordText)

/-! ### Trimming -/

theorem trim_before {s t : Text} (h : ∀ c ∈ s, isSpace c = true) : trim (s ++ t) = trim t := by
  unfold trim
  rw [List.dropWhile_append_of_pos h]

theorem dropWhile_spaces {s : Text} (h : ∀ c ∈ s, isSpace c = true) : s.dropWhile isSpace = [] := by
  have := List.dropWhile_append_of_pos (l₂ := []) h
  simpa using this

theorem trim_after {s t : Text} (h : ∀ c ∈ s, isSpace c = true) : trim (t ++ s) = trim t := by
  unfold trim
  rw [List.dropWhile_append]
  split
  · rename_i he
    rw [List.isEmpty_iff] at he
    rw [he, dropWhile_spaces h]
  · rw [List.reverse_append, List.dropWhile_append_of_pos (by simpa using h)]

theorem trim_split (t : Text) : ∃ s1 s2, t = s1 ++ (trim t ++ s2) ∧ (∀ c ∈ s1, isSpace c = true) ∧ ∀ c ∈ s2, isSpace c = true := by
  have tw : ∀ (l : Text), ∀ c ∈ l.takeWhile isSpace, isSpace c = true := by
    intro l
    induction l with
    | nil => intro c hc; cases hc
    | cons a l ih =>
      intro c hc
      rw [List.takeWhile_cons] at hc
      split at hc
      · rcases List.mem_cons.1 hc with e | h
        · rw [e]; assumption
        · exact ih c h
      · cases hc
  refine ⟨t.takeWhile isSpace, ((t.dropWhile isSpace).reverse.takeWhile isSpace).reverse, ?_, tw _, ?_⟩
  · unfold trim
    rw [← List.reverse_append, List.takeWhile_append_dropWhile, List.reverse_reverse, List.takeWhile_append_dropWhile]
  · intro c hc
    exact tw _ c (by simpa using hc)

theorem trim_trim (t : Text) : trim (trim t) = trim t := by
  obtain ⟨s1, s2, h, h1, h2⟩ := trim_split t
  have : trim (s1 ++ (trim t ++ s2)) = trim (trim t) := by rw [trim_before h1, trim_after h2]
  rw [← h] at this
  exact this.symm

theorem space_not_comma {s : Text} (h : ∀ c ∈ s, isSpace c = true) : ',' ∉ s := fun hc => absurd (h _ hc) (by decide)

/-! ### Specification -/

/-- An entry of a list: what is written between commas. -/
def Entry (raw e : Text) : Prop :=
  ∃ a b, raw = a ++ (e ++ b) ∧ ',' ∉ e ∧ (a = [] ∨ ∃ a', a = a' ++ [',']) ∧ (b = [] ∨ ∃ b', b = ',' :: b')

/-- An entry names a host: it is the host, or an address of it. Capitals and spaces around do not matter. -/
def Names (parse : Text → Option Url) (e h : Text) : Prop :=
  h ≠ [] ∧ (has (t! "://") (trim e) = false ∧ h = lower (trim e) ∨
    has (t! "://") (trim e) = true ∧ ∃ u, parse (trim e) = some u ∧ h = lower (trim u.host))

/-- The operator's list names a host. -/
def Listed (parse : Text → Option Url) (raw h : Text) : Prop := ∃ e, Entry raw e ∧ Names parse e h

/-! ### Reading the list -/

theorem mem_pieces {e : Text} : ∀ (t cur : Text), ',' ∉ cur → (e ∈ pieces cur t ↔ Entry (cur ++ t) e) := by
  intro t
  induction t with
  | nil =>
    intro cur hc
    rw [List.append_nil, pieces, List.mem_singleton]
    constructor
    · rintro rfl
      exact ⟨[], [], by simp, hc, .inl rfl, .inl rfl⟩
    · rintro ⟨a, b, h, _, ha, hb⟩
      rcases ha with rfl | ⟨a', rfl⟩
      · rcases hb with rfl | ⟨b', rfl⟩
        · simpa using h.symm
        · exact absurd (by rw [h]; simp) hc
      · exact absurd (by rw [h]; simp) hc
  | cons c t ih =>
    intro cur hc
    by_cases hcc : c = ','
    · subst hcc
      rw [pieces, if_pos rfl, List.mem_cons, ih [] (by simp), List.nil_append]
      constructor
      · rintro (rfl | ⟨a, b, h, he, ha, hb⟩)
        · exact ⟨[], ',' :: t, by simp, hc, .inl rfl, .inr ⟨t, rfl⟩⟩
        · refine ⟨cur ++ ',' :: a, b, by rw [h]; simp, he, .inr ?_, hb⟩
          rcases ha with rfl | ⟨a', rfl⟩
          · exact ⟨cur, rfl⟩
          · exact ⟨cur ++ ',' :: a', by simp⟩
      · rintro ⟨a, b, h, he, ha, hb⟩
        rcases ha with rfl | ⟨a', rfl⟩
        · left
          rw [List.nil_append] at h
          rcases List.append_eq_append_iff.1 h with ⟨x, h1, h2⟩ | ⟨x, h1, h2⟩
          · cases x with
            | nil => simpa using h1
            | cons y x =>
              rw [List.cons_append] at h2
              injection h2 with h3 h4
              exact absurd (by rw [h1, ← h3]; simp) he
          · cases x with
            | nil => simpa using h1.symm
            | cons y x =>
              rcases hb with rfl | ⟨b', rfl⟩
              · simp at h2
              · rw [List.cons_append] at h2
                injection h2 with h3 h4
                exact absurd (by rw [h1, ← h3]; simp) hc
        · right
          have h' : cur ++ (',' :: t) = a' ++ (',' :: (e ++ b)) := by rw [h]; simp
          rcases List.append_eq_append_iff.1 h' with ⟨x, h1, h2⟩ | ⟨x, h1, h2⟩
          · cases x with
            | nil =>
              rw [List.nil_append] at h2
              injection h2 with _ h4
              exact ⟨[], b, by rw [h4]; rfl, he, .inl rfl, hb⟩
            | cons y x =>
              rw [List.cons_append] at h2
              injection h2 with h3 h4
              exact ⟨x ++ [','], b, by rw [h4]; simp, he, .inr ⟨x, rfl⟩, hb⟩
          · cases x with
            | nil =>
              rw [List.nil_append] at h2
              injection h2 with _ h4
              exact ⟨[], b, by rw [← h4]; rfl, he, .inl rfl, hb⟩
            | cons y x =>
              rw [List.cons_append] at h2
              injection h2 with h3 h4
              exact absurd (by rw [h1, ← h3]; simp) hc
    · rw [pieces, if_neg hcc, ih (cur ++ [c]) (by simp [hc, Ne.symm hcc])]
      simp

theorem pieces_before {s : Text} (hs : ∀ c ∈ s, isSpace c = true) : ∀ (t cur : Text),
    (pieces (s ++ cur) t).map trim = (pieces cur t).map trim := by
  intro t
  induction t with
  | nil => intro cur; simp [pieces, trim_before hs]
  | cons c t ih =>
    intro cur
    unfold pieces
    split
    · simp [trim_before hs]
    · rw [List.append_assoc, ih]

theorem pieces_skip : ∀ (s t cur : Text), ',' ∉ s → pieces cur (s ++ t) = pieces (cur ++ s) t := by
  intro s
  induction s with
  | nil => intro t cur _; simp
  | cons c s ih =>
    intro t cur h
    simp only [List.mem_cons, not_or] at h
    rw [List.cons_append, pieces, if_neg (Ne.symm h.1), ih t _ h.2]
    simp

theorem pieces_after {s : Text} (hs : ∀ c ∈ s, isSpace c = true) : ∀ (t cur : Text),
    (pieces cur (t ++ s)).map trim = (pieces cur t).map trim := by
  intro t
  induction t with
  | nil =>
    intro cur
    have := pieces_skip s [] cur (space_not_comma hs)
    rw [List.append_nil] at this
    rw [List.nil_append, this]
    simp [pieces, trim_after hs]
  | cons c t ih =>
    intro cur
    rw [List.cons_append]
    unfold pieces
    split
    · rw [List.map_cons, List.map_cons, ih]
    · rw [ih]

theorem pieces_trim (raw : Text) : (pieces [] (trim raw)).map trim = (pieces [] raw).map trim := by
  obtain ⟨s1, s2, h, h1, h2⟩ := trim_split raw
  generalize trim raw = m at h
  have e1 := pieces_before h1 (m ++ s2) []
  rw [List.append_nil] at e1
  have e2 := pieces_skip s1 (m ++ s2) [] (space_not_comma h1)
  rw [List.nil_append] at e2
  rw [h, e2, e1, pieces_after h2]

/-- The list is read as it is meant. -/
theorem hosts_iff (parse : Text → Option Url) (raw h : Text) : h ∈ hosts parse raw ↔ Listed parse raw h := by
  have key : Listed parse raw h ↔ ∃ x ∈ (pieces [] raw).map trim, x ≠ [] ∧ h ≠ [] ∧ entryHost parse x = h := by
    unfold Listed
    constructor
    · rintro ⟨e, he, hn⟩
      refine ⟨trim e, List.mem_map.2 ⟨e, (mem_pieces raw [] (by simp)).2 he, rfl⟩, ?_, hn.1, ?_⟩
      · intro h0
        rcases hn with ⟨hne, ⟨_, h2⟩ | ⟨h1, _⟩⟩
        · rw [h0] at h2; exact hne h2
        · rw [h0] at h1; exact absurd h1 (by decide)
      · unfold entryHost
        rcases hn with ⟨hne, ⟨h1, h2⟩ | ⟨h1, u, h2, h3⟩⟩
        · rw [h1, h2]; simp [trim_trim]
        · rw [h1, h2, h3]; rfl
    · rintro ⟨x, hx, h0, hne, e⟩
      obtain ⟨y, hy, rfl⟩ := List.mem_map.1 hx
      refine ⟨y, by simpa using (mem_pieces raw [] (by simp)).1 hy, hne, ?_⟩
      unfold entryHost at e
      cases hh : has (t! "://") (trim y)
      · rw [hh] at e
        left
        refine ⟨rfl, ?_⟩
        simpa [trim_trim] using e.symm
      · rw [hh, if_pos rfl] at e
        right
        refine ⟨rfl, ?_⟩
        cases hp : parse (trim y) with
        | none => rw [hp] at e; exact absurd e.symm (by simpa [trim, lower] using hne)
        | some u => rw [hp] at e; exact ⟨u, rfl, e.symm⟩
  rw [key]
  unfold hosts
  split
  · rename_i ht
    constructor
    · intro h; cases h
    · rintro ⟨x, hx, h0, _⟩
      rw [← pieces_trim, ht] at hx
      simp [pieces, trim] at hx
      exact absurd hx h0
  · rw [List.mem_eraseDups, List.mem_filter, List.mem_map, pieces_trim]
    constructor
    · rintro ⟨⟨x, hx, e⟩, hne⟩
      rw [List.mem_filter] at hx
      exact ⟨x, hx.1, by simpa using hx.2, by simpa using hne, e⟩
    · rintro ⟨x, hx, h0, hne, e⟩
      exact ⟨⟨x, List.mem_filter.2 ⟨hx, by simpa using h0⟩, e⟩, by simpa using hne⟩

theorem allowed_iff {hs : List Text} {h : Text} : allowed hs h = true ↔ h ∈ hs := by
  unfold allowed
  rw [List.any_eq_true]
  constructor
  · rintro ⟨x, hx, e⟩
    rw [beq_iff_eq] at e
    exact e ▸ hx
  · intro hx; exact ⟨h, hx, by simp⟩

/-! ### C137: only hosts on the operator's list are contacted -/

/-- **C137.** Whatever address a client sends and whatever the servers answer, redirects included, every
request goes to a host on the operator's list, over http or https. -/
theorem c137_contacted (parse : Text → Option Url) (raw address : Text) (u : Url) (hc : check parse raw address = .ok u)
    (world : Nat → Url → Reply) (us : List Url) (g : Got) (hf : Fetch (hosts parse raw) world 0 u us g) :
    ∀ v ∈ us, Listed parse raw (hostOf v) ∧ web v = true := by
  have h0 : Listed parse raw (hostOf u) ∧ web u = true := by
    unfold check at hc
    split at hc
    · cases hc
    · split at hc
      · cases hc
      · split at hc
        · cases hc
        · split at hc
          · cases hc
          · cases hc
            rename_i h1 h2 h3
            exact ⟨(hosts_iff _ _ _).1 (allowed_iff.1 (by simpa using h3)), by simpa using h1⟩
  generalize hn : (0 : Nat) = n at hf
  clear hn hc
  induction hf with
  | body _ => simpa using h0
  | other _ => simpa using h0
  | failed => simpa using h0
  | stop _ _ => simpa using h0
  | noTransport _ _ => simpa using h0
  | follow _ h1 h2 hw _ ih =>
    intro v hv
    rcases List.mem_cons.1 hv with rfl | hv
    · exact h0
    · exact ih ⟨(hosts_iff _ _ _).1 (allowed_iff.1 h2), hw⟩ v hv

/-- Without a list, nothing is contacted. -/
theorem c137_empty (parse : Text → Option Url) (raw address : Text) (he : ∀ c ∈ raw, isSpace c = true ∨ c = ',') (u : Url) :
    check parse raw address ≠ .ok u := by
  intro hc
  have h := (c137_contacted parse raw address u hc (fun _ _ => .failed) [u] .nothing .failed u (by simp)).1
  obtain ⟨e, ⟨a, b, hr, hcom, _, _⟩, hne, hn⟩ := h
  have hs : ∀ c ∈ e, isSpace c = true := by
    intro c hm
    rcases he c (by rw [hr]; simp [hm]) with h | h
    · exact h
    · exact absurd (h ▸ hm) hcom
  have ht : trim e = [] := by
    have := trim_after (t := []) hs
    rw [List.nil_append] at this
    rw [this]; rfl
  rw [ht] at hn
  rcases hn with ⟨_, h2⟩ | ⟨h1, _⟩
  · exact hne h2
  · exact absurd h1 (by decide)

/-- A parser for the examples. -/
def demoParse (t : Text) : Option Url :=
  if t = t! "https://Files.example.com/a.csv" then some ⟨t! "https", t! "Files.example.com", [], t! "/a.csv"⟩
  else if t = t! "https://cdn.example.com/x" then some ⟨t! "https", t! "cdn.example.com", [], t! "/x"⟩
  else if t = t! "http://files.example.com:8080/a.csv" then some ⟨t! "http", t! "files.example.com", t! "8080", t! "/a.csv"⟩
  else none

/-- The list names the host asked for and another, by an address. A redirect to the other is followed, one
from there to the machine itself is not. -/
example : hosts demoParse (t! " files.example.com ,, https://cdn.example.com/x") = [t! "files.example.com", t! "cdn.example.com"] ∧
    check demoParse (t! " files.example.com ,, https://cdn.example.com/x") (t! "https://Files.example.com/a.csv") =
      .ok ⟨t! "https", t! "Files.example.com", [], t! "/a.csv"⟩ := by decide +kernel

example : Fetch [t! "files.example.com", t! "cdn.example.com"]
    (fun n _ => if n = 0 then .redirect ⟨t! "https", t! "cdn.example.com", [], []⟩ else .redirect ⟨t! "http", t! "127.0.0.1", [], []⟩) 0
    ⟨t! "https", t! "Files.example.com", [], t! "/a.csv"⟩
    [⟨t! "https", t! "Files.example.com", [], t! "/a.csv"⟩, ⟨t! "https", t! "cdn.example.com", [], []⟩] .nothing :=
  .follow rfl (by decide) (by decide) (by decide) (.stop rfl (.inr (by decide)))

/-! ### C138: a host on the list can be downloaded from -/

/-- The host an entry without a scheme means: what is before the port. -/
def beforePort (e : Text) : Text := (trim e).takeWhile (· ≠ ':')

/-- **C138 in full**: an entry, with a port or without, admits the addresses of its host. -/
def C138Full : Prop :=
  ∀ (parse : Text → Option Url) (raw e address : Text) (u : Url), Entry raw e → has (t! "://") (trim e) = false →
    parse address = some u → web u = true → hostOf u ≠ [] → hostOf u = lower (beforePort e) → check parse raw address = .ok u

theorem c138_full_fails : ¬ C138Full := by
  intro h
  have := h demoParse (t! "files.example.com:8080") (t! "files.example.com:8080") (t! "http://files.example.com:8080/a.csv")
    ⟨t! "http", t! "files.example.com", t! "8080", t! "/a.csv"⟩
    ⟨[], [], by simp, by decide, .inl rfl, .inl rfl⟩ (by decide) (by decide) (by decide) (by decide) (by decide)
  exact absurd this (by decide)

/-- **C138, what holds**: an entry that is the bare name of a host or an address admits every http or https
address of the host, on any port. -/
theorem c138_admits_partial (parse : Text → Option Url) (raw address : Text) (u : Url) (hp : parse address = some u) (hw : web u = true)
    (hl : Listed parse raw (hostOf u)) : check parse raw address = .ok u := by
  have hne : hostOf u ≠ [] := by obtain ⟨_, _, hn⟩ := hl; exact hn.1
  unfold check
  rw [hp]
  simp only
  rw [if_neg (by rw [hw]; decide), if_neg hne, if_neg (by rw [allowed_iff.2 ((hosts_iff _ _ _).2 hl)]; decide)]

/-! ### C139: a download is stored whole or refused -/

/-- **C139 in full**: of a downloaded table, all rows reach the workers or none. -/
def C139Full : Prop :=
  ∀ (limit : Nat) (headers : List Text) (recs : List (List Text)) (body : Text), Written (headers :: recs) body →
    ∀ ls, csvLines limit body = some ls → some ls = Csv.lines body

/-- **C139, what holds**: a body no longer than one byte over the limit is read whole. -/
theorem c139_whole_partial (limit : Nat) (body : Text) (h : body.length ≤ limit + 1) : csvLines limit body = Csv.lines body := by
  unfold csvLines cut
  rw [List.take_of_length_le h]

def head6 : List Text := [t! "id", t! "currency", t! "reference", t! "description", t! "date", t! "amount"]

/-- A row whose description is `n` characters long. -/
def long (n : Nat) (amount : Text) : List Text :=
  [t! "x", t! "USD", t! "r", List.replicate n 'd', t! "2024-01-01T00:00:00Z", amount]

def headText : Text := t! "id,currency,reference,description,date,amount"

def longText (n : Nat) (amount : Text) : Text := t! "x" ++ ',' :: (t! "USD" ++ ',' :: (t! "r" ++ ',' :: (List.replicate n 'd' ++ ',' :: (t! "2024-01-01T00:00:00Z" ++ ',' :: amount))))

theorem head_record : RecordText head6 headText :=
  .more (w := t! "id") (.plain (by decide)) (.more (w := t! "currency") (.plain (by decide)) (.more (w := t! "reference") (.plain (by decide))
    (.more (w := t! "description") (.plain (by decide)) (.more (w := t! "date") (.plain (by decide)) (.one (w := t! "amount") (.plain (by decide)))))))

theorem long_record (n : Nat) {amount : Text} (h : ∀ c ∈ amount, c ≠ ',' ∧ c ≠ '"' ∧ c ≠ '\n' ∧ c ≠ '\r') : RecordText (long n amount) (longText n amount) := by
  refine .more (.plain (by decide)) (.more (.plain (by decide)) (.more (.plain (by decide)) (.more (.plain ?_) (.more (.plain (by decide)) (.one (.plain h))))))
  intro c hc
  rw [(List.mem_replicate.1 hc).2]
  decide

/-- A file with one such row. -/
def longFile (n : Nat) (amount : Text) : Text := headText ++ (['\n'] ++ longText n amount)

theorem long_written (n : Nat) {amount : Text} (h : ∀ c ∈ amount, c ≠ ',' ∧ c ≠ '"' ∧ c ≠ '\n' ∧ c ≠ '\r') :
    Written [head6, long n amount] (longFile n amount) :=
  .record head_record (by decide) .lf (.last (long_record n h) (by simp [longText]))

theorem long_lines (n : Nat) {amount : Text} (h : ∀ c ∈ amount, c ≠ ',' ∧ c ≠ '"' ∧ c ≠ '\n' ∧ c ≠ '\r') :
    Csv.lines (longFile n amount) = some [.cells ⟨"x", String.ofList (trim amount), "USD", "r", String.ofList (trim (List.replicate n 'd')), "2024-01-01T00:00:00Z"⟩] := by
  have e := Csv.rows_written (long_written n h)
  unfold Csv.lines
  rw [e]
  have hok : Csv.headerOk head6 = true := by decide +kernel
  have hcol : Csv.columns head6 = 6 := by decide +kernel
  have c1 : Csv.column head6 (t! "id") = some 0 := by decide +kernel
  have c2 : Csv.column head6 (t! "amount") = some 5 := by decide +kernel
  have c3 : Csv.column head6 (t! "currency") = some 1 := by decide +kernel
  have c4 : Csv.column head6 (t! "reference") = some 2 := by decide +kernel
  have c5 : Csv.column head6 (t! "description") = some 3 := by decide +kernel
  have c6 : Csv.column head6 (t! "date") = some 4 := by decide +kernel
  simp only [List.map_cons, List.map_nil, hok, if_true]
  have : Csv.line head6 (some (long n amount)) =
      .cells ⟨"x", String.ofList (trim amount), "USD", "r", String.ofList (trim (List.replicate n 'd')), "2024-01-01T00:00:00Z"⟩ := by
    unfold Csv.line
    have hl : (long n amount).length = head6.length := rfl
    simp only [Csv.sameLength, hl, if_true]
    unfold Csv.cells
    rw [if_neg (by rw [hl, hcol]; decide)]
    unfold Csv.cell
    rw [c1, c2, c3, c4, c5, c6]
    have i0 : (long n amount).getD 0 [] = t! "x" := rfl
    have i1 : (long n amount).getD 1 [] = t! "USD" := rfl
    have i2 : (long n amount).getD 2 [] = t! "r" := rfl
    have i3 : (long n amount).getD 3 [] = List.replicate n 'd' := rfl
    have i4 : (long n amount).getD 4 [] = t! "2024-01-01T00:00:00Z" := rfl
    have i5 : (long n amount).getD 5 [] = amount := rfl
    simp only [i0, i1, i2, i3, i4, i5]
    have s0 : String.ofList (trim (t! "x")) = "x" := by decide +kernel
    have s1 : String.ofList (trim (t! "USD")) = "USD" := by decide +kernel
    have s2 : String.ofList (trim (t! "r")) = "r" := by decide +kernel
    have s4 : String.ofList (trim (t! "2024-01-01T00:00:00Z")) = "2024-01-01T00:00:00Z" := by decide +kernel
    rw [s0, s1, s2, s4]
  rw [this]

/-- **C139 fails, with a wrong amount.** Under every limit, a file that says 1000 is accepted as one that
says 1: the body is cut in the middle of the amount. -/
theorem c139_amount_fails (limit : Nat) (hl : 100 ≤ limit) : ∃ n,
    Written [head6, long n (t! "1000")] (longFile n (t! "1000")) ∧
    (∃ d, Csv.lines (longFile n (t! "1000")) = some [.cells ⟨"x", "1000", "USD", "r", d, "2024-01-01T00:00:00Z"⟩] ∧
      csvLines limit (longFile n (t! "1000")) = some [.cells ⟨"x", "1", "USD", "r", d, "2024-01-01T00:00:00Z"⟩]) := by
  have hlen : ∀ n a, (longFile n a).length = 76 + n + a.length := by
    intro n a
    simp only [longFile, longText, headText, List.length_append, List.length_cons, List.length_nil, List.length_replicate]
    omega
  refine ⟨limit - 76, long_written _ (by decide), String.ofList (trim (List.replicate (limit - 76) 'd')), ?_, ?_⟩
  · rw [long_lines _ (by decide)]
    have : String.ofList (trim (t! "1000")) = "1000" := by decide +kernel
    rw [this]
  · have e : longFile (limit - 76) (t! "1000") = longFile (limit - 76) (t! "1") ++ t! "000" := by
      simp [longFile, longText]
    unfold csvLines cut
    rw [e, List.take_left' (by rw [hlen]; simp only [List.length_cons, List.length_nil]; omega), long_lines _ (by decide)]
    have : String.ofList (trim (t! "1")) = "1" := by decide +kernel
    rw [this]

/-- **C139 fails, with missing rows.** Whatever follows in the file after the limit is not stored, and
the upload is answered as if the file ended there. -/
theorem c139_rows_fail (limit : Nat) (p q : Text) (hp : p.length = limit + 1) : csvLines limit (p ++ q) = Csv.lines p := by
  unfold csvLines cut
  rw [← hp, List.take_left]

theorem c139_full_fails : ¬ C139Full := by
  intro h
  obtain ⟨n, hw, d, h1, h2⟩ := c139_amount_fails 1048576 (by decide)
  have := h 1048576 _ _ _ hw _ h2
  rw [h1] at this
  injection this with this
  injection this with this _
  injection this with this
  injection this with _ this
  exact absurd this (by decide)

/-! ### C140: a file without a known extension is recognised by its content -/

/-- **C140 in full**: a table and a JSON text are given to their readers, whatever the name of the file. -/
def C140Full : Prop :=
  ∀ (ty : Types) (name t : Text), ty.byName name = none → ty.signature (header t) = none →
    ((∃ headers recs, Written (headers :: recs) t ∧ Csv.Complete headers ∧ ∀ r ∈ recs, r.length = headers.length) → reader ty name t = .csv) ∧
    (ty.json t = true → reader ty name t = .json)

/-- **C140 fails for every text of 512 bytes or more**, table or not: it is refused. -/
theorem c140_text_fails (ty : Types) (name t : Text) (hn : ty.byName name = none) (hs : ty.signature (header t) = none)
    (hl : 512 ≤ t.length) (ht : ∀ c ∈ t, binary c = false) : reader ty name t = .none := by
  have hh : header t = t.take 512 := by
    unfold header
    rw [show 512 - t.length = 0 from by omega]; simp
  have hb : (header t).any binary = false := by
    rw [hh, List.any_eq_false]
    intro c hc
    rw [ht c (List.mem_of_mem_take hc)]; decide
  unfold reader fileType
  rw [hn]
  simp only
  unfold byContent sniff
  rw [hs]
  simp only [hb]
  generalize looksLikeCsv (header t) = a
  generalize ty.json (header t) = b
  cases a <;> cases b <;> decide

/-- **C140 fails for every JSON text**: without the extension it is never read as JSON. A valid JSON text
holds no control characters; that is all the proof uses of `json.Valid`. -/
theorem c140_json_fails (ty : Types) (hj : ∀ d, ty.json d = true → ∀ c ∈ d, binary c = false) (name t : Text) (hn : ty.byName name = none)
    (hs : ty.signature (header t) = none) : reader ty name t ≠ .json := by
  unfold reader fileType
  rw [hn]
  simp only
  unfold byContent sniff
  rw [hs]
  simp only
  cases hb : (header t).any binary
  · generalize looksLikeCsv (header t) = a
    generalize ty.json (header t) = b
    cases a <;> cases b <;> decide
  · have : ty.json (header t) = false := by
      cases h : ty.json (header t)
      · rfl
      · rw [List.any_eq_true] at hb
        obtain ⟨c, hc, h2⟩ := hb
        rw [hj _ h c hc] at h2; cases h2
    rw [this]
    cases looksLikeCsv (header t) <;> decide

/-- Types on a system without a list of its own; nothing is JSON but the empty array. -/
def bare : Types := { byName := fun _ => none, signature := fun _ => none, json := fun d => d == t! "[]" }

theorem c140_full_fails : ¬ C140Full := by
  intro h
  have := (h bare [] (t! "[]") rfl rfl).2 (by decide)
  exact c140_json_fails bare (fun d hd c hc => by
    have : d = t! "[]" := by simpa [bare] using hd
    rw [this] at hc
    revert c
    decide) [] (t! "[]") rfl rfl this

/-- Lines with line ends between them. -/
def joined : Text → List Text → Text
  | l, [] => l
  | l, l' :: ls => l ++ '\n' :: joined l' ls

theorem splitLines_skip : ∀ (l t cur : Text), '\n' ∉ l → splitLines cur (l ++ t) = splitLines (cur ++ l) t := by
  intro l
  induction l with
  | nil => intro t cur _; simp
  | cons c l ih =>
    intro t cur h
    simp only [List.mem_cons, not_or] at h
    rw [List.cons_append, splitLines, if_neg (Ne.symm h.1), ih t _ h.2]
    simp

theorem splitLines_joined (z : Text) (hz : '\n' ∉ z) : ∀ (ls : List Text) (l : Text), '\n' ∉ l → (∀ x ∈ ls, '\n' ∉ x) →
    ∃ front last, splitLines [] (joined l ls ++ z) = front ++ [last ++ z] ∧ front ++ [last] = l :: ls := by
  intro ls
  induction ls with
  | nil =>
    intro l hl _
    refine ⟨[], l, ?_, rfl⟩
    rw [joined, splitLines_skip _ _ _ hl]
    have := splitLines_skip z [] l hz
    rw [List.append_nil] at this
    rw [List.nil_append, this]; rfl
  | cons x ls ih =>
    intro l hl h
    obtain ⟨front, last, h1, h2⟩ := ih x (h x (by simp)) (fun y hy => h y (by simp [hy]))
    refine ⟨l :: front, last, ?_, by rw [List.cons_append, h2]⟩
    rw [joined, List.append_assoc, List.cons_append, splitLines_skip _ _ _ hl, splitLines, if_pos rfl, h1]
    simp

/-- **C140, what holds**: a file whose extension the system knows is given to the reader of its type. -/
theorem c140_extension_partial (ty : Types) (name t : Text) :
    (ty.byName name = some "text/csv; charset=utf-8" ∨ ty.byName name = some "text/csv" → reader ty name t = .csv) ∧
    (ty.byName name = some "application/json" → reader ty name t = .json) := by
  unfold reader fileType
  constructor
  · rintro (h | h) <;> rw [h] <;> simp
  · intro h; rw [h]; simp

/-- **C140, what holds for short files**: a table of fewer than 512 bytes, with the same number of commas
in every line, at least one, and no line end after the last line, is recognised. -/
theorem c140_short_partial (ty : Types) (name : Text) (l l' : Text) (ls : List Text) (hn : ty.byName name = none)
    (hs : ty.signature (header (joined l (l' :: ls))) = none) (hlen : (joined l (l' :: ls)).length < 512)
    (hnl : ∀ x ∈ l :: l' :: ls, '\n' ∉ x) (hc : ∀ x ∈ l :: l' :: ls, x.count ',' = l.count ',') (h1 : 1 ≤ l.count ',') :
    reader ty name (joined l (l' :: ls)) = .csv := by
  have hz : '\n' ∉ List.replicate (512 - (joined l (l' :: ls)).length) '\x00' := by
    intro h
    exact absurd (List.mem_replicate.1 h).2 (by decide)
  have hcz : (List.replicate (512 - (joined l (l' :: ls)).length) '\x00').count ',' = 0 := by
    rw [List.count_replicate]; rfl
  have hh : header (joined l (l' :: ls)) = joined l (l' :: ls) ++ List.replicate (512 - (joined l (l' :: ls)).length) '\x00' := by
    unfold header
    rw [List.take_of_length_le (by omega)]
  have hb : (header (joined l (l' :: ls))).any binary = true := by
    rw [hh, List.any_append, Bool.or_eq_true, List.any_eq_true, List.any_eq_true]
    exact .inr ⟨'\x00', List.mem_replicate.2 ⟨by omega, rfl⟩, by decide⟩
  have hcsv : looksLikeCsv (header (joined l (l' :: ls))) = true := by
    rw [hh]
    generalize List.replicate (512 - (joined l (l' :: ls)).length) '\x00' = z at hz hcz
    obtain ⟨front, last, e1, e2⟩ := splitLines_joined z hz (l' :: ls) l (hnl l (by simp)) (fun x hx => hnl x (by simp [List.mem_cons.1 hx]))
    unfold looksLikeCsv
    rw [e1]
    cases front with
    | nil => simp at e2
    | cons f front =>
      rw [List.cons_append] at e2
      injection e2 with ef er
      subst ef
      simp only [List.cons_append]
      simp only [Bool.and_eq_true, decide_eq_true_eq]
      refine ⟨⟨by simp, ?_⟩, by unfold count; omega⟩
      rw [List.all_eq_true]
      intro x hx
      have hx := List.mem_of_mem_take hx
      rw [Bool.or_eq_true]
      right
      rw [beq_iff_eq]
      unfold count
      rcases List.mem_append.1 hx with h | h
      · exact hc x (by rw [← er]; simp [h])
      · rw [List.mem_singleton] at h
        rw [h, List.count_append, hcz, Nat.add_zero]
        exact hc last (by rw [← er]; simp)
  unfold reader fileType
  rw [hn]
  simp only
  unfold byContent sniff
  rw [hs]
  rw [hb, hcsv]
  simp

-- The same short table with a line end after its last line is refused.
example : reader bare [] (t! "id,amount\nx,1") = .csv ∧ reader bare [] (t! "id,amount\nx,1\n") = .none := by decide +kernel

end Blnk.Down
