import Verif.Model.FilterDates
import Verif.Props.Filter
/-
C200: a date in a filter stands for the whole period it names. C201: a moment is the same moment
whatever zone it is written in. C202: a filter means the same in the URL and in a JSON body.
-/
namespace Blnk.Filter

/-! ### Specification: what a client writes -/

inductive Zone
  | utc
  | offset (neg : Bool) (hours minutes : Nat)
deriving DecidableEq, Repr

/-- Seconds, the digits after the point, the zone. -/
structure Secs where
  secs : Nat
  frac : List (Fin 10) := []
  zone : Option Zone := none
deriving DecidableEq, Repr

structure TimeOfDay where
  hour : Nat
  minute : Nat
  secs : Option Secs := none
deriving DecidableEq, Repr

/-- A date, perhaps with a time of day. -/
structure Stamp where
  year : Nat
  month : Nat
  day : Nat
  time : Option TimeOfDay := none
deriving DecidableEq, Repr

/-- The ways to write the same thing: `2024/01/31`, or a blank instead of the `T`. -/
structure Style where
  slash : Bool := false
  blank : Bool := false
deriving DecidableEq, Repr

def Zone.Ok : Zone → Prop
  | .utc => True
  | .offset _ h m => h ≤ 14 ∧ m < 60

def Secs.Ok (s : Secs) : Prop := s.secs < 60 ∧ s.frac.length ≤ 9 ∧ ∀ z, s.zone = some z → z.Ok

def TimeOfDay.Ok (t : TimeOfDay) : Prop := t.hour < 24 ∧ t.minute < 60 ∧ ∀ s, t.secs = some s → s.Ok

/-- A date of the calendar. -/
def Stamp.Ok (w : Stamp) : Prop :=
  w.year < 10000 ∧ 1 ≤ w.month ∧ w.month ≤ 12 ∧ 1 ≤ w.day ∧ w.day ≤ monthLen w.year w.month ∧ ∀ t, w.time = some t → t.Ok

def Stamp.secs? (w : Stamp) : Option Secs := w.time.bind (·.secs)
def Stamp.zone? (w : Stamp) : Option Zone := w.secs?.bind (·.zone)

/-- Slashes are for dates alone, a blank for times without a zone. -/
def Style.Fits (y : Style) (w : Stamp) : Prop := (y.slash = true → w.time = none) ∧ (y.blank = true → w.zone? = none)

/-- `k` decimal digits of a number. -/
def pad : Nat → Nat → List Char
  | 0, _ => []
  | k + 1, n => pad k (n / 10) ++ [Char.ofNat (48 + n % 10)]

def Zone.text : Zone → List Char
  | .utc => ['Z']
  | .offset neg h m => (if neg then '-' else '+') :: (pad 2 h ++ ':' :: pad 2 m)

def fracText (ds : List (Fin 10)) : List Char :=
  match ds with
  | [] => []
  | ds => '.' :: ds.map (fun d => Char.ofNat (48 + d.val))

def Secs.text (s : Secs) : List Char := pad 2 s.secs ++ (fracText s.frac ++ (s.zone.map Zone.text).getD [])

def TimeOfDay.text (t : TimeOfDay) : List Char :=
  pad 2 t.hour ++ ':' :: (pad 2 t.minute ++ match t.secs with
    | none => []
    | some s => ':' :: s.text)

/-- The text a client sends. -/
def Stamp.text (y : Style) (w : Stamp) : List Char :=
  let sep := if y.slash then '/' else '-'
  pad 4 w.year ++ sep :: (pad 2 w.month ++ sep :: (pad 2 w.day ++ match w.time with
    | none => []
    | some t => (if y.blank then ' ' else 'T') :: t.text))

/-- The value of the digits after the point, in nanoseconds. -/
def fracNanos : List (Fin 10) → Nat → Nat
  | [], _ => 0
  | d :: ds, unit => d.val * unit + fracNanos ds (unit / 10)

def Secs.nanos (s : Secs) : Nat := s.secs * 1000000000 + fracNanos s.frac 100000000

def TimeOfDay.nanos (t : TimeOfDay) : Nat :=
  (t.hour * 60 + t.minute) * 60000000000 + match t.secs with
    | none => 0
    | some s => s.nanos

/-- When the period begins, by the digits. -/
def Stamp.start (w : Stamp) : Nat := dayNumber w.year w.month w.day * 86400000000000 + match w.time with
    | none => 0
    | some t => t.nanos

/-- How long what is written lasts: a day, a minute, a second, or a unit of the last digit. -/
def Stamp.lasts (w : Stamp) : Nat :=
  match w.time with
  | none => 86400000000000
  | some t => match t.secs with
    | none => 60000000000
    | some s => 10 ^ (9 - s.frac.length)

def Stamp.stop (w : Stamp) : Nat := w.start + w.lasts

/-- Digits after the point. -/
def Stamp.digits (w : Stamp) : Nat := match w.secs? with | some s => s.frac.length | none => 0

/-- What an operator asks of a moment, given the written dates. -/
def asksMoment (op : Op) (ws : List Stamp) (x : Nat) : Prop :=
  match op, ws with
  | .eq, [w] => w.start ≤ x ∧ x < w.stop
  | .ne, [w] => ¬ (w.start ≤ x ∧ x < w.stop)
  | .gt, [w] => w.stop ≤ x
  | .gte, [w] => w.start ≤ x
  | .lt, [w] => x < w.start
  | .lte, [w] => x < w.stop
  | .between, [a, b] => a.start ≤ x ∧ x < b.stop
  | .isIn, ws => ∃ w ∈ ws, w.start ≤ x ∧ x < w.stop
  | _, _ => False

/-- How PostgreSQL compares a time column with an argument: the argument is taken to the nearest
microsecond. -/
def cmpMoment (c : Cmp) (x t : Nat) : Bool :=
  let t := (t + 500) / 1000 * 1000
  match c with
  | .eq => x == t
  | .ne => x != t
  | .gt => decide (t < x)
  | .ge => decide (t ≤ x)
  | .lt => decide (x < t)
  | .le => decide (x ≤ t)
  | _ => false

/-- `field` is a time column whose rows hold the moments `at`, in whole microseconds. -/
def TimeColumn {Row : Type} (db : Db Row) (field : String) (at_ : Row → Nat) : Prop :=
  (∀ c t r, db.cmp (.col field) c (.instant t) r = cmpMoment c (at_ r) t) ∧ ∀ r, at_ r % 1000 = 0

/-- A plain column of a table, one that filters are accepted for. -/
def PlainField (table field : String) : Prop :=
  (validFields table).contains field = true ∧ keyOf field = none ∧ field ≠ "balance_id" ∧ field ≠ "indicator"

/-- Whether the operator and the number of dates go together. -/
def Counts (op : Op) (ws : List Stamp) : Prop :=
  match op with
  | .eq | .ne | .gt | .gte | .lt | .lte => ws.length = 1
  | .between => ws.length = 2
  | .isIn => 1 ≤ ws.length
  | _ => False

/-- The value of the parameter: several dates are joined by `|` or by commas. -/
def joined (sep : Char) : List (List Char) → List Char
  | [] => []
  | [a] => a
  | a :: as => a ++ sep :: joined sep as

def urlValue (op : Op) (ts : List (List Char)) : List Char := joined (if op = .between then '|' else ',') ts

/-- The rows selected by one filter in the URL: `none` for a refusal or an error. -/
def urlSelects {Row : Type} (db : Db Row) (float : String → Option Val) (table field : String) (op : Op)
    (ts : List (List Char)) (r : Row) : Option Bool :=
  match urlFilter float field op (urlValue op ts) with
  | none => none
  | some f => match build table [f] 1 with
    | none => none
    | some b => selects db false 1 b r

/-- The same filter in a JSON body. -/
def bodySelects {Row : Type} (db : Db Row) (table field : String) (op : Op) (ts : List (List Char)) (r : Row) : Option Bool :=
  match build table [bodyFilter field op ts] 1 with
  | none => none
  | some b => selects db false 1 b r

/-- No date reads as a number. -/
def NotNumbers (float : String → Option Val) : Prop :=
  ∀ (w : Stamp) (y : Style), w.Ok → y.Fits w → float (String.ofList (w.text y)) = none

/-! ### Digits -/

theorem digit_char (n : Nat) (h : n < 10) : isDigit (Char.ofNat (48 + n)) = true ∧ digitVal (Char.ofNat (48 + n)) = n := by
  have : ∀ d : Fin 10, isDigit (Char.ofNat (48 + d.val)) = true ∧ digitVal (Char.ofNat (48 + d.val)) = d.val := by decide
  exact this ⟨n, h⟩

theorem pad_digits : ∀ (k n : Nat) (c : Char), c ∈ pad k n → isDigit c = true
  | 0, _, _, h => by cases h
  | k + 1, n, c, h => by
    rw [pad, List.mem_append] at h
    rcases h with h | h
    · exact pad_digits k _ c h
    · rw [List.mem_singleton] at h
      subst h
      exact (digit_char _ (Nat.mod_lt _ (by omega))).1

theorem number_add : ∀ (k j acc : Nat) (cs : List Char),
    number (k + j) acc cs = (number k acc cs).bind (fun p => number j p.1 p.2)
  | 0, j, acc, cs => by rw [Nat.zero_add]; rfl
  | k + 1, j, acc, [] => by rw [Nat.add_right_comm]; rfl
  | k + 1, j, acc, c :: cs => by
    rw [Nat.add_right_comm, number, number]
    split
    · exact number_add k j _ cs
    · rfl

theorem number_pad : ∀ (k n acc : Nat) (rest : List Char), n < 10 ^ k →
    number k acc (pad k n ++ rest) = some (acc * 10 ^ k + n, rest)
  | 0, n, acc, rest, h => by
    have : n = 0 := by simpa using h
    subst this; simp [pad, number]
  | k + 1, n, acc, rest, h => by
    have hq : n / 10 < 10 ^ k := by rw [Nat.pow_succ] at h; omega
    rw [pad, List.append_assoc, number_add, number_pad k _ _ _ hq]
    have hd := digit_char (n % 10) (Nat.mod_lt _ (by omega))
    simp only [Option.bind_some, List.singleton_append, number, hd.1, if_true, hd.2]
    rw [Nat.pow_succ]
    congr 2
    rw [Nat.add_mul]
    have := Nat.div_add_mod n 10
    rw [Nat.mul_assoc]
    omega

theorem hourNumber_pad (n : Nat) (rest : List Char) (h : n < 100) : hourNumber (pad 2 n ++ rest) = some (n, rest) := by
  have h1 := digit_char (n / 10 % 10) (Nat.mod_lt _ (by omega))
  have h2 := digit_char (n % 10) (Nat.mod_lt _ (by omega))
  simp only [pad, List.nil_append, List.cons_append, hourNumber, h1, h2, if_true]
  congr 2
  omega

def fracChars (ds : List (Fin 10)) : List Char := ds.map (fun d => Char.ofNat (48 + d.val))

theorem fracChars_digits (ds : List (Fin 10)) (c : Char) (h : c ∈ fracChars ds) : isDigit c = true := by
  obtain ⟨d, -, rfl⟩ := List.mem_map.1 h
  exact (digit_char _ d.isLt).1

theorem takeWhile_all {p : Char → Bool} : ∀ {a b : List Char}, (∀ c ∈ a, p c = true) → (∀ c, b.head? = some c → p c = false) →
    (a ++ b).takeWhile p = a ∧ (a ++ b).dropWhile p = b
  | [], b, _, hb => by
    cases b with
    | nil => exact ⟨rfl, rfl⟩
    | cons c b => simp [hb c rfl]
  | x :: a, b, ha, hb => by
    have ih := takeWhile_all (a := a) (b := b) (fun c h => ha c (List.mem_cons_of_mem _ h)) hb
    have hx := ha x (List.mem_cons_self ..)
    simp [hx, ih.1, ih.2]

theorem foldl_frac : ∀ (ds : List (Fin 10)) (acc k : Nat), ds.length ≤ k →
    (fracChars ds).foldl (fun n c => n * 10 + digitVal c) acc * 10 ^ (k - ds.length) =
      acc * 10 ^ k + fracNanos ds (10 ^ (k - 1))
  | [], acc, k, _ => by simp [fracChars, fracNanos]
  | d :: ds, acc, 0, h => by simp at h
  | d :: ds, acc, k + 1, h => by
    have hl : ds.length ≤ k := by simpa using h
    have := foldl_frac ds (acc * 10 + d.val) k hl
    simp only [fracChars, List.map_cons, List.foldl_cons, (digit_char _ d.isLt).2, List.length_cons, fracNanos] at this ⊢
    rw [show k + 1 - (ds.length + 1) = k - ds.length by omega, this]
    have h10 : 10 ^ k / 10 = 10 ^ (k - 1) ∨ ds = [] := by
      cases k with
      | zero => right; exact List.eq_nil_of_length_eq_zero (by omega)
      | succ k => left; rw [Nat.pow_succ]; simp
    have e : fracNanos ds (10 ^ (k - 1)) = fracNanos ds (10 ^ k / 10) := by
      rcases h10 with h | h
      · rw [h]
      · rw [h]; rfl
    rw [e]
    simp only [Nat.add_sub_cancel, Nat.pow_succ, Nat.add_mul]
    rw [Nat.mul_assoc, Nat.mul_comm 10, Nat.add_assoc]

theorem nanosOf_frac (ds : List (Fin 10)) (h : ds.length ≤ 9) : nanosOf (fracChars ds) = fracNanos ds 100000000 := by
  have hl : (fracChars ds).length = ds.length := List.length_map ..
  unfold nanosOf
  rw [List.take_of_length_le (by omega), hl, foldl_frac ds 0 9 h]
  simp

/-! ### Every written date is read as what it says -/

theorem zone_head (z : Zone) (c : Char) (h : z.text.head? = some c) : isDigit c = false := by
  cases z with
  | utc => cases h; decide
  | offset neg a b =>
    cases neg
    · cases h; decide
    · cases h; decide

theorem zoneText_head (z : Option Zone) (c : Char) (h : ((z.map Zone.text).getD []).head? = some c) : isDigit c = false := by
  cases z with
  | none => cases h
  | some z => exact zone_head z c h

theorem isZone_text (z : Zone) (h : z.Ok) : isZone z.text = true := by
  cases z with
  | utc => decide
  | offset neg a b =>
    have h1 := digit_char (a / 10 % 10) (Nat.mod_lt _ (by omega))
    have h2 := digit_char (a % 10) (Nat.mod_lt _ (by omega))
    have h3 := digit_char (b / 10 % 10) (Nat.mod_lt _ (by omega))
    have h4 := digit_char (b % 10) (Nat.mod_lt _ (by omega))
    have hr : a / 10 % 10 * 10 + a % 10 ≤ 24 ∧ b / 10 % 10 * 10 + b % 10 ≤ 60 := by
      have := h.1; have := h.2; omega
    cases neg <;>
      simp [Zone.text, pad, isZone, h1.1, h2.1, h3.1, h4.1, h1.2, h2.2, h3.2, h4.2, hr.1, hr.2]

theorem fractionOf_text (s : Secs) (h : s.frac.length ≤ 9) :
    fractionOf (fracText s.frac ++ (s.zone.map Zone.text).getD []) =
      (fracNanos s.frac 100000000, (s.zone.map Zone.text).getD []) := by
  have hz := zoneText_head s.zone
  cases hf : s.frac with
  | nil =>
    simp only [fracText, List.nil_append, fracNanos]
    cases hzz : s.zone with
    | none => rfl
    | some z =>
      cases z with
      | utc => rfl
      | offset neg a b => cases neg <;> simp [Zone.text, fractionOf, pad]
  | cons d ds =>
    rw [hf] at h
    have e : fracText (d :: ds) = '.' :: fracChars (d :: ds) := rfl
    rw [e]
    have hd := (digit_char _ d.isLt).1
    have hsp := takeWhile_all (p := isDigit) (a := fracChars (d :: ds)) (b := (s.zone.map Zone.text).getD [])
      (fracChars_digits _) hz
    have hcons : fracChars (d :: ds) = Char.ofNat (48 + d.val) :: fracChars ds := rfl
    rw [hcons] at hsp ⊢
    simp only [List.cons_append] at hsp ⊢
    simp only [fractionOf]
    rw [if_pos ⟨Or.inl trivial, hd⟩, hsp.1, hsp.2, ← hcons, nanosOf_frac _ h]

theorem clockOf_text (t : TimeOfDay) (h : t.Ok) (zoned : Bool)
    (hz : zoned = false → (t.secs.bind (·.zone)) = none) : clockOf zoned t.text = some t.nanos := by
  obtain ⟨h1, h2, h3⟩ := h
  unfold clockOf TimeOfDay.text
  rw [hourNumber_pad _ _ (by omega)]
  simp only [Option.bind_eq_bind, Option.bind_some, literal, if_true]
  rw [number_pad 2 _ _ _ (by omega)]
  simp only [Option.bind_some, Nat.zero_mul, Nat.zero_add]
  rw [if_neg (by omega)]
  cases hs : t.secs with
  | none =>
    simp only [if_true, TimeOfDay.nanos, hs, Nat.add_zero]
  | some s =>
    obtain ⟨k1, k2, k3⟩ := h3 s hs
    rw [if_neg (by simp)]
    simp only [Secs.text, if_true, Option.bind_some]
    rw [number_pad 2 _ _ _ (by omega)]
    simp only [Option.bind_some, Nat.zero_mul, Nat.zero_add]
    rw [if_neg (by omega), fractionOf_text s k2]
    dsimp only
    have hc : (s.zone.map Zone.text).getD [] = [] ∨ (zoned = true ∧ isZone ((s.zone.map Zone.text).getD []) = true) := by
      cases hzz : s.zone with
      | none => left; rfl
      | some z =>
        right
        refine ⟨?_, isZone_text z (k3 z hzz)⟩
        cases zoned with
        | true => rfl
        | false =>
          have := hz rfl
          rw [hs] at this
          simp only [Option.bind_some] at this
          rw [hzz] at this; cases this
    rw [if_pos hc]
    simp only [TimeOfDay.nanos, hs, Secs.nanos, Option.some.injEq]
    omega

theorem parse_text (w : Stamp) (y : Style) (h : w.Ok) (hy : y.Fits w) : parseDateTime (w.text y) = some w.start := by
  obtain ⟨h1, h2, h3, h4, h5, h6⟩ := h
  have h31 : monthLen w.year w.month ≤ 31 := by
    unfold monthLen
    repeat' split
    all_goals omega
  unfold parseDateTime Stamp.text Stamp.start
  dsimp only
  rw [number_pad 4 _ _ _ (by omega)]
  simp only [Option.bind_eq_bind, Option.bind_some, Nat.zero_mul, Nat.zero_add]
  cases hs : y.slash with
  | true =>
    rw [hy.1 hs]
    simp only [if_true]
    rw [number_pad 2 _ _ _ (by omega)]
    simp only [Option.bind_some, Nat.zero_mul, Nat.zero_add, literal, if_true]
    rw [number_pad 2 _ _ _ (by omega)]
    simp only [Option.bind_some, Nat.zero_mul, Nat.zero_add]
    rw [if_neg (by simp; omega)]
    simp
  | false =>
    simp only [Bool.false_eq_true, if_false]
    rw [number_pad 2 _ _ _ (by omega)]
    simp only [Option.bind_some, Nat.zero_mul, Nat.zero_add, literal, if_true]
    rw [number_pad 2 _ _ _ (by omega)]
    simp only [Option.bind_some, Nat.zero_mul, Nat.zero_add]
    rw [if_neg (by omega)]
    cases ht : w.time with
    | none => simp only [Nat.add_zero]
    | some t =>
      have hok := h6 t ht
      cases hb : y.blank with
      | false =>
        simp only [Bool.false_eq_true, if_false]
        rw [clockOf_text t hok true (by simp), Option.map_some]
      | true =>
        simp only [if_true]
        have hz := hy.2 hb
        have hdrop : t.text.dropWhile (· = ' ') = t.text := by
          have hd := (digit_char (t.hour / 10 % 10) (Nat.mod_lt _ (by omega))).1
          have hne : (Char.ofNat (48 + t.hour / 10 % 10)) ≠ ' ' := by
            intro e; rw [e] at hd; revert hd; decide
          simp [TimeOfDay.text, pad, hne]
        rw [hdrop, clockOf_text t hok false (by
          intro _
          unfold Stamp.zone? Stamp.secs? at hz
          rw [ht] at hz
          exact hz), Option.map_some]

/-! ### The precision is the one written -/

theorem not_in_pad (k n : Nat) (c : Char) (hc : isDigit c = false) : c ∉ pad k n := by
  intro h
  rw [pad_digits k n c h] at hc
  cases hc

theorem not_in_frac (ds : List (Fin 10)) (c : Char) (hc : isDigit c = false) : c ∉ fracChars ds := by
  intro h
  rw [fracChars_digits ds c h] at hc
  cases hc

theorem count_pad (k n : Nat) (c : Char) (hc : isDigit c = false) : (pad k n).count c = 0 :=
  List.count_eq_zero.2 (not_in_pad k n c hc)

theorem fracText_cons (ds : List (Fin 10)) (h : ds ≠ []) : fracText ds = '.' :: fracChars ds := by
  cases ds with
  | nil => exact absurd rfl h
  | cons d ds => rfl

theorem dot_not_zone (z : Option Zone) : '.' ∉ (z.map Zone.text).getD [] := by
  cases z with
  | none => simp
  | some z =>
    cases z with
    | utc => decide
    | offset neg a b =>
      have h1 := not_in_pad 2 a '.' (by decide)
      have h2 := not_in_pad 2 b '.' (by decide)
      cases neg <;> simp [Zone.text, h1, h2]

/-- What is found after the point. -/
theorem fractionPart_text (pre : List Char) (ds : List (Fin 10)) (z : Option Zone) (hp : '.' ∉ pre) :
    fractionPart (pre ++ '.' :: (fracChars ds ++ (z.map Zone.text).getD [])) = fracChars ds := by
  have h1 : (pre ++ '.' :: (fracChars ds ++ (z.map Zone.text).getD [])).dropWhile (· != '.') =
      '.' :: (fracChars ds ++ (z.map Zone.text).getD []) :=
    (takeWhile_all (p := (· != '.')) (a := pre) (b := '.' :: (fracChars ds ++ (z.map Zone.text).getD []))
      (by intro c hc; simp only [bne_iff_ne, ne_eq]; rintro rfl; exact hp hc) (by intro c hc; cases hc; rfl)).2
  have h2 : (fracChars ds ++ (z.map Zone.text).getD []).takeWhile (· != '.') = fracChars ds ++ (z.map Zone.text).getD [] := by
    have := (takeWhile_all (p := (· != '.')) (a := fracChars ds ++ (z.map Zone.text).getD []) (b := [])
      (by
        intro c hc
        simp only [bne_iff_ne, ne_eq]
        rintro rfl
        rcases List.mem_append.1 hc with hc | hc
        · exact not_in_frac ds '.' (by decide) hc
        · exact dot_not_zone z hc) (by intro c hc; cases hc)).1
    rwa [List.append_nil] at this
  unfold fractionPart
  rw [h1]
  simp only [List.drop_succ_cons, List.drop_zero]
  rw [h2]
  have hsign : ∀ c ∈ fracChars ds, (c != '+' && c != '-') = true := by
    intro c hc
    have hd := fracChars_digits ds c hc
    simp only [Bool.and_eq_true, bne_iff_ne, ne_eq]
    constructor
    · rintro rfl; revert hd; decide
    · rintro rfl; revert hd; decide
  have hZ : ∀ c, (fracChars ds).getLast? = some c → c ≠ 'Z' := by
    intro c hc e
    have hd := fracChars_digits ds c (List.mem_of_getLast? hc)
    rw [e] at hd; revert hd; decide
  cases z with
  | none =>
    simp only [Option.map_none, Option.getD_none, List.append_nil]
    rw [if_neg (fun h => hZ _ h rfl)]
    have := (takeWhile_all (p := fun c => c != '+' && c != '-') (a := fracChars ds) (b := []) hsign (by intro c hc; cases hc)).1
    rwa [List.append_nil] at this
  | some z =>
    cases z with
    | utc =>
      rw [if_pos (by simp [Zone.text])]
      show ((fracChars ds ++ ['Z']).dropLast).takeWhile _ = _
      rw [List.dropLast_concat]
      have := (takeWhile_all (p := fun c => c != '+' && c != '-') (a := fracChars ds) (b := []) hsign (by intro c hc; cases hc)).1
      rwa [List.append_nil] at this
    | offset neg a b =>
      have hlast : (fracChars ds ++ ((some (Zone.offset neg a b)).map Zone.text).getD []).getLast? ≠ some 'Z' := by
        have hd := (digit_char (b % 10) (Nat.mod_lt _ (by omega))).1
        have hne : Char.ofNat (48 + b % 10) ≠ 'Z' := by
          intro e; rw [e] at hd; revert hd; decide
        simp [Zone.text, pad, hne]
      rw [if_neg hlast]
      refine (takeWhile_all (p := fun c => c != '+' && c != '-') (a := fracChars ds) hsign ?_).1
      intro c hc
      cases neg <;> (cases hc; decide)

/-- The precision of what is written. -/
def Stamp.prec (w : Stamp) : Prec :=
  match w.time with
  | none => .day
  | some t => match t.secs with
    | none => .minute
    | some s => if s.frac = [] then .second else if s.frac.length < 6 then .milliseconds else .microseconds

theorem precision_text (w : Stamp) (y : Style) (hy : y.Fits w) : precisionOf (w.text y) = w.prec := by
  have hd : ∀ k n, '.' ∉ pad k n := fun k n => not_in_pad k n '.' (by decide)
  have hT : ∀ k n, 'T' ∉ pad k n := fun k n => not_in_pad k n 'T' (by decide)
  have hb : ∀ k n, ' ' ∉ pad k n := fun k n => not_in_pad k n ' ' (by decide)
  have hc : ∀ k n, (pad k n).count ':' = 0 := fun k n => count_pad k n ':' (by decide)
  cases ht : w.time with
  | none =>
    have e : w.text y = pad 4 w.year ++ (if y.slash then '/' else '-') :: (pad 2 w.month ++ (if y.slash then '/' else '-') :: pad 2 w.day) := by
      unfold Stamp.text; rw [ht]; simp
    have h1 : (w.text y).contains '.' = false := by rw [e]; cases y.slash <;> simp [hd]
    have h2 : (w.text y).count ':' = 0 := by rw [e]; cases y.slash <;> simp [List.count_append, hc]
    have h3 : (w.text y).contains 'T' = false := by rw [e]; cases y.slash <;> simp [hT]
    have h4 : (w.text y).contains ' ' = false := by rw [e]; cases y.slash <;> simp [hb]
    unfold precisionOf
    rw [h1, h2, h3, h4]
    simp [Stamp.prec, ht]
  | some t =>
    have hs : y.slash = false := by
      cases h : y.slash with
      | false => rfl
      | true => have := hy.1 h; rw [ht] at this; cases this
    cases hsec : t.secs with
    | none =>
      have e : w.text y = pad 4 w.year ++ '-' :: (pad 2 w.month ++ '-' :: (pad 2 w.day ++ (if y.blank then ' ' else 'T') ::
          (pad 2 t.hour ++ ':' :: pad 2 t.minute))) := by
        unfold Stamp.text TimeOfDay.text; rw [ht, hs]; simp [hsec]
      have h1 : (w.text y).contains '.' = false := by rw [e]; cases y.blank <;> simp [hd]
      have h2 : (w.text y).count ':' = 1 := by rw [e]; cases y.blank <;> simp [List.count_append, hc]
      unfold precisionOf
      rw [h1, h2]
      simp [Stamp.prec, ht, hsec]
    | some s =>
      have e : w.text y = (pad 4 w.year ++ '-' :: (pad 2 w.month ++ '-' :: (pad 2 w.day ++ (if y.blank then ' ' else 'T') ::
          (pad 2 t.hour ++ ':' :: (pad 2 t.minute ++ ':' :: pad 2 s.secs))))) ++
          (fracText s.frac ++ (s.zone.map Zone.text).getD []) := by
        unfold Stamp.text TimeOfDay.text Secs.text; rw [ht, hs]; simp [hsec]
      have hdot : '.' ∉ (pad 4 w.year ++ '-' :: (pad 2 w.month ++ '-' :: (pad 2 w.day ++ (if y.blank then ' ' else 'T') ::
          (pad 2 t.hour ++ ':' :: (pad 2 t.minute ++ ':' :: pad 2 s.secs))))) := by cases y.blank <;> simp [hd]
      have hcol : 2 ≤ (w.text y).count ':' := by
        rw [e]
        cases y.blank <;> simp [List.count_append, hc] <;> omega
      by_cases hf : s.frac = []
      · have h1 : (w.text y).contains '.' = false := by
          rw [e, hf]
          simp only [fracText, List.nil_append, List.contains_eq_mem, decide_eq_false_iff_not]
          exact fun h => (List.mem_append.1 h).elim hdot (dot_not_zone s.zone)
        unfold precisionOf
        rw [h1, if_neg (by simp), if_neg (by simp), if_pos hcol]
        simp [Stamp.prec, ht, hsec, hf]
      · rw [fracText_cons _ hf, List.cons_append] at e
        have h1 : (w.text y).contains '.' = true := by rw [e]; simp
        have h2 : (fractionPart (w.text y)).length = s.frac.length := by
          rw [e, fractionPart_text _ _ _ hdot]; exact List.length_map ..
        have h3 : 0 < s.frac.length := List.length_pos_iff.2 hf
        unfold precisionOf
        rw [h1, h2]
        simp only [Bool.true_and, decide_eq_true_eq, Stamp.prec, ht, hsec, if_neg hf]
        by_cases h6 : s.frac.length < 6
        · rw [if_neg (by omega), if_pos h3, if_pos h6]
        · rw [if_pos (by omega), if_neg h6]

/-! ### The value the URL parser makes of a date -/

theorem parseDigits_none : ∀ (cs : List Char) (acc : Option Nat), (∃ c ∈ cs, isDigit c = false) → parseDigits cs acc = none
  | [], _, h => by obtain ⟨c, h, _⟩ := h; cases h
  | x :: cs, acc, h => by
    rw [parseDigits]
    split
    · rename_i hx
      refine parseDigits_none cs _ ?_
      obtain ⟨c, hm, hc⟩ := h
      rcases List.mem_cons.1 hm with rfl | hm
      · rw [hx] at hc; cases hc
      · exact ⟨c, hm, hc⟩
    · rfl

theorem text_head (w : Stamp) (y : Style) : ∃ c cs, w.text y = c :: cs ∧ isDigit c = true ∧ ∃ d ∈ c :: cs, isDigit d = false := by
  unfold Stamp.text
  simp only [pad, List.nil_append, List.cons_append]
  refine ⟨_, _, rfl, (digit_char _ (Nat.mod_lt _ (by omega))).1, (if y.slash then '/' else '-'), ?_, ?_⟩
  · simp
  · cases y.slash <;> decide

theorem parseInt_text (w : Stamp) (y : Style) : parseInt (String.ofList (w.text y)) = none := by
  obtain ⟨c, cs, e, hc, hx⟩ := text_head w y
  unfold parseInt
  rw [String.toList_ofList, e]
  have hn := parseDigits_none (c :: cs) none hx
  split
  · rename_i h
    rw [(List.cons.inj h).1] at hc
    exact absurd hc (by decide)
  · rename_i h
    rw [(List.cons.inj h).1] at hc
    exact absurd hc (by decide)
  · rw [hn]; rfl

theorem text_not_bool (w : Stamp) (y : Style) : String.ofList (w.text y) ≠ "true" ∧ String.ofList (w.text y) ≠ "false" := by
  obtain ⟨c, cs, e, hc, -⟩ := text_head w y
  rw [e]
  constructor
  · intro h
    have := congrArg String.toList h
    rw [String.toList_ofList] at this
    cases this
    revert hc; decide
  · intro h
    have := congrArg String.toList h
    rw [String.toList_ofList] at this
    cases this
    revert hc; decide

theorem value_text (float : String → Option Val) (w : Stamp) (y : Style) (h : w.Ok) (hy : y.Fits w)
    (hf : float (String.ofList (w.text y)) = none) :
    parseValue float readDate (String.ofList (w.text y)) = .time w.start w.prec := by
  unfold parseValue
  rw [parseInt_text, hf]
  dsimp only
  rw [if_neg (text_not_bool w y).1, if_neg (text_not_bool w y).2]
  unfold readDate
  rw [String.toList_ofList, parse_text w y h hy, precision_text w y hy]
  rfl

/-! ### Several values in one parameter -/

theorem splitBy_none (c : Char) : ∀ (a : List Char), c ∉ a → splitBy c a = [a]
  | [], _ => rfl
  | x :: a, h => by
    rw [splitBy, if_neg (fun e : x = c => h (by rw [e]; exact List.mem_cons_self ..)), splitBy_none c a (fun hm => h (List.mem_cons_of_mem _ hm))]

theorem splitBy_cons (c : Char) (b : List Char) : ∀ (a : List Char), c ∉ a → splitBy c (a ++ c :: b) = a :: splitBy c b
  | [], _ => by simp [splitBy]
  | x :: a, h => by
    rw [List.cons_append, splitBy, if_neg (fun e : x = c => h (by rw [e]; exact List.mem_cons_self ..)),
      splitBy_cons c b a (fun hm => h (List.mem_cons_of_mem _ hm))]

theorem splitBy_joined (c : Char) : ∀ (ts : List (List Char)), ts ≠ [] → (∀ t ∈ ts, c ∉ t) → splitBy c (joined c ts) = ts
  | [], h, _ => absurd rfl h
  | [a], _, h => splitBy_none c a (h a (List.mem_cons_self ..))
  | a :: b :: ts, _, h => by
    rw [joined, splitBy_cons c _ a (h a (List.mem_cons_self ..)),
      splitBy_joined c (b :: ts) (by simp) (fun t ht => h t (List.mem_cons_of_mem _ ht))]
    simp

/-- The characters dates are made of. -/
def dateChar (c : Char) : Bool := isDigit c || c == '-' || c == '/' || c == ':' || c == '.' || c == '+' || c == 'T' || c == 'Z' || c == ' '

theorem pad_all (k n : Nat) : (pad k n).all dateChar = true := by
  rw [List.all_eq_true]
  intro c hc
  simp [dateChar, pad_digits k n c hc]

theorem frac_all (ds : List (Fin 10)) : (fracText ds).all dateChar = true := by
  cases ds with
  | nil => rfl
  | cons d ds =>
    rw [fracText_cons _ (by simp), List.all_cons, Bool.and_eq_true, List.all_eq_true]
    refine ⟨by decide, ?_⟩
    intro c hc
    simp [dateChar, fracChars_digits _ c hc]

theorem zone_all (z : Option Zone) : ((z.map Zone.text).getD []).all dateChar = true := by
  cases z with
  | none => rfl
  | some z =>
    cases z with
    | utc => decide
    | offset neg a b => cases neg <;> simp [Zone.text, pad_all] <;> decide

theorem text_all (w : Stamp) (y : Style) : (w.text y).all dateChar = true := by
  have h1 : dateChar '-' = true := by decide
  have h2 : dateChar '/' = true := by decide
  have h3 : dateChar ':' = true := by decide
  have h4 : dateChar ' ' = true := by decide
  have h5 : dateChar 'T' = true := by decide
  have ht : ∀ t : TimeOfDay, t.text.all dateChar = true := by
    intro t
    unfold TimeOfDay.text Secs.text
    cases t.secs with
    | none => simp only [List.all_append, List.all_cons, pad_all, h3, List.all_nil, Bool.and_self]
    | some s => simp only [List.all_append, List.all_cons, pad_all, h3, frac_all, zone_all, Bool.and_self]
  unfold Stamp.text
  cases w.time with
  | none => cases y.slash <;> simp only [List.all_append, List.all_cons, pad_all, h1, h2, List.all_nil, Bool.and_self, if_true, Bool.false_eq_true, if_false]
  | some t => cases y.slash <;> cases y.blank <;>
      simp only [List.all_append, List.all_cons, pad_all, ht, h1, h2, h4, h5, Bool.and_self, if_true, Bool.false_eq_true, if_false]

theorem text_last (w : Stamp) (y : Style) : ∃ cs c, w.text y = cs ++ [c] ∧ (isDigit c = true ∨ c = 'Z') := by
  have hpad : ∀ n, ∃ cs c, pad 2 n = cs ++ [c] ∧ (isDigit c = true ∨ c = 'Z') := fun n =>
    ⟨_, _, rfl, Or.inl (digit_char _ (Nat.mod_lt _ (by omega))).1⟩
  have happ : ∀ (a b : List Char), (∃ cs c, b = cs ++ [c] ∧ (isDigit c = true ∨ c = 'Z')) →
      ∃ cs c, a ++ b = cs ++ [c] ∧ (isDigit c = true ∨ c = 'Z') := by
    rintro a b ⟨cs, c, rfl, h⟩
    exact ⟨a ++ cs, c, by simp, h⟩
  have hcons : ∀ (x : Char) (b : List Char), (∃ cs c, b = cs ++ [c] ∧ (isDigit c = true ∨ c = 'Z')) →
      ∃ cs c, x :: b = cs ++ [c] ∧ (isDigit c = true ∨ c = 'Z') := fun x b h => happ [x] b h
  have hzone : ∀ z : Zone, ∃ cs c, z.text = cs ++ [c] ∧ (isDigit c = true ∨ c = 'Z') := by
    intro z
    cases z with
    | utc => exact ⟨[], 'Z', rfl, Or.inr rfl⟩
    | offset neg a b => exact hcons _ _ (happ _ _ (hcons _ _ (hpad b)))
  have hsecs : ∀ s : Secs, ∃ cs c, s.text = cs ++ [c] ∧ (isDigit c = true ∨ c = 'Z') := by
    intro s
    unfold Secs.text
    cases hz : s.zone with
    | some z => exact happ _ _ (happ _ _ (hzone z))
    | none =>
      simp only [Option.map_none, Option.getD_none, List.append_nil]
      by_cases hf : s.frac = []
      · rw [hf]
        simp only [fracText, List.append_nil]
        exact hpad _
      · refine happ _ _ ?_
        rw [fracText_cons _ hf]
        refine hcons _ _ ?_
        have hne : fracChars s.frac ≠ [] := by simpa [fracChars] using hf
        exact ⟨_, _, (List.dropLast_concat_getLast hne).symm, Or.inl (fracChars_digits _ _ (List.getLast_mem hne))⟩
  have htime : ∀ t : TimeOfDay, ∃ cs c, t.text = cs ++ [c] ∧ (isDigit c = true ∨ c = 'Z') := by
    intro t
    unfold TimeOfDay.text
    refine happ _ _ (hcons _ _ ?_)
    cases t.secs with
    | none => simp only [List.append_nil]; exact hpad _
    | some s => exact happ _ _ (hcons _ _ (hsecs s))
  unfold Stamp.text
  refine happ _ _ (hcons _ _ (happ _ _ (hcons _ _ ?_)))
  cases w.time with
  | none => simp only [List.append_nil]; exact hpad _
  | some t => exact happ _ _ (hcons _ _ (htime t))

theorem trim_text (w : Stamp) (y : Style) : trimBlanks (w.text y) = w.text y := by
  obtain ⟨c, cs, e, hc, -⟩ := text_head w y
  obtain ⟨ds, d, e', hd⟩ := text_last w y
  have hcb : (c == ' ' || c == '\t' || c == '\n' || c == '\r') = false := by
    simp only [Bool.or_eq_false_iff, beq_eq_false_iff_ne]
    refine ⟨⟨⟨?_, ?_⟩, ?_⟩, ?_⟩ <;> (rintro rfl; revert hc; decide)
  have hdb : (d == ' ' || d == '\t' || d == '\n' || d == '\r') = false := by
    simp only [Bool.or_eq_false_iff, beq_eq_false_iff_ne]
    refine ⟨⟨⟨?_, ?_⟩, ?_⟩, ?_⟩ <;> (rintro rfl; revert hd; decide)
  unfold trimBlanks
  rw [e, List.dropWhile_cons_of_neg (by rw [hcb]; simp), ← e, e', List.reverse_append, List.reverse_singleton, List.singleton_append,
    List.dropWhile_cons_of_neg (by rw [hdb]; simp)]
  simp

/-! ### What one filter selects -/

/-- Dates as they are written. -/
def Written (ws : List (Stamp × Style)) : Prop := ∀ p ∈ ws, p.1.Ok ∧ p.2.Fits p.1

def spelled (ws : List (Stamp × Style)) : List (List Char) := ws.map (fun p => p.1.text p.2)

def timeVal (w : Stamp) : Val := .time w.start w.prec

/-- The filter the URL parser makes of dates. -/
def dated (field : String) (op : Op) (ws : List Stamp) : Filter :=
  match op with
  | .between | .isIn => ⟨field, op.name, .null, ws.map timeVal⟩
  | _ => ⟨field, op.name, match ws with | w :: _ => timeVal w | [] => .null, []⟩

theorem no_sep (sep : Char) (h : dateChar sep = false) (ws : List (Stamp × Style)) : ∀ t ∈ spelled ws, sep ∉ t := by
  intro t ht hs
  obtain ⟨p, -, rfl⟩ := List.mem_map.1 ht
  have := List.all_eq_true.1 (text_all p.1 p.2) sep hs
  rw [h] at this; cases this

theorem urlFilter_dates (float : String → Option Val) (hf : NotNumbers float) (field : String) (op : Op)
    (ws : List (Stamp × Style)) (hw : Written ws) (hc : Counts op (ws.map (·.1))) :
    urlFilter float field op (urlValue op (spelled ws)) = some (dated field op (ws.map (·.1))) := by
  have hv : ∀ p ∈ ws, parseValue float readDate (String.ofList (p.1.text p.2)) = timeVal p.1 := fun p hp =>
    value_text float p.1 p.2 (hw p hp).1 (hw p hp).2 (hf p.1 p.2 (hw p hp).1 (hw p hp).2)
  cases op <;> try (exact False.elim hc)
  case isIn =>
    have hne : spelled ws ≠ [] := by
      intro e
      have : ws = [] := by simpa [spelled] using e
      subst this
      simp [Counts] at hc
    unfold urlFilter urlValue dated
    dsimp only
    rw [if_neg (by decide), splitBy_joined ',' _ hne (no_sep ',' (by decide) ws)]
    congr 2
    unfold spelled
    rw [List.map_map, List.map_map]
    refine List.map_congr_left ?_
    intro p hp
    simp only [Function.comp_apply, trim_text]
    exact hv p hp
  case between =>
    match ws, hc, hw, hv with
    | [a, b], _, _, hv =>
      have hs := splitBy_joined '|' (spelled [a, b]) (by simp [spelled]) (no_sep '|' (by decide) [a, b])
      unfold urlFilter urlValue dated
      dsimp only
      rw [if_pos rfl, hs]
      simp only [spelled, List.map_cons, List.map_nil]
      rw [hv a (by simp), hv b (by simp)]
  all_goals
    match ws, hc, hw, hv with
    | [a], _, _, hv =>
      unfold urlFilter urlValue dated
      dsimp only
      simp only [spelled, List.map_cons, List.map_nil, joined]
      rw [hv a (by simp)]

theorem parseOp_name (op : Op) : parseOp op.name = some op := by
  cases op <;> decide

theorem valid_field {table field : String} (hp : PlainField table field) : (validFields table).isEmpty = false := by
  cases h : validFields table with
  | nil => have := hp.1; rw [h] at this; cases this
  | cons a b => rfl

/-- An accepted filter on a plain column selects the rows it means. -/
theorem one_selects {Row : Type} (db : Db Row) (hl : Laws db) (table : String) (f : Filter) (op : Op) (hp : PlainField table f.field)
    (ho : f.op = op.name) (hin : op = .isIn → f.values ≠ []) (hbt : op = .between → f.values.length = 2) (r : Row) :
    (match build table [f] 1 with | none => none | some b => selects db false 1 b r) =
      some (meansColumn db (.col f.field) op f r) := by
  obtain ⟨h1, h2, h3, h4⟩ := hp
  have hmp : metaPrefix.isPrefixOf f.field.toList = false := by
    unfold keyOf at h2
    split at h2
    · cases h2
    · rename_i h; exact Bool.eq_false_iff.2 h
  have hv : validOne table f = true := by
    unfold validOne
    rw [ho, parseOp_name]
    simp only [hmp, Bool.false_and, Bool.false_eq_true, if_false, h1, Bool.and_true]
    rw [if_neg (fun h => h3 h.2), Bool.and_true]
    cases op with
    | isIn => simpa using hin rfl
    | between => simpa using hbt rfl
    | _ => rfl
  have hb : build table [f] 1 = some (buildLoop table [f] 1) := by
    unfold build validate
    rw [if_neg (by simp), valid_field ⟨h1, h2, h3, h4⟩]
    simp [hv]
  rw [hb]
  dsimp only
  have hnd : ∀ g ∈ [f], ¬ Dropped g := by
    intro g hg
    rw [List.mem_singleton] at hg
    subst hg
    rintro ⟨h, -, -⟩
    rw [h2] at h; cases h
  rw [(c50_partial db hl table [f] 1 false _ hb hnd).2 (by
    have : onIndicator table f = false := by
      unfold onIndicator
      rw [Bool.and_eq_false_iff, beq_eq_false_iff_ne]
      exact Or.inl h4
    simp [this]) r]
  simp only [asks, List.isEmpty_cons, Bool.false_eq_true, if_false, List.all_cons, List.all_nil, Bool.and_true]
  unfold means
  rw [ho, parseOp_name]
  simp only [h2]
  rw [if_neg (fun h => h3 h.2), if_neg (fun h => h4 h.2)]

theorem dated_field (field : String) (op : Op) (ws : List Stamp) : (dated field op ws).field = field ∧ (dated field op ws).op = op.name := by
  cases op <;> exact ⟨rfl, rfl⟩

/-- What a filter with dates in the URL selects. -/
theorem url_selects {Row : Type} (db : Db Row) (hl : Laws db) (float : String → Option Val) (hf : NotNumbers float)
    (table field : String) (hp : PlainField table field) (op : Op) (ws : List (Stamp × Style)) (hw : Written ws)
    (hc : Counts op (ws.map (·.1))) (r : Row) :
    urlSelects db float table field op (spelled ws) r =
      some (meansColumn db (.col field) op (dated field op (ws.map (·.1))) r) := by
  unfold urlSelects
  rw [urlFilter_dates float hf field op ws hw hc]
  dsimp only
  have hd := dated_field field op (ws.map (·.1))
  have := one_selects db hl table (dated field op (ws.map (·.1))) op (by rw [hd.1]; exact hp) hd.2
    (by
      rintro rfl
      simp only [dated]
      intro e
      have : ws = [] := by simpa using e
      subst this
      simp [Counts] at hc)
    (by
      rintro rfl
      simpa [dated, Counts] using hc) r
  rw [hd.1] at this
  exact this

/-! ### Arithmetic of periods -/

theorem fracNanos_dvd : ∀ (ds : List (Fin 10)) (k : Nat), ds.length ≤ k + 1 → 10 ^ (k + 1 - ds.length) ∣ fracNanos ds (10 ^ k)
  | [], k, _ => by simp [fracNanos]
  | d :: ds, 0, h => by
    have : ds = [] := List.eq_nil_of_length_eq_zero (by simpa using h)
    subst this
    simp
  | d :: ds, k + 1, h => by
    have ih := fracNanos_dvd ds k (by simpa using h)
    rw [fracNanos, show (10 : Nat) ^ (k + 1) / 10 = 10 ^ k by rw [Nat.pow_succ]; simp,
      List.length_cons, show k + 1 + 1 - (ds.length + 1) = k + 1 - ds.length by omega]
    refine Nat.dvd_add ?_ ih
    exact Nat.dvd_trans (Nat.pow_dvd_pow 10 (by omega)) (Nat.dvd_mul_left _ _)

theorem lasts_dvd (w : Stamp) (h : w.Ok) : w.lasts ∣ w.start := by
  unfold Stamp.lasts Stamp.start
  cases ht : w.time with
  | none => simp only [Nat.add_zero]; exact Nat.dvd_mul_left _ _
  | some t =>
    have hk := h.2.2.2.2.2 t ht
    dsimp only
    unfold TimeOfDay.nanos
    cases hs : t.secs with
    | none =>
      dsimp only
      refine Nat.dvd_add ?_ ?_
      · exact Nat.dvd_trans (by decide) (Nat.dvd_mul_left 86400000000000 _)
      · exact Nat.dvd_add (Nat.dvd_mul_left _ _) (Nat.dvd_zero _)
    | some s =>
      have hl := (hk.2.2 s hs).2.1
      dsimp only
      have h9 : 10 ^ (9 - s.frac.length) ∣ 10 ^ 9 := Nat.pow_dvd_pow 10 (by omega)
      unfold Secs.nanos
      refine Nat.dvd_add ?_ (Nat.dvd_add ?_ (Nat.dvd_add ?_ ?_))
      · exact Nat.dvd_trans h9 (Nat.dvd_trans (by decide) (Nat.dvd_mul_left 86400000000000 _))
      · exact Nat.dvd_trans h9 (Nat.dvd_trans (by decide) (Nat.dvd_mul_left 60000000000 _))
      · exact Nat.dvd_trans h9 (Nat.dvd_mul_left _ _)
      · exact fracNanos_dvd s.frac 8 (by omega)

theorem lasts_micro (w : Stamp) (h : w.digits ≤ 6) : 1000 ∣ w.lasts := by
  unfold Stamp.lasts
  unfold Stamp.digits Stamp.secs? at h
  cases ht : w.time with
  | none => decide
  | some t =>
    rw [ht] at h
    cases hs : t.secs with
    | none => dsimp only; rw [hs]; decide
    | some s =>
      simp only [Option.bind_some, hs] at h
      dsimp only
      rw [hs]
      exact Nat.dvd_trans (by decide : 1000 ∣ 10 ^ 3) (Nat.pow_dvd_pow 10 (by omega))

theorem start_micro (w : Stamp) (h : w.Ok) (hd : w.digits ≤ 6) : w.start % 1000 = 0 ∧ w.lasts % 1000 = 0 :=
  ⟨Nat.mod_eq_zero_of_dvd (Nat.dvd_trans (lasts_micro w hd) (lasts_dvd w h)), Nat.mod_eq_zero_of_dvd (lasts_micro w hd)⟩

/-- Written to the day, the minute, the second, the millisecond or the microsecond. -/
def Stamp.Round (w : Stamp) : Prop := w.digits = 0 ∨ w.digits = 3 ∨ w.digits = 6

theorem prec_lasts (w : Stamp) (h : w.Round) : w.prec.length = w.lasts := by
  unfold Stamp.prec Stamp.lasts
  unfold Stamp.Round Stamp.digits Stamp.secs? at h
  cases ht : w.time with
  | none => rfl
  | some t =>
    rw [ht] at h
    cases hs : t.secs with
    | none => dsimp only; rw [hs]; rfl
    | some s =>
      simp only [Option.bind_some, hs] at h
      dsimp only
      rw [hs]
      dsimp only
      rcases h with h | h | h
      · have : s.frac = [] := List.eq_nil_of_length_eq_zero h
        rw [this]; rfl
      · rw [if_neg (by intro e; rw [e] at h; cases h), h]; rfl
      · rw [if_neg (by intro e; rw [e] at h; cases h), h]; rfl

/-! ### C200 -/

/-- A selection is decided by what is asked of the row's moment. -/
def SelectsBy (answer : Option Bool) (asked : Prop) : Prop := ∃ b, answer = some b ∧ (b = true ↔ asked)

/-- **C200 in full.** A date in a filter of the URL stands for the whole period it names: the day,
the minute, the second, or the unit of its last digit. -/
def C200Full : Prop :=
  ∀ (Row : Type) (db : Db Row) (float : String → Option Val) (table field : String) (at_ : Row → Nat),
    Laws db → TimeColumn db field at_ → PlainField table field → NotNumbers float →
    ∀ (op : Op) (ws : List (Stamp × Style)), Written ws → Counts op (ws.map (·.1)) → ∀ r,
      SelectsBy (urlSelects db float table field op (spelled ws) r) (asksMoment op (ws.map (·.1)) (at_ r))

/-- The dates that are compared as periods: for `gte` and `lt` the beginning is all that counts;
`eq` uses the period; the others take the beginning for the end as well. -/
def Precise (op : Op) (ws : List Stamp) : Prop :=
  match op, ws with
  | .gte, ws | .lt, ws => ∀ w ∈ ws, w.digits ≤ 6
  | .eq, ws => ∀ w ∈ ws, w.Round
  | .between, [a, b] => a.digits ≤ 6 ∧ b.digits = 6
  | _, ws => ∀ w ∈ ws, w.digits = 6

theorem lasts_six (w : Stamp) (h : w.digits = 6) : w.lasts = 1000 := by
  unfold Stamp.digits Stamp.secs? at h
  unfold Stamp.lasts
  cases ht : w.time with
  | none => rw [ht] at h; cases h
  | some t =>
    rw [ht] at h
    cases hs : t.secs with
    | none => simp [hs] at h
    | some s =>
      simp only [Option.bind_some, hs] at h
      dsimp only
      rw [hs]
      dsimp only
      rw [h]

/-- Comparing with the beginning of what is written. -/
def asksStart (op : Op) (ws : List Stamp) (x : Nat) : Prop :=
  match op, ws with
  | .ne, [w] => x ≠ w.start
  | .gt, [w] => w.start < x
  | .gte, [w] => w.start ≤ x
  | .lt, [w] => x < w.start
  | .lte, [w] => x ≤ w.start
  | .between, [a, b] => a.start ≤ x ∧ x ≤ b.start
  | .isIn, ws => ∃ w ∈ ws, x = w.start
  | _, _ => False

theorem near_micro {t : Nat} (h : t % 1000 = 0) : (t + 500) / 1000 * 1000 = t := by omega

/-- **C200, what is compared** All operators but `eq` compare with the beginning of the period:
`lte` and the end of `between` leave out the period itself except for its first moment, and `gt`
takes it in. For dates written to at most a microsecond. -/
theorem c200_start {Row : Type} (db : Db Row) (float : String → Option Val) (table field : String) (at_ : Row → Nat)
    (hl : Laws db) (hcol : TimeColumn db field at_) (hp : PlainField table field) (hf : NotNumbers float)
    (op : Op) (ws : List (Stamp × Style)) (hw : Written ws) (hc : Counts op (ws.map (·.1))) (ho : op ≠ .eq)
    (hd : ∀ w ∈ ws.map (·.1), w.digits ≤ 6) (r : Row) :
    SelectsBy (urlSelects db float table field op (spelled ws) r) (asksStart op (ws.map (·.1)) (at_ r)) := by
  refine ⟨_, url_selects db hl float hf table field hp op ws hw hc r, ?_⟩
  have hmic : ∀ w ∈ ws.map (·.1), (w.start + 500) / 1000 * 1000 = w.start := by
    intro w hm
    obtain ⟨p, hpm, rfl⟩ := List.mem_map.1 hm
    exact near_micro (start_micro p.1 (hw p hpm).1 (hd _ hm)).1
  generalize ws.map (·.1) = vs at hc hd hmic ⊢
  cases op <;> first | exact False.elim hc | exact absurd rfl ho | skip
  case isIn =>
    simp only [meansColumn, dated, compares, asksStart, List.map_map, List.any_map, List.any_eq_true, Function.comp_apply]
    constructor
    · rintro ⟨w, hm, h⟩
      refine ⟨w, hm, ?_⟩
      rw [show plain (timeVal w) = .instant w.start from rfl, hcol.1] at h
      simp only [cmpMoment, hmic w hm, beq_iff_eq] at h
      exact h
    · rintro ⟨w, hm, h⟩
      refine ⟨w, hm, ?_⟩
      rw [show plain (timeVal w) = .instant w.start from rfl, hcol.1]
      simp only [cmpMoment, hmic w hm, beq_iff_eq]
      exact h
  case between =>
    match vs, hc with
    | [a, b], _ =>
      have ha := hmic a (by simp)
      have hb := hmic b (by simp)
      simp only [meansColumn, dated, compares, asksStart, List.map_cons, List.map_nil, timeVal, plain, hcol.1, cmpMoment, ha, hb,
        Bool.and_eq_true, decide_eq_true_eq]
  all_goals
    match vs, hc with
    | [w], _ =>
      have ha := hmic w (by simp)
      simp [meansColumn, dated, compares, asksStart, timeVal, plain, hcol.1, cmpMoment, ha]

/-- **C200, partial.** `gte` and `lt` of a date written to at most a microsecond, `eq` of a day, a
minute, a second, a millisecond or a microsecond, and every operator on dates written to the
microsecond, ask for the period that is written. Missing: `gt`, `lte`, `ne`, `in` and the end of
`between` for shorter dates, `eq` for the other numbers of digits (`c200_full_fails`,
`c200_digits_fails`). -/
theorem c200_partial {Row : Type} (db : Db Row) (float : String → Option Val) (table field : String) (at_ : Row → Nat)
    (hl : Laws db) (hcol : TimeColumn db field at_) (hp : PlainField table field) (hf : NotNumbers float)
    (op : Op) (ws : List (Stamp × Style)) (hw : Written ws) (hc : Counts op (ws.map (·.1)))
    (hpr : Precise op (ws.map (·.1))) (r : Row) :
    SelectsBy (urlSelects db float table field op (spelled ws) r) (asksMoment op (ws.map (·.1)) (at_ r)) := by
  have hok : ∀ w ∈ ws.map (·.1), w.Ok := by
    intro w hm
    obtain ⟨p, hpm, rfl⟩ := List.mem_map.1 hm
    exact (hw p hpm).1
  have hx := hcol.2 r
  by_cases ho : op = .eq
  · subst ho
    refine ⟨_, url_selects db hl float hf table field hp .eq ws hw hc r, ?_⟩
    generalize ws.map (·.1) = vs at hc hpr hok ⊢
    match vs, hc with
    | [w], _ =>
      have hr : w.Round := hpr w (by simp)
      have hm := start_micro w (hok w (by simp)) (by rcases hr with h | h | h <;> omega)
      have hdv : w.start % w.lasts = 0 := Nat.mod_eq_zero_of_dvd (lasts_dvd w (hok w (by simp)))
      have hlen := prec_lasts w hr
      simp only [meansColumn, dated, timeVal, within, hcol.1, cmpMoment, hlen, hdv, Nat.sub_zero, asksMoment, Stamp.stop,
        Bool.and_eq_true, decide_eq_true_eq]
      rw [near_micro hm.1, near_micro (t := w.start + w.lasts) (by omega)]
  · have hd : ∀ w ∈ ws.map (·.1), w.digits ≤ 6 := by
      generalize ws.map (·.1) = vs at hc hpr ⊢
      cases op <;> first | exact False.elim hc | exact absurd rfl ho | skip
      case gte => exact hpr
      case lt => exact hpr
      case between =>
        match vs, hc with
        | [a, b], _ =>
          intro w hm
          have h := hpr
          simp only [Precise] at h
          rcases List.mem_cons.1 hm with rfl | hm
          · exact h.1
          · rw [List.mem_singleton] at hm; subst hm; omega
      all_goals
        intro w hm
        have := hpr w hm
        omega
    obtain ⟨b, h1, h2⟩ := c200_start db float table field at_ hl hcol hp hf op ws hw hc ho hd r
    refine ⟨b, h1, h2.trans ?_⟩
    have hmic : ∀ w ∈ ws.map (·.1), w.start % 1000 = 0 := fun w hm => (start_micro w (hok w hm) (hd w hm)).1
    generalize ws.map (·.1) = vs at hc hpr hmic ⊢
    cases op <;> first | exact False.elim hc | exact absurd rfl ho | skip
    case isIn =>
      simp only [asksStart, asksMoment]
      refine exists_congr fun w => and_congr_right fun hm => ?_
      have h1 := hmic w hm
      have h2 := lasts_six w (hpr w hm)
      unfold Stamp.stop
      omega
    case between =>
      match vs, hc with
      | [a, b], _ =>
        have h1 := hmic b (by simp)
        have h := hpr
        simp only [Precise] at h
        have h2 := lasts_six b h.2
        simp only [asksStart, asksMoment, Stamp.stop]
        omega
    case gte =>
      match vs, hc with
      | [w], _ => exact Iff.rfl
    case lt =>
      match vs, hc with
      | [w], _ => exact Iff.rfl
    all_goals
      match vs, hc with
      | [w], _ =>
        have h1 := hmic w (by simp)
        have h2 := lasts_six w (hpr w (by simp))
        simp only [asksStart, asksMoment, Stamp.stop]
        omega

/-! #### A database of moments, in microseconds -/

def momentDb : Db Nat where
  cmp _ c v r := match v with
    | .instant t => cmpMoment c (r * 1000) t
    | .text s => match parseDateTime s.toList with
      | some t => cmpMoment c (r * 1000) t
      | none => false
    | _ => false
  isNull e _ := match e with | .col _ => false | _ => false
  contains _ _ _ := false
  hasKey _ b _ := b
  balances := []
  refers _ _ _ := false

theorem momentLaws : Laws momentDb := ⟨fun _ _ h => (Bool.false_ne_true h).elim, fun _ _ _ => rfl⟩

theorem momentColumn : TimeColumn momentDb "created_at" (· * 1000) := ⟨fun _ _ _ => rfl, fun r => by simp⟩

theorem created_plain : PlainField "transactions" "created_at" := by
  refine ⟨by decide +kernel, by decide +kernel, by decide, by decide⟩

theorem noFloats : NotNumbers (fun _ => none) := fun _ _ _ _ => rfl

/-- 31 January 2024. -/
def jan31 : Stamp := ⟨2024, 1, 31, none⟩

/-- Half past ten of that day, to the second, with a fraction, with a zone. -/
def jan31at (frac : List (Fin 10)) (zone : Option Zone) : Stamp := ⟨2024, 1, 31, some ⟨10, 30, some ⟨0, frac, zone⟩⟩⟩

theorem jan31_ok : jan31.Ok := by
  refine ⟨by decide, by decide, by decide, by decide, by decide, ?_⟩
  intro t h; cases h

theorem jan31at_ok (frac : List (Fin 10)) (zone : Option Zone) (hf : frac.length ≤ 9) (hz : ∀ z, zone = some z → z.Ok) :
    (jan31at frac zone).Ok := by
  refine ⟨(by decide : 2024 < 10000), (by decide : 1 ≤ 1), (by decide : 1 ≤ 12), (by decide : 1 ≤ 31), (by decide : 31 ≤ monthLen 2024 1), ?_⟩
  intro t h
  cases h
  refine ⟨(by decide : 10 < 24), (by decide : 30 < 60), ?_⟩
  intro s h
  cases h
  exact ⟨(by decide : 0 < 60), hf, hz⟩

theorem plainStyle (w : Stamp) : (⟨false, false⟩ : Style).Fits w := ⟨fun h => (Bool.false_ne_true h).elim, fun h => (Bool.false_ne_true h).elim⟩

theorem jan31_written : Written [(jan31, ⟨false, false⟩)] := by
  intro p hp
  rw [List.mem_singleton] at hp
  subst hp
  exact ⟨jan31_ok, plainStyle _⟩

example : jan31.text ⟨false, false⟩ = "2024-01-31".toList ∧ jan31.text ⟨true, false⟩ = "2024/01/31".toList ∧
    (jan31at [1, 2, 3] (some .utc)).text ⟨false, false⟩ = "2024-01-31T10:30:00.123Z".toList ∧
    (jan31at [5] (some (.offset true 5 0))).text ⟨false, false⟩ = "2024-01-31T10:30:00.5-05:00".toList ∧
    (jan31at [] none).text ⟨false, true⟩ = "2024-01-31 10:30:00".toList := by decide +kernel

example : jan31.stop = (⟨2024, 2, 1, none⟩ : Stamp).start ∧ (⟨2024, 12, 31, none⟩ : Stamp).stop = (⟨2025, 1, 1, none⟩ : Stamp).start ∧
    (⟨2024, 2, 28, none⟩ : Stamp).stop = (⟨2024, 2, 29, none⟩ : Stamp).start := by decide +kernel

/-- 31 January 2024 at noon, in microseconds. -/
def noon31 : Nat := 63873921600000000

example : jan31.start < noon31 * 1000 ∧ noon31 * 1000 < jan31.stop ∧ jan31.start + 43200000000000 = noon31 * 1000 := by decide +kernel

/-- The filters of the URL at work: the day itself, from that day on, and before it. -/
example : urlSelects momentDb (fun _ => none) "transactions" "created_at" .eq (spelled [(jan31, ⟨true, false⟩)]) noon31 = some true ∧
    urlSelects momentDb (fun _ => none) "transactions" "created_at" .gte (spelled [(jan31, ⟨false, false⟩)]) noon31 = some true ∧
    urlSelects momentDb (fun _ => none) "transactions" "created_at" .lt (spelled [(jan31, ⟨false, false⟩)]) noon31 = some false := by
  decide +kernel

/-- The hypotheses of `c200_partial` are met: `eq` of a day, `between` of two moments written to the microsecond. -/
example : Precise .eq [jan31] ∧ Counts .eq [jan31] ∧ Precise .between [jan31, jan31at [0, 0, 0, 0, 0, 1] none] ∧
    Precise .lt [jan31] := by
  refine ⟨?_, rfl, ⟨by decide, by decide⟩, ?_⟩
  · intro w hw; rw [List.mem_singleton] at hw; subst hw; exact Or.inl rfl
  · intro w hw; rw [List.mem_singleton] at hw; subst hw; decide

/-- **C200** (violated) `created_at_lte=2024-01-31` leaves out what was created on 31 January. -/
theorem c200_full_fails : ¬ C200Full := by
  intro h
  obtain ⟨b, h1, h2⟩ := h Nat momentDb (fun _ => none) "transactions" "created_at" (· * 1000) momentLaws momentColumn created_plain
    noFloats .lte [(jan31, ⟨false, false⟩)] jan31_written rfl noon31
  have e : urlSelects momentDb (fun _ => none) "transactions" "created_at" .lte (spelled [(jan31, ⟨false, false⟩)]) noon31 = some false := by
    decide +kernel
  rw [e] at h1
  cases h1
  have : noon31 * 1000 < jan31.stop := by decide +kernel
  exact absurd (h2.2 this) (by simp)

/-- **C200** (violated) The last day of `between` is left out, and `gt` of a day selects that day. -/
theorem c200_ends_fail :
    urlSelects momentDb (fun _ => none) "transactions" "created_at" .between
      (spelled [(⟨2024, 1, 1, none⟩, ⟨false, false⟩), (jan31, ⟨false, false⟩)]) noon31 = some false ∧
    asksMoment .between [⟨2024, 1, 1, none⟩, jan31] (noon31 * 1000) ∧
    urlSelects momentDb (fun _ => none) "transactions" "created_at" .gt (spelled [(jan31, ⟨false, false⟩)]) noon31 = some true ∧
    ¬ asksMoment .gt [jan31] (noon31 * 1000) := by
  refine ⟨by decide +kernel, ?_, by decide +kernel, ?_⟩
  · show _ ≤ _ ∧ _ < _
    decide +kernel
  · show ¬ (_ ≤ _)
    decide +kernel

/-- **C200** (violated) A tenth of a second is taken for a millisecond, four digits for three. -/
theorem c200_digits_fails :
    urlSelects momentDb (fun _ => none) "transactions" "created_at" .eq (spelled [(jan31at [5] none, ⟨false, false⟩)])
      ((jan31at [5, 2] none).start / 1000) = some false ∧
    asksMoment .eq [jan31at [5] none] (jan31at [5, 2] none).start ∧
    urlSelects momentDb (fun _ => none) "transactions" "created_at" .eq (spelled [(jan31at [1, 2, 3, 4] none, ⟨false, false⟩)])
      ((jan31at [1, 2, 3, 9] none).start / 1000) = some true ∧
    ¬ asksMoment .eq [jan31at [1, 2, 3, 4] none] (jan31at [1, 2, 3, 9] none).start := by
  refine ⟨by decide +kernel, ?_, by decide +kernel, ?_⟩
  · show _ ≤ _ ∧ _ < _
    decide +kernel
  · show ¬ (_ ≤ _ ∧ _ < _)
    decide +kernel

/-! ### C201: zones -/

def Zone.seconds : Zone → Int
  | .utc => 0
  | .offset neg h m => (if neg then -1 else 1) * ((h * 60 + m) * 60 : Int)

/-- The offset from UTC that is written, in seconds; nothing written means UTC. -/
def Stamp.offset (w : Stamp) : Int := (w.zone?.map Zone.seconds).getD 0

/-- The moment that is meant. -/
def Stamp.moment (w : Stamp) : Int := w.start - w.offset * 1000000000

/-- Two lists of dates that mean the same moments, one by one. -/
def SameMoments : List Stamp → List Stamp → Prop
  | [], [] => True
  | a :: as, b :: bs => (a.moment = b.moment ∧ a.lasts = b.lasts) ∧ SameMoments as bs
  | _, _ => False

/-- **C201 in full.** A moment written in two zones selects the same rows. -/
def C201Full : Prop :=
  ∀ (Row : Type) (db : Db Row) (float : String → Option Val) (table field : String) (at_ : Row → Nat),
    Laws db → TimeColumn db field at_ → PlainField table field → NotNumbers float →
    ∀ (op : Op) (ws ws' : List (Stamp × Style)), Written ws → Written ws' → Counts op (ws.map (·.1)) →
      SameMoments (ws.map (·.1)) (ws'.map (·.1)) → ∀ r,
      urlSelects db float table field op (spelled ws) r = urlSelects db float table field op (spelled ws') r

/-- The same digits. -/
def SameDigits : List Stamp → List Stamp → Prop
  | [], [] => True
  | a :: as, b :: bs => (a.start = b.start ∧ a.lasts = b.lasts) ∧ SameDigits as bs
  | _, _ => False

def precFrom (n : Nat) : Prec :=
  if n = 86400000000000 then .day else if n = 60000000000 then .minute else if n = 1000000000 then .second
  else if 10000 ≤ n then .milliseconds else .microseconds

theorem prec_of_lasts (w : Stamp) : w.prec = precFrom w.lasts := by
  unfold Stamp.prec Stamp.lasts
  cases w.time with
  | none => rfl
  | some t =>
    dsimp only
    cases t.secs with
    | none => rfl
    | some s =>
      dsimp only
      have hle : 10 ^ (9 - s.frac.length) ≤ 10 ^ 9 := Nat.pow_le_pow_right (by omega) (by omega)
      have h9 : (10 : Nat) ^ 9 = 1000000000 := by decide
      unfold precFrom
      rw [if_neg (c := 10 ^ (9 - s.frac.length) = 86400000000000) (by omega), if_neg (c := 10 ^ (9 - s.frac.length) = 60000000000) (by omega)]
      by_cases hf : s.frac = []
      · rw [if_pos hf, hf]; rfl
      · have hpos : 0 < s.frac.length := List.length_pos_iff.2 hf
        have h8 : 10 ^ (9 - s.frac.length) ≤ 10 ^ 8 := Nat.pow_le_pow_right (by omega) (by omega)
        have e8 : (10 : Nat) ^ 8 = 100000000 := by decide
        rw [if_neg hf, if_neg (c := 10 ^ (9 - s.frac.length) = 1000000000) (by omega)]
        by_cases h6 : s.frac.length < 6
        · have : 10 ^ 4 ≤ 10 ^ (9 - s.frac.length) := Nat.pow_le_pow_right (by omega) (by omega)
          rw [if_pos h6, if_pos (by omega)]
        · have : 10 ^ (9 - s.frac.length) ≤ 10 ^ 3 := Nat.pow_le_pow_right (by omega) (by omega)
          rw [if_neg h6, if_neg (by omega)]

theorem timeVals_same : ∀ (ws ws' : List Stamp), SameDigits ws ws' → ws.map timeVal = ws'.map timeVal
  | [], [], _ => rfl
  | a :: as, b :: bs, h => by
    rw [List.map_cons, List.map_cons, timeVals_same as bs h.2]
    unfold timeVal
    rw [h.1.1, prec_of_lasts a, prec_of_lasts b, h.1.2]
  | [], _ :: _, h => h.elim
  | _ :: _, [], h => h.elim

theorem same_length : ∀ (ws ws' : List Stamp), SameDigits ws ws' → ws.length = ws'.length
  | [], [], _ => rfl
  | _ :: as, _ :: bs, h => by rw [List.length_cons, List.length_cons, same_length as bs h.2]
  | [], _ :: _, h => h.elim
  | _ :: _, [], h => h.elim

theorem counts_same (op : Op) (ws ws' : List Stamp) (h : ws.length = ws'.length) (hc : Counts op ws) : Counts op ws' := by
  cases op <;> simp only [Counts, h] at hc ⊢ <;> exact hc

theorem dated_same (field : String) (op : Op) (ws ws' : List Stamp) (h : SameDigits ws ws') : dated field op ws = dated field op ws' := by
  have hm := timeVals_same ws ws' h
  cases op <;> simp only [dated, hm]
  all_goals
    congr 1
    match ws, ws', h with
    | [], [], _ => rfl
    | a :: as, b :: bs, h => simpa using (List.cons.inj hm).1

/-- **C201, what counts** Only the digits count: two lists of dates with the same digits select
the same rows, whatever zones are written. -/
theorem c201_digits {Row : Type} (db : Db Row) (float : String → Option Val) (table field : String)
    (hl : Laws db) (hp : PlainField table field) (hf : NotNumbers float)
    (op : Op) (ws ws' : List (Stamp × Style)) (hw : Written ws) (hw' : Written ws') (hc : Counts op (ws.map (·.1)))
    (hs : SameDigits (ws.map (·.1)) (ws'.map (·.1))) (r : Row) :
    urlSelects db float table field op (spelled ws) r = urlSelects db float table field op (spelled ws') r := by
  rw [url_selects db hl float hf table field hp op ws hw hc r,
    url_selects db hl float hf table field hp op ws' hw' (counts_same op _ _ (same_length _ _ hs) hc) r,
    dated_same field op _ _ hs]

/-- The same offset in both. -/
def SameOffsets : List Stamp → List Stamp → Prop
  | [], [] => True
  | a :: as, b :: bs => a.offset = b.offset ∧ SameOffsets as bs
  | _, _ => False

theorem sameDigits_of : ∀ (ws ws' : List Stamp), SameMoments ws ws' → SameOffsets ws ws' → SameDigits ws ws'
  | [], [], _, _ => trivial
  | a :: as, b :: bs, h, ho => by
    refine ⟨⟨?_, h.1.2⟩, sameDigits_of as bs h.2 ho.2⟩
    have h1 := h.1.1
    have h2 := ho.1
    unfold Stamp.moment at h1
    omega
  | [], _ :: _, h, _ => h.elim
  | _ :: _, [], h, _ => h.elim

/-- **C201, partial.** Moments written with the same offset, or one without a zone and one with
`Z` or `+00:00`, select the same rows. Missing: different offsets (`c201_full_fails`). -/
theorem c201_partial {Row : Type} (db : Db Row) (float : String → Option Val) (table field : String)
    (hl : Laws db) (hp : PlainField table field) (hf : NotNumbers float)
    (op : Op) (ws ws' : List (Stamp × Style)) (hw : Written ws) (hw' : Written ws') (hc : Counts op (ws.map (·.1)))
    (hs : SameMoments (ws.map (·.1)) (ws'.map (·.1))) (ho : SameOffsets (ws.map (·.1)) (ws'.map (·.1))) (r : Row) :
    urlSelects db float table field op (spelled ws) r = urlSelects db float table field op (spelled ws') r :=
  c201_digits db float table field hl hp hf op ws ws' hw hw' hc (sameDigits_of _ _ hs ho) r

example : SameMoments [jan31at [] none] [jan31at [] (some (.offset true 0 0))] ∧
    SameOffsets [jan31at [] none] [jan31at [] (some (.offset true 0 0))] ∧
    (jan31at [] none).text ⟨false, false⟩ ≠ (jan31at [] (some (.offset true 0 0))).text ⟨false, false⟩ := by
  refine ⟨⟨⟨by decide +kernel, by decide +kernel⟩, trivial⟩, ⟨by decide +kernel, trivial⟩, by decide +kernel⟩

/-- Half past ten in UTC, and the same moment an hour to the east. -/
def east : Stamp := ⟨2024, 1, 31, some ⟨11, 30, some ⟨0, [], some (.offset false 1 0)⟩⟩⟩

/-- **C201** (violated) `created_at_gte=2024-01-31T11:30:00+01:00` leaves out what was created at
eleven in UTC, which is half an hour later. -/
theorem c201_full_fails : ¬ C201Full := by
  intro h
  have hw : Written [(jan31at [] (some .utc), ⟨false, false⟩)] := by
    intro p hp
    rw [List.mem_singleton] at hp
    subst hp
    exact ⟨jan31at_ok _ _ (by decide) (by intro z hz; cases hz; trivial), plainStyle _⟩
  have hw' : Written [(east, ⟨false, false⟩)] := by
    intro p hp
    rw [List.mem_singleton] at hp
    subst hp
    refine ⟨⟨by decide, by decide, by decide, by decide, by decide, ?_⟩, plainStyle _⟩
    intro t ht
    cases ht
    refine ⟨by decide, by decide, ?_⟩
    intro s hs
    cases hs
    refine ⟨by decide, by decide, ?_⟩
    intro z hz
    cases hz
    exact ⟨by decide, by decide⟩
  have := h Nat momentDb (fun _ => none) "transactions" "created_at" (· * 1000) momentLaws momentColumn created_plain
    noFloats .gte _ _ hw hw' rfl ⟨⟨by decide +kernel, by decide +kernel⟩, trivial⟩ (noon31 - 3600000000)
  revert this
  decide +kernel

/-! ### C202: the two doors -/

/-- PostgreSQL reads a date sent as text as its digits say. -/
def TextColumn {Row : Type} (db : Db Row) (field : String) : Prop :=
  ∀ (w : Stamp) (y : Style) (c : Cmp) (r : Row), w.Ok → y.Fits w →
    db.cmp (.col field) c (.text (String.ofList (w.text y))) r = db.cmp (.col field) c (.instant w.start) r

/-- **C202 in full.** A filter with dates selects the same rows in the URL and in a JSON body. -/
def C202Full : Prop :=
  ∀ (Row : Type) (db : Db Row) (float : String → Option Val) (table field : String) (at_ : Row → Nat),
    Laws db → TimeColumn db field at_ → TextColumn db field → PlainField table field → NotNumbers float →
    ∀ (op : Op) (ws : List (Stamp × Style)), Written ws → Counts op (ws.map (·.1)) → ∀ r,
      urlSelects db float table field op (spelled ws) r = bodySelects db table field op (spelled ws) r

theorem body_selects {Row : Type} (db : Db Row) (hl : Laws db) (table field : String) (hp : PlainField table field) (op : Op)
    (ws : List (Stamp × Style)) (hc : Counts op (ws.map (·.1))) (r : Row) :
    bodySelects db table field op (spelled ws) r =
      some (meansColumn db (.col field) op (bodyFilter field op (spelled ws)) r) := by
  have hfd : (bodyFilter field op (spelled ws)).field = field ∧ (bodyFilter field op (spelled ws)).op = op.name := by
    cases op <;> exact ⟨rfl, rfl⟩
  unfold bodySelects
  have := one_selects db hl table (bodyFilter field op (spelled ws)) op (by rw [hfd.1]; exact hp) hfd.2
    (by
      rintro rfl
      simp only [bodyFilter]
      intro e
      have : ws = [] := by simpa [spelled] using e
      subst this
      simp [Counts] at hc)
    (by
      rintro rfl
      simpa [bodyFilter, spelled, Counts] using hc) r
  rw [hfd.1] at this
  exact this

/-- **C202, partial.** Every operator but `eq`, and `eq` of a moment written to the microsecond.
Missing: `eq` of anything shorter (`c202_full_fails`). -/
theorem c202_partial {Row : Type} (db : Db Row) (float : String → Option Val) (table field : String) (at_ : Row → Nat)
    (hl : Laws db) (hcol : TimeColumn db field at_) (htx : TextColumn db field) (hp : PlainField table field)
    (hf : NotNumbers float) (op : Op) (ws : List (Stamp × Style)) (hw : Written ws) (hc : Counts op (ws.map (·.1)))
    (ho : op = .eq → ∀ p ∈ ws, p.1.digits = 6) (r : Row) :
    urlSelects db float table field op (spelled ws) r = bodySelects db table field op (spelled ws) r := by
  rw [url_selects db hl float hf table field hp op ws hw hc r, body_selects db hl table field hp op ws hc r]
  congr 1
  cases op <;> try (exact False.elim hc)
  case eq =>
    match ws, hc, hw, ho with
    | [p], _, hw, ho =>
      obtain ⟨hok, hfit⟩ := hw p (by simp)
      have h6 := ho rfl p (by simp)
      have hm := start_micro p.1 hok (by omega)
      have hla := lasts_six p.1 h6
      have hlen := prec_lasts p.1 (Or.inr (Or.inr h6))
      have hdv : p.1.start % 1000 = 0 := hm.1
      have hx := hcol.2 r
      simp only [meansColumn, dated, bodyFilter, spelled, List.map_cons, List.map_nil, timeVal, within, compares, plain,
        htx p.1 p.2 .eq r hok hfit, hcol.1, cmpMoment, hlen, hla, hdv, Nat.sub_zero]
      rw [near_micro hm.1, near_micro (t := p.1.start + 1000) (by omega), Bool.eq_iff_iff]
      simp only [Bool.and_eq_true, decide_eq_true_eq, beq_iff_eq]
      omega
  case isIn =>
    simp only [meansColumn, dated, bodyFilter, compares, spelled, List.map_map, List.any_map]
    rw [Bool.eq_iff_iff, List.any_eq_true, List.any_eq_true]
    refine exists_congr fun p => and_congr_right fun hm => ?_
    simp only [Function.comp_apply, timeVal, plain, htx p.1 p.2 .eq r (hw p hm).1 (hw p hm).2]
  case between =>
    match ws, hc, hw with
    | [a, b], _, hw =>
      obtain ⟨h1, h2⟩ := hw a (by simp)
      obtain ⟨h3, h4⟩ := hw b (by simp)
      simp only [meansColumn, dated, bodyFilter, spelled, List.map_cons, List.map_nil, timeVal, compares, plain,
        htx a.1 a.2 .ge r h1 h2, htx b.1 b.2 .le r h3 h4]
  all_goals
    match ws, hc, hw with
    | [p], _, hw =>
      obtain ⟨h1, h2⟩ := hw p (by simp)
      simp only [meansColumn, dated, bodyFilter, spelled, List.map_cons, List.map_nil, timeVal, compares, plain,
        htx p.1 p.2 _ r h1 h2]

theorem momentText : TextColumn momentDb "created_at" := by
  intro w y c r hw hy
  show (match parseDateTime (String.ofList (w.text y)).toList with
      | some t => cmpMoment c (r * 1000) t
      | none => false) = _
  rw [String.toList_ofList, parse_text w y hw hy]
  rfl

example : bodySelects momentDb "transactions" "created_at" .gte (spelled [(jan31, ⟨false, false⟩)]) noon31 = some true ∧
    Counts .gte [jan31] := ⟨by decide +kernel, rfl⟩

/-- **C202** (violated) `created_at` equal to a day selects the day in the URL, and the first
moment of the day in a JSON body. -/
theorem c202_full_fails : ¬ C202Full := by
  intro h
  have := h Nat momentDb (fun _ => none) "transactions" "created_at" (· * 1000) momentLaws momentColumn momentText created_plain
    noFloats .eq [(jan31, ⟨false, false⟩)] jan31_written rfl noon31
  revert this
  decide +kernel

/-! ### The calendar -/

/-- Leap years of the Gregorian calendar. -/
def Leap (y : Nat) : Prop := 400 ∣ y ∨ (4 ∣ y ∧ ¬ 100 ∣ y)

instance (y : Nat) : Decidable (Leap y) := inferInstanceAs (Decidable (_ ∨ _))

/-- The last day of a month. -/
def lastDay (y : Nat) : Nat → Nat
  | 4 | 6 | 9 | 11 => 30
  | 2 => if Leap y then 29 else 28
  | _ => 31

/-- The day after. -/
def dayAfter (y m d : Nat) : Nat × Nat × Nat :=
  if d < lastDay y m then (y, m, d + 1) else if m < 12 then (y, m + 1, 1) else (y + 1, 1, 1)

theorem isLeap_iff (y : Nat) : isLeap y = true ↔ Leap y := by
  unfold isLeap Leap
  simp only [Bool.and_eq_true, Bool.or_eq_true, beq_iff_eq, bne_iff_ne]
  omega

theorem monthLen_eq (y m : Nat) (h1 : 1 ≤ m) (h2 : m ≤ 12) : monthLen y m = lastDay y m := by
  have h := isLeap_iff y
  unfold monthLen
  rcases (by omega : m = 1 ∨ m = 2 ∨ m = 3 ∨ m = 4 ∨ m = 5 ∨ m = 6 ∨ m = 7 ∨ m = 8 ∨ m = 9 ∨ m = 10 ∨ m = 11 ∨ m = 12) with
    rfl | rfl | rfl | rfl | rfl | rfl | rfl | rfl | rfl | rfl | rfl | rfl <;> simp [lastDay, h]

theorem sum_months (y : Nat) : ((List.range 11).map (fun i => monthLen y (i + 1))).sum + 31 = if Leap y then 366 else 365 := by
  have h := isLeap_iff y
  by_cases hl : Leap y
  · simp [List.range_succ, monthLen, h.2 hl, hl]
  · have : isLeap y = false := by rw [← Bool.not_eq_true, h]; exact hl
    simp [List.range_succ, monthLen, this, hl]

/-- Days are counted without a gap: the first is number 0 and the day after has the next number. -/
theorem c200_calendar : dayNumber 0 1 1 = 0 ∧ ∀ y m d, 1 ≤ m → m ≤ 12 → 1 ≤ d → d ≤ lastDay y m →
    dayNumber (dayAfter y m d).1 (dayAfter y m d).2.1 (dayAfter y m d).2.2 = dayNumber y m d + 1 := by
  refine ⟨by decide, fun y m d h1 h2 h3 h4 => ?_⟩
  have hlt : (y + 99) / 100 ≤ 365 * y + (y + 3) / 4 := by omega
  unfold dayAfter
  split
  · unfold dayNumber
    dsimp only
    omega
  · have hd : d = lastDay y m := by omega
    split
    · obtain ⟨k, rfl⟩ : ∃ k, m = k + 1 := ⟨m - 1, by omega⟩
      have hl : 1 ≤ lastDay y (k + 1) := by omega
      unfold dayNumber
      dsimp only
      simp only [Nat.add_sub_cancel, List.range_succ, List.map_append, List.map_cons, List.map_nil, List.sum_append, List.sum_cons, List.sum_nil]
      rw [monthLen_eq y (k + 1) h1 h2, hd]
      omega
    · have hm : m = 12 := by omega
      subst hm
      have hs := sum_months y
      have hd' : d = 31 := hd
      subst hd'
      unfold dayNumber
      dsimp only
      simp only [Nat.sub_self, List.range_zero, List.map_nil, List.sum_nil]
      rw [show (12 : Nat) - 1 = 11 from rfl]
      have hlt2 : (y + 1 + 99) / 100 ≤ 365 * (y + 1) + (y + 1 + 3) / 4 := by omega
      have h4 : (y + 1 + 3) / 4 = (y + 3) / 4 + if 4 ∣ y then 1 else 0 := by split <;> omega
      have h100 : (y + 1 + 99) / 100 = (y + 99) / 100 + if 100 ∣ y then 1 else 0 := by split <;> omega
      have h400 : (y + 1 + 399) / 400 = (y + 399) / 400 + if 400 ∣ y then 1 else 0 := by split <;> omega
      rw [h4, h100] at hlt2
      rw [h4, h100, h400]
      have d1 : 400 ∣ y → 100 ∣ y := by omega
      have d2 : 100 ∣ y → 4 ∣ y := by omega
      clear h4 h100 h400
      generalize (y + 3) / 4 = a, (y + 99) / 100 = b, (y + 399) / 400 = c at *
      by_cases c4 : 4 ∣ y <;> by_cases c100 : 100 ∣ y <;> by_cases c400 : 400 ∣ y <;>
        simp only [Leap, c4, c100, c400, if_true, if_false, or_true, or_false, and_true, and_false, not_true_eq_false,
          not_false_eq_true, forall_const] at hs hlt2 d1 d2 ⊢ <;> omega

/-- Exactly the days of the calendar are read as dates. -/
theorem c200_days (y m d : Nat) (hy : y < 10000) (hm : m < 100) (hd : d < 100) :
    (parseDateTime (pad 4 y ++ '-' :: pad 2 m ++ '-' :: pad 2 d)).isSome = true ↔ 1 ≤ m ∧ m ≤ 12 ∧ 1 ≤ d ∧ d ≤ lastDay y m := by
  have e : parseDateTime (pad 4 y ++ '-' :: pad 2 m ++ '-' :: pad 2 d) =
      if m = 0 ∨ 12 < m ∨ d = 0 ∨ monthLen y m < d then none else some (dayNumber y m d * 86400000000000) := by
    unfold parseDateTime
    rw [List.append_assoc, List.cons_append, number_pad 4 y 0 _ (by omega)]
    simp only [Option.bind_eq_bind, Option.bind_some, Nat.zero_mul, Nat.zero_add]
    rw [number_pad 2 m 0 _ (by omega)]
    simp only [Option.bind_some, literal, if_true, Nat.zero_mul, Nat.zero_add]
    rw [show pad 2 d = pad 2 d ++ [] from (List.append_nil _).symm, number_pad 2 d 0 _ (by omega)]
    simp only [Option.bind_some, Nat.zero_mul, Nat.zero_add]
  rw [e]
  by_cases h : 1 ≤ m ∧ m ≤ 12
  · rw [monthLen_eq y m h.1 h.2]
    split
    · simp; omega
    · simp; omega
  · rw [if_pos (by omega)]
    simp; omega

example : dayAfter 1900 2 28 = (1900, 3, 1) ∧ dayAfter 2000 2 28 = (2000, 2, 29) ∧ dayAfter 2023 12 31 = (2024, 1, 1) := by decide

/-- Exactly the times of a day are read as times. -/
theorem c200_times (y m d h i s : Nat) (hy : y < 10000) (h1 : 1 ≤ m) (h2 : m ≤ 12) (h3 : 1 ≤ d) (h4 : d ≤ lastDay y m)
    (hh : h < 100) (hi : i < 100) (hs : s < 100) :
    (parseDateTime (pad 4 y ++ '-' :: (pad 2 m ++ '-' :: (pad 2 d ++ 'T' :: (pad 2 h ++ ':' :: (pad 2 i ++ ':' :: pad 2 s)))))).isSome = true ↔
      h < 24 ∧ i < 60 ∧ s < 60 := by
  have h31 : lastDay y m ≤ 31 := by
    rw [← monthLen_eq y m h1 h2]
    unfold monthLen
    repeat' split
    all_goals omega
  unfold parseDateTime
  rw [number_pad 4 y 0 _ (by omega)]
  simp only [Option.bind_eq_bind, Option.bind_some, Nat.zero_mul, Nat.zero_add]
  rw [number_pad 2 m 0 _ (by omega)]
  simp only [Option.bind_some, literal, if_true, Nat.zero_mul, Nat.zero_add]
  rw [number_pad 2 d 0 _ (by omega)]
  simp only [Option.bind_some, Nat.zero_mul, Nat.zero_add]
  rw [if_neg (by rw [monthLen_eq y m h1 h2]; omega), Option.isSome_map]
  unfold clockOf
  rw [hourNumber_pad h _ (by omega)]
  simp only [Option.bind_eq_bind, Option.bind_some, literal, if_true]
  rw [number_pad 2 i 0 _ (by omega)]
  simp only [Option.bind_some, Nat.zero_mul, Nat.zero_add]
  by_cases hc : 24 ≤ h ∨ 60 ≤ i
  · rw [if_pos hc]
    simp only [Option.isSome_none, Bool.false_eq_true, false_iff]
    omega
  · rw [if_neg hc, if_neg (by simp), show pad 2 s = pad 2 s ++ [] from (List.append_nil _).symm]
    simp only [if_true, Option.bind_some]
    rw [number_pad 2 s 0 _ (by omega)]
    simp only [Option.bind_some, Nat.zero_mul, Nat.zero_add]
    by_cases hc2 : 60 ≤ s
    · rw [if_pos hc2]
      simp only [Option.isSome_none, Bool.false_eq_true, false_iff]
      omega
    · rw [if_neg hc2]
      simp only [fractionOf, true_or, if_true, Option.isSome_some, true_iff]
      omega

/-- Blanks of ASCII. -/
def isBlank (c : Char) : Bool := c == ' ' || c == '\t' || c == '\n' || c == '\r'

theorem dropWhile_blank {a : List Char} (h : ∀ c ∈ a, isBlank c = true) (t : List Char) : (a ++ t).dropWhile isBlank = t.dropWhile isBlank := by
  induction a with
  | nil => rfl
  | cons c a ih =>
    rw [List.cons_append, List.dropWhile_cons, if_pos (h c (by simp))]
    exact ih (fun x hx => h x (by simp [hx]))

theorem dropWhile_then {b : List Char} (h : ∀ c ∈ b, isBlank c = true) (t : List Char) :
    (t ++ b).dropWhile isBlank = if t.dropWhile isBlank = [] then [] else t.dropWhile isBlank ++ b := by
  induction t with
  | nil =>
    have := dropWhile_blank h []
    rw [List.append_nil] at this
    simpa using this
  | cons c t ih =>
    rw [List.cons_append, List.dropWhile_cons, List.dropWhile_cons]
    by_cases hc : isBlank c = true
    · rw [if_pos hc, if_pos hc]; exact ih
    · rw [if_neg hc, if_neg hc, if_neg (by simp)]; rfl

theorem trim_padded (a t b : List Char) (ha : ∀ c ∈ a, isBlank c = true) (hb : ∀ c ∈ b, isBlank c = true) :
    trimBlanks (a ++ (t ++ b)) = trimBlanks t := by
  show ((((a ++ (t ++ b)).dropWhile isBlank).reverse.dropWhile isBlank).reverse) = ((t.dropWhile isBlank).reverse.dropWhile isBlank).reverse
  rw [dropWhile_blank ha, dropWhile_then hb]
  split
  · rename_i h; rw [h]
  · rw [List.reverse_append, dropWhile_blank (fun c hc => hb c (List.mem_reverse.1 hc))]

/-- Blanks around the values of `in` do not matter. -/
theorem c200_blanks (float : String → Option Val) (field : String) (ts : List (List Char × List Char × List Char)) (hne : ts ≠ [])
    (hb : ∀ t ∈ ts, (∀ c ∈ t.1, isBlank c = true) ∧ ',' ∉ t.2.1 ∧ ∀ c ∈ t.2.2, isBlank c = true) :
    urlFilter float field .isIn (joined ',' (ts.map (fun t => t.1 ++ (t.2.1 ++ t.2.2)))) =
      urlFilter float field .isIn (joined ',' (ts.map (fun t => t.2.1))) := by
  have hcomma : isBlank ',' = false := by decide
  unfold urlFilter
  dsimp only
  rw [splitBy_joined, splitBy_joined]
  · simp only [List.map_map, Option.some.injEq, Filter.mk.injEq, true_and]
    apply List.map_congr_left
    intro t ht
    obtain ⟨h1, -, h3⟩ := hb t ht
    simp only [Function.comp]
    rw [trim_padded _ _ _ h1 h3]
  · simpa using hne
  · intro t ht
    obtain ⟨x, hx, rfl⟩ := List.mem_map.1 ht
    exact (hb x hx).2.1
  · simpa using hne
  · intro t ht
    obtain ⟨x, hx, rfl⟩ := List.mem_map.1 ht
    obtain ⟨h1, h2, h3⟩ := hb x hx
    intro hm
    rcases List.mem_append.1 hm with hm | hm
    · rw [h1 _ hm] at hcomma; cases hcomma
    · rcases List.mem_append.1 hm with hm | hm
      · exact h2 hm
      · rw [h3 _ hm] at hcomma; cases hcomma

example : (∀ c ∈ [' ', '\t'], isBlank c = true) ∧ ',' ∉ pad 4 2024 := by decide

end Blnk.Filter
