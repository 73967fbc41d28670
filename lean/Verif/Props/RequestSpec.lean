import Verif.Model.Request
import Mathlib.Algebra.Order.Field.Power
import Mathlib.Data.Rat.Cast.Order
/-
The words the statements about requests use: how many digits a number needs, what the printer
of doubles promises, and which requests are filled in properly.
-/
namespace Blnk.Request
open Blnk

/-- A decimal number that can be written with `n` significant digits. -/
def Fits (n : Nat) (d : ℚ) : Prop := ∃ (a : Int) (k : Int), a.natAbs < 10 ^ n ∧ d = a * (10 : ℚ) ^ k

/-- The smallest amount the statements speak about: doubles keep fifteen digits down to here. -/
def least : ℚ := 1 / 10 ^ 300

/-- What `strconv` promises of its shortest output (`FormatFloat` with precision `-1`): it
reads back as the same double, and no other decimal that reads as this double is shorter. -/
structure Shortest (P : ℚ → ℚ) : Prop where
  reads : ∀ d n, Fits n d → f64 (P (f64 d)) = f64 d
  short : ∀ d n, Fits n d → Fits n (P (f64 d))

/-- A request between two single balances with everything but the amount in order. -/
structure Plain (r : Raw) : Prop where
  noPrecise : r.preciseAmount = none
  /-- a whole number, not astronomically large, that a double holds exactly -/
  precision : ∃ p : Nat, r.precision = p ∧ p < 10 ^ 30 ∧ f64 p = p
  noLimit : r.overdraftLimit = 0
  source : r.source ≠ "" ∧ r.sources = []
  destination : r.destination ≠ "" ∧ r.destinations = []
  differ : r.source ≠ r.destination
  texts : r.currency ≠ "" ∧ r.reference ≠ "" ∧ r.description ≠ ""
  dates : r.scheduledFor = none ∧ r.expiryDate = none ∧ r.commitDate = none

/-- Numbers that can be written down at all. -/
def Decimal (d : ℚ) : Prop := ∃ n, Fits n d

/-- The whole number nearest a non-negative number, halves upwards. -/
def Nearest (n : Int) (x : ℚ) : Prop := |(n : ℚ) - x| ≤ 1 / 2 ∧ ∀ m : Int, x = m + 1 / 2 → n = m + 1

/-- The precision a request asks for: one if it names none. -/
def asked (p : ℚ) : ℚ := if p = 0 then 1 else p

end Blnk.Request
