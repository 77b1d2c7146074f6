import Verif.Model.Varint
/-!
# Specification: the Gregorian calendar and RFC 3339 UTC text

Days are counted by adding up the lengths of years and months.
-/
namespace HppProto.Spec
open HppProto

/-- Divisible by 4, but not by 100 unless by 400. -/
def leap (y : Nat) : Prop := y % 4 = 0 ∧ (y % 100 ≠ 0 ∨ y % 400 = 0)

instance (y : Nat) : Decidable (leap y) := by unfold leap; infer_instance

/-- Days in a month. -/
def daysIn (y m : Nat) : Nat :=
  match m with
  | 1 => 31 | 2 => if leap y then 29 else 28 | 3 => 31 | 4 => 30 | 5 => 31 | 6 => 30
  | 7 => 31 | 8 => 31 | 9 => 30 | 10 => 31 | 11 => 30 | 12 => 31 | _ => 0

/-- Days in a year. -/
def yearLen (y : Nat) : Nat := if leap y then 366 else 365

/-- Days in the years 1, …, y. -/
def yearsLen : Nat → Nat
  | 0 => 0
  | y + 1 => yearsLen y + yearLen (y + 1)

/-- Days in the months 1, …, m of year y. -/
def monthsLen (y : Nat) : Nat → Nat
  | 0 => 0
  | m + 1 => monthsLen y m + daysIn y (m + 1)

/-- A date of the years 1 to 9999. -/
def dateOk (y m d : Nat) : Prop := 1 ≤ y ∧ y ≤ 9999 ∧ 1 ≤ m ∧ m ≤ 12 ∧ 1 ≤ d ∧ d ≤ daysIn y m

/-- Days from 0001-01-01. -/
def dayCount (y m d : Nat) : Nat := yearsLen (y - 1) + monthsLen y (m - 1) + (d - 1)

/-- Days from 1970-01-01. -/
def dayNumber (y m d : Nat) : Int := dayCount y m d - dayCount 1970 1 1

end HppProto.Spec
