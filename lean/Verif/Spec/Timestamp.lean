import Verif.Spec.Calendar
import Verif.Spec.Duration
/-!
# Specification: RFC 3339 UTC text, `YYYY-MM-DDThh:mm:ss[.fraction]Z`
-/
namespace HppProto.Spec
open HppProto

/-- Two and four decimal digits. -/
def two (n : Nat) : List Byte := [digit (n / 10), digit (n % 10)]
def four (n : Nat) : List Byte := [digit (n / 1000), digit (n / 100 % 10), digit (n / 10 % 10), digit (n % 10)]

/-- A date and a time of day with a fraction given by its digits. -/
structure DateTime where
  year : Nat
  month : Nat
  day : Nat
  hour : Nat
  minute : Nat
  second : Nat
  frac : Option (List Byte)

/-- A calendar date, a time of day, one to nine digits. -/
def DateTime.ok (p : DateTime) : Prop :=
  dateOk p.year p.month p.day ∧ p.hour < 24 ∧ p.minute < 60 ∧ p.second < 60 ∧
  ∀ f, p.frac = some f → 1 ≤ f.length ∧ f.length ≤ 9 ∧ ∀ ch ∈ f, isDigit ch = true

/-- RFC 3339 text. -/
def DateTime.text (p : DateTime) : List Byte :=
  four p.year ++ 0x2d :: two p.month ++ 0x2d :: two p.day ++ 0x54 :: two p.hour ++ 0x3a :: two p.minute ++ 0x3a :: two p.second ++
    fracText p.frac ++ [0x5a]

/-- Seconds from 1970-01-01T00:00:00Z. -/
def DateTime.seconds (p : DateTime) : Int :=
  dayNumber p.year p.month p.day * 86400 + p.hour * 3600 + p.minute * 60 + p.second

end HppProto.Spec
