import Verif.Model.Decimal
/-!
# Specification: `google.protobuf.Duration` as JSON text

`-?` whole seconds, optionally a point and one to nine digits, `s`. Only `digit`, `isDigit` and
`decVal` (a decimal digit and the number written by digits) are used.
-/
namespace HppProto.Spec
open HppProto

/-- A value the format allows: at most 10000 years, both parts of the same sign. -/
def durationOk (seconds nanos : Int) : Prop :=
  -315576000000 ≤ seconds ∧ seconds ≤ 315576000000 ∧ -999999999 ≤ nanos ∧ nanos ≤ 999999999 ∧
  ¬ (seconds < 0 ∧ 0 < nanos) ∧ ¬ (0 < seconds ∧ nanos < 0)

/-- The parts of a duration text. -/
structure DurationText where
  negative : Bool
  whole : List Byte
  frac : Option (List Byte)

/-- A minus sign or nothing. -/
def signText (negative : Bool) : List Byte := if negative then [0x2d] else []

/-- A point and digits, or nothing. -/
def fracText : Option (List Byte) → List Byte
  | none => []
  | some f => 0x2e :: f

/-- The text with these parts. -/
def DurationText.text (p : DurationText) : List Byte := signText p.negative ++ p.whole ++ fracText p.frac ++ [0x73]

/-- Digits in every part; the fraction has one to nine digits; the seconds are in range. -/
def DurationText.wf (p : DurationText) : Prop :=
  p.whole ≠ [] ∧ (∀ ch ∈ p.whole, isDigit ch = true) ∧ decVal p.whole ≤ 315576000000 ∧
  ∀ f, p.frac = some f → 1 ≤ f.length ∧ f.length ≤ 9 ∧ ∀ ch ∈ f, isDigit ch = true

/-- The fraction in nanoseconds. -/
def fracNanos : Option (List Byte) → Int
  | none => 0
  | some f => decVal f * 10 ^ (9 - f.length)

/-- The value in nanoseconds that the text denotes. -/
def DurationText.value (p : DurationText) : Int :=
  let v : Int := decVal p.whole * 1000000000 + fracNanos p.frac
  if p.negative then -v else v

end HppProto.Spec
