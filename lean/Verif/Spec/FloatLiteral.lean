import Verif.Model.Text
import Verif.Model.Decimal

/-!
# Decimal numbers, and floating literals of C++

Specification for claim C151.
-/

namespace HppProto.Spec.Flt
open HppProto

/-- `-` -/
def minus : Byte := 0x2d
/-- `+` -/
def plus : Byte := 0x2b
/-- `.` -/
def dot : Byte := 0x2e
/-- `e` -/
def smallE : Byte := 0x65
/-- `E` -/
def bigE : Byte := 0x45

/-- An exponent: `e` or `E`, a sign or none, and digits. -/
structure Expo where
  letter : Byte
  sign : Option Byte
  digits : List Byte

/-- The parts of a decimal number: a minus sign or none, digits, a point with digits, an exponent. -/
structure Num where
  neg : Bool
  whole : List Byte
  point : Bool
  frac : List Byte
  expo : Option Expo

/-- How an exponent is written. -/
def Expo.text (x : Expo) : List Byte := x.letter :: x.sign.toList ++ x.digits

/-- How a number is written. -/
def Num.text (n : Num) : List Byte :=
  (if n.neg then [minus] else []) ++ n.whole ++ (if n.point then dot :: n.frac else []) ++ (n.expo.map Expo.text).getD []

/-- All are digits. -/
def Digits (s : List Byte) : Prop := ∀ c ∈ s, isDigit c = true

/-- The letter, the sign and the digits are such. -/
def Expo.Ok (x : Expo) : Prop :=
  (x.letter = smallE ∨ x.letter = bigE) ∧ (∀ c ∈ x.sign, c = minus ∨ c = plus) ∧ Digits x.digits ∧ x.digits ≠ []

/-- At least one digit before the exponent; digits after the point only if there is one. -/
def Num.Ok (n : Num) : Prop :=
  Digits n.whole ∧ Digits n.frac ∧ (n.point = false → n.frac = []) ∧ (n.whole ≠ [] ∨ n.frac ≠ []) ∧ ∀ x ∈ n.expo, x.Ok

/-- The value of an exponent. -/
def Expo.value (x : Expo) : Int := if x.sign = some minus then -(decVal x.digits : Int) else decVal x.digits

/-- The number is `mantissa * 10 ^ power`, with the sign. -/
def Num.mantissa (n : Num) : Nat := decVal (n.whole ++ n.frac)

/-- See `Num.mantissa`. -/
def Num.power (n : Num) : Int := ((n.expo.map Expo.value).getD 0) - n.frac.length

/-- The text is the decimal number `m * 10 ^ e`, negated if `neg`. -/
def Denotes (s : List Byte) (neg : Bool) (m : Nat) (e : Int) : Prop :=
  ∃ n : Num, n.Ok ∧ n.text = s ∧ n.neg = neg ∧ n.mantissa = m ∧ n.power = e

/-- The C++ expression is a floating literal, after a minus sign if `neg`, of type `float` or else `double`, with the number
`m * 10 ^ e`. A literal has a point or an exponent ([lex.fcon]; without either it is an integer); the suffix `F` makes it a `float`. -/
def IsExpression (out : List Byte) (float neg : Bool) (m : Nat) (e : Int) : Prop :=
  ∃ n : Num, n.Ok ∧ (n.point = true ∨ n.expo.isSome = true) ∧ n.neg = neg ∧ n.mantissa = m ∧ n.power = e ∧
    if float then out = n.text ++ b!"F" else out = n.text ∨ out = b!"static_cast<double>(" ++ n.text ++ b!")"

end HppProto.Spec.Flt
