import Verif.Model.Decimal
/-!
# Model of `duration_codec`: `include/hpp_proto/json/duration_codec.hpp`

`seconds` is an `int64`, `nanos` an `int32`; both are integers here and the theorems range over the
values of those types. The text is a list of bytes. `none` is the error result (-1, false); what a
failing decode leaves in the value is not modelled.
-/
namespace HppProto

/-- `has_same_sign` 37. -/
def hasSameSign (x y : Int) : Bool := x = 0 || y = 0 || (decide (x > 0) == decide (y > 0))

/-- The digits after the point, 58-79: the milliseconds and, where needed, microseconds and nanoseconds. -/
def nanosDigits (nanos : Nat) : List Byte :=
  let ms := nanos / 1000000
  let us := nanos / 1000 % 1000
  let ns := nanos % 1000
  if ns ≠ 0 then fixedDigits 3 ms ++ fixedDigits 3 us ++ fixedDigits 3 ns
  else if us ≠ 0 then fixedDigits 3 ms ++ fixedDigits 3 us
  else fixedDigits 3 ms

/-- `encode` 36-83. The buffer is the text; `max_encode_size` is 32. -/
def durationEncode (seconds nanos : Int) : Option (List Byte) :=
  if seconds < -315576000000 ∨ seconds > 315576000000 ∨ nanos < -999999999 ∨ nanos > 999999999 ∨ ¬ hasSameSign seconds nanos then none
  else
    let sign : List Byte := if nanos < 0 ∨ seconds < 0 then [0x2d] else []
    let whole := toDec seconds.natAbs
    let frac : List Byte := if nanos ≠ 0 then 0x2e :: nanosDigits nanos.natAbs else []
    some (sign ++ whole ++ frac ++ [0x73])

/-- The scaling loop 125-127: ten to the number of missing digits. -/
def scaleNanos (len : Nat) (n : Int) : Int := n * 10 ^ (9 - len)

/-- The bytes before and, if there is a point, after the first point: `find('.')`, `substr` 106-121. -/
def splitPoint (s : List Byte) : List Byte × Option (List Byte) :=
  match s.dropWhile (· ≠ 0x2e) with
  | [] => (s, none)
  | _ :: rest => (s.takeWhile (· ≠ 0x2e), some rest)

/-- `decode` 86-139. -/
def durationDecode (json : List Byte) : Option (Int × Int) :=
  if json.getLast? ≠ some 0x73 then none
  else
    let s := json.dropLast
    let isNegative := s.head? = some 0x2d
    let s := if isNegative then s.tail else s
    let (whole, frac) := splitPoint s
    match fromStrView 0 maxU64 whole with
    | none => none
    | some u =>
      let seconds : Int := if u < 2 ^ 63 then u else u - 2 ^ 64
      if seconds > 315576000000 ∨ seconds < 0 then none
      else
        let nanos : Option Int := match frac with
          | none => some 0
          | some f =>
            if f.head? = some 0x2d ∨ f.length > 9 then none
            else (fromStrView minI32 maxI32 f).map (scaleNanos f.length)
        match nanos with
        | none => none
        | some n => if isNegative then some (-seconds, -n) else some (seconds, n)

end HppProto
