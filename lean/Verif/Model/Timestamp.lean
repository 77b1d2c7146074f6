import Verif.Model.Calendar
import Verif.Model.Duration
/-!
# Model of `timestamp_codec`: `include/hpp_proto/json/timestamp_codec.hpp`

A pointer pair is the list of the remaining bytes. `none` is the error result.
-/
namespace HppProto

/-- `parse_with_separator` 47-66; `sep = none` for `'\0'`. -/
def parseWithSeparator (rest : List Byte) (width : Nat) (sep : Option Byte) : Option (Int × List Byte) :=
  if rest.length < width then none
  else
    match fromStrView minI32 maxI32 (rest.take width) with
    | none => none
    | some v =>
      match sep with
      | none => some (v, rest.drop width)
      | some c => if (rest.drop width).head? = some c then some (v, (rest.drop width).tail) else none

/-- `parse_datetime` 68-77. -/
def parseDatetime (s : List Byte) : Option ((Int × Int × Int × Int × Int × Int) × List Byte) :=
  match parseWithSeparator s 4 (some 0x2d) with
  | none => none
  | some (yy, s) =>
  match parseWithSeparator s 2 (some 0x2d) with
  | none => none
  | some (mm, s) =>
  match parseWithSeparator s 2 (some 0x54) with
  | none => none
  | some (dd, s) =>
  match parseWithSeparator s 2 (some 0x3a) with
  | none => none
  | some (hh, s) =>
  match parseWithSeparator s 2 (some 0x3a) with
  | none => none
  | some (mn, s) =>
  match parseWithSeparator s 2 none with
  | none => none
  | some (ss, s) => some ((yy, mm, dd, hh, mn, ss), s)

/-- `validate_datetime` 79-87. -/
def validateDatetime (yy mm dd hh mn ss : Int) : Bool :=
  if yy ≤ 0 ∨ mm ≤ 0 ∨ dd ≤ 0 ∨ hh < 0 ∨ mn < 0 ∨ ss < 0 then false
  else if mm > 12 ∨ dd > 31 ∨ hh > 23 ∨ mn > 59 ∨ ss > 59 then false
  else true

/-- `parse_fractional_nanos` 89-116. -/
def parseFractionalNanos (s : List Byte) : Option Int :=
  match s with
  | [] => some 0
  | c :: f =>
    if c ≠ 0x2e then none
    else if f = [] ∨ f.length > 9 then none
    else
      match fromStrView minI32 maxI32 f with
      | none => none
      | some n => if n < 0 then none else some (scaleNanos f.length n)

/-- `encode` 158-187, with `fixed_len_to_chars` 119-156. -/
def timestampEncode (seconds nanos : Int) : Option (List Byte) :=
  if nanos > 999999999 ∨ nanos < 0 then none
  else if seconds < -62135596800 ∨ seconds > 253402300799 then none
  else
    let day := seconds / 86400
    let (y, m, d) := civil day
    let tod := (seconds - day * 86400).toNat
    let start := fixedDigits 4 y ++ [0x2d] ++ fixedDigits 2 m ++ [0x2d] ++ fixedDigits 2 d ++ [0x54] ++
      fixedDigits 2 (tod / 3600) ++ [0x3a] ++ fixedDigits 2 (tod % 3600 / 60) ++ [0x3a]
    let ending := if nanos > 0 then fixedDigits 2 (tod % 60) ++ [0x2e] ++ nanosDigits nanos.natAbs ++ [0x5a]
      else fixedDigits 2 (tod % 60) ++ [0x5a]
    some (start ++ ending)

/-- `decode` 189-218. -/
def timestampDecode (json : List Byte) : Option (Int × Int) :=
  if json.getLast? ≠ some 0x5a then none
  else
    match parseDatetime json.dropLast with
    | none => none
    | some ((yy, mm, dd, hh, mn, ss), rest) =>
      if ¬ validateDatetime yy mm dd hh mn ss then none
      else if dd.toNat > lastDay yy.toNat mm.toNat then none
      else
        match parseFractionalNanos rest with
        | none => none
        | some n => some (sysDays yy.toNat mm.toNat dd.toNat * 86400 + hh * 3600 + mn * 60 + ss, n)

end HppProto
