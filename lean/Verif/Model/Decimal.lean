import Verif.Model.Varint
/-!
# Decimal text

`std::from_chars` and `glz::to_chars` are library functions; they are modelled by their
specifications (C++ [charconv.from.chars], shortest decimal text).
-/
namespace HppProto

/-- The character `'0' + n` (`duration_codec.hpp` 60-62, `timestamp_codec.hpp` 126-128, 141-144, 148-149). -/
def digit (n : Nat) : Byte := BitVec.ofNat 8 (0x30 + n)

/-- `'0' <= ch <= '9'` (used by `std::from_chars`). -/
def isDigit (ch : Byte) : Bool := 0x30 ≤ ch.toNat && ch.toNat ≤ 0x39

/-- The number written by decimal digits (`std::from_chars`, base 10). -/
def decVal (s : List Byte) : Nat := s.foldl (fun n ch => 10 * n + (ch.toNat - 0x30)) 0

/-- The last `k` decimal digits of `n` (the digit arithmetic of `write_3_digits` and
`fixed_len_to_chars`: `duration_codec.hpp` 59-64, `timestamp_codec.hpp` 118-155). -/
def fixedDigits : Nat → Nat → List Byte
  | 0, _ => []
  | k + 1, n => fixedDigits k (n / 10) ++ [digit (n % 10)]

/-- Decimal text with `k + 1` digits at most, without leading zeros. -/
def toDecAux : Nat → Nat → List Byte
  | 0, n => [digit (n % 10)]
  | k + 1, n => if n < 10 then [digit n] else toDecAux k (n / 10) ++ [digit (n % 10)]

/-- `glz::to_chars` of a `uint64_t` (library): decimal text without leading zeros; twenty digits suffice. -/
def toDec (n : Nat) : List Byte := toDecAux 19 n

/-- `std::from_chars(begin, end, value)` (library) for an integer type with values `lo..hi`: an optional `-` for
signed types, then the longest run of digits; no digits or a value out of range is an error. -/
def fromChars (lo hi : Int) (s : List Byte) : Option (Int × List Byte) :=
  let neg := lo < 0 ∧ s.head? = some 0x2d
  let t := if neg then s.tail else s
  let ds := t.takeWhile isDigit
  let v : Int := if neg then - (decVal ds : Int) else decVal ds
  if ds = [] then none
  else if v < lo ∨ hi < v then none
  else some (v, t.dropWhile isDigit)

/-- `from_str_view` (`duration_codec.hpp` 99-104): the whole text is one number. -/
def fromStrView (lo hi : Int) (s : List Byte) : Option Int :=
  match fromChars lo hi s with
  | some (v, []) => some v
  | _ => none

/-- `std::numeric_limits<uint64_t>::max()`: range of `from_chars` in duration_codec.hpp 99-104. -/
def maxU64 : Int := 18446744073709551615
/-- `std::numeric_limits<int32_t>::min()`: range of `from_chars` in timestamp_codec.hpp. -/
def minI32 : Int := -2147483648
/-- `std::numeric_limits<int32_t>::max()`: range of `from_chars` in duration_codec.hpp, timestamp_codec.hpp. -/
def maxI32 : Int := 2147483647

end HppProto
