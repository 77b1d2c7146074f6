import Verif.Model.Lexical
import Verif.Spec.FloatLiteral

/-!
# Floating literals in generated code

Model of `numeric_literal::floating` and `valid_float_spelling` (`src/protoc-plugin/cpp_lexical_emitter.cpp` 198-209, 507-527). `std::from_chars`
is a library function; it is modelled by its specification for `chars_format::general`: the longest prefix that is a number. Which decimal
numbers are in the range of the type is a parameter. The words for infinity and NaN, which `from_chars` takes too, give values that are
not finite, so that the code refuses them; here they are no numbers.
-/

open HppProto.Spec.Flt (minus plus dot smallE bigE)
namespace HppProto.Lex
open HppProto

/-- The exponent at the start of the text, if there is one, and the text after it (`std::from_chars`). -/
def exponentPart (s : List Byte) : Int × List Byte :=
  match s with
  | [] => (0, [])
  | c :: r =>
    let q := if r.head? = some minus ∨ r.head? = some plus then r.tail else r
    let v : Int := decVal (q.takeWhile isDigit)
    if (c = smallE ∨ c = bigE) ∧ q.takeWhile isDigit ≠ [] then
      (if r.head? = some minus then -v else v, q.dropWhile isDigit)
    else (0, s)

/-- Digits after a point, if the text starts with one, and the text after them (`std::from_chars`). -/
def fractionPart (r : List Byte) : List Byte × List Byte :=
  if r.head? = some dot then (r.tail.takeWhile isDigit, r.tail.dropWhile isDigit) else ([], r)

/-- A number without sign (`std::from_chars`). -/
def unsignedPart (s : List Byte) : Option (Nat × Int × List Byte) :=
  let ip := s.takeWhile isDigit
  let f := fractionPart (s.dropWhile isDigit)
  if ip = [] ∧ f.1 = [] then none
  else some (decVal (ip ++ f.1), (exponentPart f.2).1 - f.1.length, (exponentPart f.2).2)

/-- `std::from_chars(first, last, parsed, std::chars_format::general)`: the sign, the number as `m * 10 ^ e`, and the text after it. -/
def fromCharsGeneral (s : List Byte) : Option (Bool × Nat × Int × List Byte) :=
  if s.head? = some minus then (unsignedPart s.tail).map (true, ·) else (unsignedPart s).map (false, ·)

/-- `valid_float_spelling` (`cpp_lexical_emitter.cpp` 198-209). `inRange` says whether `m * 10 ^ e` is in the range of the type. -/
def validFloatSpelling (inRange : Nat → Int → Bool) (s : List Byte) : Bool :=
  match fromCharsGeneral s with
  | some (_, m, e, []) => inRange m e
  | _ => false

/-- `numeric_literal::floating` (`cpp_lexical_emitter.cpp` 507-527). -/
def floatingLiteral (inRange : Bool → Nat → Int → Bool) (s : List Byte) (isFloat : Bool) : Option (List Byte) :=
  let type := if isFloat then b!"float" else b!"double"
  if s = b!"nan" then some (b!"std::numeric_limits<" ++ type ++ b!">::quiet_NaN()")
  else if s = b!"inf" ∨ s = b!"-inf" then
    some ((if s.head? = some minus then b!"-" else []) ++ b!"std::numeric_limits<" ++ type ++ b!">::infinity()")
  else if !validFloatSpelling (inRange isFloat) s then none
  else if dot ∉ s ∧ smallE ∉ s ∧ bigE ∉ s then some (s ++ [dot] ++ b!"0" ++ if isFloat then b!"F" else [])
  else if !isFloat then some (b!"static_cast<double>(" ++ s ++ b!")")
  else some (s ++ b!"F")

end HppProto.Lex
