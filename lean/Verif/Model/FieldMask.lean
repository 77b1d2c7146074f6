import Verif.Model.Varint
/-!
# Model of `field_mask_codec`: `include/hpp_proto/json/field_mask_codec.hpp`

A path is a list of bytes. `encode` writes the inside of a JSON string (escaped); `decode` gets the
unescaped string (`encoded_storage` is `std::string`, 36).
-/
namespace HppProto

/-- `glz::char_escape_table` (library, used at 64): the second character of the two-character escapes. -/
def escapeTable (c : Byte) : Option Byte :=
  if c = 0x22 then some 0x22 else if c = 0x5c then some 0x5c else if c = 0x08 then some 0x62 else if c = 0x0c then some 0x66
  else if c = 0x0a then some 0x6e else if c = 0x0d then some 0x72 else if c = 0x09 then some 0x74 else none

/-- `hex_digit` 51-54. -/
def hexDigit (v : Nat) : Byte :=
  [0x30, 0x31, 0x32, 0x33, 0x34, 0x35, 0x36, 0x37, 0x38, 0x39, 0x61, 0x62, 0x63, 0x64, 0x65, 0x66].getD v 0

/-- `append_escaped_char` 62-80. -/
def escapeChar (c : Byte) : List Byte :=
  match escapeTable c with
  | some e => [0x5c, e]
  | none =>
    if c.toNat < 0x20 then [0x5c, 0x75, 0x30, 0x30, hexDigit (c >>> 4).toNat, hexDigit (c &&& 0x0f).toNat]
    else [c]

/-- `append_escaped_path` 82-87. -/
def escapePath (p : List Byte) : List Byte := p.flatMap escapeChar

/-- `escaped_char_size` 41-49. -/
def escapedCharSize (c : Byte) : Nat := if c.toNat < 0x20 then 6 else if c = 0x22 ∨ c = 0x5c then 2 else 1

/-- `max_encode_size` 89-94. -/
def fieldMaskMaxSize (paths : List (List Byte)) : Nat := paths.length + (paths.map (fun p => (p.map escapedCharSize).sum)).sum

/-- The loop over the remaining paths 106-109. -/
def fieldMaskRest : List (List Byte) → List Byte
  | [] => []
  | p :: rest => 0x2c :: escapePath p ++ fieldMaskRest rest

/-- `encode` 96-111: the characters written. -/
def fieldMaskEncode : List (List Byte) → List Byte
  | [] => []
  | p :: rest => escapePath p ++ fieldMaskRest rest

/-- The loop 125-132 for `k` paths; `cur` is the text from `cur` to the end. -/
def fieldMaskLoop : Nat → List Byte → List (List Byte)
  | 0, _ => []
  | k + 1, cur =>
    let path := cur.takeWhile (· ≠ 0x2c)
    let cur' := match cur.dropWhile (· ≠ 0x2c) with
      | [] => cur
      | _ :: rest => rest
    path :: fieldMaskLoop k cur'

/-- `decode` 114-134; it never fails. -/
def fieldMaskDecode (json : List Byte) : List (List Byte) :=
  if json = [] then [] else fieldMaskLoop (json.count 0x2c + 1) json

end HppProto
