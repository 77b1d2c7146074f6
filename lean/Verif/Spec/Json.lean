import Verif.Model.Varint
/-!
# Specification: the inside of a JSON string (RFC 8259, section 7)

Escapes of characters up to U+007F, which are single bytes. `none`: not valid inside a JSON string,
or an escape of a character above U+007F (never written by the codecs here).
-/
namespace HppProto.Spec
open HppProto

/-- A hexadecimal digit. -/
def hexVal (c : Byte) : Option Nat :=
  if 0x30 ≤ c.toNat ∧ c.toNat ≤ 0x39 then some (c.toNat - 0x30)
  else if 0x61 ≤ c.toNat ∧ c.toNat ≤ 0x66 then some (c.toNat - 0x61 + 10)
  else if 0x41 ≤ c.toNat ∧ c.toNat ≤ 0x46 then some (c.toNat - 0x41 + 10)
  else none

/-- The character of a two-character escape. -/
def shortEscape (e : Byte) : Option Byte :=
  if e = 0x22 then some 0x22 else if e = 0x5c then some 0x5c else if e = 0x2f then some 0x2f else if e = 0x62 then some 0x08
  else if e = 0x66 then some 0x0c else if e = 0x6e then some 0x0a else if e = 0x72 then some 0x0d else if e = 0x74 then some 0x09 else none

/-- The bytes that the inside of a JSON string denotes. -/
def unescape : List Byte → Option (List Byte)
  | [] => some []
  | c :: rest =>
    if c = 0x5c then
      match rest with
      | [] => none
      | e :: rest =>
        if e = 0x75 then
          match rest with
          | h1 :: h2 :: h3 :: h4 :: rest =>
            match hexVal h1, hexVal h2, hexVal h3, hexVal h4 with
            | some 0, some 0, some v3, some v4 => if v3 < 8 then (unescape rest).map (BitVec.ofNat 8 (16 * v3 + v4) :: ·) else none
            | _, _, _, _ => none
          | _ => none
        else
          match shortEscape e with
          | some b => (unescape rest).map (b :: ·)
          | none => none
    else if c = 0x22 ∨ c.toNat < 0x20 then none
    else (unescape rest).map (c :: ·)

end HppProto.Spec
