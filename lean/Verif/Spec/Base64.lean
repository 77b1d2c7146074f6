import Verif.Model.Varint
/-!
# Specification: base64 (RFC 4648, section 4)

The bytes as one bit string, most significant bit first, cut into groups of six; an incomplete
last group is filled with zero bits; one character per group; `=` up to a multiple of four
characters.
-/
namespace HppProto.Spec
open HppProto

/-- A–Z, a–z, 0–9, +, /. -/
def alphabet (i : Nat) : Byte :=
  if i < 26 then BitVec.ofNat 8 (0x41 + i)
  else if i < 52 then BitVec.ofNat 8 (0x61 + (i - 26))
  else if i < 62 then BitVec.ofNat 8 (0x30 + (i - 52))
  else if i = 62 then 0x2b else 0x2f

/-- Bits of a byte, most significant first. -/
def bits (b : Byte) : List Bool := [7, 6, 5, 4, 3, 2, 1, 0].map (fun i => b.getLsbD i)

/-- The number with these bits, most significant first. -/
def number (l : List Bool) : Nat := l.foldl (fun n b => 2 * n + b.toNat) 0

/-- Groups of six bits, the last one filled with zeros. -/
def groups : List Bool → List Nat
  | a :: b :: c :: d :: e :: f :: rest => number [a, b, c, d, e, f] :: groups rest
  | [] => []
  | part => [number (part ++ List.replicate (6 - part.length) false)]

/-- The base64 text of a byte string. -/
def base64Text (bs : List Byte) : List Byte :=
  let cs := (groups (bs.flatMap bits)).map alphabet
  cs ++ List.replicate ((4 - cs.length % 4) % 4) 0x3d

/-- A character of the alphabet. -/
def inAlphabet (ch : Byte) : Prop := ∃ i < 64, ch = alphabet i

end HppProto.Spec
