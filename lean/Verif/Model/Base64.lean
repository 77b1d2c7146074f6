import Verif.Model.Varint
/-!
# Model of `base64`: `include/hpp_proto/json/base64.hpp`

The little-endian branches are modelled. Output through the index `ix` is a list that grows;
the caller provides `max_encode_size` bytes.
-/
namespace HppProto

/-- `base64_chars` 54-56. -/
def base64Chars : List Byte :=
  [0x41, 0x42, 0x43, 0x44, 0x45, 0x46, 0x47, 0x48, 0x49, 0x4a, 0x4b, 0x4c, 0x4d, 0x4e, 0x4f, 0x50, 0x51, 0x52, 0x53, 0x54, 0x55, 0x56, 0x57,
   0x58, 0x59, 0x5a, 0x61, 0x62, 0x63, 0x64, 0x65, 0x66, 0x67, 0x68, 0x69, 0x6a, 0x6b, 0x6c, 0x6d, 0x6e, 0x6f, 0x70, 0x71, 0x72, 0x73, 0x74,
   0x75, 0x76, 0x77, 0x78, 0x79, 0x7a, 0x30, 0x31, 0x32, 0x33, 0x34, 0x35, 0x36, 0x37, 0x38, 0x39, 0x2b, 0x2f]

/-- `base64_chars[i]`; indices are below 64 (masked in the code). -/
def base64Char (i : BitVec 32) : Byte := base64Chars.getD i.toNat 0

/-- `max_encode_size` 44-47. -/
def base64MaxSize (n : Nat) : Nat := (n / 3 + (if n % 3 > 0 then 1 else 0)) * 4

/-- `memcpy` of three bytes into a zeroed `uint32_t` (67-68, 92-93), little-endian, and four
characters: 71-74 and 96-99, the same in both loops. -/
def base64Chunk (s0 s1 s2 : Byte) : List Byte :=
  let x : BitVec 32 := s0.setWidth 32 ||| (s1.setWidth 32 <<< 8) ||| (s2.setWidth 32 <<< 16)
  [base64Char ((x >>> 2) &&& 0x3f#32),
   base64Char (((x <<< 4) &&& 0x30#32) ||| ((x >>> 12) &&& 0x0f#32)),
   base64Char (((x >>> 6) &&& 0x3c#32) ||| ((x >>> 22) &&& 0x3f#32)),
   base64Char ((x >>> 16) &&& 0x3f#32)]

/-- `j` chunks of three bytes: the inner loop 66-87. Result: characters and rest. -/
def base64Chunks : Nat → List Byte → List Byte × List Byte
  | j + 1, a :: b :: c :: rest =>
    let r := base64Chunks j rest
    (base64Chunk a b c ++ r.1, r.2)
  | _, rest => ([], rest)

/-- The unrolled loop 63-89, `k` rounds of 24 bytes. -/
def base64Blocks : Nat → List Byte → List Byte × List Byte
  | 0, rest => ([], rest)
  | k + 1, rest =>
    let r := base64Chunks 8 rest
    let r' := base64Blocks k r.2
    (r.1 ++ r'.1, r'.2)

/-- The loop over the remaining chunks 91-111 and the remaining bytes 114-127. -/
def base64Rest : List Byte → List Byte
  | a :: b :: c :: rest => base64Chunk a b c ++ base64Rest rest
  | [] => []
  | [a] =>
    let ub1 : BitVec 32 := a.setWidth 32
    [base64Char (ub1 >>> 2), base64Char ((ub1 &&& 0x03#32) <<< 4), 0x3d, 0x3d]
  | [a, b] =>
    let ub1 : BitVec 32 := a.setWidth 32
    let ub2 : BitVec 32 := b.setWidth 32
    [base64Char (ub1 >>> 2), base64Char (((ub1 &&& 0x03#32) <<< 4) ||| (ub2 >>> 4)), base64Char ((ub2 &&& 0x0f#32) <<< 2), 0x3d]

/-- `encode` 51-130. The first loop runs for `i = 0, 24, …` up to `n - 24`, which is `n / 24`
rounds. -/
def base64Encode (source : List Byte) : List Byte :=
  let r := base64Blocks (source.length / 24) source
  r.1 ++ base64Rest r.2

/-- `decode_table` 153-163. -/
def base64Table : List Nat :=
  [64, 64, 64, 64, 64, 64, 64, 64, 64, 64, 64, 64, 64, 64, 64, 64, 64, 64, 64, 64, 64, 64, 64, 64, 64, 64,
   64, 64, 64, 64, 64, 64, 64, 64, 64, 64, 64, 64, 64, 64, 64, 64, 64, 62, 64, 64, 64, 63, 52, 53, 54, 55,
   56, 57, 58, 59, 60, 61, 64, 64, 64, 64, 64, 64, 64, 0,  1,  2,  3,  4,  5,  6,  7,  8,  9,  10, 11, 12,
   13, 14, 15, 16, 17, 18, 19, 20, 21, 22, 23, 24, 25, 64, 64, 64, 64, 64, 64, 26, 27, 28, 29, 30, 31, 32,
   33, 34, 35, 36, 37, 38, 39, 40, 41, 42, 43, 44, 45, 46, 47, 48, 49, 50, 51, 64, 64, 64, 64, 64, 64, 64,
   64, 64, 64, 64, 64, 64, 64, 64, 64, 64, 64, 64, 64, 64, 64, 64, 64, 64, 64, 64, 64, 64, 64, 64, 64, 64,
   64, 64, 64, 64, 64, 64, 64, 64, 64, 64, 64, 64, 64, 64, 64, 64, 64, 64, 64, 64, 64, 64, 64, 64, 64, 64,
   64, 64, 64, 64, 64, 64, 64, 64, 64, 64, 64, 64, 64, 64, 64, 64, 64, 64, 64, 64, 64, 64, 64, 64, 64, 64,
   64, 64, 64, 64, 64, 64, 64, 64, 64, 64, 64, 64, 64, 64, 64, 64, 64, 64, 64, 64, 64, 64, 64, 64, 64, 64,
   64, 64, 64, 64, 64, 64, 64, 64, 64, 64, 64, 64, 64, 64, 64, 64, 64, 64, 64, 64, 64, 64, 64, 64]

/-- `decode_table[ch]`, used at 180-183. -/
def base64Value (ch : Byte) : Nat := base64Table.getD ch.toNat 64

/-- `validate_and_decode_quartet` 198-221; `atEnd` is `source_begin == source_end`. -/
def base64Valid (a b c d : Nat) (chC chD : Byte) (atEnd : Bool) : Bool :=
  if a ||| b ||| c ||| d ≥ 64 then
    if chD = 0x3d ∧ chC = 0x3d then
      if !atEnd then false else if c ≠ 64 ∨ d ≠ 64 then false else true
    else if chD = 0x3d then
      if !atEnd then false else if d ≠ 64 then false else true
    else false
  else true

/-- `write_decoded_bytes` 224-236: the bytes appended, given `j` written of `len`. -/
def base64Write (triple : BitVec 32) (j len : Nat) : List Byte :=
  ([(triple >>> 16) &&& 0xff#32, (triple >>> 8) &&& 0xff#32, triple &&& 0xff#32].map (BitVec.setWidth 8)).take (len - j)

/-- The loop 174-193. `out`: the bytes written so far (`j = out.length`). The length is a
multiple of four, so four characters can be read. -/
def base64Loop (len : Nat) : List Byte → List Byte → Option (List Byte)
  | chA :: chB :: chC :: chD :: rest, out =>
    let a := base64Value chA
    let b := base64Value chB
    let c := base64Value chC
    let d := base64Value chD
    if base64Valid a b c d chC chD rest.isEmpty then
      let triple : BitVec 32 := (BitVec.ofNat 32 a <<< 18) + (BitVec.ofNat 32 b <<< 12) + (BitVec.ofNat 32 c <<< 6) + BitVec.ofNat 32 d
      base64Loop len rest (out ++ base64Write triple out.length len)
    else none
  | _, out => if out.length = len then some out else none

/-- `decode` 132-194: the decoded bytes, `none` for false. -/
def base64Decode (source : List Byte) : Option (List Byte) :=
  let n := source.length
  if n = 0 then some []
  else if n % 4 ≠ 0 then none
  else
    let len := n / 4 * 3
    let len := if source.getD (n - 1) 0 = 0x3d then len - 1 else len
    let len := if source.getD (n - 2) 0 = 0x3d then len - 1 else len
    base64Loop len source []

end HppProto
