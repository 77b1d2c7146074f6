/-!
# Model of `include/hpp_proto/binpb/varint.hpp`
-/

namespace HppProto

/-- A byte of the wire (`std::byte`, `char`, `uint8_t`). -/
abbrev Byte := BitVec 8

/-- Readable bytes at and after the read pointer, as an address-indexed function.
Models the pointer `p` into `input`; reads past the logical end see whatever the
function holds there. -/
abbrev Mem := Nat → Byte

/-- `varint_size<normal>`: varint.hpp 41-52, non-zig-zag branch. `width` is
`sizeof(value) * CHAR_BIT`; `countl_zero(value | 1)` is `width - 1 - log2 (value | 1)`.
Kept as the same arithmetic expression. -/
def varintSize (width : Nat) (value : Nat) : Nat :=
  (width - (width - 1 - Nat.log2 (value ||| 1)) + 6) / 7

/-- The six varint types `vint32_t … vsint64_t`: varint.hpp 78-85. -/
inductive VarTy where
  | i32 | i64 | u32 | u64 | s32 | s64
  deriving DecidableEq, Repr

/-- `static_cast` of a 64-bit pattern to the value type and back to the canonical
64-bit pattern of the value (sign- or zero-extension). varint.hpp 57-58, 331, 335. -/
def VarTy.cast : VarTy → BitVec 64 → BitVec 64
  | .i32, v | .s32, v => (v.setWidth 32).signExtend 64
  | .u32, v => (v.setWidth 32).setWidth 64
  | .i64, v | .u64, v | .s64, v => v

/-- A 64-bit pattern that represents a value of the type. -/
def VarTy.canonical (ty : VarTy) (v : BitVec 64) : Prop := ty.cast v = v

instance (ty : VarTy) (v : BitVec 64) : Decidable (ty.canonical v) :=
  inferInstanceAs (Decidable (_ = _))

/-- Zig-zag transform on 32 bits: `(v << 1) ^ (v >> 31)` with arithmetic right
shift. varint.hpp 44-45 and 100. -/
def zigzag32 (v : BitVec 32) : BitVec 32 := (v <<< 1) ^^^ (v.sshiftRight 31)

/-- Zig-zag transform on 64 bits. varint.hpp 44-45 and 100. -/
def zigzag64 (v : BitVec 64) : BitVec 64 := (v <<< 1) ^^^ (v.sshiftRight 63)

/-- The unsigned number that is packed for a value: varint.hpp 57-58 (`encode_type`)
and 97-101. `int32` is widened to 64 bits, `uint32` is packed as 32 bits. -/
def VarTy.encodeBits : VarTy → BitVec 64 → Nat
  | .i32, v | .i64, v | .u64, v => v.toNat
  | .u32, v => (v.setWidth 32).toNat
  | .s32, v => (zigzag32 (v.setWidth 32)).toNat
  | .s64, v => (zigzag64 v).toNat

/-- Bits of `encode_type`: varint.hpp 57-58. -/
def VarTy.encodeWidth : VarTy → Nat
  | .i32 | .i64 | .u64 | .s64 => 64
  | .u32 | .s32 => 32

/-- `varint::encode_size`: varint.hpp 72-74. -/
def VarTy.encodeSize (ty : VarTy) (v : BitVec 64) : Nat :=
  varintSize ty.encodeWidth (ty.encodeBits v)

/-- The loop of `unchecked_pack_varint`: varint.hpp 104-108. -/
def packVarint (value : Nat) : List Byte :=
  if value ≥ 0x80 then
    BitVec.ofNat 8 ((value &&& 0x7f) ||| 0x80) :: packVarint (value >>> 7)
  else
    [BitVec.ofNat 8 value]
termination_by value
decreasing_by simp only [Nat.shiftRight_eq_div_pow]; omega

/-- `unchecked_pack_varint`: varint.hpp 95-111. -/
def VarTy.pack (ty : VarTy) (v : BitVec 64) : List Byte := packVarint (ty.encodeBits v)

/-- `shl_byte`: varint.hpp 147-149. -/
def shlByte (n : Nat) (byte : Byte) (ones : BitVec 64) : BitVec 64 :=
  (byte.signExtend 64 <<< (n * 7)) ||| (ones >>> (64 - n * 7))

/-- The template parameter `Type` of `shift_mix_parse_varint` as far as the code
distinguishes it, together with `MAX_BYTES`: varint.hpp 121, 192, 198, 215, 249.
`tag` is `<uint32_t, 4>` (deserialize.hpp 595, 605). -/
inductive MixTy where
  | w64 | i32 | u32 | tag
  deriving DecidableEq, Repr

/-- Last part of `shift_mix_parse_varint`, for the byte at index `k` (the "10th byte"
check): varint.hpp 237-253. -/
def mixLast (is64 : Bool) (g : Mem) (k : Nat) (res1 res2 res3 : BitVec 64) :
    Option Nat × BitVec 64 :=
  if g k = 1#8 then (some (k + 1), res1 &&& (res2 &&& res3))
  else if (g k).msb then (none, res1)
  else if is64 && (g k).getLsbD 0 == false then
    (some (k + 1), res1 &&& (res2 &&& (res3 ^^^ (1#64 <<< 63))))
  else (some (k + 1), res1 &&& (res2 &&& res3))

/-- `shift_mix_parse_varint`: varint.hpp 121-254, unrolled like the code. Result: number
of bytes consumed (`none` when it returns one past the end, i.e. unterminated) and
`res1`. `res >= 0` is `¬ msb`. -/
def shiftMix (ty : MixTy) (g : Mem) : Option Nat × BitVec 64 :=
  let res1 := (g 0).signExtend 64
  if !res1.msb then (some 1, res1) else
  let res2 := shlByte 1 (g 1) res1
  if !res2.msb then (some 2, res1 &&& res2) else
  let res3 := shlByte 2 (g 2) res1
  if !res3.msb then (some 3, res1 &&& (res2 &&& res3)) else
  let res2 := res2 &&& shlByte 3 (g 3) res1
  if !res2.msb then (some 4, res1 &&& (res2 &&& res3)) else
  if ty = .tag then mixLast false g 4 res1 res2 res3 else
  let res3 := res3 &&& shlByte 4 (g 4) res1
  if !res3.msb then (some 5, res1 &&& (res2 &&& res3)) else
  if ty = .w64 then
    let res2 := res2 &&& shlByte 5 (g 5) res1
    if !res2.msb then (some 6, res1 &&& (res2 &&& res3)) else
    let res3 := res3 &&& shlByte 6 (g 6) res1
    if !res3.msb then (some 7, res1 &&& (res2 &&& res3)) else
    let res2 := res2 &&& shlByte 7 (g 7) res1
    if !res2.msb then (some 8, res1 &&& (res2 &&& res3)) else
    let res3 := res3 &&& shlByte 8 (g 8) res1
    if !res3.msb then (some 9, res1 &&& (res2 &&& res3)) else
    mixLast true g 9 res1 res2 res3
  else if ty = .i32 then
    if !(g 5).msb then (some 6, res1 &&& (res2 &&& res3)) else
    if !(g 6).msb then (some 7, res1 &&& (res2 &&& res3)) else
    if !(g 7).msb then (some 8, res1 &&& (res2 &&& res3)) else
    if !(g 8).msb then (some 9, res1 &&& (res2 &&& res3)) else
    mixLast false g 9 res1 res2 res3
  else
    mixLast false g 5 res1 res2 res3

/-- One continuation step of the nested `if`s of `unchecked_parse_bool`:
`byte = (byte - 0x80) | next()`. varint.hpp 277-308. `left` steps remain; the last
one masks the byte with `0x81`. -/
def parseBoolFrom (g : Mem) : (left : Nat) → (pos : Nat) → (byte : Byte) → Option Nat × Bool
  | 0, pos, byte => if byte.msb then (none, false) else (some pos, byte != 0#8)
  | left + 1, pos, byte =>
    if byte.msb then
      let nxt := if left = 0 then g pos &&& 0x81#8 else g pos
      parseBoolFrom g left (pos + 1) ((byte - 0x80#8) ||| nxt)
    else (some pos, byte != 0#8)

/-- `unchecked_parse_bool`: varint.hpp 256-311. -/
def parseBool (g : Mem) : Option Nat × Bool :=
  let byte := g 0
  if byte = 0#8 ∨ byte = 1#8 then (some 1, byte != 0#8)
  else parseBoolFrom g 9 1 byte

/-- Which instance of the mixer a varint type uses: varint.hpp 328, 334. -/
def VarTy.mix : VarTy → MixTy
  | .i32 | .s32 => .i32
  | .u32 => .u32
  | .i64 | .u64 | .s64 => .w64

/-- Zig-zag decoding on the 64-bit accumulator: varint.hpp 329-331. -/
def unzigzag (res : BitVec 64) : BitVec 64 :=
  (res >>> 1) ^^^ (-(res &&& 1#64))

/-- `unchecked_parse_varint`: varint.hpp 319-338. -/
def VarTy.parse (ty : VarTy) (g : Mem) : Option Nat × BitVec 64 :=
  let (n, res) := shiftMix ty.mix g
  match ty with
  | .s32 | .s64 => (n, ty.cast (unzigzag res))
  | _ => (n, ty.cast res)

end HppProto
