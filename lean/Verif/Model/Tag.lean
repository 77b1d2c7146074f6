import Verif.Model.Varint
/-! # Model of field tags: `include/hpp_proto/binpb/meta.hpp` 107-150, `deserialize.hpp` 591-612 -/
namespace HppProto

/-- `enum class wire_type`: meta.hpp 107-114, plus the two values the enum does not name
but a `wire_type(tag & 7)` cast can produce. -/
abbrev WireType := BitVec 32

def wtVarint : WireType := 0
def wtFixed64 : WireType := 1
def wtLen : WireType := 2
def wtSGroup : WireType := 3
def wtEGroup : WireType := 4
def wtFixed32 : WireType := 5

/-- `make_tag`: meta.hpp 139-141. -/
def makeTag (number : BitVec 32) (wt : WireType) : BitVec 32 := (number <<< 3) ||| wt

/-- `tag_type`: meta.hpp 148. -/
def tagType (tag : BitVec 32) : WireType := tag &&& 7#32

/-- `tag_number`: meta.hpp 150. -/
def tagNumber (tag : BitVec 32) : BitVec 32 := tag >>> 3

/-- Bytes of a tag as written: `varint{uint32}` goes through `unchecked_pack_varint`
(meta.hpp 139-141, varint.hpp 95-111). -/
def packTag (tag : BitVec 32) : List Byte := packVarint tag.toNat

/-- `read_tag` on the bytes at the read position: deserialize.hpp 591-600. `none`: the tag
is not terminated within five bytes (or past the end, checked by the caller of this
function); the code then returns 0. -/
def readTag (g : Mem) : Option Nat × BitVec 32 :=
  let (n, res) := shiftMix .tag g
  (n, res.setWidth 32)

/-- `match_tag`: deserialize.hpp 602-612. `std::cmp_equal` compares the signed 64-bit
accumulator with the unsigned tag. Result: bytes consumed on a match. -/
def matchTag (g : Mem) (tag : BitVec 32) : Option Nat :=
  let (n, res) := shiftMix .tag g
  match n with
  | some n => if res.toInt = (tag.toNat : Int) then some n else none
  | none => none

end HppProto
