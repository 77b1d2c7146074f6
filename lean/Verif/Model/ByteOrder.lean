import Verif.Model.Serialize
import Verif.Model.Base64
import Verif.Model.Outcome

/-!
# The byte order of the platform

Model of the code that depends on `std::endian::native`: writing and reading of numbers with a fixed
number of bytes (`binpb/serialize.hpp` 74-111, 134-168; `binpb/deserialize.hpp` 267-276, 287-360),
`append_raw_data` with `bit_cast_view` (`memory_resource_utils.hpp` 181-238, 370-382), and the base64
encoder (`json/base64.hpp` 51-130).  The rest of the model is for little-endian platforms.

Numbers are natural numbers; a number of `k` bytes in memory is the list of its bytes.  The division of
input into regions is not part of this (C16): the bytes of packed numbers are in one piece here.
-/

namespace HppProto.ByteOrder

/-- `std::endian::native`. -/
inductive Order where
  | little | big
  deriving DecidableEq, Repr

/-- `endian_swapped` (`serialize.hpp` 63, 123; `deserialize.hpp` 150). -/
def Order.swapped : Order → Bool
  | .little => false
  | .big => true

/-- The number whose bytes, least significant first, are these. -/
def leNat : List Byte → Nat
  | [] => 0
  | b :: bs => b.toNat + 256 * leNat bs

/-- The bytes of a number in memory: `std::bit_cast` to an array of bytes. -/
def toMemory (o : Order) (k v : Nat) : List Byte :=
  match o with
  | .little => leBytes k v
  | .big => (leBytes k v).reverse

/-- The number that bytes in memory are: `std::bit_cast` from an array of bytes. -/
def fromMemory (o : Order) (bytes : List Byte) : Nat :=
  match o with
  | .little => leNat bytes
  | .big => leNat bytes.reverse

/-- `n` numbers of `k` bytes each in memory. -/
def pieces (k : Nat) : Nat → List Byte → List (List Byte)
  | 0, _ => []
  | n + 1, bytes => bytes.take k :: pieces k n (bytes.drop k)

/-! ## Writing -/

/-- `serialize` of a number (`serialize.hpp` 74-84, 134-140). -/
def writeItem (o : Order) (k v : Nat) : List Byte :=
  if o.swapped && k != 1 then (toMemory o k v).reverse else toMemory o k v

/-- `serialize` of a contiguous range of numbers (`serialize.hpp` 91-106, 158-168): the bytes in memory, or
number by number. -/
def writeArray (o : Order) (k : Nat) (vs : List Nat) : List Byte :=
  if !o.swapped || k == 1 then (vs.map (toMemory o k)).flatten
  else (vs.map (writeItem o k)).flatten

/-! ## Reading -/

/-- `deserialize` of a number (`deserialize.hpp` 267-276). -/
def readItem (o : Order) (bytes : List Byte) : Nat :=
  fromMemory o (if o.swapped then bytes.reverse else bytes)

/-- `do_deserialize_packed_resize` (`deserialize.hpp` 308-341) of `n` numbers of `k` bytes. -/
def readPacked (o : Order) (k n : Nat) (bytes : List Byte) : List Nat :=
  if decide (k > 1) && o.swapped then (pieces k n bytes).map fun v => fromMemory o v.reverse
  else (pieces k n bytes).map (fromMemory o)

/-- `bit_cast_view_t` from `begin` to `end` (`memory_resource_utils.hpp` 181-233), which is never reached if the
size is no multiple. -/
def bitCastView (o : Order) (k : Nat) (bytes : List Byte) : Res (List Nat) :=
  if bytes.length % k = 0 then
    .ok ((pieces k (bytes.length / k) bytes).map fun source =>
      fromMemory o (if o.swapped then source.reverse else source))
  else .ub

/-- `arena_vector::append_raw_data` (`memory_resource_utils.hpp` 370-382): what is appended. -/
def appendRaw (o : Order) (k : Nat) (bytes : List Byte) : Res (List Nat) :=
  if decide (k > 1) && o.swapped then bitCastView o k bytes
  else .ok ((pieces k (bytes.length / k) bytes).map (fromMemory o))

/-! ## Base64 -/

/-- Three bytes and four characters on a big-endian platform (`json/base64.hpp` 67-68, 76-84 and 93-94, 101-109):
`memcpy` fills the most significant bytes. -/
def bigChunk (s0 s1 s2 : Byte) : List Byte :=
  let x : BitVec 32 := (s0.setWidth 32 <<< 24) ||| (s1.setWidth 32 <<< 16) ||| (s2.setWidth 32 <<< 8)
  let x := x >>> 8
  let b3 := base64Char (x &&& 0x3f#32)
  let x := x >>> 6
  let b2 := base64Char (x &&& 0x3f#32)
  let x := x >>> 6
  let b1 := base64Char (x &&& 0x3f#32)
  let x := x >>> 6
  [base64Char (x &&& 0x3f#32), b1, b2, b3]

/-- Three bytes and four characters. -/
def chunk : Order → Byte → Byte → Byte → List Byte
  | .little => base64Chunk
  | .big => bigChunk

/-- The inner loop (`json/base64.hpp` 66-87). -/
def chunks (o : Order) : Nat → List Byte → List Byte × List Byte
  | j + 1, a :: b :: c :: rest =>
    let r := chunks o j rest
    (chunk o a b c ++ r.1, r.2)
  | _, rest => ([], rest)

/-- The unrolled loop (`json/base64.hpp` 63-89). -/
def blocks (o : Order) : Nat → List Byte → List Byte × List Byte
  | 0, rest => ([], rest)
  | k + 1, rest =>
    let r := chunks o 8 rest
    let r' := blocks o k r.2
    (r.1 ++ r'.1, r'.2)

/-- The remaining chunks (`json/base64.hpp` 91-111); the bytes after them are handled without regard to the byte
order (114-127). -/
def rest (o : Order) : List Byte → List Byte
  | a :: b :: c :: r => chunk o a b c ++ rest o r
  | r => base64Rest r

/-- `encode` (`json/base64.hpp` 51-130). -/
def encode (o : Order) (source : List Byte) : List Byte :=
  let r := blocks o (source.length / 24) source
  r.1 ++ rest o r.2

end HppProto.ByteOrder
