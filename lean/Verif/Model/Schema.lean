import Verif.Model.Tag
import Verif.Model.Outcome
/-!
# Message types and message values

A generated hpp-proto message class is a C++ struct plus a `pb_meta` tuple
(`include/hpp_proto/binpb/meta.hpp` 49-105). Here the tuple is data (`MsgD`) and a
message object is data (`Msg`), so that one theorem covers every generated class.
-/
namespace HppProto

/-- Scalar field types, by wire behaviour (`concepts.hpp`, `meta.hpp` 120-137, 164-190).
`fixed32`/`fixed64` stand for (s)fixed and float/double; `isFloat` matters only for
the comparison with the default value. `enum (some vs)` is a closed enum whose valid
numbers (sign-extended) are `vs`. `str u` is string or bytes, `u` = UTF-8 validation. -/
inductive Scalar where
  | varint (ty : VarTy)
  | bool
  | enum (closed : Option (List (BitVec 64)))
  | fixed32 (isFloat : Bool)
  | fixed64 (isFloat : Bool)
  | str (utf8 : Bool)
  deriving DecidableEq, Repr

/-- Type of one field value: scalar, embedded message (by message-type number) or group
(`field_option::group`, meta.hpp 59). -/
inductive Kind where
  | scalar (s : Scalar)
  | msg (id : Nat)
  | group (id : Nat)
  deriving DecidableEq, Repr

/-- A message object: per `pb_meta` entry the list of values it holds, and the stored
unknown fields / extensions. A plain member holds exactly one value, an optional or a
oneof at most one, a repeated field or map any number. The number beside a value is the
oneof alternative (0 elsewhere). Unknown fields are kept by key: key 0 holds the byte
string of `unknown_fields_.fields`; extensions use the field number
(`deserialize.hpp` 616-647, 1301-1313). -/
structure MsgOf (V : Type) where
  slots : List (List (Nat × V))
  unk : List (Nat × List Byte)
  deriving Repr

/-- Field values. Integers, bools, enums and floats are 64-bit patterns: sign- or
zero-extended values, or the bits of the float. A map entry is a two-slot message. -/
inductive Val where
  | num (v : BitVec 64)
  | bytes (bs : List Byte)
  | msg (m : MsgOf Val)
  deriving Repr

abbrev Msg := MsgOf Val

/-- How the member is stored and when it is written (`omit_value`, meta.hpp 69-83, and
the containers of field_types.hpp):
`implicit d` plain member, omitted when equal to `d`; `always d` plain member with
`explicit_presence` (required fields, key and value of a map entry), always written,
initially `d`; `optional`; `repeated packed`; `map unique` (associative container when
`unique`, sequence of pairs otherwise). -/
inductive Card where
  | implicit (dflt : Val)
  | always (dflt : Val)
  | optional
  | repeated (packed : Bool)
  | map (unique : Bool)
  deriving Repr

/-- `field_meta` (meta.hpp 86-91) or `oneof_field_meta` (meta.hpp 93-105). -/
inductive SlotD where
  | field (number : BitVec 32) (kind : Kind) (card : Card)
  | oneof (alts : List (BitVec 32 × Kind))
  deriving Repr

/-- Storage for unknown fields: none, one byte string, or per field number
(`get_unknown_fields`, deserialize.hpp 1301-1313). -/
inductive UnkMode where
  | none | bytes | ext
  deriving DecidableEq, Repr

/-- A message type. `isEntry` marks `map_entry::mutable_type` (meta.hpp 197-221). -/
structure MsgD where
  slots : List SlotD
  unk : UnkMode
  isEntry : Bool := false
  deriving Repr

/-- All message types, and the external UTF-8 validator `is_utf8` (utf8.hpp 28-30). -/
structure Cfg where
  schema : Nat → MsgD
  utf8 : List Byte → Bool

/-- Initial contents of a member of a freshly constructed message. -/
def SlotD.initial : SlotD → List (Nat × Val)
  | .field _ _ (.implicit d) => [(0, d)]
  | .field _ _ (.always d) => [(0, d)]
  | _ => []

/-- A default-constructed message (`msg = {}`, binpb.hpp 234; `element_type element;`
deserialize.hpp 911). -/
def MsgD.default (D : MsgD) : Msg := ⟨D.slots.map SlotD.initial, []⟩

/-- Does the `pb_meta` entry own this field number (`has_field_num`, meta.hpp 152-162). -/
def SlotD.hasNumber (n : BitVec 32) : SlotD → Bool
  | .field m _ _ => m == n
  | .oneof alts => alts.any (fun a => a.1 == n)

/-- Index of the entry that owns the field number. This is what the generated dispatch
table computes (meta.hpp 305-464; `Verif/Model/Dispatch.lean` models the table itself). -/
def MsgD.find (D : MsgD) (n : BitVec 32) : Option Nat :=
  D.slots.findIdx? (SlotD.hasNumber n)

/-- Values held by member `i`. -/
def MsgOf.get {V} (m : MsgOf V) (i : Nat) : List (Nat × V) := m.slots.getD i []

/-- Replace the values held by member `i`. -/
def MsgOf.put {V} (m : MsgOf V) (i : Nat) (es : List (Nat × V)) : MsgOf V :=
  { m with slots := m.slots.set i es }

/-- Append bytes under a key, keeping the order of first insertion.
Models `append_range` / `fields[number]` (deserialize.hpp 616-647). Simplification: the
iteration order of the extension container is the order of first insertion. -/
def unkAppend (key : Nat) (bs : List Byte) : List (Nat × List Byte) → List (Nat × List Byte)
  | [] => [(key, bs)]
  | (k, b) :: l => if k = key then (k, b ++ bs) :: l else (k, b) :: unkAppend key bs l

/-- Store the bytes of unknown records of field `number`: deserialize.hpp 616-647. -/
def MsgOf.addUnk {V} (m : MsgOf V) (mode : UnkMode) (number : BitVec 32) (bs : List Byte) : MsgOf V :=
  match mode with
  | .none => m
  | .bytes => { m with unk := unkAppend 0 bs m.unk }
  | .ext => { m with unk := unkAppend number.toNat bs m.unk }

/-- `deserialize_unknown_enum`: deserialize.hpp 649-672. The record is built afresh with
minimal encodings. Simplification: the non-owning extension container of the code keeps a
span into a dead stack buffer (lines 664-665); here the bytes are copied. -/
def unkEnumRecord (number : BitVec 32) (v : BitVec 64) : List Byte :=
  packTag (makeTag number wtVarint) ++ VarTy.i64.pack v

/-- Lexicographic order on lists of numbers. -/
def lexLt : List Nat → List Nat → Bool
  | _, [] => false
  | [], _ :: _ => true
  | a :: l, b :: m => a < b || (a == b && lexLt l m)

/-- Place of a map key in the order of an associative container (`std::map`, `flat_map`:
`std::less` of the key). Numbers are ordered as unsigned; the C++ orders signed keys as
signed, which changes only the order in which entries are listed. -/
def keyRank : Val → List Nat
  | .num a => [0, a.toNat]
  | .bytes b => 1 :: b.map BitVec.toNat
  | .msg _ => []

/-- The key of a map entry value: first slot of the entry message. -/
def Val.entryKey : Val → Option Val
  | .msg m => (m.get 0).head?.map Prod.snd
  | _ => Option.none

/-- Place of a map entry in the order of its container. -/
def entryRank (e : Val) : List Nat :=
  match e.entryKey with
  | some k => keyRank k
  | Option.none => []

/-- `insert_or_assign` of an entry (deserialize.hpp 916-917) in an associative container,
held as the list of its entries in key order. -/
def insertOrAssign (e : Val) : List (Nat × Val) → List (Nat × Val)
  | [] => [(0, e)]
  | (a, x) :: l =>
    if entryRank x = entryRank e then (0, e) :: l
    else if lexLt (entryRank e) (entryRank x) then (0, e) :: (a, x) :: l
    else (a, x) :: insertOrAssign e l

/-- The message inside a value; for a value of another shape, the default message (not
reachable from well-formed messages). -/
def Val.asMsg (dflt : Msg) : Val → Msg
  | .msg m => m
  | _ => dflt

/-- The number inside a value (0 for a value of another shape, not reachable from
well-typed messages). -/
def Val.bits : Val → BitVec 64
  | .num v => v
  | _ => 0

/-- The byte string inside a value (empty for a value of another shape). -/
def Val.str : Val → List Byte
  | .bytes bs => bs
  | _ => []

/-- Wire type written and expected for a scalar (`tag_type<T>`, meta.hpp 120-137). -/
def Scalar.wireType : Scalar → WireType
  | .varint _ | .bool | .enum _ => wtVarint
  | .fixed32 _ => wtFixed32
  | .fixed64 _ => wtFixed64
  | .str _ => wtLen

/-- `concepts::maybe_packed_type` (concepts.hpp 128-132): every scalar but strings. -/
def Scalar.packable : Scalar → Bool
  | .str _ => false
  | _ => true

/-- Wire type of a value of the kind. -/
def Kind.wireType : Kind → WireType
  | .scalar s => s.wireType
  | .msg _ => wtLen
  | .group _ => wtSGroup

/-- Value of a default-constructed element (`emplace()`, `resize`): zero, empty string or
default message. -/
def Kind.zero (C : Cfg) : Kind → Val
  | .scalar (.str _) => .bytes []
  | .scalar _ => .num 0
  | .msg id | .group id => .msg (C.schema id).default

end HppProto
