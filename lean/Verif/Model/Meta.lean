import Verif.Model.Pool
import Verif.Model.Schema

/-!
# The `pb_meta` of generated message classes

What `protoc-gen-hpp` writes for a message of a descriptor pool, as far as the binary format is
concerned: the members of the class (`*.msg.hpp`) and the entries of its `pb_meta` (`*.pb.hpp`),
`src/protoc-plugin/hpp_generator.cpp` 225-410, 815-830, 1236-1411, 1527-1812.  The second half is
what the library makes of them (`include/hpp_proto/binpb/meta.hpp` 49-222), which ends in the types
`MsgD` that the model of reader and writer works on.

Names, and the text of literals, are left out: they are the subject of C44, C47, C58 and C89.  The
entries of extensions (`format_extension`) are in `GenExtension.lean`.
-/

namespace HppProto
namespace Meta

/-! ## The function `is_valid` of an enum -/

/-- `std::ranges::sort` of the numbers (`hpp_generator.cpp` 405), as an insertion sort. -/
def insertInt (x : Int) : List Int → List Int
  | [] => [x]
  | y :: l => if x ≤ y then x :: y :: l else y :: insertInt x l

/-- `std::ranges::sort` of the numbers (`hpp_generator.cpp` 405). -/
def sortInts : List Int → List Int
  | [] => []
  | x :: l => insertInt x (sortInts l)

/-- The loop that computes `continuous` (`hpp_generator.cpp` 406-411).  The difference is one of two
`int`: when it does not fit an `int` the behaviour of the generator is undefined. -/
def continuousLoop : List Int → Res Bool
  | a :: b :: l =>
    if b - a > 2147483647 then .ub
    else if b - a > 1 then .ok false
    else continuousLoop (b :: l)
  | _ => .ok true

/-- The body of a generated `is_valid` function (`hpp_generator.cpp` 1400-1414). -/
inductive ValidFn where
  | never
  | range (lo hi : Int)
  | among (values : List Int)
  deriving DecidableEq, Repr

/-- What the body returns for a number. -/
def ValidFn.accepts : ValidFn → Int → Bool
  | .never, _ => false
  | .range lo hi, v => decide (v ≥ lo) && decide (v ≤ hi)
  | .among values, v => values.any fun u => u == v

/-- The `is_valid` function that is generated for an enum with these numbers
(`enum_descriptor` 394-413, `process(enum_descriptor_t &)` 1385-1417). -/
def isValidFn (numbers : List Int) : Res ValidFn := do
  let sorted := sortInts numbers
  let continuous ← continuousLoop sorted
  match sorted with
  | [] => .ok .never
  | lo :: rest =>
    if continuous then .ok (.range lo ((lo :: rest).getLast (by simp))) else .ok (.among sorted)

/-! ## What the generator is given beside the pool -/

/-- What the generator is given beside the pool, or has found out before, and what the user of the
classes chooses.  A field is named by the full name of its message and its number. -/
structure Setup where
  /-- The values of the option `proto2_explicit_presence`; `["."]` if it is not given
  (`hpp_generator.cpp` 2521-2535). -/
  explicit : List (List Byte) := [b!"."]
  /-- The `default_value` of the field, as a value; `none` if there is none.  The text of the
  literal that is generated for it is the subject of C47 and C58. -/
  dflt : List Byte → Int → Option Val := fun _ _ => none
  /-- Has the message extension ranges? -/
  ranged : List Byte → Bool := fun _ => false
  /-- `is_recursive` of the field, when the messages have been ordered (C83-C85). -/
  recursive : List Byte → Int → Bool := fun _ _ => false
  /-- Is `map_t` of the traits an associative container (`field_types.hpp` 636-705)? -/
  unique : Bool := true
  /-- Do the traits keep unknown fields (`keep_unknown_fields`, `field_types.hpp` 702-705)? -/
  keeps : Bool := false

/-! ## Types of members and of metadata -/

/-- The C++ type of a value (`set_cpp_type`, `hpp_generator.cpp` 252-318, and `set_field_cpp_type`,
720-753): `enum` and `msg` carry the position of the type in the pool. -/
inductive CppTy where
  | double | float | i64 | u64 | i32 | u32 | bool | string | bytes
  | enum (id : Nat)
  | msg (id : Nat)
  deriving DecidableEq, Repr

/-- The parameter `Type` of `field_meta`: `cpp_meta_type` (`hpp_generator.cpp` 252-318).  The
`map_entry<...>` of a map is modelled apart. -/
inductive MetaTy where
  | void | vi64 | vu64 | vu32 | vs32 | vs64 | bool
  deriving DecidableEq, Repr

/-- `set_cpp_type` (`hpp_generator.cpp` 252-318); for messages and enums, the resolved type.
Simplification: a number that is no type, which the pool rejects, counts as bytes. -/
def cppType (f : FieldDesc) : CppTy × MetaTy :=
  if f.proto.type = 1 then (.double, .void)
  else if f.proto.type = 2 then (.float, .void)
  else if f.proto.type = 3 then (.i64, .vi64)
  else if f.proto.type = 4 then (.u64, .vu64)
  else if f.proto.type = 5 then (.i32, .vi64)
  else if f.proto.type = 6 then (.u64, .void)
  else if f.proto.type = 7 then (.u32, .void)
  else if f.proto.type = 8 then (.bool, .bool)
  else if f.proto.type = 9 then (.string, .void)
  else if f.proto.type = 10 then (.msg (f.type.getD 0), .void)
  else if f.proto.type = 11 then (.msg (f.type.getD 0), .void)
  else if f.proto.type = 13 then (.u32, .vu32)
  else if f.proto.type = 14 then (.enum (f.type.getD 0), .void)
  else if f.proto.type = 15 then (.i32, .void)
  else if f.proto.type = 16 then (.i64, .void)
  else if f.proto.type = 17 then (.i32, .vs32)
  else if f.proto.type = 18 then (.i64, .vs64)
  else (.bytes, .void)

/-- `field_option` (`field_types.hpp`), the flags of a `field_meta`. -/
structure Opts where
  presence : Bool := false
  packed : Bool := false
  group : Bool := false
  utf8 : Bool := false
  closed : Bool := false
  deriving DecidableEq, Repr

/-- Is `::hpp_proto::field_option::none` what is written? -/
def Opts.none (o : Opts) : Bool := !o.presence && !o.packed && !o.group && !o.utf8 && !o.closed

/-- The enum of a field (`enum_field_type_descriptor`, `descriptor_pool.hpp` 255-258). -/
def enumOf (p : Pool) (f : FieldDesc) : Option EnumDesc :=
  if f.proto.type = 14 then f.type.bind (p.enums[·]?) else none

/-- `is_closed_enum` (`hpp_generator.cpp` 815-820; `is_closed`, `descriptor_pool.hpp` 437). -/
def isClosedEnum (p : Pool) (f : FieldDesc) : Bool :=
  match enumOf p f with
  | none => false
  | some e => e.features.enumType == 2

/-- The `syntax` of the file of a message (`hpp_generator.cpp` 461, 1187). -/
def syntaxOf (p : Pool) (d : MsgDesc) : List Byte :=
  match p.files[d.file]? with
  | none => []
  | some f => if f.proto.syntaxName = [] then b!"proto2" else f.proto.syntaxName

/-- The test that decides whether the option names a field: `starts_with` of the full name
(`hpp_generator.cpp` 1324-1326).  Simplification: an empty value of the option makes
`substr(1)` throw; here it counts as `.`. -/
def namedBy (scopes : List (List Byte)) (full : List Byte) : Bool :=
  scopes.any fun s => (s.drop 1).isPrefixOf full

/-- `set_presence_rule` (`hpp_generator.cpp` 1314-1328).  It is not called for the fields of map
entries (1415-1417), for which `is_cpp_optional` stays `false`. -/
def cppOptional (S : Setup) (p : Pool) (d : MsgDesc) (f : FieldDesc) : Bool :=
  if d.proto.mapEntry then false
  else if syntaxOf p d ≠ b!"proto2" ∨ S.explicit = [] then f.bits.presence
  else f.proto.label == 1 && (f.proto.type == 11 || f.proto.type == 10 ||
    namedBy S.explicit (d.fullName ++ b!"." ++ f.proto.name))

/-- `emit_closed_enum_validation` (`hpp_generator.cpp` 1638-1653). -/
def emitClosed (S : Setup) (p : Pool) (d : MsgDesc) (f : FieldDesc) : Bool :=
  isClosedEnum p f &&
    !(f.extendee.isNone && !d.proto.mapEntry && f.proto.label == 1 && f.proto.oneofIndex.isNone &&
      !cppOptional S p d f)

/-- The first part of `meta_options` (`hpp_generator.cpp` 1658-1668). -/
def presenceOpt (S : Setup) (p : Pool) (d : MsgDesc) (f : FieldDesc) : Bool :=
  cppOptional S p d f || f.bits.required || f.proto.oneofIndex.isSome ||
    (isClosedEnum p f && f.extendee.isSome && f.proto.label == 1)

/-- `meta_options` (`hpp_generator.cpp` 1655-1679). -/
def metaOptions (S : Setup) (p : Pool) (d : MsgDesc) (f : FieldDesc) : Opts :=
  { presence := presenceOpt S p d f
    packed := !presenceOpt S p d f && f.bits.packed
    group := f.bits.delimited
    utf8 := !f.bits.delimited && f.bits.utf8
    closed := !f.bits.delimited && !f.bits.utf8 && emitClosed S p d f }

/-- The first number of an enum, as a value (`hpp_generator.cpp` 823-827). -/
def firstNumber (e : EnumDesc) : Option Val :=
  e.proto.numbers.head?.map fun n => .num (BitVec.ofInt 64 n)

/-- `default_value` and `default_value_template_arg` (`set_default_value`, `hpp_generator.cpp`
320-349; `resolve_enum_field`, 815-830): what the schema says, or the first number of an enum. -/
def defaultOf (S : Setup) (p : Pool) (d : MsgDesc) (f : FieldDesc) : Option Val :=
  match S.dflt d.fullName f.proto.number with
  | some v => some v
  | none => if f.proto.label == 1 then (enumOf p f).bind firstNumber else none

/-- How a member holds its values. -/
inductive Holder where
  /-- a plain member with this initializer (`= {}`, or none, if there is none) -/
  | plain (init : Option Val)
  /-- `std::optional`, `hpp_proto::optional` or `optional_indirect_t` -/
  | optional
  | repeated
  | map

/-- `field_type_wrapper`, `field_type` and the initializer of the member
(`hpp_generator.cpp` 1236-1289, 1330-1341). -/
def holder (S : Setup) (p : Pool) (d : MsgDesc) (f : FieldDesc) : Holder :=
  if f.bits.mapEntry then .map
  else if f.proto.label = 3 then .repeated
  else if f.proto.type = 10 ∨ f.proto.type = 11 then
    if S.recursive d.fullName f.proto.number || cppOptional S p d f then .optional else .plain none
  else if cppOptional S p d f then .optional
  else if f.proto.type = 9 ∨ f.proto.type = 12 then .plain none
  else .plain (defaultOf S p d f)

/-- The default in the `field_meta` (`hpp_generator.cpp` 1711-1715). -/
def metaDefault (S : Setup) (p : Pool) (d : MsgDesc) (f : FieldDesc) : Option Val :=
  if (metaOptions S p d f).none || isClosedEnum p f then defaultOf S p d f else none

/-! ## The entries of a class -/

/-- An entry of `pb_meta` together with the member it leads to. -/
inductive Entry where
  | field (number : Int) (holder : Holder) (type : CppTy × MetaTy) (opts : Opts) (dflt : Option Val)
  | oneof (alts : List (Int × (CppTy × MetaTy) × Opts))

/-- The fields that a message or oneof lists (`fields()`, `descriptor_pool.hpp`). -/
def listed (p : Pool) (ids : List Nat) : List FieldDesc := ids.filterMap (p.fields[·]?)

/-- The members of the oneof number `k` of a message (`descriptor.oneofs()[index]`,
`hpp_generator.cpp` 1598-1600).  An index beyond the oneofs, which the pool rejects, has none. -/
def oneofMembers (p : Pool) (d : MsgDesc) (k : Int) : List FieldDesc :=
  match (oneofSlot k).bind (d.oneofs[·]?) with
  | none => []
  | some o => match p.oneofs[o]? with
    | none => []
    | some x => listed p x.fields

/-- `process(field_descriptor_t &, 0)` (`hpp_generator.cpp` 1682-1734) with the member written by
`process(field_descriptor_t &)` (1330-1341). -/
def fieldEntry (S : Setup) (p : Pool) (d : MsgDesc) (f : FieldDesc) : Entry :=
  .field f.proto.number (holder S p d f) (cppType f) (metaOptions S p d f) (metaDefault S p d f)

/-- `process(oneof_descriptor_t &)` (`hpp_generator.cpp` 1343-1383 and 1790-1811): a variant, or a
`std::optional` if there is only one member. -/
def oneofEntry (S : Setup) (p : Pool) (d : MsgDesc) : List FieldDesc → Entry
  | [f] => .field f.proto.number .optional (cppType f) (metaOptions S p d f) (metaDefault S p d f)
  | fs => .oneof (fs.map fun f => (f.proto.number, cppType f, metaOptions S p d f))

/-- The body of the loop over the fields (`hpp_generator.cpp` 1459-1467 and 1594-1604): a oneof is
written where its first member is. -/
def entryAt (S : Setup) (p : Pool) (d : MsgDesc) (f : FieldDesc) : Option Entry :=
  match f.proto.oneofIndex with
  | none => if f.extendee.isNone then some (fieldEntry S p d f) else none
  | some k =>
    match oneofMembers p d k with
    | [] => none
    | g :: rest =>
      if g.proto.number = f.proto.number then some (oneofEntry S p d (g :: rest)) else none

/-- The entries of the class of a message (`hpp_generator.cpp` 1594-1604). -/
def entries (S : Setup) (p : Pool) (d : MsgDesc) : List Entry :=
  (listed p d.fields).filterMap (entryAt S p d)

/-! ## What the library makes of it -/

/-- The numbers of an enum, sign-extended: those that its `is_valid` accepts (C95). -/
def enumNumbers (p : Pool) (id : Nat) : List (BitVec 64) :=
  match p.enums[id]? with
  | none => []
  | some e => e.proto.numbers.map (BitVec.ofInt 64)

/-- How the values of an entry are written: `get_serialize_type` (`meta.hpp` 262-271), `tag_type`
(`meta.hpp` 117-137) and `serialize_type` (164-190).  A `vint64_t` for an `int32_t` is written and
read like a `vint32_t` (`C96_int32`). -/
def valueKind (p : Pool) (t : CppTy × MetaTy) (o : Opts) : Kind :=
  match t.2, t.1 with
  | .vi64, .i32 => .scalar (.varint .i32)
  | .vi64, _ => .scalar (.varint .i64)
  | .vu64, _ => .scalar (.varint .u64)
  | .vu32, _ => .scalar (.varint .u32)
  | .vs32, _ => .scalar (.varint .s32)
  | .vs64, _ => .scalar (.varint .s64)
  | .bool, _ => .scalar .bool
  | .void, .double => .scalar (.fixed64 true)
  | .void, .float => .scalar (.fixed32 true)
  | .void, .i64 => .scalar (.fixed64 false)
  | .void, .u64 => .scalar (.fixed64 false)
  | .void, .i32 => .scalar (.fixed32 false)
  | .void, .u32 => .scalar (.fixed32 false)
  | .void, .bool => .scalar .bool
  | .void, .string => .scalar (.str o.utf8)
  | .void, .bytes => .scalar (.str o.utf8)
  | .void, .enum id => .scalar (.enum (if o.closed then some (enumNumbers p id) else none))
  | .void, .msg id => if o.group then .group id else .msg id

/-- The value of a value-initialized object (`T{}`); `fresh` are the objects of message classes. -/
def zeroOf (fresh : Nat → Msg) : Kind → Val
  | .scalar (.str _) => .bytes []
  | .scalar _ => .num 0
  | .msg id | .group id => .msg (fresh id)

/-- What an entry is to reader and writer.  A plain member without presence is omitted by the writer
when it equals the default in the `field_meta` (`is_default_value`, `field_types.hpp` 564-580), and
starts out with its initializer when a message is read: `writing` tells which of the two is meant. -/
def slotOf (S : Setup) (p : Pool) (fresh : Nat → Msg) (writing : Bool) : Entry → SlotD
  | .oneof alts => .oneof (alts.map fun a => (BitVec.ofInt 32 a.1, valueKind p a.2.1 a.2.2))
  | .field n h t o dflt =>
    let k := valueKind p t o
    .field (BitVec.ofInt 32 n) k (match h with
      | .map => .map S.unique
      | .repeated => .repeated o.packed
      | .optional => .optional
      | .plain init =>
        if o.presence then .always (init.getD (zeroOf fresh k))
        else .implicit (if writing then dflt.getD (zeroOf fresh k) else init.getD (zeroOf fresh k)))

/-- The storage for unknown fields (`hpp_generator.cpp` 1473-1497) when a message is read.  For
writing, the entry of `pb_meta` counts, which messages without fields and extension ranges lack
(1606-1609). -/
def unknownMode (S : Setup) (p : Pool) (d : MsgDesc) (writing : Bool) : UnkMode :=
  if S.ranged d.fullName then .ext
  else if writing && (listed p d.fields).isEmpty then .none
  else if S.keeps then .bytes else .none

/-- What the writer sees of an object: the members that the entries of `pb_meta` lead to.  The writer
of `Verif/Model/Serialize.lean` writes whatever unknown fields an object has; without an entry for
them (`hpp_generator.cpp` 1606-1609) they are not reached (`serialize.hpp` 380-392, 675-689).  Of the
messages inside, which the theorems do not need, nothing is removed here. -/
def seen (D : MsgD) (m : Msg) : Msg := match D.unk with
  | .none => { m with unk := [] }
  | _ => m

/-- `map_entry<K, V, KO, VO>` (`meta.hpp` 192-256) for the entry message of a map
(`hpp_generator.cpp` 1690-1709): the first field of the message is the key, the second the value. -/
def entryMsg (S : Setup) (p : Pool) (fresh : Nat → Msg) (d : MsgDesc) : MsgD :=
  match listed p d.fields with
  | k :: v :: _ =>
    let kk := valueKind p (cppType k) (metaOptions S p d k)
    let vk := valueKind p (cppType v) (metaOptions S p d v)
    { slots := [.field 1 kk (.always (zeroOf fresh kk)), .field 2 vk (.always (zeroOf fresh vk))]
      unk := .none
      isEntry := true }
  | _ => { slots := [], unk := .none }

/-- The class of a message, as reader (`writing = false`) or writer use it. -/
def classOf (S : Setup) (p : Pool) (fresh : Nat → Msg) (writing : Bool) (d : MsgDesc) : MsgD :=
  if d.proto.mapEntry then entryMsg S p fresh d
  else { slots := (entries S p d).map (slotOf S p fresh writing), unk := unknownMode S p d writing }

/-- All classes generated for a pool; `utf8` is the validator. -/
def classes (S : Setup) (p : Pool) (fresh : Nat → Msg) (utf8 : List Byte → Bool)
    (writing : Bool) : Cfg where
  schema id := match p.messages[id]? with
    | none => { slots := [], unk := .none }
    | some d => classOf S p fresh writing d
  utf8 := utf8

/-- `fresh id` is a default-constructed object of the class number `id`. -/
def Fresh (S : Setup) (p : Pool) (utf8 : List Byte → Bool) (fresh : Nat → Msg) : Prop :=
  ∀ id, fresh id = ((classes S p fresh utf8 false).schema id).default

end Meta
end HppProto
