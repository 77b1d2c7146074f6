import Verif.Model.Meta
import Verif.Model.Json

/-!
# The dynamic message factory

Model of `dynamic_message_factory` (`src/dynamic_message/factory.cpp` 319-504) and of what it adds to the
descriptors of the pool (`include/hpp_proto/dynamic_message/factory_addons.hpp`): from a set of files to the
message types of `Verif/Model/Dynamic.lean` and `Verif/Model/Json.lean`.

Simplifications: what the code stores in a descriptor (default value, layout, well-known type) is computed
from the pool where it is needed. `create_from_binpb` and `make_file_descriptor_set`, which read the files
from bytes, are in `DescriptorBytes.lean`: here the model starts with the files. All failures of the factory are
`schema_validation_error`; the model has one error for it.
-/

namespace HppProto

/-- What the factory takes from outside. `float wide text` is `std::from_chars`, or `strtof` and `strtod`, for
`double` (`wide`) and `float` (`factory_addons.hpp` 84-111): the bits of the number, if the whole text is one.
`canonical f` tells whether the file, serialized without its source info, equals the descriptor built into
the library (`factory_addons.hpp` 291-304); those are not part of the repository. -/
structure FactoryEnv where
  float : Bool → List Byte → Option (BitVec 64)
  canonical : FileProto → Bool

/-- `set_default_value` (`factory_addons.hpp` 177-224) with `parse_default_value` (73-122); `none` if
`default_value_valid_` becomes false. Strings, bytes, messages and enums have nothing to parse. -/
def parsedDefault (E : FactoryEnv) (f : FieldProto) : Option (BitVec 64) :=
  if f.type = 8 then some (if f.defaultValue = b!"true" then 1 else 0)
  else if f.defaultValue = [] then some 0
  else if f.type = 1 then E.float true f.defaultValue
  else if f.type = 2 then E.float false f.defaultValue
  else if f.type = 3 ∨ f.type = 16 ∨ f.type = 18 then
    (fromStrView (-9223372036854775808) 9223372036854775807 f.defaultValue).map (BitVec.ofInt 64)
  else if f.type = 4 ∨ f.type = 6 then (fromStrView 0 maxU64 f.defaultValue).map (BitVec.ofInt 64)
  else if f.type = 5 ∨ f.type = 15 ∨ f.type = 17 then (fromStrView minI32 maxI32 f.defaultValue).map (BitVec.ofInt 64)
  else if f.type = 7 ∨ f.type = 13 then (fromStrView 0 4294967295 f.defaultValue).map (BitVec.ofInt 64)
  else some 0

/-- `enum_descriptor::value_of` (`factory_addons.hpp` 235-243): the first value of that name. -/
def EnumProto.valueOf (e : EnumProto) (name : List Byte) : Option Int :=
  (e.values.find? fun v => v.1 == name).map (·.2)

/-- The body of the loop of `setup_enum_field_default_value` (`factory.cpp` 425-447) for a field whose enum is
`e`; `none` for `schema_validation_error`. -/
def enumDefault (e : EnumProto) (f : FieldDesc) : Option (BitVec 64) :=
  match e.values with
  | [] => none
  | v :: _ =>
    if f.proto.defaultValue ≠ [] then (e.valueOf f.proto.defaultValue).map (BitVec.ofInt 64)
    else if f.bits.presence || f.bits.required then some (BitVec.ofInt 64 v.2)
    else some 0

/-- `setup_enum_field_default_value` (`factory.cpp` 423-450); a field of type enum without enum is a null
pointer. -/
def checkEnums (p : Pool) : List FieldDesc → Res Unit
  | [] => .ok ()
  | f :: fs =>
    if f.proto.type = 14 then
      match Meta.enumOf p f with
      | none => .ub
      | some e => if (enumDefault e.proto f).isNone then .err .invalidArgument else checkEnums p fs
    else checkEnums p fs

/-- `default_value()` of a field: `default_value_` (`factory_addons.hpp` 168, `factory.cpp` 435-446), or the text of
the descriptor (`string_fields.hpp` 65, `bytes_fields.hpp` 63-66). -/
def fieldDefault (E : FactoryEnv) (p : Pool) (f : FieldDesc) : Val :=
  if f.proto.type = 9 ∨ f.proto.type = 12 then .bytes f.proto.defaultValue
  else if f.proto.type = 14 then
    .num (((Meta.enumOf p f).bind fun e => enumDefault e.proto f).getD 0)
  else .num ((parsedDefault E f.proto).getD 0)

/-- `runtime_type_traits_by_proto_type` (`factory.cpp` 153-280) with the policy of the field (292-304): how its values are
stored and written. `group` for fields that are delimited (368-372). A closed enum is one with `is_closed()`
(`descriptor_pool.hpp` 437-441). -/
def fieldKind (p : Pool) (f : FieldDesc) : Kind :=
  if f.proto.type = 1 then .scalar (.fixed64 true)
  else if f.proto.type = 2 then .scalar (.fixed32 true)
  else if f.proto.type = 3 then .scalar (.varint .i64)
  else if f.proto.type = 4 then .scalar (.varint .u64)
  else if f.proto.type = 5 then .scalar (.varint .i32)
  else if f.proto.type = 6 then .scalar (.fixed64 false)
  else if f.proto.type = 7 then .scalar (.fixed32 false)
  else if f.proto.type = 8 then .scalar .bool
  else if f.proto.type = 9 then .scalar (.str f.bits.utf8)
  else if f.proto.type = 10 ∨ f.proto.type = 11 then
    if f.bits.delimited then .group (f.type.getD 0) else .msg (f.type.getD 0)
  else if f.proto.type = 13 then .scalar (.varint .u32)
  else if f.proto.type = 14 then
    .scalar (.enum (if Meta.isClosedEnum p f then some (Meta.enumNumbers p (f.type.getD 0)) else none))
  else if f.proto.type = 15 then .scalar (.fixed32 false)
  else if f.proto.type = 16 then .scalar (.fixed64 false)
  else if f.proto.type = 17 then .scalar (.varint .s32)
  else if f.proto.type = 18 then .scalar (.varint .s64)
  else .scalar (.str false)

/-- `enum_descriptor` (`factory_addons.hpp` 227-254). -/
def enumInfo (p : Pool) (f : FieldDesc) : Json.EnumInfo :=
  match Meta.enumOf p f with
  | none => ⟨[], false⟩
  | some e => ⟨e.proto.values.map fun v => (v.1, BitVec.ofInt 32 v.2), e.fullName == b!"google.protobuf.NullValue"⟩

/-- The kind of the field as the JSON functions see it (`factory.cpp` 153-280, `types.hpp` 65-100). -/
def fieldType (p : Pool) (f : FieldDesc) : Json.JType :=
  if f.proto.type = 1 then .float true
  else if f.proto.type = 2 then .float false
  else if f.proto.type = 3 ∨ f.proto.type = 16 ∨ f.proto.type = 18 then .int true true
  else if f.proto.type = 4 ∨ f.proto.type = 6 then .int false true
  else if f.proto.type = 5 ∨ f.proto.type = 15 ∨ f.proto.type = 17 then .int true false
  else if f.proto.type = 7 ∨ f.proto.type = 13 then .int false false
  else if f.proto.type = 8 then .bool
  else if f.proto.type = 9 then .string
  else if f.proto.type = 10 ∨ f.proto.type = 11 then .msg (f.type.getD 0)
  else if f.proto.type = 14 then .enum (enumInfo p f)
  else .bytes

/-- The oneof of a field, cast to `std::size_t` (`factory.cpp` 105). -/
def fieldOneof (f : FieldDesc) : Option Nat := f.proto.oneofIndex.map Int.toNat

/-- The layout of the fields of a message (`factory.cpp` 354-392); `none` for `schema_validation_error`. -/
def messageLayout (p : Pool) (d : MsgDesc) : Option (List SlotLayout × Nat) :=
  layoutFields d.proto.oneofs.length ((Meta.listed p d.fields).map fun f => ⟨fieldOneof f, f.bits.repeated⟩)

/-- `finalize_resolved_info` (`factory.cpp` 366-388). -/
def resolvedField (E : FactoryEnv) (p : Pool) (f : FieldDesc) (l : SlotLayout) : Json.JField where
  name := f.proto.name
  jsonName := f.proto.jsonName
  ty := fieldType p f
  dyn := {
    number := BitVec.ofInt 32 f.proto.number
    kind := fieldKind p f
    repeated := f.bits.repeated
    packed := f.bits.packed
    oneof := fieldOneof f
    required := f.bits.required
    optional := f.bits.presence
    dflt := fieldDefault E p f
    layout := l }

/-- `wellknown_mappings` (`factory.cpp` 396-413). -/
def wellKnownMappings : List (List Byte × Json.WellKnown) :=
  [(b!"google.protobuf.Any", .any),
   (b!"google.protobuf.Timestamp", .timestamp),
   (b!"google.protobuf.Duration", .duration),
   (b!"google.protobuf.FieldMask", .fieldMask),
   (b!"google.protobuf.Value", .value),
   (b!"google.protobuf.ListValue", .listValue),
   (b!"google.protobuf.Struct", .struct),
   (b!"google.protobuf.DoubleValue", .wrapper),
   (b!"google.protobuf.FloatValue", .wrapper),
   (b!"google.protobuf.Int64Value", .wrapper),
   (b!"google.protobuf.UInt64Value", .wrapper),
   (b!"google.protobuf.Int32Value", .wrapper),
   (b!"google.protobuf.UInt32Value", .wrapper),
   (b!"google.protobuf.BoolValue", .wrapper),
   (b!"google.protobuf.StringValue", .wrapper),
   (b!"google.protobuf.BytesValue", .wrapper)]

/-- The names of the files that can be validated (`wellknown_type_pbs`, `factory_addons.hpp` 283-289). -/
def wellKnownFileNames : List (List Byte) :=
  [b!"google/protobuf/any.proto", b!"google/protobuf/duration.proto", b!"google/protobuf/field_mask.proto",
   b!"google/protobuf/struct.proto", b!"google/protobuf/timestamp.proto", b!"google/protobuf/wrappers.proto"]

/-- `wellknown_validated_` (`factory_addons.hpp` 276-305). -/
def fileValidated (E : FactoryEnv) (f : FileProto) : Bool := wellKnownFileNames.contains f.name && E.canonical f

/-- `setup_wellknown_types_impl` (`factory.cpp` 394-421). Simplification: the code looks every name of the table
up in the pool; here a message is looked up in the table. Names are unique in both (C72, C73). -/
def wellKnownOf (E : FactoryEnv) (p : Pool) (d : MsgDesc) : Json.WellKnown :=
  match wellKnownMappings.find? fun w => w.1 == d.fullName with
  | none => .none
  | some w =>
    match p.files[d.file]? with
    | none => .none
    | some f => if fileValidated E f.proto then w.2 else .none

/-- A message descriptor after `finalize_resolved_field_infos` and `setup_wellknown_types_impl`
(`factory.cpp` 354-421). -/
def resolvedMessage (E : FactoryEnv) (p : Pool) (d : MsgDesc) : Json.JDesc :=
  let r := (messageLayout p d).getD ([], 0)
  { fields := (Meta.listed p d.fields).zipWith (resolvedField E p) r.1
    slots := r.2
    entry := d.proto.mapEntry
    wk := wellKnownOf E p d }

/-- `dynamic_message_factory_impl` (`factory.cpp` 319-351): the pool and the types that follow from it. A number
that is no message has no fields. -/
structure Factory where
  pool : Pool
  types : Json.JTypes

/-- `finish_initialize` (`factory.cpp` 452-460). -/
def finishFactory (E : FactoryEnv) (p : Pool) : Res Factory :=
  if p.fields.any fun f => (parsedDefault E f.proto).isNone then .err .invalidArgument
  else if p.messages.any fun d => (messageLayout p d).isNone then .err .invalidArgument
  else do
    checkEnums p p.fields
    .ok ⟨p, fun i => match p.messages[i]? with
      | some d => resolvedMessage E p d
      | none => ⟨[], 0, false, .none⟩⟩

/-- `initialize` (`factory.cpp` 326-330), the common part of `create_from_descs` and `create_from_binpb`
(480-496). `order` is the order in which the hash maps of the pool yield their entries. -/
def createFactory (E : FactoryEnv) (order : FileMap → FileMap) (fs : List FileProto) : Res Factory := do
  let p ← initPool order fs
  finishFactory E p

/-- `get_message` (`factory.cpp` 339-346, 498-504): the type of the message and an empty message; `none` for
`unknown_message_name`. -/
def Factory.getMessage (F : Factory) (name : List Byte) : Option (Nat × DynMsg) :=
  (F.pool.findMessage name).map fun i => (i, (F.types i).dyn.empty)

end HppProto
