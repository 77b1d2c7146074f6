import Verif.Model.Factory
import Verif.Model.Parse
import Verif.Model.Serialize

/-!
# From bytes to files

Model of the ways a factory is made from bytes: `dynamic_message_factory::create` with a serialized `FileDescriptorSet` or
with serialized files (`src/dynamic_message/factory.cpp` 326-337, 478-496), `descriptor_pool::make_file_descriptor_set`
(`include/hpp_proto/descriptor_pool.hpp` 591-615), the comparison with the built-in files
(`include/hpp_proto/dynamic_message/factory_addons.hpp` 276-305) and the metadata of the descriptor messages
(`include/google/protobuf/descriptor.pb.hpp`, `descriptor.msg.hpp`).
-/

namespace HppProto

/-! ## The descriptor messages -/

/-- A string without presence (`Traits::string_t`, `field_option::none`); `descriptor.proto` is proto2, its strings are not
validated. -/
def textSlot (n : BitVec 32) : SlotD := .field n (.scalar (.str false)) (.implicit (.bytes []))
/-- An `int32` without presence. -/
def intSlot (n : BitVec 32) : SlotD := .field n (.scalar (.varint .i32)) (.implicit (.num 0))
/-- A `bool` without presence, with its initial value. -/
def boolSlot (n : BitVec 32) (v : BitVec 64 := 0) : SlotD := .field n (.scalar .bool) (.implicit (.num v))
/-- An enum without presence, with its initial value; not `closed_enum`. -/
def enumSlot (n : BitVec 32) (v : BitVec 64 := 0) : SlotD := .field n (.scalar (.enum none)) (.implicit (.num v))
/-- A repeated string. -/
def textsSlot (n : BitVec 32) : SlotD := .field n (.scalar (.str false)) (.repeated false)
/-- A repeated `int32`. -/
def intsSlot (n : BitVec 32) (packed : Bool) : SlotD := .field n (.scalar (.varint .i32)) (.repeated packed)
/-- A repeated message. -/
def msgsSlot (n : BitVec 32) (id : Nat) : SlotD := .field n (.msg id) (.repeated false)
/-- A message with presence. -/
def msgSlot (n : BitVec 32) (id : Nat) : SlotD := .field n (.msg id) .optional

/-- The messages that a `FileDescriptorSet` can contain, in the order of `descriptor.pb.hpp` 20-361. The unknown fields of
`non_owning_traits` (`factory_addons.hpp` 57) are an empty struct (`field_types.hpp` 677-680). -/
def descriptorTypes : List (List SlotD) := [
  -- 0: FileDescriptorSet
  [msgsSlot 1 1],
  -- 1: FileDescriptorProto
  [textSlot 1, textSlot 2, textsSlot 3, intsSlot 10 false, intsSlot 11 false, textsSlot 15, msgsSlot 4 2, msgsSlot 5 9, msgsSlot 6 12,
   msgsSlot 7 7, msgSlot 8 14, msgSlot 9 27, textSlot 12, enumSlot 14],
  -- 2: DescriptorProto
  [textSlot 1, msgsSlot 2 7, msgsSlot 6 7, msgsSlot 3 2, msgsSlot 4 9, msgsSlot 5 3, msgsSlot 8 8, msgSlot 7 15, msgsSlot 9 4,
   textsSlot 10, enumSlot 11],
  -- 3: DescriptorProto.ExtensionRange
  [intSlot 1, intSlot 2, msgSlot 3 5],
  -- 4: DescriptorProto.ReservedRange
  [intSlot 1, intSlot 2],
  -- 5: ExtensionRangeOptions
  [msgsSlot 999 24, msgsSlot 2 6, msgSlot 50 26, enumSlot 3 1],
  -- 6: ExtensionRangeOptions.Declaration
  [intSlot 1, textSlot 2, textSlot 3, boolSlot 5, boolSlot 6],
  -- 7: FieldDescriptorProto
  [textSlot 1, intSlot 3, enumSlot 4 1, enumSlot 5 1, textSlot 6, textSlot 2, textSlot 7,
   .field 9 (.scalar (.varint .i32)) .optional, textSlot 10, msgSlot 8 16, boolSlot 17],
  -- 8: OneofDescriptorProto
  [textSlot 1, msgSlot 2 19],
  -- 9: EnumDescriptorProto
  [textSlot 1, msgsSlot 2 11, msgSlot 3 20, msgsSlot 4 10, textsSlot 5, enumSlot 6],
  -- 10: EnumDescriptorProto.EnumReservedRange
  [intSlot 1, intSlot 2],
  -- 11: EnumValueDescriptorProto
  [textSlot 1, intSlot 2, msgSlot 3 21],
  -- 12: ServiceDescriptorProto
  [textSlot 1, msgsSlot 2 13, msgSlot 3 22],
  -- 13: MethodDescriptorProto
  [textSlot 1, textSlot 2, textSlot 3, msgSlot 4 23, boolSlot 5, boolSlot 6],
  -- 14: FileOptions
  [textSlot 1, textSlot 8, boolSlot 10, boolSlot 20, boolSlot 27, enumSlot 9 1, textSlot 11, boolSlot 16, boolSlot 17, boolSlot 18,
   boolSlot 23, boolSlot 31 1, textSlot 36, textSlot 37, textSlot 39, textSlot 40, textSlot 41, textSlot 44, textSlot 45, msgSlot 50 26,
   msgsSlot 999 24],
  -- 15: MessageOptions
  [boolSlot 1, boolSlot 2, boolSlot 3, boolSlot 7, boolSlot 11, msgSlot 12 26, msgsSlot 999 24],
  -- 16: FieldOptions
  [enumSlot 1, .field 2 (.scalar .bool) .optional, enumSlot 6, boolSlot 5, boolSlot 15, boolSlot 3, boolSlot 10, boolSlot 16, enumSlot 17,
   .field 19 (.scalar (.enum (some [0, 1, 2, 3, 4, 5, 6, 7, 8, 9]))) (.repeated false), msgsSlot 20 17, msgSlot 21 26, msgSlot 22 18,
   msgsSlot 999 24],
  -- 17: FieldOptions.EditionDefault
  [enumSlot 3, textSlot 2],
  -- 18: FieldOptions.FeatureSupport
  [enumSlot 1, enumSlot 2, textSlot 3, enumSlot 4, textSlot 5],
  -- 19: OneofOptions
  [msgSlot 1 26, msgsSlot 999 24],
  -- 20: EnumOptions
  [boolSlot 2, boolSlot 3, boolSlot 6, msgSlot 7 26, msgsSlot 999 24],
  -- 21: EnumValueOptions
  [boolSlot 1, msgSlot 2 26, boolSlot 3, msgSlot 4 18, msgsSlot 999 24],
  -- 22: ServiceOptions
  [msgSlot 34 26, boolSlot 33, msgsSlot 999 24],
  -- 23: MethodOptions
  [boolSlot 33, enumSlot 34, msgSlot 35 26, msgsSlot 999 24],
  -- 24: UninterpretedOption
  [msgsSlot 2 25, textSlot 3, .field 4 (.scalar (.varint .u64)) (.implicit (.num 0)), .field 5 (.scalar (.varint .i64)) (.implicit (.num 0)),
   .field 6 (.scalar (.fixed64 true)) (.implicit (.num 0)), textSlot 7, textSlot 8],
  -- 25: UninterpretedOption.NamePart
  [.field 1 (.scalar (.str false)) (.always (.bytes [])), .field 2 (.scalar .bool) (.always (.num 0))],
  -- 26: FeatureSet
  [enumSlot 1, enumSlot 2, enumSlot 3, enumSlot 4, enumSlot 5, enumSlot 6, enumSlot 7, enumSlot 8],
  -- 27: SourceCodeInfo
  [msgsSlot 1 28],
  -- 28: SourceCodeInfo.Location
  [intsSlot 1 true, intsSlot 2 true, textSlot 3, textSlot 4, textsSlot 6]]

/-- The descriptor messages as message types. No string is validated, so the validator does not matter. -/
def descriptorCfg : Cfg where
  schema id := ⟨descriptorTypes.getD id [], .none, false⟩
  utf8 _ := true

/-! ## What the pool reads of them -/

/-- A member of string type. -/
def textOf (m : Msg) (i : Nat) : List Byte := ((m.get i).head?.map fun e => e.2.str).getD []
/-- A member of type `int32` or of an enum type. -/
def intOf (m : Msg) (i : Nat) : Int := ((m.get i).head?.map fun e => e.2.bits.toInt).getD 0
/-- A member of type `bool`. -/
def flagOf (m : Msg) (i : Nat) : Bool := ((m.get i).head?.map fun e => e.2.bits != 0).getD false
/-- A repeated string. -/
def textsOf (m : Msg) (i : Nat) : List (List Byte) := (m.get i).map fun e => e.2.str
/-- A repeated message. -/
def itemsOf (m : Msg) (i : Nat) : List Msg := (m.get i).map fun e => e.2.asMsg ⟨[], []⟩
/-- A message with presence. -/
def optionOf (m : Msg) (i : Nat) : Option Msg := (m.get i).head?.map fun e => e.2.asMsg ⟨[], []⟩

/-- `FeatureSet` (`descriptor.msg.hpp` 190-224). -/
def featuresOf (m : Msg) : Features :=
  ⟨intOf m 0, intOf m 1, intOf m 2, intOf m 3, intOf m 4, intOf m 5, intOf m 6, intOf m 7⟩

/-- `options->features`, member `j` of the options in member `i` (`descriptor_pool.hpp` 921-930). -/
def optionFeatures (m : Msg) (i j : Nat) : Option Features := ((optionOf m i).bind (optionOf · j)).map featuresOf

/-- `FieldDescriptorProto` (`descriptor.msg.hpp` 721-739). -/
def fieldOf (m : Msg) : FieldProto where
  name := textOf m 0
  number := intOf m 1
  label := intOf m 2
  type := intOf m 3
  typeName := textOf m 4
  extendee := textOf m 5
  oneofIndex := (m.get 7).head?.map fun e => e.2.bits.toInt
  jsonName := textOf m 8
  proto3Optional := flagOf m 10
  packed := (optionOf m 9).bind fun o => (o.get 1).head?.map fun e => e.2.bits != 0
  features := optionFeatures m 9 11
  defaultValue := textOf m 6

/-- `OneofDescriptorProto`. -/
def oneofOf (m : Msg) : OneofProto := ⟨textOf m 0, optionFeatures m 1 0⟩

/-- `EnumDescriptorProto`. -/
def enumOf (m : Msg) : EnumProto := ⟨textOf m 0, (itemsOf m 1).map fun v => (textOf v 0, intOf v 1), optionFeatures m 2 3⟩

/-- `DescriptorProto`, with at most that many levels of messages in it. -/
def messageOf : Nat → Msg → MsgProto
  | 0, m => .mk (textOf m 0) [] [] [] [] [] false none
  | d + 1, m => .mk (textOf m 0) ((itemsOf m 1).map fieldOf) ((itemsOf m 3).map (messageOf d)) ((itemsOf m 4).map enumOf)
      ((itemsOf m 6).map oneofOf) ((itemsOf m 2).map fieldOf) (((optionOf m 7).map fun o => flagOf o 3).getD false)
      (optionFeatures m 7 5)

/-- `FileDescriptorProto`. -/
def fileOf (d : Nat) (m : Msg) : FileProto where
  name := textOf m 0
  package := textOf m 1
  deps := textsOf m 2
  syntaxName := textOf m 12
  edition := intOf m 13
  messages := (itemsOf m 6).map (messageOf d)
  enums := (itemsOf m 7).map enumOf
  extensions := (itemsOf m 9).map fieldOf
  features := optionFeatures m 10 19

/-! ## The comparison with the built-in files -/

/-- `proto_no_source_info` (`factory_addons.hpp` 294-296). -/
def withoutSource (m : Msg) : Msg := m.put 11 []

/-- `wellknown_validated_` (`factory_addons.hpp` 291-303): whether `write_binpb` of the file without its source information is
`builtin`, the built-in bytes of the file of that name. What was written before an error is compared as well. -/
def sameBytes (builtin : List Byte) (m : Msg) : Bool :=
  match writeBinpb descriptorCfg 100 true 1 (withoutSource m) [] with
  | .ok (_, out) => out == builtin
  | _ => false

/-! ## Making a factory -/

/-- What does not come from the input: how floating-point defaults are read (`FactoryEnv.float`), and the built-in bytes of the
files of the well-known types by name (`factory_addons.hpp` 283-289). -/
structure ByteEnv where
  float : Bool → List Byte → Option (BitVec 64)
  builtin : List Byte → List Byte

/-- The environment of `createFactory` for these files: the comparison is made for the file of that name. Simplification: the
code makes it when the descriptor of the file is made. -/
def ByteEnv.env (B : ByteEnv) (ms : List Msg) : FactoryEnv where
  float := B.float
  canonical f := (ms.find? fun m => textOf m 0 == f.name).any fun m => sameBytes (B.builtin f.name) m

/-- An error of one of the two steps as `dynamic_message_errc` (`to_dynamic_message_errc`, `factory.cpp` 40-44): `badMessage`
stands for `descriptor_deserialization_error`, `invalidArgument` for `schema_validation_error`. -/
def asError {α : Type} (e : Err) : Res α → Res α
  | .err _ => .err e
  | r => r

/-- `initialize` with a `FileDescriptorSet` (`factory.cpp` 326-330). The number is larger than the levels of any message that
was read. -/
def initializeSet (B : ByteEnv) (order : FileMap → FileMap) (ms : List Msg) : Res Factory :=
  asError .invalidArgument (createFactory (B.env ms) order (ms.map (fileOf 102)))

/-- `create_from_binpb` (`factory.cpp` 332-337, 488-496). The limit is the default (`recursion.hpp` 30). -/
def createFromBinpb (B : ByteEnv) (order : FileMap → FileMap) (bytes : List Byte) : Res Factory := do
  let m ← asError .badMessage (readBinpb descriptorCfg 100 0 (descriptorCfg.schema 0).default bytes)
  initializeSet B order (itemsOf m 0)

/-- The loop of `make_file_descriptor_set` for distinct files (`descriptor_pool.hpp` 591-605). -/
def readFiles : List (List Byte) → Res (List Msg)
  | [] => .ok []
  | d :: ds => do
    let m ← readBinpb descriptorCfg 100 1 (descriptorCfg.schema 1).default d
    let ms ← readFiles ds
    .ok (m :: ms)

/-- `create_from_descs` (`factory.cpp` 478-486). -/
def createFromDescs (B : ByteEnv) (order : FileMap → FileMap) (descs : List (List Byte)) : Res Factory := do
  let ms ← asError .badMessage (readFiles descs)
  initializeSet B order ms

/-- `make_file_descriptor_set` without tag (`descriptor_pool.hpp` 607-615): `hash` is the order in which the hash set yields its
elements. -/
def makeFileSet (hash : List (List Byte) → List (List Byte)) (descs : List (List Byte)) : Res (List Msg) :=
  readFiles (hash descs.eraseDups)

end HppProto
