import Verif.Spec.Factory
import Verif.Spec.JsonText

/-!
# The files of the well-known types, and names that can be keys of JSON objects

The files are those that come with protobuf (`google/protobuf/*.proto`), as far as the model of files goes.
-/

namespace HppProto.Spec

/-- `google/protobuf/any.proto` -/
def anyFile : FileProto :=
  { name := b!"google/protobuf/any.proto", package := b!"google.protobuf", syntaxName := b!"proto3"
    messages := [.mk b!"Any"
      [{ name := b!"type_url", number := 1, label := 1, type := 9, jsonName := b!"typeUrl" },
       { name := b!"value", number := 2, label := 1, type := 12, jsonName := b!"value" }] [] [] [] [] false none] }

/-- The fields of `Duration` and `Timestamp`. -/
def secondsNanos : List FieldProto :=
  [{ name := b!"seconds", number := 1, label := 1, type := 3, jsonName := b!"seconds" },
   { name := b!"nanos", number := 2, label := 1, type := 5, jsonName := b!"nanos" }]

/-- `google/protobuf/duration.proto` -/
def durationFile : FileProto :=
  { name := b!"google/protobuf/duration.proto", package := b!"google.protobuf", syntaxName := b!"proto3"
    messages := [.mk b!"Duration" secondsNanos [] [] [] [] false none] }

/-- `google/protobuf/timestamp.proto` -/
def timestampFile : FileProto :=
  { name := b!"google/protobuf/timestamp.proto", package := b!"google.protobuf", syntaxName := b!"proto3"
    messages := [.mk b!"Timestamp" secondsNanos [] [] [] [] false none] }

/-- `google/protobuf/field_mask.proto` -/
def fieldMaskFile : FileProto :=
  { name := b!"google/protobuf/field_mask.proto", package := b!"google.protobuf", syntaxName := b!"proto3"
    messages := [.mk b!"FieldMask" [{ name := b!"paths", number := 1, label := 3, type := 9, jsonName := b!"paths" }]
      [] [] [] [] false none] }

/-- `google/protobuf/struct.proto` -/
def structFile : FileProto :=
  { name := b!"google/protobuf/struct.proto", package := b!"google.protobuf", syntaxName := b!"proto3"
    enums := [{ name := b!"NullValue", values := [(b!"NULL_VALUE", 0)] }]
    messages := [
      .mk b!"Struct"
        [{ name := b!"fields", number := 1, label := 3, type := 11, typeName := b!".google.protobuf.Struct.FieldsEntry",
           jsonName := b!"fields" }]
        [.mk b!"FieldsEntry"
          [{ name := b!"key", number := 1, label := 1, type := 9, jsonName := b!"key" },
           { name := b!"value", number := 2, label := 1, type := 11, typeName := b!".google.protobuf.Value", jsonName := b!"value" }]
          [] [] [] [] true none] [] [] [] false none,
      .mk b!"Value"
        [{ name := b!"null_value", number := 1, label := 1, type := 14, typeName := b!".google.protobuf.NullValue",
           oneofIndex := some 0, jsonName := b!"nullValue" },
         { name := b!"number_value", number := 2, label := 1, type := 1, oneofIndex := some 0, jsonName := b!"numberValue" },
         { name := b!"string_value", number := 3, label := 1, type := 9, oneofIndex := some 0, jsonName := b!"stringValue" },
         { name := b!"bool_value", number := 4, label := 1, type := 8, oneofIndex := some 0, jsonName := b!"boolValue" },
         { name := b!"struct_value", number := 5, label := 1, type := 11, typeName := b!".google.protobuf.Struct",
           oneofIndex := some 0, jsonName := b!"structValue" },
         { name := b!"list_value", number := 6, label := 1, type := 11, typeName := b!".google.protobuf.ListValue",
           oneofIndex := some 0, jsonName := b!"listValue" }]
        [] [] [{ name := b!"kind" }] [] false none,
      .mk b!"ListValue"
        [{ name := b!"values", number := 1, label := 3, type := 11, typeName := b!".google.protobuf.Value", jsonName := b!"values" }]
        [] [] [] [] false none] }

/-- A wrapper of values of that type. -/
def wrapperOf (name : List Byte) (type : Int) : MsgProto :=
  .mk name [{ name := b!"value", number := 1, label := 1, type := type, jsonName := b!"value" }] [] [] [] [] false none

/-- `google/protobuf/wrappers.proto` -/
def wrappersFile : FileProto :=
  { name := b!"google/protobuf/wrappers.proto", package := b!"google.protobuf", syntaxName := b!"proto3"
    messages := [wrapperOf b!"DoubleValue" 1, wrapperOf b!"FloatValue" 2, wrapperOf b!"Int64Value" 3, wrapperOf b!"UInt64Value" 4,
      wrapperOf b!"Int32Value" 5, wrapperOf b!"UInt32Value" 13, wrapperOf b!"BoolValue" 8, wrapperOf b!"StringValue" 9,
      wrapperOf b!"BytesValue" 12] }

/-- The files of the well-known types. -/
def canonicalFiles : List FileProto := [anyFile, durationFile, fieldMaskFile, structFile, timestampFile, wrappersFile]

/-- The JSON type of a field by its declared type: numbers by sign and width, an enum by the names and numbers of its values. `find`
leads from the name of a message to its type. -/
def JsonTypeRule (fs : List FileProto) (find : List Byte → Option Nat) (f : FieldProto) : Json.JType → Prop
  | .int signed wide => intType f.type = some (signed, if wide then 64 else 32)
  | .float wide => f.type = if wide then 1 else 2
  | .bool => f.type = 8
  | .string => f.type = 9
  | .bytes => f.type = 12
  | .msg i => (f.type = 10 ∨ f.type = 11) ∧ ∃ e ∈ decls fs, f.typeName = b!"." ++ e.name ∧ find e.name = some i
  | .enum I => f.type = 14 ∧ ∃ e, EnumOf fs f e ∧ I.values = e.enum.values.map (fun v => (v.1, BitVec.ofInt 32 v.2)) ∧
      (I.isNull = true ↔ e.name = b!"google.protobuf.NullValue")

/-- The full names of the well-known types that have a JSON form of their own. -/
def WellKnownName (name : List Byte) : Json.WellKnown → Prop
  | .none => False
  | .any => name = b!"google.protobuf.Any"
  | .timestamp => name = b!"google.protobuf.Timestamp"
  | .duration => name = b!"google.protobuf.Duration"
  | .fieldMask => name = b!"google.protobuf.FieldMask"
  | .value => name = b!"google.protobuf.Value"
  | .listValue => name = b!"google.protobuf.ListValue"
  | .struct => name = b!"google.protobuf.Struct"
  | .wrapper => ∃ m ∈ wrappersFile.messages, name = b!"google.protobuf." ++ m.name

/-- Names can be keys and values of JSON objects: they need no escapes, no two fields of a message have a name in common,
and the values of an enum have names of their own. `@type` is reserved. -/
structure JsonNames (fs : List FileProto) : Prop where
  plain : ∀ d ∈ decls fs, ∀ f ∈ d.msg.fields, Json.Plain f.name ∧ Json.Plain f.jsonName
  named : ∀ d ∈ decls fs, ∀ f ∈ d.msg.fields, f.name ≠ b!"@type" ∧ f.jsonName ≠ b!"@type"
  keys : ∀ d ∈ decls fs, ∀ f ∈ d.msg.fields, ∀ g ∈ d.msg.fields, f.jsonName = g.jsonName ∨ f.jsonName = g.name →
    f.number = g.number
  enums : ∀ e ∈ enumDecls fs, (e.enum.values.map (·.1)).Nodup ∧ ∀ v ∈ e.enum.values, v.1 ≠ [] ∧ Json.Plain v.1

end HppProto.Spec
