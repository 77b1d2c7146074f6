import Verif.Model.DescriptorBytes
import Verif.Spec.Wire
/-!
# Specification: the descriptor message of a file

The `FileDescriptorProto` object that says what a `FileProto` says, with all other members as they are in a new object. Members
are listed as in `descriptor.proto` and the generated struct: the member of a field without presence holds a value, an
`optional` one none or one, a repeated one any number.
-/
namespace HppProto.Spec
open HppProto

/-- The number is an `int32`. -/
def isInt32 (x : Int) : Prop := -(2 : Int) ^ 31 ≤ x ∧ x < 2 ^ 31

/-- All numbers are of type `int32`. -/
def featuresFit (f : Features) : Prop :=
  isInt32 f.presence ∧ isInt32 f.enumType ∧ isInt32 f.repeatedEncoding ∧ isInt32 f.utf8 ∧ isInt32 f.messageEncoding ∧
  isInt32 f.jsonFormat ∧ isInt32 f.naming ∧ isInt32 f.visibility

def fieldFits (f : FieldProto) : Prop :=
  isInt32 f.number ∧ isInt32 f.label ∧ isInt32 f.type ∧ (∀ i, f.oneofIndex = some i → isInt32 i) ∧
  ∀ F, f.features = some F → featuresFit F

def oneofFits (o : OneofProto) : Prop := ∀ F, o.features = some F → featuresFit F

def enumFits (e : EnumProto) : Prop := (∀ v ∈ e.values, isInt32 v.2) ∧ ∀ F, e.features = some F → featuresFit F

/-- All numbers are of type `int32`, and messages are nested at most `d` deep. -/
def messageFits : Nat → MsgProto → Prop
  | 0, _ => False
  | d + 1, m => (∀ f ∈ m.fields, fieldFits f) ∧ (∀ f ∈ m.extensions, fieldFits f) ∧ (∀ e ∈ m.enums, enumFits e) ∧
    (∀ o ∈ m.oneofs, oneofFits o) ∧ (∀ F, m.features = some F → featuresFit F) ∧ ∀ n ∈ m.nested, messageFits d n

def fileFits (d : Nat) (f : FileProto) : Prop :=
  isInt32 f.edition ∧ (∀ m ∈ f.messages, messageFits d m) ∧ (∀ e ∈ f.enums, enumFits e) ∧ (∀ x ∈ f.extensions, fieldFits x) ∧
  ∀ F, f.features = some F → featuresFit F

/-! ## Members -/

def textMember (t : List Byte) : List (Nat × Val) := [(0, .bytes t)]
def intMember (x : Int) : List (Nat × Val) := [(0, .num (BitVec.ofInt 64 x))]
def boolMember (b : Bool) : List (Nat × Val) := [(0, .num (if b then 1 else 0))]
def listMember (ms : List Msg) : List (Nat × Val) := ms.map fun m => (0, .msg m)
def optionMember (m : Option Msg) : List (Nat × Val) := m.toList.map fun m => (0, .msg m)

/-! ## Messages -/

def featuresMsg (F : Features) : Msg :=
  ⟨[intMember F.presence, intMember F.enumType, intMember F.repeatedEncoding, intMember F.utf8, intMember F.messageEncoding,
    intMember F.jsonFormat, intMember F.naming, intMember F.visibility], []⟩

/-- `FieldOptions`, if there is something to say. -/
def fieldOptionsMsg (packed : Option Bool) (features : Option Features) : Option Msg :=
  if packed = none ∧ features = none then none
  else some ⟨[intMember 0, packed.toList.map fun b => (0, .num (if b then 1 else 0)), intMember 0, boolMember false, boolMember false,
    boolMember false, boolMember false, boolMember false, intMember 0, [], [], optionMember (features.map featuresMsg), [], []], []⟩

/-- `FieldDescriptorProto`. -/
def fieldMsg (f : FieldProto) : Msg :=
  ⟨[textMember f.name, intMember f.number, intMember f.label, intMember f.type, textMember f.typeName, textMember f.extendee,
    textMember f.defaultValue, f.oneofIndex.toList.map fun i => (0, .num (BitVec.ofInt 64 i)), textMember f.jsonName,
    optionMember (fieldOptionsMsg f.packed f.features), boolMember f.proto3Optional], []⟩

/-- `OneofDescriptorProto`; its options say only the features. -/
def oneofMsg (o : OneofProto) : Msg :=
  ⟨[textMember o.name, optionMember (o.features.map fun F => ⟨[optionMember (some (featuresMsg F)), []], []⟩)], []⟩

/-- `EnumDescriptorProto`. -/
def enumMsg (e : EnumProto) : Msg :=
  ⟨[textMember e.name, listMember (e.values.map fun v => ⟨[textMember v.1, intMember v.2, []], []⟩),
    optionMember (e.features.map fun F =>
      ⟨[boolMember false, boolMember false, boolMember false, optionMember (some (featuresMsg F)), []], []⟩), [], [], intMember 0], []⟩

/-- `MessageOptions`, if there is something to say. -/
def messageOptionsMsg (mapEntry : Bool) (features : Option Features) : Option Msg :=
  if mapEntry = false ∧ features = none then none
  else some ⟨[boolMember false, boolMember false, boolMember false, boolMember mapEntry, boolMember false,
    optionMember (features.map featuresMsg), []], []⟩

/-- `DescriptorProto`, for messages nested at most `d` deep. -/
def messageMsg : Nat → MsgProto → Msg
  | 0, _ => ⟨[], []⟩
  | d + 1, m => ⟨[textMember m.name, listMember (m.fields.map fieldMsg), listMember (m.extensions.map fieldMsg),
      listMember (m.nested.map (messageMsg d)), listMember (m.enums.map enumMsg), [], listMember (m.oneofs.map oneofMsg),
      optionMember (messageOptionsMsg m.mapEntry m.features), [], [], intMember 0], []⟩

/-- `FileOptions` with features. -/
def fileOptionsMsg (F : Features) : Msg :=
  ⟨[textMember [], textMember [], boolMember false, boolMember false, boolMember false, intMember 1, textMember [], boolMember false,
    boolMember false, boolMember false, boolMember false, boolMember true, textMember [], textMember [], textMember [], textMember [],
    textMember [], textMember [], textMember [], optionMember (some (featuresMsg F)), []], []⟩

/-- `FileDescriptorProto`, without source information. -/
def fileMsg (d : Nat) (f : FileProto) : Msg :=
  ⟨[textMember f.name, textMember f.package, f.deps.map fun t => (0, .bytes t), [], [], [], listMember (f.messages.map (messageMsg d)),
    listMember (f.enums.map enumMsg), [], listMember (f.extensions.map fieldMsg), optionMember (f.features.map fileOptionsMsg), [],
    textMember f.syntaxName, intMember f.edition], []⟩

/-- `FileDescriptorSet`. -/
def setMsg (files : List Msg) : Msg := ⟨[listMember files], []⟩

/-- Files as records of a serialized `FileDescriptorSet`: field 1, length, bytes. -/
def setBytes (descs : List (List Byte)) : List Byte := descs.flatMap (lenRecord 1)

end HppProto.Spec
