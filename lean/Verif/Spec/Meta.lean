import Verif.Spec.PoolView
import Verif.Spec.Fields
import Verif.Spec.Object
import Verif.Model.Meta

/-!
# What the class of a message must be

The rules of the protobuf encoding, for the definition `f` of a field with resolved features `F`
(numbers are those of `descriptor.proto`): which kind of value it has, and how many.  Message types
are given by their positions in the pool, which C72 and C73 tie to the declarations.  Nothing here
uses the functions of `Verif/Model/Meta.lean`.
-/

namespace HppProto.Spec

/-- A message field that is written between a start tag and an end tag: groups, and messages with
the feature `DELIMITED`, except for maps and inside map entries. -/
def asGroup (mapField inEntry : Prop) (f : FieldProto) (F : Features) : Prop :=
  f.type = 10 ∨ (f.type = 11 ∧ F.messageEncoding = 2 ∧ ¬ mapField ∧ ¬ inEntry)

/-- The encoding of a field of a scalar type other than an enum. -/
def scalarRule (f : FieldProto) (F : Features) : Scalar → Prop
  | .fixed64 float => (float = true ∧ f.type = 1) ∨ (float = false ∧ (f.type = 6 ∨ f.type = 16))
  | .fixed32 float => (float = true ∧ f.type = 2) ∨ (float = false ∧ (f.type = 7 ∨ f.type = 15))
  | .varint .i64 => f.type = 3
  | .varint .u64 => f.type = 4
  | .varint .i32 => f.type = 5
  | .varint .u32 => f.type = 13
  | .varint .s32 => f.type = 17
  | .varint .s64 => f.type = 18
  | .bool => f.type = 8
  | .str utf8 => (f.type = 9 ∧ (utf8 = true ↔ F.utf8 = 2)) ∨ (f.type = 12 ∧ utf8 = false)
  | .enum _ => False

/-- The values of an enum field; a closed enum admits its numbers only. -/
def enumRule (p : Pool) (f : FieldProto) (closed : Option (List (BitVec 64))) : Prop :=
  f.type = 14 ∧ ∃ e ∈ p.enums, f.typeName = b!"." ++ e.fullName ∧
    (if e.features.enumType = 2 then ∃ l, closed = some l ∧
        ∀ v : BitVec 64, v ∈ l ↔ ∃ n ∈ e.proto.numbers, v = BitVec.ofInt 64 n
      else closed = none)

/-- The kind of value that a field of the message `d` has. -/
def KindRule (p : Pool) (d : MsgDesc) (f : FieldProto) (F : Features) : Kind → Prop
  | .scalar (.enum c) => enumRule p f c
  | .scalar s => scalarRule f F s
  | .msg id => ∃ m, p.messages[id]? = some m ∧ f.typeName = b!"." ++ m.fullName ∧ f.type = 11 ∧
      ¬ asGroup (m.proto.mapEntry = true) (d.proto.mapEntry = true) f F
  | .group id => ∃ m, p.messages[id]? = some m ∧ f.typeName = b!"." ++ m.fullName ∧
      asGroup (m.proto.mapEntry = true) (d.proto.mapEntry = true) f F

/-- A map field: repeated, of the type of a map entry. -/
def isMap (p : Pool) (f : FieldProto) : Prop :=
  f.type = 11 ∧ ∃ m ∈ p.messages, f.typeName = b!"." ++ m.fullName ∧ m.proto.mapEntry = true

/-- How a field that is not the member of a oneof is held.  Fields without presence start out, and
are omitted, with the zero of their type: they can have no other default. -/
def CardRule (p : Pool) (f : FieldProto) (F : Features) : Card → Prop
  | .map _ => isMap p f
  | .repeated pk => f.label = 3 ∧ ¬ isMap p f ∧ (pk = true ↔ packed f F)
  | .optional => f.label ≠ 3 ∧ hasPresence False f F ∧ (required f F → f.type = 10 ∨ f.type = 11)
  | .always _ => f.label ≠ 3 ∧ required f F
  | .implicit v => f.label ≠ 3 ∧ ¬ hasPresence False f F ∧
      v = (if f.type = 9 ∨ f.type = 12 then .bytes [] else .num 0)

/-- The fields of `fs` that are in the oneof number `k`. -/
def oneofFields (fs : List FieldProto) (k : Int) : List FieldProto :=
  fs.filter fun f => f.oneofIndex = some k

/-- Fields that a class has an entry for: those outside oneofs, and the first of each oneof. -/
def Leads (fs : List FieldProto) (f : FieldProto) : Prop :=
  ∀ k, f.oneofIndex = some k → (oneofFields fs k).head? = some f

instance (fs : List FieldProto) (f : FieldProto) : Decidable (Leads fs f) :=
  match h : f.oneofIndex with
  | none => isTrue fun k hk => by rw [h] at hk; cases hk
  | some k =>
    if hk : (oneofFields fs k).head? = some f then
      isTrue fun k' e => by rw [h] at e; cases e; exact hk
    else isFalse fun hl => hk (hl k h)

/-- The number of the first field of an entry. -/
def firstOf : SlotD → Int
  | .field n _ _ => n.toNat
  | .oneof [] => 0
  | .oneof (a :: _) => a.1.toNat

/-- What protoc sees to, beyond the well-formedness that the pool checks (C71). -/
structure Accepted (p : Pool) : Prop where
  /-- Fields of messages extend nothing. -/
  extendee : ∀ d ∈ p.messages, ∀ f ∈ d.proto.fields, f.extendee = []
  /-- The feature is known, and a repeated field is not required. -/
  presence : ∀ d ∈ p.messages, ∀ f ∈ d.proto.fields, (under d.features f.features).presence ∈ [1, 2, 3]
  repeated : ∀ d ∈ p.messages, ∀ f ∈ d.proto.fields, f.label = 3 → (under d.features f.features).presence ≠ 3
  /-- proto2 has no features. -/
  proto2 : ∀ d ∈ p.messages, ∀ file, p.files[d.file]? = some file → file.proto.syntaxName = [] ∨ file.proto.syntaxName = b!"proto2" →
    ∀ f ∈ d.proto.fields, (under d.features f.features).presence = 1
  /-- `optional` in proto3 makes a oneof of its own. -/
  proto3 : ∀ d ∈ p.messages, ∀ f ∈ d.proto.fields, f.proto3Optional = true →
    f.oneofIndex.isSome ∧ (under d.features f.features).presence = 2
  /-- Required fields are not in a oneof. -/
  oneof : ∀ d ∈ p.messages, ∀ f ∈ d.proto.fields, f.oneofIndex.isSome →
    f.label = 1 ∧ (under d.features f.features).presence ≠ 3
  /-- A field that has the type of a map entry is repeated, and of type message. -/
  maps : ∀ d ∈ p.messages, ∀ f ∈ d.proto.fields, ∀ m ∈ p.messages, m.proto.mapEntry = true →
    f.typeName = b!"." ++ m.fullName → f.type = 10 ∨ f.type = 11 → f.label = 3 ∧ f.type = 11
  /-- A map entry has a key and a value. -/
  entries : ∀ d ∈ p.messages, d.proto.mapEntry = true → ∃ k v, d.proto.fields = [k, v] ∧
    k.number = 1 ∧ v.number = 2 ∧ k.label = 1 ∧ v.label = 1 ∧ k.oneofIndex = none ∧ v.oneofIndex = none ∧
    k.type ∉ [1, 2, 10, 11, 12, 14]
  /-- Enums have numbers, 32 bits wide; the first number of an open enum is zero. -/
  enums : ∀ e ∈ p.enums, e.proto.numbers ≠ [] ∧ (∀ n ∈ e.proto.numbers, -2147483648 ≤ n ∧ n ≤ 2147483647) ∧
    (e.features.enumType ≠ 2 → e.proto.numbers.head? = some 0)
  /-- A closed enum is not the type of a field without presence. -/
  closed : ∀ d ∈ p.messages, ∀ f ∈ d.proto.fields, ∀ e ∈ p.enums, f.type = 14 → f.typeName = b!"." ++ e.fullName →
    d.proto.mapEntry = false → f.label ≠ 3 → e.features.enumType = 2 → hasPresence False f (under d.features f.features)

/-- A default value is given for singular fields that have presence, and no message. -/
def DefaultsGiven (S : Meta.Setup) (p : Pool) : Prop :=
  ∀ d ∈ p.messages, ∀ f ∈ d.proto.fields, (S.dflt d.fullName f.number).isSome →
    hasPresence False f (under d.features f.features) ∧ f.type ≠ 10 ∧ f.type ≠ 11 ∧ d.proto.mapEntry = false

/-- Objects of class `id` have a member whose type is the class `sub` itself, neither in a container
nor behind a pointer: required message fields, unless they have been found recursive, and the values
of map entries.  In C++ no chain of such members comes back to where it began. -/
def Nests (S : Meta.Setup) (p : Pool) (id sub : Nat) : Prop :=
  ∃ d m f, p.messages[id]? = some d ∧ p.messages[sub]? = some m ∧ f ∈ d.proto.fields ∧ f.typeName = b!"." ++ m.fullName ∧
    (f.type = 10 ∨ f.type = 11) ∧ (d.proto.mapEntry = true ∨ (f.label = 2 ∧ S.recursive d.fullName f.number = false))

/-- The option `proto2_explicit_presence` with these values has an effect on the field or message
called `full`, as the generator sees it: without its first byte, a value is the beginning of the
name. -/
def Reached (scopes : List (List Byte)) (full : List Byte) : Prop := ∃ s ∈ scopes, s.drop 1 <+: full

/-- The value `s` of the option names the field called `full`, or a message or package around it, or
everything, as the documentation has it. -/
def Within (s full : List Byte) : Prop := s = b!"." ∨ full = s.drop 1 ∨ s.drop 1 ++ b!"." <+: full

/-- String and bytes fields that have a default value are reached by the option. -/
def StringsReached (S : Meta.Setup) (p : Pool) : Prop :=
  ∀ d ∈ p.messages, ∀ f ∈ d.proto.fields, f.type = 9 ∨ f.type = 12 → f.label = 1 → f.oneofIndex = none →
    (S.dflt d.fullName f.number).isSome → Reached S.explicit (d.fullName ++ b!"." ++ f.name)

/-- Files and options for which the classes keep every promise.  Each condition is the subject of a
disagreement: field numbers from 2^25 on (C10), maps in files with `DELIMITED` messages (C74, C96),
closed enums in oneofs (C18), string fields with a default that lose their presence (C97), and
messages without fields whose unknown fields are to be kept (C99). -/
structure Supported (S : Meta.Setup) (p : Pool) : Prop where
  numbers : ∀ d ∈ p.messages, ∀ f ∈ d.proto.fields, f.number < 2 ^ 25
  maps : ∀ d ∈ p.messages, ∀ f ∈ d.proto.fields, isMap p f → (under d.features f.features).messageEncoding ≠ 2
  oneofs : ∀ d ∈ p.messages, ∀ f ∈ d.proto.fields, ∀ g ∈ d.proto.fields, f.number ≠ g.number →
    f.oneofIndex.isSome → f.oneofIndex = g.oneofIndex → ∀ e ∈ p.enums, f.type = 14 → f.typeName = b!"." ++ e.fullName →
    e.features.enumType ≠ 2
  strings : StringsReached S p
  empty : S.keeps = true → ∀ d ∈ p.messages, d.proto.mapEntry = false → d.proto.fields ≠ [] ∨ S.ranged d.fullName = true

/-- Default values are values of their fields. -/
def DefaultsTyped (S : Meta.Setup) (p : Pool) (utf8 : List Byte → Bool) : Prop :=
  ∀ d ∈ p.messages, ∀ f ∈ d.proto.fields, ∀ v, S.dflt d.fullName f.number = some v → ∀ sc,
    scalarRule f (under d.features f.features) sc ∨ (f.type = 14 ∧ sc = .enum none) →
    scalarOk { schema := fun _ => { slots := [], unk := .none }, utf8 := utf8 } sc v

end HppProto.Spec
