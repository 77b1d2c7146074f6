import Verif.Spec.Meta
import Verif.Model.GenExtension

/-!
# What the struct of an extension must be

For the definition `f` of an extension with resolved features `F`.
-/

namespace HppProto.Spec

/-- The kind of value that an extension has. -/
def ExtKindRule (p : Pool) (f : FieldProto) (F : Features) : Kind → Prop
  | .scalar (.enum c) => enumRule p f c
  | .scalar s => scalarRule f F s
  | .msg id => ∃ m, p.messages[id]? = some m ∧ f.typeName = b!"." ++ m.fullName ∧ f.type = 11 ∧ ¬ asGroup False False f F
  | .group id => ∃ m, p.messages[id]? = some m ∧ f.typeName = b!"." ++ m.fullName ∧ asGroup False False f F

/-- The type is a closed enum. -/
def closedEnum (p : Pool) (f : FieldProto) : Prop :=
  f.type = 14 ∧ ∃ e ∈ p.enums, f.typeName = b!"." ++ e.fullName ∧ e.features.enumType = 2

/-- The default value of a singular scalar: the one that is given, or else the first number of an enum, the empty string,
or zero. -/
def ExtDefaultRule (p : Pool) (given : Option Val) (f : FieldProto) (v : Val) : Prop :=
  match given with
  | some x => v = x
  | none =>
    if f.type = 14 then ∃ e ∈ p.enums, f.typeName = b!"." ++ e.fullName ∧
      ∃ n, e.proto.numbers.head? = some n ∧ v = .num (BitVec.ofInt 64 n)
    else v = if f.type = 9 ∨ f.type = 12 then .bytes [] else .num 0

/-- What protoc sees to, for extensions. -/
structure ExtAccepted (p : Pool) : Prop where
  /-- They are neither in a oneof nor required nor maps. -/
  oneof : ∀ f ∈ p.fields, f.proto.extendee ≠ [] → f.proto.oneofIndex = none
  required : ∀ f ∈ p.fields, f.proto.extendee ≠ [] → ¬ required f.proto f.features
  maps : ∀ f ∈ p.fields, f.proto.extendee ≠ [] → f.proto.type = 10 ∨ f.proto.type = 11 →
    ∀ m ∈ p.messages, f.proto.typeName = b!"." ++ m.fullName → m.proto.mapEntry = false
  /-- Fields of the message have other numbers. -/
  free : ∀ f ∈ p.fields, f.proto.extendee ≠ [] → ∀ d ∈ p.messages, f.proto.extendee = b!"." ++ d.fullName →
    ∀ g ∈ d.proto.fields, g.number ≠ f.proto.number
  /-- The message has extension ranges, and is no map entry. -/
  extendee : ∀ f ∈ p.fields, f.proto.extendee ≠ [] → ∀ d ∈ p.messages, f.proto.extendee = b!"." ++ d.fullName →
    d.proto.mapEntry = false
  /-- Enums have numbers. -/
  enums : ∀ e ∈ p.enums, e.proto.numbers ≠ []

/-- Extensions for which every promise is kept: numbers below 2^25 (C10), no zero in the default of a string (C123). -/
structure ExtSupported (dflt : FieldProto → Option Val) (p : Pool) : Prop where
  numbers : ∀ f ∈ p.fields, f.proto.extendee ≠ [] → f.proto.number < 2 ^ 25
  strings : ∀ f ∈ p.fields, f.proto.extendee ≠ [] → f.proto.type = 9 → ∀ s, dflt f.proto = some (.bytes s) → (0 : Byte) ∉ s

/-- Default values are values of their extensions, and messages and lists have none. -/
def ExtDefaultsTyped (dflt : FieldProto → Option Val) (p : Pool) (utf8 : List Byte → Bool) : Prop :=
  ∀ f ∈ p.fields, f.proto.extendee ≠ [] → ∀ v, dflt f.proto = some v → f.proto.type ≠ 10 ∧ f.proto.type ≠ 11 ∧ ∀ sc,
    scalarRule f.proto f.features sc ∨ (f.proto.type = 14 ∧ ∃ c, sc = .enum c) →
    scalarOk { schema := fun _ => { slots := [], unk := .none }, utf8 := utf8 } sc v

end HppProto.Spec
