import Verif.Spec.StaticType
import Verif.Spec.DynamicPool
import Verif.Model.Parse
import Verif.Model.Serialize

/-!
# What a dynamic message holds after reading

Specification: when a dynamic message that was read and a generated message that was read hold the same.
A field without presence whose value compares equal to its default is not set in the dynamic message.
-/

namespace HppProto

/-- Is the value one that the enum has, if it is closed? -/
def Kind.admits (k : Kind) (v : Val) : Prop :=
  ∀ vs, k = .scalar (.enum (some vs)) → v.bits ∈ vs

/-- Has the message all its fields, if it is a map entry? -/
def entryComplete (T : DynTypes) (k : Kind) (s : DynMsg) : Prop :=
  ∀ id, k = .msg id → (T id).entry = true → ∀ f ∈ (T id).fields, f.hasValue s = true

/-- A member of a generated message holds what was read for the fields of the dynamic message. The numbers
of a repeated closed enum are numbers of the enum; the entries of a map have key and value. -/
def readsSlot (T : DynTypes) (rel : Nat → DynMsg → Msg → Prop) (initial : List (Nat × Val))
    (fs : List DynField) (m : DynMsg) (es : List (Nat × Val)) : Prop :=
  (∃ j f v, fs[j]? = some f ∧ f.repeated = false ∧ f.hasValue m = true ∧ holdsValue rel f m v ∧
    (f.explicit = false → isDefault f.kind f.dflt v = false) ∧ es = [(j, v)]) ∨
  ((∀ f ∈ fs, f.repeated = false ∧ f.hasValue m = false) ∧
    (es = initial ∨ ∃ f v, fs = [f] ∧ f.explicit = false ∧ isDefault f.kind f.dflt v = true ∧
      es = [(0, v)])) ∨
  (∃ f vs, fs = [f] ∧ f.repeated = true ∧ holdsList rel f m vs ∧ (∀ v ∈ vs, f.kind.admits v) ∧
    (∀ ss, f.value m = .msgs ss → ∀ s ∈ ss, entryComplete T f.kind s) ∧ es = vs.map fun v => (0, v))

/-- The generated message `M` of type `id` holds what the dynamic message `m` holds after reading, both
nested at most `d` deep. -/
def ReadsAt (T : DynTypes) : (d : Nat) → Nat → DynMsg → Msg → Prop
  | 0, _, _, _ => False
  | d + 1, id, m, M =>
    m.length = (T id).slots ∧ M.unk = [] ∧ M.slots.length = (groupFields (T id).fields).length ∧
    ∀ i fs, (groupFields (T id).fields)[i]? = some fs →
      readsSlot T (ReadsAt T d) (staticSlot T T.blank (T id).entry fs).initial fs m (M.get i)

/-- The generated message holds what the dynamic message holds after reading. -/
def DynReads (T : DynTypes) (id : Nat) (m : DynMsg) (M : Msg) : Prop := ∃ d, ReadsAt T d id m M

/-- What reading relies on, besides the slot layout: distinct field numbers; a map entry has two singular
fields, 1 and 2, with presence, none of them a closed enum, and its value is not a map entry; a closed enum
field that is not repeated has presence and is not required; enum numbers have 32 bits. -/
structure DynTypes.Readable (T : DynTypes) : Prop where
  distinct : ∀ id, ((T id).fields.map DynField.number).Nodup
  entries : ∀ id, (T id).entry = true → ∃ k v, (T id).fields = [k, v] ∧ k.number = 1 ∧ v.number = 2 ∧
    k.repeated = false ∧ v.repeated = false ∧ k.oneof = none ∧ v.oneof = none ∧
    k.explicit = true ∧ v.explicit = true ∧ k.kind.msgType = none ∧
    k.kind.closed = false ∧ v.kind.closed = false ∧
    ∀ sid, v.kind.msgType = some sid → (T sid).entry = false
  closed : ∀ id, ∀ f ∈ (T id).fields, f.kind.closed = true → f.repeated = false →
    f.explicit = true ∧ f.required = false
  enums : ∀ id, ∀ f ∈ (T id).fields, ∀ vs, f.kind = .scalar (.enum (some vs)) →
    ∀ x ∈ vs, (x.setWidth 32).signExtend 64 = x

end HppProto
