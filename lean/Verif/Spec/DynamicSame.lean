import Verif.Spec.StaticType
import Verif.Spec.Object

/-!
# Dynamic messages that hold the same

Specification: what a dynamic message must hold after it was written and read back.
-/

namespace HppProto

/-- Is the singular field set, and, unless it has presence, to something that does not compare equal to its
default? -/
def DynField.sent (f : DynField) (m : DynMsg) : Prop :=
  f.hasValue m = true ∧
    (f.explicit = false → ∀ v, holdsValue (fun _ _ _ => True) f m v → isDefault f.kind f.dflt v = false)

/-- The singular field has the same value in both. `rel` relates messages. -/
def sameValue (rel : Nat → DynMsg → DynMsg → Prop) (f : DynField) (m m' : DynMsg) : Prop :=
  match f.kind with
  | .scalar _ => f.value m' = f.value m
  | .msg id | .group id => ∃ s s', f.value m = .msg s ∧ f.value m' = .msg s' ∧ rel id s s'

/-- The repeated field has the same elements in both. -/
def sameElems (rel : Nat → DynMsg → DynMsg → Prop) (f : DynField) (m m' : DynMsg) : Prop :=
  match f.kind with
  | .scalar _ => f.value m' = f.value m
  | .msg id | .group id => ∃ ss ss', f.value m = .msgs ss ∧ f.value m' = .msgs ss' ∧ ss.length = ss'.length ∧
      ∀ p ∈ ss.zip ss', rel id p.1 p.2

/-- `m'` holds what `m` holds, both of type `id` and nested at most `d` deep: the same fields are set, to the
same values. A field without presence that is set to its default is not set in `m'`. -/
def RestoredAt (T : DynTypes) : (d : Nat) → Nat → DynMsg → DynMsg → Prop
  | 0, _, _, _ => False
  | d + 1, id, m, m' =>
    m'.length = (T id).slots ∧ ∀ f ∈ (T id).fields,
      (f.repeated = true → sameElems (RestoredAt T d) f m m') ∧
      (f.repeated = false → (f.hasValue m' = true ↔ f.sent m) ∧
        (f.sent m → sameValue (RestoredAt T d) f m m'))

/-- A singular field holds a value of its type. `P` holds for messages. -/
def fineValue (C : Cfg) (P : Nat → DynMsg → Prop) (f : DynField) (m : DynMsg) : Prop :=
  match f.kind with
  | .scalar sc => (∃ x, f.value m = .num x ∧ Spec.scalarOk C sc (.num x)) ∨
      ∃ bs, f.value m = .str bs ∧ Spec.scalarOk C sc (.bytes bs)
  | .msg id | .group id => ∃ s, f.value m = .msg s ∧ P id s

/-- A repeated field holds values of its type. -/
def fineElems (C : Cfg) (P : Nat → DynMsg → Prop) (f : DynField) (m : DynMsg) : Prop :=
  match f.kind with
  | .scalar sc => (∃ xs : List (BitVec 64), f.value m = .nums (xs.map some) ∧ ∀ x ∈ xs, Spec.scalarOk C sc (.num x)) ∨
      ∃ bss, f.value m = .strs bss ∧ ∀ bs ∈ bss, Spec.scalarOk C sc (.bytes bs)
  | .msg id | .group id => ∃ ss, f.value m = .msgs ss ∧ ∀ s ∈ ss, P id s

/-- A message of type `id`, nested at most `d` deep, that can be expected to survive writing and reading:
numbers in the range of their field, numbers of closed enums among the enumerators, checked strings valid,
map entries complete. -/
def FineAt (T : DynTypes) (C : Cfg) : (d : Nat) → Nat → DynMsg → Prop
  | 0, _, _ => False
  | d + 1, id, m => ∀ f ∈ (T id).fields,
      (f.repeated = true → fineElems C (FineAt T C d) f m) ∧
      (f.repeated = false → f.hasValue m = true → fineValue C (FineAt T C d) f m)

/-- The same field, optional if it was required. -/
def DynField.relaxed (f : DynField) : DynField :=
  { f with required := false, optional := f.required || f.optional }

/-- The same types with optional fields in place of required ones. -/
def DynTypes.relaxed (T : DynTypes) : DynTypes :=
  fun id => { T id with fields := (T id).fields.map DynField.relaxed }

/-- Map entries are the elements of repeated fields that are not groups. -/
def DynTypes.MapsRepeated (T : DynTypes) : Prop :=
  ∀ id, ∀ f ∈ (T id).fields, ∀ sid, f.kind.msgType = some sid → (T sid).entry = true →
    f.repeated = true ∧ f.kind = .msg sid

end HppProto
