import Verif.Spec.JsonForm

/-!
# The JSON form of a message with all fields that have no presence

Specification of `always_print_fields_with_no_presence` (`docs/frontend_apis.md`): "non-presence fields (primitives, repeated, maps) are
always included in the output even if they are set to their default values (e.g., `0`, `""`, `false`, `[]`). Presence-tracking fields
(like sub-messages or explicit `optional` fields) are still omitted if not set."
-/

namespace HppProto.Json

/-- What stands for a singular field without presence that is not set. -/
abbrev Unset := (G : Glaze) → (utf8 : List Byte → Bool) → (S : Style) → JField → DynMsg → JTree → Prop

/-- The documented form: the form of zero, `false`, the enum number zero or the empty string. -/
def Unset.documented : Unset := fun G utf8 S f _ j =>
  match f.ty with
  | .string | .bytes => strForm utf8 f.ty [] j
  | _ => numForm G S f.ty 0 j

/-- The type is a number or bool, but no enum. -/
def JType.isPlainNumber : JType → Bool
  | .int _ _ | .float _ | .bool => true
  | _ => false

/-- The documented form, where only numbers and bools occur, and they are zero in memory: never set, or last set to zero. -/
def Unset.plain : Unset := fun G utf8 S f m j =>
  f.ty.isPlainNumber = true ∧ f.dyn.value m = .num 0 ∧ Unset.documented G utf8 S f m j

/-- The form that is written: numbers and bools as `value()` reads them, `null` for strings, bytes and enums. -/
def Unset.asWritten : Unset := fun G _ S f m j =>
  if f.ty.isPlainNumber then ∃ v, f.dyn.value m = .num v ∧ numForm G S f.ty v j else j = .null

section
variable (T : JTypes) (G : Glaze) (utf8 : List Byte → Bool) (S : Style) (unset : Unset) (form : Nat → DynMsg → JTree → Prop)

/-- The form of a field that is set, of any repeated field or map, and of a singular field that is not set. -/
def allField (f : JField) (m : DynMsg) (j : JTree) : Prop :=
  if f.dyn.hasValue m = true ∨ f.dyn.repeated = true then fieldForm T G utf8 S form f m j else unset G utf8 S f m j

/-- A field is a member if it is set or has no presence. -/
def shown (f : JField) (m : DynMsg) : Bool := f.dyn.hasValue m || !f.dyn.explicit

/-- The JSON object of a message: the members are the fields that are set and those without presence, in order. -/
def allObject (D : JDesc) (m : DynMsg) (j : JTree) : Prop :=
  ∃ ms, All2 (fun f p => S.key f p.1.text ∧ p.1.plain = true ∧ allField T G utf8 S unset form f m p.2)
    (D.fields.filter fun f => shown f m) ms ∧ j = .obj ms

/-- The JSON form of a message; well-known types other than wrappers, and map entries, are as without the option. -/
def allBody (id : Nat) (m : DynMsg) (j : JTree) : Prop :=
  if (T id).entry = false ∧ (T id).wk = .none then m.length = (T id).slots ∧ allObject T G utf8 S unset form (T id) m j
  else if (T id).entry = false ∧ (T id).wk = .wrapper then
    m.length = (T id).slots ∧ ∃ f, (T id).fields = [f] ∧ shown f m = true ∧ allField T G utf8 S unset form f m j
  else bodyForm T G utf8 S form id m j

end

/-- The JSON form of a message of type `id` with all fields that have no presence, nested at most `d` deep. -/
def AllFormAt (T : JTypes) (G : Glaze) (utf8 : List Byte → Bool) (S : Style) (unset : Unset) :
    (d : Nat) → (id : Nat) → DynMsg → JTree → Prop
  | 0, _, _, _ => False
  | d + 1, id, m, j => allBody T G utf8 S unset (AllFormAt T G utf8 S unset d) id m j

end HppProto.Json
