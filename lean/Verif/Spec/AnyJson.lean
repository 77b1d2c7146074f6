import Verif.Spec.JsonForm
import Verif.Model.AnyJson

/-!
# The JSON form of messages with `google.protobuf.Any`

Specification: `FormAt` of `Verif/Spec/JsonForm.lean` with `Any` at every depth. The JSON form of an `Any` is the object
of its payload with a member `@type`; if the payload is of a well-known type, an object with `@type` and `value`.
-/

namespace HppProto.Json
open HppProto

/-- A type URL: something, a slash, and the full name of the type. -/
def IsTypeUrl (E : AnyEnv) (url : List Byte) (id : Nat) : Prop :=
  ∃ before name, url = before ++ 0x2f :: name ∧ (0x2f : Byte) ∉ name ∧ name ≠ [] ∧ E.find name = some id

/-- The bytes are an encoding of a message of the type that the URL names. -/
def Holds (T : JTypes) (utf8 : List Byte → Bool) (E : AnyEnv) (url bytes : List Byte) (id : Nat) (p : DynMsg) : Prop :=
  IsTypeUrl E url id ∧ dynRead T.dyn utf8 E.limit id [] bytes = .ok p

/-- The key of the type URL. -/
def typeKey : JStr := ⟨b!"@type", true⟩

/-- The JSON form of an `Any`: `value` relates a payload of a well-known type to its form, `payload` any other one to
the object of its members. `can p` is asked of the payload. -/
def anyForm (T : JTypes) (utf8 : List Byte → Bool) (E : AnyEnv) (S : Style) (can : Nat → DynMsg → Prop)
    (value payload : Nat → DynMsg → JTree → Prop) (id : Nat) (m : DynMsg) (j : JTree) : Prop :=
  m.length = (T id).slots ∧
  ∃ u v url bytes pid p ms, (T id).fields = [u, v] ∧ u.dyn.hasValue m = true ∧ u.dyn.value m = .str url ∧
    v.dyn.value m = .str bytes ∧ Holds T utf8 E url bytes pid p ∧ can pid p ∧
    (if (T pid).wk = .none then payload pid p (.obj ms) else ∃ x, value pid p x ∧ ms = [(⟨b!"value", true⟩, x)]) ∧
    if S.ordered then j = .obj ((typeKey, .str ⟨url, false⟩) :: ms)
    else ∃ a b, ms = a ++ b ∧ j = .obj (a ++ (typeKey, .str ⟨url, false⟩) :: b)

/-- Where a message is: the payload of an `Any`, a message in such a payload, or neither. A map entry leaves the
payload. -/
inductive Place where
  | outside | inside | payload
  deriving DecidableEq

/-- The JSON form of a message of type `id`, nested at most `d` deep, where the payload of an `Any` is one deeper than
the `Any`. With `bare = false` a payload does not have messages that are neither in a map nor of a well-known type. -/
def AnyFormAt (T : JTypes) (G : Glaze) (utf8 : List Byte → Bool) (E : AnyEnv) (S : Style) (can : Nat → DynMsg → Prop)
    (bare : Bool) : (d : Nat) → Place → (id : Nat) → DynMsg → JTree → Prop
  | 0, _, _, _, _ => False
  | d + 1, .payload, id, m, j =>
    m.length = (T id).slots ∧
      objectForm T S (fun f => fieldForm T G utf8 S (AnyFormAt T G utf8 E S can bare d .inside) f m) (T id) m j
  | d + 1, place, id, m, j =>
    if (T id).entry then bodyForm T G utf8 S (AnyFormAt T G utf8 E S can bare d .outside) id m j
    else match (T id).wk with
      | .any =>
        anyForm T utf8 E S can (AnyFormAt T G utf8 E S can bare d place) (AnyFormAt T G utf8 E S can bare d .payload) id m j
      | .none => (bare = true ∨ place = .outside) ∧ bodyForm T G utf8 S (AnyFormAt T G utf8 E S can bare d place) id m j
      | _ => bodyForm T G utf8 S (AnyFormAt T G utf8 E S can bare d place) id m j

/-- `m'` is an `Any` with the URL of `m` and the encoding of a payload that holds what the payload of `m` holds. -/
def anySame (T : JTypes) (utf8 : List Byte → Bool) (E : AnyEnv) (same : Nat → DynMsg → DynMsg → Prop) (id : Nat)
    (m m' : DynMsg) : Prop :=
  m'.length = (T id).slots ∧
  ∃ u v url bytes bytes' pid p p', (T id).fields = [u, v] ∧ u.dyn.value m = .str url ∧ v.dyn.value m = .str bytes ∧
    u.dyn.hasValue m' = true ∧ u.dyn.value m' = .str url ∧ v.dyn.value m' = .str bytes' ∧ Holds T utf8 E url bytes pid p ∧
    dynWrite T.dyn utf8 E.limit true pid p' [] = .ok (none, bytes') ∧ same pid p p'

/-- `m'` holds what `m` holds, nested at most `d` deep. -/
def AnySameAt (T : JTypes) (utf8 : List Byte → Bool) (E : AnyEnv) : (d : Nat) → (id : Nat) → DynMsg → DynMsg → Prop
  | 0, _, _, _ => False
  | d + 1, id, m, m' =>
    if (T id).entry = false ∧ (T id).wk = .any then anySame T utf8 E (fun pid p p' => AnySameAt T utf8 E d pid p p') id m m'
    else bodySame T (AnySameAt T utf8 E d) id m m'

/-- Whatever holds the same as the payload can be encoded. -/
def Encodable (T : JTypes) (utf8 : List Byte → Bool) (E : AnyEnv) (id : Nat) (p : DynMsg) : Prop :=
  ∀ d p', AnySameAt T utf8 E d id p p' → ∃ out, dynWrite T.dyn utf8 E.limit true id p' [] = .ok (none, out)

/-- The types in which the JSON form is used: `Any` has the layout of its definition, map entries are not well-known
types, and no field is called `@type`. -/
structure AnyTypes (T : JTypes) : Prop where
  ok : ∀ id, (T id).Ok T
  any : ∀ id, (T id).wk = .any → ∃ u v, (T id).fields = [u, v] ∧ u.ty = .string ∧ v.ty = .bytes ∧
    u.dyn.repeated = false ∧ v.dyn.repeated = false ∧ u.dyn.oneof = none ∧ v.dyn.oneof = none
  entry : ∀ id, (T id).entry = true → (T id).wk = .none
  named : ∀ id, ∀ f ∈ (T id).fields, f.name ≠ b!"@type" ∧ f.jsonName ≠ b!"@type"

/-- What is assumed of `skip_number` of glaze: it skips a number. -/
def AnyEnv.Lawful (E : AnyEnv) : Prop :=
  ∀ t rest, NumText t → numChar (look rest) = false → E.skipNum (t ++ rest) = .ok rest

end HppProto.Json
