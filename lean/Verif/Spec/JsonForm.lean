import Verif.Spec.JsonText
import Verif.Proofs.Dynamic

/-!
# The JSON form of a message

Specification: the JSON value that a dynamic message stands for (the ProtoJSON mapping), and when two
dynamic messages hold the same.
-/

namespace HppProto.Json
open HppProto

/-- The elements of two lists of equal length are related pairwise. -/
def All2 {α β : Type} (R : α → β → Prop) : List α → List β → Prop
  | [], [] => True
  | a :: as, b :: bs => R a b ∧ All2 R as bs
  | _, _ => False

/-- What is left open in the JSON form: the key of a field, the spelling of an enum number, whether the
members are in the order of the fields, and whether fields that are not set may be `null` or, if repeated, empty. -/
structure Style where
  key : JField → List Byte → Prop
  enum : EnumInfo → BitVec 64 → JTree → Prop
  ordered : Bool
  nulls : Bool

/-- A number of an enum as the name or the number. -/
def enumEither (E : EnumInfo) (v : BitVec 64) (j : JTree) : Prop :=
  (∃ n x, E.valueOf n = some x ∧ v = x.signExtend 64 ∧ Plain n ∧ j = .str ⟨n, true⟩) ∨
  (-2 ^ 31 ≤ v.toInt ∧ v.toInt < 2 ^ 31 ∧ j = .num (intText v.toInt))

/-- A number of an enum: its first name; if it has none, a number, which must not be negative. -/
def enumNamed (E : EnumInfo) (v : BitVec 64) (j : JTree) : Prop :=
  (∃ p ∈ E.values, v = p.2.signExtend 64 ∧ j = .str ⟨E.nameOf p.2, true⟩) ∨
  ((∀ p ∈ E.values, v ≠ p.2.signExtend 64) ∧ 0 ≤ v.toInt ∧ v.toInt < 2 ^ 31 ∧ j = .num (intText v.toInt))

/-- The style of the writer: all fields that are set, in order, with their JSON name, or with the name
from the proto file. -/
def writerStyle (preserve : Bool) : Style where
  key f k := k = if preserve then f.name else f.jsonName
  enum := enumNamed
  ordered := true
  nulls := false

/-- What the reader is to accept: either name, any order, `null` or empty for a field that is not set, enum numbers
by any of their names or as numbers. -/
def anyStyle : Style where
  key f k := k = f.jsonName ∨ k = f.name
  enum := enumEither
  ordered := false
  nulls := true

/-- `v` holds the integer `n` of a type of 32 or 64 (`wide`) bits. -/
def IntForm (signed wide : Bool) (v : BitVec 64) (n : Int) : Prop :=
  match signed, wide with
  | true, true => n = v.toInt
  | true, false => n = v.toInt ∧ -2147483648 ≤ n ∧ n ≤ 2147483647
  | false, true => n = v.toNat
  | false, false => n = v.toNat ∧ n ≤ 4294967295

/-- The JSON form of a number, bool or enum; 64-bit integers are strings. -/
def numForm (G : Glaze) (S : Style) (ty : JType) (v : BitVec 64) (j : JTree) : Prop :=
  match ty with
  | .int signed wide =>
    ∃ n, IntForm signed wide v n ∧ j = if wide then .str ⟨intText n, true⟩ else .num (intText n)
  | .float wide => Finite wide v ∧ j = .num (G.writeFloat wide v)
  | .bool => (v = 0 ∧ j = .bool false) ∨ (v = 1 ∧ j = .bool true)
  | .enum E => E.isNull = false ∧ S.enum E v j
  | _ => False

/-- The JSON form of a string (UTF-8) or bytes (base64). -/
def strForm (utf8 : List Byte → Bool) (ty : JType) (bs : List Byte) (j : JTree) : Prop :=
  match ty with
  | .string => utf8 bs = true ∧ j = .str ⟨bs, false⟩
  | .bytes => j = .str ⟨base64Encode bs, true⟩
  | _ => False

/-- The JSON form of a field; `form` is that of messages. A map is an object; the form of a map entry is
taken as an object with one member. -/
def fieldForm (T : JTypes) (G : Glaze) (utf8 : List Byte → Bool) (S : Style) (form : Nat → DynMsg → JTree → Prop)
    (f : JField) (m : DynMsg) (j : JTree) : Prop :=
  match f.ty with
  | .msg id =>
    if f.dyn.repeated then
      ∃ ss, f.dyn.value m = .msgs ss ∧
        if (T id).entry then ∃ ms, All2 (fun s p => form id s (.obj [p])) ss ms ∧ j = .obj ms
        else ∃ js, All2 (form id) ss js ∧ j = .arr js
    else ∃ s, f.dyn.value m = .msg s ∧ form id s j
  | .string | .bytes =>
    if f.dyn.repeated then ∃ vs js, f.dyn.value m = .strs vs ∧ All2 (strForm utf8 f.ty) vs js ∧ j = .arr js
    else ∃ bs, f.dyn.value m = .str bs ∧ strForm utf8 f.ty bs j
  | _ =>
    if f.dyn.repeated then
      ∃ vs js, f.dyn.value m = .nums (vs.map some) ∧ All2 (numForm G S f.ty) vs js ∧ j = .arr js
    else ∃ v, f.dyn.value m = .num v ∧ numForm G S f.ty v j

/-- An empty repeated field or map. -/
def JField.emptyTree (T : JTypes) (f : JField) : JTree :=
  match f.ty with
  | .msg id => if (T id).entry then .obj [] else .arr []
  | _ => .arr []

/-- A member of the JSON object of a message: a field that is set, or `null` for one that is not, or an empty list or
object for a repeated field or map that is empty. -/
def memberForm (T : JTypes) (S : Style) (field : JField → JTree → Prop) (m : DynMsg) (f : JField)
    (p : JStr × JTree) : Prop :=
  S.key f p.1.text ∧ p.1.plain = true ∧
    ((f.dyn.hasValue m = true ∧ field f p.2) ∨
      (S.nulls = true ∧ f.dyn.hasValue m = false ∧
        ((f.dyn.oneof = none ∧ f.isValue T = false ∧ p.2 = .null) ∨ (f.dyn.repeated = true ∧ p.2 = f.emptyTree T))))

/-- The JSON object of a message: every field that is set is a member, once. -/
def objectForm (T : JTypes) (S : Style) (field : JField → JTree → Prop) (D : JDesc) (m : DynMsg) (j : JTree) : Prop :=
  ∃ fs ms, All2 (memberForm T S field m) fs ms ∧ (∀ f ∈ fs, f ∈ D.fields) ∧
    (if S.ordered then fs.filter (fun f => f.dyn.hasValue m) = D.fields.filter (fun f => f.dyn.hasValue m)
     else (fs.filter (fun f => f.dyn.hasValue m)).Perm (D.fields.filter (fun f => f.dyn.hasValue m))) ∧
    j = .obj ms

/-- The key of a map. -/
def keyForm (utf8 : List Byte → Bool) (k : JField) (m : DynMsg) (s : JStr) : Prop :=
  match k.ty with
  | .string => ∃ bs, k.dyn.value m = .str bs ∧ utf8 bs = true ∧ s = ⟨bs, false⟩
  | .int signed wide => ∃ v n, k.dyn.value m = .num v ∧ IntForm signed wide v n ∧ s = ⟨intText n, true⟩
  | .bool => ∃ v, k.dyn.value m = .num v ∧
      ((v = 0 ∧ s = ⟨b!"false", true⟩) ∨ (v = 1 ∧ s = ⟨b!"true", true⟩))
  | _ => False

/-- The JSON form of a message of type `id`; `form` is that of the messages in it. A `google.protobuf.Value` and a
wrapper must be set; so must key and value of a map entry. -/
def bodyForm (T : JTypes) (G : Glaze) (utf8 : List Byte → Bool) (S : Style) (form : Nat → DynMsg → JTree → Prop)
    (id : Nat) (m : DynMsg) (j : JTree) : Prop :=
  let field f := fieldForm T G utf8 S form f m
  m.length = (T id).slots ∧
  if (T id).entry then
    ∃ k v s x, (T id).fields = [k, v] ∧ k.dyn.hasValue m = true ∧ v.dyn.hasValue m = true ∧
      keyForm utf8 k m s ∧ field v x ∧ j = .obj [(s, x)]
  else match (T id).wk with
  | .none => objectForm T S field (T id) m j
  | .any => False
  | .timestamp => ∃ a b x y t, (T id).fields = [a, b] ∧ a.dyn.value m = .num x ∧ b.dyn.value m = .num y ∧
      timestampEncode x.toInt y.toInt = some t ∧ j = .str ⟨t, true⟩
  | .duration => ∃ a b x y t, (T id).fields = [a, b] ∧ a.dyn.value m = .num x ∧ b.dyn.value m = .num y ∧
      durationEncode x.toInt y.toInt = some t ∧ j = .str ⟨t, true⟩
  | .fieldMask => ∃ f ps, (T id).fields = [f] ∧ f.dyn.value m = .strs ps ∧ (∀ p ∈ ps, (0x2c : Byte) ∉ p) ∧
      ps ≠ [[]] ∧ j = .str ⟨List.intercalate [0x2c] ps, false⟩
  | .value => ∃ f ∈ (T id).fields, f.dyn.hasValue m = true ∧
      ((∃ E, f.ty = .enum E ∧ E.isNull = true ∧ f.dyn.value m = .num 0 ∧ j = .null) ∨ field f j)
  | .struct | .listValue => ∃ f, (T id).fields = [f] ∧ field f j
  | .wrapper => ∃ f, (T id).fields = [f] ∧ f.dyn.hasValue m = true ∧ field f j

/-- The JSON form of a message of type `id`, nested at most `d` deep. -/
def FormAt (T : JTypes) (G : Glaze) (utf8 : List Byte → Bool) (S : Style) : (d : Nat) → (id : Nat) → DynMsg → JTree → Prop
  | 0, _, _, _ => False
  | d + 1, id, m, j => bodyForm T G utf8 S (FormAt T G utf8 S d) id m j

/-- The field has the same value in both messages; `same` relates messages. -/
def sameField (same : Nat → DynMsg → DynMsg → Prop) (f : JField) (m m' : DynMsg) : Prop :=
  match f.ty with
  | .msg id =>
    if f.dyn.repeated then ∃ ss ss', f.dyn.value m = .msgs ss ∧ f.dyn.value m' = .msgs ss' ∧ All2 (same id) ss ss'
    else ∃ s s', f.dyn.value m = .msg s ∧ f.dyn.value m' = .msg s' ∧ same id s s'
  | _ => f.dyn.value m' = f.dyn.value m

/-- `m'` holds what `m` holds: the same fields are set, to the same values. Timestamps, durations and field
masks are compared by their values. `same` relates the messages in them. -/
def bodySame (T : JTypes) (same : Nat → DynMsg → DynMsg → Prop) (id : Nat) (m m' : DynMsg) : Prop :=
  m'.length = (T id).slots ∧
  if (T id).entry = false ∧ ((T id).wk = .timestamp ∨ (T id).wk = .duration ∨ (T id).wk = .fieldMask) then
    ∀ f ∈ (T id).fields, f.dyn.value m' = f.dyn.value m
  else ∀ f ∈ (T id).fields, f.dyn.hasValue m' = f.dyn.hasValue m ∧
    (f.dyn.hasValue m = true → sameField same f m m')

/-- `m'` holds what `m` holds, nested at most `d` deep. -/
def SameAt (T : JTypes) : (d : Nat) → (id : Nat) → DynMsg → DynMsg → Prop
  | 0, _, _, _ => False
  | d + 1, id, m, m' => bodySame T (SameAt T d) id m m'

/-- The storage of the field is of its type. -/
def JField.tied (f : JField) : Prop :=
  match f.ty with
  | .msg id => f.dyn.kind.msgType = some id
  | .string | .bytes => f.dyn.kind.isStr = true
  | _ => f.dyn.kind.isNum = true

/-- The type of a map key. -/
def JType.isKey : JType → Bool
  | .int _ _ | .bool | .string => true
  | _ => false

/-- The types in which the JSON form is used. Names are pairwise different and need no escapes; map
entries and well-known types have the layout of their definition. -/
structure JDesc.Ok (T : JTypes) (D : JDesc) : Prop where
  dyn : D.dyn.Ok
  distinct : (D.fields.map fun f => f.dyn.number).Nodup
  tied : ∀ f ∈ D.fields, f.tied
  plain : ∀ f ∈ D.fields, Plain f.name ∧ Plain f.jsonName
  keys : ∀ f ∈ D.fields, ∀ g ∈ D.fields,
    (f.jsonName = g.jsonName ∨ f.jsonName = g.name ∨ f.name = g.name) → f = g
  enums : ∀ f ∈ D.fields, ∀ E, f.ty = .enum E → (E.values.map (·.1)).Nodup ∧
    ∀ p ∈ E.values, p.1 ≠ [] ∧ Plain p.1
  maps : ∀ f ∈ D.fields, ∀ id, f.ty = .msg id → (T id).entry = true → f.dyn.repeated = true
  entries : D.entry = true → ∃ k v, D.fields = [k, v] ∧ k.dyn.repeated = false ∧ v.dyn.repeated = false ∧
    k.dyn.oneof = none ∧ v.dyn.oneof = none ∧ k.ty.isKey = true
  timestamps : D.wk = .timestamp ∨ D.wk = .duration → ∃ a b, D.fields = [a, b] ∧ a.ty = .int true true ∧
    b.ty = .int true false ∧ a.dyn.repeated = false ∧ b.dyn.repeated = false ∧ a.dyn.oneof = none ∧
    b.dyn.oneof = none
  masks : D.wk = .fieldMask → ∃ f, D.fields = [f] ∧ f.ty = .string ∧ f.dyn.repeated = true
  values : D.wk = .value → ∃ nul num str bool struct list E sid lid,
    D.fields = [nul, num, str, bool, struct, list] ∧
    nul.ty = .enum E ∧ E.isNull = true ∧ num.ty = .float true ∧ str.ty = .string ∧ bool.ty = .bool ∧
    struct.ty = .msg sid ∧ (T sid).wk = .struct ∧ (T sid).entry = false ∧
    list.ty = .msg lid ∧ (T lid).wk = .listValue ∧ (T lid).entry = false ∧
    ∀ f ∈ D.fields, f.dyn.oneof = some 0
  structs : D.wk = .struct → ∃ f id, D.fields = [f] ∧ f.dyn.repeated = true ∧ f.ty = .msg id ∧ (T id).entry = true
  lists : D.wk = .listValue → ∃ f id, D.fields = [f] ∧ f.dyn.repeated = true ∧ f.ty = .msg id ∧ (T id).entry = false ∧
    (T id).wk = .value
  wrappers : D.wk = .wrapper → ∃ f, D.fields = [f] ∧ f.dyn.repeated = false ∧
    (∀ id, f.ty ≠ .msg id) ∧ ∀ E, f.ty ≠ .enum E

end HppProto.Json
