import Verif.Spec.JsonForm
import Verif.Spec.Fields
import Verif.Model.GenJson
import Verif.Proofs.MapList

/-!
# The JSON form of a generated message

Specification: the JSON value that a generated message stands for (the ProtoJSON mapping). The lexical
part, and the forms of numbers, strings and well-known types are those of dynamic messages
(`Verif/Spec/JsonForm.lean`).
-/

namespace HppProto.Json
open HppProto

/-- What is left open in the JSON form: the key of a field, the spelling of an enum number, whether the members
are exactly the fields to be shown and in their order, and whether `null` may be given
for a field that has its initial value. `lossy`: whether the form may be one that is not read back: `null`
for an optional field or a oneof that holds a `google.protobuf.Value` that is null, and the number of a
required enum that has no name. -/
structure GStyle where
  key : GName → List Byte → Prop
  enum : EnumInfo → BitVec 64 → JTree → Prop
  shown : Option (GSlot → List (Nat × Val) → Prop)
  nulls : Bool
  lossy : Bool

/-- A number of an enum: its first name; if it has none, the number. -/
def enumFirst (E : EnumInfo) (v : BitVec 64) (j : JTree) : Prop :=
  (∃ p ∈ E.values, v = p.2.signExtend 64 ∧ j = .str ⟨E.nameOf p.2, true⟩) ∨
  ((∀ p ∈ E.values, v ≠ p.2.signExtend 64) ∧ -2 ^ 31 ≤ v.toInt ∧ v.toInt < 2 ^ 31 ∧ j = .num (intText v.toInt))

/-- The fields to be shown: all with a value that is not the default; required fields always; if
`always`, also those without presence that have the default value or are empty. -/
def Shown (always : Bool) : GSlot → List (Nat × Val) → Prop
  | .field f (.implicit d), es => always = true ∨ ∃ e ∈ es, isDefault f.ty.kind d e.2 = false
  | .field _ (.always _), _ => True
  | .field _ .optional, es => es ≠ []
  | .field _ (.repeated _), es => always = true ∨ es ≠ []
  | .field _ (.map _), es => always = true ∨ es ≠ []
  | .oneof _, es => es ≠ []

/-- The style of the writer. -/
def genStyle (preserve always lossy : Bool) : GStyle where
  key f k := k = if preserve then f.name else f.jsonName
  enum := enumFirst
  shown := some (Shown always)
  nulls := false
  lossy := lossy

/-- What the reader is to accept: either name, any order, default values shown or not, `null` for a field that has its
initial value, enum numbers by any of their names or as numbers. -/
def genAnyStyle : GStyle where
  key f k := k = f.jsonName ∨ k = f.name
  enum := enumEither
  shown := none
  nulls := true
  lossy := false

/-- The style for numbers. -/
def GStyle.num (S : GStyle) : Style := ⟨fun _ _ => False, S.enum, true, false⟩

section
variable (T : GTypes) (G : Glaze) (utf8 : List Byte → Bool) (S : GStyle) (form : Nat → Msg → JTree → Prop)

/-- The JSON form of one value; `form` is that of messages. -/
def gValForm (ty : JType) (v : Val) (j : JTree) : Prop :=
  match ty with
  | .msg id => ∃ m, v = .msg m ∧ form id m j
  | .string | .bytes => ∃ bs, v = .bytes bs ∧ strForm utf8 ty bs j
  | _ => ∃ x, v = .num x ∧ numForm G S.num ty x j

/-- The key of a map. -/
def gKeyForm (ty : JType) (v : Val) (s : JStr) : Prop :=
  match ty with
  | .string => ∃ bs, v = .bytes bs ∧ utf8 bs = true ∧ s = ⟨bs, false⟩
  | .int signed wide => ∃ x n, v = .num x ∧ IntForm signed wide x n ∧ s = ⟨intText n, true⟩
  | .bool => (v = .num 0 ∧ s = ⟨b!"false", true⟩) ∨ (v = .num 1 ∧ s = ⟨b!"true", true⟩)
  | _ => False

/-- An entry of a map is a member of an object. -/
def gEntryForm (D : GDesc) (e : Val) (p : JStr × JTree) : Prop :=
  ∃ k kc x xc kv xv, D.slots = [.field k kc, .field x xc] ∧ e = .msg ⟨[[(0, kv)], [(0, xv)]], []⟩ ∧
    gKeyForm utf8 k.ty kv p.1 ∧ gValForm G utf8 S form x.ty xv p.2

/-- The JSON form of what a field holds. An associative container holds its entries by ascending key; unless
the order is fixed, they may be given in any order. -/
def gFieldForm (f : GName) (card : Card) (es : List (Nat × Val)) (j : JTree) : Prop :=
  match card with
  | .implicit _ => ∃ v, es = [(0, v)] ∧ gValForm G utf8 S form f.ty v j
  | .always _ => ∃ v, es = [(0, v)] ∧ gValForm G utf8 S form f.ty v j ∧
      (S.lossy = false → ∀ E, f.ty = .enum E → ∃ s, j = .str s)
  | .optional => ∃ v, es = [(0, v)] ∧ gValForm G utf8 S form f.ty v j ∧ (S.lossy = false → j ≠ .null)
  | .repeated _ => ∃ vs js, es = vs.map (fun v => (0, v)) ∧ All2 (gValForm G utf8 S form f.ty) vs js ∧ j = .arr js
  | .map unique => ∃ id vs ps, f.ty = .msg id ∧ All2 (gEntryForm G utf8 S form (T id)) vs ps ∧ j = .obj ps ∧
      if unique then Asc es ∧ (if S.shown.isSome then es = vs.map (fun v => (0, v)) else es.Perm (vs.map fun v => (0, v)))
      else es = vs.map (fun v => (0, v))

/-- A member of the JSON object of a message: alternative `t.2` of member `t.1` of the class (0 for a field), or `null`
if that has its initial value. -/
def gMemberForm (D : GDesc) (m : Msg) (t : Nat × Nat) (p : JStr × JTree) : Prop :=
  p.1.plain = true ∧
  match D.slots[t.1]? with
  | none => False
  | some (.field f card) => t.2 = 0 ∧ S.key f p.1.text ∧
      (gFieldForm T G utf8 S form f card (m.get t.1) p.2 ∨
        (S.nulls = true ∧ (∀ d, card ≠ .always d) ∧ m.get t.1 = GSlot.initial (.field f card) ∧ p.2 = .null))
  | some (.oneof alts) => ∃ f, alts[t.2]? = some f ∧ S.key f p.1.text ∧
      ((∃ v, m.get t.1 = [(t.2, v)] ∧ gValForm G utf8 S form f.ty v p.2 ∧ (S.lossy = false → p.2 ≠ .null)) ∨
        (S.nulls = true ∧ m.get t.1 = [] ∧ p.2 = .null))

/-- The JSON object of a message: every member at most once; what is left out has its initial value. -/
def gObjectForm (D : GDesc) (m : Msg) (j : JTree) : Prop :=
  ∃ ts ps, All2 (gMemberForm T G utf8 S form D m) ts ps ∧ ts.Nodup ∧
    (∀ i sl, D.slots[i]? = some sl → (∀ a, (i, a) ∉ ts) → m.get i = sl.initial) ∧
    (match S.shown with
     | some shown => (ts.map (·.1)).Pairwise (· < ·) ∧
        ∀ i sl, D.slots[i]? = some sl → (shown sl (m.get i) ↔ ∃ a, (i, a) ∈ ts)
     | none => True) ∧
    j = .obj ps

/-- The only field of a message of type `id`, taken for the message. -/
def gSoleForm (id : Nat) (m : Msg) (j : JTree) : Prop :=
  ∃ f card es, (T id).slots = [.field f card] ∧ m = ⟨[es], []⟩ ∧ gFieldForm T G utf8 S form f card es j

end

/-- The JSON form of a message of type `id`, nested at most `d` deep. The message has no unknown fields
(JSON does not show them); a `google.protobuf.Value` must be set. -/
def GFormAt (T : GTypes) (G : Glaze) (utf8 : List Byte → Bool) (S : GStyle) : (d : Nat) → (id : Nat) → Msg → JTree → Prop
  | 0, _, _, _ => False
  | d + 1, id, m, j =>
    let form := GFormAt T G utf8 S d
    m.unk = [] ∧ m.slots.length = (T id).slots.length ∧
    match (T id).wk with
    | .none => gObjectForm T G utf8 S form (T id) m j
    | .any => False
    | .timestamp => ∃ x y t, m.slots = [[(0, .num x)], [(0, .num y)]] ∧
        timestampEncode x.toInt y.toInt = some t ∧ j = .str ⟨t, true⟩
    | .duration => ∃ x y t, m.slots = [[(0, .num x)], [(0, .num y)]] ∧
        durationEncode x.toInt y.toInt = some t ∧ j = .str ⟨t, true⟩
    | .fieldMask => ∃ ps, m.slots = [ps.map fun p => (0, .bytes p)] ∧ (∀ p ∈ ps, (0x2c : Byte) ∉ p) ∧
        ps ≠ [[]] ∧ j = .str ⟨List.intercalate [0x2c] ps, false⟩
    | .value => ∃ alts a v f, (T id).slots = [.oneof alts] ∧ m.slots = [[(a, v)]] ∧ alts[a]? = some f ∧
        match f.ty with
        | .enum _ => v = .num 0 ∧ j = .null
        | .msg sid => ∃ s, v = .msg s ∧ gSoleForm T G utf8 S form sid s j
        | ty => gValForm G utf8 S form ty v j
    | .struct | .listValue => gSoleForm T G utf8 S form id m j
    | .wrapper => ∃ f card v, (T id).slots = [.field f card] ∧ m.slots = [[(0, v)]] ∧ gValForm G utf8 S form f.ty v j

/-- All fields of a class, members of oneofs included. -/
def GDesc.names (D : GDesc) : List GName :=
  D.slots.flatMap fun
    | .field f _ => [f]
    | .oneof alts => alts

/-- The classes in which the JSON form is used. The names need no escapes and no two fields share one; map
entries and well-known types have the layout of their definition. -/
structure GDesc.Ok (T : GTypes) (D : GDesc) : Prop where
  plain : ∀ f ∈ D.names, Plain f.name ∧ Plain f.jsonName
  keys : D.names.Pairwise fun f g =>
    f.jsonName ≠ g.jsonName ∧ f.jsonName ≠ g.name ∧ f.name ≠ g.jsonName ∧ f.name ≠ g.name
  enums : ∀ f ∈ D.names, ∀ E, f.ty = .enum E → (E.values.map (·.1)).Nodup ∧ ∀ p ∈ E.values, p.1 ≠ [] ∧ Plain p.1
  maps : ∀ f u, .field f (.map u) ∈ D.slots → ∃ id k kc x xc, f.ty = .msg id ∧
    (T id).slots = [.field k kc, .field x xc] ∧ k.ty.isKey = true
  implicits : ∀ f d, .field f (.implicit d) ∈ D.slots → ∀ id, f.ty ≠ .msg id
  required : ∀ f d, .field f (.always d) ∈ D.slots → ∀ id, f.ty = .msg id → d = .msg (T id).default
  timestamps : D.wk = .timestamp ∨ D.wk = .duration → ∃ a b ca cb, D.slots = [.field a ca, .field b cb] ∧
    a.ty = .int true true ∧ b.ty = .int true false
  masks : D.wk = .fieldMask → ∃ f p, D.slots = [.field f (.repeated p)] ∧ f.ty = .string
  values : D.wk = .value → ∃ nul num str bool struct list E sid lid sf sc lf lc,
    D.slots = [.oneof [nul, num, str, bool, struct, list]] ∧
    nul.ty = .enum E ∧ E.isNull = true ∧ num.ty = .float true ∧ str.ty = .string ∧ bool.ty = .bool ∧
    struct.ty = .msg sid ∧ (T sid).slots = [.field sf (.map sc)] ∧
    list.ty = .msg lid ∧ (T lid).slots = [.field lf (.repeated lc)]
  structs : D.wk = .struct → ∃ f u id k kc x xc vid, D.slots = [.field f (.map u)] ∧ f.ty = .msg id ∧
    (T id).slots = [.field k kc, .field x xc] ∧ x.ty = .msg vid ∧ (T vid).wk = .value
  lists : D.wk = .listValue → ∃ f p, D.slots = [.field f (.repeated p)]
  wrappers : D.wk = .wrapper → ∃ f d, D.slots = [.field f (.implicit d)]

/-- No oneof has a 64-bit integer. -/
def GDesc.NarrowOneofs (D : GDesc) : Prop :=
  ∀ alts, .oneof alts ∈ D.slots → ∀ f ∈ alts, ∀ s, f.ty ≠ .int s true

end HppProto.Json
