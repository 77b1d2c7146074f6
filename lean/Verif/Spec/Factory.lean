import Verif.Spec.PoolView
import Verif.Model.Dynamic

/-!
# Which sets of files make sense to dynamic messages, and what they say

Only the data types of the models are used, none of their functions.
-/

namespace HppProto.Spec

/-! ## Default values -/

/-- The number written by decimal digits. -/
def digitsValue (ds : List Byte) : Nat := ds.foldl (fun n c => 10 * n + (c.toNat - 48)) 0

/-- The text is a decimal number: digits, after a minus sign if `signed` allows it. -/
def Numeral (signed : Bool) (text : List Byte) (n : Int) : Prop :=
  ∃ ds : List Byte, ds ≠ [] ∧ (∀ c ∈ ds, 48 ≤ c.toNat ∧ c.toNat ≤ 57) ∧
    ((text = ds ∧ n = digitsValue ds) ∨ (signed = true ∧ text = 45#8 :: ds ∧ n = -(digitsValue ds : Int)))

/-- The integer types of `descriptor.proto`: signed or not, and their number of bits. -/
def intType (type : Int) : Option (Bool × Nat) :=
  if type = 3 ∨ type = 16 ∨ type = 18 then some (true, 64)
  else if type = 4 ∨ type = 6 then some (false, 64)
  else if type = 5 ∨ type = 15 ∨ type = 17 then some (true, 32)
  else if type = 7 ∨ type = 13 then some (false, 32)
  else none

/-- Is the number one of the type? -/
def fitsBits (signed : Bool) (bits : Nat) (n : Int) : Prop :=
  if signed then -(2 ^ (bits - 1) : Int) ≤ n ∧ n < 2 ^ (bits - 1) else 0 ≤ n ∧ n < 2 ^ bits

/-- The number that the default text of a field of a numeric type stands for: a decimal number in the range of the
type, or what `float` makes of it; nothing said is 0. -/
def NumberOf (float : Bool → List Byte → Option (BitVec 64)) (type : Int) (text : List Byte) (v : BitVec 64) : Prop :=
  (text = [] ∧ v = 0) ∨
  (text ≠ [] ∧ type = 1 ∧ float true text = some v) ∨
  (text ≠ [] ∧ type = 2 ∧ float false text = some v) ∨
  (∃ s b n, intType type = some (s, b) ∧ Numeral s text n ∧ fitsBits s b n ∧ v = BitVec.ofInt 64 n)

/-- `e` is the enum that the field is of. -/
def EnumOf (fs : List FileProto) (f : FieldProto) (e : EnumDecl) : Prop :=
  e ∈ enumDecls fs ∧ f.typeName = b!"." ++ e.name

/-- The first value of that name in an enum. -/
def ValueNamed (e : EnumProto) (name : List Byte) (n : Int) : Prop :=
  ∃ before after, e.values = before ++ (name, n) :: after ∧ ∀ v ∈ before, v.1 ≠ name

/-- The members of every oneof are next to each other, and there are at most 65534 of them. -/
structure OneofsOk (m : MsgProto) : Prop where
  adjacent : ∀ (i j k : Nat) (f g h : FieldProto) (o : Int), i ≤ j → j ≤ k → m.fields[i]? = some f →
    m.fields[j]? = some g → m.fields[k]? = some h → f.oneofIndex = some o → h.oneofIndex = some o → g.oneofIndex = some o
  size : ∀ o : Int, (m.fields.filter fun f => f.oneofIndex == some o).length ≤ 65534

/-- A field or extension whose default value can be used. A default text of a number must be a number of the type;
an enum has a value, and its default text is the name of one. -/
structure DefaultOk (float : Bool → List Byte → Option (BitVec 64)) (fs : List FileProto) (f : FieldProto) : Prop where
  number : f.type = 1 ∨ f.type = 2 ∨ (intType f.type).isSome → ∃ v, NumberOf float f.type f.defaultValue v
  enum : f.type = 14 → ∃ e, EnumOf fs f e ∧ e.enum.values ≠ [] ∧
    (f.defaultValue ≠ [] → ∃ n, ValueNamed e.enum f.defaultValue n)

/-- What a set of files needs besides being well formed to be accepted by a factory. -/
structure FactoryOk (float : Bool → List Byte → Option (BitVec 64)) (fs : List FileProto) : Prop where
  oneofs : ∀ d ∈ decls fs, OneofsOk d.msg
  defaults : ∀ f ∈ fieldDecls fs, DefaultOk float fs f

/-- What a field that is not set reads as: the text for strings; the number for numbers; for enums the value named, or
else the first one. A bool is true if the text says so. -/
def DefaultRule (float : Bool → List Byte → Option (BitVec 64)) (fs : List FileProto) (f : FieldProto) : Val → Prop
  | .bytes t => (f.type = 9 ∨ f.type = 12) ∧ t = f.defaultValue
  | .num v =>
    (f.type = 8 ∧ v = if f.defaultValue = b!"true" then 1 else 0) ∨
    ((f.type = 1 ∨ f.type = 2 ∨ (intType f.type).isSome) ∧ NumberOf float f.type f.defaultValue v) ∨
    (f.type = 14 ∧ ∃ e n, EnumOf fs f e ∧ v = BitVec.ofInt 64 n ∧
      (if f.defaultValue = [] then e.enum.values.head?.map (·.2) = some n else ValueNamed e.enum f.defaultValue n))
  | _ => False

/-- The text of a default value of type `bytes` in a descriptor, and the bytes it stands for: bytes that are not
printable, quotes and backslashes are written as escapes of C. -/
inductive Escaped : List Byte → List Byte → Prop
  | nil : Escaped [] []
  | plain {c : Byte} {t bs : List Byte} : 32 ≤ c.toNat → c.toNat < 127 → c ≠ 34#8 → c ≠ 39#8 → c ≠ 92#8 → Escaped t bs →
      Escaped (c :: t) (c :: bs)
  | newline {t bs : List Byte} : Escaped t bs → Escaped (92#8 :: 110#8 :: t) (10#8 :: bs)
  | return {t bs : List Byte} : Escaped t bs → Escaped (92#8 :: 114#8 :: t) (13#8 :: bs)
  | tab {t bs : List Byte} : Escaped t bs → Escaped (92#8 :: 116#8 :: t) (9#8 :: bs)
  | quote {c : Byte} {t bs : List Byte} : c = 34#8 ∨ c = 39#8 ∨ c = 92#8 → Escaped t bs → Escaped (92#8 :: c :: t) (c :: bs)
  | octal {a b c : Nat} {t bs : List Byte} : a < 4 → b < 8 → c < 8 → Escaped t bs →
      Escaped (92#8 :: BitVec.ofNat 8 (48 + a) :: BitVec.ofNat 8 (48 + b) :: BitVec.ofNat 8 (48 + c) :: t)
        (BitVec.ofNat 8 (64 * a + 8 * b + c) :: bs)

/-! ## Sets that a compiler produces -/

/-- A message with `map_entry` is a pair: a singular key 1 of a type that keys can have, and a singular value 2 that is
not a map entry itself. -/
structure EntryOk (fs : List FileProto) (m : MsgProto) : Prop where
  pair : ∃ k v, m.fields = [k, v] ∧ k.number = 1 ∧ v.number = 2 ∧ k.label = 1 ∧ v.label = 1 ∧
    k.oneofIndex = none ∧ v.oneofIndex = none ∧ (k.type = 8 ∨ k.type = 9 ∨ (intType k.type).isSome) ∧
    ∀ d ∈ decls fs, (v.type = 10 ∨ v.type = 11) → v.typeName = b!"." ++ d.name → d.msg.mapEntry = false

/-- Fields as compilers produce them, beyond what is asked of every set. Features are known; repeated fields are not
required; default values are for fields with presence; an enum without presence is open; map entries are pairs, and the
type of repeated fields only. -/
structure Proper (fs : List FileProto) : Prop where
  presence : ∀ d ∈ decls fs, ∀ f ∈ d.msg.fields, 0 ≤ (under d.features f.features).presence ∧
    (under d.features f.features).presence ≤ 3 ∧ (f.label = 3 → (under d.features f.features).presence ≠ 3)
  defaults : ∀ d ∈ decls fs, ∀ f ∈ d.msg.fields, f.defaultValue ≠ [] → hasPresence False f (under d.features f.features)
  openEnums : ∀ d ∈ decls fs, ∀ f ∈ d.msg.fields, f.type = 14 → f.label ≠ 3 →
    ¬ hasPresence False f (under d.features f.features) → ∀ e, EnumOf fs f e → e.features.enumType ≠ 2
  numbers : ∀ e ∈ enumDecls fs, ∀ v ∈ e.enum.values, -2147483648 ≤ v.2 ∧ v.2 ≤ 2147483647
  entries : ∀ d ∈ decls fs, d.msg.mapEntry = true → EntryOk fs d.msg
  maps : ∀ d ∈ decls fs, ∀ f ∈ d.msg.fields, ∀ e ∈ decls fs, (f.type = 10 ∨ f.type = 11) →
    f.typeName = b!"." ++ e.name → e.msg.mapEntry = true → f.label = 3 ∧ f.type = 11

/-- The values of maps are not closed enums. -/
def OpenMaps (fs : List FileProto) : Prop :=
  ∀ d ∈ decls fs, d.msg.mapEntry = true → ∀ f ∈ d.msg.fields, f.type = 14 → ∀ e, EnumOf fs f e → e.features.enumType ≠ 2

/-- Maps are not delimited. -/
def PlainMaps (fs : List FileProto) : Prop :=
  ∀ d ∈ decls fs, ∀ f ∈ d.msg.fields, ∀ e ∈ decls fs, f.type = 11 → f.typeName = b!"." ++ e.name →
    e.msg.mapEntry = true → (under d.features f.features).messageEncoding ≠ 2

end HppProto.Spec
