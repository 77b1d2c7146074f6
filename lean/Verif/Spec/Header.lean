import Verif.Model.Order

/-!
# Generated headers

Specification: schemas as a protobuf compiler delivers them, which messages need which, and what makes a header one that a
C++ compiler accepts.
-/

namespace HppProto.Gen
open HppProto Schema

/-- A part of a name. -/
def Part (n : Name) : Prop := n ≠ [] ∧ (0x2e : Byte) ∉ n

namespace Schema
variable (P : Schema)

/-- Message `x` is `m` or encloses it. -/
def Within (x m : Nat) : Prop := (P.msg x).path <+: (P.msg m).path

/-- Two messages of the same scope. -/
def Siblings (x y : Nat) : Prop :=
  x < P.messages.length ∧ y < P.messages.length ∧ x ≠ y ∧ (P.msg x).parent = (P.msg y).parent ∧
    (P.msg x).file = (P.msg y).file

/-- A schema as a compiler delivers it: full names are made of the package and the names of the enclosing messages, and
different; a message comes after the one it is nested in; map entries have a key and a value and no nested messages; types
exist. -/
structure Ok : Prop where
  parts : ∀ m < P.messages.length, ∀ n ∈ (P.msg m).path, Part n
  distinct : ∀ m < P.messages.length, ∀ k < P.messages.length, (P.msg m).path = (P.msg k).path → m = k
  top : ∀ m < P.messages.length, (P.msg m).parent = none → ∃ n, (P.msg m).path = P.package (P.msg m).file ++ [n]
  inner : ∀ m < P.messages.length, ∀ p, (P.msg m).parent = some p →
    p < m ∧ (P.msg p).file = (P.msg m).file ∧ (P.msg p).entry = false ∧ ∃ n, (P.msg m).path = (P.msg p).path ++ [n]
  enclosed : ∀ m < P.messages.length, ∀ k < P.messages.length, P.Within k m → k = m ∨
    ∃ p, (P.msg m).parent = some p ∧ P.Within k p
  value : ∀ m < P.messages.length, (P.msg m).entry = true →
    ∃ v, (P.fieldsOf m)[1]? = some v ∧ ∀ t, (P.field v).kind = .message t → (P.msg t).entry = false
  owner : ∀ i < P.fields.length, ∀ m, (P.field i).parent = some m → m < P.messages.length
  message : ∀ i < P.fields.length, ∀ t, (P.field i).kind = .message t → t < P.messages.length
  enum : ∀ i < P.fields.length, ∀ o path, (P.field i).kind = .enum o path → path ≠ [] ∧ (∀ n ∈ path, Part n) ∧
    match o with
    | none => ∀ m < P.messages.length, ¬ (P.msg m).path <+: path
    | some o => o < P.messages.length ∧ (P.msg o).entry = false ∧ (P.msg o).hasEnums = true ∧
        ∃ n, path = (P.msg o).path ++ [n]

/-- Message `m` mentions a type: in a field or an extension, or as the values of a map. -/
inductive Mentions : Nat → Kind → Prop where
  | field {i m : Nat} {k : Kind} : i < P.fields.length → (P.field i).parent = some m → (P.field i).kind = k →
      (∀ t, k = .message t → (P.msg t).entry = false ∧ (P.msg m).entry = false) → Mentions m k
  | values {i m t v : Nat} {k : Kind} : i < P.fields.length → (P.field i).parent = some m → (P.msg m).entry = false →
      (P.field i).kind = .message t → (P.msg t).entry = true → (P.fieldsOf t)[1]? = some v → (P.field v).kind = k →
      Mentions m k

/-- The type is message `y`, or a message or enum nested in it. -/
def TypeIn (y : Nat) : Kind → Prop
  | .scalar => False
  | .enum none _ => False
  | .enum (some o) _ => P.Within y o
  | .message t => P.Within y t

/-- Message `x` needs its sibling `y`: somewhere in `x` there is mention of a type of `y`. -/
def Needs (x y : Nat) : Prop := P.Siblings x y ∧ ∃ m k, P.Within x m ∧ P.Mentions m k ∧ P.TypeIn y k

/-- The needs of a message, the needs of what it needs and so on come to an end: none of them is part of a cycle. -/
def Settled (x : Nat) : Prop := Acc (fun y x => P.Needs x y) x

/-- Fields of message `m` have the type `d`, and all of them are repeated. -/
def OnlyRepeated (m d : Nat) : Prop :=
  (∃ i < P.fields.length, (P.field i).parent = some m ∧ (P.field i).kind = .message d) ∧
    ∀ i < P.fields.length, (P.field i).parent = some m → (P.field i).kind = .message d → (P.field i).repeated = true

/-- Message `m` has a map with values of type `d`. -/
def HasMapOf (m d : Nat) : Prop :=
  ∃ e < P.messages.length, (P.msg e).entry = true ∧ (P.msg e).parent = some m ∧
    ∃ i < P.fields.length, (P.field i).parent = some e ∧ (P.field i).kind = .message d

/-- The extensions declared outside of messages have no message type that is part of a cycle, or needs such a message. -/
def ExtensionsSettled : Prop :=
  ∀ i < P.fields.length, (P.field i).parent = none → ∀ t, (P.field i).kind = .message t → P.Settled t

/-- A message with repeated fields or a map of messages that are part of a cycle (or need such a message) needs no other such
message. -/
def Lone : Prop :=
  ∀ m d, ¬ P.Settled d → P.OnlyRepeated m d ∨ P.HasMapOf m d → ∀ e, P.Needs m e → e ≠ d → P.Settled e

/-- Messages that are part of a cycle with a sibling (or need such a sibling) mention only the sibling itself, no type nested
in it. -/
def Direct : Prop :=
  ∀ x y m k, P.Siblings x y → ¬ P.Settled y → P.Within x m → P.Mentions m k → P.TypeIn y k → k = .message y

/-- No message mentions a message it is nested in. -/
def NotEnclosing : Prop := ∀ m t, P.Mentions m (.message t) → P.Within t m → t = m

/-- Singular fields through which messages are part of a cycle are in no oneof, and in the messages of the cycle themselves,
with these as types. -/
def Plain : Prop :=
  ∀ i < P.fields.length, ∀ m t, (P.field i).parent = some m → (P.field i).kind = .message t → (P.field i).repeated = false →
    (P.Within t m → (P.field i).oneof = .no) ∧
    ∀ x y, P.Siblings x y → P.Within x m → P.Within y t → ¬ P.Settled y → m = x ∧ t = y ∧ (P.field i).oneof = .no

/-- A member of `m` may have this type if `before` precedes the definition of `m`: it is declared there, comes from another
file, or is `m` itself. An enum of a message is declared with the enums of that message; the enums of a file come first. -/
def Known (before : List Event) (m : Nat) : Kind → Prop
  | .scalar => True
  | .enum none _ => True
  | .enum (some o) _ => (P.msg o).file ≠ (P.msg m).file ∨ .enums o ∈ before
  | .message t =>
    (P.msg t).file ≠ (P.msg m).file ∨ t = m ∨ .fwd t ∈ before ∨ ∃ us, .define t us ∈ before

/-- Every type is declared before it is used. -/
def DeclaredFirst (es : List Event) : Prop :=
  ∀ a m us b, es = a ++ .define m us :: b → ∀ u ∈ us, P.Known a m u.kind

end Schema

/-- An object of `m` contains one of `t` (and not a pointer or a container). -/
def Contains (es : List Event) (m t : Nat) : Prop := ∃ us, Event.define m us ∈ es ∧ ∃ u ∈ us, u.kind = .message t ∧ u.value = true

/-- Contains, over any number of steps. -/
inductive ContainsDeep (es : List Event) : Nat → Nat → Prop where
  | one {m t : Nat} : Contains es m t → ContainsDeep es m t
  | more {m k t : Nat} : Contains es m k → ContainsDeep es k t → ContainsDeep es m t

/-- No object contains one of its own type, which would be of infinite size. -/
def Finite (es : List Event) : Prop := ∀ m, ¬ ContainsDeep es m m

/-- How often a message is defined. -/
def defined (es : List Event) (m : Nat) : Nat :=
  es.countP fun
    | .define k _ => k = m
    | _ => false

end HppProto.Gen
