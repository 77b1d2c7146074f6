import Verif.Model.FieldAccess
import Verif.Proofs.Dynamic

/-!
# Typed access by name or number: what it must do

Specification, from the side of the caller: which fields take an argument of a given C++ type, and what
the field then reads as.  Only the data types of the model are used.
-/

namespace HppProto.Access.Spec

/-- The kinds of fields whose C++ type is the arithmetic type `t`. -/
def kindsOf : NumTy → List FKind
  | .f64 => [.double]
  | .f32 => [.float]
  | .i64 => [.int64, .sint64, .sfixed64]
  | .u64 => [.uint64, .fixed64]
  | .i32 => [.int32, .sint32, .sfixed32]
  | .u32 => [.uint32, .fixed32]
  | .bool => [.bool]

/-- The kinds of fields that an argument is meant for. -/
def argKinds : Arg → List FKind
  | .num t _ | .nums t _ => kindsOf t
  | .chars _ | .strs _ => [.string]
  | .bytes _ | .byteStrs _ => [.bytes]
  | .enumNumber _ | .enumName _ | .enumNumbers _ | .enumNames _ | .enumSpan _ => [.enum]
  | .msg _ _ | .msgs _ => [.message]

/-- Is the argument a list, meant for a repeated field? -/
def argIsList : Arg → Bool
  | .num _ _ | .chars _ | .bytes _ | .enumNumber _ | .enumName _ | .msg _ _ => false
  | .nums _ _ | .strs _ | .byteStrs _ | .enumNumbers _ | .enumNames _ | .enumSpan _ | .msgs _ => true

/-- The field takes the argument. -/
def Takes (f : NField) (a : Arg) : Prop := f.fkind ∈ argKinds a ∧ f.field.repeated = argIsList a

instance (f : NField) (a : Arg) : Decidable (Takes f a) := by unfold Takes; infer_instance

/-- An enum name for a string field, or `enum_numbers_span` as an argument. -/
def Odd (f : NField) (a : Arg) : Prop :=
  (f.fkind = .string ∧ f.field.repeated = false ∧ ∃ s, a = .enumName s) ∨ ∃ vs, a = .enumSpan vs

/-- The argument holds no messages. -/
def isPlain : Arg → Bool
  | .msg _ _ | .msgs _ => false
  | _ => true

/-- What the field reads as once set to the argument: `none` if an enum name is not one of the enum. -/
def meaning (values : List (List Byte × BitVec 64)) : Arg → Option Reading
  | .num _ v | .enumNumber v => some (.num v)
  | .chars bs | .bytes bs => some (.str bs)
  | .enumName s => (values.lookup s).map .num
  | .nums _ vs | .enumNumbers vs | .enumSpan vs => some (.nums (vs.map some))
  | .strs vs | .byteStrs vs => some (.strs vs)
  | .enumNames ss => (ss.mapM (fun s => values.lookup s)).map fun vs => .nums (vs.map some)
  | .msg _ _ | .msgs _ => none

/-- Is the field present once set to this? Empty lists are absent. -/
def presentAs : Reading → Bool
  | .nums [] | .strs [] | .msgs [] => false
  | _ => true

/-- The call names the field. -/
def Names : Ref → NField → Prop
  | .byName s, f => f.name = s
  | .byNumber n, f => f.field.number = n

/-- The field a call refers to: the first one of that name or number. -/
def Finds (D : NDesc) (r : Ref) (f : NField) : Prop :=
  ∃ pre post, D.fields = pre ++ f :: post ∧ Names r f ∧ ∀ g ∈ pre, ¬ Names r g

/-- The kinds and the storage of the fields agree, as the factory makes them. -/
def kindFits : FKind → Kind → Bool
  | .double, .scalar (.fixed64 true) => true
  | .float, .scalar (.fixed32 true) => true
  | .int64, .scalar (.varint .i64) => true
  | .sint64, .scalar (.varint .s64) => true
  | .uint64, .scalar (.varint .u64) => true
  | .int32, .scalar (.varint .i32) => true
  | .sint32, .scalar (.varint .s32) => true
  | .uint32, .scalar (.varint .u32) => true
  | .fixed64, .scalar (.fixed64 false) => true
  | .sfixed64, .scalar (.fixed64 false) => true
  | .fixed32, .scalar (.fixed32 false) => true
  | .sfixed32, .scalar (.fixed32 false) => true
  | .bool, .scalar .bool => true
  | .enum, .scalar (.enum _) => true
  | .string, .scalar (.str _) => true
  | .bytes, .scalar (.str _) => true
  | .message, .msg _ => true
  | .message, .group _ => true
  | _, _ => false

/-- A descriptor as the factory makes it. -/
structure DescOk (D : NDesc) : Prop where
  ok : D.desc.Ok
  kinds : ∀ f ∈ D.fields, kindFits f.fkind f.field.kind = true

/-- The outcome of calls made one after the other until one fails. -/
inductive Follows (run : Call → DynMsg → Out) : List Call → DynMsg → Out → Prop
  | nil {m} : Follows run [] m (.ok m)
  | ok {c cs m m' o} : run c m = .ok m' → Follows run cs m' o → Follows run (c :: cs) m o
  | fail {c cs m e m'} : run c m = .fail e m' → Follows run (c :: cs) m (.fail e m')
  | undefined {c cs m} : run c m = .undefined → Follows run (c :: cs) m .undefined

/-- The kinds of fields a type asked for belongs to. -/
def wantKinds : Want → List FKind
  | .num t | .nums t => kindsOf t
  | .chars | .strs => [.string]
  | .bytes | .byteStrs => [.bytes]
  | .enumNumber | .enumName | .enumNumbers | .enumNames => [.enum]
  | .msg | .msgs => [.message]

/-- Is a list asked for? -/
def wantIsList : Want → Bool
  | .num _ | .chars | .bytes | .enumNumber | .enumName | .msg => false
  | _ => true

/-- The field can be read as the type asked for. -/
def Gives (f : NField) (w : Want) : Prop := f.fkind ∈ wantKinds w ∧ f.field.repeated = wantIsList w

/-- The first name of a number, empty if there is none. -/
def nameFor (values : List (List Byte × BitVec 64)) (v : BitVec 64) : List Byte :=
  ((values.map fun p => (p.2, p.1)).lookup v).getD []

/-- The answer to `get`, from what the field reads as. -/
def answer (values : List (List Byte × BitVec 64)) : Want → Reading → Got
  | .enumName, .num v => if nameFor values v = [] then .fail .unknownEnumValue else .name (nameFor values v)
  | .enumNames, .nums vs => if none ∈ vs then .undefined else .names (vs.filterMap (·.map (nameFor values)))
  | .enumName, _ | .enumNames, _ => .undefined
  | .msg, .absent => .fail .noSuchValue
  | _, r => .value r

/-- The type to ask for to get back what was set. -/
def wantOf : Arg → Want
  | .num t _ => .num t
  | .chars _ => .chars
  | .bytes _ => .bytes
  | .enumNumber _ | .enumName _ => .enumNumber
  | .msg _ _ => .msg
  | .nums t _ => .nums t
  | .strs _ => .strs
  | .byteStrs _ => .byteStrs
  | .enumNumbers _ | .enumNames _ | .enumSpan _ => .enumNumbers
  | .msgs _ => .msgs

end HppProto.Access.Spec
