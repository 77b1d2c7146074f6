import Verif.Model.Dynamic

/-!
# Typed access to the fields of dynamic messages by name or number

Model of `set_field_by_name`, `set_field_by_number`, `modify_field_by_*` (`message_fields.hpp` 362-438),
`field_value_by_*` (309-319), `field_mref::set`, `adopt` and `modify` (`field_refs.hpp` 169-212),
`field_cref::get` (105-116) and the chains of `expected_message_mref`
(`expected_message_mref.hpp` 74-131), with the typed references they dispatch to.

Simplifications: numbers are the 64-bit patterns of `Verif/Model/Dynamic.lean`, also those of enums;
what a message holds of `nums`, `strs` and so on beyond the size is not modelled; arrays of characters
are the views `set_field_by_name` makes of them (372-381).
-/

namespace HppProto.Access

/-- `field_kind_t` (`types.hpp` 65-100); that the field is repeated is kept beside it. -/
inductive FKind where
  | double | float | int64 | uint64 | int32 | fixed64 | fixed32 | bool | string | message | bytes
  | uint32 | enum | sfixed32 | sfixed64 | sint32 | sint64
  deriving DecidableEq, Repr

/-- The arithmetic C++ types of arguments and results. -/
inductive NumTy where
  | f64 | f32 | i64 | u64 | i32 | u32 | bool
  deriving DecidableEq, Repr

/-- `value_type` of the scalar references (`scalar_fields.hpp` 201-233). -/
def FKind.numTy : FKind → Option NumTy
  | .double => some .f64
  | .float => some .f32
  | .int64 | .sint64 | .sfixed64 => some .i64
  | .uint64 | .fixed64 => some .u64
  | .int32 | .sint32 | .sfixed32 => some .i32
  | .uint32 | .fixed32 => some .u32
  | .bool => some .bool
  | .enum | .string | .bytes | .message => none

/-- A field descriptor: its name, its kind, what `Verif/Model/Dynamic.lean` keeps of it, and the values
of its enum in order (`enum_field_type_descriptor`). -/
structure NField where
  name : List Byte
  fkind : FKind
  field : DynField
  values : List (List Byte × BitVec 64) := []
  deriving Repr

/-- A message descriptor. -/
structure NDesc where
  fields : List NField
  slots : Nat
  deriving Repr

/-- What `Verif/Model/Dynamic.lean` keeps of it. -/
def NDesc.desc (D : NDesc) : DynDesc := { fields := D.fields.map NField.field, slots := D.slots }

/-- `dynamic_message_errc` (`types.hpp` 242-253), the codes used here. -/
inductive Errc where
  | noSuchField | noSuchValue | invalidFieldType | invalidEnumName | unknownEnumValue | wrongMessageType
  deriving DecidableEq, Repr

/-- An argument of `set`, by its C++ type: an arithmetic type, something convertible to
`std::string_view`, a contiguous range of `std::byte`, `enum_number`, `enum_name`, a message with its
type, sized ranges of these, `enum_numbers_range`, `enum_names_range`, and `enum_numbers_span`
(`repeated_enum_fields.hpp` 49-51). -/
inductive Arg where
  | num (t : NumTy) (v : BitVec 64)
  | chars (bs : List Byte)
  | bytes (bs : List Byte)
  | enumNumber (v : BitVec 64)
  | enumName (s : List Byte)
  | msg (id : Nat) (m : DynMsg)
  | nums (t : NumTy) (vs : List (BitVec 64))
  | strs (vs : List (List Byte))
  | byteStrs (vs : List (List Byte))
  | enumNumbers (vs : List (BitVec 64))
  | enumNames (vs : List (List Byte))
  | enumSpan (vs : List (BitVec 64))
  | msgs (vs : List (Nat × DynMsg))
  deriving Repr

/-- `settable_from_v` of the singular references: `scalar_fields.hpp` 140, `enum_fields.hpp` 241,
`string_fields.hpp` 121, `bytes_fields.hpp` 122, `message_fields.hpp` 605. -/
def settableOne : FKind → Arg → Bool
  | .enum, .enumNumber _ => true
  | .enum, .enumName _ => true
  | .string, .chars _ => true
  | .string, .enumName _ => true
  | .bytes, .bytes _ => true
  | .message, .msg _ _ => true
  | k, .num t _ => k.numTy == some t
  | _, _ => false

/-- `settable_from_v` of the repeated references: `repeated_scalar_fields.hpp` 153-154,
`repeated_enum_fields.hpp` 211-213, `repeated_string_fields.hpp` 66-67, `repeated_bytes_fields.hpp` 66-67,
`repeated_message_fields.hpp` 126-127. -/
def settableMany : FKind → Arg → Bool
  | .enum, .enumNumbers _ => true
  | .enum, .enumNames _ => true
  | .string, .strs _ => true
  | .bytes, .byteStrs _ => true
  | .message, .msgs _ => true
  | k, .nums t _ => k.numTy == some t
  | _, _ => false

/-- `settable_from_v` of the reference to the field. -/
def settable (f : NField) (a : Arg) : Bool :=
  if f.field.repeated then settableMany f.fkind a else settableOne f.fkind a

/-- What a call leaves behind: the message, an error code with the message, or undefined behaviour
(also messages nested deeper than the fuel of the model). -/
inductive Out where
  | ok (m : DynMsg)
  | fail (e : Errc) (m : DynMsg)
  | undefined
  deriving Repr

/-- `enum_descriptor_t::value_of` (`factory_addons.hpp` 235-243); of equal names the first is kept. -/
def valueOf (values : List (List Byte × BitVec 64)) (s : List Byte) : Option (BitVec 64) :=
  (values.find? (fun p => p.1 == s)).map (·.2)

/-- `enum_descriptor_t::name_of` (`factory_addons.hpp` 245-253); empty if there is none. -/
def nameOf (values : List (List Byte × BitVec 64)) (v : BitVec 64) : List Byte :=
  match values.find? (fun p => p.2 == v) with
  | some p => p.1
  | none => []

/-- The loop of `set` of repeated enums from names (`repeated_enum_fields.hpp` 330-347): the numbers
written up to the first unknown name, and whether there was none. -/
def namesLoop (values : List (List Byte × BitVec 64)) : List (List Byte) → List (BitVec 64) × Bool
  | [] => ([], true)
  | s :: ss =>
    match valueOf values s with
    | some v => let r := namesLoop values ss; (v :: r.1, r.2)
    | none => ([], false)

/-- The loop of `set` of repeated messages (`repeated_message_fields.hpp` 234-240), from the resized
elements; it stops at the first message of another type. -/
def msgsLoop (T : DynTypes) (depth id : Nat) :
    List DynMsg → List (Nat × DynMsg) → Option (List DynMsg × Bool)
  | old :: olds, (t, v) :: vs =>
    if t = id then
      match cloneMsg T depth id old v with
      | none => none
      | some r => (msgsLoop T depth id olds vs).map fun p => (r :: p.1, p.2)
    else some (old :: olds, false)
  | olds, _ => some (olds, true)

/-- `set` of repeated messages (`repeated_message_fields.hpp` 231-242). -/
def setMsgs (T : DynTypes) (depth : Nat) (f : DynField) (vs : List (Nat × DynMsg)) (m : DynMsg) : Out :=
  match f.kind.msgType with
  | none => .undefined
  | some id =>
    match msgsLoop T depth id (resizeWith (T id).empty vs.length (msgElems (f.storage m))) vs with
    | none => .undefined
    | some (rs, ok) =>
      let m' := f.store m (vs.length, .msgs rs)
      if ok then .ok m' else .fail .wrongMessageType m'

/-- `field_mref::set` (`field_refs.hpp` 169-186) with the `set` of the typed references:
`scalar_fields.hpp` 152-156, `enum_fields.hpp` 295-309, `string_fields.hpp` 142-149,
`bytes_fields.hpp` 143-150, `message_fields.hpp` 675-686, and those of the repeated ones. -/
def setField (T : DynTypes) (depth : Nat) (f : NField) (a : Arg) (m : DynMsg) : Out :=
  if settable f a then
    match a with
    | .num _ v => .ok (f.field.setNum v m)
    | .chars bs => .ok (f.field.setStr bs m)
    | .bytes bs => .ok (f.field.setStr bs m)
    | .enumNumber v => .ok (f.field.setNum v m)
    | .enumName s =>
      if f.fkind = .string then .ok (f.field.setStr s m)
      else match valueOf f.values s with
        | some v => .ok (f.field.setNum v m)
        | none => .fail .invalidEnumName m
    | .msg id v =>
      if f.field.kind.msgType = some id then
        match f.field.setMsg T depth v m with
        | some m' => .ok m'
        | none => .undefined
      else .fail .wrongMessageType m
    | .nums _ vs => .ok (f.field.setNums vs m)
    | .strs vs => .ok (f.field.setStrs vs m)
    | .byteStrs vs => .ok (f.field.setStrs vs m)
    | .enumNumbers vs => .ok (f.field.setNums vs m)
    | .enumNames ss =>
      let r := namesLoop f.values ss
      if r.2 then .ok (f.field.setNums r.1 m) else .fail .invalidEnumName (f.field.setNums r.1 m)
    | .enumSpan vs => .ok (f.field.setNums vs m)
    | .msgs vs => setMsgs T depth f.field vs m
  else .fail .invalidFieldType m

/-- How a field is named in a call. -/
inductive Ref where
  | byName (s : List Byte)
  | byNumber (n : BitVec 32)
  deriving Repr

/-- `field_descriptor_by_name`, `field_descriptor_by_number` (`message_fields.hpp` 80-88, 113-121). -/
def NDesc.find (D : NDesc) : Ref → Option NField
  | .byName s => D.fields.find? (fun f => f.name == s)
  | .byNumber n => D.fields.find? (fun f => f.field.number == n)

/-- `set_field_by_name`, `set_field_by_number` (`message_fields.hpp` 362-417). -/
def setBy (T : DynTypes) (depth : Nat) (D : NDesc) (r : Ref) (a : Arg) (m : DynMsg) : Out :=
  match D.find r with
  | some f => setField T depth f a m
  | none => .fail .noSuchField m

/-- `modify_field_by_name`, `modify_field_by_number` (`message_fields.hpp` 420-438) and
`field_mref::modify` (`field_refs.hpp` 201-212) with a function that takes the reference to a field of
one kind. -/
def modifyBy (D : NDesc) (r : Ref) (k : FKind) (repeated : Bool) (g : NField → DynMsg → Out)
    (m : DynMsg) : Out :=
  match D.find r with
  | some f => if f.fkind = k ∧ f.field.repeated = repeated then g f m else .fail .invalidFieldType m
  | none => .fail .noSuchField m

/-- One call in a chain. -/
inductive Call where
  | set (r : Ref) (a : Arg)
  | modify (r : Ref) (k : FKind) (repeated : Bool) (g : NField → DynMsg → Out)

/-- The call on a message. -/
def Call.run (T : DynTypes) (depth : Nat) (D : NDesc) : Call → DynMsg → Out
  | .set r a, m => setBy T depth D r a m
  | .modify r k rep g, m => modifyBy D r k rep g m

/-- A call on an `expected_message_mref`: `and_then` (`expected_message_mref.hpp` 82-114). -/
def andThen (T : DynTypes) (depth : Nat) (D : NDesc) (o : Out) (c : Call) : Out :=
  match o with
  | .ok m => c.run T depth D m
  | o => o

/-- A chain of calls ending in `done()` (`expected_message_mref.hpp` 123-125). -/
def chain (T : DynTypes) (depth : Nat) (D : NDesc) (cs : List Call) (m : DynMsg) : Out :=
  cs.foldl (andThen T depth D) (.ok m)

/-! ## Reading -/

/-- The type asked for in `get`. `enumNumbers` is `enum_numbers_span`, `enumNames` `enum_names_view`. -/
inductive Want where
  | num (t : NumTy) | chars | bytes | enumNumber | enumName | msg
  | nums (t : NumTy) | strs | byteStrs | enumNumbers | enumNames | msgs
  deriving DecidableEq, Repr

/-- What `get` returns: a value of the field, the name of an enum value, names, or an error. -/
inductive Got where
  | value (r : Reading)
  | name (s : List Byte)
  | names (ss : List (List Byte))
  | fail (e : Errc)
  | undefined
  deriving Repr

/-- The names of numbers (`enum_numbers_to_names`, `repeated_enum_fields.hpp` 97-99). An indeterminate
number has none. -/
def namesOf (values : List (List Byte × BitVec 64)) : List (Option (BitVec 64)) → Option (List (List Byte))
  | [] => some []
  | some v :: vs => (namesOf values vs).map (nameOf values v :: ·)
  | none :: _ => none

/-- `get` of the singular references: `scalar_fields.hpp` 85-91, `enum_fields.hpp` 196-209,
`string_fields.hpp` 86-92, `bytes_fields.hpp` 87-93, `message_fields.hpp` 567-575. -/
def getOne (f : NField) (w : Want) (m : DynMsg) : Got :=
  match f.fkind, w with
  | .enum, .enumNumber => .value (f.field.value m)
  | .enum, .enumName =>
    match f.field.value m with
    | .num v => if nameOf f.values v = [] then .fail .unknownEnumValue else .name (nameOf f.values v)
    | _ => .undefined
  | .string, .chars => .value (f.field.value m)
  | .bytes, .bytes => .value (f.field.value m)
  | .message, .msg => if f.field.hasValue m then .value (f.field.value m) else .fail .noSuchValue
  | k, .num t => if k.numTy = some t then .value (f.field.value m) else .fail .invalidFieldType
  | _, _ => .fail .invalidFieldType

/-- `get` of the repeated references: `repeated_scalar_fields.hpp` 94-100, `repeated_enum_fields.hpp`
181-190; repeated strings, bytes and messages have none. -/
def getMany (f : NField) (w : Want) (m : DynMsg) : Got :=
  match f.fkind, w with
  | .enum, .enumNumbers => .value (f.field.value m)
  | .enum, .enumNames =>
    match f.field.value m with
    | .nums vs =>
      match namesOf f.values vs with
      | some ss => .names ss
      | none => .undefined
    | _ => .undefined
  | k, .nums t => if k.numTy = some t then .value (f.field.value m) else .fail .invalidFieldType
  | _, _ => .fail .invalidFieldType

/-- `field_value_by_name`, `field_value_by_number` (`message_fields.hpp` 309-319) and `field_cref::get`
(`field_refs.hpp` 105-116). -/
def getBy (D : NDesc) (r : Ref) (w : Want) (m : DynMsg) : Got :=
  match D.find r with
  | some f => if f.field.repeated then getMany f w m else getOne f w m
  | none => .fail .noSuchField

/-- `typed_ref_by_name`, `typed_ref_by_number` (`message_fields.hpp` 321-361) and `to`
(`field_refs.hpp` 96-102, 151-156): the field, as a reference of that kind. -/
def typedRef (D : NDesc) (r : Ref) (k : FKind) (repeated : Bool) : Except Errc NField :=
  match D.find r with
  | some f => if f.fkind = k ∧ f.field.repeated = repeated then .ok f else .error .invalidFieldType
  | none => .error .noSuchField

/-! ## Adopting memory -/

/-- Buffers of the program by number; `none` once freed. -/
abbrev Bufs := List (Option (List Byte))

/-- The argument of `adopt`: a view of a buffer, or an object that owns its elements (`std::string`,
`std::vector`). -/
inductive Lent where
  | view (buf : Nat)
  | owner (buf : Nat)
  deriving Repr

/-- `field_mref::adopt(T v)` (`field_refs.hpp` 189-200) and the typed ones (`string_fields.hpp` 135-140,
`bytes_fields.hpp` 136-141 and those of repeated fields): the buffer the field then refers to, and the
buffers afterwards. `v` is a parameter passed by value: an owner is copied for the call, and the copy
is destroyed when the call returns. Simplification: a copy always has a buffer of its own. -/
def adopt (mem : Bufs) : Lent → Option (Nat × Bufs)
  | .view b => some (b, mem)
  | .owner b =>
    match mem[b]? with
    | some (some bs) =>
      let inside := mem ++ [some bs]
      some (mem.length, inside.set mem.length none)
    | _ => none

/-- The typed `adopt` called directly (`to<string_field_mref>()->adopt(v)`): it takes a view, into which an owner
of the caller is converted. -/
def adoptTyped (mem : Bufs) : Lent → Option (Nat × Bufs)
  | .view b => some (b, mem)
  | .owner b => some (b, mem)

/-- Reading the field: what the buffer holds. -/
def readAdopted (mem : Bufs) (buf : Nat) : Option (List Byte) := (mem[buf]?).join

end HppProto.Access
