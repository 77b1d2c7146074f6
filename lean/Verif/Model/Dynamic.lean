import Verif.Model.Slots

/-!
# Dynamic messages

Model of the field references of dynamic messages (`include/hpp_proto/dynamic_message/`).
A dynamic message is an array of `value_storage` slots (`storage.hpp` 53-73); a field reference is a
field descriptor and a slot.

Simplifications: messages own their contents, so `adopt` and `alias_from`, which make two references
share memory, are not modelled; memory never runs out; sizes fit in 32 bits, as the code asserts;
capacities are not modelled.
-/

namespace HppProto

/-- The contents of a `value_storage` besides its last word (`storage.hpp` 37-73): the active member
of the union.  `zero` is `value_storage{}`.  A string holds its `size` too.  Elements `none` of
`nums` are indeterminate.  `torn` is storage composed of parts of two values.  Simplification: the
unused bytes of a number narrower than 64 bits are not modelled. -/
inductive Cell where
  | zero
  | num (v : BitVec 64)
  | str (bs : List Byte)
  | msg (m : List (Nat × Cell))
  | nums (vs : List (Option (BitVec 64)))
  | strs (vs : List (List Byte))
  | msgs (vs : List (List (Nat × Cell)))
  | torn
  deriving Repr

/-- A dynamic message: per slot the word that is `selection` of a singular field or `size` of a
repeated one (`value_storage::selection_word`, `storage.hpp` 75-84), and the contents. -/
abbrev DynMsg := List (Nat × Cell)

/-- `field_presence_t` (`types.hpp` 130-136). -/
inductive Presence where
  | implicit | explicit | required | oneof | repeated
  deriving DecidableEq, Repr

/-- `presence_for` (`factory.cpp` 306-317). -/
def presenceFor (repeated : Bool) (oneof : Option Nat) (required explicit : Bool) : Presence :=
  if repeated then .repeated
  else if oneof.isSome then .oneof
  else if required then .required
  else if explicit then .explicit else .implicit

/-- A field descriptor with its `resolved_field_info` (`types.hpp` 156-228, `factory.cpp` 353-391).
`kind` is `group` for delimited fields; `dflt` is `default_value()`, for strings and bytes the text
of the descriptor (`string_fields.hpp` 65, `bytes_fields.hpp` 63-66). -/
structure DynField where
  number : BitVec 32
  kind : Kind
  repeated : Bool
  packed : Bool
  oneof : Option Nat
  required : Bool
  optional : Bool
  dflt : Val
  layout : SlotLayout
  deriving Repr

/-- `resolved_field_info::presence` (`factory.cpp` 379). -/
def DynField.presence (f : DynField) : Presence := presenceFor f.repeated f.oneof f.required f.optional

/-- `resolved_field_info::explicit_presence` (`types.hpp` 199-202). -/
def DynField.explicit (f : DynField) : Bool :=
  f.presence == .explicit || f.presence == .required || f.presence == .oneof

/-- What the slot layout reads of the field. -/
def DynField.slotField (f : DynField) : SlotField := ⟨f.oneof, f.repeated⟩

/-- A message descriptor: its fields in order, `num_slots` (`factory_addons.hpp` 266-272) and
`is_map_entry()` (`descriptor_pool.hpp` 498). -/
structure DynDesc where
  fields : List DynField
  slots : Nat
  entry : Bool := false
  deriving Repr

/-- All message types, by number. -/
abbrev DynTypes := Nat → DynDesc

/-- `message_value_mref::reset` (`message_fields.hpp` 279-282), also the state of a new message
(lines 241-247). -/
def DynDesc.empty (D : DynDesc) : DynMsg := List.replicate D.slots (0, .zero)

/-- `storage_for` (`message_fields.hpp` 44-46, 498-500). -/
def DynField.storage (f : DynField) (m : DynMsg) : Nat × Cell := m.getD f.layout.slot (0, .zero)

/-- Replace the slot of a field. -/
def DynField.store (f : DynField) (m : DynMsg) (s : Nat × Cell) : DynMsg := m.set f.layout.slot s

/-- `field_cref::has_value` (`field_refs.hpp` 70-73); the typed references compare the selection word
with the ordinal (e.g. `scalar_fields.hpp` 64-66), which is the same for singular fields, and test
the size of repeated ones. -/
def DynField.hasValue (f : DynField) (m : DynMsg) : Bool :=
  slotHasValue f.repeated f.layout (f.storage m).1

/-- `content` read as a number.  Reading a slot through another member of the union is undefined
(`none`), except for zeroed storage. -/
def Cell.asNum : Cell → Option (BitVec 64)
  | .zero => some 0
  | .num v => some v
  | _ => none

/-- `content` and `size` read as a string. -/
def Cell.asStr : Cell → Option (List Byte)
  | .zero => some []
  | .str bs => some bs
  | _ => none

/-- What a read returns: a value; `absent`, the exception `std::bad_optional_access`; `undefined`,
a read of the wrong member of the union or beyond the stored elements. -/
inductive Reading where
  | num (v : BitVec 64)
  | str (bs : List Byte)
  | msg (m : DynMsg)
  | nums (vs : List (Option (BitVec 64)))
  | strs (vs : List (List Byte))
  | msgs (ms : List DynMsg)
  | absent
  | undefined
  deriving Repr

/-- Is the field stored as a string (`STRING`, `BYTES`)? -/
def Kind.isStr : Kind → Bool
  | .scalar (.str _) => true
  | _ => false

/-- Is the field stored as a number (scalars and enums)? -/
def Kind.isNum : Kind → Bool
  | .scalar (.str _) => false
  | .scalar _ => true
  | _ => false

/-- The message type of a message or group field. -/
def Kind.msgType : Kind → Option Nat
  | .msg id | .group id => some id
  | _ => none

/-- `value()` of a singular number or enum (`scalar_fields.hpp` 69-74, `enum_fields.hpp` 174-179). -/
def DynField.numValue (f : DynField) (m : DynMsg) : Reading :=
  if f.explicit && !f.hasValue m then .num f.dflt.bits
  else match (f.storage m).2.asNum with
    | some v => .num v
    | none => .undefined

/-- `value()` of a singular string (`string_fields.hpp` 67-72) or bytes (`bytes_fields.hpp` 68-73). -/
def DynField.strValue (f : DynField) (m : DynMsg) : Reading :=
  if f.explicit && !f.hasValue m then .str f.dflt.str
  else match (f.storage m).2.asStr with
    | some bs => .str bs
    | none => .undefined

/-- `value()` of a message field (`message_fields.hpp` 547-552, 638-643). -/
def DynField.msgValue (f : DynField) (m : DynMsg) : Reading :=
  if f.hasValue m then
    match (f.storage m).2 with
    | .msg s => .msg s
    | _ => .undefined
  else .absent

/-- The elements of a repeated field: `size()` of them starting at `content`. -/
def DynField.elements (f : DynField) (m : DynMsg) : Reading :=
  let s := f.storage m
  if f.kind.isNum then
    match s.2 with
    | .nums vs => if s.1 ≤ vs.length then .nums (vs.take s.1) else .undefined
    | .zero => if s.1 = 0 then .nums [] else .undefined
    | _ => .undefined
  else if f.kind.isStr then
    match s.2 with
    | .strs vs => if s.1 ≤ vs.length then .strs (vs.take s.1) else .undefined
    | .zero => if s.1 = 0 then .strs [] else .undefined
    | _ => .undefined
  else
    match s.2 with
    | .msgs vs => if s.1 ≤ vs.length then .msgs (vs.take s.1) else .undefined
    | .zero => if s.1 = 0 then .msgs [] else .undefined
    | _ => .undefined

/-- The value of a field through its read-only reference. -/
def DynField.value (f : DynField) (m : DynMsg) : Reading :=
  if f.repeated then f.elements m
  else if f.kind.isNum then f.numValue m
  else if f.kind.isStr then f.strValue m
  else f.msgValue m

/-! ## Singular fields -/

/-- `scalar_field_mref::set` (`scalar_fields.hpp` 152-156), `enum_field_mref::set`
(`enum_fields.hpp` 295-298). -/
def DynField.setNum (f : DynField) (v : BitVec 64) (m : DynMsg) : DynMsg :=
  f.store m (f.layout.ordinal, .num v)

/-- `string_field_mref::set` (`string_fields.hpp` 142-149), `bytes_field_mref::set`. -/
def DynField.setStr (f : DynField) (bs : List Byte) (m : DynMsg) : DynMsg :=
  f.store m (f.layout.ordinal, .str bs)

/-- `field_mref::reset` (`field_refs.hpp` 141), `clear_field` (`message_fields.hpp` 440-444) and
`value_storage::reset` (`storage.hpp` 89-98): only the last word is cleared.  Also
`scalar_field_mref::reset`, `enum_field_mref::reset`, `message_field_mref::reset`
(`scalar_fields.hpp` 169, `enum_fields.hpp` 279, `message_fields.hpp` 654) and `clear` of repeated
fields. -/
def DynField.clear (f : DynField) (m : DynMsg) : DynMsg := f.store m (0, (f.storage m).2)

/-- `string_field_mref::reset` (`string_fields.hpp` 173-176): size and selection are cleared.  `size`
is not part of a number or a message pointer. -/
def DynField.resetStr (f : DynField) (m : DynMsg) : DynMsg :=
  f.store m (0, match (f.storage m).2 with
    | .str _ => .str []
    | c => c)

/-- `message_field_mref::emplace` (`message_fields.hpp` 623-632): the field selected, its message
empty. -/
def DynField.emplace (T : DynTypes) (f : DynField) (m : DynMsg) : DynMsg :=
  match f.kind.msgType with
  | some id => f.store m (f.layout.ordinal, .msg (T id).empty)
  | none => m

/-- Write access to the message of a present message field: `value()` or `operator*` of
`message_field_mref` (`message_fields.hpp` 638-647) and a change of the message it refers to. -/
def DynField.update (f : DynField) (g : DynMsg → DynMsg) (m : DynMsg) : DynMsg :=
  match f.storage m with
  | (w, .msg s) => f.store m (w, .msg (g s))
  | _ => m

/-- `enum_field_mref::value` (`enum_fields.hpp` 271-276), a read through the mutable reference: the
slot it leaves behind. -/
def DynField.touchEnum (f : DynField) (m : DynMsg) : DynMsg :=
  if f.explicit && !f.hasValue m then f.store m ((f.storage m).1, .num f.dflt.bits) else m

/-! ## Repeated fields -/

/-- The numbers stored, indeterminate beyond what was written. -/
def numElems (s : Nat × Cell) : List (Option (BitVec 64)) :=
  match s.2 with
  | .nums vs => vs.take s.1
  | _ => []

/-- The strings stored. -/
def strElems (s : Nat × Cell) : List (List Byte) :=
  match s.2 with
  | .strs vs => vs.take s.1
  | _ => []

/-- The messages stored. -/
def msgElems (s : Nat × Cell) : List DynMsg :=
  match s.2 with
  | .msgs vs => vs.take s.1
  | _ => []

/-- `resize` with a given new element. -/
def resizeWith {α} (x : α) (n : Nat) (l : List α) : List α := l.take n ++ List.replicate (n - l.length) x

/-- `resize` of repeated numbers (`repeated_scalar_fields.hpp` 208-220, `repeated_enum_fields.hpp`
246-258): `std::uninitialized_default_construct` leaves new numbers indeterminate. -/
def DynField.resizeNums (f : DynField) (n : Nat) (m : DynMsg) : DynMsg :=
  f.store m (n, .nums (resizeWith none n (numElems (f.storage m))))

/-- `resize` of repeated strings and bytes (`repeated_string_fields.hpp` 99-111): new elements are
empty. -/
def DynField.resizeStrs (f : DynField) (n : Nat) (m : DynMsg) : DynMsg :=
  f.store m (n, .strs (resizeWith [] n (strElems (f.storage m))))

/-- `resize` of repeated messages (`repeated_message_fields.hpp` 169-183): new elements are empty
messages. -/
def DynField.resizeMsgs (T : DynTypes) (f : DynField) (n : Nat) (m : DynMsg) : DynMsg :=
  match f.kind.msgType with
  | some id => f.store m (n, .msgs (resizeWith (T id).empty n (msgElems (f.storage m))))
  | none => m

/-- Assignment to an element of repeated numbers (`operator[]`, `repeated_scalar_fields.hpp`
174-178). -/
def DynField.putNum (f : DynField) (i : Nat) (v : BitVec 64) (m : DynMsg) : DynMsg :=
  match f.storage m with
  | (w, .nums vs) => f.store m (w, .nums (vs.set i (some v)))
  | _ => m

/-- Assignment to an element of repeated strings (`string_value_mref::set`, `string_fields.hpp`
197-202). -/
def DynField.putStr (f : DynField) (i : Nat) (bs : List Byte) (m : DynMsg) : DynMsg :=
  match f.storage m with
  | (w, .strs vs) => f.store m (w, .strs (vs.set i bs))
  | _ => m

/-- Write access to an element of repeated messages (`operator[]`, `repeated_message_fields.hpp`
187-191). -/
def DynField.updateAt (f : DynField) (i : Nat) (g : DynMsg → DynMsg) (m : DynMsg) : DynMsg :=
  match f.storage m with
  | (w, .msgs vs) => f.store m (w, .msgs (vs.modify i g))
  | _ => m

/-- `set` of repeated numbers from a range (`repeated_scalar_fields.hpp` 251-254,
`repeated_enum_fields.hpp` 325-328): resize, then copy. -/
def DynField.setNums (f : DynField) (vs : List (BitVec 64)) (m : DynMsg) : DynMsg :=
  f.store m (vs.length, .nums (vs.map some))

/-- `set` of repeated strings from a range (`repeated_string_fields.hpp` 168-174). -/
def DynField.setStrs (f : DynField) (vs : List (List Byte)) (m : DynMsg) : DynMsg :=
  f.store m (vs.length, .strs vs)

/-- `push_back` of a number (`repeated_scalar_fields.hpp` 188-192, `repeated_enum_fields.hpp`
287-291). -/
def DynField.pushNum (f : DynField) (v : BitVec 64) (m : DynMsg) : DynMsg :=
  f.putNum (f.storage m).1 v (f.resizeNums ((f.storage m).1 + 1) m)

/-- `push_back` of a string (`repeated_string_fields.hpp` 142-146). -/
def DynField.pushStr (f : DynField) (bs : List Byte) (m : DynMsg) : DynMsg :=
  f.putStr (f.storage m).1 bs (f.resizeStrs ((f.storage m).1 + 1) m)

/-- `emplace_back` (`repeated_message_fields.hpp` 211-215), then a change of the new message. -/
def DynField.pushMsg (T : DynTypes) (f : DynField) (g : DynMsg → DynMsg) (m : DynMsg) : DynMsg :=
  f.updateAt (f.storage m).1 g (f.resizeMsgs T ((f.storage m).1 + 1) m)

/-- `reset` of repeated numbers and strings (`repeated_scalar_fields.hpp` 232-237,
`repeated_string_fields.hpp` 148-152). -/
def DynField.resetRepeated (f : DynField) (m : DynMsg) : DynMsg := f.store m (0, .zero)

/-! ## Copies -/

/-- `enum_field_mref::alias_from` (`enum_fields.hpp` 253-256): the storage is copied as that of a
32-bit number.  Of a pointer only a part is copied. -/
def enumCopy : Nat × Cell → Nat × Cell
  | (w, .num v) => (w, .num v)
  | (w, .zero) => (w, .num 0)
  | (w, _) => (w, .torn)

/-- `clone_from` of one field (`field_mref::clone_from`, `field_visit.hpp` 130-136, and the typed
references): the slot of the destination from its old contents and the slot of the source.
`none` when the nesting is deeper than the fuel of `sub`, or on an undefined read.
`scalar_fields.hpp` 159, `enum_fields.hpp` 253-261, `string_fields.hpp` 153-159,
`message_fields.hpp` 666-673, `repeated_scalar_fields.hpp` 261-268, `repeated_enum_fields.hpp`
365-368, `repeated_string_fields.hpp` 181-191, `repeated_message_fields.hpp` 222-228.  A repeated
message field is resized first, which keeps old elements, and the elements are cloned over them. -/
def DynField.clone (T : DynTypes) (sub : Nat → DynMsg → DynMsg → Option DynMsg) (f : DynField)
    (dst src : DynMsg) : Option DynMsg :=
  if f.repeated then
    if f.kind.isNum then
      match f.elements src with
      | .nums vs => some (f.store dst (vs.length, .nums vs))
      | _ => none
    else if f.kind.isStr then
      match f.elements src with
      | .strs vs => some (f.store dst (vs.length, .strs vs))
      | _ => none
    else
      match f.kind.msgType, f.elements src with
      | some id, .msgs vs => do
        let old := resizeWith (T id).empty vs.length (msgElems (f.storage dst))
        let new ← (old.zip vs).mapM fun p => sub id p.1 p.2
        some (f.store dst (vs.length, .msgs new))
      | _, _ => none
  else if f.kind.isNum then
    match f.kind with
    | .scalar (.enum _) => some (f.store dst (enumCopy (f.storage src)))
    | _ => match f.numValue src with
      | .num v => some (f.setNum v dst)
      | _ => none
  else if f.kind.isStr then
    if f.hasValue src then
      match f.strValue src with
      | .str bs => some (f.setStr bs dst)
      | _ => none
    else some (f.resetStr dst)
  else
    match f.kind.msgType, f.msgValue src with
    | some id, .msg s => do
      let r ← sub id (T id).empty s
      some (f.store dst (f.layout.ordinal, .msg r))
    | _, .absent => some (f.clear dst)
    | _, _ => none

/-- The loop of `message_value_mref::clone_from` (`message_fields.hpp` 481-486).  The loop counts to
the number of slots and indexes the fields. -/
def cloneFields (T : DynTypes) (sub : Nat → DynMsg → DynMsg → Option DynMsg) (src : DynMsg) :
    List DynField → DynMsg → Option DynMsg
  | [], dst => some dst
  | f :: fs, dst => do
    let dst ← f.clone T sub dst src
    cloneFields T sub src fs dst

/-- `message_value_mref::clone_from` for messages nested at most `depth` deep. -/
def cloneMsg (T : DynTypes) : (depth : Nat) → Nat → DynMsg → DynMsg → Option DynMsg
  | 0, _, _, _ => none
  | d + 1, id, dst, src =>
    cloneFields T (cloneMsg T d) src ((T id).fields.take (T id).slots) dst

/-- `message_field_mref::set` (`message_fields.hpp` 675-686) with a message of the right type: clone
into the present message, or into a new one. -/
def DynField.setMsg (T : DynTypes) (depth : Nat) (f : DynField) (v : DynMsg) (m : DynMsg) :
    Option DynMsg :=
  match f.kind.msgType with
  | none => none
  | some id =>
    let old : Option DynMsg :=
      if f.hasValue m then
        match (f.storage m).2 with
        | .msg s => some s
        | _ => none
      else some (T id).empty
    match old with
    | none => none
    | some old => (cloneMsg T depth id old v).map fun r => f.store m (f.layout.ordinal, .msg r)

/-! ## Oneofs -/

/-- `has_oneof` (`message_fields.hpp` 174-183), given a member of the oneof; its slot is the slot of
the oneof (`factory_addons.hpp` 260-263). -/
def DynField.hasOneof (f : DynField) (m : DynMsg) : Bool := (f.storage m).1 != 0

/-- `active_oneof_index` (`field_refs.hpp` 81-93). -/
def DynField.active (f : DynField) (m : DynMsg) : Int := activeIndex f.layout (f.storage m).1

end HppProto
