import Verif.Model.Schema

/-!
# Storage layout of dynamic messages

Model of the slot assignment of the dynamic message factory
(`src/dynamic_message/factory.cpp` 46-142 and 353-395).
-/

namespace HppProto

/-- What the layout reads of a field descriptor: the oneof it belongs to
(`proto().oneof_index`) and `is_repeated()` (`factory.cpp` 105, 138, 360). -/
structure SlotField where
  oneof : Option Nat
  repeated : Bool
deriving Repr, DecidableEq

/-- `storage_slot_state` (`factory.cpp` 46-55).  `prevOneof` is `oneof_count` when the previous
field is not a member of a oneof.  Simplification: `cur_slot` does not wrap; the code asserts this
(lines 113, 136), and every slot belongs to a field that is in memory. -/
structure SlotState where
  curSlot : Nat
  oneofCount : Nat
  started : List Bool
  prevOneof : Nat
  nextOrdinal : Nat
deriving Repr, DecidableEq

/-- The constructor of `storage_slot_state` (`factory.cpp` 53-54). -/
def SlotState.init (count : Nat) : SlotState :=
  ⟨0, count, List.replicate count false, count, 1⟩

/-- `field_slot_layout` (`factory.cpp` 64-100).  The mask is 0 or `UINT32_MAX`; the bias is an
`int32_t`, here an integer: the code asserts that it fits (lines 123-125, 139). -/
structure SlotLayout where
  slot : Nat
  ordinal : Nat
  mask : Nat
  bias : Int
deriving Repr, DecidableEq

/-- `setup_oneof_field` (`factory.cpp` 102-130), `none` for `schema_validation_error`.
`index < oneofCount` was checked by the descriptor pool (`descriptor_pool.hpp` 1231-1234). -/
def setupOneof (index : Nat) (s : SlotState) (fieldIndex : Nat) : Option (SlotLayout × SlotState) :=
  let started : Option (Nat × SlotState) :=
    if s.prevOneof ≠ index then
      if s.started.getD index false then none
      else some (s.curSlot, { s with started := s.started.set index true,
                                     curSlot := s.curSlot + 1, nextOrdinal := 1 })
    else some (s.curSlot - 1, s)
  match started with
  | none => none
  | some (slot, s) =>
    if s.nextOrdinal = 2 ^ 16 - 1 then none
    else
      let ordinal := s.nextOrdinal + 1
      some (⟨slot, ordinal, 2 ^ 32 - 1, (fieldIndex : Int) - (ordinal : Int)⟩,
        { s with nextOrdinal := ordinal, prevOneof := index })

/-- `setup_non_oneof_field` (`factory.cpp` 132-142). -/
def setupPlain (repeated : Bool) (s : SlotState) (fieldIndex : Nat) : SlotLayout × SlotState :=
  (⟨s.curSlot, if repeated then 0 else 1, 0, (fieldIndex : Int)⟩,
    { s with prevOneof := s.oneofCount, curSlot := s.curSlot + 1 })

/-- The loop over the fields of one message in `finalize_resolved_field_infos`
(`factory.cpp` 358-391): the layouts of the fields and the final state. -/
def layoutLoop : List SlotField → SlotState → Nat → Option (List SlotLayout × SlotState)
  | [], s, _ => some ([], s)
  | f :: fs, s, i =>
    match (match f.oneof with
      | some o => setupOneof o s i
      | none => some (setupPlain f.repeated s i)) with
    | none => none
    | some (l, s) =>
      match layoutLoop fs s (i + 1) with
      | none => none
      | some (ls, s) => some (l :: ls, s)

/-- The layouts of the fields of a message with `count` oneofs, and `num_slots`
(`factory.cpp` 355-392). -/
def layoutFields (count : Nat) (fields : List SlotField) : Option (List SlotLayout × Nat) :=
  (layoutLoop fields (SlotState.init count) 0).map fun r => (r.1, r.2.curSlot)

/-- `field_cref::active_oneof_index` (`field_refs.hpp` 81-93) on the selection word of the slot.
`&&&` with the mask is 0 or the identity on 32-bit words. -/
def activeIndex (l : SlotLayout) (word : Nat) : Int :=
  if word = 0 then -1
  else
    let index : Int := ((word &&& l.mask : Nat) : Int) + l.bias
    if index < -(2 ^ 31) ∨ index > 2 ^ 31 - 1 then -1 else index

/-- `resolved_field_info::has_value` (`types.hpp` 207-209). -/
def slotHasValue (repeated : Bool) (l : SlotLayout) (word : Nat) : Bool :=
  if repeated then word > 0 else word == l.ordinal

end HppProto
