/-!
# Model of `util::reverse_indices`: `include/hpp_proto/binpb/meta.hpp` 305-464

`constexpr` arrays are lists; positions are natural numbers (the code's `uint32_t`
positions are below the number of fields). An access outside an array in constant evaluation
is a compile error; the model's `getD`/`set` would then do something harmless, and the
theorem shows that it does not matter.
-/
namespace HppProto

/-- A member of a message type as it appears in `pb_meta`: a field with its number, or a oneof
with the numbers of its alternatives. -/
inductive MetaD where
  | field (number : BitVec 32)
  | oneof (numbers : List (BitVec 32))

/-- `get_numbers` of one meta: 307-315, 326-329. A `UINT32_MAX` (storage of unknown fields)
is no number. -/
def MetaD.numbers : MetaD → List (BitVec 32)
  | .field n => if n != 0xffffffff#32 then [n] else []
  | .oneof ns => ns.flatMap (fun n => if n != 0xffffffff#32 then [n] else [])

/-- `field_numbers` 317-324, 362. -/
def fieldNumbers (ms : List MetaD) : List (BitVec 32) := ms.flatMap MetaD.numbers

/-- `get_indices` 331-358: the position of the member, once for a field (even if it has no
number), once per alternative for a oneof. -/
def fieldIndices (i : Nat) : List MetaD → List Nat
  | [] => []
  | .field _ :: ms => i :: fieldIndices (i + 1) ms
  | .oneof ns :: ms => List.replicate ns.length i ++ fieldIndices (i + 1) ms

/-- `std::bit_width`. -/
def bitWidth (n : Nat) : Nat := if n = 0 then 0 else n.log2 + 1

/-- `mask` 397. -/
def dispatchMask (ms : List MetaD) : Nat := 2 ^ bitWidth (fieldNumbers ms).length - 1

/-- `num & mask`. -/
def maskedNum (mask : Nat) (n : BitVec 32) : Nat := n.toNat &&& mask

/-- `std::partial_sum`. -/
def partialSum (acc : Nat) : List Nat → List Nat
  | [] => []
  | x :: xs => (acc + x) :: partialSum (acc + x) xs

/-- `build_masked_lookup_table_offsets` 398-410. -/
def tableOffsets (mask : Nat) (nums : List (BitVec 32)) : List Nat :=
  let occurrences := nums.foldl (fun a n => a.set (maskedNum mask n) (a.getD (maskedNum mask n) 0 + 1)) (List.replicate (mask + 1) 0)
  0 :: partialSum 0 occurrences

/-- `build_masked_lookup_table` 413-431: the loop 423-427 from position `i`, with its array
`counts` and the table so far. `indices` is the rest of `field_indices`. -/
def fillTable (mask : Nat) : List (BitVec 32) → List Nat → List Nat → List (BitVec 32 × Nat) → List (BitVec 32 × Nat)
  | [], _, _, t => t
  | n :: nums, indices, counts, t =>
    let b := maskedNum mask n
    let c := counts.getD b 0
    fillTable mask nums indices.tail (counts.set b (c + 1)) (t.set c (n, indices.headD 0))

def lookupTable (ms : List MetaD) : List (BitVec 32 × Nat) :=
  let mask := dispatchMask ms
  let nums := fieldNumbers ms
  fillTable mask nums (fieldIndices 0 ms) ((tableOffsets mask nums).dropLast) (List.replicate nums.length (0#32, 0))

/-- `dispatch_by_masked_num<MaskedNum, I>` 436-449 with `left` = `end_id - begin_id`: the index
given to the handler, `none` for `UINT32_MAX`. -/
def scanTable (table : List (BitVec 32 × Nat)) (n : BitVec 32) : (left begin_ : Nat) → Option Nat
  | 0, _ => none
  | left + 1, begin_ =>
    let e := table.getD begin_ (0#32, 0)
    if n = e.1 then some e.2 else scanTable table n left (begin_ + 1)

/-- `dispatch` 451-463: the handler is called for the first `MaskNum` in `0 … mask` equal to
`field_number & mask`. Outer `none`: the handler is not called. -/
def dispatchField (ms : List MetaD) (n : BitVec 32) : Option (Option Nat) :=
  let mask := dispatchMask ms
  let offs := tableOffsets mask (fieldNumbers ms)
  match (List.range (mask + 1)).find? (fun b => maskedNum mask n == b) with
  | none => none
  | some b => some (scanTable (lookupTable ms) n (offs.getD (b + 1) 0 - offs.getD b 0) (offs.getD b 0))

end HppProto
