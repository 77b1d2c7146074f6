/-!
# Model of `arena_vector`: `include/hpp_proto/memory_resource_utils.hpp` 255-402

Memory is a list of blocks; a block is a list of cells, one per element; a cell that holds
no object is `none`. Reading or writing outside a block has no result (`none`).
-/
namespace HppProto

/-- Memory: the blocks handed out so far, by the arena or otherwise. -/
abbrev Heap (γ : Type) := List (List (Option γ))

/-- Write the cells `cs` to block `b` from position `off` on; undefined outside the block. -/
def Heap.write {γ} (h : Heap γ) (b off : Nat) (cs : List (Option γ)) : Option (Heap γ) :=
  match h[b]? with
  | none => none
  | some blk =>
    if off + cs.length ≤ blk.length then some (h.set b (blk.take off ++ cs ++ blk.drop (off + cs.length)))
    else none

/-- Read `n` cells of block `b` from position `off` on; undefined outside the block. -/
def Heap.read {γ} (h : Heap γ) (b off n : Nat) : Option (List (Option γ)) :=
  match h[b]? with
  | none => none
  | some blk => if off + n ≤ blk.length then some ((blk.drop off).take n) else none

/-- The members 385-388 and the memory. `view` is `view_`: the block and position it points
to (`none` for a null pointer) and its size. `data` is `data_`: it always points to the start of
a block. `sz` is `sizeof(value_type)`, `dflt` what default construction leaves in a
cell (`none` for trivial types, which stay indeterminate). -/
structure Arena (γ : Type) where
  heap : Heap γ
  viewPtr : Option (Nat × Nat)
  viewSize : Nat
  data : Option Nat
  cap : Nat

section
variable {γ : Type} (sz : Nat) (dflt : Option γ)

/-- `arena_vector(view, mr)` 271. -/
def Arena.make (h : Heap γ) (ptr : Option (Nat × Nat)) (n : Nat) : Arena γ := ⟨h, ptr, n, none, 0⟩

/-- Reading through `view_`. A null view can only be read when it is empty. -/
def Arena.contents (s : Arena γ) : Option (List (Option γ)) :=
  match s.viewPtr with
  | none => if s.viewSize = 0 then some [] else none
  | some (b, off) => s.heap.read b off s.viewSize

/-- `mr.allocate(n * sizeof(value_type), alignof(value_type))` 282, 362, 392: a new block. The
product is a `std::size_t`, so it wraps; the block has room for the wrapped number of bytes. -/
def Arena.alloc (s : Arena γ) (n : Nat) : Arena γ × Nat :=
  ({ s with heap := s.heap ++ [List.replicate (n * sz % 2 ^ 64 / sz) none] }, s.heap.length)

/-- Writes from `data_ + off` on. A null `data_` admits only an empty write. -/
def Arena.put (s : Arena γ) (off : Nat) (cs : List (Option γ)) : Option (Arena γ) :=
  match s.data with
  | none => if cs = [] then some s else none
  | some b => (s.heap.write b off cs).map fun h => { s with heap := h }

/-- `view_ = View{data_, n}`. -/
def Arena.setView (s : Arena γ) (n : Nat) : Arena γ :=
  { s with viewPtr := s.data.map fun b => (b, 0), viewSize := n }

/-- Start using the new block: `data_ = new_data; capacity_ = n`. -/
def Arena.useBlock (s : Arena γ) (b n : Nat) : Arena γ := { s with data := some b, cap := n }

/-- A source range: elements stored elsewhere, or the elements `i .. i+n` of the vector itself
(of its view). -/
inductive Src (γ : Type) where
  | ext (l : List (Option γ))
  | own (i n : Nat)

/-- Elements of a source range, `none` if it is not within the view. -/
def Src.cells (s : Arena γ) : Src γ → Option (List (Option γ))
  | .ext l => some l
  | .own i n => if i + n ≤ s.viewSize then s.contents.map fun c => (c.drop i).take n else none

/-- `view_.data() == r.data()` 396. -/
def Src.sameData : Src γ → Bool
  | .ext _ => false
  | .own i _ => i == 0

/-- `resize` 280-295. -/
def Arena.resize (s : Arena γ) (n : Nat) : Option (Arena γ) :=
  if s.cap < n then
    let (s1, b) := s.alloc sz n
    match s.contents with
    | none => none
    | some c =>
      let cells := if s.viewSize < n then c ++ List.replicate (n - s.viewSize) dflt else c.take n
      ((s1.useBlock b n).put 0 cells).map fun s2 => s2.setView n
  else if s.viewSize < n then
    (s.put s.viewSize (List.replicate (n - s.viewSize) dflt)).map fun s2 => s2.setView n
  else some (s.setView n)

/-- `assign_range_with_size` 390-401. `std::ranges::uninitialized_copy` into a span of `n`
elements copies at most `n`. A source inside the vector lies behind `data_`, so the
forward copy 397 reads every element before overwriting it. -/
def Arena.assignWithSize (s : Arena γ) (r : Src γ) (n : Nat) : Option (Arena γ) :=
  match r.cells s with
  | none => none
  | some c =>
    if s.cap < n then
      let (s1, b) := s.alloc sz n
      ((s1.useBlock b n).put 0 (c.take n)).map fun s2 => s2.setView n
    else if !r.sameData then (s.put 0 c).map fun s2 => s2.setView n
    else some (s.setView n)

/-- `assign_range` 331-335, `assign` 337-342, `operator=` 297-300. -/
def Arena.assign (s : Arena γ) (r : Src γ) : Option (Arena γ) :=
  match r.cells s with
  | none => none
  | some c => s.assignWithSize sz r c.length

/-- The whole view as a source range. -/
def Arena.whole (s : Arena γ) : Src γ := .own 0 s.viewSize

/-- `emplace_back` 317-323 and `push_back` 315. The argument may be an element of the vector. -/
def Arena.emplaceBack (s : Arena γ) (v : Option γ) : Option (Arena γ) :=
  match s.assignWithSize sz s.whole (s.viewSize + 1) with
  | none => none
  | some s1 => s1.put s.viewSize [v]

/-- `append_range` 344-358. The elements of the source are read where they were: a source inside
the vector is either untouched or still in the abandoned block, which is never released. -/
def Arena.append (s : Arena γ) (r : Src γ) : Option (Arena γ) :=
  match r.cells s with
  | none => none
  | some c =>
    match s.assignWithSize sz s.whole (s.viewSize + c.length) with
    | none => none
    | some s1 => s1.put s.viewSize c

/-- Elements of `sz` bytes each, `n` of them. -/
def rawElems (sz : Nat) (dec : List (BitVec 8) → γ) : Nat → List (BitVec 8) → List (Option γ)
  | 0, _ => []
  | n + 1, bs => some (dec (bs.take sz)) :: rawElems sz dec n (bs.drop sz)

/-- `append_raw_data` 370-382. `dec` reads one element from its bytes. The `memcpy` copies all
the bytes, so bytes after the last whole element would land in the next cell: then
a cell more is written. -/
def Arena.appendRaw (dec : List (BitVec 8) → γ) (s : Arena γ) (bs : List (BitVec 8)) : Option (Arena γ) :=
  let num := bs.length / sz
  match s.assignWithSize sz s.whole (s.viewSize + num) with
  | none => none
  | some s1 => s1.put s.viewSize (rawElems sz dec ((bs.length + sz - 1) / sz) bs)

/-- `reserve` 360-368. -/
def Arena.reserve (s : Arena γ) (n : Nat) : Option (Arena γ) :=
  if s.cap < n then
    match s.contents with
    | none => none
    | some c =>
      let (s1, b) := s.alloc sz n
      ((s1.useBlock b n).put 0 (c.take n)).map fun s2 => s2.setView s.viewSize
  else some s

/-- `clear` 325-329. -/
def Arena.clear (s : Arena γ) : Arena γ := { s with viewPtr := none, viewSize := 0, data := none, cap := 0 }

/-- The operations. -/
inductive ArenaOp (γ : Type) where
  | resize (n : Nat) | pushBack (v : Option γ) | clear | assign (r : Src γ) | append (r : Src γ)
  | reserve (n : Nat) | appendRaw (bs : List (BitVec 8))

/-- One operation. -/
def Arena.step (dec : List (BitVec 8) → γ) (s : Arena γ) : ArenaOp γ → Option (Arena γ)
  | .resize n => s.resize sz dflt n
  | .pushBack v => s.emplaceBack sz v
  | .clear => some s.clear
  | .assign r => s.assign sz r
  | .append r => s.append sz r
  | .reserve n => s.reserve sz n
  | .appendRaw bs => s.appendRaw sz dec bs

/-- A history. -/
def Arena.run (dec : List (BitVec 8) → γ) (s : Arena γ) : List (ArenaOp γ) → Option (Arena γ)
  | [] => some s
  | op :: ops => (s.step sz dflt dec op).bind fun s1 => s1.run dec ops

end

end HppProto
