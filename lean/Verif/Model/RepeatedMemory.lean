/-!
# Model of the memory of repeated fields: `include/hpp_proto/dynamic_message/repeated_scalar_fields.hpp`, `repeated_enum_fields.hpp`,
`repeated_string_fields.hpp`

`Dynamic.lean` models repeated fields as lists. Here they have memory: `content`, `capacity` and `size` (`storage.hpp` 43-48), and the
content is a block of elements that several fields may share. Fields are numbered. Simplifications: blocks are never freed (all messages
use resources that live as long as they are used); a string element is a value (the characters it refers to are never changed by these
functions); copying an element that was not initialised keeps it so; sizes stay below 2^31, which the functions assert.
-/
namespace HppProto

/-- What the three classes differ in. -/
structure RepKind (V : Type) where
  /-- what `uninitialized_default_construct` makes: nothing for numbers, "" for strings -/
  fresh : Option V
  /-- `alias_from` takes the capacity over -/
  share : Bool
  /-- elements are copied with `std::copy`, which is undefined if they are copied to themselves -/
  copyUb : Bool

/-- Numbers: `repeated_scalar_fields.hpp` 208-220, 249-259. -/
def numRep (V : Type) : RepKind V := ⟨none, true, true⟩
/-- Enums: `repeated_enum_fields.hpp` 246-258, 323-328, 360-363. -/
def enumRep (V : Type) : RepKind V := ⟨none, false, true⟩
/-- Strings: `repeated_string_fields.hpp` 99-111, 166-191; `repeated_bytes_fields.hpp` is alike. -/
def strRep {V : Type} (empty : V) : RepKind V := ⟨some empty, false, false⟩

/-- `repeated_storage_base`: `storage.hpp` 43-48. -/
structure RepField where
  /-- `content`: a block, or null -/
  block : Option Nat
  cap : Nat
  size : Nat

/-- Memory and fields. An element that is `none` was not initialised. -/
structure RepSt (V : Type) where
  blocks : List (List (Option V))
  fields : Nat → RepField

/-- The elements of the block a pointer points to. -/
def RepSt.cells {V : Type} (s : RepSt V) : Option Nat → List (Option V)
  | none => []
  | some b => s.blocks.getD b []

/-- Replace a field. -/
def RepSt.put {V : Type} (s : RepSt V) (i : Nat) (f : RepField) : RepSt V := { s with fields := fun k => if k = i then f else s.fields k }

/-- Write to an element of the block of a field. -/
def RepSt.poke {V : Type} (s : RepSt V) (i k : Nat) (x : Option V) : RepSt V :=
  match (s.fields i).block with
  | none => s
  | some b => { s with blocks := s.blocks.modify b fun c => c.set k x }

/-- `reserve`: `repeated_scalar_fields.hpp` 194-206, `repeated_enum_fields.hpp` 235-244, `repeated_string_fields.hpp` 87-97. -/
def RepSt.reserve {V : Type} (s : RepSt V) (i n : Nat) : RepSt V :=
  let f := s.fields i
  if f.cap < n then
    { blocks := s.blocks ++ [(s.cells f.block).take f.size ++ List.replicate (n - f.size) none]
      fields := fun k => if k = i then ⟨some s.blocks.length, n, f.size⟩ else s.fields k }
  else s

/-- Write the same to `k`, ..., `k + n - 1`. -/
def RepSt.fill {V : Type} (s : RepSt V) (i : Nat) (x : Option V) (k : Nat) : Nat → RepSt V
  | 0 => s
  | n + 1 => (s.poke i k x).fill i x (k + 1) n

/-- `resize`: `repeated_scalar_fields.hpp` 208-220, `repeated_enum_fields.hpp` 246-258, `repeated_string_fields.hpp` 99-111. -/
def RepSt.resize {V : Type} (K : RepKind V) (s : RepSt V) (i n : Nat) : RepSt V :=
  let old := (s.fields i).size
  let s := if (s.fields i).cap < n then s.reserve i n else s
  let s := s.fill i K.fresh old (n - old)
  s.put i { s.fields i with size := n }

/-- Copy given values to `k`, `k + 1`, ... -/
def RepSt.pokes {V : Type} (s : RepSt V) (i : Nat) : Nat → List (Option V) → RepSt V
  | _, [] => s
  | k, x :: l => (s.poke i k x).pokes i (k + 1) l

/-- Copy from `src`, `src + 1`, ... of a block to `k`, `k + 1`, ... of the block of a field, element by element. -/
def RepSt.copyLoop {V : Type} (s : RepSt V) (i : Nat) (from_ : Option Nat) (src k : Nat) : Nat → RepSt V
  | 0 => s
  | n + 1 => (s.poke i k ((s.cells from_).getD src none)).copyLoop i from_ (src + 1) (k + 1) n

/-- Operations on fields. -/
inductive RepOp (V : Type) where
  /-- `f.reserve(n)` -/
  | reserve (i n : Nat)
  /-- `f.resize(n)` -/
  | resize (i n : Nat)
  /-- `f[k] = v` or `f[k].set(v)` -/
  | write (i k : Nat) (v : V)
  /-- `f.push_back(v)` -/
  | push (i : Nat) (v : V)
  /-- `f.push_back(f[k])` -/
  | pushOwn (i k : Nat)
  /-- `f.set(r)`, where `r` is a range outside of the fields -/
  | set (i : Nat) (vs : List V)
  /-- `f.set(r)`, where `r` is the subrange of `f` of `n` elements from `a` on -/
  | setOwn (i a n : Nat)
  /-- `f.clear()` -/
  | clear (i : Nat)
  /-- `f.reset()` -/
  | reset (i : Nat)
  /-- `f.adopt(r)`, where `r` is memory that nothing else uses -/
  | adopt (i : Nat) (vs : List V)
  /-- `f.clone_from(g)` -/
  | clone (i j : Nat)
  /-- `f.alias_from(g)` -/
  | alias (i j : Nat)

/-- One operation; `none` if it is undefined.
`write`: `operator[]`, `repeated_scalar_fields.hpp` 174-178, `repeated_enum_fields.hpp` 273-277, `repeated_string_fields.hpp` 128-132.
`push`: `repeated_scalar_fields.hpp` 188-192, `repeated_enum_fields.hpp` 287-291, `repeated_string_fields.hpp` 142-146; `pushOwn`: the
argument is a reference to an element, or a view of its characters, which is read after `resize`, from the block it was in before.
`set`: `repeated_scalar_fields.hpp` 249-254, `repeated_enum_fields.hpp` 323-328, `repeated_string_fields.hpp` 166-174; `setOwn`: the
range is read after `resize`.
`clear`, `reset`: `repeated_scalar_fields.hpp` 232-238, `repeated_enum_fields.hpp` 302-308, `repeated_string_fields.hpp` 148-154.
`adopt`: `repeated_scalar_fields.hpp` 241-247, `repeated_enum_fields.hpp` 315-321, `repeated_string_fields.hpp` 158-164.
`clone`: `repeated_scalar_fields.hpp` 261-268, `repeated_enum_fields.hpp` 365-368, `repeated_string_fields.hpp` 181-191.
`alias`: `repeated_scalar_fields.hpp` 256-259, `repeated_enum_fields.hpp` 360-363, `repeated_string_fields.hpp` 176-179. -/
def RepSt.step {V : Type} (K : RepKind V) (s : RepSt V) : RepOp V → Option (RepSt V)
  | .reserve i n => some (s.reserve i n)
  | .resize i n => some (s.resize K i n)
  | .write i k v => if k < (s.fields i).size then some (s.poke i k (some v)) else none
  | .push i v => some ((s.resize K i ((s.fields i).size + 1)).poke i (s.fields i).size (some v))
  | .pushOwn i k =>
    if k < (s.fields i).size then
      let t := s.resize K i ((s.fields i).size + 1)
      some (t.poke i (s.fields i).size ((t.cells (s.fields i).block).getD k none))
    else none
  | .set i vs => some ((s.resize K i vs.length).pokes i 0 (vs.map some))
  | .setOwn i a n =>
    if a + n ≤ (s.fields i).size then
      if K.copyUb = true ∧ a = 0 ∧ n ≠ 0 then none else some ((s.resize K i n).copyLoop i (s.fields i).block a 0 n)
    else none
  | .clear i => some (s.put i { s.fields i with size := 0 })
  | .reset i => some (s.put i ⟨none, 0, 0⟩)
  | .adopt i vs =>
    some { blocks := s.blocks ++ [vs.map some]
           fields := fun k => if k = i then ⟨some s.blocks.length, vs.length, vs.length⟩ else s.fields k }
  | .clone i j =>
    let g := s.fields j
    if g.size = 0 then some (s.put i { s.fields i with size := 0 })
    else
      let t := s.resize K i g.size
      if K.copyUb = true ∧ (t.fields i).block = g.block then none else some (t.copyLoop i g.block 0 0 g.size)
  | .alias i j => some (s.put i (if K.share then s.fields j else { s.fields j with cap := (s.fields j).size }))

/-- No memory, empty fields. -/
def RepSt.init {V : Type} : RepSt V := ⟨[], fun _ => ⟨none, 0, 0⟩⟩

/-- A history. -/
def RepSt.run {V : Type} (K : RepKind V) : RepSt V → List (RepOp V) → Option (RepSt V)
  | s, [] => some s
  | s, op :: ops => (s.step K op).bind fun t => t.run K ops

/-- What a field contains. -/
def RepSt.read {V : Type} (s : RepSt V) (i : Nat) : List (Option V) := (s.cells (s.fields i).block).take (s.fields i).size

/-- How many elements were allocated. -/
def RepSt.allocated {V : Type} (s : RepSt V) : Nat := (s.blocks.map List.length).sum

end HppProto
