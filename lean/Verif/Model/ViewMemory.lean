import Verif.Model.Outcome

/-!
# The memory of non-owning messages

With `non_owning_traits` (`field_types.hpp` 677-704) a generated message owns nothing: strings, bytes,
repeated fields and maps are views of memory elsewhere, and recursive message fields are pointers
(`optional_indirect_view`, `optional_indirect.hpp` 369-470).  Assigning a message copies views and
pointers.  `read_binpb` with `alloc_from` puts what it reads into memory of a resource, through
`arena_vector` (`memory_resource_utils.hpp` 243-405).

This model has the memory and what reading does to it.  What is read is given as the list of changes
that the bytes ask for (`VUpd`), in their order: how bytes become changes is modelled in
`Verif/Model/Parse.lean`.  Reading can end with an error at any point.

Simplifications: numbers, and the characters of strings, are opaque values.  A message field that is
not recursive is a part of the enclosing struct, and here its members are members of that struct.
There are no oneofs.  Maps are views of pairs, which are structs with two members.  Memory never runs
out, and the resource releases nothing.
-/

namespace HppProto.ViewMem

/-- The kinds of members: a number; a view of numbers or characters; a pointer to a struct; a view of
structs; the extensions and unknown fields of an extendable message by number
(`field_types.hpp` 616-620: a view of pairs of a number and a view of bytes). -/
inductive VKind where
  | val | vals | ptr (t : Nat) | many (t : Nat) | exts
  deriving Repr, DecidableEq

/-- The members of every struct. -/
abbrev VTypes := Nat → List VKind

/-- A member.  A view is a block, the first element and the number of elements; `exts` are the pairs as
a view of structs. -/
inductive VSlot (V : Type) where
  | val (v : V) | vals (b off n : Nat) | ptr (p : Option Nat) | many (b off n : Nat)
  deriving Repr, DecidableEq

/-- A struct. -/
abbrev VRow (V : Type) := List (VSlot V)

/-- A piece of memory: numbers or characters, structs, or memory that is gone. -/
inductive VBlock (V : Type) where
  | vals (vs : List V) | rows (rs : List (VRow V)) | dead
  deriving Repr, DecidableEq

/-- All pieces of memory, in the order in which they came to be. -/
abbrev VHeap (V : Type) := List (VBlock V)

variable {V : Type} [Inhabited V] [DecidableEq V]

/-- A member that was not set. -/
def VKind.zero : VKind → VSlot V
  | .val => .val default
  | .vals => .vals 0 0 0
  | .ptr _ => .ptr none
  | .many _ => .many 0 0 0
  | .exts => .many 0 0 0

/-- A struct as it is constructed. -/
def zeroRow (T : VTypes) (t : Nat) : VRow V := (T t).map VKind.zero

/-- Read a struct; reading outside of memory, or memory of another kind, is undefined. -/
def getRow (h : VHeap V) (b r : Nat) : Res (VRow V) :=
  match h[b]? with
  | some (.rows rs) =>
    match rs[r]? with
    | some R => .ok R
    | none => .ub
  | _ => .ub

/-- Write a struct. -/
def putRow (h : VHeap V) (b r : Nat) (R : VRow V) : Res (VHeap V) :=
  match h[b]? with
  | some (.rows rs) => if r < rs.length then .ok (h.set b (.rows (rs.set r R))) else .ub
  | _ => .ub

/-- Read a member. -/
def getSlot (h : VHeap V) (b r k : Nat) : Res (VSlot V) := do
  let R ← getRow h b r
  match R[k]? with
  | some s => .ok s
  | none => .ub

/-- Write a member. -/
def putSlot (h : VHeap V) (b r k : Nat) (s : VSlot V) : Res (VHeap V) := do
  let R ← getRow h b r
  if k < R.length then putRow h b r (R.set k s) else .ub

/-- The elements of a view of numbers or characters; an empty view reads nothing. -/
def readVals (h : VHeap V) (b off n : Nat) : Res (List V) :=
  if n = 0 then .ok [] else
    match h[b]? with
    | some (.vals vs) => if off + n ≤ vs.length then .ok ((vs.drop off).take n) else .ub
    | _ => .ub

/-- The elements of a view of structs. -/
def readRows (h : VHeap V) (b off n : Nat) : Res (List (VRow V)) :=
  if n = 0 then .ok [] else
    match h[b]? with
    | some (.rows rs) => if off + n ≤ rs.length then .ok ((rs.drop off).take n) else .ub
    | _ => .ub

/-- What the bytes of a message ask for, field by field. -/
inductive VUpd (V : Type) where
  /-- a number -/
  | val (k : Nat) (v : V)
  /-- a string or bytes -/
  | str (k : Nat) (vs : List V)
  /-- a string or bytes of an input with `padded_input`, by its place in the input -/
  | view (k off n : Nat)
  /-- more elements of a repeated field of numbers, or more unknown fields of a message that is not
  extendable -/
  | app (k : Nat) (vs : List V)
  /-- a recursive message field -/
  | sub (k : Nat) (us : List (VUpd V))
  /-- successive elements of a repeated message field or a map -/
  | many (k : Nat) (uss : List (List (VUpd V)))
  /-- an extension or an unknown field of an extendable message: its number and its bytes -/
  | ext (k : Nat) (num : V) (vs : List V)
  /-- an unknown number of a closed enum in an extendable message: the number of the field and the bytes
  it stands for -/
  | unkEnum (k : Nat) (num : V) (vs : List V)
  /-- an error in the input -/
  | fail

/-- The place of the pair with a number (`std::find_if`, `deserialize.hpp` 624-625). -/
def findPair (num : V) (rs : List (VRow V)) : Option Nat :=
  rs.findIdx? fun (R : VRow V) => match R.head? with
    | some (.val v) => v == num
    | _ => false

/-- Append to the bytes of the pair in the `i`-th row of block `b` (`deserialize.hpp` 640-641,
`arena_vector::reserve` and `append_raw_data`): a new block with the old and the new bytes. -/
def pairAppend (b i : Nat) (vs : List V) (h : VHeap V) : Res (VHeap V) := do
  match ← getSlot h b i 1 with
  | .vals p off n => do
    let old ← readVals h p off n
    putSlot (h ++ [.vals (old ++ vs)]) b i 1 (.vals h.length 0 (old ++ vs).length)
  | _ => .ub

/-- `deserialize_unknown_fields` and `deserialize_unknown_enum` for a view of pairs
(`deserialize.hpp` 621-642, 649-672).  `mat`: whether the `arena_vector` that was made at the start of
this message (1355-1356) has got its own memory.  If not, and if the view has elements, `begin()` is the
null pointer (`memory_resource_utils.hpp` 305-312) and the search reads through it.  `new` is the block of
the bytes of a new pair. -/
def extUpd (new : VBlock V) (k : Nat) (num : V) (vs : List V) (b r : Nat) (mat : Bool) (h : VHeap V) :
    Res (VHeap V) := do
  match ← getSlot h b r k with
  | .many p off n => do
    if n ≠ 0 ∧ mat = false then .ub else do
      let rs ← readRows h p off n
      match findPair num rs with
      | some i => pairAppend p (off + i) vs h
      | none =>
        let h1 := h ++ [new]
        putSlot (h1 ++ [.rows (rs ++ [[.val num, .vals h.length 0 vs.length]])]) b r k
          (.many h1.length 0 (n + 1))
  | _ => .ub

mutual
/-- One change of the struct of type `t` in row `r` of block `b`; `inp` is the block of the input.  The
result has the memory and whether reading goes on.

* `val`: `deserialize.hpp` 1181-1200.
* `str`: 841-876 and 1218-1234: without characters the empty view; otherwise `v.resize(0)` and a new
  block.
* `view`: 831-839 with 499-507: a view of the input.
* `app`: 841-876: nothing without elements; otherwise a new block with the old and the new elements
  (342-357, `arena_vector::reserve` or `resize`: the capacity of a new `arena_vector` is zero).
* `sub`: 1094-1111: where the pointer is set, the struct it points to is read into; otherwise a new
  struct is read into, and the pointer is set if that was successful.
* `many`: 998-1030 with 966-994: the view becomes a new block with the old elements and new ones, which
  are then read into, one after the other.
* `ext`, `unkEnum`: see `extUpd`; the bytes of an unknown enum number are in a local array (651), which is
  gone when the function has returned. -/
def applyU (T : VTypes) (inp : Nat) : VUpd V → (t b r : Nat) → (mat : Bool) → VHeap V →
    Res (VHeap V × Bool)
  | .val k v, _, b, r, _, h => do
    match ← getSlot h b r k with
    | .val _ => .ok (← putSlot h b r k (.val v), true)
    | _ => .ub
  | .str k vs, _, b, r, _, h => do
    match ← getSlot h b r k with
    | .vals _ _ _ =>
      if vs = [] then .ok (← putSlot h b r k (.vals 0 0 0), true)
      else .ok (← putSlot (h ++ [.vals vs]) b r k (.vals h.length 0 vs.length), true)
    | _ => .ub
  | .view k off n, _, b, r, _, h => do
    match ← getSlot h b r k with
    | .vals _ _ _ => .ok (← putSlot h b r k (.vals inp off n), true)
    | _ => .ub
  | .app k vs, _, b, r, _, h => do
    match ← getSlot h b r k with
    | .vals p off n =>
      if vs = [] then .ok (h, true)
      else do
        let old ← readVals h p off n
        .ok (← putSlot (h ++ [.vals (old ++ vs)]) b r k (.vals h.length 0 (n + vs.length)), true)
    | _ => .ub
  | .sub k us, t, b, r, _, h => do
    match (T t)[k]?, ← getSlot h b r k with
    | some (.ptr u), .ptr (some p) => applyAll T inp us u p 0 false h
    | some (.ptr u), .ptr none => do
      let (h1, ok) ← applyAll T inp us u h.length 0 false (h ++ [.rows [zeroRow T u]])
      if ok then .ok (← putSlot h1 b r k (.ptr (some h.length)), true) else .ok (h1, false)
    | _, _ => .ub
  | .many k uss, t, b, r, _, h => do
    match (T t)[k]?, ← getSlot h b r k with
    | some (.many u), .many p off n => do
      let old ← readRows h p off n
      let h1 ← putSlot (h ++ [.rows (old ++ List.replicate uss.length (zeroRow T u))]) b r k
        (.many h.length 0 (n + uss.length))
      applyElems T inp uss u h.length n h1
    | _, _ => .ub
  | .ext k num vs, _, b, r, mat, h => do .ok (← extUpd (.vals vs) k num vs b r mat h, true)
  | .unkEnum k num vs, _, b, r, mat, h => do .ok (← extUpd .dead k num vs b r mat h, true)
  | .fail, _, _, _, _, h => .ok (h, false)

/-- The changes of one message, in order (`deserialize`, `deserialize.hpp` 1338-1365). -/
def applyAll (T : VTypes) (inp : Nat) : List (VUpd V) → (t b r : Nat) → (mat : Bool) → VHeap V →
    Res (VHeap V × Bool)
  | [], _, _, _, _, h => .ok (h, true)
  | u :: us, t, b, r, mat, h => do
    let (h, ok) ← applyU T inp u t b r mat h
    let mat := match u with
      | .ext _ _ _ => true
      | .unkEnum _ _ _ => true
      | _ => mat
    if ok then applyAll T inp us t b r mat h else .ok (h, false)

/-- Successive elements, from row `r` of block `b` on (`deserialize.hpp` 966-994). -/
def applyElems (T : VTypes) (inp : Nat) : List (List (VUpd V)) → (t b r : Nat) → VHeap V →
    Res (VHeap V × Bool)
  | [], _, _, _, h => .ok (h, true)
  | us :: uss, t, b, r, h => do
    let (h, ok) ← applyAll T inp us t b r false h
    if ok then applyElems T inp uss t b (r + 1) h else .ok (h, false)
end

/-! ## Histories -/

/-- A message: one of the program's own, then members and elements; a step is a member and an element,
which is 0 for a pointer. -/
structure VPath where
  (root : Nat) (steps : List (Nat × Nat))
  deriving Repr, DecidableEq

/-- A program has messages, given by type and block, and inputs, given by block. -/
structure VState (V : Type) where
  (heap : VHeap V) (vars : List (Nat × Nat)) (inputs : List Nat)

def VState.init : VState V := ⟨[], [], []⟩

/-- Follow steps from a struct of type `t`, through pointers that are set and elements of views. -/
def nav (T : VTypes) (h : VHeap V) : (t : Nat) → VRow V → List (Nat × Nat) → Option (Nat × VRow V)
  | t, R, [] => some (t, R)
  | t, R, (k, i) :: steps =>
    match (T t)[k]?, R[k]? with
    | some (.ptr u), some (.ptr (some p)) =>
      match getRow h p 0 with
      | .ok R => if i = 0 then nav T h u R steps else none
      | _ => none
    | some (.many u), some (.many p off n) =>
      match getRow h p (off + i) with
      | .ok R => if i < n then nav T h u R steps else none
      | _ => none
    | _, _ => none

/-- The type and contents of the message at a path. -/
def VState.find (T : VTypes) (s : VState V) (a : VPath) : Option (Nat × VRow V) :=
  match s.vars[a.root]? with
  | none => none
  | some (t, b) =>
    match getRow s.heap b 0 with
    | .ok R => nav T s.heap t R a.steps
    | _ => none

/-- What a program can see of a member: the number, the elements of a view, whether a pointer is set, the
number of structs. -/
inductive VLook (V : Type) where
  | val (v : V) | vals (vs : List V) | has (b : Bool) | size (n : Nat)
  deriving Repr, DecidableEq

/-- Look at the `k`-th member of the message at a path: nothing where there is no such message or
member; undefined where the memory is not there. -/
def VState.look (T : VTypes) (s : VState V) (a : VPath) (k : Nat) : Res (Option (VLook V)) :=
  match s.find T a with
  | none => .ok none
  | some (_, R) =>
    match R[k]? with
    | none => .ok none
    | some (.val v) => .ok (some (.val v))
    | some (.vals b off n) => do
      let vs ← readVals s.heap b off n
      .ok (some (.vals vs))
    | some (.ptr p) => .ok (some (.has p.isSome))
    | some (.many _ _ n) => .ok (some (.size n))

/-- What a program does. -/
inductive VOp (V : Type) where
  /-- make a message -/
  | new (t : Nat)
  /-- get an input -/
  | input (vs : List V)
  /-- put something else into the buffer of an input -/
  | reuse (j : Nat) (vs : List V)
  /-- `read_binpb(msg, input, alloc_from(resource))` (`binpb.hpp` 233-236) -/
  | read (i j : Nat) (us : List (VUpd V))
  /-- `pb_serializer::deserialize(msg, input, ctx)`, which does not clear the message first -/
  | merge (i j : Nat) (us : List (VUpd V))
  /-- assign one message, or a part of it, to another one -/
  | assign (i : Nat) (a : VPath)

/-- Read into the message with number `i`; an error of reading does not end the program. -/
def VState.readInto (T : VTypes) (s : VState V) (i j : Nat) (clear : Bool) (us : List (VUpd V)) :
    Res (VState V) :=
  match s.vars[i]?, s.inputs[j]? with
  | some (t, b), some inp => do
    let h ← (if clear then putRow s.heap b 0 (zeroRow T t) else .ok s.heap)
    let (h, _) ← applyAll T inp us t b 0 false h
    .ok { s with heap := h }
  | _, _ => .throw

/-- One call; `.throw` where there is no such message or input. -/
def VState.step (T : VTypes) (s : VState V) : VOp V → Res (VState V)
  | .new t => .ok { s with heap := s.heap ++ [.rows [zeroRow T t]],
                           vars := s.vars ++ [(t, s.heap.length)] }
  | .input vs => .ok { s with heap := s.heap ++ [.vals vs], inputs := s.inputs ++ [s.heap.length] }
  | .reuse j vs =>
    match s.inputs[j]? with
    | some b => .ok { s with heap := s.heap.set b (.vals vs) }
    | none => .throw
  | .read i j us => s.readInto T i j true us
  | .merge i j us => s.readInto T i j false us
  | .assign i a =>
    match s.vars[i]?, s.find T a with
    | some (t, b), some (u, R) =>
      if t = u then do
        let h ← putRow s.heap b 0 R
        .ok { s with heap := h }
      else .throw
    | _, _ => .throw

/-- A history. -/
def VState.run (T : VTypes) : List (VOp V) → VState V → Res (VState V)
  | [], s => .ok s
  | o :: os, s => do
    let s ← s.step T o
    VState.run T os s

end HppProto.ViewMem
