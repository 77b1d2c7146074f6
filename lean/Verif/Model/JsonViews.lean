/-!
# Where JSON is read to in non-owning messages

With `non_owning_traits` recursive message fields are pointers to messages elsewhere, and copies of a message share what these point to.
Model of what reading JSON does to this memory (`include/hpp_proto/json.hpp` 315-328 for `optional_indirect_view`, 356-366 for
`indirect_view`, 464-487 for the whole; `json/util.hpp` 76-103 for `null`).

Simplifications: what is read is given as the list of members that the text has, in their order (`Doc`); how text becomes members is
modelled in `Verif/Model/GenJson.lean`. Numbers, strings and the like are opaque values in numbered slots; a message field that is not
recursive is part of the enclosing struct, and its members are slots of that struct; so are the values of map entries. The memory resource
gives memory that nothing else uses, does not run out, and releases nothing.
-/

namespace HppProto.JsonViews

/-- A struct: values, and pointers to other structs. -/
structure Obj where
  vals : Nat → Option Nat
  ptrs : Nat → Option Nat

/-- A struct as made by default. -/
def Obj.fresh : Obj := ⟨fun _ => none, fun _ => none⟩

/-- Structs by address; those from `next` on are not in use. -/
structure Heap where
  objs : Nat → Obj
  next : Nat

/-- The members of a JSON object, as far as they can be read. -/
inductive Doc where
  /-- The end of the object. -/
  | done
  /-- Text that is refused. -/
  | fail
  /-- A member that is not a recursive message. -/
  | value (s v : Nat) (rest : Doc)
  /-- `null` for a recursive message field (`optional_indirect_view`). -/
  | null (s : Nat) (rest : Doc)
  /-- An object for a recursive message field (`optional_indirect_view`). -/
  | opt (s : Nat) (inner rest : Doc)
  /-- An object for the message of a map entry (`indirect_view`). -/
  | view (s : Nat) (inner rest : Doc)

/-- Changes the struct at an address. -/
def Heap.put (h : Heap) (a : Nat) (o : Obj) : Heap := { h with objs := fun b => if b = a then o else h.objs b }

/-- Assigns to a pointer in a struct. -/
def Heap.setPtr (h : Heap) (a s : Nat) (p : Option Nat) : Heap :=
  h.put a { h.objs a with ptrs := fun t => if t = s then p else (h.objs a).ptrs t }

/-- Assigns to a value in a struct. -/
def Heap.setVal (h : Heap) (a s v : Nat) : Heap :=
  h.put a { h.objs a with vals := fun t => if t = s then some v else (h.objs a).vals t }

/-- `new (memory_resource().allocate(...)) Type`: the address is `next` before. -/
def Heap.alloc (h : Heap) : Heap := { objs := fun b => if b = h.next then Obj.fresh else h.objs b, next := h.next + 1 }

/-- Reads members into the struct at `a`; the result says whether reading goes on. An `optional_indirect_view` always gets a new struct,
and is assigned after that was read, also if reading failed (`json.hpp` 320-325). An `indirect_view` that has a struct is read into
that struct (`json.hpp` 360-364). -/
def readInto : Doc → Nat → Heap → Heap × Bool
  | .done, _, h => (h, true)
  | .fail, _, h => (h, false)
  | .value s v rest, a, h => readInto rest a (h.setVal a s v)
  | .null s rest, a, h => readInto rest a (h.setPtr a s none)
  | .opt s inner rest, a, h =>
    let r := readInto inner h.next h.alloc
    let h' := r.1.setPtr a s (some h.next)
    if r.2 then readInto rest a h' else (h', false)
  | .view s inner rest, a, h =>
    match (h.objs a).ptrs s with
    | some p =>
      let r := readInto inner p h
      if r.2 then readInto rest a r.1 else (r.1, false)
    | none =>
      let r := readInto inner h.next (h.alloc.setPtr a s (some h.next))
      if r.2 then readInto rest a r.1 else (r.1, false)

/-- `read_json(message, text, alloc_from(resource))`: the message is assigned a default one first (`json.hpp` 471-473). -/
def readJson (doc : Doc) (a : Nat) (h : Heap) : Heap × Bool := readInto doc a (h.put a Obj.fresh)

end HppProto.JsonViews
