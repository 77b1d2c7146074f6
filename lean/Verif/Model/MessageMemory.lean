import Verif.Model.Outcome

/-!
# The memory of nested dynamic messages

A dynamic message is a row of `value_storage` slots in memory of a `monotonic_buffer_resource`
(`include/hpp_proto/dynamic_message/message_fields.hpp`, `repeated_message_fields.hpp`,
`storage.hpp`).  A slot of a message field holds the address of the row of the child; a slot of a
repeated message field holds the address of a block of rows, with a size and a capacity.  References
(`message_value_mref`, `message_field_mref`, `repeated_message_field_mref`) are a descriptor and an
address, so two references can name the same row, and copying reads its source while it writes its
destination.

Modelled: message fields, repeated message fields and the copying of messages, with their memory.
Everything else a slot can hold (numbers, strings, lists of numbers) is one opaque value, which is
copied as a whole: `Verif/Model/RepeatedMemory.lean` models the memory of those lists, and
`Verif/Model/Dynamic.lean` what copying does to presence and to oneofs.  There are no oneofs here: each
field has its own slot, so the `i`-th field is in the `i`-th slot.  Memory is never given back, as in
a monotonic buffer, and never runs out.
-/

namespace HppProto.MsgMem

/-- What a field holds, from its descriptor (`field_kind_t`): a value that is not a message, a
message of type `t`, or a list of messages of type `t`. -/
inductive MField where
  | val | one (t : Nat) | many (t : Nat)
  deriving Repr, DecidableEq

/-- The fields of every message type (`message_descriptor_t::fields()`); types can be recursive. -/
abbrev MTypes := Nat → List MField

/-- `value_storage` (`storage.hpp` 36-75).  `of_message` is `kids p 1 1` when its selection is not
zero, where `p` is its content, and `kids p c 0` when it is zero; `of_repeated_message` is
`kids content capacity size`. -/
inductive MSlot (V : Type) where
  | val (v : V) | kids (p cap size : Nat)
  deriving Repr, DecidableEq

/-- The slots of one message. -/
abbrev MRow (V : Type) := List (MSlot V)

/-- The blocks handed out by the memory resource, in order; an address is a block and a row of it.
A block allocated for a message has one row, a block allocated for a list has `capacity` rows. -/
abbrev MMem (V : Type) := List (List (MRow V))

variable {V : Type} [Inhabited V]

/-- `value_storage{}`, seen as the kind of the field: no message, no elements, no capacity. -/
def MField.zero : MField → MSlot V
  | .val => .val default
  | .one _ => .kids 0 0 0
  | .many _ => .kids 0 0 0

/-- A row after `message_value_mref::reset` (`message_fields.hpp` 279-282). -/
def zeroRow (T : MTypes) (t : Nat) : MRow V := (T t).map MField.zero

/-- Read the row at an address; reading outside of what was allocated is undefined. -/
def getRow (m : MMem V) (b r : Nat) : Res (MRow V) :=
  match m[b]? with
  | none => .ub
  | some blk =>
    match blk[r]? with
    | none => .ub
    | some row => .ok row

/-- Write the row at an address. -/
def setRow (m : MMem V) (b r : Nat) (row : MRow V) : Res (MMem V) :=
  match m[b]? with
  | none => .ub
  | some blk => if r < blk.length then .ok (m.set b (blk.set r row)) else .ub

/-- Read the slot of the `k`-th field of the message at an address. -/
def getSlot (m : MMem V) (b r k : Nat) : Res (MSlot V) := do
  let row ← getRow m b r
  match row[k]? with
  | none => .ub
  | some s => .ok s

/-- Write the slot of the `k`-th field of the message at an address. -/
def setSlot (m : MMem V) (b r k : Nat) (s : MSlot V) : Res (MMem V) := do
  let row ← getRow m b r
  if k < row.length then setRow m b r (row.set k s) else .ub

/-- The content, capacity and size in a slot; a slot of another kind is a wrong union member. -/
def MSlot.get : MSlot V → Res (Nat × Nat × Nat)
  | .val _ => .ub
  | .kids p c n => .ok (p, c, n)

/-- `repeated_message_field_mref::reserve` (`repeated_message_fields.hpp` 145-167) on the slot: when
the capacity is too small, a new block of `n` rows, with the first `size` rows of the old block (not
read when there are none) and zeros after them. -/
def reserve (T : MTypes) (t n : Nat) (m : MMem V) (s : MSlot V) : Res (MMem V × MSlot V) := do
  let (p, c, size) ← s.get
  if c < n then
    let old ← (if size = 0 then .ok [] else
      match m[p]? with
      | none => .ub
      | some blk => if size ≤ blk.length then .ok (blk.take size) else .ub)
    .ok (m ++ [old ++ List.replicate (n - size) (zeroRow T t)], .kids m.length n size)
  else .ok (m, s)

/-- `repeated_message_field_mref::resize` (`repeated_message_fields.hpp` 169-183) on the slot: rows
from the old size on are filled with zeros, whatever the block held there. -/
def resize (T : MTypes) (t n : Nat) (m : MMem V) (s : MSlot V) : Res (MMem V × MSlot V) := do
  let (_, _, size) ← s.get
  let (m, s) ← reserve T t n m s
  let (p, c, _) ← s.get
  if size < n then
    match m[p]? with
    | none => .ub
    | some blk =>
      if n ≤ blk.length then
        .ok (m.set p (blk.take size ++ List.replicate (n - size) (zeroRow T t) ++ blk.drop n),
          .kids p c n)
      else .ub
  else .ok (m, .kids p c n)

/-- `message_field_mref::emplace` (`message_fields.hpp` 623-632) on the slot: a new row when there is
no message, the old row otherwise; in both cases the row is reset. -/
def emplace (T : MTypes) (t : Nat) (m : MMem V) (s : MSlot V) : Res (MMem V × MSlot V) := do
  let (p, c, n) ← s.get
  if n = 0 then .ok (m ++ [[zeroRow T t]], .kids m.length 1 1)
  else do
    let m ← setRow m p 0 (zeroRow T t)
    .ok (m, .kids p c n)

/-- `reset` of a message field (`message_fields.hpp` 654) and `reset` or `clear` of a repeated message
field (`repeated_message_fields.hpp` 204-205): the block stays where it is. -/
def clear (m : MMem V) (s : MSlot V) : Res (MMem V × MSlot V) := do
  let (p, c, _) ← s.get
  .ok (m, .kids p c 0)

/-- Run a function of a field on the slot of the `k`-th field of the message at an address. -/
def atSlot (b r k : Nat) (f : MMem V → MSlot V → Res (MMem V × MSlot V)) (m : MMem V) :
    Res (MMem V) := do
  let s ← getSlot m b r k
  let (m, s) ← f m s
  setSlot m b r k s

/-- The loop of `repeated_message_field_mref::clone_from` (`repeated_message_fields.hpp` 224-227) from
the element `i` on: size and address are read again for each element, of the destination and of the
source.  `left` bounds the number of turns; it starts as the size that the destination was given. -/
def cloneElems (sub : Nat → Nat → Nat → Nat → MMem V → Res (MMem V)) (b r sb sr k : Nat) :
    (left i : Nat) → MMem V → Res (MMem V)
  | 0, _, m => .ok m
  | left + 1, i, m => do
    let (q, _, n) ← (← getSlot m b r k).get
    if i < n then do
      let (p, _, _) ← (← getSlot m sb sr k).get
      let m ← sub q i p i m
      cloneElems sub b r sb sr k left (i + 1) m
    else .ok m

/-- `clone_from` of one field (`field_visit.hpp` 130-136, `message_fields.hpp` 666-673,
`repeated_message_fields.hpp` 222-228): into the `k`-th field of the message at `(b, r)` from the one
of the message at `(sb, sr)`.  The source is read through its slot, after the destination was emplaced
or resized.  `sub` is `clone_from` of messages: its arguments are destination and source. -/
def cloneField (T : MTypes) (sub : Nat → Nat → Nat → Nat → Nat → MMem V → Res (MMem V))
    (b r sb sr k : Nat) : MField → MMem V → Res (MMem V)
  | .val, m => do
    let s ← getSlot m sb sr k
    setSlot m b r k s
  | .one t, m => do
    let (_, _, n) ← (← getSlot m sb sr k).get
    if n = 0 then atSlot b r k clear m
    else do
      let m ← atSlot b r k (emplace T t) m
      let (q, _, _) ← (← getSlot m b r k).get
      let (p, _, _) ← (← getSlot m sb sr k).get
      sub t q 0 p 0 m
  | .many t, m => do
    let (_, _, n) ← (← getSlot m sb sr k).get
    let m ← atSlot b r k (resize T t n) m
    cloneElems (sub t) b r sb sr k n 0 m

/-- The loop of `message_value_mref::clone_from` (`message_fields.hpp` 481-486) from field `k` on. -/
def cloneFields (T : MTypes) (sub : Nat → Nat → Nat → Nat → Nat → MMem V → Res (MMem V))
    (b r sb sr : Nat) : (fs : List MField) → (k : Nat) → MMem V → Res (MMem V)
  | [], _, m => .ok m
  | f :: fs, k, m => do
    let m ← cloneField T sub b r sb sr k f m
    cloneFields T sub b r sb sr fs (k + 1) m

/-- `message_value_mref::clone_from` (`message_fields.hpp` 481-486) of messages of type `t`, with at
most `fuel` calls inside each other. -/
def cloneMsg (T : MTypes) : (fuel : Nat) → (t b r sb sr : Nat) → MMem V → Res (MMem V)
  | 0, _, _, _, _, _, _ => .stuck
  | d + 1, t, b, r, sb, sr, m => cloneFields T (cloneMsg T d) b r sb sr (T t) 0 m

/-- `message_field_mref::set` (`message_fields.hpp` 675-686) with a message of the right type: a field
that has a message is not reset first. -/
def setMsg (T : MTypes) (fuel t b r k sb sr : Nat) (m : MMem V) : Res (MMem V) := do
  let (p, _, n) ← (← getSlot m b r k).get
  if n = 0 then do
    let m ← atSlot b r k (emplace T t) m
    let (q, _, _) ← (← getSlot m b r k).get
    cloneMsg T fuel t q 0 sb sr m
  else cloneMsg T fuel t p 0 sb sr m

/-! ## Histories -/

/-- A message a program can reach: one of its own messages, and then message fields and elements of
repeated message fields; a step is a field and an element, which is 0 for a field that is not
repeated. -/
structure MPath where
  (root : Nat) (steps : List (Nat × Nat))
  deriving Repr, DecidableEq

/-- A program's own messages are given by type and block. -/
structure MState (V : Type) where
  (mem : MMem V) (roots : List (Nat × Nat))

/-- Before the first call.  The first block stands for the null pointer of `value_storage{}`: it has no
rows, so reading through it is undefined. -/
def MState.init : MState V := ⟨[[]], []⟩

/-- Follow steps from the message of type `t` at `(b, r)`, as `*f` of a message field that has a value
and `f[i]` of an element below the size do (`message_fields.hpp` 645-647,
`repeated_message_fields.hpp` 187-191).  There is no result where the API has no message. -/
def nav (T : MTypes) (m : MMem V) : (t b r : Nat) → List (Nat × Nat) → Option (Nat × Nat × Nat)
  | t, b, r, [] => some (t, b, r)
  | t, b, r, (k, i) :: steps =>
    match getSlot m b r k, (T t)[k]? with
    | .ok (.kids p _ n), some (.one u) => if i < n then nav T m u p i steps else none
    | .ok (.kids p _ n), some (.many u) => if i < n then nav T m u p i steps else none
    | _, _ => none

/-- The type and the address of the message at a path. -/
def MState.find (T : MTypes) (s : MState V) (a : MPath) : Option (Nat × Nat × Nat) :=
  match s.roots[a.root]? with
  | none => none
  | some (t, b) => nav T s.mem t b 0 a.steps

/-- The calls of a program. -/
inductive MOp (V : Type) where
  /-- make a message of type `t` (`message_fields.hpp` 241-247) -/
  | new (t : Nat)
  /-- set a field that is not a message -/
  | setVal (a : MPath) (k : Nat) (v : V)
  /-- `emplace()` of a message field -/
  | emplace (a : MPath) (k : Nat)
  /-- `reset()` or `clear()` of a message field or a repeated message field -/
  | clear (a : MPath) (k : Nat)
  /-- `reserve(n)` of a repeated message field -/
  | reserve (a : MPath) (k n : Nat)
  /-- `resize(n)` of a repeated message field -/
  | resize (a : MPath) (k n : Nat)
  /-- `emplace_back()` of a repeated message field -/
  | add (a : MPath) (k : Nat)
  /-- `reset()` of a message -/
  | reset (a : MPath)
  /-- `clone_from` of a message -/
  | copy (a src : MPath)
  /-- `clone_from` of a field, from the same field of another message -/
  | copyField (a : MPath) (k : Nat) (src : MPath)
  /-- `set(message)` of a message field -/
  | set (a : MPath) (k : Nat) (src : MPath)
  /-- `alias_from` of a message -/
  | alias (a src : MPath)
  /-- `alias_from` of a message field or a repeated message field, from the same field of another
  message -/
  | aliasField (a : MPath) (k : Nat) (src : MPath)
  deriving Repr

/-- Do something with the message at a path: its type and address.  Where the API has no such message
the call cannot be made: `.throw`, as `value()` and `at()` do. -/
def MState.at (T : MTypes) (s : MState V) (a : MPath)
    (f : (t b r : Nat) → MMem V → Res (MMem V)) : Res (MState V) :=
  match s.find T a with
  | none => .throw
  | some (t, b, r) => do
    let m ← f t b r s.mem
    .ok { s with mem := m }

/-- One call.  `new`: `message_fields.hpp` 241-247; `setVal`: `scalar_fields.hpp` 152-156;
`add`: `repeated_message_fields.hpp` 211-215; `alias`: `message_fields.hpp` 476-479; `aliasField`:
`message_fields.hpp` 661-664 and `repeated_message_fields.hpp` 217-220; the others above.  A call on a
field of another kind does not exist: `.throw`. -/
def MState.step (T : MTypes) (fuel : Nat) (s : MState V) : MOp V → Res (MState V)
  | .new t => .ok ⟨s.mem ++ [[zeroRow T t]], s.roots ++ [(t, s.mem.length)]⟩
  | .setVal a k v => s.at T a fun t b r m =>
    match (T t)[k]? with
    | some .val => setSlot m b r k (.val v)
    | _ => .throw
  | .emplace a k => s.at T a fun t b r m =>
    match (T t)[k]? with
    | some (.one u) => atSlot b r k (MsgMem.emplace T u) m
    | _ => .throw
  | .clear a k => s.at T a fun t b r m =>
    match (T t)[k]? with
    | some (.one _) => atSlot b r k MsgMem.clear m
    | some (.many _) => atSlot b r k MsgMem.clear m
    | _ => .throw
  | .reserve a k n => s.at T a fun t b r m =>
    match (T t)[k]? with
    | some (.many u) => atSlot b r k (MsgMem.reserve T u n) m
    | _ => .throw
  | .resize a k n => s.at T a fun t b r m =>
    match (T t)[k]? with
    | some (.many u) => atSlot b r k (MsgMem.resize T u n) m
    | _ => .throw
  | .add a k => s.at T a fun t b r m =>
    match (T t)[k]? with
    | some (.many u) => atSlot b r k (fun m s => do
        let (_, _, n) ← s.get
        MsgMem.resize T u (n + 1) m s) m
    | _ => .throw
  | .reset a => s.at T a fun t b r m => setRow m b r (zeroRow T t)
  | .copy a src =>
    match s.find T src with
    | none => .throw
    | some (st, sb, sr) => s.at T a fun t b r m =>
      if st = t then cloneMsg T fuel t b r sb sr m else .throw
  | .copyField a k src =>
    match s.find T src with
    | none => .throw
    | some (st, sb, sr) => s.at T a fun t b r m =>
      if st = t then
        match (T t)[k]? with
        | some f => cloneField T (cloneMsg T fuel) b r sb sr k f m
        | none => .throw
      else .throw
  | .set a k src =>
    match s.find T src with
    | none => .throw
    | some (st, sb, sr) => s.at T a fun t b r m =>
      match (T t)[k]? with
      | some (.one u) => if st = u then setMsg T fuel u b r k sb sr m else .throw
      | _ => .throw
  | .alias a src =>
    match s.find T src with
    | none => .throw
    | some (st, sb, sr) => s.at T a fun t b r m =>
      if st = t then do
        let row ← getRow m sb sr
        setRow m b r row
      else .throw
  | .aliasField a k src =>
    match s.find T src with
    | none => .throw
    | some (st, sb, sr) => s.at T a fun t b r m =>
      if st = t then do
        let x ← getSlot m sb sr k
        setSlot m b r k x
      else .throw

/-- A history. -/
def MState.run (T : MTypes) (fuel : Nat) : List (MOp V) → MState V → Res (MState V)
  | [], s => .ok s
  | o :: os, s => do
    let s ← s.step T fuel o
    MState.run T fuel os s

end HppProto.MsgMem
