/-!
# Iterators over repeated fields and over the fields of a dynamic message

Model of `repeated_field_iterator` (`dynamic_message/repeated_field_iterator.hpp`) with the classes it
iterates over: `repeated_enum_field_cref`, `repeated_enum_field_mref`, `repeated_string_field_mref`,
`repeated_bytes_field_mref`, `repeated_message_field_cref`, `repeated_message_field_mref`, and the
message references behind `fields()`. All of them have `begin() { return {this, 0}; }`: an iterator is the
address of the reference object it came from, and an index.

Simplifications: what a list holds is a list of abstract values, for `fields()` the fields in order of
declaration; element references are used at once, so the memory of the elements (C121, C126) is left out.
-/

namespace HppProto.Iter

/-- What an expression gives: a value, a failed `assert`, or undefined behaviour. -/
inductive Got (α : Type) where
  | ok (a : α)
  | abort
  | ub
  deriving DecidableEq, Repr

/-- One expression after the other. -/
def Got.bind {α β : Type} (x : Got α) (f : α → Got β) : Got β :=
  match x with
  | .ok a => f a
  | .abort => .abort
  | .ub => .ub

/-- Reference objects by address, with the list each refers to (`storage_`; none if there is no object at
that address), and the lists of the message. -/
structure St (V : Type) where
  refs : Nat → Option Nat
  lists : Nat → List V

/-- `repeated_field_iterator` (33-35): `field_` and `index_`; a default-constructed one has a null pointer. -/
structure It where
  field : Option Nat := none
  index : BitVec 64 := 0
  deriving DecidableEq, Repr

variable {V : Type}

/-- `begin()` (`repeated_message_fields.hpp` 88, `repeated_enum_fields.hpp` 146, 267,
`repeated_string_fields.hpp` 120, `repeated_bytes_fields.hpp` 120). -/
def begin (s : St V) (r : Nat) : Got It :=
  match s.refs r with
  | some _ => .ok ⟨some r, 0⟩
  | none => .ub

/-- `end()` (the lines after those). -/
def finish (s : St V) (r : Nat) : Got It :=
  match s.refs r with
  | some l => .ok ⟨some r, BitVec.ofNat 64 (s.lists l).length⟩
  | none => .ub

/-- `operator++` (50-58). -/
def It.inc (it : It) : It := { it with index := it.index + 1 }

/-- `operator--` (59-67). -/
def It.dec (it : It) : It := { it with index := it.index - 1 }

/-- A result of signed arithmetic on `std::ptrdiff_t`. -/
def signed (k : Int) : Got Int := if -2 ^ 63 ≤ k ∧ k < 2 ^ 63 then .ok k else .ub

/-- `operator+=` (68-71) and `operator+` (76-80, 91-93). -/
def It.add (it : It) (n : Int) : Got It :=
  (signed (it.index.toInt + n)).bind fun k => .ok { it with index := BitVec.ofInt 64 k }

/-- `operator-=` (72-75) and `operator-` with a number (81-85). -/
def It.sub (it : It) (n : Int) : Got It :=
  (signed (it.index.toInt - n)).bind fun k => .ok { it with index := BitVec.ofInt 64 k }

/-- `operator-` of two iterators (87-89). -/
def It.diff (it jt : It) : Got Int := signed (it.index.toInt - jt.index.toInt)

/-- `operator<=>` (95-98); `asserts` says whether the program is built with them. -/
def It.cmp (asserts : Bool) (it jt : It) : Got Ordering :=
  if asserts && it.field != jt.field then .abort else .ok (compare it.index.toNat jt.index.toNat)

/-- `operator==` (100-103). -/
def It.eq (asserts : Bool) (it jt : It) : Got Bool :=
  if asserts && it.field != jt.field then .abort else .ok (it.index == jt.index)

/-- `operator*` (105) with `operator[]` of the reference (`repeated_message_fields.hpp` 74-78, 187-191,
`repeated_enum_fields.hpp` 154-158, 273-277, `repeated_string_fields.hpp` 128-132): the list and the index
that the result refers to. -/
def It.spot (asserts : Bool) (s : St V) (it : It) : Got (Nat × Nat) :=
  match it.field with
  | none => .ub
  | some r =>
    match s.refs r with
    | none => .ub
    | some l =>
      if it.index.toNat < (s.lists l).length then .ok (l, it.index.toNat)
      else if asserts then .abort else .ub

/-- Reading `*it`. -/
def It.deref (asserts : Bool) (s : St V) (it : It) : Got V :=
  (it.spot asserts s).bind fun p =>
    match (s.lists p.1)[p.2]? with
    | some v => .ok v
    | none => .ub

/-- `it[n]` (106). -/
def It.subscript (asserts : Bool) (s : St V) (it : It) (n : Int) : Got V :=
  (it.add n).bind fun jt => jt.deref asserts s

/-- A move of an iterator. -/
inductive Move where
  | inc | dec
  | add (n : Int)
  | sub (n : Int)
  deriving DecidableEq, Repr

/-- One move. -/
def It.move (it : It) : Move → Got It
  | .inc => .ok it.inc
  | .dec => .ok it.dec
  | .add n => it.add n
  | .sub n => it.sub n

/-- Several. -/
def It.walk (it : It) : List Move → Got It
  | [] => .ok it
  | m :: ms => (it.move m).bind fun jt => jt.walk ms

/-- `for (; it != e; ++it) out.push_back(*it);` for at most so many rounds. -/
def visit (asserts : Bool) (s : St V) : Nat → It → It → Got (List V)
  | 0, _, _ => .ub
  | n + 1, it, e =>
    (it.eq asserts e).bind fun b =>
      if b then .ok []
      else (it.deref asserts s).bind fun v => (visit asserts s n it.inc e).bind fun vs => .ok (v :: vs)

/-- `for (auto x : ref)`. -/
def rangeFor (asserts : Bool) (s : St V) (rounds r : Nat) : Got (List V) :=
  (begin s r).bind fun b => (finish s r).bind fun e => visit asserts s rounds b e

/-! ## Writing through iterators -/

/-- What `*it` is: an lvalue of the element (repeated numbers, whose iterators are pointers,
`repeated_scalar_fields.hpp` 225-229), or an object that refers to the element (`string_value_mref`,
`bytes_value_mref`, `enum_value_mref`, `message_value_mref`). -/
inductive Elem where
  | lvalue | proxy
  deriving DecidableEq, Repr

/-- `*it = *jt` with `it` at `i` in the first list and `jt` at `j` in the second: the first list afterwards. The
assignments of the proxies are the default ones (`enum_fields.hpp` 118-119, `message_fields.hpp` 251-252, implicit
in `string_fields.hpp` 186-212 and `bytes_fields.hpp`): they change the pointers in the temporary on the left. -/
def assignElem (k : Elem) (l : List V) (i : Nat) (l' : List V) (j : Nat) : List V :=
  match k with
  | .lvalue => match l'[j]? with
    | some v => l.set i v
    | none => l
  | .proxy => l

/-- `std::copy(from.begin(), from.end(), to.begin())`, with `i` elements copied and `n` to go. -/
def copyLoop (k : Elem) (src : List V) : Nat → Nat → List V → List V
  | 0, _, l => l
  | n + 1, i, l => copyLoop k src n (i + 1) (assignElem k l i src i)

/-- `std::copy` into a list that is at least as long. -/
def copyAll (k : Elem) (src dst : List V) : List V := copyLoop k src src.length 0 dst

/-- `std::remove_if`: `i` is the element looked at, `r` the place for the next one kept, `n` the elements to go. -/
def removeLoop (k : Elem) (p : V → Bool) : Nat → Nat → Nat → List V → List V × Nat
  | 0, _, r, l => (l, r)
  | n + 1, i, r, l =>
    match l[i]? with
    | none => (l, r)
    | some v =>
      if p v then removeLoop k p n (i + 1) r l
      else removeLoop k p n (i + 1) (r + 1) (if r = i then l else assignElem k l r l i)

/-- `auto e = std::remove_if(ref.begin(), ref.end(), p); ref.resize(e - ref.begin());` -/
def eraseRemove (k : Elem) (p : V → Bool) (l : List V) : List V :=
  let x := removeLoop k p l.length 0 0 l
  x.1.take x.2

/-! ## Lifetimes -/

/-- What a program does with reference objects and lists: a new reference to a list, a copy of a reference, assignment,
the end of its lifetime, and changes of a list. -/
inductive Op (V : Type) where
  | make (r l : Nat)
  | copy (r q : Nat)
  | assign (r q : Nat)
  | destroy (r : Nat)
  | append (l : Nat) (v : V)
  | setAt (l i : Nat) (v : V)
  | shrink (l n : Nat)

/-- One of them. The reference classes have default copies (`repeated_message_fields.hpp` 66-70). -/
def Op.run (s : St V) : Op V → Got (St V)
  | .make r l =>
    match s.refs r with
    | none => .ok { s with refs := fun q => if q = r then some l else s.refs q }
    | some _ => .ub
  | .copy r q =>
    match s.refs r, s.refs q with
    | none, some l => .ok { s with refs := fun q => if q = r then some l else s.refs q }
    | _, _ => .ub
  | .assign r q =>
    match s.refs r, s.refs q with
    | some _, some l => .ok { s with refs := fun q => if q = r then some l else s.refs q }
    | _, _ => .ub
  | .destroy r =>
    match s.refs r with
    | some _ => .ok { s with refs := fun q => if q = r then none else s.refs q }
    | none => .ub
  | .append l v => .ok { s with lists := fun k => if k = l then s.lists k ++ [v] else s.lists k }
  | .setAt l i v => .ok { s with lists := fun k => if k = l then (s.lists k).set i v else s.lists k }
  | .shrink l n => .ok { s with lists := fun k => if k = l then (s.lists k).take n else s.lists k }

/-- Several. -/
def runOps (s : St V) : List (Op V) → Got (St V)
  | [] => .ok s
  | o :: os => (o.run s).bind fun s' => runOps s' os

/-- `fields()` (`message_fields.hpp` 184-198, 461-474): the view holds the address of the message reference, and its
iterators have that address too. -/
structure FieldsView where
  base : Nat
  deriving DecidableEq, Repr

/-- `fields()` of a message reference. -/
def fields (s : St V) (r : Nat) : Got FieldsView :=
  match s.refs r with
  | some _ => .ok ⟨r⟩
  | none => .ub

/-- `begin()` of it (192). -/
def FieldsView.begin (v : FieldsView) : It := ⟨some v.base, 0⟩

/-- `end()` of it (193): it reads the message reference. -/
def FieldsView.finish (s : St V) (v : FieldsView) : Got It := Iter.finish s v.base

end HppProto.Iter
