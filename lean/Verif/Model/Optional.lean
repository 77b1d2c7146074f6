/-!
# Model of `optional<T, Default>`: `include/hpp_proto/field_types.hpp` 84-259

The type of proto2 and proto3 `optional` members other than `bool` and messages. Objects are numbered; the state of an object is
its members `_value` and `_present` (103-104). Not modelled: the constructors and the move assignment from `optional<U>`
(116-123, 188-194), which access a private member of another class and do not compile if used; exceptions of `T`.
-/
namespace HppProto

/-- What the class template gets from its arguments: `default_value()` (90-100), `T{}`, what a move leaves behind, and `==`. -/
structure OptTy (V : Type) where
  dflt : V
  zero : V
  moved : V → V
  eq : V → V → Bool

/-- Operations on objects. -/
inductive OptTOp (V : Type) where
  /-- construction without argument or with `nullopt`: 109, 111 -/
  | fresh (i : Nat)
  /-- construction or assignment of a value: 143-157, 165-174 -/
  | assign (i : Nat) (v : V)
  /-- `x_i = nullopt`: 159-163 -/
  | null (i : Nat)
  /-- `x_i = x_j`, also as construction: 114, 176 -/
  | copy (i j : Nat)
  /-- `x_i = std::move(x_j)`, also as construction: 113, 178 -/
  | move (i j : Nat)
  /-- from `std::optional`: 125-141, 196-210 -/
  | fromStd (i : Nat) (o : Option V)
  /-- from an `optional<U>` with value `u` (converted to `T`) and that presence: 180-186 -/
  | fromOther (i : Nat) (u : V) (present : Bool)
  /-- `x_i.emplace()`: 238-245 -/
  | emplace (i : Nat)
  /-- `x_i.emplace(v)`: 238-245 -/
  | emplaceV (i : Nat) (v : V)
  /-- an assignment through `value()`, `*` or `->`: 215, 229, 232 -/
  | write (i : Nat) (v : V)
  /-- `x_i.swap(x_j)`: 247-251 -/
  | swap (i j : Nat)
  /-- `x_i.reset()`: 253-256 -/
  | reset (i : Nat)

/-- `_value` and `_present` of every object. -/
abbrev OptTState (V : Type) := Nat → V × Bool

/-- Replace an object. -/
def optPut {S : Type} (s : Nat → S) (i : Nat) (x : S) : Nat → S := fun k => if k = i then x else s k

/-- One operation. -/
def optTStep {V : Type} (T : OptTy V) (s : OptTState V) : OptTOp V → OptTState V
  | .fresh i => optPut s i (T.dflt, false)
  | .assign i v => optPut s i (v, true)
  | .null i => optPut s i (T.dflt, false)
  | .copy i j => optPut s i (s j)
  | .move i j => if i = j then optPut s i (T.moved (s i).1, (s i).2) else optPut (optPut s j (T.moved (s j).1, (s j).2)) i (s j)
  | .fromStd i o => optPut s i (o.getD T.dflt, o.isSome)
  | .fromOther i u p => optPut s i (u, p)
  | .emplace i => optPut s i (T.zero, true)
  | .emplaceV i v => optPut s i (v, true)
  | .write i v => optPut s i (v, (s i).2)
  | .swap i j => optPut (optPut s i (s j)) j (s i)
  | .reset i => optPut s i (T.dflt, false)

/-- A history, from objects that are all constructed without argument. -/
def optTRun {V : Type} (T : OptTy V) (ops : List (OptTOp V)) : OptTState V := ops.foldl (optTStep T) fun _ => (T.dflt, false)

/-- `has_value` 212-213. -/
def optTHas {V : Type} (s : OptTState V) (i : Nat) : Bool := (s i).2
/-- `value`, `operator*` 215-218, 232-236. -/
def optTValue {V : Type} (s : OptTState V) (i : Nat) : V := (s i).1
/-- `value_or` 220-227. -/
def optTValueOr {V : Type} (s : OptTState V) (i : Nat) (x : V) : V := if optTHas s i then (s i).1 else x
/-- `operator==` 258: member by member. -/
def optTEq {V : Type} (T : OptTy V) (s : OptTState V) (i j : Nat) : Bool := T.eq (s i).1 (s j).1 && (s i).2 == (s j).2

end HppProto
