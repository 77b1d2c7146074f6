/-!
# Model of `optional<bool, Default>` and `bool_proxy`: `include/hpp_proto/field_types.hpp` 260-327

The state of an object is its byte `impl`. A proxy is a pointer to the byte of an object;
objects are numbered.
-/
namespace HppProto

/-- `default_state` 290-291: the high bit, and the default value. -/
def optDefaultState (dflt : Bool) : BitVec 8 := 0x80#8 ||| (if dflt then 1#8 else 0#8)

/-- `static_cast<std::uint8_t>(v)`. -/
def optByte (v : Bool) : BitVec 8 := if v then 1#8 else 0#8

/-- `has_value` 305. -/
def optHas (impl : BitVec 8) : Bool := impl &&& 0x80#8 == 0#8

/-- `value` 318. -/
def optValue (impl : BitVec 8) : Bool := impl &&& 0x01#8 != 0#8

/-- `bool_proxy::operator bool` 269. -/
def proxyRead (impl : BitVec 8) : Bool := impl != 0#8

/-- Operations on objects (numbers `i`, `j`) and proxies (numbers `p`, `q`). -/
inductive OptOp where
  /-- `x_i = optional{}`, construction: 298, 292 -/
  | fresh (i : Nat)
  /-- `x_i = v`, `optional(bool)`: 300, 320-323 -/
  | assign (i : Nat) (v : Bool)
  /-- `x_i = x_j`: 301-304 -/
  | copy (i j : Nat)
  /-- `p = x_i.emplace()` as initialisation of a new proxy: 308-311 -/
  | emplace (p i : Nat)
  /-- `p = x_i.emplace(v)`: 313-316 -/
  | emplaceV (p i : Nat) (v : Bool)
  /-- `x_i.reset()`: 327 -/
  | reset (i : Nat)
  /-- `x_i.swap(x_j)`: 326 -/
  | swap (i j : Nat)
  /-- `p = v` through a proxy: 272-275 -/
  | proxyAssign (p : Nat) (v : Bool)
  /-- `p = q` between proxies: 270-271, defaulted, so the pointer is copied -/
  | proxyCopy (p q : Nat)

structure OptState where
  impl : Nat → BitVec 8
  ptr : Nat → Nat

def OptState.put (s : OptState) (i : Nat) (b : BitVec 8) : OptState := { s with impl := fun k => if k = i then b else s.impl k }
def OptState.point (s : OptState) (p i : Nat) : OptState := { s with ptr := fun k => if k = p then i else s.ptr k }

/-- One operation. -/
def optStep (dflt : Bool) (s : OptState) : OptOp → OptState
  | .fresh i => s.put i (optDefaultState dflt)
  | .assign i v => s.put i (optByte v)
  | .copy i j => s.put i (s.impl j)
  | .emplace p i => (s.put i (optByte dflt)).point p i
  | .emplaceV p i v => (s.put i (optByte v)).point p i
  | .reset i => s.put i (optDefaultState dflt)
  | .swap i j => (s.put i (s.impl j)).put j (s.impl i)
  | .proxyAssign p v => s.put (s.ptr p) (optByte v)
  | .proxyCopy p q => s.point p (s.ptr q)

/-- All objects default-constructed. -/
def optInit (dflt : Bool) : OptState := ⟨fun _ => optDefaultState dflt, fun p => p⟩

end HppProto
