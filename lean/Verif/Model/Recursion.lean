/-!
# Model of `recursion_scope`: `include/hpp_proto/recursion.hpp` 53-81

A scope is a C++ object: its constructor takes a place if one is free, its destructor, which
runs on every way out of the block, gives it back. A run is a tree of nested blocks.
-/
namespace HppProto

/-- What code does between two points of a run: it opens a scope, runs the blocks nested in
it if the scope was granted (as every caller does: deserialize.hpp 725-729, 1316-1320,
1339-1343, serialize.hpp 217-220, 291-294, 677-682 return at once if it is refused), and goes on. With
`stop` it returns early, after a refused block. -/
inductive Block where
  | scope (stop : Bool) (body : List Block)

/-- Constructor: 60-67. The counter afterwards, and whether the scope holds a place. -/
def scopeEnter (active max : BitVec 32) : BitVec 32 × Bool :=
  if active ≤ max && active != 0xffffffff#32 then (active + 1, true) else (active, false)

/-- Destructor: 74-78. -/
def scopeLeave (active : BitVec 32) (held : Bool) : BitVec 32 := if held then active - 1 else active

mutual
/-- Runs a block from a counter value. Result: the counter afterwards, whether the scope was
granted, and all counter values that occurred. -/
def runBlock (max : BitVec 32) (active : BitVec 32) : Block → BitVec 32 × Bool × List (BitVec 32)
  | .scope stop body =>
    let e := scopeEnter active max
    let r := if e.2 then runBlocks max stop e.1 body else (e.1, [])
    (scopeLeave r.1 e.2, e.2, e.1 :: r.2 ++ [scopeLeave r.1 e.2])
/-- Runs blocks one after the other. -/
def runBlocks (max : BitVec 32) (stop : Bool) (active : BitVec 32) : List Block → BitVec 32 × List (BitVec 32)
  | [] => (active, [])
  | b :: bs =>
    let r := runBlock max active b
    if stop && !r.2.1 then (r.1, r.2.2)
    else
      let rest := runBlocks max stop r.1 bs
      (rest.1, r.2.2 ++ rest.2)
end

end HppProto
