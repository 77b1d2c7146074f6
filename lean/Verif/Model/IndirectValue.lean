/-!
# `indirect`

Model of `include/hpp_proto/indirect.hpp` 12-236, which the generator uses for messages in maps and oneofs that refer to themselves. Variables
are numbered, and each has an allocator and a pointer, or is not alive. Memory is what is allocated, by address, with the
allocator that it came from and the value in it. Any allocation, and any constructor, assignment or swap of a value, may throw.

Simplifications: values have no parts that are variables (no assignment from a part of the target); a constructor that throws leaves its source
as it was; rvalues of type `T` are taken like lvalues. Comparisons read both values, and are given as reading.
-/
namespace HppProto.Box

/-- The allocator (`std::allocator_traits`), the value of a new object, what a move leaves of a value, what is left in the target of an
assignment or swap that throws, and which steps throw. -/
structure Env (V : Type) where
  alwaysEqual : Bool
  propagateCopy : Bool
  propagateMove : Bool
  propagateSwap : Bool
  select : Nat → Nat
  initial : V
  moved : V → V
  torn : V → V → V
  fails : Nat → Bool

/-- A variable: `alloc_` and `obj_` (`indirect.hpp` 22-23). -/
structure Var where
  alloc : Nat
  obj : Option Nat
  deriving DecidableEq, Repr

/-- The variables that are alive, the memory (address, allocator, value), and the number of steps that could throw so far, also used as the
next address. -/
structure St (V : Type) where
  vars : Nat → Option Var
  heap : Nat → Option (Nat × V)
  tick : Nat
  /-- What was read. -/
  seen : List V

def upd {α : Type} (f : Nat → Option α) (i : Nat) (x : Option α) : Nat → Option α := fun j => if j = i then x else f j

/-- Nothing is alive. -/
def St.start {V : Type} : St V := ⟨fun _ => none, fun _ => none, 0, []⟩

/-- What an operation does: return, throw, or something undefined. -/
inductive Out (V : Type) where
  | done (s : St V) | threw (s : St V) | ub

section
variable {V : Type} (E : Env V)

/-- Equal allocators have equal keys. -/
def Env.key (a : Nat) : Nat := if E.alwaysEqual then 0 else a

/-- `operator==` of allocators. -/
def Env.same (a b : Nat) : Bool := E.key a = E.key b

/-- `allocate_default` and `allocate_construct` (206-227): the address; `none`: the allocation or the constructor threw, and then what was
allocated is freed. -/
def create (a : Nat) (v : V) (s : St V) : Option Nat × St V :=
  if E.fails s.tick then (none, { s with tick := s.tick + 1 })
  else if E.fails (s.tick + 1) then (none, { s with tick := s.tick + 2 })
  else (some s.tick, { s with heap := upd s.heap s.tick (some (E.key a, v)), tick := s.tick + 2 })

/-- `*raw_ptr()` (204-205): undefined for a null pointer. -/
def St.read (s : St V) (b : Var) : Option V := b.obj.bind fun p => (s.heap p).map Prod.snd

/-- The value at an address. -/
def St.put (s : St V) (p : Nat) (v : V) : St V := { s with heap := upd s.heap p ((s.heap p).map fun x => (x.1, v)) }

/-- `destroy` (229-235): undefined unless an equal allocator allocated this. The pointer is null afterwards. -/
def destroy (b : Var) (s : St V) : Option (St V) :=
  match b.obj with
  | none => some s
  | some p =>
    match s.heap p with
    | some (k, _) => if k = E.key b.alloc then some { s with heap := upd s.heap p none } else none
    | none => none

def St.set (s : St V) (i : Nat) (b : Var) : St V := { s with vars := upd s.vars i (some b) }

/-- `*raw_ptr() = v`, where `p` holds `old`. -/
def assignAt (p : Nat) (old v : V) (s : St V) : Out V :=
  if E.fails s.tick then .threw ({ s with tick := s.tick + 1 }.put p (E.torn old v))
  else .done ({ s with tick := s.tick + 1 }.put p v)

/-- A new object for variable `i`, whose pointer is null, or which is new. -/
def fill (i a : Nat) (v : V) (s : St V) (k : St V → St V) : Out V :=
  match create E a v s with
  | (none, s) => .threw s
  | (some p, s) => .done (k (s.set i ⟨a, some p⟩))

/-- What a program does. New variables get an unused number. -/
inductive Op (V : Type) where
  /-- 26-47: from nothing (the value of a new object) or from a value, with allocator `a` (the standard one, or one that is given). -/
  | make (i a : Nat) (v : Option V)
  /-- 49-51: `indirect(const indirect &)`, or, with an allocator, 55-56. -/
  | copy (i j : Nat) (a : Option Nat)
  /-- 52-53: `indirect(indirect &&)`. -/
  | move (i j : Nat)
  /-- 59-72: the same with an allocator. -/
  | moveTo (i j a : Nat)
  /-- 74-92: `operator=(const indirect &)`. -/
  | assign (i j : Nat)
  /-- 94-110: `operator=(T &&)` and `operator=(const T &)`. -/
  | set (i : Nat) (v : V)
  /-- 112-141: `operator=(indirect &&)`. -/
  | moveAssign (i j : Nat)
  /-- Assignment through `value()`, `operator*` or `operator->` (143-154). -/
  | poke (i : Nat) (v : V)
  /-- Reading through them, and `operator==` and `operator<=>` (156-180). -/
  | get (i : Nat)
  /-- 182-199: `swap`. -/
  | swap (i j : Nat)
  /-- 30: the destructor. -/
  | drop (i : Nat)

/-- `operator=(const indirect &)` (74-92), `this` and `other` different. -/
def copyAssign (i : Nat) (x y : Var) (s : St V) : Out V :=
  if E.propagateCopy && !E.same x.alloc y.alloc then
    match destroy E x s with
    | none => .ub
    | some s =>
      let s := s.set i ⟨y.alloc, none⟩
      match s.read y with
      | none => .ub
      | some v => fill E i y.alloc v s id
  else
    let a := if E.propagateCopy then y.alloc else x.alloc
    let s := s.set i ⟨a, x.obj⟩
    match s.read y with
    | none => .ub
    | some v =>
      match x.obj with
      | some p =>
        match s.read x with
        | some old => assignAt E p old v s
        | none => .ub
      | none => fill E i a v s id

/-- `operator=(indirect &&)` (112-141), `this` and `other` different. -/
def moveAssign (i j : Nat) (x y : Var) (s : St V) : Out V :=
  if E.propagateMove || E.alwaysEqual || E.same x.alloc y.alloc then
    match destroy E x s with
    | none => .ub
    | some s => .done ((s.set i ⟨if E.propagateMove then y.alloc else x.alloc, y.obj⟩).set j ⟨y.alloc, none⟩)
  else
    match y.obj, s.read y with
    | some q, some v =>
      match x.obj with
      | some p =>
        match s.read x with
        | some old =>
          match assignAt E p old v s with
          | .done s => .done (s.put q (E.moved v))
          | o => o
        | none => .ub
      | none => fill E i x.alloc v s (fun s => s.put q (E.moved v))
    | _, _ => .ub

/-- `swap` (182-199), `this` and `other` different. -/
def swapVars (i j : Nat) (x y : Var) (s : St V) : Out V :=
  let a := if E.propagateSwap then y.alloc else x.alloc
  let b := if E.propagateSwap then x.alloc else y.alloc
  if E.alwaysEqual || E.same a b then .done ((s.set i ⟨a, y.obj⟩).set j ⟨b, x.obj⟩)
  else
    let s := (s.set i ⟨a, x.obj⟩).set j ⟨b, y.obj⟩
    match x.obj, s.read x, y.obj, s.read y with
    | some p, some v, some q, some w =>
      if E.fails s.tick then .threw (({ s with tick := s.tick + 1 }.put p (E.torn v w)).put q (E.torn w v))
      else .done (({ s with tick := s.tick + 1 }.put p w).put q v)
    | _, _, _, _ => .ub

/-- One operation. Using a number that is in use, or a variable that is not alive, is undefined. -/
def step (s : St V) : Op V → Out V
  | .make i a v =>
    match s.vars i with
    | none => fill E i a (v.getD E.initial) s id
    | some _ => .ub
  | .copy i j a =>
    match s.vars i, s.vars j with
    | none, some y =>
      match s.read y with
      | some v => fill E i (a.getD (E.select y.alloc)) v s id
      | none => .ub
    | _, _ => .ub
  | .move i j =>
    match s.vars i, s.vars j with
    | none, some y => .done ((s.set i y).set j ⟨y.alloc, none⟩)
    | _, _ => .ub
  | .moveTo i j a =>
    match s.vars i, s.vars j with
    | none, some y =>
      if E.alwaysEqual || E.same a y.alloc then .done ((s.set i ⟨a, y.obj⟩).set j ⟨y.alloc, none⟩)
      else
        match y.obj with
        | some q =>
          match s.read y with
          | some v => fill E i a v s (fun s => s.put q (E.moved v))
          | none => .ub
        | none => fill E i a E.initial s id
    | _, _ => .ub
  | .assign i j =>
    match s.vars i, s.vars j with
    | some x, some y => if i = j then .done s else copyAssign E i x y s
    | _, _ => .ub
  | .set i v =>
    match s.vars i with
    | some x =>
      match x.obj with
      | some p =>
        match s.read x with
        | some old => assignAt E p old v s
        | none => .ub
      | none => fill E i x.alloc v s id
    | none => .ub
  | .moveAssign i j =>
    match s.vars i, s.vars j with
    | some x, some y => if i = j then .done s else moveAssign E i j x y s
    | _, _ => .ub
  | .poke i v =>
    match s.vars i with
    | some x =>
      match x.obj, s.read x with
      | some p, some old => assignAt E p old v s
      | _, _ => .ub
    | none => .ub
  | .get i =>
    match s.vars i with
    | some x =>
      match s.read x with
      | some v => .done { s with seen := s.seen ++ [v] }
      | none => .ub
    | none => .ub
  | .swap i j =>
    match s.vars i, s.vars j with
    | some x, some y => if i = j then .done s else swapVars E i j x y s
    | _, _ => .ub
  | .drop i =>
    match s.vars i with
    | some x =>
      match destroy E x s with
      | some s => .done { s with vars := upd s.vars i none }
      | none => .ub
    | none => .ub

/-- A program, which catches every exception and goes on; the list says which operations threw. -/
def run : List (Op V) → St V → Option (St V × List Bool)
  | [], s => some (s, [])
  | o :: os, s =>
    match step E s o with
    | .done s => (run os s).map fun r => (r.1, false :: r.2)
    | .threw s => (run os s).map fun r => (r.1, true :: r.2)
    | .ub => none

end
end HppProto.Box
