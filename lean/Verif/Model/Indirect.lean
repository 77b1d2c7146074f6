/-!
# `optional_indirect`

Model of `include/hpp_proto/optional_indirect.hpp` 12-365, for the use the generator makes of it: members of a message type that
refer to that type again. An object has some data and a list of such members, each of which owns another object or none;
variables are a list of them too. Memory is a list of what is allocated, by address, with the allocator it came from. Any
allocation may throw.

Simplifications: messages are of one type with any number of such members; the data is copied and moved without
exceptions; destructors run from the last member to the first.
-/

namespace HppProto.Ind

/-- The allocator (`std::allocator_traits`), the data of a new object, what a move leaves of data, the number of members of an
object, and which allocations throw. -/
structure Env (D : Type) where
  alwaysEqual : Bool
  propagateMove : Bool
  propagateCopy : Bool
  propagateSwap : Bool
  select : Nat → Nat
  standard : Nat
  initial : D
  moved : D → D
  arity : Nat
  fails : Nat → Bool

/-- Members in a row: without object, or with one. `alloc` is `alloc_`, `addr` is `obj_`, `data` and `kids` are the object
(`optional_indirect.hpp` 23-24). -/
inductive Links (D : Type) where
  | nil
  | empty (alloc : Nat) (rest : Links D)
  | full (alloc addr : Nat) (data : D) (kids rest : Links D)
  deriving DecidableEq, Repr

/-- One of them. -/
inductive Handle (D : Type) where
  | empty (alloc : Nat)
  | full (alloc addr : Nat) (data : D) (kids : Links D)
  deriving DecidableEq, Repr

/-- One in front of others. -/
def Handle.cons {D : Type} : Handle D → Links D → Links D
  | .empty a, r => .empty a r
  | .full a p d k, r => .full a p d k r

/-- `alloc_`. -/
def Handle.alloc {D : Type} : Handle D → Nat
  | .empty a => a
  | .full a _ _ _ => a

/-- Memory: the number of allocations so far, also used as the next address, and what is allocated, with its allocator. -/
structure Mem where
  next : Nat
  live : List (Nat × Nat)
  deriving DecidableEq, Repr

/-- What a function does: return, throw (and leave something behind), or something undefined. Objects that would own themselves,
which nothing then frees, are also `bad`. -/
inductive Out (α β : Type) where
  | ok (a : α) (m : Mem)
  | threw (b : β) (m : Mem)
  | bad
  deriving DecidableEq, Repr

variable {D : Type} (E : Env D)

/-- Equal allocators have equal keys. -/
def Env.key (a : Nat) : Nat := if E.alwaysEqual then 0 else a

/-- `operator==` of allocators. -/
def Env.same (a b : Nat) : Bool := E.key a = E.key b

/-- `allocate`. -/
def allocate (a : Nat) (m : Mem) : Out Nat Unit :=
  if E.fails m.next then .threw () ⟨m.next + 1, m.live⟩
  else .ok m.next ⟨m.next + 1, (m.next, E.key a) :: m.live⟩

/-- `deallocate`: undefined unless an equal allocator allocated this. -/
def free (a p : Nat) (m : Mem) : Option Mem :=
  if (p, E.key a) ∈ m.live then some ⟨m.next, m.live.erase (p, E.key a)⟩ else none

/-- The destructors (`optional_indirect.hpp` 33, 230-236). -/
def destroy : Links D → Mem → Option Mem
  | .nil, m => some m
  | .empty _ rest, m => destroy rest m
  | .full a p _ kids rest, m => do
    let m ← destroy rest m
    let m ← destroy kids m
    free E a p m

/-- The copy constructors of members in a row (`optional_indirect.hpp` 57-62, 346-361); if one throws, the members before it are
destroyed. -/
def copyLinks : Links D → Mem → Out (Links D) Unit
  | .nil, m => .ok .nil m
  | .empty a rest, m =>
    match copyLinks rest m with
    | .ok rest m => .ok (.empty (E.select a) rest) m
    | .threw _ m => .threw () m
    | .bad => .bad
  | .full a _ d kids rest, m =>
    match allocate E (E.select a) m with
    | .bad => .bad
    | .threw _ m => .threw () m
    | .ok p m =>
      match copyLinks kids m with
      | .bad => .bad
      | .threw _ m =>
        match free E (E.select a) p m with
        | some m => .threw () m
        | none => .bad
      | .ok kids m =>
        match copyLinks rest m with
        | .bad => .bad
        | .ok rest m => .ok (.full (E.select a) p d kids rest) m
        | .threw _ m =>
          match destroy E (.full (E.select a) p d kids .nil) m with
          | some m => .threw () m
          | none => .bad

/-- `reset` (`optional_indirect.hpp` 230-236). -/
def reset : Handle D → Mem → Option (Handle D × Mem)
  | .empty a, m => some (.empty a, m)
  | .full a p _ kids, m => do
    let m ← destroy E kids m
    let m ← free E a p m
    some (.empty a, m)

/-- `emplace_impl` (`optional_indirect.hpp` 346-361), with the constructor of the object. -/
def emplace (h : Handle D) (construct : Mem → Out (D × Links D) Unit) (m : Mem) : Out (Handle D) (Handle D) :=
  match allocate E h.alloc m with
  | .bad => .bad
  | .threw _ m => .threw h m
  | .ok p m =>
    match construct m with
    | .bad => .bad
    | .threw _ m =>
      match free E h.alloc p m with
      | some m => .threw h m
      | none => .bad
    | .ok (d, kids) m =>
      match reset E h m with
      | some (_, m) => .ok (.full h.alloc p d kids) m
      | none => .bad

/-- Members of a new object. -/
def blank (a : Nat) : Nat → Links D
  | 0 => .nil
  | n + 1 => .empty a (blank a n)

/-- The default constructor of an object. -/
def constructNew (m : Mem) : Out (D × Links D) Unit := .ok (E.initial, blank E.standard E.arity) m

/-- The copy constructor of an object. -/
def constructCopy (d : D) (kids : Links D) (m : Mem) : Out (D × Links D) Unit :=
  match copyLinks E kids m with
  | .ok kids m => .ok (d, kids) m
  | .threw _ m => .threw () m
  | .bad => .bad

/-- The move constructor of an object: its members give up their objects (`optional_indirect.hpp` 55-56). -/
def constructMove (d : D) (kids : Links D) (m : Mem) : Out (D × Links D) Unit := .ok (d, kids) m

/-- What moving leaves of members. -/
def drain : Links D → Links D
  | .nil => .nil
  | .empty a rest => .empty a (drain rest)
  | .full a _ _ _ rest => .empty a (drain rest)

/-- The first part of `operator=(const optional_indirect &)` (`optional_indirect.hpp` 144-149): the allocator is taken over. -/
def adopt (h : Handle D) (b : Nat) (m : Mem) : Option (Handle D × Mem) :=
  if E.propagateCopy then
    if E.same h.alloc b then
      match h with
      | .empty _ => some (.empty b, m)
      | .full _ p d kids => some (.full b p d kids, m)
    else (reset E h m).map fun r => (.empty b, r.2)
  else some (h, m)

/-- The rest of `operator=(const optional_indirect &)` (`optional_indirect.hpp` 150-154). -/
def assignFrom (h s : Handle D) (m : Mem) : Out (Handle D) (Handle D) :=
  match s with
  | .full _ _ d kids => emplace E h (constructCopy E d kids) m
  | .empty _ =>
    match reset E h m with
    | some (h, m) => .ok h m
    | none => .bad

/-- The object of `s` given to `a`, after what `h` had is destroyed (`optional_indirect.hpp` 104-118). -/
def take (h : Handle D) (a : Nat) (s : Handle D) (m : Mem) : Out (Handle D × Handle D) (Handle D × Handle D) :=
  match reset E h m with
  | none => .bad
  | some (_, m) =>
    match s with
    | .empty b => .ok (.empty a, .empty b) m
    | .full b q e src => .ok (.full a q e src, .empty b) m

/-- The first of the members. -/
def Links.uncons : Links D → Option (Handle D × Links D)
  | .nil => none
  | .empty a rest => some (.empty a, rest)
  | .full a p d kids rest => some (.full a p d kids, rest)

/-- `operator=(optional_indirect &&)` (`optional_indirect.hpp` 97-130) from an optional with an object: what `this` and `other` are
afterwards. `below` assigns the members of that object. -/
def moveOne (below : Links D → Mem → Out (Links D × Links D) (Links D × Links D)) (h : Handle D) (b q : Nat) (e : D) (src : Links D)
    (m : Mem) : Out (Handle D × Handle D) (Handle D × Handle D) :=
  if E.propagateMove then take E h b (.full b q e src) m
  else if E.same h.alloc b then take E h h.alloc (.full b q e src) m
  else match h with
    | .full a p _ kids =>
      match below kids m with
      | .bad => .bad
      | .threw (x, y) m => .threw (.full a p e x, .full b q (E.moved e) y) m
      | .ok (x, y) m => .ok (.full a p e x, .full b q (E.moved e) y) m
    | .empty a =>
      match emplace E (.empty a) (constructMove e src) m with
      | .bad => .bad
      | .threw h m => .threw (h, .full b q e src) m
      | .ok h m => .ok (h, .full b q (E.moved e) (drain src)) m

/-- `operator=(optional_indirect &&)` of members in a row (`optional_indirect.hpp` 97-130), `this` and `other` different: what
`this` and `other` are afterwards. -/
def moveLinks : Links D → Links D → Mem → Out (Links D × Links D) (Links D × Links D)
  | dst, .nil, m => .ok (dst, .nil) m
  | dst, .empty b rest, m =>
    match dst.uncons with
    | none => .bad
    | some (h, tail) =>
      match take E h (if E.propagateMove then b else h.alloc) (.empty b) m with
      | .bad => .bad
      | .threw _ m => .threw (dst, .empty b rest) m
      | .ok (h, s) m =>
        match moveLinks tail rest m with
        | .bad => .bad
        | .threw (x, y) m => .threw (h.cons x, s.cons y) m
        | .ok (x, y) m => .ok (h.cons x, s.cons y) m
  | dst, .full b q e src rest, m =>
    match dst.uncons with
    | none => .bad
    | some (h, tail) =>
      match moveOne E (fun kids m => moveLinks kids src m) h b q e src m with
      | .bad => .bad
      | .threw (h, s) m => .threw (h.cons tail, s.cons rest) m
      | .ok (h, s) m =>
        match moveLinks tail rest m with
        | .bad => .bad
        | .threw (x, y) m => .threw (h.cons x, s.cons y) m
        | .ok (x, y) m => .ok (h.cons x, s.cons y) m

/-- `operator=(optional_indirect &&)` (`optional_indirect.hpp` 97-130), `this` and `other` different. -/
def moveAssign (h s : Handle D) (m : Mem) : Out (Handle D × Handle D) (Handle D × Handle D) :=
  match moveLinks E (h.cons .nil) (s.cons .nil) m with
  | .bad => .bad
  | .threw (x, y) m =>
    match x.uncons, y.uncons with
    | some (h, _), some (s, _) => .threw (h, s) m
    | _, _ => .bad
  | .ok (x, y) m =>
    match x.uncons, y.uncons with
    | some (h, _), some (s, _) => .ok (h, s) m
    | _, _ => .bad

/-- `std::swap` of the members of two objects: a third object is made from the first by moving, the first is assigned the
second, the second the third, which is destroyed at the end, also after an exception. -/
def swapLinks (x y : Links D) (m : Mem) : Out (Links D × Links D) (Links D × Links D) :=
  match moveLinks E (drain x) y m with
  | .bad => .bad
  | .threw (x', y') m =>
    match destroy E x m with
    | some m => .threw (x', y') m
    | none => .bad
  | .ok (x', y') m =>
    match moveLinks E y' x m with
    | .bad => .bad
    | .threw (y'', t) m =>
      match destroy E t m with
      | some m => .threw (x', y'') m
      | none => .bad
    | .ok (y'', t) m =>
      match destroy E t m with
      | some m => .ok (x', y'') m
      | none => .bad

/-- `swap` (`optional_indirect.hpp` 203-228), `this` and `other` different. -/
def swapHandles (h s : Handle D) (m : Mem) : Out (Handle D × Handle D) (Handle D × Handle D) :=
  let a := if E.propagateSwap then s.alloc else h.alloc
  let b := if E.propagateSwap then h.alloc else s.alloc
  if E.alwaysEqual || E.same a b then
    .ok (match s with
      | .empty _ => .empty a
      | .full _ q e src => .full a q e src,
    match h with
      | .empty _ => .empty b
      | .full _ p d kids => .full b p d kids) m
  else match h, s with
    | .full _ p d kids, .full _ q e src =>
      match swapLinks E kids src m with
      | .bad => .bad
      | .threw (x, y) m => .threw (.full a p d x, .full b q e y) m
      | .ok (x, y) m => .ok (.full a p e x, .full b q d y) m
    | .full _ p d kids, .empty _ =>
      match emplace E (.empty b) (constructMove d kids) m with
      | .bad => .bad
      | .threw _ m => .threw (.full a p d kids, .empty b) m
      | .ok s m =>
        match reset E (.full a p (E.moved d) (drain kids)) m with
        | some (h, m) => .ok (h, s) m
        | none => .bad
    | .empty _, .full _ q e src =>
      match emplace E (.empty a) (constructMove e src) m with
      | .bad => .bad
      | .threw _ m => .threw (.empty a, .full b q e src) m
      | .ok h m =>
        match reset E (.full b q (E.moved e) (drain src)) m with
        | some (s, m) => .ok (h, s) m
        | none => .bad
    | .empty _, .empty _ => .ok (.empty a, .empty b) m

/-- `operator==` (`optional_indirect.hpp` 245-251) of members in a row. -/
def sameLinks [DecidableEq D] : Links D → Links D → Bool
  | .nil, .nil => true
  | .empty _ r, .empty _ s => sameLinks r s
  | .full _ _ d k r, .full _ _ e l s => d = e && sameLinks k l && sameLinks r s
  | _, _ => false

/-! ## Programs -/

/-- A place: a variable, and the way from its object to a member below. -/
structure Place where
  root : Nat
  path : List Nat
  deriving DecidableEq, Repr

/-- What is at a place. -/
def Links.look : Links D → Nat → List Nat → Option (Handle D)
  | .nil, _, _ => none
  | .empty a _, 0, [] => some (.empty a)
  | .empty _ _, 0, _ :: _ => none
  | .full a p d kids _, 0, [] => some (.full a p d kids)
  | .full _ _ _ kids _, 0, i :: path => kids.look i path
  | .empty _ rest, i + 1, path => rest.look i path
  | .full _ _ _ _ rest, i + 1, path => rest.look i path

/-- Something else at a place. -/
def Links.put (h : Handle D) : Links D → Nat → List Nat → Links D
  | .nil, _, _ => .nil
  | .empty _ rest, 0, [] => h.cons rest
  | .empty a rest, 0, _ :: _ => .empty a rest
  | .full _ _ _ _ rest, 0, [] => h.cons rest
  | .full a p d kids rest, 0, i :: path => .full a p d (kids.put h i path) rest
  | .empty a rest, i + 1, path => .empty a (rest.put h i path)
  | .full a p d kids rest, i + 1, path => .full a p d kids (rest.put h i path)

/-- Is the second place the first, or below it? -/
def Place.covers (l k : Place) : Bool := l.root = k.root && l.path.isPrefixOf k.path

/-- The operations: a new variable (empty with an allocator, a copy, moved from a place), the end of the newest variable,
`reset`, `emplace()`, a change of the data of an object, assignments, `swap`. -/
inductive Op (D : Type) where
  | declare (alloc : Nat)
  | declareCopy (k : Place)
  | declareMove (k : Place)
  | drop
  | reset (l : Place)
  | emplace (l : Place)
  | write (l : Place) (d : D)
  | copy (l k : Place)
  | move (l k : Place)
  | swap (l k : Place)
  deriving DecidableEq, Repr

/-- The variables and memory. -/
structure Heap (D : Type) where
  vars : Links D
  mem : Mem
  deriving DecidableEq, Repr

/-- What an operation does to the variables. -/
inductive Did (D : Type) where
  | ok (s : Heap D)
  | threw (s : Heap D)
  | bad
  deriving DecidableEq, Repr

/-- The result of an operation on one place. -/
def put1 (F : Links D) (l : Place) : Out (Handle D) (Handle D) → Did D
  | .ok h m => .ok ⟨F.put h l.root l.path, m⟩
  | .threw h m => .threw ⟨F.put h l.root l.path, m⟩
  | .bad => .bad

/-- The result of an operation on two places. -/
def put2 (F : Links D) (l k : Place) : Out (Handle D × Handle D) (Handle D × Handle D) → Did D
  | .ok (h, s) m => .ok ⟨(F.put h l.root l.path).put s k.root k.path, m⟩
  | .threw (h, s) m => .threw ⟨(F.put h l.root l.path).put s k.root k.path, m⟩
  | .bad => .bad

/-- The first part of a result. -/
def Out.fst {α : Type} : Out (α × α) (α × α) → Out α α
  | .ok a m => .ok a.1 m
  | .threw a m => .threw a.1 m
  | .bad => .bad

/-- The address of the object that a place is in. -/
def Links.holder : Links D → Nat → List Nat → Option Nat
  | .nil, _, _ => none
  | _, 0, [] => none
  | .empty _ _, 0, _ :: _ => none
  | .full _ p _ _ _, 0, [_] => some p
  | .full _ _ _ kids _, 0, i :: path => kids.holder i path
  | .empty _ rest, i + 1, path => rest.holder i path
  | .full _ _ _ _ rest, i + 1, path => rest.holder i path

/-- An operation. A place that does not exist is reached through a null pointer. If the target of a move is below its source, or a
place below the one it is swapped with, objects come to own themselves. If the source is below the target, it is read after `reset`
(`optional_indirect.hpp` 115-116): this is defined only if the object it is in is still there. Not modelled, and `bad`:
such moves between different allocators that are not propagated, and such swaps with other allocators. -/
def step (s : Heap D) : Op D → Did D
  | .declare a => .ok ⟨.empty a s.vars, s.mem⟩
  | .declareCopy k =>
    match s.vars.look k.root k.path with
    | none => .bad
    | some h =>
      match copyLinks E (h.cons .nil) s.mem with
      | .bad => .bad
      | .threw _ m => .threw ⟨s.vars, m⟩
      | .ok x m =>
        match x.uncons with
        | some (h, _) => .ok ⟨h.cons s.vars, m⟩
        | none => .bad
  | .declareMove k =>
    match s.vars.look k.root k.path with
    | none => .bad
    | some h => .ok ⟨h.cons (s.vars.put (.empty h.alloc) k.root k.path), s.mem⟩
  | .drop =>
    match s.vars.uncons with
    | none => .bad
    | some (h, rest) =>
      match Ind.reset E h s.mem with
      | some (_, m) => .ok ⟨rest, m⟩
      | none => .bad
  | .reset l =>
    match s.vars.look l.root l.path with
    | none => .bad
    | some h =>
      match Ind.reset E h s.mem with
      | some (h, m) => put1 s.vars l (.ok h m)
      | none => .bad
  | .emplace l =>
    match s.vars.look l.root l.path with
    | none => .bad
    | some h => put1 s.vars l (Ind.emplace E h (constructNew E) s.mem)
  | .write l d =>
    match s.vars.look l.root l.path with
    | some (.full a p _ kids) => put1 s.vars l (.ok (.full a p d kids) s.mem)
    | _ => .bad
  | .copy l k =>
    match s.vars.look l.root l.path, s.vars.look k.root k.path with
    | some h, some t =>
      if l = k then .ok s
      else match adopt E h t.alloc s.mem with
        | none => .bad
        | some (h, m) =>
          let F := s.vars.put h l.root l.path
          match F.look k.root k.path with
          | none => .bad
          | some t => put1 F l (assignFrom E h t m)
    | _, _ => .bad
  | .move l k =>
    match s.vars.look l.root l.path, s.vars.look k.root k.path with
    | some h, some t =>
      if l = k then .ok s
      else if k.covers l then .bad
      else if l.covers k then
        if E.propagateMove || E.same h.alloc t.alloc then
          match Ind.reset E h s.mem with
          | none => .bad
          | some (_, m) =>
            if (s.vars.holder k.root k.path).all (· ∈ m.live.map Prod.fst) then
              put1 s.vars l (take E (.empty h.alloc) (if E.propagateMove then t.alloc else h.alloc) t m |>.fst)
            else .bad
        else .bad
      else put2 s.vars l k (moveAssign E h t s.mem)
    | _, _ => .bad
  | .swap l k =>
    match s.vars.look l.root l.path, s.vars.look k.root k.path with
    | some h, some t =>
      if l = k then .ok s
      else if l.covers k || k.covers l then .bad
      else put2 s.vars l k (swapHandles E h t s.mem)
    | _, _ => .bad

end HppProto.Ind
