import Verif.Model.Indirect

/-!
# `optional_indirect`

Specification: optional values. A value is data with further optional values; variables hold optional values. There are no
addresses, allocators or exceptions.
-/

namespace HppProto.Ind

/-- Optional values in a row. -/
inductive Vals (D : Type) where
  | nil
  | none (rest : Vals D)
  | some (data : D) (kids rest : Vals D)
  deriving DecidableEq, Repr

variable {D : Type}

/-- An optional value. -/
abbrev Val (D : Type) := Option (D × Vals D)

namespace Vals

/-- One in front of others. -/
def cons : Val D → Vals D → Vals D
  | .none, r => .none r
  | .some (d, k), r => .some d k r

/-- The value at a place: there is none outside of values. -/
def look : Vals D → Nat → List Nat → Option (Val D)
  | .nil, _, _ => .none
  | .none _, 0, [] => .some .none
  | .none _, 0, _ :: _ => .none
  | .some d kids _, 0, [] => .some (.some (d, kids))
  | .some _ kids _, 0, i :: path => kids.look i path
  | .none rest, i + 1, path => rest.look i path
  | .some _ _ rest, i + 1, path => rest.look i path

/-- Another value at a place. -/
def put (x : Val D) : Vals D → Nat → List Nat → Vals D
  | .nil, _, _ => .nil
  | .none rest, 0, [] => cons x rest
  | .none rest, 0, _ :: _ => .none rest
  | .some _ _ rest, 0, [] => cons x rest
  | .some d kids rest, 0, i :: path => .some d (kids.put x i path) rest
  | .none rest, i + 1, path => .none (rest.put x i path)
  | .some d kids rest, i + 1, path => .some d kids (rest.put x i path)

/-- `n` of them, without value. -/
def blank : Nat → Vals D
  | 0 => .nil
  | n + 1 => .none (blank n)

end Vals

/-- The values of members. -/
def Links.vals : Links D → Vals D
  | .nil => .nil
  | .empty _ rest => .none rest.vals
  | .full _ _ d kids rest => .some d kids.vals rest.vals

/-- The value at a place. -/
def Vals.get (v : Vals D) (l : Place) : Option (Val D) := v.look l.root l.path

/-- Another value at a place. -/
def Vals.set (v : Vals D) (l : Place) (x : Val D) : Vals D := v.put x l.root l.path

/-- Neither place is the other or below it. -/
def Apart (l k : Place) : Prop := l.covers k = false ∧ k.covers l = false

/-- The allocator is not propagated when copying, or all allocators are equal. -/
def Env.Stays (E : Env D) : Prop := E.propagateCopy = false ∨ E.alwaysEqual = true

/-- Programs may do this: places exist; `move` and `swap` do not have a place below the other. -/
def Allowed (E : Env D) (v : Vals D) : Op D → Prop
  | .declare _ => True
  | .declareCopy k => (v.get k).isSome
  | .declareMove k => (v.get k).isSome
  | .drop => v ≠ .nil
  | .reset l => (v.get l).isSome
  | .emplace l => (v.get l).isSome
  | .write l _ => ∃ x, v.get l = some (some x)
  | .copy l k => (v.get l).isSome ∧ (v.get k).isSome ∧ (E.Stays ∨ l = k ∨ Apart l k)
  | .move l k => (v.get l).isSome ∧ (v.get k).isSome ∧ (l = k ∨ Apart l k)
  | .swap l k => (v.get l).isSome ∧ (v.get k).isSome ∧ (l = k ∨ Apart l k)

/-- Moves need no allocation: all allocators are equal, or they are propagated. -/
def Env.Steals (E : Env D) : Prop := E.alwaysEqual = true ∨ E.propagateMove = true

/-- What an operation does to values. A move leaves nothing behind, or, if allocators may differ, anything. -/
def Effect (E : Env D) (v v' : Vals D) : Op D → Prop
  | .declare _ => v' = .none v
  | .declareCopy k => ∃ x, v.get k = some x ∧ v' = .cons x v
  | .declareMove k => ∃ x, v.get k = some x ∧ v' = .cons x (v.set k none)
  | .drop => ∃ x, v = .cons x v'
  | .reset l => v' = v.set l none
  | .emplace l => v' = v.set l (some (E.initial, Vals.blank E.arity))
  | .write l d => ∃ e kids, v.get l = some (some (e, kids)) ∧ v' = v.set l (some (d, kids))
  | .copy l k => ∃ x, v.get k = some x ∧ v' = v.set l x
  | .move l k => if l = k then v' = v else ∃ x y, v.get k = some x ∧ v' = (v.set l x).set k y ∧ (E.Steals → y = none)
  | .swap l k => ∃ x y, v.get l = some x ∧ v.get k = some y ∧ v' = (v.set l y).set k x

/-- What an operation that throws leaves: everything as it was, except that a copy assignment with an allocator that is propagated
changes its target, and a move or `swap` its two places. -/
def Aborted (E : Env D) (v v' : Vals D) : Op D → Prop
  | .declareCopy _ => v' = v
  | .emplace _ => v' = v
  | .copy l _ => (E.Stays → v' = v) ∧ ∃ x, v' = v.set l x
  | .move l k => ¬ E.Steals ∧ ∃ x y, v' = (v.set l x).set k y
  | .swap l k => E.alwaysEqual = false ∧ ∃ x y, v' = (v.set l x).set k y
  | _ => False

/-- The objects that members own, and those that these own, each with its address and the allocator that it is to be freed with. -/
def objects (E : Env D) : Links D → List (Nat × Nat)
  | .nil => []
  | .empty _ rest => objects E rest
  | .full a p _ kids rest => (p, E.key a) :: objects E kids ++ objects E rest

/-- No variables, nothing allocated. -/
def start : Heap D := ⟨.nil, ⟨0, []⟩⟩

/-- What programs reach. They go on after exceptions. -/
inductive Reachable (E : Env D) : Heap D → Prop where
  | start : Reachable E start
  | ok {s s' : Heap D} {op : Op D} : Reachable E s → Allowed E s.vars.vals op → step E s op = .ok s' → Reachable E s'
  | threw {s s' : Heap D} {op : Op D} : Reachable E s → Allowed E s.vars.vals op → step E s op = .threw s' → Reachable E s'

/-- Memory is as it should be: what is allocated are the objects that variables own, each once, and it will be freed with an
equal allocator. -/
structure Sound (E : Env D) (s : Heap D) : Prop where
  exact : s.mem.live.Perm (objects E s.vars)
  once : ((objects E s.vars).map Prod.fst).Nodup

end HppProto.Ind
