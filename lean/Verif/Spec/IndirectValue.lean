import Verif.Model.IndirectValue
/-!
What a program does if `indirect` is a value: variables hold values, without allocators, pointers or memory.

A variable is not alive (`none`), or has the value `v` (`some (some v)`), or its value is not specified (`some none`): it was moved from, or an
assignment or swap threw. Such a variable can be destroyed, assigned to, moved and swapped, but not read or copied.
-/
namespace HppProto.Box.Spec
open HppProto.Box

/-- The variables, and what was read. -/
structure Ref (V : Type) where
  vars : Nat → Option (Option V)
  seen : List V

def Ref.start {V : Type} : Ref V := ⟨fun _ => none, []⟩

def Ref.set {V : Type} (r : Ref V) (i : Nat) (x : Option V) : Ref V := { r with vars := upd r.vars i (some x) }

variable {V : Type} (initial : V)

/-- An operation that threw or not; `none`: the program uses a variable that is not alive, or reads one that has no value. -/
def Ref.step (r : Ref V) (threw : Bool) : Op V → Option (Ref V)
  | .make i _ v =>
    match r.vars i with
    | none => some (if threw then r else r.set i (some (v.getD initial)))
    | some _ => none
  | .copy i j _ =>
    match r.vars i, r.vars j with
    | none, some (some v) => some (if threw then r else r.set i (some v))
    | _, _ => none
  | .move i j | .moveTo i j _ =>
    match r.vars i, r.vars j with
    | none, some x => some (if threw then r else (r.set i x).set j none)
    | _, _ => none
  | .assign i j =>
    match r.vars i, r.vars j with
    | some _, some y =>
      if i = j then some r
      else match y with
        | some v => some (r.set i (if threw then none else some v))
        | none => none
    | _, _ => none
  | .set i v =>
    match r.vars i with
    | some _ => some (r.set i (if threw then none else some v))
    | none => none
  | .moveAssign i j =>
    match r.vars i, r.vars j with
    | some _, some y => some (if i = j then r else if threw then r.set i none else (r.set i y).set j none)
    | _, _ => none
  | .poke i v =>
    match r.vars i with
    | some (some _) => some (r.set i (if threw then none else some v))
    | _ => none
  | .get i =>
    match r.vars i with
    | some (some v) => some { r with seen := r.seen ++ [v] }
    | _ => none
  | .swap i j =>
    match r.vars i, r.vars j with
    | some x, some y => some (if i = j then r else if threw then (r.set i none).set j none else (r.set i y).set j x)
    | _, _ => none
  | .drop i =>
    match r.vars i with
    | some _ => some { r with vars := upd r.vars i none }
    | none => none

/-- A program, given which operations threw. -/
def Ref.run : List (Op V) → List Bool → Ref V → Option (Ref V)
  | o :: os, t :: ts, r => (r.step initial t o).bind (Ref.run os ts)
  | _, _, r => some r

/-- The operation move-assigns from, or swaps, a variable whose value is not specified. -/
def Ref.movesUnspecified (r : Ref V) : Op V → Prop
  | .moveAssign i j => i ≠ j ∧ r.vars j = some none
  | .swap i j => i ≠ j ∧ (r.vars i = some none ∨ r.vars j = some none)
  | _ => False

/-- The program does that somewhere. -/
def Ref.runMoves : List (Op V) → List Bool → Ref V → Prop
  | o :: os, t :: ts, r => r.movesUnspecified o ∨ ∃ r', r.step initial t o = some r' ∧ Ref.runMoves os ts r'
  | _, _, _ => False

/-- Everything allocated belongs to exactly one variable that is alive, with an allocator equal to the one it came from, and no
variable refers to anything else. -/
def ownedOnce (E : Env V) (s : St V) : Prop :=
  (∀ i x p, s.vars i = some x → x.obj = some p → ∃ v, s.heap p = some (E.key x.alloc, v)) ∧
  (∀ i j x y p, s.vars i = some x → s.vars j = some y → x.obj = some p → y.obj = some p → i = j) ∧
  ∀ p b, s.heap p = some b → ∃ i x, s.vars i = some x ∧ x.obj = some p

/-- The variables that an operation may change when it throws. -/
def targets : Op V → List Nat
  | .assign i _ | .set i _ | .moveAssign i _ | .poke i _ => [i]
  | .swap i j => [i, j]
  | _ => []

/-- The functions that are declared `noexcept` (`indirect.hpp` 30, 52, 113-115, 143-154, 182-184), if allocators can be moved and swapped
without exceptions. Comparisons are, if those of the values are. -/
def declaredNoexcept (E : Env V) : Op V → Bool
  | .move _ _ | .get _ | .drop _ => true
  | .moveAssign _ _ => E.propagateMove || E.alwaysEqual
  | .swap _ _ => E.alwaysEqual || E.propagateSwap
  | _ => false

/-- What `get_allocator()` gives for each variable after an operation that returned, from what it gave before:
the allocator given, or that of the source as `allocator_traits` says (`indirect.hpp` 32-199). A variable that was moved from keeps its own. -/
def allocAfter (E : Env V) (al : Nat → Option Nat) (o : Op V) (n : Nat) : Option Nat :=
  match o with
  | .make i a _ => if n = i then some a else al n
  | .copy i j a => if n = i then (al j).map fun b => a.getD (E.select b) else al n
  | .move i j => if n = i then al j else al n
  | .moveTo i _ a => if n = i then some a else al n
  | .assign i j => if E.propagateCopy = true ∧ n = i then al j else al n
  | .moveAssign i j => if E.propagateMove = true ∧ n = i then al j else al n
  | .swap i j =>
    if E.propagateSwap = true ∧ n = i then al j else if E.propagateSwap = true ∧ n = j then al i else al n
  | .drop i => if n = i then none else al n
  | .set _ _ | .poke _ _ | .get _ => al n

end HppProto.Box.Spec
