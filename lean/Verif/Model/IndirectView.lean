import Verif.Model.Outcome

/-!
# Pointers that read as values: `indirect_view` and `optional_indirect_view`

Model of `include/hpp_proto/indirect_view.hpp` (whole class) and of `optional_indirect_view` (`optional_indirect.hpp` 367-470).
Both hold one pointer to an object that they do not own. Objects are values at addresses; an address at which no object lives must not
be used. The default object of `indirect_view<T>` is one more object, which no one can change: only `const T &` to it is given out.

Simplifications: one type `T`; views of both classes are numbered together, as what is done to their pointers is the same;
constructing a view is the same as assigning to it; comparing and calling functions has no effects; comparisons
with a `T` or `nullptr` on the right are left out.
-/

namespace HppProto.IView

/-- The objects that live, by address, and the pointers of the views. -/
structure Mem (T : Type) where
  objs : Nat → Option T
  ptrs : Nat → Option Nat

/-- What a program does. -/
inductive Op (T : Type) where
  /-- An object begins to live at `a`. -/
  | make (a : Nat) (v : T)
  /-- It ends. -/
  | destroy (a : Nat)
  /-- The program assigns to the object. -/
  | write (a : Nat) (v : T)
  /-- `view i = &object`, `reset(&object)`, or `nullptr` -/
  | point (i : Nat) (p : Option Nat)
  /-- `view i = view j` or `view i = std::move(view j)` -/
  | assign (i j : Nat)
  /-- `view i .swap(view j)` -/
  | swap (i j : Nat)
  /-- `*view i .pointer() = v` -/
  | through (i : Nat) (v : T)

variable {T : Type}

/-- Assigns to the object at an address. -/
def Mem.store (m : Mem T) (a : Nat) (v : T) : Res (Mem T) :=
  match m.objs a with
  | none => .ub
  | some _ => .ok { m with objs := fun b => if b = a then some v else m.objs b }

/-- One step (`indirect_view.hpp` 25-35, 75; `optional_indirect.hpp` 374-399, 415-416). Moving a view copies its pointer. -/
def Mem.step (m : Mem T) : Op T → Res (Mem T)
  | .make a v => .ok { m with objs := fun b => if b = a then some v else m.objs b }
  | .destroy a => .ok { m with objs := fun b => if b = a then none else m.objs b }
  | .write a v => m.store a v
  | .point i p => .ok { m with ptrs := fun k => if k = i then p else m.ptrs k }
  | .assign i j => .ok { m with ptrs := fun k => if k = i then m.ptrs j else m.ptrs k }
  | .swap i j =>
    let old := m.ptrs i
    let half : Nat → Option Nat := fun k => if k = i then m.ptrs j else m.ptrs k
    .ok { m with ptrs := fun k => if k = j then old else half k }
  | .through i v =>
    match m.ptrs i with
    | none => .ub
    | some a => m.store a v

/-- A program. -/
def Mem.run (m : Mem T) : List (Op T) → Res (Mem T)
  | [] => .ok m
  | op :: ops => (m.step op).bind (·.run ops)

/-- Nothing lives, and all views are those made by default. -/
def Mem.start : Mem T := ⟨fun _ => none, fun _ => none⟩

/-- `*pointer` -/
def Mem.load (m : Mem T) (a : Nat) : Res T :=
  match m.objs a with
  | none => .ub
  | some v => .ok v

/-- `indirect_view::value`, `operator*`, `operator->` (`indirect_view.hpp` 37-43). -/
def Mem.value (m : Mem T) (dflt : T) (i : Nat) : Res T :=
  match m.ptrs i with
  | none => .ok dflt
  | some a => m.load a

/-- `indirect_view == indirect_view` (`indirect_view.hpp` 52-58); `eq` is `==` of `T`. -/
def Mem.viewEq (m : Mem T) (dflt : T) (eq : T → T → Bool) (i j : Nat) : Res Bool :=
  (m.value dflt i).bind fun x => (m.value dflt j).bind fun y => .ok (eq x y)

/-- `indirect_view <=> indirect_view` (`indirect_view.hpp` 67-73); `cmp` is `<=>` of `T`. -/
def Mem.viewCmp {γ : Type} (m : Mem T) (dflt : T) (cmp : T → T → γ) (i j : Nat) : Res γ :=
  (m.value dflt i).bind fun x => (m.value dflt j).bind fun y => .ok (cmp x y)

/-- `indirect_view == T` (`indirect_view.hpp` 45-51). -/
def Mem.viewEqVal (m : Mem T) (dflt : T) (eq : T → T → Bool) (i : Nat) (rhs : T) : Res Bool :=
  (m.value dflt i).bind fun x => .ok (eq x rhs)

/-- `indirect_view <=> T` (`indirect_view.hpp` 60-66). -/
def Mem.viewCmpVal {γ : Type} (m : Mem T) (dflt : T) (cmp : T → T → γ) (i : Nat) (rhs : T) : Res γ :=
  (m.value dflt i).bind fun x => .ok (cmp x rhs)

/-- `optional_indirect_view::has_value` (`optional_indirect.hpp` 401). -/
def Mem.hasValue (m : Mem T) (i : Nat) : Bool := (m.ptrs i).isSome

/-- `optional_indirect_view::value` (`optional_indirect.hpp` 404-409). -/
def Mem.optValue (m : Mem T) (i : Nat) : Res T :=
  match m.ptrs i with
  | none => .throw
  | some a => m.load a

/-- `optional_indirect_view::operator*` (`optional_indirect.hpp` 411). -/
def Mem.optDeref (m : Mem T) (i : Nat) : Res T :=
  match m.ptrs i with
  | none => .ub
  | some a => m.load a

/-- `optional_indirect_view == optional_indirect_view` (`optional_indirect.hpp` 418-423). -/
def Mem.optEq (m : Mem T) (eq : T → T → Bool) (i j : Nat) : Res Bool :=
  if m.hasValue i && m.hasValue j then (m.optDeref i).bind fun x => (m.optDeref j).bind fun y => .ok (eq x y)
  else .ok (m.hasValue i == m.hasValue j)

/-- `optional_indirect_view == nullptr` (`optional_indirect.hpp` 425). -/
def Mem.optEqNull (m : Mem T) (i : Nat) : Bool := !m.hasValue i

/-- `and_then` (`optional_indirect.hpp` 428-444); `none` is `result_t{}`. -/
def Mem.andThen {γ : Type} (m : Mem T) (f : T → Option γ) (i : Nat) : Res (Option γ) :=
  if m.hasValue i then (m.optDeref i).bind fun x => .ok (f x) else .ok none

/-- `transform` (`optional_indirect.hpp` 446-462). -/
def Mem.transform {γ : Type} (m : Mem T) (f : T → γ) (i : Nat) : Res (Option γ) :=
  if m.hasValue i then (m.optDeref i).bind fun x => .ok (some (f x)) else .ok none

/-- `or_else` (`optional_indirect.hpp` 464-469), as the pointer of the view that it returns. -/
def Mem.orElse (m : Mem T) (f : Option Nat) (i : Nat) : Option Nat := if m.hasValue i then m.ptrs i else f

end HppProto.IView
