import Verif.Spec.FiniteMap
import Verif.Model.FlatMaps

/-!
# Several finite maps

Specification for claims C147 and C148: when two finite maps agree, and what a program does to several of them.
-/

namespace HppProto.Spec
open HppProto

section
variable {α β : Type}

/-- Both absent, or both present and equal by `veq`. -/
def agree (veq : β → β → Bool) : Option β → Option β → Prop
  | none, none => True
  | some v, some w => veq v w = true
  | _, _ => False

/-- A strict total order, given as a function. -/
structure StrictTotal {γ : Type} (lt : γ → γ → Bool) : Prop where
  irrefl : ∀ a, lt a a = false
  trans : ∀ a b c, lt a b = true → lt b c = true → lt a c = true
  total : ∀ a b, lt a b = true ∨ a = b ∨ lt b a = true

/-- The finite map of lists of keys and values. -/
def ofLists (lt : α → α → Bool) : List α → List β → FinMap α β
  | k :: ks, v :: vs => fun x => if same lt x k then some v else ofLists lt ks vs x
  | _, _ => fun _ => none

/-- Finite maps, and contents of containers. -/
structure FinWorld (α β : Type) where
  maps : Nat → FinMap α β
  boxes : Nat → FinMap α β

/-- What a step does to the finite maps; `w` supplies the sorted keys that positions refer to. -/
def finWorldStep (lt : α → α → Bool) (w : MapWorld α β) (f : FinWorld α β) : WorldOp α β → FinWorld α β
  | .on i op => { f with maps := fun k => if k = i then finStep lt (w.maps i).keys (f.maps i) op else f.maps k }
  | .copy i j => { f with maps := fun k => if k = i then f.maps j else f.maps k }
  | .move i j => { f with maps := fun k => if k = i then f.maps j else if k = j then fun _ => none else f.maps k }
  | .swap i j => { f with maps := fun k => if k = i then f.maps j else if k = j then f.maps i else f.maps k }
  | .extract i c => ⟨fun k => if k = i then fun _ => none else f.maps k, fun k => if k = c then f.maps i else f.boxes k⟩
  | .replace i c => ⟨fun k => if k = i then f.boxes c else f.maps k, fun k => if k = c then fun _ => none else f.boxes k⟩
  | .fill c ks vs => { f with boxes := fun k => if k = c then ofLists lt ks vs else f.boxes k }

/-- Preconditions: those of the calls on one map; no map is moved to itself; what `replace` is given are sorted keys, and as many values. -/
def worldOpOk (lt : α → α → Bool) (w : MapWorld α β) : WorldOp α β → Prop
  | .on i op => opOk lt (w.maps i).keys op
  | .move i j => i ≠ j
  | .replace _ c => StrictlySorted lt (w.boxes c).1 ∧ (w.boxes c).2.length = (w.boxes c).1.length
  | _ => True

end
end HppProto.Spec
