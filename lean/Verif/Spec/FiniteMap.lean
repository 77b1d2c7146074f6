import Verif.Model.FlatMap
/-!
# Finite maps over a strict weak order
Specification for claims C40 and C41.
-/
namespace HppProto.Spec
open HppProto

/-- What `Compare` must be: a strict weak order. -/
structure StrictWeak {α : Type} (lt : α → α → Bool) : Prop where
  irrefl : ∀ a, lt a a = false
  trans : ∀ a b c, lt a b = true → lt b c = true → lt a c = true
  incomp : ∀ a b c, lt a b = false → lt b c = false → lt a c = false

section
variable {α β : Type} (lt : α → α → Bool)

/-- Keys that the order does not separate are the same key. -/
def same (a b : α) : Bool := !lt a b && !lt b a

/-- Every key is smaller than the keys after it. -/
def StrictlySorted (ks : List α) : Prop := ks.Pairwise fun a b => lt a b = true

/-- A mathematical finite map: the value of each key. -/
abbrev FinMap (α β : Type) := α → Option β

/-- The map with `k ↦ v` added. -/
def FinMap.put (f : FinMap α β) (k : α) (v : β) : FinMap α β := fun x => if same lt x k then some v else f x

/-- The map with `k ↦ v` added unless `k` is there. -/
def FinMap.putNew (f : FinMap α β) (k : α) (v : β) : FinMap α β := if (f k).isSome then f else f.put lt k v

/-- The map without `k`. -/
def FinMap.remove (f : FinMap α β) (k : α) : FinMap α β := fun x => if same lt x k then none else f x

/-- Add the pairs in turn, each unless its key is there. -/
def FinMap.putAll (f : FinMap α β) : List (α × β) → FinMap α β
  | [] => f
  | (k, v) :: r => FinMap.putAll (f.putNew lt k v) r

/-- Effect of an operation on the map. Positions are relative to the sorted keys `ks` before the
operation. -/
def finStep (ks : List α) (f : FinMap α β) : MapOp α β → FinMap α β
  | .emplace k v | .emplaceHint _ k v => f.putNew lt k v
  | .emplaceThrow _ => f
  | .insertOrAssign k v | .insertOrAssignHint _ k v | .indexAssign k v => f.put lt k v
  | .eraseKey k => f.remove lt k
  | .eraseAt i => (ks.drop i).take 1 |>.foldl (fun f k => f.remove lt k) f
  | .eraseRange i j => (ks.drop i).take (j - i) |>.foldl (fun f k => f.remove lt k) f
  | .insertRange l | .insertSorted l => f.putAll lt l
  | .clear => fun _ => none

/-- Precondition of an operation, given the keys before it. -/
def opOk (ks : List α) : MapOp α β → Prop
  | .emplaceHint h _ _ | .insertOrAssignHint h _ _ => h ≤ ks.length
  | .eraseAt i => i < ks.length
  | .eraseRange i j => i ≤ j ∧ j ≤ ks.length
  | .insertSorted l => StrictlySorted lt (l.map (·.1))
  | _ => True

end
end HppProto.Spec
