import Verif.Model.FlatMap

/-!
# Comparison of `flat_map`s, and several of them

Model of the comparison operators, of copying, moving and swapping, and of `extract` and `replace`
(`include/hpp_proto/flat_map.hpp` 693-709, 900-909, 1093-1134; copying and moving are those the compiler declares, member by member).
The comparator has no state, and no allocation fails. The containers are `std::vector`s, which are empty after they were
moved from (for the assignment this is what implementations do; the standard leaves it open). Assigning a map to itself by
moving is left out.
-/

namespace HppProto
open FlatMap

section
variable {α β : Type}

/-- What iteration from `begin()` to `end()` visits. -/
def FlatMap.entries (m : FlatMap α β) : List (α × β) := m.keys.zip m.vals

/-- `std::equal` of two ranges of pairs (`flat_map.hpp` 1093-1097); pairs are equal if both components are. -/
def pairsEqual (keq : α → α → Bool) (veq : β → β → Bool) : List (α × β) → List (α × β) → Bool
  | [], [] => true
  | (k, v) :: xs, (l, w) :: ys => keq k l && veq v w && pairsEqual keq veq xs ys
  | _, _ => false

/-- `operator==` (`flat_map.hpp` 1093-1097). -/
def FlatMap.equal (keq : α → α → Bool) (veq : β → β → Bool) (x y : FlatMap α β) : Bool := pairsEqual keq veq x.entries y.entries

/-- `<` of pairs: by the first component, then by the second. -/
def pairLess (klt : α → α → Bool) (vlt : β → β → Bool) (a b : α × β) : Bool :=
  klt a.1 b.1 || (!klt b.1 a.1 && vlt a.2 b.2)

/-- `std::lexicographical_compare`. -/
def lexLess {γ : Type} (less : γ → γ → Bool) : List γ → List γ → Bool
  | _, [] => false
  | [], _ :: _ => true
  | a :: as, b :: bs => if less a b then true else if less b a then false else lexLess less as bs

/-- `operator<` (`flat_map.hpp` 1105-1109). It uses `<` of keys, not the comparator of the map. -/
def FlatMap.less (klt : α → α → Bool) (vlt : β → β → Bool) (x y : FlatMap α β) : Bool :=
  lexLess (pairLess klt vlt) x.entries y.entries

/-- `operator!=` (`flat_map.hpp` 1099-1103). -/
def FlatMap.notEqual (keq : α → α → Bool) (veq : β → β → Bool) (x y : FlatMap α β) : Bool := !x.equal keq veq y

/-- `operator>` (`flat_map.hpp` 1111-1115). -/
def FlatMap.greater (klt : α → α → Bool) (vlt : β → β → Bool) (x y : FlatMap α β) : Bool := y.less klt vlt x

/-- `operator<=` (`flat_map.hpp` 1117-1121). -/
def FlatMap.atMost (klt : α → α → Bool) (vlt : β → β → Bool) (x y : FlatMap α β) : Bool := !y.less klt vlt x

/-- `operator>=` (`flat_map.hpp` 1123-1127). -/
def FlatMap.atLeast (klt : α → α → Bool) (vlt : β → β → Bool) (x y : FlatMap α β) : Bool := !x.less klt vlt y

/-- Maps, and containers of keys and values outside of maps, each by number. -/
structure MapWorld (α β : Type) where
  maps : Nat → FlatMap α β
  boxes : Nat → List α × List β

/-- A step of a program with several maps. -/
inductive WorldOp (α β : Type) where
  /-- A call on one map. -/
  | on (i : Nat) (op : MapOp α β)
  /-- Map `i` is constructed or assigned from `j`. -/
  | copy (i j : Nat)
  /-- The same, by moving. -/
  | move (i j : Nat)
  | swap (i j : Nat)
  /-- Containers `c` are assigned from `std::move(map i).extract()`. -/
  | extract (i c : Nat)
  /-- `map i .replace(std::move(keys), std::move(values))` -/
  | replace (i c : Nat)
  /-- The program fills containers `c`. -/
  | fill (c : Nat) (keys : List α) (vals : List β)

/-- The function with another value at one place. -/
def setAt {γ : Type} (f : Nat → γ) (i : Nat) (x : γ) : Nat → γ := fun k => if k = i then x else f k

/-- One step. `swap` exchanges the containers (`flat_map.hpp` 900-909); `extract` exchanges them with empty ones (693-699);
`replace` moves both in (701-709). -/
def MapWorld.step (lt : α → α → Bool) (dflt : β) (w : MapWorld α β) : WorldOp α β → MapWorld α β
  | .on i op => { w with maps := setAt w.maps i ((w.maps i).step lt dflt op) }
  | .copy i j => { w with maps := setAt w.maps i (w.maps j) }
  | .move i j => { w with maps := setAt (setAt w.maps i (w.maps j)) j FlatMap.clear }
  | .swap i j => { w with maps := setAt (setAt w.maps i (w.maps j)) j (w.maps i) }
  | .extract i c => ⟨setAt w.maps i FlatMap.clear, setAt w.boxes c ((w.maps i).keys, (w.maps i).vals)⟩
  | .replace i c => ⟨setAt w.maps i ⟨(w.boxes c).1, (w.boxes c).2⟩, setAt w.boxes c ([], [])⟩
  | .fill c ks vs => { w with boxes := setAt w.boxes c (ks, vs) }

/-- A program. -/
def MapWorld.run (lt : α → α → Bool) (dflt : β) (w : MapWorld α β) : List (WorldOp α β) → MapWorld α β
  | [] => w
  | op :: ops => (w.step lt dflt op).run lt dflt ops

/-- All maps and containers are empty. -/
def MapWorld.start : MapWorld α β := ⟨fun _ => FlatMap.clear, fun _ => ([], [])⟩

end

end HppProto
