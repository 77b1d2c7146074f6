/-!
# Model of `flat_map`: `include/hpp_proto/flat_map.hpp`

Two parallel arrays `c_.keys` and `c_.values` 374-377, 1089. Iterators are positions.
Positions given to `erase` and as hints must be within the map, as in C++.
-/
namespace HppProto

/-- `containers` 374-377. -/
structure FlatMap (α β : Type) where
  keys : List α
  vals : List β

section
variable {α β : Type} (lt : α → α → Bool)

/-- `std::partition_point` on `len` elements from position `first` on (standard library, by
halving). The fuel is the number of elements. -/
def partitionPoint (p : α → Bool) (l : List α) : Nat → Nat → Nat → Nat
  | 0, first, _ => first
  | fuel + 1, first, len =>
    if len = 0 then first
    else
      let half := len / 2
      match l[first + half]? with
      | some x => if p x then partitionPoint p l fuel (first + half + 1) (len - half - 1)
                  else partitionPoint p l fuel first half
      | none => first

namespace FlatMap
variable (m : FlatMap α β)

/-- `lower_bound` 972-984, and `std::lower_bound` as used in `try_emplace` 713. -/
def lowerBound (k : α) : Nat := partitionPoint (fun e => lt e k) m.keys m.keys.length 0 m.keys.length

/-- `upper_bound` 1002-1014. -/
def upperBound (k : α) : Nat := partitionPoint (fun e => !lt k e) m.keys m.keys.length 0 m.keys.length

/-- `equal_range` 1032-1048. -/
def equalRange (k : α) : Nat × Nat :=
  let i := m.lowerBound lt k
  (i, partitionPoint (fun e => !lt k e) m.keys (m.keys.length - i) i (m.keys.length - i))

/-- `kit == end() || compare_(k, *kit)`: the key is not at this position. -/
def absentAt (k : α) (i : Nat) : Bool :=
  match m.keys[i]? with
  | none => true
  | some x => lt k x

/-- `find` 924-938; the end position if there is no such key. -/
def find (k : α) : Nat := if m.absentAt lt k (m.lowerBound lt k) then m.keys.length else m.lowerBound lt k

/-- `contains` 965, `count` 958. -/
def contains (k : α) : Bool := m.find lt k != m.keys.length

/-- `at` 606-620; no result for a thrown `std::out_of_range`. -/
def at? (k : α) : Option β := m.vals[m.find lt k]?

/-- `c_.keys.insert(kit, k)` then `guarded_emplace(kit, vit, v)` 1071-1079. -/
def insertAt (i : Nat) (k : α) (v : β) : FlatMap α β := ⟨m.keys.insertIdx i k, m.vals.insertIdx i v⟩

/-- The same when the construction of the mapped value throws: the key inserted before is erased
again, 1075-1078. -/
def insertAtThrow (i : Nat) (k : α) : FlatMap α β := ⟨(m.keys.insertIdx i k).eraseIdx i, m.vals⟩

/-- `try_emplace(k, v)` 711-735; `emplace` 622-636 and `insert` 643-661 do the same. Returns the position
and whether it inserted. -/
def tryEmplace (k : α) (v : β) : FlatMap α β × Nat × Bool :=
  let i := m.lowerBound lt k
  if m.absentAt lt k i then (m.insertAt i k v, i, true) else (m, i, false)

/-- `try_emplace(k, …)` when constructing the value throws; it is constructed only if the key is absent. -/
def tryEmplaceThrow (k : α) : FlatMap α β :=
  let i := m.lowerBound lt k
  if m.absentAt lt k i then m.insertAtThrow i k else m

/-- `equivalent` 739-741. -/
def equivKeys (a b : α) : Bool := !lt a b && !lt b a

/-- `try_emplace(hint, k, v)` 737-803. -/
def tryEmplaceHint (h : Nat) (k : α) (v : β) : FlatMap α β × Nat :=
  let here : Bool := match m.keys[h]? with | some x => equivKeys lt k x | none => false
  if here then (m, h)
  else if h ≠ 0 then
    match m.keys[h - 1]? with
    | none => (m, h)
    | some prev =>
      if equivKeys lt k prev then (m, h - 1)
      else if lt prev k && m.absentAt lt k h then (m.insertAt h k v, h)
      else ((m.tryEmplace lt k v).1, (m.tryEmplace lt k v).2.1)
  else if m.absentAt lt k h then (m.insertAt h k v, h)
  else ((m.tryEmplace lt k v).1, (m.tryEmplace lt k v).2.1)

/-- `it->second = v`. -/
def setVal (i : Nat) (v : β) : FlatMap α β := { m with vals := m.vals.set i v }

/-- `insert_or_assign(k, v)` 805-825. -/
def insertOrAssign (k : α) (v : β) : FlatMap α β :=
  let r := m.tryEmplace lt k v
  if !r.2.2 then r.1.setVal r.2.1 v else r.1

/-- `insert_or_assign(hint, k, v)` 827-849. -/
def insertOrAssignHint (h : Nat) (k : α) (v : β) : FlatMap α β :=
  let r := m.tryEmplaceHint lt h k v
  if r.1.keys.length = m.keys.length then r.1.setVal r.2 v else r.1

/-- `operator[](k) = v` 602-604: default construct if absent, then assign through the reference. -/
def indexAssign (dflt : β) (k : α) (v : β) : FlatMap α β :=
  let r := m.tryEmplace lt k dflt
  r.1.setVal r.2.1 v

/-- `erase(position)` 851-873. -/
def eraseAt (i : Nat) : FlatMap α β := ⟨m.keys.eraseIdx i, m.vals.eraseIdx i⟩

/-- `erase(key)` 875-882. -/
def eraseKey (k : α) : FlatMap α β × Nat :=
  let i := m.find lt k
  if i ≠ m.keys.length then (m.eraseAt i, 1) else (m, 0)

/-- `erase(first, last)` 884-898. -/
def eraseRange (i j : Nat) : FlatMap α β :=
  ⟨m.keys.take i ++ m.keys.drop j, m.vals.take i ++ m.vals.drop j⟩

/-- `clear` 911-914. -/
def clear : FlatMap α β := ⟨[], []⟩

/-- `insert(first, last)` 663-670. -/
def insertRange : FlatMap α β → List (α × β) → FlatMap α β
  | m, [] => m
  | m, (k, v) :: r => insertRange (m.tryEmplace lt k v).1 r

/-- `insert(sorted_unique, first, last)` 672-685: `it` never moves back. -/
def insertSorted : FlatMap α β → Nat → List (α × β) → FlatMap α β
  | m, _, [] => m
  | m, it, (k, v) :: r =>
    let i := partitionPoint (fun e => lt e k) m.keys (m.keys.length - it) it (m.keys.length - it)
    if m.absentAt lt k i then
      let e := m.tryEmplace lt k v
      insertSorted e.1 (e.2.1 + 1) r
    else insertSorted m (i + 1) r

end FlatMap

/-- The operations of a history. -/
inductive MapOp (α β : Type) where
  /-- `insert`, `emplace`, `try_emplace` -/
  | emplace (k : α) (v : β)
  /-- the same with a throwing mapped value -/
  | emplaceThrow (k : α)
  | emplaceHint (h : Nat) (k : α) (v : β)
  | insertOrAssign (k : α) (v : β)
  | insertOrAssignHint (h : Nat) (k : α) (v : β)
  /-- `m[k] = v` -/
  | indexAssign (k : α) (v : β)
  | eraseKey (k : α)
  | eraseAt (i : Nat)
  | eraseRange (i j : Nat)
  | insertRange (l : List (α × β))
  | insertSorted (l : List (α × β))
  | clear

/-- One operation; `dflt` is a default constructed mapped value. -/
def FlatMap.step (dflt : β) (m : FlatMap α β) : MapOp α β → FlatMap α β
  | .emplace k v => (m.tryEmplace lt k v).1
  | .emplaceThrow k => m.tryEmplaceThrow lt k
  | .emplaceHint h k v => (m.tryEmplaceHint lt h k v).1
  | .insertOrAssign k v => m.insertOrAssign lt k v
  | .insertOrAssignHint h k v => m.insertOrAssignHint lt h k v
  | .indexAssign k v => m.indexAssign lt dflt k v
  | .eraseKey k => (m.eraseKey lt k).1
  | .eraseAt i => m.eraseAt i
  | .eraseRange i j => m.eraseRange i j
  | .insertRange l => m.insertRange lt l
  | .insertSorted l => m.insertSorted lt 0 l
  | .clear => FlatMap.clear

/-- A history. -/
def FlatMap.run (dflt : β) (m : FlatMap α β) : List (MapOp α β) → FlatMap α β
  | [] => m
  | op :: ops => (m.step lt dflt op).run dflt ops

/-! ## Construction from a range: 112-163, 175-197, 465-473, 1081-1087 -/

/-- `std::iter_swap(it + i, it + j)`. -/
def swapAt {δ : Type} (l : List δ) (i j : Nat) : List δ :=
  match l[i]?, l[j]? with
  | some a, some b => (l.set i b).set j a
  | _, _ => l

/-- `swap_together` 112-117: both arrays. -/
def FlatMap.swapTogether (m : FlatMap α β) (i j : Nat) : FlatMap α β := ⟨swapAt m.keys i j, swapAt m.vals i j⟩

/-- `while (left != right && pred(head[left])) ++left` 122-123; the fuel is `right - left`. -/
def partAdvance (p : α → Bool) (ks : List α) : Nat → Nat → Nat
  | 0, left => left
  | fuel + 1, left =>
    match ks[left]? with
    | some x => if p x then partAdvance p ks fuel (left + 1) else left
    | none => left

/-- `while (left != right && !pred(head[right - 1])) --right` 124-125; the fuel is `right - left`. -/
def partRetreat (p : α → Bool) (ks : List α) : Nat → Nat → Nat
  | 0, right => right
  | fuel + 1, right =>
    match ks[right - 1]? with
    | some x => if !p x then partRetreat p ks fuel (right - 1) else right
    | none => right

/-- `partition_together` 119-133; the fuel is `right - left`. -/
def partitionTogether (p : α → Bool) : Nat → FlatMap α β → Nat → Nat → FlatMap α β × Nat
  | 0, m, _, right => (m, right)
  | fuel + 1, m, left, right =>
    if left < right then
      let left1 := partAdvance p m.keys (right - left) left
      let right1 := partRetreat p m.keys (right - left1) right
      if left1 + 1 < right1 then
        partitionTogether p fuel (m.swapTogether left1 (right1 - 1)) (left1 + 1) (right1 - 1)
      else partitionTogether p fuel m left1 right1
    else (m, right)

/-- `sort_together` 135-158; the fuel is `right - left`. The pivot is read at `right - 1`, which the
partition of `left .. right - 1` does not touch. -/
def sortTogether : Nat → FlatMap α β → Nat → Nat → FlatMap α β
  | 0, m, _, _ => m
  | fuel + 1, m, left, right =>
    if right - left ≥ 3 then
      let pivotIdx := left + (right - left) / 2
      let m1 := if pivotIdx ≠ right - 1 then m.swapTogether pivotIdx (right - 1) else m
      match m1.keys[right - 1]? with
      | none => m1
      | some pivot =>
        let (m2, c) := partitionTogether (fun x => lt x pivot) (right - 1 - left) m1 left (right - 1)
        let m3 := if c ≠ right - 1 then m2.swapTogether c (right - 1) else m2
        let m4 := sortTogether fuel m3 left c
        sortTogether fuel m4 (c + 1) right
    else if right - left = 2 then
      match m.keys[left]?, m.keys[left + 1]? with
      | some a, some b => if lt a b then m else m.swapTogether left (left + 1)
      | _, _ => m
    else m

/-- `unique_helper` 175-197 followed by the erasure 1083-1086: an element is dropped if the next one is
not greater. The in-place moves go to positions already read, so the lists that remain are
described instead. -/
def uniqueTogether : List α → List β → FlatMap α β
  | k :: k' :: ks, v :: vs =>
    let rest := uniqueTogether (k' :: ks) vs
    if !lt k k' then rest else ⟨k :: rest.keys, v :: rest.vals⟩
  | ks, vs => ⟨ks, vs⟩

/-- `flat_map(first, last)` 465-473, `flat_map(keys, values)` 384-387: `sort_and_unique_impl` 1081-1087. -/
def FlatMap.ofRange (l : List (α × β)) : FlatMap α β :=
  let m : FlatMap α β := ⟨l.map (·.1), l.map (·.2)⟩
  let s := sortTogether lt l.length m 0 l.length
  uniqueTogether lt s.keys s.vals

/-! ## Reverse iteration: 585-591 -/

/-- Positions `base` visited from `std::reverse_iterator(first)` to `std::reverse_iterator(last)`: each step
dereferences the element before `base`. No result when it runs off the front. The fuel bounds
the steps. -/
def FlatMap.reverseWalk (m : FlatMap α β) : Nat → Nat → Nat → Option (List (α × β))
  | 0, base, last => if base = last then some [] else none
  | fuel + 1, base, last =>
    if base = last then some []
    else if base = 0 then none
    else
      match m.keys[base - 1]?, m.vals[base - 1]? with
      | some k, some v => (FlatMap.reverseWalk m fuel (base - 1) last).map ((k, v) :: ·)
      | _, _ => none

/-- `for (it = rbegin(); it != rend(); ++it)` 585-588. -/
def FlatMap.reversed (m : FlatMap α β) : Option (List (α × β)) := m.reverseWalk m.keys.length m.keys.length 0

/-- `for (it = crbegin(); it != crend(); ++it)` 590-591: built from `begin()` and `end()`. -/
def FlatMap.creversed (m : FlatMap α β) : Option (List (α × β)) := m.reverseWalk m.keys.length 0 m.keys.length

end
end HppProto
