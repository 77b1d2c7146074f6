import Verif.Model.Serialize
/-!
# Model of `merge`: `include/hpp_proto/merge.hpp`

`mv` tells whether the source is moved from (rvalue overloads). Source and destination have
the same type; `bind_empty_container_to_context` (62-74) only changes memory resources and
has no effect on contents.
-/
namespace HppProto

/-- `insert` of an entry that is only inserted when its key is absent (`std::map::insert`,
`std::map::merge`, `flat_map::insert(sorted_unique, …)`), in key order. -/
def insertIfAbsent (e : Val) : List (Nat × Val) → List (Nat × Val)
  | [] => [(0, e)]
  | (a, x) :: l =>
    if entryRank x = entryRank e then (a, x) :: l
    else if lexLt (entryRank e) (entryRank x) then (0, e) :: (a, x) :: l
    else (a, x) :: insertIfAbsent e l

/-- Associative containers: merge.hpp 243-292. Unless one of them is empty, the destination
becomes the source, and the old entries are inserted where their key is absent. -/
def mergeMap (dest src : List (Nat × Val)) : List (Nat × Val) :=
  if src.isEmpty then dest
  else if dest.isEmpty then src
  else dest.foldl (fun acc e => insertIfAbsent e.2 acc) src

/-- Unknown fields (append, 305-307 with 169-235) and extensions (297-304: per number
`try_emplace` and append). A type without storage has nothing to merge (310-319). -/
def mergeUnk (mode : UnkMode) (dest src : List (Nat × List Byte)) : List (Nat × List Byte) :=
  match mode with
  | .none => dest
  | _ => src.foldl (fun acc u => unkAppend u.1 u.2 acc) dest

/-- The message a value is merged into: the present one, or a new one (`emplace()`). -/
def mergeBase (C : Cfg) (id : Nat) : List (Nat × Val) → Msg
  | (_, v) :: _ => v.asMsg (C.schema id).default
  | [] => (C.schema id).default

section
variable (C : Cfg) (mv : Bool)

mutual
/-- `perform(dest, source)` for messages: merge.hpp 76-94, every member with its
counterpart, the unknown fields among them. -/
def mergeMsg (id : Nat) (dest : Msg) : MsgOf Val → Msg
  | ⟨slots, unk⟩ => ⟨mergeSlots (C.schema id).slots dest.slots slots, mergeUnk (C.schema id).unk dest.unk unk⟩
termination_by structural x => x
/-- The fold over `zip_tuples` 89-93. -/
def mergeSlots (sds : List SlotD) (dest : List (List (Nat × Val))) : List (List (Nat × Val)) → List (List (Nat × Val))
  | [] => dest
  | s :: src =>
    match sds, dest with
    | sd :: sds, d :: dest => mergeSlot sd d s :: mergeSlots sds dest src
    | _, _ => dest
termination_by structural x => x
/-- `perform(metas, dest, source)`: merge.hpp 96-121, by type of member:
a oneof 98-111 (same alternative: merge the alternatives, which have explicit presence;
another one: assign), an optional 148-167, repeated 169-235, associative 243-292, plain
members with explicit presence 112-113, others only when not omitted 115-117. -/
def mergeSlot (sd : SlotD) (dest : List (Nat × Val)) : List (Nat × Val) → List (Nat × Val)
  | [] => dest
  | (a, v) :: src =>
    match sd with
    | .field _ k card =>
      match card with
      | .implicit dflt => if isDefault k dflt v then dest else [(0, mergeVal k dest v)]
      | .always _ => [(0, mergeVal k dest v)]
      | .optional => [(0, mergeVal k dest v)]
      | .repeated _ => dest ++ (0, mergeElem k v) :: mergeElems k src
      | .map unique => if unique then mergeMap dest ((a, v) :: src) else dest ++ (a, v) :: src
    | .oneof alts =>
      match alts[a]? with
      | some (_, k) => if dest.map Prod.fst = [a] then [(a, mergeVal k dest v)] else [(a, v)]
      | none => dest
termination_by structural x => x
/-- A value into the place that holds `dest`: messages are merged (76-94, 148-156), other
values assigned (160-161, 323-338). -/
def mergeVal (k : Kind) (dest : List (Nat × Val)) : Val → Val
  | .msg m =>
    match k with
    | .msg id | .group id => .msg (mergeMsg id (mergeBase C id dest) m)
    | .scalar _ => .msg m
  | .num v => .num v
  | .bytes b => .bytes b
termination_by structural x => x
/-- An element of a repeated field: a copied message is merged into a new one (205-212), a
moved element and other values are taken as they are (174-198, 214-223). -/
def mergeElem (k : Kind) : Val → Val
  | .msg m =>
    match k with
    | .msg id | .group id => if mv then .msg m else .msg (mergeMsg id (C.schema id).default m)
    | .scalar _ => .msg m
  | .num v => .num v
  | .bytes b => .bytes b
termination_by structural x => x
/-- The elements of a repeated field. -/
def mergeElems (k : Kind) : List (Nat × Val) → List (Nat × Val)
  | [] => []
  | (_, v) :: src => (0, mergeElem k v) :: mergeElems k src
termination_by structural x => x
end

end

end HppProto
