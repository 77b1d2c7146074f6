import Verif.Model.Text

/-!
# Files and imports of a descriptor pool

Model of the part of `descriptor_pool::init` that registers the files of a set, resolves their
imports and checks that the imports have no cycle
(`include/hpp_proto/descriptor_pool.hpp` 801-862).
-/

namespace HppProto

/-- What the checks below read of a `FileDescriptorProto`: `name` and the list `dependency`
(`descriptor_pool.hpp` 805, 822-824). -/
structure PoolFile where
  name : List Byte
  deps : List (List Byte)
deriving Repr, DecidableEq

/-- `file_map_`: the names registered so far with the index of their file in `files_`
(`descriptor_pool.hpp` 947, filled at 1077).  Simplification: an association list in place of the
map type. -/
abbrev FileMap := List (List Byte × Nat)

/-- `get_file_descriptor` (`descriptor_pool.hpp` 644-652).  The pointer to an element of `files_`
is represented by the index of the element. -/
def fileIndex (m : FileMap) (name : List Byte) : Option Nat :=
  (m.find? fun e => e.1 == name).map Prod.snd

/-- `build_files_from_fileset` (`descriptor_pool.hpp` 801-816) with the registration of the file at
1077: a file with an empty name or with a name registered before is an error.  Not modelled here:
the messages and enums of the file and the choice of its features. -/
def registerFiles : List PoolFile → FileMap → Nat → Option FileMap
  | [], m, _ => some m
  | f :: fs, m, i =>
    if f.name.isEmpty || (fileIndex m f.name).isSome then none
    else registerFiles fs (m ++ [(f.name, i)]) (i + 1)

/-- The loop of `link_file_dependencies` (`descriptor_pool.hpp` 818-830): the imports of every file,
each replaced by the file it names; an import of an unknown file is an error. -/
def linkDeps (m : FileMap) : List PoolFile → Option (List (List Nat))
  | [] => some []
  | f :: fs =>
    let ds := f.deps.map (fileIndex m)
    if ds.any Option.isNone then none
    else (linkDeps m fs).map fun rest => ds.filterMap id :: rest

/-- `incoming_edges[d]++` (`descriptor_pool.hpp` 837).  Simplification: the counter does not wrap;
it counts the elements of lists that are in memory. -/
def addEdge (inc : List Nat) (d : Nat) : List Nat := inc.set d (inc.getD d 0 + 1)

/-- The counting loop of `validate_file_dependency_acyclic` (`descriptor_pool.hpp` 832-839). -/
def incoming (deps : List (List Nat)) : List Nat :=
  deps.foldl (fun inc ds => ds.foldl addEdge inc) (List.replicate deps.length 0)

/-- `--incoming_edges[d]` (`descriptor_pool.hpp` 855) on a `std::size_t`: zero wraps. -/
def decr64 (c : Nat) : Nat := if c = 0 then 2 ^ 64 - 1 else c - 1

/-- The inner loop of `validate_file_dependency_acyclic` (`descriptor_pool.hpp` 853-858): takes the
edges of one file away and queues the files that have none left. -/
def dropEdges : List Nat → List Nat × List Nat → List Nat × List Nat
  | [], s => s
  | d :: ds, (inc, pending) =>
    let c := decr64 (inc.getD d 0)
    dropEdges ds (inc.set d c, if c = 0 then pending ++ [d] else pending)

/-- The outer loop of `validate_file_dependency_acyclic` (`descriptor_pool.hpp` 849-859); the result
is `visited`.  `fuel` bounds the number of iterations. -/
def visitFiles (deps : List (List Nat)) : Nat → List Nat × List Nat → Nat → Nat → Nat
  | 0, _, _, visited => visited
  | fuel + 1, (inc, pending), next, visited =>
    if next < pending.length then
      visitFiles deps fuel (dropEdges (deps.getD (pending.getD next 0) []) (inc, pending))
        (next + 1) (visited + 1)
    else visited

/-- `validate_file_dependency_acyclic` (`descriptor_pool.hpp` 832-862): `true` for success.  The
fuel exceeds the number of files; the proofs show that the queue is exhausted before it. -/
def filesAcyclic (deps : List (List Nat)) : Bool :=
  let inc := incoming deps
  let pending := (List.range inc.length).filter fun i => inc.getD i 0 == 0
  visitFiles deps (deps.length + 1) (inc, pending) 0 0 == deps.length

/-- `build_files_from_fileset` followed by `link_file_dependencies`
(`descriptor_pool.hpp` 773-775): `true` for success, `false` for `validation_error`. -/
def linkFiles (files : List PoolFile) : Bool :=
  match registerFiles files [] 0 with
  | none => false
  | some m =>
    match linkDeps m files with
    | none => false
    | some deps => filesAcyclic deps

end HppProto
