import Verif.Proofs.ViewMemoryRun

/-!
# C127, C128: non-owning messages in memory
-/

namespace HppProto.Props

open HppProto.ViewMem
open HppProto.ViewSpec (VTree Values Plain Shows)

/-- C127: after every history of making, reading and assigning non-owning messages, and of filling the
buffers of inputs again, each message, at every path, shows the value that the same calls give for
values.  Reading and looking stay inside of memory, also after a read that ended with an error. -/
theorem C127_values {V : Type} [Inhabited V] [DecidableEq V] (T : VTypes) (ops : List (VOp V))
    (hp : ∀ o ∈ ops, Plain o) (w : Values V) (hw : ViewSpec.run T ops ⟨[], []⟩ = some w) :
    ∃ s, VState.init.run T ops = .ok s ∧ Shows T s w := by
  obtain ⟨s, h1, h2⟩ := run_ok T ops VInv.init hp hw
  exact ⟨s, h1, h2.shows T⟩

/-- C127: in particular a read, successful or not, changes what is seen of no message but the one that is
read into, even of one it was copied from or to; and filling an input again changes nothing. -/
theorem C127_others {V : Type} [Inhabited V] [DecidableEq V] (T : VTypes) (ops : List (VOp V))
    (hp : ∀ o ∈ ops, Plain o) (w : Values V) (hw : ViewSpec.run T ops ⟨[], []⟩ = some w) (o : VOp V)
    (ho : Plain o) (w' : Values V) (hw' : ViewSpec.step T w o = some w') :
    ∃ s s', VState.init.run T ops = .ok s ∧ s.step T o = .ok s' ∧
      (∀ i j us, o = .read i j us → ∀ a k, a.root ≠ i → s'.look T a k = s.look T a k) ∧
      (∀ j vs, o = .reuse j vs → ∀ a k, s'.look T a k = s.look T a k) := by
  obtain ⟨s, h1, h2⟩ := run_ok T ops VInv.init hp hw
  obtain ⟨s', h3, h4⟩ := step_ok T h2 o ho hw'
  refine ⟨s, s', h1, h3, ?_, ?_⟩
  · rintro i j us rfl a k ha
    rw [h2.shows T a k, h4.shows T a k]
    congr 1
    simp only [ViewSpec.step, ViewSpec.readInto] at hw'
    split at hw'
    · next inp t c _ _ =>
      split at hw'
      · next c' ok _ =>
        obtain rfl := Option.some.inj hw'
        simp only [ViewSpec.Values.look, ViewSpec.Values.get]
        rw [List.getElem?_set, if_neg (Ne.symm ha)]
      · cases hw'
    · cases hw'
  · rintro j vs rfl a k
    rw [h2.shows T a k, h4.shows T a k]
    simp only [ViewSpec.step] at hw'
    split at hw'
    · obtain rfl := Option.some.inj hw'
      rfl
    · cases hw'

/-- A message with a number, a string, a recursive field, repeated messages and extensions. -/
def viewType : VTypes := fun _ => [.val, .vals, .ptr 0, .many 0, .exts]

/-- A message is read, its recursive field and an element are assigned to others, which are read into
again, once with an error in a nested message; and the buffer of the input is filled again. -/
def viewOps : List (VOp Nat) :=
  [.new 0, .input [1, 2, 3], .read 0 0 [.val 0 5, .sub 2 [.str 1 [7, 8], .sub 2 [.val 0 6]],
      .many 3 [[.val 0 1], [.str 1 [9]]], .app 1 [4], .sub 2 [.app 1 [10]]],
    .new 0, .assign 1 ⟨0, [(2, 0)]⟩, .new 0, .assign 2 ⟨0, [(3, 1)]⟩, .new 0, .assign 3 ⟨0, []⟩,
    .read 1 0 [.val 0 3, .sub 2 [.val 0 7, .fail]], .reuse 0 [], .read 2 0 [.many 3 [[.fail], []]]]

/-- An extendable message, in which the extensions can be looked at as pairs of a number and bytes. -/
def extType : VTypes := fun t => if t = 0 then [.many 1] else [.val, .vals]

/-- What is seen of a member after a history. -/
def lookAfter (T : VTypes) (ops : List (VOp Nat)) (a : VPath) (k : Nat) : Res (Option (VLook Nat)) :=
  match (VState.init (V := Nat)).run T ops with
  | .ok s => s.look T a k
  | .err e => .err e
  | .ub => .ub
  | .throw => .throw
  | .stuck => .stuck

/-- What would be seen if messages were values. -/
def lookValue (T : VTypes) (ops : List (VOp Nat)) (a : VPath) (k : Nat) : Option (Option (VLook Nat)) :=
  (ViewSpec.run T ops ⟨[], []⟩).map fun w => w.look T a k

/-- C127, example: a history with copies of messages and parts, errors and inputs that are filled again. -/
theorem viewOps_ok : (∀ o ∈ viewOps, Plain o) ∧ (ViewSpec.run viewType viewOps ⟨[], []⟩).isSome = true ∧
    lookAfter viewType viewOps ⟨0, [(2, 0)]⟩ 1 = .ok (some (.vals [7, 8, 10])) ∧
    lookAfter viewType viewOps ⟨3, [(2, 0), (2, 0)]⟩ 0 = .ok (some (.val 6)) ∧
    lookAfter viewType viewOps ⟨1, []⟩ 0 = .ok (some (.val 3)) ∧
    lookAfter viewType viewOps ⟨1, []⟩ 2 = .ok (some (.has false)) ∧
    lookAfter viewType viewOps ⟨2, []⟩ 3 = .ok (some (.size 2)) ∧
    lookAfter viewType viewOps ⟨0, [(3, 1)]⟩ 1 = .ok (some (.vals [9])) := by
  refine ⟨?_, by decide +kernel, by decide +kernel, by decide +kernel, by decide +kernel,
    by decide +kernel, by decide +kernel, by decide +kernel⟩
  intro o ho
  simp only [viewOps, List.mem_cons, List.not_mem_nil, or_false] at ho
  rcases ho with rfl | rfl | rfl | rfl | rfl | rfl | rfl | rfl | rfl | rfl | rfl | rfl <;>
    first | trivial | (show _ = true; decide +kernel)

/-- C127, refuted for `pb_serializer::deserialize`, which reads into a message without clearing it: a copy
of a message is read into, and the recursive field of the original changes
(`deserialize.hpp` 1099-1101). -/
theorem C127_merge_shared :
    ∃ ops : List (VOp Nat), (ViewSpec.run viewType ops ⟨[], []⟩).isSome = true ∧
      lookAfter viewType ops ⟨0, [(2, 0)]⟩ 0 = .ok (some (.val 6)) ∧
      lookValue viewType ops ⟨0, [(2, 0)]⟩ 0 = some (some (.val 5)) :=
  ⟨[.new 0, .input [], .read 0 0 [.sub 2 [.val 0 5]], .new 0, .assign 1 ⟨0, []⟩,
      .merge 1 0 [.sub 2 [.val 0 6]]], by decide +kernel, by decide +kernel, by decide +kernel⟩

/-- C128, for reads without padded input and messages that are not extendable: every read has a result, and
everything that can be looked at afterwards is there. -/
theorem C128_defined_partial {V : Type} [Inhabited V] [DecidableEq V] (T : VTypes) (ops : List (VOp V))
    (hp : ∀ o ∈ ops, Plain o) (hw : (ViewSpec.run T ops ⟨[], []⟩).isSome = true) (a : VPath) (k : Nat) :
    ∃ s x, VState.init.run T ops = .ok s ∧ s.look T a k = .ok x := by
  obtain ⟨w, hw⟩ := Option.isSome_iff_exists.mp hw
  obtain ⟨s, h1, h2⟩ := C127_values T ops hp w hw
  exact ⟨s, _, h1, h2 a k⟩

/-- C128, refuted for padded input, as documented: a string is a view of the input, and it changes with
the buffer of the input, or is outside of it. -/
theorem C128_padded_aliases_input :
    ∃ ops : List (VOp Nat),
      lookAfter viewType ops ⟨0, []⟩ 1 = .ok (some (.vals [2, 3])) ∧
      lookAfter viewType (ops ++ [.reuse 0 [7, 8, 9]]) ⟨0, []⟩ 1 = .ok (some (.vals [8, 9])) ∧
      lookAfter viewType (ops ++ [.reuse 0 [7]]) ⟨0, []⟩ 1 = .ub ∧
      lookValue viewType (ops ++ [.reuse 0 [7]]) ⟨0, []⟩ 1 = some (some (.vals [2, 3])) :=
  ⟨[.new 0, .input [1, 2, 3], .read 0 0 [.view 1 1 2]], by decide +kernel, by decide +kernel,
    by decide +kernel, by decide +kernel⟩

/-- C128, refuted: an unknown number of a closed enum leaves, in an extendable message, a view of the bytes
of a local array that is gone (`deserialize.hpp` 651, 665).  The read is successful, and looking at the
unknown field is undefined. -/
theorem C128_unknown_enum_dangles :
    ∃ ops : List (VOp Nat),
      lookAfter extType ops ⟨0, []⟩ 0 = .ok (some (.size 1)) ∧
      lookAfter extType ops ⟨0, [(0, 0)]⟩ 1 = .ub ∧
      lookValue extType ops ⟨0, [(0, 0)]⟩ 1 = some (some (.vals [24, 9])) :=
  ⟨[.new 0, .input [], .read 0 0 [.unkEnum 0 3 [24, 9]]], by decide +kernel, by decide +kernel,
    by decide +kernel⟩

/-- C128, refuted: bytes in which an extendable recursive field occurs twice, both times with an extension,
make the read itself undefined: the second time it searches from a null pointer
(`deserialize.hpp` 1355-1356, 624; `memory_resource_utils.hpp` 305-312). -/
theorem C128_extension_twice_ub :
    ∃ us : List (VUpd Nat),
      (VState.init (V := Nat)).run viewType [.new 0, .input [], .read 0 0 us] = .ub ∧
      (ViewSpec.run viewType [.new 0, .input [], .read 0 0 us] ⟨[], []⟩).isSome = true ∧
      us = [.sub 2 [.ext 4 100 [1]], .sub 2 [.ext 4 100 [2]]] :=
  ⟨_, by with_unfolding_all rfl, by with_unfolding_all rfl, rfl⟩

/-- C128: the same extension twice in one occurrence of the field is read. -/
theorem C128_extension_once :
    lookAfter viewType [.new 0, .input [], .read 0 0 [.sub 2 [.ext 4 100 [1], .ext 4 100 [2]]]]
      ⟨0, [(2, 0)]⟩ 4 = .ok (some (.size 1)) := by decide +kernel

end HppProto.Props
