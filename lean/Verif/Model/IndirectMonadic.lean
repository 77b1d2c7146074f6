import Verif.Model.Indirect

/-!
# Functions of `optional_indirect` that take functions, and comparisons with values

Model of `and_then`, `transform`, `or_else` and of the comparisons with a value and with `nullopt`
(`include/hpp_proto/optional_indirect.hpp` 237-253, 257-342), on top of `Verif/Model/Indirect.lean`.

The function that the program passes is a parameter: it may do anything to the variables, return or
throw.  What the optional hands to it is recorded.  The overloads for lvalues and rvalues of
`and_then` and `transform` differ only in the kind of the reference that the function gets, and are one
here.
-/

namespace HppProto.Ind

variable {D : Type} (E : Env D)

/-- `has_value`. -/
def Handle.hasValue : Handle D → Bool
  | .empty _ => false
  | .full _ _ _ _ => true

/-- What came of a call: the places that the function was called with, the result, and the rest. -/
structure Called (D R : Type) where
  calls : List Place
  result : R
  did : Did D

/-- `and_then` (`optional_indirect.hpp` 257-291): `f` on the object, or `result_t{}`. -/
def andThen {R : Type} (k : Place) (f : Place → Heap D → R × Did D) (none' : R) (s : Heap D) : Called D R :=
  match s.vars.look k.root k.path with
  | none => ⟨[], none', .bad⟩
  | some h =>
    if h.hasValue then ⟨[k], (f k s).1, (f k s).2⟩
    else ⟨[], none', .ok s⟩

/-- `transform` (`optional_indirect.hpp` 293-327). -/
def transform {R : Type} (k : Place) (f : Place → Heap D → R × Did D) (s : Heap D) : Called D (Option R) :=
  match s.vars.look k.root k.path with
  | none => ⟨[], none, .bad⟩
  | some h =>
    if h.hasValue then ⟨[k], some (f k s).1, (f k s).2⟩
    else ⟨[], none, .ok s⟩

/-- `or_else` (`optional_indirect.hpp` 329-342); the optional that is returned is a new variable in
front of the others, also that of `f`.  `taken` is the overload for rvalues.  The result says how often
`f` was called. -/
def orElse (taken : Bool) (k : Place) (f : Heap D → Did D) (s : Heap D) : Nat × Did D :=
  match s.vars.look k.root k.path with
  | none => (0, .bad)
  | some h =>
    if h.hasValue then (0, step E s (if taken then .declareMove k else .declareCopy k))
    else (1, f s)

/-- `operator==(const T &)` (`optional_indirect.hpp` 238-243). -/
def sameAsValue [DecidableEq D] : Handle D → D → Links D → Bool
  | .full _ _ d kids, e, l => d = e && sameLinks kids l
  | .empty _, _, _ => false

/-- `operator==(std::nullopt_t)` (`optional_indirect.hpp` 253). -/
def sameAsNull (h : Handle D) : Bool := !h.hasValue

end HppProto.Ind
