import Verif.Proofs.MetaEnum

/-!
# C95: the generated `is_valid` of an enum

`isValidFn numbers` is the function that the generator writes for an enum with these numbers, or
`ub` if the behaviour of the generator is undefined; `fn.accepts v` is what the function returns.
-/

namespace HppProto.Props
open Meta

/-- C95.  The function that is generated for an enum accepts the numbers of the enum and no others. -/
theorem C95_exact (numbers : List Int) (fn : ValidFn) (h : isValidFn numbers = .ok fn) (v : Int) :
    fn.accepts v = true ↔ v ∈ numbers := isValidFn_ok h v

/-- C95, in part.  A function is generated if no two numbers are further apart than the largest
`int`.  Missing: enums with numbers further apart, for which the behaviour of the generator may be
undefined (`C95_overflow`). -/
theorem C95_defined_partial (numbers : List Int)
    (h : ∀ a ∈ numbers, ∀ b ∈ numbers, b - a ≤ 2147483647) : ∃ fn, isValidFn numbers = .ok fn :=
  isValidFn_defined h

/-- C95: a continuous and a discontinuous enum, with an alias. -/
example : isValidFn [0, 2, 1, 1] = .ok (.range 0 2) ∧ isValidFn [5, -1, 0] = .ok (.among [-1, 0, 5]) ∧
    isValidFn [] = .ok .never ∧ ValidFn.accepts (.range 0 2) 3 = false := by decide +kernel

example : ∀ a ∈ [5, -1, (0 : Int)], ∀ b ∈ [5, -1, (0 : Int)], b - a ≤ 2147483647 := by decide +kernel

/-- C95: an enum with the numbers 0 and -2147483648, both of which the schema language allows,
makes the generator subtract two `int` whose difference is not an `int`. -/
theorem C95_overflow : isValidFn [0, -2147483648] = .ub := by decide +kernel

end HppProto.Props
