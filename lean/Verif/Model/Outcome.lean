/-! # Outcomes of the modelled operations -/
namespace HppProto

/-- The `std::errc` values that the modelled functions return. -/
inductive Err where
  | badMessage | valueTooLarge | notEnoughMemory | noSuchFile | invalidArgument | illegalByteSequence
  deriving DecidableEq, Repr

/-- Outcome of a step: result, error status, undefined behaviour (access outside a
buffer), escaping exception, or loop fuel of the model exhausted. -/
inductive Res (α : Type) where
  | ok (a : α) | err (e : Err) | ub | throw | stuck
  deriving Repr, DecidableEq

def Res.bind {α β} : Res α → (α → Res β) → Res β
  | .ok a, f => f a
  | .err e, _ => .err e
  | .ub, _ => .ub
  | .throw, _ => .throw
  | .stuck, _ => .stuck

instance : Monad Res where
  pure := .ok
  bind := Res.bind

end HppProto
