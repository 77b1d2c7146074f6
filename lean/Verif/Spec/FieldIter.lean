import Verif.Model.FieldIter

/-!
# What iterators over repeated fields are for

Positions in a list of `n` elements are the numbers from `0` to `n`.
-/

namespace HppProto.Iter.Spec

/-- How far a move goes. -/
def distance : Move → Int
  | .inc => 1
  | .dec => -1
  | .add n => n
  | .sub n => -n

/-- The position after moves that stay in the range. -/
def position (n : Nat) (p : Nat) : List Move → Option Nat
  | [] => some p
  | m :: ms =>
    if 0 ≤ (p : Int) + distance m ∧ (p : Int) + distance m ≤ n then position n ((p : Int) + distance m).toNat ms
    else none

/-- The reference object at this address is destroyed or assigned to. -/
def touches {V : Type} (r : Nat) : Op V → Prop
  | .assign q _ => q = r
  | .destroy q => q = r
  | _ => False

/-- What a list is after a change. -/
def listAfter {V : Type} (l : Nat) (vs : List V) : Op V → List V
  | .append k v => if k = l then vs ++ [v] else vs
  | .setAt k i v => if k = l then vs.set i v else vs
  | .shrink k n => if k = l then vs.take n else vs
  | _ => vs

end HppProto.Iter.Spec
