import Verif.Model.Arena
/-!
# What a growable sequence does
Specification for claim C39: the sequence itself, as a list.
-/
namespace HppProto.Spec
open HppProto

section
variable {γ : Type} (sz : Nat) (dflt : Option γ) (dec : List (BitVec 8) → γ)

/-- The elements a source range names, given the present contents. -/
def source (l : List (Option γ)) : Src γ → List (Option γ)
  | .ext r => r
  | .own i n => (l.drop i).take n

/-- Contents after an operation, given the contents before it. -/
def seqStep (l : List (Option γ)) : ArenaOp γ → List (Option γ)
  | .resize n => l.take n ++ List.replicate (n - l.length) dflt
  | .pushBack v => l ++ [v]
  | .clear => []
  | .assign r => source l r
  | .append r => l ++ source l r
  | .reserve _ => l
  | .appendRaw bs => l ++ rawElems sz dec (bs.length / sz) bs

/-- The number of elements an operation needs room for. -/
def seqNeeds (l : List (Option γ)) : ArenaOp γ → Nat
  | .reserve n => n
  | op => (seqStep sz dflt dec l op).length

/-- Source ranges name existing elements. -/
def sourceOk (l : List (Option γ)) : Src γ → Bool
  | .ext _ => true
  | .own i n => i + n ≤ l.length

/-- A legal call. `stored` tells whether the vector has obtained storage since it was built or
cleared. -/
def seqOk (l : List (Option γ)) (stored : Bool) (op : ArenaOp γ) : Bool :=
  decide (seqNeeds sz dflt dec l op * sz < 2 ^ 64) &&
  match op with
  | .assign r | .append r => sourceOk l r
  | .appendRaw bs => bs.length % sz == 0
  | .reserve n => stored || n == 0 || l.length ≤ n
  | _ => true

/-- Whether storage has been obtained. -/
def seqStored (l : List (Option γ)) (stored : Bool) : ArenaOp γ → Bool
  | .clear => false
  | op => stored || seqNeeds sz dflt dec l op != 0

/-- Contents after a history. -/
def seqRun (l : List (Option γ)) : List (ArenaOp γ) → List (Option γ)
  | [] => l
  | op :: ops => seqRun (seqStep sz dflt dec l op) ops

/-- A history of legal calls. -/
def seqLegal (l : List (Option γ)) (stored : Bool) : List (ArenaOp γ) → Bool
  | [] => true
  | op :: ops => seqOk sz dflt dec l stored op &&
      seqLegal (seqStep sz dflt dec l op) (seqStored sz dflt dec l stored op) ops

end
end HppProto.Spec
