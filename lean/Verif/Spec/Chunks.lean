import Verif.Model.Sink
/-!
# Specification: bytes poured into the chunks of a sink
-/
namespace HppProto.Spec
open HppProto
variable {σ : Type} (S : Sink σ)

/-- The first `k` chunks that a sink in state `s` hands out, with the bytes they hold at that
time. -/
def handed (s : σ) : Nat → List (List Byte)
  | 0 => []
  | k + 1 => (S.next s).1 :: handed (S.next s).2 k

/-- The state of the sink after handing out `k` chunks. -/
def after (s : σ) : Nat → σ
  | 0 => s
  | k + 1 => after (S.next s).2 k

/-- `chunks` is `original` with its first bytes, counted across chunk boundaries, replaced by
`bytes`; all sizes and all other bytes are as they were. -/
def Poured (original : List (List Byte)) (bytes : List Byte) (chunks : List (List Byte)) : Prop :=
  chunks.map List.length = original.map List.length ∧
  bytes.length ≤ original.flatten.length ∧
  chunks.flatten = bytes ++ original.flatten.drop bytes.length

end HppProto.Spec
