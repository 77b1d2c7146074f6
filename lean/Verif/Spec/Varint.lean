import Verif.Model.Varint
/-!
# Specification of base-128 varints (protobuf encoding guide), in plain arithmetic
-/
namespace HppProto.Spec
open HppProto

/-- Number of leading bytes of `g` up to and including the first one below 128, if it
is among the first `fuel` bytes. -/
def varintLen (g : Mem) : (fuel : Nat) → Option Nat
  | 0 => none
  | fuel + 1 => if (g 0).toNat < 128 then some 1 else (varintLen (fun i => g (i + 1)) fuel).map (· + 1)

/-- Base-128 little-endian value of the first `n` bytes (payload = low 7 bits). -/
def varintVal (g : Mem) : (n : Nat) → Nat
  | 0 => 0
  | n + 1 => (g 0).toNat % 128 + 128 * varintVal (fun i => g (i + 1)) n

/-- A byte list followed by anything. -/
def startsWith (g : Mem) (bs : List Byte) : Prop := ∀ i (h : i < bs.length), g i = bs[i]

/-- The bytes of a list at its indices, zero elsewhere. -/
def memOf (bs : List Byte) : Mem := fun i => bs.getD i 0#8

/-- Mathematical zig-zag: 0,-1,1,-2,… ↦ 0,1,2,3,… -/
def zigzag (z : Int) : Nat := if 0 ≤ z then (2 * z).toNat else (-2 * z - 1).toNat

end HppProto.Spec
