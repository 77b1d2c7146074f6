import Verif.Model.Schema
import Verif.Spec.Varint
/-!
# Specification: a byte string as a sequence of wire records

Written from the protobuf encoding guide. A record tree is well formed when its parts are
legal; the bytes it stands for are just the concatenation of the parts. Where the library
accepts less or reads something else than the guide says, the comment says so.
-/
namespace HppProto.Spec
open HppProto

/-- `bs` is one complete varint of at most `max` bytes. -/
def isVarint (max : Nat) (bs : List Byte) : Prop := varintLen (memOf bs) max = some bs.length

/-- Base-128 value of a complete varint. -/
def valueOf (bs : List Byte) : Nat := varintVal (memOf bs) bs.length

/-- `bs` is a varint that the reader takes for the tag `t`. Tags of up to four bytes have
their base-128 value. (Deviation of the library, C06: of a five-byte tag only the low 28
bits are kept and the upper four are set.) -/
def isTag (bs : List Byte) (t : BitVec 32) : Prop :=
  isVarint 5 bs ∧
    t.toNat = if bs.length ≤ 4 then valueOf bs else 15 * 2 ^ 28 + valueOf bs % 2 ^ 28

/-- Field number of a tag. -/
def tagNum (t : BitVec 32) : Nat := t.toNat / 8

/-- Wire type of a tag. -/
def tagWt (t : BitVec 32) : Nat := t.toNat % 8

/-- One record. `head` is the varint of the tag; the payload is a varint, four or eight
bytes, a length prefix and that many bytes, or records up to an end-group tag. -/
inductive Rec where
  | varint (tag : BitVec 32) (head val : List Byte)
  | fixed (tag : BitVec 32) (head val : List Byte)
  | len (tag : BitVec 32) (head pre val : List Byte)
  | group (tag : BitVec 32) (head : List Byte) (body : List Rec) (tail : List Byte)

def Rec.tag : Rec → BitVec 32
  | .varint t _ _ | .fixed t _ _ | .len t _ _ _ | .group t _ _ _ => t

def Rec.head : Rec → List Byte
  | .varint _ h _ | .fixed _ h _ | .len _ h _ _ | .group _ h _ _ => h

mutual
/-- The bytes after the tag. -/
def Rec.payload : Rec → List Byte
  | .varint _ _ v | .fixed _ _ v => v
  | .len _ _ p v => p ++ v
  | .group _ _ body tail => rawAll body ++ tail
/-- The bytes of a sequence of records. -/
def rawAll : List Rec → List Byte
  | [] => []
  | r :: rs => (r.head ++ r.payload) ++ rawAll rs
end

/-- The bytes of a record. -/
def Rec.raw (r : Rec) : List Byte := r.head ++ r.payload

mutual
/-- The record is well formed. Lengths are 32-bit varints. (Deviation of the library, C03:
a length varint has at most six bytes.) -/
def Rec.wf : Rec → Prop
  | .varint t h v => isTag h t ∧ t ≠ 0#32 ∧ tagWt t = 0 ∧ isVarint 10 v
  | .fixed t h v => isTag h t ∧ ((tagWt t = 1 ∧ v.length = 8) ∨ (tagWt t = 5 ∧ v.length = 4))
  | .len t h p v => isTag h t ∧ tagWt t = 2 ∧ isVarint 6 p ∧ valueOf p % 2 ^ 32 = v.length
  | .group t h body tail => isTag h t ∧ tagWt t = 3 ∧ wfAll body ∧
      ∃ e, isTag tail e ∧ tagWt e = 4 ∧ tagNum e = tagNum t
/-- All records of a sequence are well formed. -/
def wfAll : List Rec → Prop
  | [] => True
  | r :: rs => r.wf ∧ wfAll rs
end

mutual
/-- Levels of nested groups. -/
def Rec.depth : Rec → Nat
  | .group _ _ body _ => depthAll body + 1
  | _ => 0
/-- Levels of nested groups in a sequence. -/
def depthAll : List Rec → Nat
  | [] => 0
  | r :: rs => max r.depth (depthAll rs)
end

end HppProto.Spec
