import Verif.Spec.Fields
/-!
# Specification: scalar values in a record

The payload of a scalar record is cut into pieces, one per value, and each piece has a
value; nothing here depends on how the pieces are grouped into records.
-/
namespace HppProto.Spec
open HppProto

/-- Cut after each byte below 128. -/
def cutVarints : List Byte → List (List Byte)
  | [] => []
  | b :: bs =>
    if b.toNat < 128 then [b] :: cutVarints bs
    else match cutVarints bs with
      | [] => [[b]]
      | x :: xs => (b :: x) :: xs

/-- `n` pieces of `k` bytes. -/
def cutEvery (k : Nat) : (n : Nat) → List Byte → List (List Byte)
  | 0, _ => []
  | n + 1, bs => bs.take k :: cutEvery k n (bs.drop k)

/-- The payloads of the scalars in a record: one for a plain record, the elements of a
packed list for a length-delimited record. -/
def pieces (sc : Scalar) : Rec → List (List Byte)
  | .varint _ _ v => [v]
  | .fixed _ _ v => [v]
  | .len _ _ _ v =>
    match sc with
    | .fixed32 _ => cutEvery 4 (v.length / 4) v
    | .fixed64 _ => cutEvery 8 (v.length / 8) v
    | .str _ => [v]
    | _ => cutVarints v
  | .group _ _ _ _ => []

/-- Number with the given base-256 digits, least significant first. -/
def littleNumber : List Byte → Nat
  | [] => 0
  | b :: bs => b.toNat + 256 * littleNumber bs

/-- A 32-bit number, sign-extended. -/
def signed32 (n : Nat) : BitVec 64 := (BitVec.ofNat 32 n).signExtend 64

/-- Value of one piece. For `sint32`/`sint64` it is described by C03 and C04. -/
def pieceVal (sc : Scalar) (p : List Byte) : Val :=
  match sc with
  | .varint .i32 => .num (signed32 (valueOf p))
  | .varint .u32 => .num ((BitVec.ofNat 32 (valueOf p)).setWidth 64)
  | .varint .i64 | .varint .u64 => .num (BitVec.ofNat 64 (valueOf p))
  | .varint .s32 => .num (VarTy.s32.parse (memOf p)).2
  | .varint .s64 => .num (VarTy.s64.parse (memOf p)).2
  | .bool => .num (if valueOf p % 2 ^ 64 = 0 then 0 else 1)
  | .enum _ => .num (signed32 (valueOf p))
  | .fixed32 _ | .fixed64 _ => .num (BitVec.ofNat 64 (littleNumber p))
  | .str _ => .bytes p

/-- Is the value allowed in the type: for a closed enum, is it one of its numbers? -/
def allowed (sc : Scalar) (v : Val) : Bool :=
  match sc with
  | .enum (some vs) => vs.contains v.bits
  | _ => true

/-- The scalars in a record of a scalar field. -/
def recVals (sc : Scalar) (r : Rec) : List Val := (pieces sc r).map (pieceVal sc)

/-- Numbers in a record of a closed-enum field that are not in the enum; empty for records
of other kinds of fields. -/
def outside (k : Kind) (r : Rec) : List (BitVec 64) :=
  match k with
  | .scalar sc => ((recVals sc r).filter (fun v => !allowed sc v)).map Val.bits
  | _ => []

/-- What is kept of a record: of an unknown one its bytes, of a record of a closed-enum field
one well-formed record with the same field number for each number outside the enum, of other
records nothing. -/
def keptAs (D : MsgD) (r : Rec) (part : List Byte) : Prop :=
  match fieldKind D (tagNum r.tag) with
  | none => part = r.raw
  | some k => ∃ xs : List (BitVec 64),
      part = xs.flatMap (fun x => Spec.tag (BitVec.ofNat 32 (tagNum r.tag)) 0 ++ leb x.toNat) ∧
      xs.map (fun x => signed32 x.toNat) = outside k r

/-- No two members own the same field number. -/
def distinctNumbers (D : MsgD) : Prop := ∀ (n i j : Nat) (a b : SlotD), D.slots[i]? = some a → D.slots[j]? = some b →
  (slotKind n a).isSome → (slotKind n b).isSome → i = j

/-- The records that belong to a member. -/
def recordsOf (sd : SlotD) (rs : List Rec) : List Rec := rs.filter (fun r => (slotKind (tagNum r.tag) sd).isSome)

/-- No closed-enum member without presence (protobuf does not allow them). -/
def noImplicitClosed (D : MsgD) : Prop := ∀ n vs dflt, SlotD.field n (.scalar (.enum (some vs))) (.implicit dflt) ∉ D.slots

end HppProto.Spec
