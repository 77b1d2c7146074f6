import Verif.Model.Schema
import Verif.Spec.Varint
/-!
# Specification: the protobuf wire encoding of a message

Written from the protobuf encoding guide, with its own number and length arithmetic; it
shares with the model only the data types for schemas and messages.
-/
namespace HppProto.Spec
open HppProto

/-- Minimal base-128 encoding. -/
def leb (n : Nat) : List Byte :=
  if n < 128 then [BitVec.ofNat 8 n] else BitVec.ofNat 8 (n % 128 + 128) :: leb (n / 128)
termination_by n

/-- Record header: field number and wire type. -/
def tag (number : BitVec 32) (wt : Nat) : List Byte := leb (number.toNat * 8 + wt)

/-- `k` bytes, least significant first. -/
def littleEndian : (k : Nat) → (n : Nat) → List Byte
  | 0, _ => []
  | k + 1, n => BitVec.ofNat 8 n :: littleEndian k (n / 256)

/-- Number carried by the varint of an integer field. -/
def varintNumber (ty : VarTy) (v : BitVec 64) : Nat :=
  match ty with
  | .i32 | .i64 | .u64 => v.toNat
  | .u32 => v.toNat % 2 ^ 32
  | .s32 => zigzag (v.setWidth 32).toInt
  | .s64 => zigzag v.toInt

/-- Wire type numbers. -/
def wireTypeOf : Scalar → Nat
  | .varint _ | .bool | .enum _ => 0
  | .fixed64 _ => 1
  | .str _ => 2
  | .fixed32 _ => 5

/-- Payload of a scalar. -/
def scalar (sc : Scalar) (v : Val) : List Byte :=
  match sc with
  | .varint ty => leb (varintNumber ty v.bits)
  | .bool => [if v.bits = 0 then 0 else 1]
  | .enum _ => leb v.bits.toNat
  | .fixed32 _ => littleEndian 4 v.bits.toNat
  | .fixed64 _ => littleEndian 8 v.bits.toNat
  | .str _ => leb v.str.length ++ v.str

/-- A length-delimited record. -/
def lenRecord (number : BitVec 32) (payload : List Byte) : List Byte :=
  tag number 2 ++ leb payload.length ++ payload

section
variable (C : Cfg)

/-- One value of a field as a record, given the encoding of embedded messages. -/
def record (enc : Nat → Msg → List Byte) (number : BitVec 32) (k : Kind) (v : Val) : List Byte :=
  match k with
  | .scalar sc => tag number (wireTypeOf sc) ++ scalar sc v
  | .msg id => lenRecord number (enc id (v.asMsg (C.schema id).default))
  | .group id => tag number 3 ++ enc id (v.asMsg (C.schema id).default) ++ tag number 4

/-- Value equality used to omit fields without presence. Floats compare by IEEE `==`;
messages are never omitted. Parameter `eqDefault` is that comparison. -/
def member (eqDefault : Kind → Val → Val → Bool) (enc : Nat → Msg → List Byte) (sd : SlotD)
    (es : List (Nat × Val)) : List Byte :=
  match sd with
  | .field n k card =>
    match card, k with
    | .implicit dflt, _ => es.flatMap (fun e => if eqDefault k dflt e.2 then [] else record C enc n k e.2)
    | .repeated true, .scalar sc =>
      if sc.packable then
        if es = [] then [] else lenRecord n (es.flatMap (fun e => scalar sc e.2))
      else es.flatMap (fun e => record C enc n k e.2)
    | _, _ => es.flatMap (fun e => record C enc n k e.2)
  | .oneof alts => es.flatMap (fun e =>
      match alts[e.1]? with
      | some (n, k) => record C enc n k e.2
      | none => [])

/-- Encoding of a message whose nesting depth is at most `d`: members in declaration
order, then the stored unknown bytes. -/
def encode (eqDefault : Kind → Val → Val → Bool) : (d : Nat) → (id : Nat) → Msg → List Byte
  | 0, _, _ => []
  | d + 1, id, m =>
    ((C.schema id).slots.zip m.slots).flatMap (fun p => member C eqDefault (encode eqDefault d) p.1 p.2)
      ++ m.unk.flatMap Prod.snd

/-- A value of the kind, with embedded messages satisfying `P`. -/
def valNests (P : Nat → Msg → Prop) (k : Kind) (v : Val) : Prop :=
  match k with
  | .scalar _ => True
  | .msg id | .group id => P id (v.asMsg (C.schema id).default)

/-- Kind of a value in a member. -/
def kindOf (sd : SlotD) (alt : Nat) : Option Kind :=
  match sd with
  | .field _ k _ => some k
  | .oneof alts => (alts[alt]?).map Prod.snd

/-- `nests d id m`: the message, seen as the root, has at most `d` levels of messages,
groups and map entries (itself included). -/
def nests : (d : Nat) → (id : Nat) → Msg → Prop
  | 0, _, _ => False
  | d + 1, id, m => ∀ p ∈ (C.schema id).slots.zip m.slots, ∀ e ∈ p.2, ∀ k, kindOf p.1 e.1 = some k →
      valNests C (nests d) k e.2

/-- Every string to be written that must be UTF-8 is accepted by the validator. Values
omitted because they equal the default of their field are not looked at. -/
def utf8Ok (eqDefault : Kind → Val → Val → Bool) : (d : Nat) → (id : Nat) → Msg → Prop
  | 0, _, _ => True
  | d + 1, id, m => ∀ p ∈ (C.schema id).slots.zip m.slots, ∀ e ∈ p.2, ∀ k, kindOf p.1 e.1 = some k →
      (∀ n dflt, p.1 = .field n k (.implicit dflt) → eqDefault k dflt e.2 = false) →
      (k = .scalar (.str true) → C.utf8 e.2.str = true) ∧
      valNests C (utf8Ok eqDefault d) k e.2

/-- Every field number of every message type is a legal protobuf field number. -/
def numbersOk : Prop := ∀ id, ∀ sd ∈ (C.schema id).slots, match sd with
  | .field n _ _ => n.toNat < 2 ^ 29
  | .oneof alts => ∀ a ∈ alts, a.1.toNat < 2 ^ 29

end
end HppProto.Spec
