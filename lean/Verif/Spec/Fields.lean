import Verif.Spec.Records
import Verif.Spec.Wire
/-!
# Specification: fields of a message type, nesting of an input, values inside a message
-/
namespace HppProto.Spec
open HppProto

/-- Kind of the field numbered `n` if the member owns it. -/
def slotKind (n : Nat) : SlotD → Option Kind
  | .field m k _ => if m.toNat = n then some k else none
  | .oneof alts => (alts.find? (fun a => a.1.toNat = n)).map Prod.snd

/-- Kind of the field numbered `n`, `none` if the type has no such field. -/
def fieldKind (D : MsgD) (n : Nat) : Option Kind := D.slots.findSome? (slotKind n)

/-- The records of a message of type `id`, taken apart by the schema, have at most `d`
levels of messages and groups, the message itself included. Unknown groups count. -/
def fits (C : Cfg) : (d : Nat) → (id : Nat) → List Rec → Prop
  | 0, _, _ => False
  | d + 1, id, rs => ∀ r ∈ rs,
    match fieldKind (C.schema id) (tagNum r.tag), r with
    | some (.msg sub), .len _ _ _ v => ∃ inner, wfAll inner ∧ rawAll inner = v ∧ fits C d sub inner
    | some (.group sub), .group _ _ body _ => fits C d sub body
    | some _, _ => True
    | none, r => r.depth ≤ d

/-- `P` holds for every scalar in the message and, `d` levels deep, in the messages in it. -/
def everyScalar (C : Cfg) (P : SlotD → Scalar → Val → Prop) : (d : Nat) → (id : Nat) → Msg → Prop
  | 0, _, _ => True
  | d + 1, id, m => ∀ p ∈ (C.schema id).slots.zip m.slots, ∀ e ∈ p.2, ∀ k, kindOf p.1 e.1 = some k →
    match k with
    | .scalar sc => P p.1 sc e.2
    | .msg sub | .group sub => everyScalar C P d sub (e.2.asMsg (C.schema sub).default)

/-- Bytes kept under a key in the storage of unknown fields. -/
def keptUnder (m : Msg) (key : Nat) : List Byte := (m.unk.filter (fun p => p.1 = key)).flatMap Prod.snd

/-- All bytes kept in the storage of unknown fields. -/
def kept (m : Msg) : List Byte := m.unk.flatMap Prod.snd

/-- The record's tag is written in the fewest bytes. -/
def minimalTag (r : Rec) : Prop := r.head.length = (leb r.tag.toNat).length

/-- The key of a map entry: the value of its first member, a number or a byte string. -/
def mapKey : Val → Option (Nat ⊕ List Byte)
  | .msg m =>
    match m.get 0 with
    | (_, .num v) :: _ => some (.inl v.toNat)
    | (_, .bytes b) :: _ => some (.inr b)
    | _ => none
  | _ => none

/-- No member of a oneof has a closed enum type. -/
def noClosedOneof (C : Cfg) : Prop := ∀ id alts, SlotD.oneof alts ∈ (C.schema id).slots →
  ∀ a ∈ alts, ∀ vs, a.2 ≠ .scalar (.enum (some vs))

/-- `P` holds for the default values in the schema; the default of a message-valued member
is the default message. -/
def defaultsHave (C : Cfg) (P : SlotD → Scalar → Val → Prop) : Prop := ∀ id n k card dflt,
  SlotD.field n k card ∈ (C.schema id).slots → card = .implicit dflt ∨ card = .always dflt →
  match k with
  | .scalar sc => P (.field n k card) sc dflt
  | .msg sub | .group sub => dflt = .msg (C.schema sub).default

/-- A UTF-8 checked string value is accepted by the validator. -/
def utf8Val (C : Cfg) (_ : SlotD) (sc : Scalar) (v : Val) : Prop := sc = .str true → C.utf8 v.str = true

/-- A value of a closed-enum field (with presence, or repeated) is one of its numbers. -/
def enumVal (sd : SlotD) (sc : Scalar) (v : Val) : Prop := ∀ vs, sc = .enum (some vs) →
  (∀ n k d, sd ≠ .field n k (.implicit d)) → v.bits ∈ vs

end HppProto.Spec
