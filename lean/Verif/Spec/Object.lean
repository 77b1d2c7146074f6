import Verif.Spec.Values
import Verif.Model.Serialize
/-!
# Specification: message types and message objects that the claims on round trip and merge
are about
-/
namespace HppProto.Spec
open HppProto

/-- The number is a value of the 32-bit or 64-bit integer type. -/
def inRange (ty : VarTy) (x : BitVec 64) : Prop :=
  match ty with
  | .i32 | .s32 => -(2 : Int) ^ 31 ≤ x.toInt ∧ x.toInt < 2 ^ 31
  | .u32 => x.toNat < 2 ^ 32
  | .i64 | .s64 | .u64 => True

/-- A scalar of the C++ type; an enum value in its 32-bit range and, for a closed enum, one
of the enumerators; a checked string accepted by the validator. -/
def scalarOk (C : Cfg) (sc : Scalar) (v : Val) : Prop :=
  match sc with
  | .varint ty => ∃ x, v = .num x ∧ inRange ty x
  | .bool => v = .num 0 ∨ v = .num 1
  | .enum c => ∃ x, v = .num x ∧ inRange .i32 x ∧ ∀ vs, c = some vs → x ∈ vs
  | .fixed32 _ => ∃ x, v = .num x ∧ x.toNat < 2 ^ 32
  | .fixed64 _ => ∃ x, v = .num x
  | .str u => ∃ bs, v = .bytes bs ∧ (u = true → C.utf8 bs = true)

/-- A value of the kind; embedded messages satisfy `P`. -/
def valOk (C : Cfg) (P : Nat → Msg → Prop) (k : Kind) (v : Val) : Prop :=
  match k with
  | .scalar sc => scalarOk C sc v
  | .msg id | .group id => ∃ m, v = .msg m ∧ P id m

/-- Contents of a member. An associative container is listed in key order, each key once.
If `strict`, a field without presence whose value compares equal to the default has the
default (this excludes −0.0 where the default is 0.0). -/
def slotOk (strict : Bool) (C : Cfg) (P : Nat → Msg → Prop) (sd : SlotD) (es : List (Nat × Val)) : Prop :=
  match sd with
  | .field _ k (.implicit dflt) => ∃ v, es = [(0, v)] ∧ valOk C P k v ∧
      (strict = true → isDefault k dflt v = true → v = dflt)
  | .field _ k (.always _) => ∃ v, es = [(0, v)] ∧ valOk C P k v
  | .field _ k .optional => es = [] ∨ ∃ v, es = [(0, v)] ∧ valOk C P k v
  | .field _ k (.map true) => (∀ e ∈ es, e.1 = 0 ∧ valOk C P k e.2) ∧
      es.Pairwise (fun a b => lexLt (entryRank a.2) (entryRank b.2) = true)
  | .field _ k _ => ∀ e ∈ es, e.1 = 0 ∧ valOk C P k e.2
  | .oneof alts => es = [] ∨ ∃ j n k v, es = [(j, v)] ∧ alts[j]? = some (n, k) ∧ valOk C P k v

/-- Well-formed records of fields the type does not have, with minimal tags and at most `d`
levels of groups. -/
def unknownRecs (D : MsgD) (d : Nat) (rs : List Rec) : Prop :=
  rs ≠ [] ∧ wfAll rs ∧ ∀ r ∈ rs, tagNum r.tag ≠ 0 ∧ fieldKind D (tagNum r.tag) = none ∧ minimalTag r ∧ r.depth ≤ d

/-- Stored unknown fields are such records, if any; extensions are stored by number. -/
def unkOk (D : MsgD) (d : Nat) (unk : List (Nat × List Byte)) : Prop :=
  match D.unk with
  | .none => unk = []
  | .bytes => unk = [] ∨ ∃ rs, unk = [(0, rawAll rs)] ∧ unknownRecs D d rs
  | .ext => (unk.map Prod.fst).Nodup ∧
      ∀ u ∈ unk, ∃ rs, u.2 = rawAll rs ∧ unknownRecs D d rs ∧ ∀ r ∈ rs, tagNum r.tag = u.1

/-- `m` is an object of message type `id`, with at most `d` levels of messages (itself
included). -/
def objLike (strict : Bool) (C : Cfg) : (d : Nat) → (id : Nat) → Msg → Prop
  | 0, _, _ => False
  | d + 1, id, m => m.slots.length = (C.schema id).slots.length ∧
    (∀ p ∈ (C.schema id).slots.zip m.slots, slotOk strict C (objLike strict C d) p.1 p.2) ∧ unkOk (C.schema id) d m.unk

/-- An object without −0.0 (or the like) in fields without presence. -/
abbrev objOk (C : Cfg) := objLike true C

/-- The same object with every value that compares equal to the default of its field without
presence replaced by that default: −0.0 becomes 0.0. In C++ the two objects compare equal. -/
def tidy (C : Cfg) : (d : Nat) → (id : Nat) → Msg → Msg
  | 0, _, m => m
  | d + 1, id, m =>
    let val (k : Kind) (v : Val) : Val := match k with
      | .scalar _ => v
      | .msg sub | .group sub => .msg (tidy C d sub (v.asMsg (C.schema sub).default))
    ⟨List.zipWith (fun sd es => es.map (fun e => (e.1,
        match sd with
        | .field _ k (.implicit dflt) => if isDefault k dflt e.2 then dflt else val k e.2
        | .field _ k _ => val k e.2
        | .oneof alts => match alts[e.1]? with
          | some (_, k) => val k e.2
          | none => e.2))) (C.schema id).slots m.slots, m.unk⟩

/-- What generated message types satisfy: distinct field numbers; map fields have entry
types; an entry type starts with its key, field 1; a plain message member starts out as the
default message, a plain scalar with a value of its type; no closed enum in a oneof (C18). Field numbers are below 2^25 (C06). -/
structure schemaOk (C : Cfg) : Prop where
  distinct : ∀ id, distinctNumbers (C.schema id)
  alts : ∀ id alts, SlotD.oneof alts ∈ (C.schema id).slots → (alts.map Prod.fst).Nodup
  oneofs : noClosedOneof C
  range : ∀ id n, (fieldKind (C.schema id) n).isSome → 0 < n ∧ n < 2 ^ 25
  maps : ∀ id n k u, SlotD.field n k (.map u) ∈ (C.schema id).slots → ∃ eid, k = .msg eid ∧ (C.schema eid).isEntry = true
  entries : ∀ id, (C.schema id).isEntry = true → ∃ k dflt rest, (C.schema id).slots = .field 1 k (.always dflt) :: rest
  plain : ∀ id n k card dflt sub, SlotD.field n k card ∈ (C.schema id).slots → card = .implicit dflt ∨ card = .always dflt →
    k = .msg sub ∨ k = .group sub → dflt = .msg (C.schema sub).default
  defaults : ∀ id n sc dflt, SlotD.field n (.scalar sc) (.implicit dflt) ∈ (C.schema id).slots → scalarOk C sc dflt

end HppProto.Spec
