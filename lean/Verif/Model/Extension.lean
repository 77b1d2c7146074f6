import Verif.Model.Flat
import Verif.Model.Serialize
import Verif.Model.Text
/-!
# Extensions and `Any`

`extension_base` (binpb.hpp 283-352) and `pack_any` / `unpack_any` (binpb.hpp 354-384).
-/
namespace HppProto

/-- The type of an extension, as generated by `format_extension` (hpp_generator.cpp
1736-1788): a struct with the one member `value`, and no storage for unknown fields.
`extension_base::number()` (binpb.hpp 285-288) is the number of that member. -/
def extensionType (D : MsgD) (n : BitVec 32) : Prop :=
  (∃ k card, D.slots = [.field n k card]) ∧ D.unk = .none ∧ D.isEntry = false

/-- `fields.find(number)` (binpb.hpp 294) on an associative container. -/
def extFind (n : BitVec 32) : List (Nat × List Byte) → Option (List Byte)
  | [] => none
  | (k, b) :: l => if k = n.toNat then some b else extFind n l

/-- `fields[number] = data` (binpb.hpp 330). Simplification as in `unkAppend`: the entries
are kept in the order of their insertion. -/
def extAssign (n : BitVec 32) (data : List Byte) : List (Nat × List Byte) → List (Nat × List Byte)
  | [] => [(n.toNat, data)]
  | (k, b) :: l => if k = n.toNat then (k, data) :: l else (k, b) :: extAssign n data l

/-- Deserialize on top of the object every entry with the number (binpb.hpp 305-315). -/
def getEntries (C : Cfg) (limit ext : Nat) (n : BitVec 32) : List (Nat × List Byte) → Msg → Res Msg
  | [], x => .ok x
  | (k, b) :: l, x =>
    if k = n.toNat then do
      let x ← parseOnto C limit ext x b
      getEntries C limit ext n l x
    else getEntries C limit ext n l x

/-- `x.get_from(extendee)`: binpb.hpp 290-319. `owning`: the extensions of the message are in
an associative container. `x` is the extension object before the call; the result is the
object after it. If there is no entry the object is left alone. -/
def extGet (C : Cfg) (limit : Nat) (owning : Bool) (ext : Nat) (n : BitVec 32) (m x : Msg) : Res Msg :=
  if owning then
    match extFind n m.unk with
    | some data => readBinpb C limit ext x data
    | none => .ok x
  else if m.unk.any (fun e => e.1 = n.toNat) then getEntries C limit ext n m.unk ((C.schema ext).reset x)
  else .ok x

/-- `x.set_to(extendee)`: binpb.hpp 321-337. -/
def extSet (C : Cfg) (limit : Nat) (owning : Bool) (ext : Nat) (n : BitVec 32) (m x : Msg) : Res (Option Err × Msg) := do
  let (e, data) ← writeBinpb C limit true ext x []
  match e with
  | some e => .ok (some e, m)
  | none =>
    if data.length ≠ 0 then
      if owning then .ok (none, { m with unk := extAssign n data m.unk })
      else .ok (none, { m with unk := m.unk ++ [(n.toNat, data)] })
    else .ok (none, m)

/-- `in(extendee)`: binpb.hpp 339-349. -/
def extIn (n : BitVec 32) (m : Msg) : Bool := m.unk.any (fun e => e.1 = n.toNat)

/-! ## Any -/

/-- `google.protobuf.Any`. -/
structure AnyMsg where
  typeUrl : List Byte
  value : List Byte
  deriving Repr, DecidableEq

/-- `message_type_url(msg)`, generated by hpp_generator.cpp 1512-1517 from the full name. -/
def messageTypeUrl (name : List Byte) : List Byte := b!"type.googleapis.com/" ++ name

/-- `message_name(msg)` (field_types.hpp 583-588): the type URL from position
`std::size("type.googleapis.com")` = 20 (the array holds the terminating zero), as a C
string. -/
def messageName (name : List Byte) : List Byte := ((messageTypeUrl name).drop 20).takeWhile (· ≠ 0)

/-- `s.rfind('/')`, counted from `i`. -/
def rfindSlash : List Byte → Nat → Option Nat
  | [], _ => none
  | c :: s, i =>
    match rfindSlash s (i + 1) with
    | some j => some j
    | none => if c = 0x2f then some i else none

/-- `pack_any(any, msg)`: binpb.hpp 354-366. `name` is the full name of the message type `id`. -/
def packAny (C : Cfg) (limit : Nat) (name : List Byte) (id : Nat) (a : AnyMsg) (m : Msg) : Res (Option Err × AnyMsg) := do
  let (e, data) ← writeBinpb C limit true id m a.value
  .ok (e, ⟨messageTypeUrl name, data⟩)

/-- `unpack_any(any, msg)`: binpb.hpp 368-376. `m` is the object before the call. -/
def unpackAny (C : Cfg) (limit : Nat) (name : List Byte) (id : Nat) (a : AnyMsg) (m : Msg) : Res Msg :=
  match rfindSlash a.typeUrl 0 with
  | some p => if a.typeUrl.drop (p + 1) = messageName name then readBinpb C limit id m a.value else .err .invalidArgument
  | none => .err .invalidArgument

end HppProto
