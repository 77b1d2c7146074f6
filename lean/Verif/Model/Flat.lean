import Verif.Model.Parse
import Verif.Spec.Varint
/-!
# Contiguous archive: `basic_in` over one byte string

`contiguous_input_archive` (deserialize.hpp 1415-1457) reads one contiguous buffer. Here
the archive is the pair of bytes already consumed (reversed) and bytes left; sub-archives
made by `split` have their own end. Bytes past the end read as zero, as the patch buffer
does (239); no result depends on them (`Verif/Model/Regions.lean` models the buffers).
-/
namespace HppProto
open Spec (memOf)

/-- Consumed bytes (most recent first) and remaining bytes. -/
structure Flat where
  prev : List Byte
  rest : List Byte
  deriving Repr, DecidableEq

/-- `input_span::consume` 76-80. -/
def Flat.consume (s : Flat) (n : Nat) : Flat := ⟨(s.rest.take n).reverse ++ s.prev, s.rest.drop n⟩

/-- The pointer test `p <= current._end` after an unchecked parse. -/
def rdVarint (ty : VarTy) (bs : List Byte) : Option (Nat × BitVec 64) :=
  match ty.parse (memOf bs) with
  | (some n, v) => if n ≤ bs.length then some (n, v) else none
  | (none, _) => none

/-- `deserialize(bool)` 257-263 on a byte list. -/
def rdBool (bs : List Byte) : Option (Nat × Bool) :=
  match parseBool (memOf bs) with
  | (some n, v) => if n ≤ bs.length then some (n, v) else none
  | (none, _) => none

/-- `read_tag` 591-600 on a byte list. -/
def rdTag (bs : List Byte) : Option (Nat × BitVec 32) :=
  match readTag (memOf bs) with
  | (some n, t) => if n ≤ bs.length then some (n, t) else none
  | (none, _) => none

/-- `match_tag` 602-612 on a byte list: length consumed on a match. -/
def rdMatch (bs : List Byte) (tag : BitVec 32) : Option Nat :=
  match matchTag (memOf bs) tag with
  | some n => if n ≤ bs.length then some n else none
  | none => none

/-- `skip_varint` 443-452 on a byte list: first terminator among the first ten bytes. -/
def rdSkipVarint : (fuel : Nat) → List Byte → Option Nat
  | 0, _ => none
  | _ + 1, [] => none
  | fuel + 1, b :: bs => if b.msb then (rdSkipVarint fuel bs).map (· + 1) else some 1

/-- `parse_packed_varints_in_a_region` 394-410: parse until the region is empty, at most
`count` elements. The recursion is on `count`, which bounds the elements written. -/
def rdPacked (ty : VarTy) : (count : Nat) → List Byte → Option (List (BitVec 64))
  | 0, bs => if bs.isEmpty then some [] else none
  | count + 1, bs =>
    if bs.isEmpty then some []
    else match rdVarint ty bs with
    | some (n, v) => (rdPacked ty count (bs.drop n)).map (v :: ·)
    | none => none

/-- `deserialize_packed_boolean` 378-391: `count` bools in a row; with bytes consumed. -/
def rdPackedBools : (count : Nat) → List Byte → Option (Nat × List Bool)
  | 0, _ => some (0, [])
  | count + 1, bs =>
    match rdBool bs with
    | some (n, b) => (rdPackedBools count (bs.drop n)).map (fun (k, l) => (n + k, b :: l))
    | none => none

/-- `count_number_of_varints_in_region` 522-552: bytes without continuation bit. (The
popcount over 64-bit words is in `Verif/Model/Popcount.lean` and is what the region machine uses.) -/
def countTerm (bs : List Byte) : Nat := bs.countP (fun b => !b.msb)

/-- The contiguous archive. Differences from the code, which do not change any result:
`fixed` reports an overrun at once, where the code consumes past the end and reports
`bad_message` at the next loop test (1324, 1357-1364). -/
def flatOps : Ops Flat where
  avail s := s.rest.length
  readTag s := match rdTag s.rest with
    | some (n, t) => .ok (s.consume n, t)
    | none => .ok (s, 0)
  matchTag s tag := match rdMatch s.rest tag with
    | some n => .ok (s.consume n, true)
    | none => .ok (s, false)
  varint ty s := match rdVarint ty s.rest with
    | some (n, v) => .ok (s.consume n, v)
    | none => .err .badMessage
  bool s := match rdBool s.rest with
    | some (n, v) => .ok (s.consume n, v)
    | none => .err .badMessage
  fixed k s := if k ≤ s.rest.length then .ok (s.consume k, leVal (s.rest.take k)) else .err .badMessage
  skipVarint s := match rdSkipVarint 10 s.rest with
    | some n => .ok (s.consume n)
    | none => .err .badMessage
  skip n s := if n ≤ s.rest.length then .ok (s.consume n) else .err .badMessage
  split n s := if n ≤ s.rest.length then .ok (⟨s.prev, s.rest.take n⟩, s.consume n) else .ub
  unwind n s := if n ≤ s.prev.length then .ok ⟨s.prev.drop n, (s.prev.take n).reverse ++ s.rest⟩ else .ub
  raw n s := if n ≤ s.rest.length then .ok (s.consume n, s.rest.take n) else .err .badMessage
  numVarints n s :=
    if n = 0 then .ub -- `current[bytes_count - 1]`; callers exclude it
    else if n ≤ s.rest.length then
      (if (s.rest.getD (n - 1) 0).msb then .ok none else .ok (some (countTerm (s.rest.take n))))
    else .ok none
  packedVarints ty n c s := match rdPacked ty c (s.rest.take n) with
    | some vs => .ok (s.consume n, vs)
    | none => .err .badMessage
  packedBools c s := match rdPackedBools c s.rest with
    | some (n, bs) => .ok (s.consume n, bs)
    | none => .err .badMessage
  peek s := match s.rest with
    | b :: _ => .ok b
    | [] => .ub

/-- Deserialize on top of an existing message (`pb_serializer::deserialize`,
deserialize.hpp 1463-1475, used by `read_binpb` after the reset and by extension reads,
binpb.hpp 283-352), with recursion limit `limit`. The root takes one scope. -/
def parseOnto (C : Cfg) (limit : Nat) (id : Nat) (m : Msg) (buf : List Byte) : Res Msg := do
  let (_, m) ← (level C flatOps (limit + 1)).msg id m ⟨[], buf⟩
  .ok m

/-- The assignment `msg = {}` (binpb.hpp 234): every member and the unknown fields get
their initial contents. -/
def MsgD.reset (D : MsgD) (m : Msg) : Msg :=
  { m with slots := D.slots.map SlotD.initial, unk := [] }

/-- `read_binpb(msg, buffer)`: binpb.hpp 212-281. -/
def readBinpb (C : Cfg) (limit : Nat) (id : Nat) (old : Msg) (buf : List Byte) : Res Msg :=
  parseOnto C limit id ((C.schema id).reset old) buf

end HppProto
