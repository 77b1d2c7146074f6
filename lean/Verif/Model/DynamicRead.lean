import Verif.Model.Dynamic
import Verif.Model.Serialize
import Verif.Model.Flat

/-!
# Reading dynamic messages

Model of the reader of dynamic messages, `include/hpp_proto/dynamic_message/pb_serializer_ext.hpp` 54-350
with `dynamic_message/binpb.hpp` 24-42. The templates `deserialize`, `deserialize_group` and
`deserialize_sized` of `binpb/deserialize.hpp` are instantiated for `message_value_mref`; skipping and
counting are the functions of `Verif/Model/Parse.lean`, which do not depend on a message type.

On an error the contents of the message are not modelled.
-/

namespace HppProto

/-- The recursive entry points for dynamic messages with a given number of recursion scopes left. -/
structure DynLevel (σ : Type) where
  /-- `deserialize(item, archive)` (`deserialize.hpp` 1338-1365) -/
  msg : (id : Nat) → DynMsg → σ → Res (σ × DynMsg)
  /-- `deserialize_group` (`deserialize.hpp` 1315-1336) -/
  grp : (id : Nat) → (number : BitVec 32) → DynMsg → σ → Res (σ × DynMsg)
  /-- `do_skip_group` is in here -/
  skip : Level σ

/-- The skipping functions read no message; any types do for them. -/
def skipCfg : Cfg := ⟨fun _ => ⟨[], .none, false⟩, fun _ => true⟩

section
variable {σ : Type} (T : DynTypes) (utf8 : List Byte → Bool) (O : Ops σ)

/-- `deserialize_sized` (`deserialize.hpp` 1367-1386). -/
def dynSized (l : DynLevel σ) (id : Nat) (m : DynMsg) (s : σ) : Res (σ × DynMsg) := do
  let (s, len) ← O.varint .u32 s
  let len := len.toNat
  if len = 0 ∧ (T id).entry then .err .badMessage
  else if (len : Int) < O.avail s then do
    let (a, s) ← O.split len s
    let (_, m) ← l.msg id m a
    .ok (s, m)
  else if (len : Int) = O.avail s then l.msg id m s
  else .err .badMessage

/-- A string or bytes value: `deserialize(T &item, desc)` 117-145. -/
def dynBytes (validate : Bool) (tag : BitVec 32) (s : σ) : Res (σ × List Byte) :=
  if tagType tag ≠ wtLen then .err .badMessage
  else do
    let (s, n) ← O.varint .u32 s
    if n = 0 then .ok (s, [])
    else do
      let (s, bs) ← O.raw n.toNat s
      if validate && !utf8 bs then .err .illegalByteSequence else .ok (s, bs)

/-- A number: 61-72 (tag test, then `archive(value)`, which is what `readScalar` models), or an enum:
85-98. `none` for a number that a closed enum does not have (`result_out_of_range`). -/
def dynNum (sc : Scalar) (tag : BitVec 32) (s : σ) : Res (σ × Option (BitVec 64)) := do
  let (s, v) ← readScalar skipCfg O sc tag s
  let v := narrow sc v
  .ok (s, if sc.valid v then some v.bits else none)

/-- What a singular number field does with the value read: 74-79, 105-109. -/
def DynField.putRead (f : DynField) (v : BitVec 64) (m : DynMsg) : DynMsg :=
  if f.explicit || !isDefault f.kind f.dflt (.num v) then f.setNum v m else f.clear m

/-- What a singular string or bytes field does with the value read: 151-156, 172-177. -/
def DynField.putReadStr (f : DynField) (bs : List Byte) (m : DynMsg) : DynMsg :=
  if f.explicit || !isDefault f.kind f.dflt (.bytes bs) then f.setStr bs m else f.resetStr m

/-- `set_as_default` (`scalar_fields.hpp` 170, `enum_fields.hpp` 310, `string_fields.hpp` 171,
`bytes_fields.hpp` 172, `message_fields.hpp` 634). -/
def DynField.setAsDefault (f : DynField) (m : DynMsg) : DynMsg :=
  if f.kind.isNum then f.setNum f.dflt.bits m
  else if f.kind.isStr then f.setStr f.dflt.str m
  else f.emplace T m

/-- The value of a map entry is set even if it was not read: 192-203. -/
def fillEntry (D : DynDesc) (m : DynMsg) : Res DynMsg :=
  match D.fields[1]? with
  | none => .ub
  | some f => .ok (if f.repeated || f.hasValue m then m else f.setAsDefault T m)

/-- `deserialize(message_value_mref, desc)` 188-213. -/
def dynMessage (l : DynLevel σ) (k : Kind) (tag : BitVec 32) (m : DynMsg) (s : σ) : Res (σ × DynMsg) :=
  match k with
  | .msg id =>
    if tagType tag = wtLen then do
      let (s, m) ← dynSized T O l id m s
      if (T id).entry then do
        let m ← fillEntry T (T id) m
        .ok (s, m)
      else .ok (s, m)
    else .err .badMessage
  | .group id => if tagType tag = wtSGroup then l.grp id (tagNumber tag) m s else .err .badMessage
  | .scalar _ => .err .badMessage

/-- The message a message field holds, or a new one (215-220): undefined if the slot holds something
else. -/
def DynField.target (f : DynField) (id : Nat) (m : DynMsg) : Res DynMsg :=
  if f.hasValue m then
    match (f.storage m).2 with
    | .msg s => .ok s
    | _ => .ub
  else .ok (T id).empty

/-- `operator()` for a singular message field: 215-220. The message is read in place. -/
def dynMsgField (l : DynLevel σ) (f : DynField) (id : Nat) (tag : BitVec 32) (m : DynMsg) (s : σ) :
    Res (σ × DynMsg) := do
  let old ← f.target T id m
  let (s, r) ← dynMessage T O l f.kind tag old s
  .ok (s, f.store m (f.layout.ordinal, .msg r))

/-- `operator()` for singular fields: 69-80, 100-115, 147-158, 169-180, 215-220. -/
def dynSingular (l : DynLevel σ) (f : DynField) (tag : BitVec 32) (m : DynMsg) (s : σ) : Res (σ × DynMsg) :=
  match f.kind with
  | .scalar (.str u) => do
    let (s, bs) ← dynBytes utf8 O u tag s
    .ok (s, f.putReadStr bs m)
  | .scalar sc => do
    let (s, r) ← dynNum O sc tag s
    match r with
    | some v => .ok (s, f.putRead v m)
    | none => .ok (s, m)
  | .msg id => dynMsgField T O l f id tag m s
  | .group id => dynMsgField T O l f id tag m s

/-- Index and elements after reading one element (237-241, 273-281). -/
def fillStep {α : Type} (i : Nat) (vs : List α) : Option α → Nat × List α
  | some y => (i + 1, vs.set i y)
  | none => (i, vs)

/-- The loops 231-245 and 268-285 over the elements of a field that was resized before: `one` reads an
element over what is there, or reads a number that is left out (`none`). The vector of the field is
threaded through; an index outside it is undefined. -/
def fillLoop {α : Type} (one : α → σ → Res (σ × Option α)) :
    (count : Nat) → (i : Nat) → List α → σ → Res (σ × Nat × List α)
  | 0, i, vs, s => .ok (s, i, vs)
  | count + 1, i, vs, s =>
    match vs[i]? with
    | none => .ub
    | some x => do
      let (s, r) ← one x s
      let (i, vs) := fillStep i vs r
      if count = 0 then .ok (s, i, vs)
      else do
        let (s, _) ← O.readTag s
        fillLoop one count i vs s

/-- `count_unpacked_elements` or `count_groups` (222-226, 252-262). -/
def dynCountElems (l : DynLevel σ) (k : Kind) (tag : BitVec 32) (s : σ) : Res Nat :=
  match k with
  | .group _ => countGroupsLoop O l.skip tag (fuelOf O s) 0 s
  | _ => countUnpackedLoop O l.skip tag (fuelOf O s) 0 s

/-- The numbers of a field after unpacked records: only for enums is the field resized at the end (246),
to the `i` elements that were read. -/
def DynField.putUnpacked (f : DynField) (sc : Scalar) (n i : Nat) (vs : List (Option (BitVec 64)))
    (m : DynMsg) : DynMsg :=
  match sc with
  | .enum _ => f.resizeNums i (f.store m (n, .nums vs))
  | _ => f.store m (n, .nums vs)

/-- Unpacked numbers and enums: 222-247, 249-288. -/
def dynUnpackedNums (l : DynLevel σ) (f : DynField) (sc : Scalar) (tag : BitVec 32) (m : DynMsg) (s : σ) :
    Res (σ × DynMsg) := do
  let c ← dynCountElems O l f.kind tag s
  let n := (f.storage m).1
  let (s, i, vs) ← fillLoop O (fun _ s => do
    let (s, r) ← dynNum O sc tag s
    .ok (s, r.map some)) c n (resizeWith none (n + c) (numElems (f.storage m))) s
  .ok (s, f.putUnpacked sc (n + c) i vs m)

/-- The numbers of a field after a packed record: 326-330 for enums, where numbers that a closed enum does
not have are removed, also among the elements that were there. -/
def DynField.putPacked (f : DynField) (sc : Scalar) (all : List (Option (BitVec 64))) (m : DynMsg) : Res DynMsg :=
  match sc with
  | .enum (some _) =>
    match all.mapM id with
    | none => .ub
    | some vs =>
      let vs := vs.filter (fun v => sc.valid (.num v))
      .ok (f.store m (vs.length, .nums (vs.map some)))
  | _ => .ok (f.store m (all.length, .nums all))

/-- `deserialize_packed_repeated` 290-302 for numbers, and 316-330 for enums. -/
def dynPackedNums (f : DynField) (sc : Scalar) (m : DynMsg) (s : σ) : Res (σ × DynMsg) := do
  let (s, n) ← O.varint .u32 s
  let (s, new) ← if n = 0 then .ok (s, []) else readPackedElems O sc n.toNat s
  let m ← f.putPacked sc (numElems (f.storage m) ++ new.map (fun v => some v.bits)) m
  .ok (s, m)

/-- Repeated strings and bytes: 249-288, 334-335. -/
def dynStrs (l : DynLevel σ) (f : DynField) (u : Bool) (tag : BitVec 32) (m : DynMsg) (s : σ) :
    Res (σ × DynMsg) := do
  let c ← dynCountElems O l f.kind tag s
  let n := (f.storage m).1
  let (s, _, vs) ← fillLoop O (fun _ s => do
    let (s, bs) ← dynBytes utf8 O u tag s
    .ok (s, some bs)) c n (resizeWith [] (n + c) (strElems (f.storage m))) s
  .ok (s, f.store m (n + c, .strs vs))

/-- Repeated messages: 249-288, 336. -/
def dynMsgs (l : DynLevel σ) (f : DynField) (id : Nat) (tag : BitVec 32) (m : DynMsg) (s : σ) :
    Res (σ × DynMsg) := do
  let c ← dynCountElems O l f.kind tag s
  let n := (f.storage m).1
  let (s, _, vs) ← fillLoop O (fun old s => do
    let (s, r) ← dynMessage T O l f.kind tag old s
    .ok (s, some r)) c n (resizeWith (T id).empty (n + c) (msgElems (f.storage m))) s
  .ok (s, f.store m (n + c, .msgs vs))

/-- `operator()` for repeated fields: 304-336. -/
def dynRepeated (l : DynLevel σ) (f : DynField) (tag : BitVec 32) (m : DynMsg) (s : σ) : Res (σ × DynMsg) :=
  match f.kind with
  | .scalar (.str u) => dynStrs utf8 O l f u tag m s
  | .scalar sc =>
    if tagType tag = sc.wireType then dynUnpackedNums O l f sc tag m s
    else if tagType tag = wtLen then dynPackedNums O f sc m s
    else .err .badMessage
  | .msg id => dynMsgs T O l f id tag m s
  | .group id => dynMsgs T O l f id tag m s

/-- `deserialize_field_by_tag` 338-350 and `field_descriptor_by_number` (`message_fields.hpp` 113-121). -/
def dynField (l : DynLevel σ) (D : DynDesc) (tag : BitVec 32) (m : DynMsg) (s : σ) : Res (σ × DynMsg) :=
  if tagNumber tag = 0#32 then .err .badMessage
  else match D.fields.find? (fun f => f.number == tagNumber tag) with
  | none => do
    let s ← doSkipField O l.skip tag s
    .ok (s, m)
  | some f => if f.repeated then dynRepeated T utf8 O l f tag m s else dynSingular T utf8 O l f tag m s

/-- The loop of `deserialize` (`deserialize.hpp` 1357-1364). -/
def dynLoop (l : DynLevel σ) (D : DynDesc) : (fuel : Nat) → DynMsg → σ → Res (σ × DynMsg)
  | 0, _, _ => .stuck
  | fuel + 1, m, s =>
    if 0 < O.avail s then do
      let (s, tag) ← O.readTag s
      let (s, m) ← dynField T utf8 O l D tag m s
      dynLoop l D fuel m s
    else if O.avail s = 0 then .ok (s, m)
    else .err .badMessage

/-- `deserialize(item, archive)` (`deserialize.hpp` 1345-1364), after the recursion scope is granted. -/
def dynBody (l : DynLevel σ) (id : Nat) (m : DynMsg) (s : σ) : Res (σ × DynMsg) :=
  let D := T id
  if D.entry ∧ 0 < O.avail s then do
    let b ← O.peek s
    if b >>> 3 ≠ 1#8 then .err .badMessage
    else dynLoop T utf8 O l D (fuelOf O s) m s
  else dynLoop T utf8 O l D (fuelOf O s) m s

/-- The loop of `deserialize_group` (`deserialize.hpp` 1324-1335). -/
def dynGrpLoop (l : DynLevel σ) (D : DynDesc) (number : BitVec 32) :
    (fuel : Nat) → DynMsg → σ → Res (σ × DynMsg)
  | 0, _, _ => .stuck
  | fuel + 1, m, s =>
    if 0 < O.avail s then do
      let (s, tag) ← O.readTag s
      if tagType tag = wtEGroup ∧ number = tagNumber tag then .ok (s, m)
      else do
        let (s, m) ← dynField T utf8 O l D tag m s
        dynGrpLoop l D number fuel m s
    else .err .badMessage

/-- The reader with `d` recursion scopes left (`deserialize.hpp` 1316-1320, 1339-1343). -/
def dynLevel : (d : Nat) → DynLevel σ
  | 0 => { msg := fun _ _ _ => .err .valueTooLarge
           grp := fun _ _ _ _ => .err .valueTooLarge
           skip := level skipCfg O 0 }
  | d + 1 =>
    { msg := fun id m s => dynBody T utf8 O (dynLevel d) id m s
      grp := fun id number m s => dynGrpLoop T utf8 O (dynLevel d) (T id) number (fuelOf O s) m s
      skip := level skipCfg O (d + 1) }

end

/-- `read_binpb(msg, buffer)` of a dynamic message (`dynamic_message/binpb.hpp` 24-31): the message is
reset, then read. -/
def dynRead (T : DynTypes) (utf8 : List Byte → Bool) (limit : Nat) (id : Nat) (_old : DynMsg)
    (buf : List Byte) : Res DynMsg := do
  let (_, m) ← (dynLevel T utf8 flatOps (limit + 1)).msg id (T id).empty ⟨[], buf⟩
  .ok m

end HppProto
