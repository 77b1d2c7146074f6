import Verif.Model.Schema
/-!
# Model of the binary reader: `include/hpp_proto/binpb/deserialize.hpp` 616-1386

The functions are written once, over an abstract archive `Ops σ` (the members of
`basic_in` that they call). `Verif/Model/Flat.lean` instantiates it with a contiguous
byte string, `Verif/Model/Regions.lean` with the region machine.

C++ recursion is through `deserialize`, `deserialize_group` and `do_skip_group`, each of
which takes a `recursion_scope`; `level d` is the reader with `d` scopes left. Loops carry
fuel computed from the bytes available; running out of it is the outcome `stuck`.
-/
namespace HppProto

/-- The members of `basic_in` (deserialize.hpp 142-613) used by the free functions. -/
structure Ops (σ : Type) where
  /-- `in_avail` 183-189 -/
  avail : σ → Int
  /-- `read_tag` 591-600 -/
  readTag : σ → Res (σ × BitVec 32)
  /-- `match_tag` 602-612 -/
  matchTag : σ → BitVec 32 → Res (σ × Bool)
  /-- `deserialize(varint)` 279-286 -/
  varint : VarTy → σ → Res (σ × BitVec 64)
  /-- `deserialize(bool)` 257-263 -/
  bool : σ → Res (σ × Bool)
  /-- `deserialize(byte_deserializable)` 267-277, for 4 or 8 bytes, zero-extended -/
  fixed : Nat → σ → Res (σ × BitVec 64)
  /-- `skip_varint` 443-452 -/
  skipVarint : σ → Res σ
  /-- `skip` 462-468 -/
  skip : Nat → σ → Res σ
  /-- `split` 473-497: (first part, remainder) -/
  split : Nat → σ → Res (σ × σ)
  /-- `unwind_tag` 509-514, given the tag length -/
  unwind : Nat → σ → Res σ
  /-- `deserialize_packed` 342-357, seen as a read of that many bytes -/
  raw : Nat → σ → Res (σ × List Byte)
  /-- `number_of_varints` 556-589 -/
  numVarints : Nat → σ → Res (Option Nat)
  /-- `deserialize_packed_varint` 431-441 (byte count, element count) -/
  packedVarints : VarTy → Nat → Nat → σ → Res (σ × List (BitVec 64))
  /-- `deserialize_packed_boolean` 378-391 -/
  packedBools : Nat → σ → Res (σ × List Bool)
  /-- `*archive.data()` at 1348 -/
  peek : σ → Res Byte

/-- The three recursive entry points with a given number of recursion scopes left. -/
structure Level (σ : Type) where
  /-- `deserialize(item, archive)` 1338-1365 -/
  msg : (id : Nat) → Msg → σ → Res (σ × Msg)
  /-- `deserialize_group` 1315-1336 -/
  grp : (id : Nat) → (number : BitVec 32) → Msg → σ → Res (σ × Msg)
  /-- `do_skip_group` 724-748 -/
  skipGrp : (number : BitVec 32) → σ → Res σ

section
variable {σ : Type} (C : Cfg) (O : Ops σ)

/-- Loop fuel: one more than the bytes available (every iteration consumes at least one). -/
def fuelOf (s : σ) : Nat := (O.avail s).toNat + 1

/-- `skip_length_delimited` 454-460. -/
def skipLen (s : σ) : Res σ := do
  let (s, len) ← O.varint .u32 s
  O.skip len.toNat s

/-- `do_skip_field` 691-709. -/
def doSkipField (l : Level σ) (tag : BitVec 32) (s : σ) : Res σ :=
  if tag = 0#32 then .err .badMessage
  else if tagType tag = wtVarint then O.skipVarint s
  else if tagType tag = wtLen then skipLen O s
  else if tagType tag = wtFixed64 then O.skip 8 s
  else if tagType tag = wtSGroup then l.skipGrp (tagNumber tag) s
  else if tagType tag = wtFixed32 then O.skip 4 s
  else .err .badMessage

/-- The loop of `do_skip_group` 731-747. -/
def skipGroupLoop (l : Level σ) (number : BitVec 32) : (fuel : Nat) → σ → Res σ
  | 0, _ => .stuck
  | fuel + 1, s =>
    if 0 < O.avail s then do
      let (s, tag) ← O.readTag s
      if tagType tag = wtEGroup ∧ number = tagNumber tag then .ok s
      else if O.avail s ≤ 0 then .err .badMessage
      else do
        let s ← doSkipField O l tag s
        skipGroupLoop l number fuel s
    else .err .badMessage

/-- The `while (match_tag)` loop of `skip_fields_match_tag` 716-721. -/
def skipMatchLoop (l : Level σ) (tag : BitVec 32) : (fuel : Nat) → σ → Res σ
  | 0, _ => .stuck
  | fuel + 1, s => do
    let (s, hit) ← O.matchTag s tag
    if hit then do
      let s ← doSkipField O l tag s
      skipMatchLoop l tag fuel s
    else .ok s

/-- `skip_fields_match_tag` 711-722. -/
def skipFieldsMatchTag (l : Level σ) (tag : BitVec 32) (s : σ) : Res σ := do
  let s ← doSkipField O l tag s
  skipMatchLoop O l tag (fuelOf O s) s

/-- `skip_field` 674-689. -/
def skipField (l : Level σ) (mode : UnkMode) (tag : BitVec 32) (m : Msg) (s : σ) : Res (σ × Msg) :=
  if mode = .none then do
    let s ← doSkipField O l tag s
    .ok (s, m)
  else do
    let u ← O.unwind (varintSize 32 tag.toNat) s
    let s ← skipFieldsMatchTag O l tag s
    let len := (O.avail u - O.avail s).toNat
    let (f, _) ← O.split len u
    let (_, bs) ← O.raw len f
    .ok (s, m.addUnk mode (tagNumber tag) bs)

/-- The loop of `count_unpacked_elements` 768-779, on a copy of the archive. -/
def countUnpackedLoop (l : Level σ) (tag : BitVec 32) : (fuel : Nat) → (count : Nat) → σ → Res Nat
  | 0, _, _ => .stuck
  | fuel + 1, count, s => do
    let s ← doSkipField O l tag s
    if O.avail s = 0 then .ok (count + 1)
    else do
      let (s, t) ← O.readTag s
      if t = tag then countUnpackedLoop l tag fuel (count + 1) s else .ok (count + 1)

/-- The loop of `count_groups` 788-799, on a copy of the archive. -/
def countGroupsLoop (l : Level σ) (tag : BitVec 32) : (fuel : Nat) → (count : Nat) → σ → Res Nat
  | 0, _, _ => .stuck
  | fuel + 1, count, s => do
    let s ← l.skipGrp (tagNumber tag) s
    if O.avail s = 0 then .ok (count + 1)
    else do
      let (s, t) ← O.readTag s
      if t = tag then countGroupsLoop l tag fuel (count + 1) s else .ok (count + 1)

/-- `deserialize_sized` 1367-1386. -/
def sized (l : Level σ) (id : Nat) (m : Msg) (s : σ) : Res (σ × Msg) := do
  let (s, len) ← O.varint .u32 s
  let len := len.toNat
  if len = 0 ∧ (C.schema id).isEntry then .err .badMessage
  else if (len : Int) < O.avail s then do
    let (a, s) ← O.split len s
    let (_, m) ← l.msg id m a
    .ok (s, m)
  else if (len : Int) = O.avail s then l.msg id m s
  else .err .badMessage

/-- String or bytes value: 1218-1225 with 809-829, 841-856, 881-894. The padded-input
view path (831-839) is modelled in `Verif/Model/Padded.lean`. -/
def readBytes (utf8 : Bool) (s : σ) : Res (σ × List Byte) := do
  let (s, n) ← O.varint .u32 s
  if n = 0 then
    if utf8 && !C.utf8 [] then .err .badMessage else .ok (s, [])
  else do
    let (s, bs) ← O.raw n.toNat s
    if utf8 && !C.utf8 bs then .err .badMessage else .ok (s, bs)

/-- One scalar value: 1062-1068 (bool), 1070-1079 and 1089 (enum, as the raw 64-bit
number), 1174-1192 (arithmetic), 1218-1225 (string). For enums the caller narrows to 32 bits and
checks closedness. -/
def readScalar (sc : Scalar) (tag : BitVec 32) (s : σ) : Res (σ × Val) :=
  if tagType tag ≠ sc.wireType then .err .badMessage
  else match sc with
  | .varint ty => do let (s, v) ← O.varint ty s; .ok (s, .num v)
  | .bool => do let (s, b) ← O.bool s; .ok (s, .num (if b then 1 else 0))
  | .enum _ => do let (s, v) ← O.varint .i64 s; .ok (s, .num v)
  | .fixed32 _ => do let (s, v) ← O.fixed 4 s; .ok (s, .num v)
  | .fixed64 _ => do let (s, v) ← O.fixed 8 s; .ok (s, .num v)
  | .str u => do let (s, bs) ← readBytes C O u s; .ok (s, .bytes bs)

/-- `static_cast<enum_type>(value)` (32-bit enum) for enum fields, identity elsewhere
(1089, and `*it = static_cast<value_type>` 406). -/
def narrow (sc : Scalar) : Val → Val
  | .num v => match sc with
    | .enum _ => .num (VarTy.i32.cast v)
    | _ => .num v
  | v => v

/-- `valid_enum_value` for closed enums (meta.hpp 62-67, deserialize.hpp 864, 958, 1083). Anything that is not
a closed enum passes. -/
def Scalar.valid (sc : Scalar) (v : Val) : Bool :=
  match sc, v with
  | .enum (some vs), .num x => vs.contains (VarTy.i32.cast x)
  | _, _ => true

/-- Message- or group-valued field into an existing message: 1194-1207. -/
def readMsg (l : Level σ) (k : Kind) (tag : BitVec 32) (m : Msg) (s : σ) : Res (σ × Msg) :=
  match k with
  | .msg id => if tagType tag = wtLen then sized C O l id m s else .err .badMessage
  | .group id => if tagType tag = wtSGroup then l.grp id (tagNumber tag) m s else .err .badMessage
  | .scalar _ => .err .badMessage

/-- Value of any kind into a place holding `old`: singular overloads of
`deserialize_field`, without closed-enum handling. -/
def readValue (l : Level σ) (k : Kind) (tag : BitVec 32) (old : Val) (s : σ) : Res (σ × Val) :=
  match k with
  | .scalar sc => do let (s, v) ← readScalar C O sc tag s; .ok (s, narrow sc v)
  | .msg id => do
    let (s, m) ← readMsg C O l k tag (old.asMsg (C.schema id).default) s
    .ok (s, .msg m)
  | .group id => do
    let (s, m) ← readMsg C O l k tag (old.asMsg (C.schema id).default) s
    .ok (s, .msg m)

/-- Is the kind a closed enum (`closed_enum()`, meta.hpp 60). -/
def Kind.closed : Kind → Bool
  | .scalar (.enum (some _)) => true
  | _ => false

/-- Little-endian value of four or eight bytes (`bit_cast`, 275). -/
def leVal (bs : List Byte) : BitVec 64 :=
  BitVec.ofNat 64 (bs.foldr (fun b acc => b.toNat + 256 * acc) 0)

/-- Cut raw packed data into elements of `k` bytes (the `memcpy` into the vector, 306, 328). -/
def chunksLe (k : Nat) : (n : Nat) → List Byte → List (BitVec 64)
  | 0, _ => []
  | n + 1, bs => leVal (bs.take k) :: chunksLe k n (bs.drop k)

/-- Packed elements: `count_packed_elements` 750-763 and
`deserialize_packed_repeated_with_byte_count` 881-903. -/
def readPackedElems (sc : Scalar) (n : Nat) (s : σ) : Res (σ × List Val) :=
  match sc with
  | .fixed32 _ =>
    if n % 4 = 0 then do let (s, bs) ← O.raw n s; .ok (s, (chunksLe 4 (n / 4) bs).map .num)
    else .err .badMessage
  | .fixed64 _ =>
    if n % 8 = 0 then do let (s, bs) ← O.raw n s; .ok (s, (chunksLe 8 (n / 8) bs).map .num)
    else .err .badMessage
  | .bool => do
    match ← O.numVarints n s with
    | some c => do
      let (s, bs) ← O.packedBools c s
      .ok (s, bs.map (fun b => .num (if b then 1 else 0)))
    | none => .err .badMessage
  | .varint ty => do
    match ← O.numVarints n s with
    | some c => do let (s, vs) ← O.packedVarints ty n c s; .ok (s, vs.map .num)
    | none => .err .badMessage
  | .enum _ => do
    match ← O.numVarints n s with
    | some c => do
      let (s, vs) ← O.packedVarints .i64 n c s
      .ok (s, vs.map (fun v => .num (VarTy.i32.cast v)))
    | none => .err .badMessage
  | .str _ => .err .badMessage

/-- Append elements to member `i`. -/
def appendVals (m : Msg) (i : Nat) (vs : List Val) : Msg :=
  m.put i (m.get i ++ vs.map (fun v => (0, v)))

/-- Divert the invalid numbers of a closed enum to the unknown fields, in order (863-871,
957-962; the number stored is the narrowed one). -/
def divertInvalid (sc : Scalar) (mode : UnkMode) (number : BitVec 32) : List Val → Msg → Msg
  | [], m => m
  | v :: vs, m =>
    if sc.valid v then divertInvalid sc mode number vs m
    else divertInvalid sc mode number vs (m.addUnk mode number (unkEnumRecord number v.bits))

/-- `deserialize_packed_repeated` 809-829 with 841-879, for a repeated scalar. -/
def readPacked (mode : UnkMode) (number : BitVec 32) (sc : Scalar) (i : Nat) (m : Msg) (s : σ) : Res (σ × Msg) := do
  let (s, n) ← O.varint .u32 s
  if n = 0 then .ok (s, m)
  else do
    let (s, vs) ← readPackedElems O sc n.toNat s
    .ok (s, divertInvalid sc mode number vs (appendVals m i (vs.filter sc.valid)))

/-- One element of an unpacked repeated field or map: 905-968. -/
def readElem (l : Level σ) (mode : UnkMode) (k : Kind) (unique : Bool) (tag : BitVec 32) (i : Nat)
    (m : Msg) (s : σ) : Res (σ × Msg) :=
  match k with
  | .scalar sc => do
    let (s, v) ← readScalar C O sc tag s
    let v := narrow sc v
    if sc.valid v then .ok (s, appendVals m i [v])
    else .ok (s, m.addUnk mode (tagNumber tag) (unkEnumRecord (tagNumber tag) v.bits))
  | .msg id => do
    let (s, e) ← sized C O l id (C.schema id).default s
    if unique then .ok (s, m.put i (insertOrAssign (.msg e) (m.get i)))
    else .ok (s, appendVals m i [.msg e])
  | .group id => do
    let (s, e) ← l.grp id (tagNumber tag) (C.schema id).default s
    .ok (s, appendVals m i [.msg e])

/-- The element loops 977-993 and 1048-1058: `count` elements separated by tags. -/
def elemLoop (elem : Msg → σ → Res (σ × Msg)) : (count : Nat) → Msg → σ → Res (σ × Msg)
  | 0, m, s => .ok (s, m)
  | 1, m, s => elem m s
  | n + 2, m, s => do
    let (s, m) ← elem m s
    let (s, _) ← O.readTag s
    elemLoop elem (n + 1) m s

/-- Repeated field: 1226-1236, 998-1032, 1034-1060. -/
def readRepeated (l : Level σ) (mode : UnkMode) (number : BitVec 32) (k : Kind) (unique : Bool) (tag : BitVec 32)
    (i : Nat) (m : Msg) (s : σ) : Res (σ × Msg) :=
  match k with
  | .group _ =>
    if tagType tag ≠ wtSGroup then .err .badMessage
    else do
      let c ← countGroupsLoop O l tag (fuelOf O s) 0 s
      elemLoop O (readElem C O l mode k unique tag i) c m s
  | .msg _ =>
    if tagType tag ≠ wtLen then .err .badMessage
    else do
      let c ← countUnpackedLoop O l tag (fuelOf O s) 0 s
      elemLoop O (readElem C O l mode k unique tag i) c m s
  | .scalar sc =>
    if sc.packable && tagType tag == wtLen then readPacked O mode number sc i m s
    else if tagType tag ≠ sc.wireType then .err .badMessage
    else do
      let c ← countUnpackedLoop O l tag (fuelOf O s) 0 s
      elemLoop O (readElem C O l mode k unique tag i) c m s

/-- Current single value of member `i`, or the default of its kind. -/
def curVal (k : Kind) (m : Msg) (i : Nat) : Val :=
  match m.get i with
  | (_, v) :: _ => v
  | [] => k.zero C

/-- Singular closed enum into a temporary (1076-1092 with `explicit_presence`): the raw
number, or `none` when it is not a valid enumerator (the code then returns
`value_too_large` after diverting the number). -/
def readClosed (sc : Scalar) (tag : BitVec 32) (s : σ) : Res (σ × (Val ⊕ Val)) := do
  let (s, v) ← readScalar C O sc tag s
  if sc.valid v then .ok (s, .inl (narrow sc v)) else .ok (s, .inr v)

/-- Alternatives of a oneof searched in order, with index: 1239-1273. -/
def findAlt (n : BitVec 32) : List (BitVec 32 × Kind) → Nat → Option (Nat × Kind)
  | [], _ => none
  | (num, k) :: as, j => if num = n then some (j, k) else findAlt n as (j + 1)

/-- `deserialize_field` by member: 1062-1273. -/
def readSlot (l : Level σ) (mode : UnkMode) (tag : BitVec 32) (i : Nat) (sd : SlotD) (m : Msg) (s : σ) :
    Res (σ × Msg) :=
  match sd with
  | .field number k card =>
    match card with
    | .implicit _ => do
      let (s, v) ← readValue C O l k tag (curVal C k m i) s
      .ok (s, m.put i [(0, v)])
    | .always _ =>
      match k with
      | .scalar sc => do
        -- a closed enum fails on an unknown number (1082-1087), others cannot
        let (s, r) ← readClosed C O sc tag s
        match r with
        | .inl v => .ok (s, m.put i [(0, v)])
        | .inr _ => .err .valueTooLarge
      | _ => do
        let (s, v) ← readValue C O l k tag (curVal C k m i) s
        .ok (s, m.put i [(0, v)])
    | .optional =>
      match k with
      | .scalar sc => do
        -- 1145-1152: an unknown number of a closed enum is diverted and the field kept
        let (s, r) ← readClosed C O sc tag s
        match r with
        | .inl v => .ok (s, m.put i [(0, v)])
        | .inr v => .ok (s, m.addUnk mode number (unkEnumRecord number v.bits))
      | _ => do
        let (s, v) ← readValue C O l k tag (curVal C k m i) s
        .ok (s, m.put i [(0, v)])
    | .repeated _ => readRepeated C O l mode number k false tag i m s
    | .map unique => readRepeated C O l mode number k unique tag i m s
  | .oneof alts =>
    match findAlt (tagNumber tag) alts 0 with
    | none => .ub -- `std::unreachable()` 1270; dispatch never gets here
    | some (j, k) =>
      match k with
      | .scalar sc => do
        let (s, r) ← readClosed C O sc tag s
        match r with
        | .inl v =>
          -- 1250: `std::get<Index + 1>(item) = v` throws unless the member is active
          if k.closed && !((m.get i).map Prod.fst == [j]) then .throw
          else .ok (s, m.put i [(j, v)])
        | .inr v => .ok (s, m.addUnk mode (tagNumber tag) (unkEnumRecord (tagNumber tag) v.bits))
      | _ => do
        let old := match m.get i with
          | (a, v) :: _ => if a = j then v else k.zero C
          | [] => k.zero C
        let (s, v) ← readValue C O l k tag old s
        .ok (s, m.put i [(j, v)])

/-- `deserialize_field_by_tag` 1289-1299 and `deserialize_field_by_index` 1275-1287. -/
def readField (l : Level σ) (D : MsgD) (tag : BitVec 32) (m : Msg) (s : σ) : Res (σ × Msg) :=
  if tagNumber tag = 0#32 then .err .badMessage
  else match D.find (tagNumber tag) with
  | some i =>
    match D.slots[i]? with
    | some sd => readSlot C O l D.unk tag i sd m s
    | none => .ub
  | none =>
    if 0 < O.avail s then skipField O l D.unk tag m s else .err .badMessage

/-- The loop of `deserialize` 1357-1364. -/
def msgLoop (l : Level σ) (D : MsgD) : (fuel : Nat) → Msg → σ → Res (σ × Msg)
  | 0, _, _ => .stuck
  | fuel + 1, m, s =>
    if 0 < O.avail s then do
      let (s, tag) ← O.readTag s
      let (s, m) ← readField C O l D tag m s
      msgLoop l D fuel m s
    else if O.avail s = 0 then .ok (s, m)
    else .err .badMessage

/-- `deserialize(item, archive)` 1345-1364, after the recursion scope is granted. -/
def msgBody (l : Level σ) (id : Nat) (m : Msg) (s : σ) : Res (σ × Msg) :=
  let D := C.schema id
  if D.isEntry ∧ 0 < O.avail s then do
    let b ← O.peek s
    if b >>> 3 ≠ 1#8 then .err .badMessage
    else msgLoop C O l D (fuelOf O s) m s
  else msgLoop C O l D (fuelOf O s) m s

/-- The loop of `deserialize_group` 1324-1335. -/
def grpLoop (l : Level σ) (D : MsgD) (number : BitVec 32) : (fuel : Nat) → Msg → σ → Res (σ × Msg)
  | 0, _, _ => .stuck
  | fuel + 1, m, s =>
    if 0 < O.avail s then do
      let (s, tag) ← O.readTag s
      if tagType tag = wtEGroup ∧ number = tagNumber tag then .ok (s, m)
      else do
        let (s, m) ← readField C O l D tag m s
        grpLoop l D number fuel m s
    else .err .badMessage

/-- The reader with `d` recursion scopes left; without one it returns `value_too_large`
(726-729, 1316-1320, 1339-1343). -/
def level : (d : Nat) → Level σ
  | 0 => { msg := fun _ _ _ => .err .valueTooLarge
           grp := fun _ _ _ _ => .err .valueTooLarge
           skipGrp := fun _ _ => .err .valueTooLarge }
  | d + 1 =>
    { msg := fun id m s => msgBody C O (level d) id m s
      grp := fun id number m s => grpLoop C O (level d) (C.schema id) number (fuelOf O s) m s
      skipGrp := fun number s => skipGroupLoop O (level d) number (fuelOf O s) s }

end

end HppProto
