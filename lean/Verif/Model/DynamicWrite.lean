import Verif.Model.Dynamic
import Verif.Model.Serialize

/-!
# Writing dynamic messages

Model of the writer of dynamic messages, `include/hpp_proto/dynamic_message/pb_serializer_ext.hpp`
353-658 with `dynamic_message/binpb.hpp` 44-49: the specialisations of the three passes of
`Verif/Model/Serialize.lean` for `message_value_cref`. Values inside a tag are encoded by the same
functions as those of generated messages (`T{v}.encode_size()`, `archive(T{v})`), so `scalarSize`
and `scalarPieces` are used for them.

An undefined read of a slot is the outcome `ub`.
-/

namespace HppProto

/-- What a visited field hands to the writer. -/
inductive Content where
  | num (v : BitVec 64)
  | str (bs : List Byte)
  | msg (s : DynMsg)
  | nums (vs : List (BitVec 64))
  | strs (vs : List (List Byte))
  | msgs (ms : List DynMsg)

/-- Reading a field for writing. Indeterminate numbers are undefined; an absent message throws. -/
def Reading.content : Reading → Res Content
  | .num v => .ok (.num v)
  | .str bs => .ok (.str bs)
  | .msg s => .ok (.msg s)
  | .nums vs => match vs.mapM id with
    | some l => .ok (.nums l)
    | none => .ub
  | .strs vs => .ok (.strs vs)
  | .msgs ms => .ok (.msgs ms)
  | .absent => .throw
  | .undefined => .ub

/-- A number or a string as a value. -/
def Content.val : Content → Val
  | .num v => .num v
  | .str bs => .bytes bs
  | _ => .num 0

/-- `is_present_or_explicit_default` (`scalar_fields.hpp` 76-81, `enum_fields.hpp` 182-187,
`string_fields.hpp` 74-80, `bytes_fields.hpp` 75-81, `message_fields.hpp` 554; repeated fields: not
empty). -/
def DynField.present (f : DynField) (m : DynMsg) : Res Bool :=
  if f.repeated then .ok ((f.storage m).1 != 0)
  else if !f.hasValue m then .ok false
  else if f.kind.msgType.isSome || f.explicit then .ok true
  else do
    let c ← (f.value m).content
    .ok (!isDefault f.kind f.dflt c.val)

/-! ## Pass 1: `size_cache_counter<message_value_cref>`, 353-402 -/

/-- The sum over a range of messages: 382-384. -/
def dynCountAll (rec : DynMsg → Res (Nat × Bool)) : List DynMsg → Res (Nat × Bool)
  | [] => .ok (0, false)
  | m :: ms => do
    let a ← rec m
    let b ← dynCountAll rec ms
    .ok (a.1 + b.1, a.2 || b.2)

/-- `field_visitor` 362-386. -/
def dynCountField (rec : Nat → DynMsg → Res (Nat × Bool)) (f : DynField) (m : DynMsg) :
    Res (Nat × Bool) :=
  match f.kind with
  | .scalar sc => .ok (if f.repeated && sc.cached && f.packed then 1 else 0, false)
  | .msg id => do
    match ← (f.value m).content with
    | .msg s => do
      let r ← rec id s
      .ok (r.1 + 1, r.2)
    | .msgs ms => do
      let r ← dynCountAll (rec id) ms
      .ok (r.1 + ms.length, r.2)
    | _ => .ub
  | .group id => do
    match ← (f.value m).content with
    | .msg s => rec id s
    | .msgs ms => dynCountAll (rec id) ms
    | _ => .ub

/-- The sum over the fields: 396-401. -/
def dynCountFields (rec : Nat → DynMsg → Res (Nat × Bool)) (m : DynMsg) :
    List DynField → Res (Nat × Bool)
  | [] => .ok (0, false)
  | f :: fs => do
    let p ← f.present m
    let a ← if p then dynCountField rec f m else .ok (0, false)
    let b ← dynCountFields rec m fs
    .ok (a.1 + b.1, a.2 || b.2)

/-- `count` 388-402. -/
def dynCount (T : DynTypes) : (d : Nat) → Nat → DynMsg → Res (Nat × Bool)
  | 0, _, _ => .ok (0, true)
  | d + 1, id, m => dynCountFields (dynCount T d) m (T id).fields

/-! ## Pass 2: `message_size_calculator<message_value_cref>`, 404-530 -/

/-- Wire type of the serialized tag (`factory.cpp` 368-374). -/
def DynField.tagWire (f : DynField) : WireType := if f.packed then wtLen else f.kind.wireType

/-- `serialized_tag` (`factory.cpp` 375-376). -/
def DynField.serializedTag (f : DynField) : BitVec 32 := makeTag f.number f.tagWire

/-- `tag_size` 414-416. -/
def DynField.tagLen (f : DynField) : Nat := varintSize 32 f.serializedTag.toNat

/-- One message of a message field: 498-509, or an element of a repeated one: 511-524. -/
def dynSizeOne (rec : DynMsg → CacheSt → Res (Nat × CacheSt)) (f : DynField) (delimited : Bool)
    (s : DynMsg) (st : CacheSt) : Res (Nat × CacheSt) :=
  if delimited then do
    let (n, st) ← rec s st
    .ok (u64 (2 * f.tagLen + n), st)
  else do
    let i := st.pos
    let (n, st) ← rec s { st with pos := i + 1 }
    let st ← st.write i (saturate n)
    .ok (u64 (f.tagLen + lenSize n), st)

/-- `transform_accumulate` over a range of messages. -/
def dynSizeAll (one : DynMsg → CacheSt → Res (Nat × CacheSt)) :
    (acc : Nat) → List DynMsg → CacheSt → Res (Nat × CacheSt)
  | acc, [], st => .ok (acc, st)
  | acc, s :: ss, st => do
    let (n, st) ← one s st
    dynSizeAll one (u64 (acc + n)) ss st

/-- `field_visitor` 431-524. -/
def dynSizeField (rec : Nat → DynMsg → CacheSt → Res (Nat × CacheSt)) (f : DynField) (m : DynMsg)
    (st : CacheSt) : Res (Nat × CacheSt) := do
  match ← (f.value m).content, f.kind with
  | .num v, .scalar sc => .ok (u64 (f.tagLen + scalarSize sc (.num v)), st)
  | .str bs, .scalar _ => .ok (u64 (f.tagLen + lenSize bs.length), st)
  | .nums vs, .scalar sc =>
    if sc.cached then
      if f.packed then do
        let s := sum64 (vs.map (fun v => scalarSize sc (.num v)))
        let i := st.pos
        let st ← CacheSt.write { st with pos := i + 1 } i (saturate s)
        .ok (u64 (f.tagLen + lenSize s), st)
      else .ok (sum64 (vs.map (fun v => u64 (f.tagLen + scalarSize sc (.num v)))), st)
    else if f.packed then .ok (u64 (f.tagLen + lenSize (u64 (vs.length * sc.rawSize))), st)
    else .ok (u64 (vs.length * u64 (f.tagLen + sc.rawSize)), st)
  | .strs vs, .scalar _ => .ok (sum64 (vs.map (fun bs => u64 (f.tagLen + lenSize bs.length))), st)
  | .msg s, .msg id => dynSizeOne (rec id) f false s st
  | .msg s, .group id => dynSizeOne (rec id) f true s st
  | .msgs ms, .msg id => dynSizeAll (dynSizeOne (rec id) f false) 0 ms st
  | .msgs ms, .group id => dynSizeAll (dynSizeOne (rec id) f true) 0 ms st
  | _, _ => .ub

/-- `operator()(message_value_cref)` 492-496. -/
def dynSizeFields (rec : Nat → DynMsg → CacheSt → Res (Nat × CacheSt)) (m : DynMsg) :
    (acc : Nat) → List DynField → CacheSt → Res (Nat × CacheSt)
  | acc, [], st => .ok (acc, st)
  | acc, f :: fs, st => do
    let p ← f.present m
    let (n, st) ← if p then dynSizeField rec f m st else .ok (0, st)
    dynSizeFields rec m (u64 (acc + n)) fs st

/-- `message_size` 526-530. The pass takes no recursion scope; `d` is fuel of the model. -/
def dynSize (T : DynTypes) : (d : Nat) → Nat → DynMsg → CacheSt → Res (Nat × CacheSt)
  | 0, _, _, _ => .stuck
  | d + 1, id, m, st => dynSizeFields (dynSize T d) m 0 (T id).fields st

/-! ## Pass 3: `field_serializer`, 545-658 -/

/-- `archive(make_tag(desc))`. -/
def DynField.tagPiece (f : DynField) : Piece := .varint f.serializedTag.toNat

/-- `std::ranges::all_of` over a range. -/
def serAll {α} (one : α → Nat → SerOut) : List α → Nat → SerOut
  | [], pos => ([], .ok pos)
  | x :: xs, pos => SerOut.andThen (one x pos) (serAll one xs)

/-- The destructor of `message_tag_writer` 634-638: the end-group tag is written however the message
came out. -/
def SerOut.close (a : SerOut) (p : Piece) : SerOut :=
  match a with
  | (ps, .ub) => (ps, .ub)
  | (ps, st) => (ps ++ [p], st)

/-- `message_tag_writer` 617-639 around the message: 641-645, 647-653. -/
def dynSerOne (cache : List Nat) (rec : DynMsg → Nat → SerOut) (f : DynField) (delimited : Bool)
    (s : DynMsg) (pos : Nat) : SerOut :=
  if delimited then
    SerOut.andThen ([tagPiece f.number wtSGroup], .ok pos) fun pos =>
      (rec s pos).close (tagPiece f.number wtEGroup)
  else
    match cache[pos]? with
    | none => ([], .ub)
    | some len => SerOut.andThen ([tagPiece f.number wtLen, .varint len], .ok (pos + 1)) (rec s)

/-- One value with its tag, 560-605 (`utf8_validation_failed` 532-543). -/
def dynSerScalar (utf8 : List Byte → Bool) (f : DynField) (sc : Scalar) (v : Val) (pos : Nat) : SerOut :=
  if (match sc with
    | .str true => !utf8 v.str
    | _ => false) then ([], .fail)
  else (f.tagPiece :: scalarPieces sc v, .ok pos)

/-- `field_serializer::operator()` 559-653. Simplification: `static_cast<uint32_t>` of the byte count of
packed fixed-size numbers (577) loses nothing, because sizes fit in 32 bits. -/
def dynSerField (utf8 : List Byte → Bool) (cache : List Nat) (rec : Nat → DynMsg → Nat → SerOut)
    (f : DynField) (m : DynMsg) (pos : Nat) : SerOut :=
  match (f.value m).content, f.kind with
  | .ok (.num v), .scalar sc => dynSerScalar utf8 f sc (.num v) pos
  | .ok (.str bs), .scalar sc => dynSerScalar utf8 f sc (.bytes bs) pos
  | .ok (.nums vs), .scalar sc =>
    if f.packed then
      if sc.cached then
        match cache[pos]? with
        | none => ([], .ub)
        | some len =>
          (f.tagPiece :: .varint len :: vs.flatMap (fun v => scalarPieces sc (.num v)), .ok (pos + 1))
      else
        (f.tagPiece :: .varint (u64 (vs.length * sc.rawSize)) ::
          vs.flatMap (fun v => scalarPieces sc (.num v)), .ok pos)
    else serAll (fun v => dynSerScalar utf8 f sc (.num v)) vs pos
  | .ok (.strs vs), .scalar sc => serAll (fun bs => dynSerScalar utf8 f sc (.bytes bs)) vs pos
  | .ok (.msg s), .msg id => dynSerOne cache (rec id) f false s pos
  | .ok (.msg s), .group id => dynSerOne cache (rec id) f true s pos
  | .ok (.msgs ms), .msg id => serAll (dynSerOne cache (rec id) f false) ms pos
  | .ok (.msgs ms), .group id => serAll (dynSerOne cache (rec id) f true) ms pos
  | _, _ => ([], .ub)

/-- `operator()(message_value_cref)` 613-614. -/
def dynSerFields (utf8 : List Byte → Bool) (cache : List Nat) (rec : Nat → DynMsg → Nat → SerOut)
    (m : DynMsg) : List DynField → Nat → SerOut
  | [], pos => ([], .ok pos)
  | f :: fs, pos =>
    match f.present m with
    | .ok true => SerOut.andThen (dynSerField utf8 cache rec f m pos) (dynSerFields utf8 cache rec m fs)
    | .ok false => dynSerFields utf8 cache rec m fs pos
    | _ => ([], .ub)

/-- `operator()(message_value_cref)` 607-615; without a recursion scope it returns false. -/
def dynSer (T : DynTypes) (utf8 : List Byte → Bool) (cache : List Nat) :
    (d : Nat) → Nat → DynMsg → Nat → SerOut
  | 0, _, _, _ => ([], .fail)
  | d + 1, id, m, pos => dynSerFields utf8 cache (dynSer T utf8 cache d) m (T id).fields pos

/-! ## The whole write -/

/-- `serialize_contiguous_buffer_with_cache` (`serialize.hpp` 552-579) for a dynamic message. -/
def dynWriteWithCache (T : DynTypes) (utf8 : List Byte → Bool) (limit : Nat) (growable : Bool)
    (id : Nat) (m : DynMsg) (buf : List Byte) (n : Nat) : WriteRes := do
  let (msgSz, st) ← dynSize T (limit + 1) id m ⟨List.replicate n 0, 0⟩
  if msgSz ≥ maxMessageSize then .ok (some .valueTooLarge, buf)
  else match resizeBuffer true growable buf msgSz with
  | .err e => .ok (some e, buf)
  | .ok buf =>
    match dynSer T utf8 st.cache (limit + 1) id m 0 with
    | (_, .ub) => .ub
    | (ps, .ok _) =>
      match pokePieces ps buf 0 with
      | some buf => .ok (none, buf)
      | none => .ub
    | (ps, .fail) =>
      match pokePieces ps buf 0 with
      | some buf => .ok (some .badMessage, buf)
      | none => .ub
  | _ => .stuck

/-- `write_binpb(msg, buffer)` of a dynamic message (`dynamic_message/binpb.hpp` 44-49) with
`serialize(item, buffer, context)` (`serialize.hpp` 581-603). -/
def dynWrite (T : DynTypes) (utf8 : List Byte → Bool) (limit : Nat) (growable : Bool) (id : Nat)
    (m : DynMsg) (buf : List Byte) : WriteRes := do
  let c ← dynCount T (limit + 1) id m
  if c.2 then .ok (some .badMessage, buf)
  else dynWriteWithCache T utf8 limit growable id m buf c.1

end HppProto
