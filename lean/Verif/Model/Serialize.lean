import Verif.Model.Schema
/-!
# Model of the binary writer: `include/hpp_proto/binpb/serialize.hpp`

`write_binpb` makes three passes over the message: `size_cache_counter` counts the size
cache entries, `message_size_calculator` computes the size and fills the cache, and
`serialize` writes, taking length prefixes from the cache. The passes take recursion
scopes (the counter and the writer); `d` is the number of scopes left. The size pass takes
none; its `d` is loop fuel of the model (`stuck` when exhausted, shown never to happen).
-/
namespace HppProto

/-- Pieces of a message to be written, after `omit_value` and overload selection: one
value with its tag, or a packed list. -/
inductive Item where
  | one (number : BitVec 32) (k : Kind) (v : Val)
  | packed (number : BitVec 32) (sc : Scalar) (vs : List Val)

/-- IEEE equality of 32-bit float patterns. -/
def f32Eq (a b : BitVec 32) : Bool :=
  let nan (x : BitVec 32) := (x &&& 0x7f800000#32) == 0x7f800000#32 && (x &&& 0x007fffff#32) != 0#32
  if nan a || nan b then false
  else a == b || ((a &&& 0x7fffffff#32) == 0#32 && (b &&& 0x7fffffff#32) == 0#32)

/-- IEEE equality of 64-bit float patterns. -/
def f64Eq (a b : BitVec 64) : Bool :=
  let nan (x : BitVec 64) :=
    (x &&& 0x7ff0000000000000#64) == 0x7ff0000000000000#64 && (x &&& 0x000fffffffffffff#64) != 0#64
  if nan a || nan b then false
  else a == b || ((a &&& 0x7fffffffffffffff#64) == 0#64 && (b &&& 0x7fffffffffffffff#64) == 0#64)

/-- `is_default_value` for a plain member: field_types.hpp 564-581. Numbers compare with
`==` (floats: IEEE), strings with the default string, messages are never default. -/
def isDefault (k : Kind) (dflt v : Val) : Bool :=
  match k with
  | .scalar (.fixed32 true) => f32Eq (v.bits.setWidth 32) (dflt.bits.setWidth 32)
  | .scalar (.fixed64 true) => f64Eq v.bits dflt.bits
  | .scalar (.str _) => v.str == dflt.str
  | .scalar _ => v.bits == dflt.bits
  | _ => false

/-- `omit_value` (meta.hpp 69-83, 101-103) and the choice of overload by member type
(serialize.hpp 691-806): what each member contributes. -/
def slotItems (sd : SlotD) (es : List (Nat × Val)) : List Item :=
  match sd with
  | .field n k card =>
    match card with
    | .implicit dflt => (es.filter (fun e => !isDefault k dflt e.2)).map (fun e => .one n k e.2)
    | .repeated true =>
      match k with
      | .scalar sc =>
        if sc.packable then
          if es.isEmpty then [] else [.packed n sc (es.map Prod.snd)]
        else es.map (fun e => .one n k e.2)
      | _ => es.map (fun e => .one n k e.2)
    | _ => es.map (fun e => .one n k e.2)
  | .oneof alts => es.flatMap (fun e =>
      match alts[e.1]? with
      | some (n, k) => [.one n k e.2]
      | none => [])

/-- All pieces of a message in `pb_meta` order. Stored unknown fields come after them. -/
def msgItems (D : MsgD) (m : Msg) : List Item :=
  (D.slots.zip m.slots).flatMap (fun p => slotItems p.1 p.2)

/-- Scalars whose packed form is written through a size cache entry (varints and enums,
serialize.hpp 280-284, 508-519, 777-781); bool and fixed are raw memory. -/
def Scalar.cached : Scalar → Bool
  | .varint _ | .enum _ => true
  | _ => false

section
variable (C : Cfg)

/-! ## Pass 1: `size_cache_counter`, serialize.hpp 213-329 -/

/-- `count` of one piece: 246-314. -/
def countItem (rec : Nat → Msg → Nat × Bool) : Item → Nat × Bool
  | .one _ (.scalar _) _ => (0, false)
  | .one _ (.msg id) v => let r := rec id (v.asMsg (C.schema id).default); (r.1 + 1, r.2)
  | .one _ (.group id) v => rec id (v.asMsg (C.schema id).default)
  | .packed _ sc _ => (if sc.cached then 1 else 0, false)

/-- Sum of entries, disjunction of the `recursion_limit_exceeded` flags: 230-234, 273-274. -/
def countItems (rec : Nat → Msg → Nat × Bool) : List Item → Nat × Bool
  | [] => (0, false)
  | it :: its =>
    let a := countItem C rec it
    let b := countItems rec its
    (a.1 + b.1, a.2 || b.2)

/-- `count(item)` 215-238. -/
def countMsg : (d : Nat) → (id : Nat) → Msg → Nat × Bool
  | 0, _, _ => (0, true)
  | d + 1, id, m => countItems C (countMsg d) (msgItems (C.schema id) m)

/-! ## Pass 2: `message_size_calculator`, serialize.hpp 344-535 -/

/-- `max_message_size`: 338. -/
def maxMessageSize : Nat := 2 ^ 31 - 1

/-- `saturate_to_max_message_size`: 340-342. -/
def saturate (s : Nat) : Nat := if s ≥ maxMessageSize then maxMessageSize else s

/-- `uint64_t` arithmetic wraps. -/
def u64 (n : Nat) : Nat := n % 2 ^ 64

/-- `len_size`: 200. -/
def lenSize (len : Nat) : Nat := u64 (varintSize 64 len + len)

/-- `varint_size(meta.number << 3U)`: 426, 435, 446, 458, 476, 490. -/
def tagSize (number : BitVec 32) : Nat := varintSize 32 (number <<< 3).toNat

/-- Size of a scalar after its tag: 423-447, 491-493. -/
def scalarSize (sc : Scalar) (v : Val) : Nat :=
  match sc with
  | .varint ty => ty.encodeSize v.bits
  | .bool => 1
  | .enum _ => varintSize 64 v.bits.toNat
  | .fixed32 _ => 4
  | .fixed64 _ => 8
  | .str _ => lenSize v.str.length

/-- Bytes per element of a packed list that is written as raw memory (`sizeof`). -/
def Scalar.rawSize : Scalar → Nat
  | .fixed32 _ => 4
  | .fixed64 _ => 8
  | _ => 1

/-- `transform_accumulate` in `uint64_t`: binpb/util.hpp 32-37. -/
def sum64 (l : List Nat) : Nat := l.foldl (fun acc x => u64 (acc + x)) 0

/-- The cache and the position of the cache iterator. -/
structure CacheSt where
  cache : List Nat
  pos : Nat
  deriving Repr, DecidableEq

/-- Assign through the reference that `consume_size_cache_entry` (52-58) returned. -/
def CacheSt.write (st : CacheSt) (i s : Nat) : Res CacheSt :=
  if i < st.cache.length then .ok { st with cache := st.cache.set i s } else .ub

/-- `field_size` of one piece: 423-522. -/
def sizeItem (rec : Nat → Msg → CacheSt → Res (Nat × CacheSt)) (it : Item) (st : CacheSt) : Res (Nat × CacheSt) :=
  match it with
  | .one n (.scalar sc) v => .ok (u64 (tagSize n + scalarSize sc v), st)
  | .one n (.msg id) v => do
    let i := st.pos
    let (s, st) ← rec id (v.asMsg (C.schema id).default) { st with pos := i + 1 }
    let st ← st.write i (saturate s)
    .ok (u64 (tagSize n + lenSize s), st)
  | .one n (.group id) v => do
    let (s, st) ← rec id (v.asMsg (C.schema id).default) st
    .ok (u64 (2 * tagSize n + s), st)
  | .packed n sc vs =>
    if sc.cached then do
      let s := sum64 (vs.map (scalarSize sc))
      let i := st.pos
      let st ← CacheSt.write { st with pos := i + 1 } i (saturate s)
      .ok (u64 (tagSize n + lenSize s), st)
    else .ok (u64 (tagSize n + lenSize (u64 (vs.length * sc.rawSize))), st)

/-- `field_size_accumulator` over the pieces: 363-392, 497-498. -/
def sizeItems (rec : Nat → Msg → CacheSt → Res (Nat × CacheSt)) : List Item → CacheSt → Res (Nat × CacheSt)
  | [], st => .ok (0, st)
  | it :: its, st => do
    let (a, st) ← sizeItem C rec it st
    let (b, st) ← sizeItems rec its st
    .ok (u64 (a + b), st)

/-- `message_size`: 380-392, with the stored unknown fields (400-416). -/
def sizeMsg : (d : Nat) → (id : Nat) → Msg → CacheSt → Res (Nat × CacheSt)
  | 0, _, _, _ => .stuck
  | d + 1, id, m, st => do
    let (s, st) ← sizeItems C (sizeMsg d) (msgItems (C.schema id) m) st
    .ok (u64 (s + sum64 (m.unk.map (fun u => u.2.length))), st)

/-! ## Pass 3: `serialize`, serialize.hpp 675-806 -/

/-- What is handed to the archive: a varint (by the number it packs) or raw bytes. -/
inductive Piece where
  | varint (n : Nat)
  | raw (bs : List Byte)
  deriving Repr, DecidableEq

/-- Bytes of a piece (`unchecked_pack_varint` or `memcpy`). -/
def Piece.bytes : Piece → List Byte
  | .varint n => packVarint n
  | .raw bs => bs

/-- All bytes of a list of pieces. -/
def piecesBytes (ps : List Piece) : List Byte := ps.flatMap Piece.bytes

/-- State after a writing step: `ok pos` (cache iterator), `fail` (returned false), `ub`
(cache read out of bounds). -/
inductive SerStat where
  | ok (pos : Nat) | fail | ub
  deriving Repr, DecidableEq

/-- Pieces handed to the archive so far, and the state. -/
abbrev SerOut := List Piece × SerStat

/-- `a && b`: go on only after success. -/
def SerOut.andThen (a : SerOut) (f : Nat → SerOut) : SerOut :=
  match a with
  | (p, .ok pos) => let r := f pos; (p ++ r.1, r.2)
  | (p, s) => (p, s)

/-- `k` bytes, least significant first (`bit_cast` on a little-endian machine, 74-84). -/
def leBytes : (k : Nat) → (v : Nat) → List Byte
  | 0, _ => []
  | k + 1, v => BitVec.ofNat 8 v :: leBytes k (v / 256)

/-- A scalar handed to the archive, without tag: 697-738. -/
def scalarPieces (sc : Scalar) (v : Val) : List Piece :=
  match sc with
  | .varint ty => [.varint (ty.encodeBits v.bits)]
  | .bool => [.raw [if v.bits = 0 then 0 else 1]]
  | .enum _ => [.varint v.bits.toNat]
  | .fixed32 _ => [.raw (leBytes 4 v.bits.toNat)]
  | .fixed64 _ => [.raw (leBytes 8 v.bits.toNat)]
  | .str _ => [.varint v.str.length, .raw v.str]

/-- `archive(make_tag(...))`. -/
def tagPiece (number : BitVec 32) (wt : WireType) : Piece := .varint (makeTag number wt).toNat

/-- `utf8_validation_failed`: utf8.hpp, serialize.hpp 737. -/
def utf8Fails (sc : Scalar) (v : Val) : Bool :=
  match sc with
  | .str true => !C.utf8 v.str
  | _ => false

/-- Raw memory of a packed fixed/bool list (774-776). -/
def rawPacked (sc : Scalar) (vs : List Val) : List Byte :=
  vs.flatMap (fun v => piecesBytes (scalarPieces sc v))

/-- `serialize_field` of one piece: 697-794. -/
def serItem (cache : List Nat) (rec : Nat → Msg → Nat → SerOut) (it : Item) (pos : Nat) : SerOut :=
  match it with
  | .one n (.scalar sc) v =>
    if utf8Fails C sc v then ([], .fail)
    else (tagPiece n sc.wireType :: scalarPieces sc v, .ok pos)
  | .one n (.msg id) v =>
    match cache[pos]? with
    | none => ([], .ub)
    | some len =>
      SerOut.andThen ([tagPiece n wtLen, .varint len], .ok (pos + 1))
        (rec id (v.asMsg (C.schema id).default))
  | .one n (.group id) v =>
    SerOut.andThen ([tagPiece n wtSGroup], .ok pos) (fun pos =>
      SerOut.andThen (rec id (v.asMsg (C.schema id).default) pos)
        (fun pos => ([tagPiece n wtEGroup], .ok pos)))
  | .packed n sc vs =>
    if sc.cached then
      match cache[pos]? with
      | none => ([], .ub)
      | some len => (tagPiece n wtLen :: .varint len :: vs.flatMap (scalarPieces sc), .ok (pos + 1))
    else
      ([tagPiece n wtLen, .varint (u64 (vs.length * sc.rawSize)), .raw (rawPacked sc vs)], .ok pos)

/-- The `&&` folds 688, 769. -/
def serItems (cache : List Nat) (rec : Nat → Msg → Nat → SerOut) : List Item → Nat → SerOut
  | [], pos => ([], .ok pos)
  | it :: its, pos => SerOut.andThen (serItem C cache rec it pos) (serItems cache rec its)

/-- `serialize(item, cache_itr, archive)` 675-689; stored unknown fields last (702-715). -/
def serMsg (cache : List Nat) : (d : Nat) → (id : Nat) → Msg → Nat → SerOut
  | 0, _, _, _ => ([], .fail)
  | d + 1, id, m, pos =>
    SerOut.andThen (serItems C cache (serMsg cache d) (msgItems (C.schema id) m) pos)
      (fun pos => (m.unk.map (fun u => .raw u.2), .ok pos))

/-! ## Contiguous output: serialize.hpp 60-114, 537-603 -/

/-- Copy bytes into a buffer at an offset; outside the buffer it is undefined. -/
def poke (buf : List Byte) (at_ : Nat) (bs : List Byte) : Option (List Byte) :=
  if at_ + bs.length ≤ buf.length then some (buf.take at_ ++ bs ++ buf.drop (at_ + bs.length)) else none

/-- `contiguous_out`: write the pieces one after another from offset `at_`. -/
def pokePieces : List Piece → List Byte → Nat → Option (List Byte)
  | [], buf, _ => some buf
  | p :: ps, buf, at_ =>
    match poke buf at_ p.bytes with
    | some buf => pokePieces ps buf (at_ + p.bytes.length)
    | none => none

/-- `resize` of a growable container (new bytes are zero). -/
def resizeTo (n : Nat) (buf : List Byte) : List Byte := buf.take n ++ List.replicate (n - buf.length) 0#8

/-- `resize_contiguous_buffer`: 537-550. -/
def resizeBuffer (overwrite growable : Bool) (buf : List Byte) (msgSz : Nat) : Res (List Byte) :=
  let oldSize := if overwrite then 0 else buf.length
  if msgSz > 2 ^ 64 - 1 - oldSize then .err .notEnoughMemory
  else
    let newSize := oldSize + msgSz
    if growable then .ok (resizeTo newSize buf)
    else if newSize > buf.length then .err .notEnoughMemory
    else .ok buf

/-- Result of a write: status (`none` is success) and the buffer afterwards. -/
abbrev WriteRes := Res (Option Err × List Byte)

/-- `serialize_contiguous_buffer_with_cache`: 552-579. -/
def writeWithCache (limit : Nat) (overwrite growable : Bool) (id : Nat) (m : Msg) (buf : List Byte)
    (n : Nat) : WriteRes := do
  let (msgSz, st) ← sizeMsg C (limit + 1) id m ⟨List.replicate n 0, 0⟩
  if msgSz ≥ maxMessageSize then .ok (some .valueTooLarge, buf)
  else match resizeBuffer overwrite growable buf msgSz with
  | .err e => .ok (some e, buf)
  | .ok buf =>
    match serMsg C st.cache (limit + 1) id m 0 with
    | (_, .ub) => .ub
    | (ps, .ok _) =>
      match pokePieces ps buf 0 with
      | some buf => .ok (none, buf)
      | none => .ub
    | (ps, .fail) =>
      match pokePieces ps buf 0 with
      | some buf => .ok (some .badMessage, buf)
      | none => .ub
  | _ => .stuck

/-- `serialize(item, buffer, context)`: 581-603, with recursion limit `limit`. -/
def serializeBuffer (limit : Nat) (overwrite growable : Bool) (id : Nat) (m : Msg) (buf : List Byte) : WriteRes :=
  let c := countMsg C (limit + 1) id m
  if c.2 then .ok (some .badMessage, buf)
  else writeWithCache C limit overwrite growable id m buf c.1

/-- `write_binpb(msg, buffer)`: binpb.hpp 141-196. `growable` distinguishes a resizable
container from a fixed span or array. -/
def writeBinpb (limit : Nat) (growable : Bool) (id : Nat) (m : Msg) (buf : List Byte) : WriteRes :=
  serializeBuffer C limit true growable id m buf

/-- `append_binpb(msg, buffer)`: binpb.hpp 198-204 (default recursion limit 100,
recursion.hpp). -/
def appendBinpb (id : Nat) (m : Msg) (buf : List Byte) : WriteRes :=
  serializeBuffer C 100 false true id m buf

end
end HppProto
