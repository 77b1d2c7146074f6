import Verif.Model.DynamicRead
import Verif.Model.Base64
import Verif.Model.Timestamp
import Verif.Model.Duration
import Verif.Model.FieldMask
import Verif.Model.Text

/-!
# JSON of dynamic messages

Model of `write_json` and `read_json` for dynamic messages: `include/hpp_proto/dynamic_message/json.hpp`,
`include/hpp_proto/json/util.hpp` and `include/hpp_proto/json.hpp` 392-620.

The lexical layer is the library glaze, which is not part of the repository: strings, numbers and the
skipping of strings, objects and arrays are the functions of `Glaze`, constrained by the laws in
`Verif/Spec/JsonText.lean`. Its whitespace, its single-character matching and its writing of ranges and
optional values are modelled by what they are documented to do.

Simplifications: the input is null-terminated (`null_terminated = true`, the overload for `std::string`,
`json.hpp` 519-563): the model reads 0 at the end of the input, and stepping over the end is undefined.
Options are the defaults, except `prettify` and `preserve_proto_field_names`. `google.protobuf.Any` is not
modelled (`stuck`). All errors of glaze are `badMessage`, except the exceeded recursion depth,
`valueTooLarge`. On an error the contents of the message are not modelled.
-/

namespace HppProto.Json

/-- An enum: its values in order, `name_of` and `value_of` (`factory_addons.hpp` 227-254). `isNull` is
`is_null_value`. -/
structure EnumInfo where
  values : List (List Byte × BitVec 32)
  isNull : Bool
  deriving Repr

/-- `name_of` (`factory_addons.hpp` 245-253). -/
def EnumInfo.nameOf (E : EnumInfo) (v : BitVec 32) : List Byte :=
  match E.values.find? (fun p => p.2 == v) with
  | some p => p.1
  | none => []

/-- `value_of` (`factory_addons.hpp` 235-243); `try_emplace` keeps the first of two equal names. -/
def EnumInfo.valueOf (E : EnumInfo) (name : List Byte) : Option (BitVec 32) :=
  (E.values.find? (fun p => p.1 == name)).map (·.2)

/-- What the JSON functions distinguish by `field_kind()` (`types.hpp` 65-100): `int` with its
signedness and width, `float` and `double`, and the rest. -/
inductive JType where
  | int (signed wide : Bool)
  | float (wide : Bool)
  | bool
  | enum (E : EnumInfo)
  | string
  | bytes
  | msg (id : Nat)
  deriving Repr

/-- `wellknown_types_t` (`types.hpp` 230-240, set by `factory.cpp` 394-421). -/
inductive WellKnown where
  | none | any | timestamp | duration | fieldMask | value | struct | listValue | wrapper
  deriving DecidableEq, Repr

/-- A field descriptor with its names (`proto().name`, `proto().json_name`) and its JSON type. -/
structure JField where
  dyn : DynField
  name : List Byte
  jsonName : List Byte
  ty : JType
  deriving Repr

/-- A message descriptor (`descriptor_pool.hpp` 498, `factory_addons.hpp` 266-272). -/
structure JDesc where
  fields : List JField
  slots : Nat
  entry : Bool
  wk : WellKnown
  deriving Repr

/-- All message types, by number. -/
abbrev JTypes := Nat → JDesc

/-- The descriptors as the other operations on dynamic messages see them. -/
def JDesc.dyn (D : JDesc) : DynDesc := ⟨D.fields.map JField.dyn, D.slots, D.entry⟩

/-- All types as the other operations see them. -/
def JTypes.dyn (T : JTypes) : DynTypes := fun id => (T id).dyn

/-- The functions of glaze that the model takes as given. The readers get the input from the cursor on
and return what is left. -/
structure Glaze where
  /-- `to<JSON, std::string_view>` with `escape_control_characters` -/
  writeStr : List Byte → List Byte
  /-- `to<JSON, float>`, `to<JSON, double>` -/
  writeFloat : (wide : Bool) → BitVec 64 → List Byte
  /-- `from<JSON, std::string>` at the opening quote -/
  readStr : List Byte → Res (List Byte × List Byte)
  /-- `from<JSON, std::string_view>` at the opening quote: what is between the quotes as it stands -/
  readView : List Byte → Res (List Byte × List Byte)
  /-- `from<JSON, T>` for an integer type with values from `lo` to `hi` -/
  readInt : (lo hi : Int) → List Byte → Res (Int × List Byte)
  /-- `from<JSON, float>`, `from<JSON, double>` -/
  readFloat : (wide : Bool) → List Byte → Res (BitVec 64 × List Byte)
  /-- `skip_string` at the opening quote -/
  skipStr : List Byte → Res (List Byte)
  /-- `skip_until_closed<'{', '}'>` after the opening brace -/
  skipObj : List Byte → Res (List Byte)
  /-- `skip_until_closed<'[', ']'>` after the opening bracket -/
  skipArr : List Byte → Res (List Byte)
  /-- `skip_comment` at the slash -/
  skipComment : List Byte → Res (List Byte)

/-! ## Writing -/

/-- The options of `json_write_opts` (`json.hpp` 393-401) that are modelled; `width` is
`check_indentation_width`. -/
structure JOpts where
  pretty : Bool
  width : Nat
  preserve : Bool

/-- Newline and indentation (`util.hpp` 42-73, `dynamic_message/json.hpp` 758-789). -/
def JOpts.line (o : JOpts) (ind : Nat) : List Byte :=
  if o.pretty then 0x0a :: List.replicate ind 0x20 else []

/-- The space after a colon. -/
def JOpts.space (o : JOpts) : List Byte := if o.pretty then [0x20] else []

/-- The depth inside braces. -/
def JOpts.deeper (o : JOpts) (ind : Nat) : Nat := if o.pretty then ind + o.width else ind

/-- Decimal text of an integer (`glz::to_chars`). -/
def intText (v : Int) : List Byte := if v < 0 then 0x2d :: toDec v.natAbs else toDec v.natAbs

/-- Text in quotes. -/
def quoted (t : List Byte) : List Byte := 0x22 :: t ++ [0x22]

/-- The number stored for an integer. -/
def intOf (signed : Bool) (v : BitVec 64) : Int := if signed then v.toInt else (v.toNat : Int)

/-- `to<JSON, enum_value>` (`dynamic_message/json.hpp` 730-747): a number without a name is written as
`uint32_t`. -/
def enumText (E : EnumInfo) (v : BitVec 64) : List Byte :=
  if E.isNull then b!"null"
  else
    let n := v.setWidth 32
    if E.nameOf n = [] then toDec n.toNat else quoted (E.nameOf n)

/-- A number or bool: `to<JSON, scalar_field_cref>` (`dynamic_message/json.hpp` 701-713) and the elements
of 715-728. `q` is `quoted_num`, set for map keys; it does not affect bools. Simplification: an enum or a message
written in place of a key that is not set does not pass `quoted_num` on. -/
def numText (G : Glaze) (q : Bool) (ty : JType) (v : BitVec 64) : List Byte :=
  match ty with
  | .int signed wide =>
    if q || wide then quoted (intText (intOf signed v)) else intText (intOf signed v)
  | .float wide => if q then quoted (G.writeFloat wide v) else G.writeFloat wide v
  | .bool => if v = 0 then b!"false" else b!"true"
  | .enum E => enumText E v
  | _ => []

/-- A string or bytes value (`json.hpp` 87-139 for bytes). -/
def strText (G : Glaze) (ty : JType) (bs : List Byte) : List Byte :=
  match ty with
  | .bytes => quoted (base64Encode bs)
  | _ => G.writeStr bs

/-- Elements between `open` and `close`, separated by commas; empty elements are left out
(`dynamic_message/json.hpp` 749-795). A range of glaze is written the same way. -/
def listText (o : JOpts) (ind : Nat) (opening closing : Byte) (ts : List (List Byte)) : List Byte :=
  let sep := 0x2c :: o.line (o.deeper ind)
  opening :: o.line (o.deeper ind) ++ List.intercalate sep (ts.filter (· ≠ [])) ++ o.line ind ++ [closing]

/-- The message writer with a number of recursion scopes left, at an indentation. -/
abbrev JWriter := (ind : Nat) → (id : Nat) → DynMsg → Res (List Byte)

section
variable (T : JTypes) (G : Glaze) (o : JOpts)

/-- Is the message a `google.protobuf.Value` that is not set? (`dynamic_message/json.hpp` 294-296) -/
def unsetValue (id : Nat) (s : DynMsg) : Bool :=
  (T id).wk == .value &&
    match (T id).fields[0]? with
    | some f => decide (f.dyn.active s < 0)
    | none => true

/-- Map over a list, in the order of the code. -/
def mapRes {α β : Type} (g : α → Res β) : List α → Res (List β)
  | [] => .ok []
  | x :: xs => do
    let y ← g x
    let ys ← mapRes g xs
    .ok (y :: ys)

/-- A field that has a value: `to<JSON, T>` of the typed references
(`dynamic_message/json.hpp` 701-747, 919-942); optional strings, bytes, enums and messages are written by
glaze as what they hold. -/
def writeField (w : JWriter) (ind : Nat) (q : Bool) (f : JField) (m : DynMsg) : Res (List Byte) :=
  if f.dyn.repeated then
    match f.ty, f.dyn.value m with
    | .msg id, .msgs ss => do
      let ts ← mapRes (w (o.deeper ind) id) ss
      .ok (if (T id).entry then listText o ind 0x7b 0x7d ts else listText o ind 0x5b 0x5d ts)
    | _, .nums vs =>
      match vs.mapM id with
      | some vs => .ok (listText o ind 0x5b 0x5d (vs.map (numText G false f.ty)))
      | none => .ub
    | _, .strs vs => .ok (listText o ind 0x5b 0x5d (vs.map (strText G f.ty)))
    | _, _ => .ub
  else
    match f.ty, f.dyn.value m with
    | .msg id, .msg s => w ind id s
    | _, .num v => .ok (numText G q f.ty v)
    | _, .str bs => .ok (strText G f.ty bs)
    | _, _ => .ub

/-- The key of a field (`dynamic_message/json.hpp` 184-190). -/
def JField.key (f : JField) : List Byte := if o.preserve then f.name else f.jsonName

/-- The members of an object (`dynamic_message/json.hpp` 169-223): texts of the fields with a value. -/
def writeMembers (w : JWriter) (ind : Nat) (m : DynMsg) : List JField → Res (List (List Byte))
  | [] => .ok []
  | f :: fs =>
    if f.dyn.hasValue m then do
      let t ← writeField T G o w ind false f m
      let ts ← writeMembers w ind m fs
      .ok ((G.writeStr (f.key o) ++ 0x3a :: o.space ++ t) :: ts)
    else writeMembers w ind m fs

/-- `generic_message_json_serializer::to_json` (`dynamic_message/json.hpp` 199-228). -/
def writeObject (w : JWriter) (ind : Nat) (D : JDesc) (m : DynMsg) : Res (List Byte) := do
  let ts ← writeMembers T G o w (o.deeper ind) m D.fields
  let sep := 0x2c :: o.line (o.deeper ind)
  .ok (0x7b :: o.line (o.deeper ind) ++ List.intercalate sep ts ++ o.line ind ++ [0x7d])

/-- `map_entry_message_json_adapter::serialize_field` (`dynamic_message/json.hpp` 270-287): the first
field that is written is written as a key. -/
def writeEntryField (w : JWriter) (ind : Nat) (isKey : Bool) (f : JField) (m : DynMsg) : Res (List Byte) := do
  let t ← writeField T G o w ind isKey f m
  match isKey, f.ty with
  | true, .bool => .ok (quoted t)
  | _, _ => .ok t

/-- The loop of `map_entry_message_json_adapter::to_json` (`dynamic_message/json.hpp` 301-314). -/
def writeEntryLoop (w : JWriter) (ind : Nat) (m : DynMsg) : (first : Bool) → List JField → Res (List Byte)
  | _, [] => .ok []
  | first, f :: fs =>
    if f.dyn.hasValue m then do
      let t ← writeEntryField T G o w ind first f m
      let ts ← writeEntryLoop w ind m false fs
      .ok ((if first then [] else 0x3a :: o.space) ++ t ++ ts)
    else writeEntryLoop w ind m first fs

/-- `map_entry_message_json_adapter::to_json` (`dynamic_message/json.hpp` 289-315): nothing for an entry
whose value is a `google.protobuf.Value` that is not set. The message of an entry without a value is read
through a null pointer. -/
def writeEntry (w : JWriter) (ind : Nat) (D : JDesc) (m : DynMsg) : Res (List Byte) :=
  match D.fields[1]? with
  | none => .ub
  | some f =>
    match f.ty, f.dyn.value m with
    | .msg id, .msg s =>
      if unsetValue T id s then .ok [] else writeEntryLoop T G o w ind m true D.fields
    | .msg _, _ => .ub
    | _, _ => writeEntryLoop T G o w ind m true D.fields

/-- `to<JSON, Timestamp>` and `to<JSON, Duration>` of the two fields (`dynamic_message/json.hpp` 538-553,
570-585, `json.hpp` 87-115). -/
def writeTwo (encode : Int → Int → Option (List Byte)) (D : JDesc) (m : DynMsg) : Res (List Byte) :=
  match D.fields with
  | [s, n] =>
    match s.dyn.value m, n.dyn.value m with
    | .num s, .num n =>
      match encode s.toInt n.toInt with
      | some t => .ok (quoted t)
      | none => .err .badMessage
    | _, _ => .ub
  | _ => .err .badMessage

/-- `field_mask_message_json_serializer::to_json` (`dynamic_message/json.hpp` 604-616). -/
def writeMask (D : JDesc) (m : DynMsg) : Res (List Byte) :=
  match D.fields with
  | [f] =>
    match f.dyn.value m with
    | .strs ps => .ok (quoted (fieldMaskEncode ps))
    | _ => .ub
  | _ => .err .badMessage

/-- `value_message_json_serializer::to_json` (`dynamic_message/json.hpp` 652-662). -/
def writeAlternative (w : JWriter) (ind : Nat) (D : JDesc) (m : DynMsg) : Res (List Byte) :=
  match D.fields[0]? with
  | none => .ok []
  | some f0 =>
    let i := f0.dyn.active m
    if i < 0 then .ok []
    else match D.fields[i.toNat]? with
      | none => .ok []
      | some f => if f.dyn.hasValue m then writeField T G o w ind false f m else .ok []

/-- `dynamic_protojson_traversal::write_impl` (`dynamic_message/json.hpp` 817-862) after the recursion
scope is granted. -/
def writeBody (w : JWriter) : JWriter := fun ind id m =>
  let D := T id
  if D.entry then writeEntry T G o w ind D m
  else match D.wk with
    | .any => .stuck
    | .timestamp => writeTwo timestampEncode D m
    | .duration => writeTwo durationEncode D m
    | .fieldMask => writeMask D m
    | .value => writeAlternative T G o w ind D m
    | .struct | .listValue =>
      match D.fields[0]? with
      | some f => writeField T G o w ind false f m
      | none => .ub
    | .wrapper =>
      match D.fields[0]? with
      | some f => if f.dyn.hasValue m then writeField T G o w ind false f m else .ok []
      | none => .ub
    | .none => writeObject T G o w ind D m

/-- The writer with `d` recursion scopes left (`dynamic_message/json.hpp` 44-57, 820-823). -/
def writeLevel : (d : Nat) → JWriter
  | 0 => fun _ _ _ => .err .valueTooLarge
  | d + 1 => writeBody T G o (writeLevel d)

/-- `write_json(msg, buffer, recursion_limit<limit>)` of a dynamic message (`json.hpp` 590-599): the text
written. -/
def jsonWrite (limit id : Nat) (m : DynMsg) : Res (List Byte) := writeLevel T G o (limit + 1) 0 id m

end

/-! ## Reading -/

/-- `*it` of a null-terminated input. -/
def look (s : List Byte) : Byte := s.headD 0

/-- `++it`: stepping over the terminator is undefined. -/
def step : List Byte → Res (List Byte)
  | [] => .ub
  | _ :: s => .ok s

/-- A whitespace character. -/
def isWs (c : Byte) : Bool := c == 0x20 || c == 0x09 || c == 0x0a || c == 0x0d

/-- `skip_ws`. -/
def skipWs (s : List Byte) : List Byte := s.dropWhile isWs

/-- `match_invalid_end<c>`. -/
def expect (c : Byte) (s : List Byte) : Res (List Byte) :=
  if look s = c then step s else .err .badMessage

/-- `match<"...">`: as much as the text, if it is there. -/
def expectText (t s : List Byte) : Res (List Byte) :=
  if t.isPrefixOf s then .ok (s.drop t.length) else .err .badMessage

/-- `parse_null` (`util.hpp` 75-104): the input after `null`, or `none` if there is no `null`. -/
def readNull (s : List Byte) : Res (Option (List Byte)) :=
  let s := skipWs s
  if look s = 0x6e then do
    let s ← step s
    let s ← expectText b!"ull" s
    .ok (some s)
  else .ok none

/-- `from<JSON, bool>`. -/
def readBool (s : List Byte) : Res (BitVec 64 × List Byte) :=
  if look s = 0x74 then do
    let s ← expectText b!"true" s
    .ok (1, s)
  else do
    let s ← expectText b!"false" s
    .ok (0, s)

/-- The values of an integer type. -/
def intRange (signed wide : Bool) : Int × Int :=
  match signed, wide with
  | true, true => (-2 ^ 63, 2 ^ 63 - 1)
  | true, false => (-2 ^ 31, 2 ^ 31 - 1)
  | false, true => (0, 2 ^ 64 - 1)
  | false, false => (0, 2 ^ 32 - 1)

section
variable (T : JTypes) (utf8 : List Byte → Bool) (G : Glaze)

/-- Something in quotes (`quoted_num`). -/
def inQuotes {α : Type} (q : Bool) (r : List Byte → Res (α × List Byte)) (s : List Byte) : Res (α × List Byte) :=
  if q then do
    let s ← expect 0x22 s
    let (x, s) ← r s
    let s ← expect 0x22 s
    .ok (x, s)
  else r s

/-- `from<JSON, enum_value_mref>` (`dynamic_message/json.hpp` 1006-1047). -/
def readEnum (E : EnumInfo) (s : List Byte) : Res (BitVec 64 × List Byte) :=
  if look s ≠ 0x22 then do
    let (n, s) ← G.readInt (-2 ^ 31) (2 ^ 31 - 1) s
    .ok (BitVec.ofInt 64 n, s)
  else do
    let (name, s) ← G.readView s
    match E.valueOf name with
    | some v => .ok (v.signExtend 64, s)
    | none => .err .badMessage

/-- A number, bool or enum: `from<JSON, scalar_field_mref>` (`dynamic_message/json.hpp` 944-957),
`util::from_json` of the elements of repeated fields (`util.hpp` 413-418, 448-469). -/
def readNum (q : Bool) (ty : JType) (s : List Byte) : Res (BitVec 64 × List Byte) :=
  let s := skipWs s
  match ty with
  | .int signed wide => do
    let (n, s) ← inQuotes (q || wide) (G.readInt (intRange signed wide).1 (intRange signed wide).2) s
    .ok (BitVec.ofInt 64 n, s)
  | .float wide => G.readFloat wide s
  | .bool => inQuotes q readBool s
  | .enum E => readEnum G E s
  | _ => .err .badMessage

/-- A string or bytes value (`dynamic_message/json.hpp` 963-1004). -/
def readText (ty : JType) (s : List Byte) : Res (List Byte × List Byte) :=
  let s := skipWs s
  match ty with
  | .bytes => do
    let (t, s) ← G.readView s
    match base64Decode t with
    | some bs => .ok (bs, s)
    | none => .err .badMessage
  | _ => do
    let (t, s) ← G.readStr s
    if utf8 t then .ok (t, s) else .err .badMessage

/-- The loop of `number_of_elements` (`util.hpp` 357-409) after its `count = 1`; the model's loop needs as
much fuel as there is input. -/
def countLoopJson (stop : Byte) : (fuel : Nat) → Nat → List Byte → Res Nat
  | 0, _, _ => .stuck
  | fuel + 1, n, s =>
    let c := look s
    if c = 0x2c then do
      let s ← step s
      countLoopJson stop fuel (n + 1) s
    else if c = 0x2f then do
      let s ← G.skipComment s
      countLoopJson stop fuel n s
    else if c = 0x7b then do
      let s ← step s
      let s ← G.skipObj s
      countLoopJson stop fuel n s
    else if c = 0x5b then do
      let s ← step s
      let s ← G.skipArr s
      countLoopJson stop fuel n s
    else if c = 0x22 then do
      let s ← G.skipStr s
      countLoopJson stop fuel n s
    else if c = 0 then .err .badMessage
    else if c = stop then .ok n
    else do
      let s ← step s
      countLoopJson stop fuel n s

/-- `number_of_elements` (`util.hpp` 347-411). -/
def countJson (stop : Byte) (s : List Byte) : Res Nat :=
  let s := skipWs s
  if look s = stop then .ok 0 else countLoopJson G stop (s.length + 1) 1 s

/-- The loop of `parse_repeated` (`util.hpp` 496-511): `one` reads an element. -/
def readElems {α : Type} (one : List Byte → Res (α × List Byte)) : (n : Nat) → List Byte → Res (List α × List Byte)
  | 0, s => .ok ([], s)
  | n + 1, s => do
    let (x, s) ← one s
    let s := skipWs s
    let s ← if n = 0 then .ok s else expect 0x2c s
    let (xs, s) ← readElems one n s
    .ok (x :: xs, s)

/-- `parse_repeated` (`util.hpp` 471-514). `match_ending` (212-224) does not report a missing closing
token, and its result is not used. Simplification: the new elements are returned; in the code the field is
resized first and they are read in place. -/
def readList {α : Type} (one : List Byte → Res (α × List Byte)) (opening closing : Byte) (s : List Byte) :
    Res (List α × List Byte) := do
  let s ← expect opening (skipWs s)
  let s := skipWs s
  let n ← countJson G closing s
  let (xs, s) ← readElems one n s
  .ok (xs, if look s = closing then s.tail else s)

/-- The message reader with a number of recursion scopes left. -/
abbrev JReader := (id : Nat) → DynMsg → List Byte → Res (DynMsg × List Byte)

/-- A repeated field (`dynamic_message/json.hpp` 1057-1067, 797-800): the elements are appended. Appending
to a field whose storage is not that of the field is undefined. -/
def readRepeated (r : JReader) (f : JField) (m : DynMsg) (s : List Byte) : Res (DynMsg × List Byte) :=
  match f.ty with
  | .msg id => do
    let (xs, s) ←
      if (T id).entry then readList G (r id (T id).dyn.empty) 0x7b 0x7d s
      else readList G (r id (T id).dyn.empty) 0x5b 0x5d s
    match f.dyn.elements m with
    | .msgs old => .ok (f.dyn.store m (old.length + xs.length, .msgs (old ++ xs)), s)
    | _ => .ub
  | .string | .bytes => do
    let (xs, s) ← readList G (readText utf8 G f.ty) 0x5b 0x5d s
    match f.dyn.elements m with
    | .strs old => .ok (f.dyn.store m (old.length + xs.length, .strs (old ++ xs)), s)
    | _ => .ub
  | _ => do
    let (xs, s) ← readList G (readNum G false f.ty) 0x5b 0x5d s
    match f.dyn.elements m with
    | .nums old => .ok (f.dyn.store m (old.length + xs.length, .nums (old ++ xs.map some)), s)
    | _ => .ub

/-- A singular field: the readers of the typed references (`dynamic_message/json.hpp` 944-1055); glaze
reads optional enums and messages into what they hold, or into a new value. -/
def readSingular (r : JReader) (f : JField) (m : DynMsg) (s : List Byte) : Res (DynMsg × List Byte) :=
  match f.ty with
  | .msg id => do
    let old ← f.dyn.target T.dyn id m
    let (v, s) ← r id old s
    .ok (f.dyn.store m (f.dyn.layout.ordinal, .msg v), s)
  | .string | .bytes => do
    let (t, s) ← readText utf8 G f.ty s
    .ok (f.dyn.setStr t m, s)
  | _ => do
    let (v, s) ← readNum G false f.ty s
    .ok (f.dyn.setNum v m, s)

/-- Is the field of type `google.protobuf.Value`? -/
def JField.isValue (f : JField) : Bool :=
  match f.ty with
  | .msg id => (T id).wk == .value
  | _ => false

/-- `field_mref::set_null` (`field_visit.hpp` 138-146). For a `Value` field the slot is taken for that of a
singular message field (`message_field_mref::emplace`, `message_fields.hpp` 623-632): if the field is
repeated, its ordinal is 0, so that an empty field counts as present; nothing is allocated, and the
message at `content` is cleared, which is a null pointer in a new message. The elements of a field that is
not empty are replaced by one message, while the capacity stays. -/
def setNull (f : JField) (m : DynMsg) : Res DynMsg :=
  match f.ty with
  | .msg id =>
    if (T id).wk = .value then
      if f.dyn.repeated then
        match f.dyn.storage m with
        | (0, .zero) => .ub
        | (0, _) => .ok m
        | (_ + 1, _) => .ok (f.dyn.store m (0, .torn))
      else
        match (T id).fields[0]? with
        | some g => .ok (f.dyn.store m (f.dyn.layout.ordinal, .msg (g.dyn.setNum 0 (T id).dyn.empty)))
        | none => .ub
    else .ok (f.dyn.clear m)
  | _ => .ok (f.dyn.clear m)

/-- `from<JSON, field_mref>` (`dynamic_message/json.hpp` 156-167). -/
def readField (r : JReader) (f : JField) (m : DynMsg) (s : List Byte) : Res (DynMsg × List Byte) := do
  match (← readNull s) with
  | some s => do
    let m ← setNull T f m
    .ok (m, s)
  | none =>
    if f.dyn.repeated then readRepeated T utf8 G r f m s else readSingular T utf8 G r f m s

/-- `parse_ws_colon`. -/
def readColon (s : List Byte) : Res (List Byte) := do
  let s ← expect 0x3a (skipWs s)
  .ok (skipWs s)

/-- The field a key stands for (`dynamic_message/json.hpp` 250-253, `message_fields.hpp` 80-104). -/
def JDesc.fieldOf (D : JDesc) (key : List Byte) : Option JField :=
  match D.fields.find? (fun f => f.jsonName == key) with
  | some f => some f
  | none => D.fields.find? (fun f => f.name == key)

/-- The loop of `scan_object_fields` (`util.hpp` 314-345, 266-294) with the callbacks of
`generic_message_json_serializer::from_json` (`dynamic_message/json.hpp` 244-264). The key is read as a
`std::string_view`: as it stands between the quotes. -/
def readMembers (r : JReader) (D : JDesc) : (fuel : Nat) → (first : Bool) → DynMsg → List Byte →
    Res (DynMsg × List Byte)
  | 0, _, _, _ => .stuck
  | fuel + 1, first, m, s =>
    if look s = 0x7d then .ok (m, s.tail)
    else do
      let s ← if first then .ok s else do
        let s ← expect 0x2c s
        .ok (skipWs s)
      let (key, s) ← G.readView s
      let s ← readColon s
      match D.fieldOf key with
      | none => .err .badMessage
      | some f => do
        let (m, s) ← readField T utf8 G r f m s
        readMembers r D fuel false m (skipWs s)

/-- `generic_message_json_serializer::from_json` (`dynamic_message/json.hpp` 230-266). -/
def readObject (r : JReader) (D : JDesc) (m : DynMsg) (s : List Byte) : Res (DynMsg × List Byte) := do
  let s ← expect 0x7b (skipWs s)
  let s := skipWs s
  readMembers T utf8 G r D (s.length + 1) true m s

/-- `map_entry_message_json_adapter::from_json` and `parse_mapped` (`dynamic_message/json.hpp` 317-355). -/
def readEntry (r : JReader) (D : JDesc) (m : DynMsg) (s : List Byte) : Res (DynMsg × List Byte) :=
  match D.fields with
  | [k, v] => do
    let (m, s) ←
      match k.ty with
      | .string => do
        let (t, s) ← readText utf8 G .string s
        .ok (k.dyn.setStr t m, s)
      | .int _ _ | .bool => do
        let (n, s) ← readNum G true k.ty s
        .ok (k.dyn.setNum n m, s)
      | _ => .err .badMessage
    let s ← readColon s
    match (← readNull s) with
    | some s => do
      let m ← setNull T v m
      if v.isValue T then .ok (m, s) else .err .badMessage
    | none => readSingular T utf8 G r v m s
  | _ => .ub

/-- The two fields of `Timestamp` and `Duration` (`dynamic_message/json.hpp` 555-566, 587-598,
`json.hpp` 141-165). -/
def readTwo (decode : List Byte → Option (Int × Int)) (D : JDesc) (m : DynMsg) (s : List Byte) :
    Res (DynMsg × List Byte) := do
  let (t, s) ← G.readView (skipWs s)
  match decode t, D.fields with
  | some (a, b), [x, y] => .ok (y.dyn.setNum (BitVec.ofInt 64 b) (x.dyn.setNum (BitVec.ofInt 64 a) m), s)
  | _, _ => .err .badMessage

/-- `field_mask_message_json_serializer::from_json` (`dynamic_message/json.hpp` 618-648). -/
def readMask (D : JDesc) (m : DynMsg) (s : List Byte) : Res (DynMsg × List Byte) := do
  let (t, s) ← G.readStr (skipWs s)
  if t = [] then .ok (m, s)
  else match D.fields with
    | [f] => .ok (f.dyn.setStrs (fieldMaskDecode t) m, s)
    | _ => .err .badMessage

/-- `value_message_json_serializer::from_json` (`dynamic_message/json.hpp` 663-698). -/
def readAlternative (r : JReader) (D : JDesc) (m : DynMsg) (s : List Byte) : Res (DynMsg × List Byte) :=
  let s := skipWs s
  let c := look s
  let field (i : Nat) (s : List Byte) : Res (DynMsg × List Byte) :=
    match D.fields[i]? with
    | some f => readField T utf8 G r f m s
    | none => .ub
  if c = 0x6e then do
    let s ← step s
    let s ← expectText b!"ull" s
    match D.fields[0]? with
    | some f => .ok (f.dyn.setNum 0 m, s)
    | none => .ub
  else if c = 0x66 ∨ c = 0x74 then field 3 s
  else if c = 0x22 then field 2 s
  else if c = 0x5b then field 5 s
  else if c = 0x7b then field 4 s
  else field 1 s

/-- `dynamic_protojson_traversal::read_impl` (`dynamic_message/json.hpp` 874-913) after the recursion scope
is granted. -/
def readBody (r : JReader) : JReader := fun id m s =>
  let D := T id
  if D.entry then readEntry T utf8 G r D m s
  else match D.wk with
    | .any => .stuck
    | .timestamp => readTwo G timestampDecode D m s
    | .duration => readTwo G durationDecode D m s
    | .fieldMask => readMask G D m s
    | .value => readAlternative T utf8 G r D m s
    | .struct | .listValue | .wrapper =>
      match D.fields[0]? with
      | some f => readField T utf8 G r f m s
      | none => .ub
    | .none => readObject T utf8 G r D m s

/-- The reader with `d` recursion scopes left (`dynamic_message/json.hpp` 44-57, 877-880). -/
def readLevel : (d : Nat) → JReader
  | 0 => fun _ _ _ => .err .valueTooLarge
  | d + 1 => readBody T utf8 G (readLevel d)

/-- `read_json(msg, text, recursion_limit<limit>)` of a dynamic message (`json.hpp` 463-487, 519-563): the
message is not reset; after it only whitespace may follow. -/
def jsonRead (limit id : Nat) (m : DynMsg) (text : List Byte) : Res DynMsg := do
  let (m, s) ← readLevel T utf8 G (limit + 1) id m text
  if skipWs s = [] then .ok m else .err .badMessage

end

end HppProto.Json
