import Verif.Model.Json
import Verif.Model.Serialize

/-!
# JSON of generated messages

Model of `write_json` and `read_json` for generated messages: the metadata and the `to` / `from`
specializations that `src/protoc-plugin/hpp_generator.cpp` 1815-2279 emits (`.glz.hpp`), with
`include/hpp_proto/json.hpp`, `include/hpp_proto/json/util.hpp` and
`include/hpp_proto/json/field_wrappers.hpp`. A message type is data here (`GDesc`), a message is a
message of the wire format (`Msg`, `Verif/Model/Schema.lean`), so that JSON and wire format can be
compared.

The lexical layer is that of `Verif/Model/Json.lean`: the functions of glaze are `Glaze`. What glaze does
with the metadata is modelled by its documentation: it writes the members of `object(...)` in order, without those
that are null (`operator bool` false); it reads them by key, in any order, and reports unknown keys; it
reads `null` into a `std::optional` by resetting it, anything else into what it holds or into a new value;
an enum with `enumerate(...)` is written by name, or as a signed number if it has none, and read by name.

Simplifications: owning traits, input of `std::string`, all options default except `prettify` and
`always_print_fields_with_no_presence`; `google.protobuf.Any` is not modelled (`stuck`); all
errors are `badMessage` and what an error leaves in the message is not modelled; spaces inside the quotes
of an integer map key (`util.hpp` 228-233) are not accepted. There is no recursion limit: `d` counts the levels
of nested calls that the stack has room for; beyond, the model is `stuck`.
-/

namespace HppProto.Json

/-- A field or a member of a oneof: its name in the `.proto` file, its JSON name and its type. -/
structure GName where
  name : List Byte
  jsonName : List Byte
  ty : JType
  deriving Repr

/-- A member of a generated class: a field, or a oneof of several fields (`hpp_generator.cpp` 2110-2120;
a oneof of one field is a field, 2198-2200, 2228-2230). `Card` as in the wire format: `optional` is
`is_cpp_optional` (1314-1328), `always` is `required`. -/
inductive GSlot where
  | field (f : GName) (card : Card)
  | oneof (alts : List GName)
  deriving Repr

/-- A generated class. The entry of a map is a type with the fields key and value. -/
structure GDesc where
  slots : List GSlot
  wk : WellKnown
  deriving Repr

/-- All generated classes, by number. -/
abbrev GTypes := Nat → GDesc

/-- Initial contents of a member. -/
def GSlot.initial : GSlot → List (Nat × Val)
  | .field _ (.implicit d) => [(0, d)]
  | .field _ (.always d) => [(0, d)]
  | _ => []

/-- A default-constructed message (`json.hpp` 471-473). -/
def GDesc.default (D : GDesc) : Msg := ⟨D.slots.map GSlot.initial, []⟩

/-- The type as the comparison with the default value sees it (`field_types.hpp` 564-581). -/
def JType.kind : JType → Kind
  | .int _ _ => .scalar (.varint .i64)
  | .float false => .scalar (.fixed32 true)
  | .float true => .scalar (.fixed64 true)
  | .bool => .scalar .bool
  | .enum _ => .scalar (.enum none)
  | .string => .scalar (.str true)
  | .bytes => .scalar (.str false)
  | .msg id => .msg id

/-- Options of the writer; `jopts.preserve` is the plugin option `preserve_proto_field_names`, the others are
members of `json_write_opts` (`json.hpp` 393-401). -/
structure GOpts where
  jopts : JOpts
  always : Bool

/-! ## Writing -/

/-- An enum: `glz::meta` with `enumerate` (`hpp_generator.cpp` 2233-2255), and `NullValue` (2256-2266). The
names are sorted by number; which of several names of a number glaze writes is taken to be the first. -/
def genEnumText (E : EnumInfo) (v : BitVec 64) : List Byte :=
  if E.isNull then b!"null"
  else
    let n := v.setWidth 32
    if E.nameOf n = [] then intText n.toInt else quoted (E.nameOf n)

/-- A number, bool or enum. `q` is `quoted_num`: it is set for 64-bit integers by `optional`
(`json.hpp` 192-204), `optional_ref` (243-254, `field_wrappers.hpp` 81-86), the metadata of required fields
(`hpp_generator.cpp` 2160-2162) and the wrapper types (1881-1885), but not by `oneof_wrapper` (`json.hpp` 274-281). -/
def genNumText (G : Glaze) (q : Bool) (ty : JType) (v : BitVec 64) : List Byte :=
  match ty with
  | .int signed wide => if q && wide then quoted (intText (intOf signed v)) else intText (intOf signed v)
  | .float wide => G.writeFloat wide v
  | .bool => if v = 0 then b!"false" else b!"true"
  | .enum E => genEnumText E v
  | _ => []

/-- The message writer with a number of levels left. -/
abbrev GWriter := (ind : Nat) → (id : Nat) → Msg → Res (List Byte)

/-- A range of glaze: elements between `opening` and `closing`, separated by commas. -/
def genList (o : JOpts) (ind : Nat) (opening closing : Byte) (ts : List (List Byte)) : List Byte :=
  let sep := 0x2c :: o.line (o.deeper ind)
  opening :: o.line (o.deeper ind) ++ List.intercalate sep ts ++ o.line ind ++ [closing]

section
variable (T : GTypes) (G : Glaze) (o : GOpts)

/-- One value. -/
def genVal (w : GWriter) (ind : Nat) (q : Bool) (ty : JType) (v : Val) : Res (List Byte) :=
  match ty with
  | .msg id =>
    match v with
    | .msg s => w ind id s
    | _ => .ub
  | .string | .bytes =>
    match v with
    | .bytes bs => .ok (strText G ty bs)
    | _ => .ub
  | _ =>
    match v with
    | .num x => .ok (genNumText G q ty x)
    | _ => .ub

/-- The key of a map: glaze writes numbers and bools in quotes. -/
def genKey (ty : JType) (v : Val) : Res (List Byte) :=
  match ty, v with
  | .string, .bytes bs => .ok (G.writeStr bs)
  | .int signed _, .num x => .ok (quoted (intText (intOf signed x)))
  | .bool, .num x => .ok (quoted (if x = 0 then b!"false" else b!"true"))
  | _, _ => .ub

/-- An entry of a map. -/
def genEntry (w : GWriter) (ind : Nat) (D : GDesc) (v : Val) : Res (List Byte) :=
  match D.slots, v with
  | [.field k _, .field x _], .msg ⟨[[(_, kv)], [(_, xv)]], _⟩ => do
    let kt ← genKey G k.ty kv
    let xt ← genVal G w ind true x.ty xv
    .ok (kt ++ 0x3a :: o.jopts.space ++ xt)
  | _, _ => .ub

/-- The contents of a field (`json.hpp` 192-254): a range, a map or a value. -/
def genField (w : GWriter) (ind : Nat) (f : GName) (card : Card) (es : List (Nat × Val)) : Res (List Byte) :=
  match card with
  | .repeated _ => do
    let ts ← mapRes (fun e => genVal G w (o.jopts.deeper ind) true f.ty e.2) es
    .ok (genList o.jopts ind 0x5b 0x5d ts)
  | .map _ =>
    match f.ty with
    | .msg id => do
      let ts ← mapRes (fun e => genEntry G o w (o.jopts.deeper ind) (T id) e.2) es
      .ok (genList o.jopts ind 0x7b 0x7d ts)
    | _ => .ub
  | _ =>
    match es with
    | [(_, v)] => genVal G w ind true f.ty v
    | _ => .ub

/-- Is the field written? `optional_ref::operator bool` (`field_wrappers.hpp` 102-112) for members without
presence; `std::optional` and `hpp_proto::optional` if they hold a value; required fields always. -/
def genShown (f : GName) (card : Card) (es : List (Nat × Val)) : Bool :=
  match card with
  | .implicit d => o.always || es.any (fun e => !isDefault f.ty.kind d e.2)
  | .always _ => true
  | .optional => !es.isEmpty
  | .repeated _ | .map _ => o.always || !es.isEmpty

/-- The key that is written (`hpp_generator.cpp` 2185-2195, 2216-2226). -/
def GName.key (f : GName) : List Byte := if o.jopts.preserve then f.name else f.jsonName

/-- A member of the object. -/
def genMember (f : GName) (t : List Byte) : List Byte := G.writeStr (f.key o) ++ 0x3a :: o.jopts.space ++ t

/-- What a member of the class contributes: nothing, or a member of the object (`hpp_generator.cpp`
2146-2231, `oneof_wrapper::operator bool` `field_wrappers.hpp` 51, aliases never, 192). -/
def genSlot (w : GWriter) (ind : Nat) (sl : GSlot) (es : List (Nat × Val)) : Res (List (List Byte)) :=
  match sl with
  | .field f card =>
    if genShown o f card es then do
      let t ← genField T G o w ind f card es
      .ok [genMember G o f t]
    else .ok []
  | .oneof alts =>
    match es with
    | [] => .ok []
    | (a, v) :: _ =>
      match alts[a]? with
      | some f => do
        let t ← genVal G w ind false f.ty v
        .ok [genMember G o f t]
      | none => .ub

/-- The members of the object, in the order of the metadata (`hpp_generator.cpp` 2103-2126). -/
def genMembers (w : GWriter) (ind : Nat) : List GSlot → List (List (Nat × Val)) → Res (List (List Byte))
  | [], _ => .ok []
  | _ :: _, [] => .ub
  | sl :: sls, es :: ess => do
    let t ← genSlot T G o w ind sl es
    let ts ← genMembers w ind sls ess
    .ok (t ++ ts)

/-- `timestamp_codec` and `duration_codec` (`json.hpp` 87-115). -/
def genTwo (encode : Int → Int → Option (List Byte)) (m : Msg) : Res (List Byte) :=
  match m.slots with
  | [[(_, .num x)], [(_, .num y)]] =>
    match encode x.toInt y.toInt with
    | some t => .ok (quoted t)
    | none => .err .badMessage
  | _ => .ub

/-- `field_mask_codec` (`json.hpp` 87-115). -/
def genMask (m : Msg) : Res (List Byte) :=
  match m.slots with
  | [es] => .ok (quoted (fieldMaskEncode (es.map fun e => e.2.str)))
  | _ => .ub

/-- The only field of a message: `fields` of `Struct`, `values` of `ListValue` (`hpp_generator.cpp`
1952-1959, 2084-2091). -/
def genSole (w : GWriter) (ind : Nat) (id : Nat) (m : Msg) : Res (List Byte) :=
  match (T id).slots, m.slots with
  | [.field f card], [es] => genField T G o w ind f card es
  | _, _ => .ub

/-- `to<JSON, Value>` (`hpp_generator.cpp` 1945-1966): nothing if it is not set. -/
def genValue (w : GWriter) (ind : Nat) (D : GDesc) (m : Msg) : Res (List Byte) :=
  match D.slots, m.slots with
  | [.oneof alts], [es] =>
    match es with
    | [] => .ok []
    | (a, v) :: _ =>
      match alts[a]? with
      | some f =>
        match f.ty with
        | .msg id =>
          match v with
          | .msg s => genSole T G o w ind id s
          | _ => .ub
        | _ => genVal G w ind false f.ty v
      | none => .ub
  | _, _ => .ub

/-- Does the entry hold a `Value` that is set? (`hpp_generator.cpp` 2052) -/
def setEntry (v : Val) : Bool :=
  match v with
  | .msg ⟨[_, [(_, .msg ⟨[es], _⟩)]], _⟩ => !es.isEmpty
  | _ => true

/-- `to<JSON, Struct>` (`hpp_generator.cpp` 2042-2069): entries whose value is not set are left out. -/
def genStruct (w : GWriter) (ind : Nat) (D : GDesc) (m : Msg) : Res (List Byte) :=
  match D.slots, m.slots with
  | [.field f card], [es] => genField T G o w ind f card (es.filter fun e => setEntry e.2)
  | _, _ => .ub

/-- The wrapper types (`hpp_generator.cpp` 1881-1908). -/
def genWrapper (w : GWriter) (ind : Nat) (D : GDesc) (m : Msg) : Res (List Byte) :=
  match D.slots, m.slots with
  | [.field f _], [[(_, v)]] => genVal G w ind true f.ty v
  | _, _ => .ub

/-- A message (`hpp_generator.cpp` 1873-2137). -/
def genBody (w : GWriter) : GWriter := fun ind id m =>
  match (T id).wk with
  | .any => .stuck
  | .timestamp => genTwo timestampEncode m
  | .duration => genTwo durationEncode m
  | .fieldMask => genMask m
  | .value => genValue T G o w ind (T id) m
  | .struct => genStruct T G o w ind (T id) m
  | .listValue => genSole T G o w ind id m
  | .wrapper => genWrapper G w ind (T id) m
  | .none => do
    let ts ← genMembers T G o w (o.jopts.deeper ind) (T id).slots m.slots
    .ok (genList o.jopts ind 0x7b 0x7d ts)

/-- The writer with `d` levels left. -/
def genLevel : (d : Nat) → GWriter
  | 0 => fun _ _ _ => .stuck
  | d + 1 => genBody T G o (genLevel d)

/-- `write_json(msg, buffer)` (`json.hpp` 590-599): the text written. -/
def genWrite (d id : Nat) (m : Msg) : Res (List Byte) := genLevel T G o d 0 id m

end

/-! ## Reading -/

/-- The message reader with a number of levels left: reads into the given message. -/
abbrev GReader := (id : Nat) → Msg → List Byte → Res (Msg × List Byte)

section
variable (T : GTypes) (utf8 : List Byte → Bool) (G : Glaze)

/-- A value read into a new element: `util::from_json` (`util.hpp` 413-469). -/
def genReadVal (r : GReader) (ty : JType) (s : List Byte) : Res (Val × List Byte) :=
  match ty with
  | .msg id => do
    let (m, s) ← r id (T id).default s
    .ok (.msg m, s)
  | .string | .bytes => do
    let (t, s) ← readText utf8 G ty s
    .ok (.bytes t, s)
  | _ => do
    let (v, s) ← readNum G false ty s
    .ok (.num v, s)

/-- A required field: read by glaze as what it is, not by `util::from_json` (`hpp_generator.cpp` 2158-2165):
strings are not checked to be UTF-8, enums must be names, messages are read into what is there. -/
def genReadPlain (r : GReader) (ty : JType) (old : List (Nat × Val)) (s : List Byte) : Res (Val × List Byte) :=
  match ty with
  | .msg id =>
    match old with
    | [(_, .msg m)] => do
      let (m, s) ← r id m s
      .ok (.msg m, s)
    | _ => .ub
  | .string => do
    let (t, s) ← G.readStr (skipWs s)
    .ok (.bytes t, s)
  | .enum E =>
    if look (skipWs s) = 0x22 then do
      let (v, s) ← readEnum G E (skipWs s)
      .ok (.num v, s)
    else .err .badMessage
  | _ => genReadVal T utf8 G r ty s

/-- The key of a map (`parse_key_and_colon`, `util.hpp` 226-250, and 460, 523). -/
def genReadKey (ty : JType) (s : List Byte) : Res (Val × List Byte) :=
  match ty with
  | .string => do
    let (t, s) ← readText utf8 G .string s
    .ok (.bytes t, s)
  | .int _ _ | .bool => do
    let (n, s) ← readNum G true ty s
    .ok (.num n, s)
  | _ => .ub

/-- An entry of a map: `util::from_json` of a pair (`util.hpp` 458-464), and the body of the loop
523-537. -/
def genReadEntry (r : GReader) (D : GDesc) (s : List Byte) : Res (Val × List Byte) :=
  match D.slots with
  | [.field k _, .field x _] => do
    let (kv, s) ← genReadKey utf8 G k.ty s
    let s ← readColon s
    let (xv, s) ← genReadVal T utf8 G r x.ty s
    .ok (.msg ⟨[[(0, kv)], [(0, xv)]], []⟩, s)
  | _ => .ub

/-- The loop of `scan_object_fields` (`util.hpp` 314-345) with the callbacks of `parse_repeated` of an
associative container (516-542): a key that is there is read anew. The model's loop needs as much fuel as there is
input. -/
def genReadMap (r : GReader) (D : GDesc) : (fuel : Nat) → (first : Bool) → List (Nat × Val) → List Byte →
    Res (List (Nat × Val) × List Byte)
  | 0, _, _, _ => .stuck
  | fuel + 1, first, es, s =>
    if look s = 0x7d then .ok (es, s.tail)
    else do
      let s ← if first then .ok s else do
        let s ← expect 0x2c s
        .ok (skipWs s)
      let (e, s) ← genReadEntry T utf8 G r D s
      genReadMap r D fuel false (insertOrAssign e es) (skipWs s)

/-- A repeated field or a map: `parse_repeated` (`util.hpp` 471-542) into what is there. -/
def genReadList (r : GReader) (f : GName) (card : Card) (es : List (Nat × Val)) (s : List Byte) :
    Res (List (Nat × Val) × List Byte) :=
  match card with
  | .map unique =>
    match f.ty with
    | .msg id =>
      if unique then do
        let s ← expect 0x7b (skipWs s)
        let s := skipWs s
        genReadMap T utf8 G r (T id) (s.length + 1) true es s
      else do
        let (xs, s) ← readList G (genReadEntry T utf8 G r (T id)) 0x7b 0x7d s
        .ok (es ++ xs.map (fun x => (0, x)), s)
    | _ => .ub
  | _ => do
    let (xs, s) ← readList G (genReadVal T utf8 G r f.ty) 0x5b 0x5d s
    .ok (es ++ xs.map (fun x => (0, x)), s)

/-- An optional field that is not `null`: `optional` (`json.hpp` 227-241) reads a new value; glaze reads a message into
what is there, or into a new message. -/
def genReadOptional (r : GReader) (ty : JType) (es : List (Nat × Val)) (s : List Byte) : Res (Val × List Byte) :=
  match ty, es with
  | .msg id, (_, .msg m) :: _ => do
    let (m, s) ← r id m s
    .ok (.msg m, s)
  | _, _ => genReadVal T utf8 G r ty s

/-- A field (`json.hpp` 227-272, `parse_null` `util.hpp` 75-104, `optional_ref::reset`
`field_wrappers.hpp` 116-126). -/
def genReadField (r : GReader) (f : GName) (card : Card) (es : List (Nat × Val)) (s : List Byte) :
    Res (List (Nat × Val) × List Byte) :=
  match card with
  | .always _ => do
    let (v, s) ← genReadPlain T utf8 G r f.ty es s
    .ok ([(0, v)], s)
  | _ => do
    match (← readNull s) with
    | some s => .ok (GSlot.initial (.field f card), s)
    | none =>
      match card with
      | .repeated _ | .map _ => genReadList T utf8 G r f card es s
      | .optional => do
        let (v, s) ← genReadOptional T utf8 G r f.ty es s
        .ok ([(0, v)], s)
      | _ => do
        let (v, s) ← genReadVal T utf8 G r f.ty s
        .ok ([(0, v)], s)

/-- A member of the class, read through alternative `a` (`json.hpp` 283-297 for a oneof: `null` resets the
oneof, whatever it holds). -/
def genReadSlot (r : GReader) (sl : GSlot) (a : Nat) (es : List (Nat × Val)) (s : List Byte) :
    Res (List (Nat × Val) × List Byte) :=
  match sl with
  | .field f card => genReadField T utf8 G r f card es s
  | .oneof alts => do
    match (← readNull s) with
    | some s => .ok ([], s)
    | none =>
      match alts[a]? with
      | some f => do
        let (v, s) ← genReadVal T utf8 G r f.ty s
        .ok ([(a, v)], s)
      | none => .ub

/-- Is the name one of the keys of the field? (`hpp_generator.cpp` 2182-2195) -/
def GName.named (key : List Byte) (f : GName) : Bool := f.jsonName == key || f.name == key

/-- The alternative of a member of the class that a key stands for. -/
def GSlot.find (key : List Byte) : GSlot → Option Nat
  | .field f _ => if f.named key then some 0 else none
  | .oneof alts => alts.findIdx? (GName.named key)

/-- The member of the class and its alternative that a key stands for; `i` is the number of the first. -/
def findKey (key : List Byte) : (i : Nat) → List GSlot → Option (Nat × Nat × GSlot)
  | _, [] => none
  | i, sl :: sls =>
    match sl.find key with
    | some a => some (i, a, sl)
    | none => findKey key (i + 1) sls

/-- The members of an object (glaze). -/
def genReadMembers (r : GReader) (D : GDesc) : (fuel : Nat) → (first : Bool) → Msg → List Byte →
    Res (Msg × List Byte)
  | 0, _, _, _ => .stuck
  | fuel + 1, first, m, s =>
    if look s = 0x7d then .ok (m, s.tail)
    else do
      let s ← if first then .ok s else do
        let s ← expect 0x2c s
        .ok (skipWs s)
      let (key, s) ← G.readView s
      let s ← readColon s
      match findKey key 0 D.slots with
      | none => .err .badMessage
      | some (i, a, sl) => do
        let (es, s) ← genReadSlot T utf8 G r sl a (m.get i) s
        genReadMembers r D fuel false (m.put i es) (skipWs s)

/-- `timestamp_codec` and `duration_codec` (`json.hpp` 141-165). -/
def genReadTwo (decode : List Byte → Option (Int × Int)) (m : Msg) (s : List Byte) : Res (Msg × List Byte) := do
  let (t, s) ← G.readView (skipWs s)
  match decode t with
  | some (a, b) => .ok ((m.put 0 [(0, .num (BitVec.ofInt 64 a))]).put 1 [(0, .num (BitVec.ofInt 64 b))], s)
  | none => .err .badMessage

/-- `field_mask_codec` (`json.hpp` 141-165). -/
def genReadMask (m : Msg) (s : List Byte) : Res (Msg × List Byte) := do
  let (t, s) ← G.readStr (skipWs s)
  .ok (m.put 0 ((fieldMaskDecode t).map fun p => (0, .bytes p)), s)

/-- The only field of a message: `from<JSON, Struct>`, `from<JSON, ListValue>` (`hpp_generator.cpp`
2071-2078, 2093-2100). -/
def genReadSole (r : GReader) (id : Nat) (m : Msg) (s : List Byte) : Res (Msg × List Byte) :=
  match (T id).slots with
  | [.field f card] => do
    let (es, s) ← genReadList T utf8 G r f card (m.get 0) s
    .ok (m.put 0 es, s)
  | _ => .ub

/-- An alternative of a `Value`, in a new value of that type (`hpp_generator.cpp` 1985-2003). -/
def genReadAlt (r : GReader) (ty : JType) (s : List Byte) : Res (Val × List Byte) :=
  match ty with
  | .msg id => do
    let (m, s) ← genReadSole T utf8 G r id (T id).default s
    .ok (.msg m, s)
  | _ => genReadVal T utf8 G r ty s

/-- The alternative of a `Value` for the first character of the text (`hpp_generator.cpp` 1978-2006): null,
number, string, bool, struct or list. -/
def valueAlt (c : Byte) : Option Nat :=
  if c = 0x6e then some 0
  else if isDigit c || c == 0x2d then some 1
  else if c = 0x22 then some 2
  else if c = 0x74 ∨ c = 0x66 then some 3
  else if c = 0x7b then some 4
  else if c = 0x5b then some 5
  else none

/-- `from<JSON, Value>` (`hpp_generator.cpp` 1967-2008). -/
def genReadValue (r : GReader) (D : GDesc) (m : Msg) (s : List Byte) : Res (Msg × List Byte) :=
  let s := skipWs s
  match valueAlt (look s) with
  | some 0 => do
    let s ← expectText b!"null" s
    .ok (m.put 0 [(0, .num 0)], s)
  | some a =>
    match D.slots with
    | [.oneof alts] =>
      match alts[a]? with
      | some f => do
        let (v, s) ← genReadAlt T utf8 G r f.ty s
        .ok (m.put 0 [(a, v)], s)
      | none => .ub
    | _ => .ub
  | none => .err .badMessage

/-- The wrapper types (`hpp_generator.cpp` 1887-1915). -/
def genReadWrapper (r : GReader) (D : GDesc) (m : Msg) (s : List Byte) : Res (Msg × List Byte) :=
  match D.slots with
  | [.field f _] => do
    let (v, s) ← genReadVal T utf8 G r f.ty s
    .ok (m.put 0 [(0, v)], s)
  | _ => .ub

/-- A message (`hpp_generator.cpp` 1873-2137). -/
def genReadBody (r : GReader) : GReader := fun id m s =>
  match (T id).wk with
  | .any => .stuck
  | .timestamp => genReadTwo G timestampDecode m s
  | .duration => genReadTwo G durationDecode m s
  | .fieldMask => genReadMask G m s
  | .value => genReadValue T utf8 G r (T id) m s
  | .struct | .listValue => genReadSole T utf8 G r id m s
  | .wrapper => genReadWrapper T utf8 G r (T id) m s
  | .none => do
    let s ← expect 0x7b (skipWs s)
    let s := skipWs s
    genReadMembers T utf8 G r (T id) (s.length + 1) true m s

/-- The reader with `d` levels left. -/
def genReadLevel : (d : Nat) → GReader
  | 0 => fun _ _ _ => .stuck
  | d + 1 => genReadBody T utf8 G (genReadLevel d)

/-- `read_json(msg, text)` (`json.hpp` 463-487, 519-563): what `msg` held before is dropped (471-473); after
the value only whitespace may follow. -/
def genRead (d id : Nat) (_old : Msg) (text : List Byte) : Res Msg := do
  let (m, s) ← genReadLevel T utf8 G d id (T id).default text
  if skipWs s = [] then .ok m else .err .badMessage

end

end HppProto.Json
