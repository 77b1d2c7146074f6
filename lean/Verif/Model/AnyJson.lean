import Verif.Model.Json
import Verif.Model.DynamicWrite

/-!
# `google.protobuf.Any` in JSON

Model of the JSON of dynamic messages with `google.protobuf.Any` at every depth: `any_message_json_serializer` and
its uses (`dynamic_message/json.hpp` 66-73, 199-266, 358-536, 807-913, 1069-1220). The other message types are those
of `Verif/Model/Json.lean`: `writeLevel` and `readLevel` there are `stuck` at an `Any`; here `writeBody` and `readBody`
are used with writers and readers that know it.

The payload of an `Any` that is not of a well-known type is written without braces into the object of the `Any`
(`opening_handled`). The option is passed on to what is written inside the payload: `serialize_regular_field` uses
`Opts`, not `field_opts` (`dynamic_message/json.hpp` 181-196), so that messages in the payload have no braces either;
only a map entry removes it (272).

Simplifications: those of `Verif/Model/Json.lean`; further `skip_value` of glaze is modelled by the functions
of `Glaze` and `AnyEnv.skipNum`; the value of a well-known type is read from the input where it starts (the code also
tells the reader where it ends, which matters for texts that are not JSON); the functions for `read_binpb` and
`write_binpb` are those of `Verif/Model/DynamicRead.lean` and `DynamicWrite.lean`.
-/

namespace HppProto.Json
open HppProto

/-- What the functions on `Any` take from their surroundings: `find` is `get_message_descriptor` of the descriptor
pool, `limit` the configured recursion limit, `skipNum` the `skip_number` of glaze. -/
structure AnyEnv where
  find : List Byte → Option Nat
  limit : Nat
  skipNum : List Byte → Res (List Byte)

/-- The part after the last slash. -/
def afterSlash (url : List Byte) : List Byte := (url.reverse.takeWhile (· != 0x2f)).reverse

/-- `message_name_from_type_url` (`dynamic_message/json.hpp` 67-73). -/
def messageName (url : List Byte) : Option (List Byte) :=
  if (0x2f : Byte) ∈ url ∧ afterSlash url ≠ [] then some (afterSlash url) else none

/-- `message_name_from_type_url` and `msg_builder` (`dynamic_message/json.hpp` 393-402, 501-510): the message type. -/
def AnyEnv.typeOf (E : AnyEnv) (url : List Byte) : Option Nat := (messageName url).bind E.find

/-! ## Writing -/

/-- The writers with a number of recursion scopes left: of messages, where `opened` is `opening_handled`, and of the
payload of an `Any` (`write` and `write_any_payload`, `dynamic_message/json.hpp` 807-815). -/
structure AnyWriters where
  msg : (opened : Bool) → JWriter
  payload : JWriter

section
variable (T : JTypes) (utf8 : List Byte → Bool) (G : Glaze) (E : AnyEnv) (o : JOpts)

/-- `generic_message_json_serializer::to_json` with `opening_handled` (`dynamic_message/json.hpp` 199-228): no braces,
and the indentation stays. -/
def writeOpened (w : JWriter) (ind : Nat) (D : JDesc) (m : DynMsg) : Res (List Byte) := do
  let ts ← writeMembers T G o w ind m D.fields
  .ok (List.intercalate (0x2c :: o.line ind) ts)

/-- `read_binpb` of the payload (`dynamic_message/json.hpp` 1072-1074, 1086). -/
def decodePayload (id : Nat) (bytes : List Byte) : Res DynMsg :=
  match dynRead T.dyn utf8 E.limit id [] bytes with
  | .err _ => .err .badMessage
  | r => r

/-- `any_message_json_serializer::to_json_impl` (`dynamic_message/json.hpp` 1128-1179) with `message_to_json`
(1069-1087), between the braces of the `Any`; `ind` is the indentation there. Whether anything was written is only
looked at if the payload is not of a well-known type. -/
def writeAnyBody (l : AnyWriters) (opened : Bool) (ind : Nat) (url bytes : List Byte) : Res (List Byte) :=
  let head := quoted b!"@type" ++ 0x3a :: o.space ++ G.writeStr url
  match E.typeOf url with
  | none => .err .badMessage
  | some id => do
    let p ← decodePayload T utf8 E id bytes
    if (T id).wk ≠ .none then do
      let t ← l.msg opened ind id p
      .ok (head ++ 0x2c :: o.line ind ++ quoted b!"value" ++ 0x3a :: o.space ++ t)
    else do
      let t ← l.payload ind id p
      .ok (if t = [] then head else head ++ 0x2c :: o.line ind ++ t)

/-- The braces of an `Any`. -/
def inBraces (ind : Nat) (t : List Byte) : List Byte := 0x7b :: o.line (o.deeper ind) ++ t ++ o.line ind ++ [0x7d]

/-- `is_empty` (`dynamic_message/json.hpp` 411-413). -/
def noText (f : JField) (bs : List Byte) (m : DynMsg) : Bool := !f.dyn.hasValue m || bs.isEmpty

/-- `any_message_json_serializer::to_json` of a dynamic message (`dynamic_message/json.hpp` 404-426): nothing if there
are not two fields, `{}` if both are empty. -/
def writeAny (l : AnyWriters) (opened : Bool) (ind : Nat) (D : JDesc) (m : DynMsg) : Res (List Byte) :=
  match D.fields with
  | [u, v] =>
    match u.dyn.value m, v.dyn.value m with
    | .str url, .str bytes =>
      if noText u url m && noText v bytes m then .ok (inBraces o ind [])
      else do
        let t ← writeAnyBody T utf8 G E o l opened (o.deeper ind) url bytes
        .ok (inBraces o ind t)
    | _, _ => .ub
  | _ => .ok []

/-- `any_message_json_serializer::to_json` of a generated message (`dynamic_message/json.hpp` 516-523). -/
def writeGenAny (l : AnyWriters) (ind : Nat) (url bytes : List Byte) : Res (List Byte) := do
  let t ← writeAnyBody T utf8 G E o l false (o.deeper ind) url bytes
  .ok (inBraces o ind t)

/-- `dynamic_protojson_traversal::write_impl` (`dynamic_message/json.hpp` 817-862) with `d` recursion scopes left; a
payload is never written as a map entry. -/
def anyWriters : (d : Nat) → AnyWriters
  | 0 => ⟨fun _ _ _ _ => .err .valueTooLarge, fun _ _ _ => .err .valueTooLarge⟩
  | d + 1 =>
    { msg := fun opened ind id m =>
        if (T id).entry then writeEntry T G o ((anyWriters d).msg false) ind (T id) m
        else match (T id).wk with
          | .any => writeAny T utf8 G E o (anyWriters d) opened ind (T id) m
          | .none =>
            if opened then writeOpened T G o ((anyWriters d).msg true) ind (T id) m
            else writeObject T G o ((anyWriters d).msg false) ind (T id) m
          | _ => writeBody T G o ((anyWriters d).msg opened) ind id m
      payload := fun ind id m => writeOpened T G o ((anyWriters d).msg true) ind (T id) m }

/-- `write_json(msg, buffer, recursion_limit<limit>)` of a dynamic message (`json.hpp` 590-599): the text written. -/
def jsonWriteAny (id : Nat) (m : DynMsg) : Res (List Byte) := (anyWriters T utf8 G E o (E.limit + 1)).msg false 0 id m

end

/-! ## Reading -/

section
variable (T : JTypes) (utf8 : List Byte → Bool) (G : Glaze) (E : AnyEnv)

/-- `skip_value` of glaze, the whitespace before the value skipped. -/
def skipValue (s : List Byte) : Res (List Byte) :=
  let c := look s
  if c = 0x7b then do
    let s ← step s
    G.skipObj s
  else if c = 0x5b then do
    let s ← step s
    G.skipArr s
  else if c = 0x22 then G.skipStr s
  else if c = 0x6e then expectText b!"null" s
  else if c = 0x74 then expectText b!"true" s
  else if c = 0x66 then expectText b!"false" s
  else E.skipNum s

/-- The start of a member: the comma before it if it is not the first one (`util.hpp` 266-294). -/
def toKey (first : Bool) (s : List Byte) : Res (List Byte) :=
  if first then .ok s else do
    let s ← expect 0x2c s
    .ok (skipWs s)

/-- A key and what follows the colon. -/
def readKey' (s : List Byte) : Res (List Byte × List Byte) := do
  let (key, s) ← G.readView s
  let s ← readColon s
  .ok (key, s)

/-- The loop of `get_type_url` (`dynamic_message/json.hpp` 447-467) with `handle_any_type_key` (372-383): the last
`@type`, and the place where the payload is to be read (`input_it`, here `pos`). -/
def scanType : (fuel : Nat) → (first typeFirst : Bool) → (url pos : List Byte) → List Byte → Res (List Byte × List Byte)
  | 0, _, _, _, _, _ => .stuck
  | fuel + 1, first, typeFirst, url, pos, s =>
    if look s = 0x7d then .ok (url, pos)
    else do
      let s ← toKey first s
      let pos := if first || typeFirst then s else pos
      let (key, s) ← readKey' G s
      if key = b!"@type" then do
        let (url, s) ← G.readStr s
        let s := skipWs s
        scanType fuel false typeFirst url (if typeFirst then s else pos) s
      else do
        let s ← skipValue G E s
        scanType fuel false false url pos (skipWs s)

/-- `get_type_url` (`dynamic_message/json.hpp` 445-476). -/
def getType (s : List Byte) : Res (List Byte × List Byte) := do
  let t ← expect 0x7b (skipWs s)
  let t := skipWs t
  let (url, pos) ← scanType G E (t.length + 1) true true [] s t
  if url = [] then .err .badMessage else .ok (url, pos)

/-- The loop of `parse_wellknown_any_value` (`dynamic_message/json.hpp` 1089-1113): where the last `value` starts and
what is left after it. -/
def scanValue : (fuel : Nat) → (first : Bool) → Option (List Byte × List Byte) → List Byte →
    Res (Option (List Byte × List Byte) × List Byte)
  | 0, _, _, _ => .stuck
  | fuel + 1, first, val, s =>
    if look s = 0x7d then .ok (val, s.tail)
    else do
      let s ← toKey first s
      let (key, s) ← readKey' G s
      if key = b!"value" then do
        let t ← skipValue G E s
        scanValue fuel false (some (s, t)) (skipWs t)
      else if key = b!"@type" then do
        let t ← skipValue G E s
        scanValue fuel false val (skipWs t)
      else .err .badMessage

/-- `parse_wellknown_any_value` (`dynamic_message/json.hpp` 1089-1126): the value is read if it is not empty; what its
reader leaves is not looked at. -/
def readKnownValue (r : JReader) (id : Nat) (s : List Byte) : Res (DynMsg × List Byte) := do
  let s := skipWs s
  let (val, rest) ← scanValue G E (s.length + 1) true none s
  match val with
  | none => .ok ((T id).dyn.empty, rest)
  | some (a, b) =>
    if a.length = b.length then .ok ((T id).dyn.empty, rest)
    else do
      let (m, _) ← r id (T id).dyn.empty a
      .ok (m, rest)

/-- The loop of `generic_message_json_serializer::from_json` inside the envelope of an `Any`
(`dynamic_message/json.hpp` 230-266): `@type` is skipped. -/
def readOpenedLoop (r : JReader) (D : JDesc) : (fuel : Nat) → (first : Bool) → DynMsg → List Byte → Res (DynMsg × List Byte)
  | 0, _, _, _ => .stuck
  | fuel + 1, first, m, s =>
    if look s = 0x7d then .ok (m, s.tail)
    else do
      let s ← toKey first s
      let (key, s) ← readKey' G s
      if key = b!"@type" then do
        let s ← skipValue G E s
        readOpenedLoop r D fuel false m (skipWs s)
      else match D.fieldOf key with
        | none => .err .badMessage
        | some f => do
          let (m, s) ← readField T utf8 G r f m s
          readOpenedLoop r D fuel false m (skipWs s)

/-- `generic_message_json_serializer::from_json` with `opening_handled`. -/
def readOpened (r : JReader) (D : JDesc) (m : DynMsg) (s : List Byte) : Res (DynMsg × List Byte) :=
  let s := skipWs s
  readOpenedLoop T utf8 G E r D (s.length + 1) true m s

/-- The readers with a number of recursion scopes left: of messages, and of the payload of an `Any` (`read` and
`read_any_payload`, `dynamic_message/json.hpp` 864-872). -/
structure AnyReaders where
  msg : JReader
  payload : JReader

/-- `write_binpb` of the payload into an empty buffer (`dynamic_message/json.hpp` 1204-1207). -/
def encodePayload (id : Nat) (p : DynMsg) : Res (List Byte) := do
  let (st, out) ← dynWrite T.dyn utf8 E.limit true id p []
  if st = none then .ok out else .err .badMessage

/-- `any_message_json_serializer::from_json_impl` (`dynamic_message/json.hpp` 1181-1220): the URL, the bytes and what is
left of the input. -/
def readAnyBody (l : AnyReaders) (s : List Byte) : Res (List Byte × List Byte × List Byte) := do
  let (url, pos) ← getType G E s
  match E.typeOf url with
  | none => .err .badMessage
  | some id => do
    let (p, rest) ←
      if (T id).wk ≠ .none then readKnownValue T G E l.msg id pos
      else l.payload id (T id).dyn.empty pos
    let bytes ← encodePayload T utf8 E id p
    .ok (url, bytes, rest)

/-- `any_message_json_serializer::from_json` of a dynamic message (`dynamic_message/json.hpp` 479-499); `adopt` stores
the strings as `set` does. -/
def readAny (l : AnyReaders) (D : JDesc) (m : DynMsg) (s : List Byte) : Res (DynMsg × List Byte) := do
  let (url, bytes, rest) ← readAnyBody T utf8 G E l s
  match D.fields with
  | [u, v] => .ok (v.dyn.setStr bytes (u.dyn.setStr url m), rest)
  | _ => .err .badMessage

/-- `dynamic_protojson_traversal::read_impl` (`dynamic_message/json.hpp` 874-913) with `d` recursion scopes left. -/
def anyReaders : (d : Nat) → AnyReaders
  | 0 => ⟨fun _ _ _ => .err .valueTooLarge, fun _ _ _ => .err .valueTooLarge⟩
  | d + 1 =>
    { msg := fun id m s =>
        if (T id).entry = false ∧ (T id).wk = .any then readAny T utf8 G E (anyReaders d) (T id) m s
        else readBody T utf8 G (anyReaders d).msg id m s
      payload := fun id m s => readOpened T utf8 G E (anyReaders d).msg (T id) m s }

/-- `read_json(msg, text, recursion_limit<limit>)` of a dynamic message (`json.hpp` 463-487, 519-563). -/
def jsonReadAny (id : Nat) (m : DynMsg) (text : List Byte) : Res DynMsg := do
  let (m, s) ← (anyReaders T utf8 G E (E.limit + 1)).msg id m text
  if skipWs s = [] then .ok m else .err .badMessage

end

/-! ## Conversions -/

/-- `binpb_to_json` (`dynamic_message/json.hpp` 1248-1265): the message is read with the default limit of
`read_binpb` and written with that of `glz::write`; both are taken as `E.limit`. -/
def binpbToJson (T : JTypes) (utf8 : List Byte → Bool) (G : Glaze) (E : AnyEnv) (o : JOpts) (name : List Byte)
    (bytes : List Byte) : Res (List Byte) :=
  match E.find name with
  | none => .err .badMessage
  | some id => do
    let m ← dynRead T.dyn utf8 E.limit id [] bytes
    jsonWriteAny T utf8 G E o id m

/-- `json_to_binpb` (`dynamic_message/json.hpp` 1226-1246). -/
def jsonToBinpb (T : JTypes) (utf8 : List Byte → Bool) (G : Glaze) (E : AnyEnv) (name : List Byte) (text : List Byte) :
    Res (List Byte) :=
  match E.find name with
  | none => .err .badMessage
  | some id => do
    let m ← jsonReadAny T utf8 G E id (T id).dyn.empty text
    encodePayload T utf8 E id m

end HppProto.Json
