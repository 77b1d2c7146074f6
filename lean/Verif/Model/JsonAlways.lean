import Verif.Model.Json

/-!
# `write_json` of dynamic messages with `always_print_fields_with_no_presence`

Model of what the option changes in `include/hpp_proto/dynamic_message/json.hpp`: fields without presence that are not set are
written too. Fields of map entries have presence (`descriptor_pool.hpp` 1226-1228), as have the members of
`google.protobuf.Value`; messages of the other well-known types are not written field by field. So all of these are written as
without the option (`Verif/Model/Json.lean`).
-/

namespace HppProto.Json

section
variable (T : JTypes) (G : Glaze) (o : JOpts)

/-- `generic_message_json_serializer::should_serialize_field` with the option (`dynamic_message/json.hpp` 170-179); the same
test is in `to<JSON, field_cref>` (147) and in `to<JSON, scalar_field_cref>` (705-706). -/
def JField.printed (f : JField) (m : DynMsg) : Bool := f.dyn.hasValue m || !f.dyn.explicit

/-- A field that is written (`dynamic_message/json.hpp` 701-747): a number or bool writes its `value()`, a repeated field
its elements. The references to single strings, bytes, enums and messages have no `to<JSON, …>`: they convert to `bool`, so glaze takes
them as nullable and writes `null` if they are not set. This reading of glaze, which is not part of the repository, is assumed. -/
def writeFieldAll (w : JWriter) (ind : Nat) (f : JField) (m : DynMsg) : Res (List Byte) :=
  if f.dyn.hasValue m || f.dyn.repeated then writeField T G o w ind false f m
  else match f.ty with
    | .string | .bytes | .enum _ | .msg _ => .ok b!"null"
    | _ => writeField T G o w ind false f m

/-- The members of an object (`dynamic_message/json.hpp` 181-223). -/
def writeMembersAll (w : JWriter) (ind : Nat) (m : DynMsg) : List JField → Res (List (List Byte))
  | [] => .ok []
  | f :: fs =>
    if f.printed m then do
      let t ← writeFieldAll T G o w ind f m
      let ts ← writeMembersAll w ind m fs
      .ok ((G.writeStr (f.key o) ++ 0x3a :: o.space ++ t) :: ts)
    else writeMembersAll w ind m fs

/-- `generic_message_json_serializer::to_json` (`dynamic_message/json.hpp` 199-228). -/
def writeObjectAll (w : JWriter) (ind : Nat) (D : JDesc) (m : DynMsg) : Res (List Byte) := do
  let ts ← writeMembersAll T G o w (o.deeper ind) m D.fields
  let sep := 0x2c :: o.line (o.deeper ind)
  .ok (0x7b :: o.line (o.deeper ind) ++ List.intercalate sep ts ++ o.line ind ++ [0x7d])

/-- `dynamic_protojson_traversal::write_impl` (`dynamic_message/json.hpp` 817-862). -/
def writeBodyAll (w : JWriter) : JWriter := fun ind id m =>
  let D := T id
  if D.entry then writeBody T G o w ind id m
  else match D.wk with
    | .wrapper =>
      match D.fields[0]? with
      | some f => if f.printed m then writeFieldAll T G o w ind f m else .ok []
      | none => .ub
    | .none => writeObjectAll T G o w ind D m
    | _ => writeBody T G o w ind id m

/-- The writer with `d` recursion scopes left (`dynamic_message/json.hpp` 44-57, 820-823). -/
def writeLevelAll : (d : Nat) → JWriter
  | 0 => fun _ _ _ => .err .valueTooLarge
  | d + 1 => writeBodyAll T G o (writeLevelAll d)

/-- `write_json<json_write_opts{.always_print_fields_with_no_presence = true}>(msg, buffer, recursion_limit<limit>)` of a dynamic message
(`json.hpp` 590-599): the text written. -/
def jsonWriteAll (limit id : Nat) (m : DynMsg) : Res (List Byte) := writeLevelAll T G o (limit + 1) 0 id m

end

end HppProto.Json
