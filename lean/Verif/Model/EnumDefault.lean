import Verif.Model.Names
import Verif.Model.Outcome
/-!
# Default values of enum fields in generated headers

The default value of an enum field is written as the name of an enumerator (`src/protoc-plugin/hpp_generator.cpp` 368-372,
830-844), the enum as a list of named numbers (1382-1394). Simplifications: the qualification of the name by the enum is left out;
of C++ it is modelled what a name in a scoped enum means.
-/
namespace HppProto.Names
open HppProto Lex

/-- `EnumValueDescriptorProto`. -/
structure EnumValue where
  name : Name
  number : Int
  deriving DecidableEq, Repr

/-- The enumerators of `enum class` (`hpp_generator.cpp` 1386-1391). -/
def enumerators (vs : List EnumValue) : List (Name × Int) := vs.map fun e => (cppName e.name, e.number)

/-- What `E::n` means in C++: an enum with two enumerators of one name does not compile, nor does a name that no enumerator has
(the enumerators are those of `hpp_generator.cpp` 1386-1391). -/
def meaning (es : List (Name × Int)) (n : Name) : Option Int :=
  if (es.map Prod.fst).Nodup then (es.find? (·.1 == n)).map Prod.snd else none

/-- `resolve_enum_field` with `set_enum_default_value` (`hpp_generator.cpp` 368-372, 836-842): the name of the default value, if one
is written. `optional` is `LABEL_OPTIONAL`; `value[0]` of an enum without values is undefined. -/
def defaultEnumerator (vs : List EnumValue) (dflt : Name) (optional : Bool) : Res (Option Name) :=
  if dflt ≠ [] then .ok (some (cppName dflt))
  else if optional then
    match vs with
    | [] => .ub
    | v :: _ => .ok (some (cppName v.name))
  else .ok none

/-- The number that a plain member starts with (`hpp_generator.cpp` 1331-1340): the default value that is written, or `{}`, which
is 0; `none` if the header does not compile. -/
def initialNumber (vs : List EnumValue) (dflt : Name) (optional : Bool) : Res (Option Int) :=
  match defaultEnumerator vs dflt optional with
  | .ok (some x) => .ok (meaning (enumerators vs) x)
  | .ok none => .ok (some 0)
  | .err e => .err e
  | .ub => .ub
  | .throw => .throw
  | .stuck => .stuck

end HppProto.Names
