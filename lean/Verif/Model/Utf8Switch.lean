import Verif.Model.Flat
import Verif.Model.Serialize
/-!
# Switching the check of UTF-8 off

`utf8_validation_failed` (binpb/utf8.hpp 34-47, and dynamic_message/pb_serializer_ext.hpp
531-541 for dynamic messages) is the only place where the library asks the validator. The macro
`HPP_PROTO_NO_UTF8_VALIDATION` removes the question from the program, and in constant evaluation
it is not asked either, since the validator is not `constexpr`. Elsewhere in the model the
validator is the member `utf8` of `Cfg`, which says what is let through.
-/
namespace HppProto.Utf8Switch
open HppProto

/-- How a call is compiled: with `HPP_PROTO_NO_UTF8_VALIDATION` (utf8.hpp 35,
pb_serializer_ext.hpp 532), and whether it is evaluated by the compiler (utf8.hpp 40). -/
structure Build where
  noValidation : Bool
  constantEvaluated : Bool

/-- `utf8_validation_failed`: utf8.hpp 34-47. `required` is
`meta.requires_utf8_validation()`, `isUtf8` the external validator. -/
def validationFailed (b : Build) (isUtf8 : List Byte → Bool) (required : Bool) (str : List Byte) : Bool :=
  if b.noValidation then false
  else if required then
    if !b.constantEvaluated then !isUtf8 str else false
  else false

/-- The library as compiled: what is let through is what `utf8_validation_failed` does not
object to (utf8.hpp 34-47, used by deserialize.hpp 881-894 and serialize.hpp 737). `C.utf8` is
the external validator. -/
def compiled (b : Build) (C : Cfg) : Cfg :=
  { C with utf8 := fun str => !validationFailed b C.utf8 true str }

/-- `utf8_validation_failed` for dynamic messages, which are never evaluated by the compiler:
pb_serializer_ext.hpp 531-541. `required` is `requires_utf8_validation()` of the field. -/
def dynValidationFailed (noValidation : Bool) (isUtf8 : List Byte → Bool) (required : Bool) (str : List Byte) : Bool :=
  if noValidation then false
  else if required then !isUtf8 str
  else false

/-- What is let through in dynamic messages (pb_serializer_ext.hpp 531-541), as the parameter
`utf8` of `dynRead`. -/
def dynCompiled (noValidation : Bool) (isUtf8 : List Byte → Bool) : List Byte → Bool :=
  fun str => !dynValidationFailed noValidation isUtf8 true str

end HppProto.Utf8Switch
