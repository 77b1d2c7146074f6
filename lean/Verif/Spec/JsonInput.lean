import Verif.Model.JsonInput

/-!
# The text of a string

Specification: the text that a C or C++ string holds. In an array or behind a pointer it ends before the first zero.
-/

namespace HppProto.Json

/-- The input holds the text `t`. -/
def JsonInput.Carries : JsonInput → List Byte → Prop
  | .array cs, t => (0 : Byte) ∉ t ∧ ∃ rest, cs = t ++ 0 :: rest
  | .pointer mem, t => (0 : Byte) ∉ t ∧ ∃ rest, mem = some (t ++ 0 :: rest)
  | .string cs, t => cs = t
  | .range cs, t => cs = t

/-- The input is no array, or the text fills it up to the zero at its end, as in a literal. -/
def JsonInput.Snug : JsonInput → List Byte → Prop
  | .array cs, t => cs.length = t.length + 1
  | _, _ => True

/-- The input is a pointer to something that is not a C string. -/
def JsonInput.Unterminated : JsonInput → Prop
  | .pointer (some mem) => (0 : Byte) ∉ mem
  | _ => False

end HppProto.Json
