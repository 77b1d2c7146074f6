import Verif.Model.GenJson

/-!
# The strings `read_json` takes

Model of the overloads of `read_json` (`include/hpp_proto/json.hpp` 497-563): which characters are read, for each kind of
string. Types that are neither arrays, pointers, ranges nor have `c_str()`, but convert to a pointer, are left out, as is the difference
between `char` and `char8_t`.
-/

namespace HppProto.Json

/-- What is given to `read_json` as text. -/
inductive JsonInput where
  /-- A character array, with all of its elements: a literal, or a buffer. -/
  | array (chars : List Byte)
  /-- A pointer: null, or to memory of which these bytes may be read. -/
  | pointer (memory : Option (List Byte))
  /-- A class with `c_str()`, as `std::string`. -/
  | string (chars : List Byte)
  /-- Any other contiguous range of characters, as `std::string_view`. -/
  | range (chars : List Byte)
  deriving Repr

/-- The view that is passed to `read_json_buffer`; an error if there is none. An array must end with a zero, which is left out
(531-546); a pointer must not be null (550-556), and reading it up to the first zero is undefined if there is none; strings
(547-549) and ranges (509-511) are read as a whole. -/
def JsonInput.view : JsonInput → Res (List Byte)
  | .array cs =>
    if cs = [] then .ok []
    else if cs.getLast? = some 0 then .ok cs.dropLast
    else .err .badMessage
  | .pointer none => .err .badMessage
  | .pointer (some mem) => if (0 : Byte) ∈ mem then .ok (mem.takeWhile (· != 0)) else .ub
  | .string cs => .ok cs
  | .range cs => .ok cs

/-- `read_json` of a generated message (`json.hpp` 497-563). -/
def readInput (T : GTypes) (utf8 : List Byte → Bool) (G : Glaze) (d id : Nat) (old : Msg) (input : JsonInput) : Res Msg := do
  let text ← input.view
  genRead T utf8 G d id old text

/-- `read_json<T>(input)` (`json.hpp` 573-583): a new message, or the error. -/
def readNew (T : GTypes) (utf8 : List Byte → Bool) (G : Glaze) (d id : Nat) (input : JsonInput) : Res Msg :=
  readInput T utf8 G d id (T id).default input

end HppProto.Json
