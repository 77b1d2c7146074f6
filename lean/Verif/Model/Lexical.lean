import Verif.Model.Text
/-!
# Model of the C++ source emitter: `src/protoc-plugin/cpp_lexical_emitter.cpp`

Names, literals and comments that the code generator copies from `.proto` files into C++
source. Strings are byte lists; `none` is `std::unexpected` (the message is not modelled).
-/
namespace HppProto.Lex
open HppProto

/-- `cpp_keywords`: 40-60. -/
def cppKeywords : List (List Byte) := [
  b!"NULL", b!"alignas", b!"alignof", b!"and", b!"and_eq",
  b!"asm", b!"auto", b!"bitand", b!"bitor", b!"bool",
  b!"break", b!"case", b!"catch", b!"char", b!"class",
  b!"compl", b!"const", b!"constexpr", b!"const_cast", b!"continue",
  b!"decltype", b!"default", b!"delete", b!"do", b!"double",
  b!"dynamic_cast", b!"else", b!"enum", b!"explicit", b!"export",
  b!"extern", b!"false", b!"float", b!"for", b!"friend",
  b!"goto", b!"if", b!"inline", b!"int", b!"long",
  b!"mutable", b!"namespace", b!"new", b!"noexcept", b!"not",
  b!"not_eq", b!"nullptr", b!"operator", b!"or", b!"or_eq",
  b!"private", b!"protected", b!"public", b!"register", b!"reinterpret_cast",
  b!"return", b!"short", b!"signed", b!"sizeof", b!"static",
  b!"static_assert", b!"static_cast", b!"struct", b!"switch", b!"template",
  b!"this", b!"thread_local", b!"throw", b!"true", b!"try",
  b!"typedef", b!"typeid", b!"typename", b!"union", b!"unsigned",
  b!"using", b!"virtual", b!"void", b!"volatile", b!"wchar_t",
  b!"while", b!"xor", b!"xor_eq", b!"char8_t", b!"char16_t",
  b!"char32_t", b!"concept", b!"consteval", b!"constinit", b!"co_await",
  b!"co_return", b!"co_yield", b!"requires"]

/-- `is_ascii_digit`: 71. -/
def isAsciiDigit (b : Byte) : Bool := 0x30 ≤ b.toNat && b.toNat ≤ 0x39

/-- `is_ascii_alpha`: 73-75. -/
def isAsciiAlpha (b : Byte) : Bool := (0x41 ≤ b.toNat && b.toNat ≤ 0x5a) || (0x61 ≤ b.toNat && b.toNat ≤ 0x7a)

/-- `is_identifier_start`: 77. -/
def isIdStart (b : Byte) : Bool := b == 0x5f || isAsciiAlpha b

/-- `is_identifier_continue`: 79-81. -/
def isIdContinue (b : Byte) : Bool := b == 0x5f || isAsciiAlpha b || isAsciiDigit b

/-- `safe_identifier`: 83-85. -/
def safeIdentifier (name : List Byte) : List Byte :=
  if cppKeywords.contains name then name ++ [0x5f] else name

/-- `contains("__")`: 92. -/
def hasDoubleUnderscore : List Byte → Bool
  | a :: b :: rest => (a == 0x5f && b == 0x5f) || hasDoubleUnderscore (b :: rest)
  | _ => false

/-- `is_reserved_cpp_identifier`: 91-93. -/
def isReserved (name : List Byte) : Bool :=
  hasDoubleUnderscore name ||
  match name with
  | a :: b :: _ => a == 0x5f && 0x41 ≤ b.toNat && b.toNat ≤ 0x5a
  | _ => false

/-- The test at the head of `from_proto` and `from_protobuf_namespace`: 290-291, 303-304. -/
def isIdentifier : List Byte → Bool
  | [] => false
  | c :: cs => isIdStart c && cs.all isIdContinue

/-- `identifier::from_proto`: 289-300. -/
def fromProto (name : List Byte) : Option (List Byte) :=
  if !isIdentifier name then none
  else if isReserved name then none
  else some (safeIdentifier name)

/-- `identifier::from_protobuf_namespace`: 302-308. -/
def fromNamespace (name : List Byte) : Option (List Byte) :=
  if !isIdentifier name then none else some (safeIdentifier name)

/-- `append_word`: 310-317. -/
def appendWord (id word : List Byte) : List Byte :=
  (if id.getLast? == some 0x5f then id else id ++ [0x5f]) ++ word

/-- `disambiguated_with`: 319-326. -/
def disambiguatedWith (id word : List Byte) : List Byte :=
  if id.getLast? == some 0x5f then appendWord id word else id ++ [0x5f]

/-- The segments of a dotted name, split at every `.` (`find`, `substr`): 334-338. -/
def splitDots : List Byte → List (List Byte)
  | [] => [[]]
  | c :: cs =>
    match splitDots cs with
    | [] => [[]]
    | seg :: segs => if c = 0x2e then [] :: seg :: segs else (c :: seg) :: segs

/-- `result += "::"` between segments: 343-346. -/
def joinColons : List (List Byte) → List Byte
  | [] => []
  | [s] => s
  | s :: ss => s ++ [0x3a, 0x3a] ++ joinColons ss

/-- `qualified_name::from_dotted`: 328-353. (No segment result is empty, so the separator test
`!result.empty()` only skips the first.) -/
def fromDotted (name : List Byte) : Option (List Byte) :=
  if name = [] then some []
  else match (splitDots name).mapM fromProto with
    | some segs => some (joinColons segs)
    | none => none

/-- `qualified_name::from_proto`: 355-372. -/
def qualifiedFromProto (nsPrefix name : List Byte) : Option (List Byte) :=
  if name = [0x2e] then some nsPrefix
  else
    let absolute := name.head? == some 0x2e
    let name := if absolute then name.tail else name
    match fromDotted name with
    | none => none
    | some parsed =>
      if !absolute || nsPrefix.isEmpty then some parsed
      else some (nsPrefix ++ [0x3a, 0x3a] ++ parsed)

/-! ## String literals -/

/-- `octal_digit`: 217. -/
def octalDigit (n : Nat) : Byte := BitVec.ofNat 8 (0x30 + n)

/-- `make_escape_entry`: 224-266. -/
def escapeEntry (b : Byte) : List Byte :=
  if b = 7 then [0x5c, 0x61]
  else if b = 8 then [0x5c, 0x62]
  else if b = 9 then [0x5c, 0x74]
  else if b = 10 then [0x5c, 0x6e]
  else if b = 11 then [0x5c, 0x76]
  else if b = 12 then [0x5c, 0x66]
  else if b = 13 then [0x5c, 0x72]
  else if b = 0x22 then [0x5c, 0x22]
  else if b = 0x27 then [0x5c, 0x27]
  else if b = 0x5c then [0x5c, 0x5c]
  else if b = 0x3f then [0x5c, 0x3f]
  else if b.toNat < 0x20 || b.toNat ≥ 0x7f then
    [0x5c, octalDigit (b.toNat / 64), octalDigit (b.toNat / 8 % 8), octalDigit (b.toNat % 8)]
  else [b]

/-- `string_literal_bytes`: 439-453. -/
def stringLiteral (bytes : List Byte) : List Byte := [0x22] ++ bytes.flatMap escapeEntry ++ [0x22]

/-- `set_string_default_value`: hpp_generator.cpp 360-366 (`default_value`). -/
def stringDefault (defaultValue : List Byte) : List Byte := stringLiteral defaultValue

/-- `set_bytes_default_value`: hpp_generator.cpp 352-358, the literal inside
`::hpp_proto::bytes_literal<…>{}`. -/
def bytesDefault (defaultValue : List Byte) : List Byte := stringLiteral defaultValue

/-! ## Comments -/

/-- One byte of `comment_text`: 537-556. -/
def commentByte (b : Byte) : List Byte :=
  if b = 13 then [0x5c, 0x72]
  else if b = 10 then [0x5c, 0x6e]
  else if b = 0x5c then [0x5c, 0x31, 0x33, 0x34]
  else if b = 0x3f then [0x5c, 0x30, 0x37, 0x37]
  else if b.toNat < 0x20 || b.toNat ≥ 0x7f then escapeEntry b
  else [b]

/-- `comment_text`: 536-557. -/
def commentText (text : List Byte) : List Byte := text.flatMap commentByte

/-! ## Include paths -/

/-- `is_unsafe_header_byte`: 132-134. -/
def unsafeHeaderByte (b : Byte) : Bool := b == 0x22 || b == 13 || b == 10 || b.toNat < 0x20

/-- `normalized_header_path`: 136-152. -/
def normalizedHeaderPath (path : List Byte) : Option (List Byte) :=
  if path = [] then none
  else if path.any unsafeHeaderByte then none
  else some (path.map (fun b => if b = 0x5c then 0x2f else b))

/-- `proto_file.substr(0, find_last_of('.'))`: 458-461, 469. -/
def beforeLastDot (s : List Byte) : Option (List Byte) :=
  if s.contains 0x2e then some ((s.reverse.dropWhile (fun b => b != 0x2e)).tail.reverse) else none

/-- `include_path::from_proto_file`: 455-477. -/
def includePath (protoFile dirPrefix suffix : List Byte) : Option (List Byte) :=
  match beforeLastDot protoFile with
  | none => none
  | some stem =>
    match normalizedHeaderPath ((if dirPrefix = [] then [] else dirPrefix ++ [0x2f]) ++ stem ++ suffix) with
    | none => none
    | some p => some ([0x22] ++ p ++ [0x22])

/-! ## Numeric literals -/

/-- Value of a digit in a base up to 16 (`std::from_chars`). -/
def digitValue (b : Byte) : Option Nat :=
  if 0x30 ≤ b.toNat ∧ b.toNat ≤ 0x39 then some (b.toNat - 0x30)
  else if 0x61 ≤ b.toNat ∧ b.toNat ≤ 0x66 then some (b.toNat - 0x61 + 10)
  else if 0x41 ≤ b.toNat ∧ b.toNat ≤ 0x46 then some (b.toNat - 0x41 + 10)
  else none

/-- A digit that is legal in the base. -/
def baseDigit (base : Nat) (b : Byte) : Option Nat :=
  match digitValue b with
  | some d => if d < base then some d else none
  | none => none

/-- `std::from_chars(first, last, uint64_t, base)` (library), together with the test that all of
the text was read: 187-194. -/
def fromCharsAll (base : Nat) (s : List Byte) : Option Nat :=
  if s = [] then none
  else match s.mapM (baseDigit base) with
    | none => none
    | some ds =>
      let v := ds.foldl (fun n d => n * base + d) 0
      if v < 2 ^ 64 then some v else none

/-- The radix prefix and the digits of `parse_integer`: 177-195. -/
def parseMagnitude (v : List Byte) : Option Nat :=
  match v with
  | [] => none
  | [c0] => fromCharsAll 10 [c0]
  | c0 :: c1 :: more =>
    if c0 = 0x30 ∧ (c1 = 0x78 ∨ c1 = 0x58) then fromCharsAll 16 more
    else if c0 = 0x30 then fromCharsAll 8 (c1 :: more)
    else fromCharsAll 10 (c0 :: c1 :: more)

/-- `parse_integer`: 160-196. The result is the sign and the magnitude. -/
def parseInteger (value : List Byte) (allowSign : Bool) : Option (Bool × Nat) :=
  match value with
  | [] => none
  | c :: rest =>
    if c = 0x2d ∨ c = 0x2b then
      if !allowSign then none
      else (parseMagnitude rest).map (fun m => (c == 0x2d, m))
    else (parseMagnitude value).map (fun m => (false, m))

/-- `integer_width`. -/
inductive Width where
  | bits32 | bits64
  deriving DecidableEq, Repr

/-- `bit_width`. -/
def Width.bits : Width → Nat
  | .bits32 => 32
  | .bits64 => 64

/-- `numeric_literal::signed_integer`: 479-495. -/
def signedInteger (value : List Byte) (w : Width) : Option (List Byte) :=
  match parseInteger value true with
  | none => none
  | some (negative, magnitude) =>
    let signBit := 2 ^ (w.bits - 1)
    let maximum := signBit - 1
    if (!negative && magnitude > maximum) || (negative && magnitude > signBit) then none
    else if negative && magnitude = signBit then
      some (if w = .bits64 then b!"-9223372036854775807LL-1" else b!"-2147483647-1")
    else some (value ++ if w = .bits64 then b!"LL" else [])

/-- `numeric_literal::unsigned_integer`: 497-505. -/
def unsignedInteger (value : List Byte) (w : Width) : Option (List Byte) :=
  match parseInteger value false with
  | none => none
  | some (_, magnitude) =>
    if w = .bits32 ∧ magnitude > 2 ^ 32 - 1 then none
    else some (value ++ if w = .bits64 then b!"ULL" else b!"U")

/-- `numeric_literal::boolean`: 529-534. -/
def booleanLiteral (value : List Byte) : Option (List Byte) :=
  if value ≠ b!"true" ∧ value ≠ b!"false" then none else some value

/-! ## File descriptor names -/

/-- `file_namespace_component`: 95-120. -/
def fileComponent (component : List Byte) : Option (List Byte) :=
  if component = [] then none
  else
    let spelling := component.map (fun b => if isIdContinue b then b else 0x5f)
    let spelling := if (spelling.head?.map isAsciiDigit).getD false then 0x5f :: spelling else spelling
    match fromNamespace spelling with
    | none => none
    | some id => if isReserved id then none else some id

/-- `file_namespace_override`: 122-131. -/
def fileOverride (name : List Byte) : Option (List Byte) :=
  match fromNamespace name with
  | none => none
  | some id => if isReserved id then none else some id

/-- The components of the path, split at every `/` (`find`, `substr`): 404-421. -/
def splitSlashes : List Byte → List (List Byte)
  | [] => [[]]
  | c :: cs =>
    match splitSlashes cs with
    | [] => [[]]
    | seg :: segs => if c = 0x2f then [] :: seg :: segs else (c :: seg) :: segs

/-- `name.starts_with(prefix)`. -/
def startsWith (pre name : List Byte) : Bool := pre.isPrefixOf name

/-- `name.ends_with(suffix)`. -/
def endsWith (suf name : List Byte) : Bool := suf.reverse.isPrefixOf name.reverse

/-- The loop of `file_descriptor_name::from_proto_file` over the components: 405-421. -/
def fileComponents (override : Option (List Byte)) : List (List Byte) → Option (List (List Byte))
  | [] => some []
  | [last] =>
    match override with
    | some o => (fileOverride o).map (fun id => [id])
    | none => (fileComponent last).map (fun id => [id])
  | comp :: rest =>
    match fileComponent comp with
    | none => none
    | some id => (fileComponents override rest).map (fun ids => id :: ids)

/-- `qualified_name::append(identifier)`: 374-379. -/
def appendName (q id : List Byte) : List Byte := if q = [] then id else q ++ [0x3a, 0x3a] ++ id

/-- `file_descriptor_name::from_proto_file`: 391-429. The result is the namespace; the two
variables in it are `file_descriptor_` and `file_descriptor_set`. -/
def fileNamespace (protoFile : List Byte) (override : Option (List Byte)) : Option (List Byte) :=
  if protoFile = [] ∨ startsWith [0x2f] protoFile ∨ endsWith [0x2f] protoFile ∨ !endsWith b!".proto" protoFile then none
  else match fromDotted b!"hpp_proto.file_descriptors" with
    | none => none
    | some root =>
      match fileComponents override (splitSlashes protoFile) with
      | none => none
      | some ids => some (ids.foldl appendName root)

/-- `qualified_descriptor_name`, `qualified_descriptor_set_name`: 431-437. -/
def descriptorVariables (ns : List Byte) : List (List Byte) :=
  [appendName ns b!"file_descriptor_", appendName ns b!"file_descriptor_set"]

/-- `qualified_entity_is_prefix_of`: hpp_generator.cpp 1082-1084. -/
def entityIsPrefix (entity name : List Byte) : Bool :=
  decide (name.length > entity.length + 1) && startsWith entity name && startsWith [0x3a, 0x3a] (name.drop entity.length)

/-- `collide`: hpp_generator.cpp 1097-1102. -/
def collide (a b : List Byte) : Bool := a == b || entityIsPrefix a b || entityIsPrefix b a

/-- `validate_file_descriptor_names`: hpp_generator.cpp 1086-1121 (`true` = no collision
reported). The argument is the list of namespaces of the files that define messages. -/
def validateNames (namespaces : List (List Byte)) : Bool :=
  go (namespaces.flatMap descriptorVariables)
where
  /-- the two nested loops: 1113-1120 -/
  go : List (List Byte) → Bool
    | [] => true
    | first :: rest => !rest.any (collide first) && go rest

end HppProto.Lex
