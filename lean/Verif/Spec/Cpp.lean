import Verif.Model.Text
/-!
# Specification: the part of C++ lexing that the generator's output goes through

Written from the C++ standard ([lex.phases], [lex.string], [lex.ccon], [lex.icon], [lex.key],
[lex.name]), not from the emitter.
-/
namespace HppProto.Spec.Cpp
open HppProto

/-! ## Translation phases 1 and 2 -/

/-- The character a trigraph `??x` stands for (before C++17, and `-trigraphs`). -/
def trigraph (x : Byte) : Option Byte :=
  if x = 0x3d then some 0x23 -- ??= #
  else if x = 0x2f then some 0x5c -- ??/ \
  else if x = 0x27 then some 0x5e -- ??' ^
  else if x = 0x28 then some 0x5b -- ??( [
  else if x = 0x29 then some 0x5d -- ??) ]
  else if x = 0x21 then some 0x7c -- ??! |
  else if x = 0x3c then some 0x7b -- ??< {
  else if x = 0x3e then some 0x7d -- ??> }
  else if x = 0x2d then some 0x7e -- ??- ~
  else none

/-- A trigraph at the head of the text: what it stands for and the text after it. -/
def headTrigraph : List Byte → Option (Byte × List Byte)
  | a :: b :: x :: after =>
    if a = 0x3f ∧ b = 0x3f then (trigraph x).map (fun y => (y, after)) else none
  | _ => none

/-- Trigraph replacement, left to right. The first argument bounds the number of steps. -/
def trigraphSteps : Nat → List Byte → List Byte
  | 0, l => l
  | _ + 1, [] => []
  | n + 1, b :: rest =>
    match headTrigraph (b :: rest) with
    | some (y, after) => y :: trigraphSteps n after
    | none => b :: trigraphSteps n rest

/-- Trigraph replacement of a whole text (every step takes at least one character). -/
def trigraphs (l : List Byte) : List Byte := trigraphSteps l.length l

/-- Blanks that compilers allow between a backslash and the end of the line (C++23). -/
def isBlank (b : Byte) : Bool := b == 0x20 || b == 9 || b == 11 || b == 12 || b == 13

/-- The text after the end of line, when only blanks precede it. -/
def restOfBlankLine : List Byte → Option (List Byte)
  | [] => none
  | b :: rest => if b = 10 then some rest else if isBlank b then restOfBlankLine rest else none

/-- Line splicing: a backslash at the end of a line is deleted together with the line end. The
first argument bounds the number of steps. -/
def spliceSteps : Nat → List Byte → List Byte
  | 0, l => l
  | _ + 1, [] => []
  | n + 1, b :: rest =>
    if b = 0x5c then
      match restOfBlankLine rest with
      | some after => spliceSteps n after
      | none => b :: spliceSteps n rest
    else b :: spliceSteps n rest

/-- Line splicing of a whole text (every step takes at least one character). -/
def splice (l : List Byte) : List Byte := spliceSteps l.length l

/-- What the lexer sees of a source text. -/
def source (text : List Byte) : List Byte := splice (trigraphs text)

/-! ## String literals -/

/-- An octal digit. -/
def octal (b : Byte) : Option Nat :=
  if 0x30 ≤ b.toNat ∧ b.toNat ≤ 0x37 then some (b.toNat - 0x30) else none

/-- Simple escapes. -/
def simpleEscape (b : Byte) : Option Byte :=
  if b = 0x27 then some 0x27       -- '
  else if b = 0x22 then some 0x22  -- "
  else if b = 0x3f then some 0x3f  -- ?
  else if b = 0x5c then some 0x5c  -- \
  else if b = 0x61 then some 7     -- a
  else if b = 0x62 then some 8     -- b
  else if b = 0x66 then some 12    -- f
  else if b = 0x6e then some 10    -- n
  else if b = 0x72 then some 13    -- r
  else if b = 0x74 then some 9     -- t
  else if b = 0x76 then some 11    -- v
  else none

/-- One character of the literal: its value and the text after it. An octal escape takes the
longest run of up to three octal digits; a line end inside a literal is an error; hexadecimal
and universal character names are not covered (`none`). -/
def stringChar : List Byte → Option (Nat × List Byte)
  | [] => none
  | c :: rest =>
    if c = 10 then none
    else if c ≠ 0x5c then some (c.toNat, rest)
    else match rest with
      | [] => none
      | e :: rest =>
        match octal e with
        | none => (simpleEscape e).map (fun v => (v.toNat, rest))
        | some d1 =>
          match rest with
          | [] => some (d1, [])
          | e2 :: rest2 =>
            match octal e2 with
            | none => some (d1, rest)
            | some d2 =>
              match rest2 with
              | [] => some (8 * d1 + d2, [])
              | e3 :: rest3 =>
                match octal e3 with
                | none => some (8 * d1 + d2, rest2)
                | some d3 => some (64 * d1 + 8 * d2 + d3, rest3)

/-- The characters up to the closing quote, and the text after it. A value above 255 does not fit
a `char` and is an error. -/
def stringBody : Nat → List Byte → Option (List Byte × List Byte)
  | 0, _ => none
  | fuel + 1, text =>
    match text with
    | 0x22#8 :: rest => some ([], rest)
    | _ =>
      match stringChar text with
      | none => none
      | some (v, rest) =>
        if v < 256 then (stringBody fuel rest).map (fun p => (BitVec.ofNat 8 v :: p.1, p.2)) else none

/-- A string literal at the head of the text: the bytes it denotes (without the final NUL) and
the text after it. -/
def stringLiteral (text : List Byte) : Option (List Byte × List Byte) :=
  match text with
  | 0x22#8 :: rest => stringBody (rest.length + 1) rest
  | _ => none

/-- How `protoc` writes the default value of a `bytes` field into the descriptor ("For bytes,
contains the C escaped value", descriptor.proto): `absl::CEscape`, byte by byte. -/
def cEscape (b : Byte) : List Byte :=
  if b = 10 then [0x5c, 0x6e]
  else if b = 13 then [0x5c, 0x72]
  else if b = 9 then [0x5c, 0x74]
  else if b = 0x22 then [0x5c, 0x22]
  else if b = 0x27 then [0x5c, 0x27]
  else if b = 0x5c then [0x5c, 0x5c]
  else if b.toNat < 0x20 ∨ 0x7f ≤ b.toNat then
    [0x5c, BitVec.ofNat 8 (0x30 + b.toNat / 64), BitVec.ofNat 8 (0x30 + b.toNat / 8 % 8), BitVec.ofNat 8 (0x30 + b.toNat % 8)]
  else [b]

/-- The descriptor's default value for a declared byte string. -/
def describedBytes (declared : List Byte) : List Byte := declared.flatMap cEscape

/-! ## Comments -/

/-- The text after a line comment at the head of the text (the line end stays). -/
def afterLineComment (text : List Byte) : Option (List Byte) :=
  match text with
  | 0x2f#8 :: 0x2f#8 :: rest => some (rest.dropWhile (fun b => b != 10))
  | _ => none

/-! ## Names -/

/-- Keywords ([lex.key]) and alternative tokens ([lex.digraph]) of C++20. -/
def reservedWords : List (List Byte) := [
  b!"alignas", b!"alignof", b!"asm", b!"auto", b!"bool", b!"break", b!"case", b!"catch",
  b!"char", b!"char8_t", b!"char16_t", b!"char32_t", b!"class", b!"concept", b!"const",
  b!"consteval", b!"constexpr", b!"constinit", b!"const_cast", b!"continue", b!"co_await",
  b!"co_return", b!"co_yield", b!"decltype", b!"default", b!"delete", b!"do", b!"double",
  b!"dynamic_cast", b!"else", b!"enum", b!"explicit", b!"export", b!"extern", b!"false",
  b!"float", b!"for", b!"friend", b!"goto", b!"if", b!"inline", b!"int", b!"long",
  b!"mutable", b!"namespace", b!"new", b!"noexcept", b!"nullptr", b!"operator", b!"private",
  b!"protected", b!"public", b!"register", b!"reinterpret_cast", b!"requires", b!"return",
  b!"short", b!"signed", b!"sizeof", b!"static", b!"static_assert", b!"static_cast",
  b!"struct", b!"switch", b!"template", b!"this", b!"thread_local", b!"throw", b!"true",
  b!"try", b!"typedef", b!"typeid", b!"typename", b!"union", b!"unsigned", b!"using",
  b!"virtual", b!"void", b!"volatile", b!"wchar_t", b!"while",
  b!"and", b!"and_eq", b!"bitand", b!"bitor", b!"compl", b!"not", b!"not_eq", b!"or",
  b!"or_eq", b!"xor", b!"xor_eq"]

/-- Characters of a name, with and without the digits. -/
def nameChars : List Byte :=
  b!"ABCDEFGHIJKLMNOPQRSTUVWXYZabcdefghijklmnopqrstuvwxyz_0123456789"

def nameStart : List Byte :=
  b!"ABCDEFGHIJKLMNOPQRSTUVWXYZabcdefghijklmnopqrstuvwxyz_"

/-- `identifier`: a letter or underscore, then letters, digits and underscores. -/
def IsName (s : List Byte) : Prop := ∃ c cs, s = c :: cs ∧ c ∈ nameStart ∧ ∀ b ∈ cs, b ∈ nameChars

/-- Names the standard keeps for the implementation everywhere: a double underscore, or an
underscore followed by an upper case letter at the start. -/
def IsReservedName (s : List Byte) : Prop :=
  (∃ p q, s = p ++ [0x5f, 0x5f] ++ q) ∨
  ∃ c q, s = 0x5f :: c :: q ∧ c ∈ b!"ABCDEFGHIJKLMNOPQRSTUVWXYZ"

/-- A qualified name: names joined by `::`. -/
def joined : List (List Byte) → List Byte
  | [] => []
  | [s] => s
  | s :: t => s ++ [0x3a, 0x3a] ++ joined t

/-- A dotted protobuf name: names joined by `.`. -/
def dotted : List (List Byte) → List Byte
  | [] => []
  | [s] => s
  | s :: t => s ++ [0x2e] ++ dotted t

/-! ## Integer literals -/

/-- Position of a digit in `0123456789abcdef`, either case. -/
def digit (b : Byte) : Option Nat :=
  match (b!"0123456789abcdef").idxOf? b with
  | some i => some i
  | none => (b!"0123456789ABCDEF").idxOf? b

/-- Positional notation: each digit counts `base` to the number of digits after it. -/
def positional (base : Nat) : List Byte → Option Nat
  | [] => some 0
  | c :: rest =>
    match digit c, positional base rest with
    | some d, some v => if d < base then some (d * base ^ rest.length + v) else none
    | _, _ => none

/-- `integer-literal` without suffix: hexadecimal after `0x`, octal after `0`, decimal otherwise.
The same in C++ and in protobuf text. The flag says "decimal". -/
def integerLiteral (s : List Byte) : Option (Bool × Nat) :=
  match s with
  | [] => none
  | 0x30#8 :: 0x78#8 :: ds => if ds = [] then none else (positional 16 ds).map (Prod.mk false)
  | 0x30#8 :: 0x58#8 :: ds => if ds = [] then none else (positional 16 ds).map (Prod.mk false)
  | 0x30#8 :: ds => (positional 8 ds).map (Prod.mk false)
  | ds => (positional 10 ds).map (Prod.mk true)

/-- The integer that a protobuf default value denotes: an optional sign and a literal. -/
def textInteger (s : List Byte) : Option Int :=
  match s with
  | 0x2d#8 :: t => (integerLiteral t).map (fun p => -(p.2 : Int))
  | 0x2b#8 :: t => (integerLiteral t).map (fun p => (p.2 : Int))
  | t => (integerLiteral t).map (fun p => (p.2 : Int))

/-- The arithmetic types of a literal (LP64). -/
inductive Ty where
  | int | unsignedInt | long | unsignedLong | longLong | unsignedLongLong
  deriving DecidableEq, Repr

def Ty.max : Ty → Int
  | .int => 2 ^ 31 - 1
  | .unsignedInt => 2 ^ 32 - 1
  | .long | .longLong => 2 ^ 63 - 1
  | .unsignedLong | .unsignedLongLong => 2 ^ 64 - 1

def Ty.min : Ty → Int
  | .int => -2 ^ 31
  | .long | .longLong => -2 ^ 63
  | _ => 0

/-- Candidate types for a literal, by suffix and radix ([lex.icon], table). -/
def candidates (suffix : List Byte) (decimal : Bool) : Option (List Ty) :=
  if suffix = [] then
    some (if decimal then [.int, .long, .longLong]
          else [.int, .unsignedInt, .long, .unsignedLong, .longLong, .unsignedLongLong])
  else if suffix = b!"U" then some [.unsignedInt, .unsignedLong, .unsignedLongLong]
  else if suffix = b!"LL" then some (if decimal then [.longLong] else [.longLong, .unsignedLongLong])
  else if suffix = b!"ULL" then some [.unsignedLongLong]
  else none

/-- Letters of the suffixes. -/
def isSuffixChar (b : Byte) : Bool := b == 0x55 || b == 0x4c

/-- Type and value of one literal token: the first candidate type that can hold it. -/
def literal (tok : List Byte) : Option (Ty × Int) :=
  match integerLiteral (tok.takeWhile (fun b => !isSuffixChar b)) with
  | none => none
  | some (decimal, n) =>
    match candidates (tok.dropWhile (fun b => !isSuffixChar b)) decimal with
    | none => none
    | some tys => (tys.find? (fun t => (n : Int) ≤ t.max)).map (fun t => (t, (n : Int)))

/-- A literal under an optional sign. Negating must stay in the (signed) type. -/
def unary (tok : List Byte) : Option (Ty × Int) :=
  match tok with
  | 0x2d#8 :: t =>
    match literal t with
    | some (ty, v) => if ty.min ≤ -v then some (ty, -v) else none
    | none => none
  | 0x2b#8 :: t => literal t
  | t => literal t

/-- Split at a minus sign that is not the first character. -/
def splitMinus (s : List Byte) : Option (List Byte × List Byte) :=
  match s with
  | [] => none
  | c :: rest =>
    if rest.contains 0x2d then
      some (c :: rest.takeWhile (fun b => b != 0x2d), (rest.dropWhile (fun b => b != 0x2d)).tail)
    else none

/-- `unary`, or `unary - literal` with the usual conversions between `int` and `long long`. -/
def expression (s : List Byte) : Option (Ty × Int) :=
  match splitMinus s with
  | none => unary s
  | some (a, b) =>
    match unary a, literal b with
    | some (ta, va), some (tb, vb) =>
      let ty := if ta = tb then some ta
        else if ta = .longLong ∧ tb = .int ∨ ta = .int ∧ tb = .longLong then some .longLong else none
      match ty with
      | some t => if t.min ≤ va - vb ∧ va - vb ≤ t.max then some (t, va - vb) else none
      | none => none
    | _, _ => none

end HppProto.Spec.Cpp
