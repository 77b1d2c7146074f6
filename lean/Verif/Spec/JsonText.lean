import Verif.Spec.Json
import Verif.Model.Json

/-!
# JSON texts

Specification: JSON values, the texts that spell them (RFC 8259), and what is assumed of the functions of
the library glaze.
-/

namespace HppProto.Json
open HppProto

/-- A string in a JSON value. `plain`: to be spelled without escapes. -/
structure JStr where
  text : List Byte
  plain : Bool
  deriving DecidableEq, Repr

/-- A JSON value; a number is known by its text, an object by its members in order. -/
inductive JTree where
  | null
  | bool (b : Bool)
  | num (text : List Byte)
  | str (s : JStr)
  | arr (xs : List JTree)
  | obj (ms : List (JStr × JTree))

/-- Whitespace (RFC 8259, section 2). -/
def Ws (a : List Byte) : Prop := ∀ c ∈ a, c = 0x20 ∨ c = 0x09 ∨ c = 0x0a ∨ c = 0x0d

/-- Digits, at least one. -/
def Digits (t : List Byte) : Prop := t ≠ [] ∧ ∀ c ∈ t, isDigit c = true

/-- A number (RFC 8259, section 6). -/
def NumText (t : List Byte) : Prop :=
  ∃ sign whole frac exp, t = sign ++ whole ++ frac ++ exp ∧ (sign = [] ∨ sign = [0x2d]) ∧
    Digits whole ∧ (whole.head? = some 0x30 → whole = [0x30]) ∧
    (frac = [] ∨ ∃ ds, Digits ds ∧ frac = 0x2e :: ds) ∧
    (exp = [] ∨ ∃ e s ds, (e = 0x65 ∨ e = 0x45) ∧ (s = [] ∨ s = [0x2b] ∨ s = [0x2d]) ∧ Digits ds ∧
      exp = e :: s ++ ds)

/-- A character that may be part of a number. -/
def numChar (c : Byte) : Bool :=
  isDigit c || c == 0x2b || c == 0x2d || c == 0x2e || c == 0x65 || c == 0x45

/-- Text that can stand in a JSON string without escapes. -/
def Plain (t : List Byte) : Prop := ∀ c ∈ t, 0x20 ≤ c.toNat ∧ c ≠ 0x22 ∧ c ≠ 0x5c

/-- The text, quotes included, of a JSON string that denotes the given bytes (RFC 8259, section 7; escapes
of characters above U+007F are left out). -/
def StrLit (v t : List Byte) : Prop := ∃ u, Spec.unescape u = some v ∧ t = 0x22 :: u ++ [0x22]

/-- The texts of a string in a JSON value. -/
def SpellsStr (s : JStr) (t : List Byte) : Prop :=
  StrLit s.text t ∧ (s.plain = true → Plain s.text ∧ t = 0x22 :: s.text ++ [0x22])

mutual
/-- The texts that spell a JSON value, without whitespace around it (RFC 8259). -/
inductive Spells : JTree → List Byte → Prop where
  | null : Spells .null b!"null"
  | true : Spells (.bool true) b!"true"
  | false : Spells (.bool false) b!"false"
  | num {t} : NumText t → Spells (.num t) t
  | str {s t} : SpellsStr s t → Spells (.str s) t
  | arr {xs t} : SpellsItems xs t → Spells (.arr xs) (0x5b :: t ++ [0x5d])
  | obj {ms t} : SpellsMembers ms t → Spells (.obj ms) (0x7b :: t ++ [0x7d])
/-- The texts between the brackets of an array. -/
inductive SpellsItems : List JTree → List Byte → Prop where
  | nil {a} : Ws a → SpellsItems [] a
  | one {x a t b} : Ws a → Spells x t → Ws b → SpellsItems [x] (a ++ t ++ b)
  | more {x y xs a t b r} : Ws a → Spells x t → Ws b → SpellsItems (y :: xs) r →
      SpellsItems (x :: y :: xs) (a ++ t ++ b ++ 0x2c :: r)
/-- The texts between the braces of an object. -/
inductive SpellsMembers : List (JStr × JTree) → List Byte → Prop where
  | nil {a} : Ws a → SpellsMembers [] a
  | one {p a t b} : Ws a → SpellsMember p t → Ws b → SpellsMembers [p] (a ++ t ++ b)
  | more {p q ps a t b r} : Ws a → SpellsMember p t → Ws b → SpellsMembers (q :: ps) r →
      SpellsMembers (p :: q :: ps) (a ++ t ++ b ++ 0x2c :: r)
/-- The texts of a member of an object. -/
inductive SpellsMember : JStr × JTree → List Byte → Prop where
  | mk {k x s a b t} : SpellsStr k s → Ws a → Ws b → Spells x t →
      SpellsMember (k, x) (s ++ a ++ 0x3a :: b ++ t)
end

/-- The texts of members that are followed by another one: with the whitespace around them and a comma after
each. -/
inductive OpenMembers : List (JStr × JTree) → List Byte → Prop where
  | nil {a} : Ws a → OpenMembers [] a
  | cons {p ps a t b r} : Ws a → SpellsMember p t → Ws b → OpenMembers ps r →
      OpenMembers (p :: ps) (a ++ t ++ b ++ 0x2c :: r)

/-- A JSON text: a value with whitespace around it. -/
def JsonText (j : JTree) (t : List Byte) : Prop :=
  ∃ a u b, Ws a ∧ Spells j u ∧ Ws b ∧ t = a ++ u ++ b

/-- A finite `float` (in the low 32 bits) or `double`. -/
def Finite (wide : Bool) (v : BitVec 64) : Prop :=
  if wide then v.extractLsb' 52 11 ≠ 0x7ff#11 else v.extractLsb' 23 8 ≠ 0xff#8 ∧ v.toNat < 2 ^ 32

/-- A reader returns a rest of its input, shorter than it, or an error. -/
def Shortens {α : Type} (s : List Byte) (r : Res (α × List Byte)) : Prop :=
  (∃ x u, r = .ok (x, u) ∧ ∃ p, p ≠ [] ∧ s = p ++ u) ∨ r = .err .badMessage

/-- The same for functions that only skip. -/
def Skips (s : List Byte) (r : Res (List Byte)) : Prop :=
  (∃ u, r = .ok u ∧ ∃ p, p ≠ [] ∧ s = p ++ u) ∨ r = .err .badMessage

/-- What is assumed of glaze: it writes strings as JSON strings, without escapes where none are needed,
and finite numbers as JSON numbers; it reads back what spells a string, an integer in range, or a number
it wrote; as a `std::string_view` it reads what is between the quotes, escapes included; it reports an
integer above the range; it skips what spells a string, an object or an array, and when it skips an object it only looks at strings,
braces and comments (`skipLoose`); it does not read beyond the terminator of
the input. -/
structure Glaze.Lawful (G : Glaze) : Prop where
  writeStr : ∀ v, StrLit v (G.writeStr v)
  writePlain : ∀ v, Plain v → G.writeStr v = 0x22 :: v ++ [0x22]
  writeFloat : ∀ wide v, Finite wide v → NumText (G.writeFloat wide v)
  readStr : ∀ v t rest, StrLit v t → G.readStr (t ++ rest) = .ok (v, rest)
  readView : ∀ v rest, Plain v → G.readView (0x22 :: v ++ 0x22 :: rest) = .ok (v, rest)
  readRaw : ∀ u v rest, Spec.unescape u = some v → G.readView (0x22 :: u ++ 0x22 :: rest) = .ok (u, rest)
  readInt : ∀ lo hi v rest, -2 ^ 63 ≤ lo → hi < 2 ^ 64 → lo ≤ v → v ≤ hi → numChar (look rest) = false →
    G.readInt lo hi (intText v ++ rest) = .ok (v, rest)
  intOver : ∀ lo hi v rest, hi < v → 0 ≤ v → v < 2 ^ 64 → numChar (look rest) = false →
    G.readInt lo hi (intText v ++ rest) = .err .badMessage
  readFloat : ∀ wide v rest, Finite wide v → numChar (look rest) = false →
    G.readFloat wide (G.writeFloat wide v ++ rest) = .ok (v, rest)
  skipStr : ∀ v t rest, StrLit v t → G.skipStr (t ++ rest) = .ok rest
  skipObj : ∀ ms t rest, SpellsMembers ms t → G.skipObj (t ++ 0x7d :: rest) = .ok rest
  skipLoose : ∀ v s t rest, StrLit v s → (∀ c ∈ t, c ≠ 0x22 ∧ c ≠ 0x7b ∧ c ≠ 0x7d ∧ c ≠ 0x2f) →
    G.skipObj (s ++ t ++ 0x7d :: rest) = .ok rest
  skipArr : ∀ xs t rest, SpellsItems xs t → G.skipArr (t ++ 0x5d :: rest) = .ok rest
  safeStr : ∀ s, Shortens s (G.readStr s)
  safeView : ∀ s, Shortens s (G.readView s)
  safeInt : ∀ lo hi s, Shortens s (G.readInt lo hi s)
  safeFloat : ∀ wide s, Shortens s (G.readFloat wide s)
  safeSkipStr : ∀ s, Skips s (G.skipStr s)
  safeSkipObj : ∀ s, Skips s (G.skipObj s)
  safeSkipArr : ∀ s, Skips s (G.skipArr s)
  safeSkipComment : ∀ s, Skips s (G.skipComment s)

end HppProto.Json
