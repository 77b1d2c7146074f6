import Verif.Proofs.FieldMask
/-!
# C34: field masks as JSON text

`fieldMaskEncode` writes the inside of a JSON string, `Spec.unescape` is what a JSON reader makes of
it, `fieldMaskDecode` gets that.
-/
namespace HppProto.Props
open HppProto Spec

theorem joined_intercalate (ps : List (List Byte)) : joined ps = List.intercalate [0x2c] ps := by
  cases ps with
  | nil => rfl
  | cons p rest =>
    rw [joined]
    induction rest generalizing p with
    | nil => simp [tailText, List.intercalate]
    | cons q rest ih =>
      have := ih q
      simp only [tailText, List.intercalate, List.intersperse, List.flatten_cons, List.cons_append, List.nil_append] at this ⊢
      rw [this]

/-- The written text is valid inside a JSON string and denotes the paths with commas between them; it
fits in the reserved size. For every list of byte strings. -/
theorem C34_text (ps : List (List Byte)) :
    unescape (fieldMaskEncode ps) = some (List.intercalate [0x2c] ps) ∧ (fieldMaskEncode ps).length ≤ fieldMaskMaxSize ps := by
  rw [← joined_intercalate]
  exact ⟨unescape_encode ps, encode_size ps⟩

/-- C34: reading the text back gives the same list of paths, exactly when no path contains a comma and
the list is not one empty path. (Lists of lower_snake_case names satisfy that.) -/
theorem C34_round_trip (ps : List (List Byte)) :
    (unescape (fieldMaskEncode ps)).map fieldMaskDecode = some ps ↔ ((∀ p ∈ ps, (0x2c : Byte) ∉ p) ∧ ps ≠ [[]]) := by
  rw [unescape_encode, Option.map_some, Option.some.injEq]
  constructor
  · intro h
    refine ⟨fun p hp => ?_, ?_⟩
    · rw [← h] at hp
      exact decode_no_comma _ p hp
    · rintro rfl
      simp [joined, tailText, fieldMaskDecode] at h
  · rintro ⟨h, hne⟩
    exact decode_joined h hne

/-- A lower_snake_case path: lower case letters, digits, underscores and points, not empty. -/
def snakeCase (p : List Byte) : Prop :=
  p ≠ [] ∧ ∀ c ∈ p, (0x61 ≤ c.toNat ∧ c.toNat ≤ 0x7a) ∨ (0x30 ≤ c.toNat ∧ c.toNat ≤ 0x39) ∨ c = 0x5f ∨ c = 0x2e

theorem C34_snake_case (ps : List (List Byte)) (h : ∀ p ∈ ps, snakeCase p) : (unescape (fieldMaskEncode ps)).map fieldMaskDecode = some ps := by
  rw [C34_round_trip]
  refine ⟨fun p hp hc => ?_, ?_⟩
  · rcases (h p hp).2 _ hc with h | h | h | h
    · simp at h
    · simp at h
    · simp at h
    · simp at h
  · rintro rfl
    exact (h [] (by simp)).1 rfl

/-- "a_b" and "c": `a_b,c`; and a path with a quote and a newline is escaped. -/
example : fieldMaskEncode [[0x61, 0x5f, 0x62], [0x63]] = [0x61, 0x5f, 0x62, 0x2c, 0x63] ∧ snakeCase [0x61, 0x5f, 0x62] ∧ snakeCase [0x63] ∧
    fieldMaskEncode [[0x22, 0x0a, 0x01]] = [0x5c, 0x22, 0x5c, 0x6e, 0x5c, 0x75, 0x30, 0x30, 0x30, 0x31] := by
  refine ⟨by decide +kernel, ⟨by simp, ?_⟩, ⟨by simp, ?_⟩, by decide +kernel⟩ <;> decide

end HppProto.Props
