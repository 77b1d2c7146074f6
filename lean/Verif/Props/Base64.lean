import Verif.Proofs.Base64
/-!
# C29, C30: base64

`base64Encode`/`base64Decode` model the JSON codec of `bytes` fields; `Spec.base64Text` is RFC 4648.
-/
namespace HppProto.Props
open HppProto Spec

/-- C29: for every byte string the text is the RFC 4648 text, its length is `4⌈n/3⌉` (the size the
encoder reserves), and decoding gives the bytes back. -/
theorem C29_base64 (bs : List Byte) :
    base64Encode bs = base64Text bs ∧ (base64Encode bs).length = 4 * ((bs.length + 2) / 3) ∧
    (base64Encode bs).length = base64MaxSize bs.length ∧ base64Decode (base64Encode bs) = some bs := by
  have hl : (base64Encode bs).length = base64MaxSize bs.length := by rw [encode_rest, rest_length]
  refine ⟨encode_text bs, ?_, hl, decode_encode bs⟩
  rw [hl]; unfold base64MaxSize; split <;> omega

/-- "M", "Ma", "Man" (RFC 4648 style examples), and 25 bytes, which use the unrolled loop. -/
example : base64Encode [0x4d] = [0x54, 0x51, 0x3d, 0x3d] ∧ base64Encode [0x4d, 0x61] = [0x54, 0x57, 0x45, 0x3d] ∧
    base64Encode [0x4d, 0x61, 0x6e] = [0x54, 0x57, 0x46, 0x75] ∧ (base64Encode (List.replicate 25 0xff)).length = 36 := by decide +kernel

/-- Different byte strings have different texts. -/
theorem C29_injective {a b : List Byte} (h : base64Encode a = base64Encode b) : a = b := by
  have := decode_encode a
  rw [h, decode_encode b] at this
  exact (Option.some.inj this).symm

/-- C30, exact acceptance. Claimed: only texts of alphabet characters with at most two `=` at the end
are accepted. What holds: a text is accepted exactly when its length is a multiple of four, every
character before the last four is in the alphabet, and the last four are in the alphabet *or end in
`=`*. Missing: when the last character is `=` the three characters before it are not checked
(`C30_malformed_accepted`). -/
theorem C30_accepted_partial (t : List Byte) : (base64Decode t).isSome = true ↔
    (t = [] ∨ ∃ pre a b c d, t = pre ++ [a, b, c, d] ∧ pre.length % 4 = 0 ∧ (∀ ch ∈ pre, inAlphabet ch) ∧
      ((inAlphabet a ∧ inAlphabet b ∧ inAlphabet c ∧ inAlphabet d) ∨ d = 0x3d)) := decode_some t

/-- Consequences: refused if the length is not a multiple of four, or if a character outside the
alphabet stands before the last four characters, or if the last character is neither in the alphabet
nor `=`. -/
theorem C30_refused_partial (t : List Byte)
    (h : t.length % 4 ≠ 0 ∨ (∃ i ch, t[i]? = some ch ∧ i + 4 < t.length ∧ ¬ inAlphabet ch) ∨
      (∃ pre ch, t = pre ++ [ch] ∧ ¬ inAlphabet ch ∧ ch ≠ 0x3d)) : base64Decode t = none := by
  rw [← Option.not_isSome_iff_eq_none, decode_some]
  intro hl
  rcases h with h | ⟨i, ch, hi, hlt, hc⟩ | ⟨pre, ch, rfl, hc, hne⟩
  · exact h (lenient_length hl)
  · rcases hl with rfl | ⟨pre, a, b, c, d, rfl, _, hp, _⟩
    · simp at hi
    · simp only [List.length_append, List.length_cons, List.length_nil] at hlt
      rw [List.getElem?_append_left (by omega)] at hi
      exact hc (hp ch (List.mem_of_getElem? hi))
  · rcases hl with h | ⟨pre', a, b, c, d, h, _, _, hq⟩
    · simp at h
    · have e : pre ++ [ch] = (pre' ++ [a, b, c]) ++ [d] := by simpa using h
      have := (List.append_inj' e rfl).2
      simp only [List.cons.injEq, and_true] at this
      subst this
      rcases hq with ⟨_, _, _, h⟩ | h
      · exact hc h
      · exact hne h

/-- "TWE", "T!E=TWFu" and "TWF!" are refused. -/
example : base64Decode [0x54, 0x57, 0x45] = none ∧ base64Decode [0x54, 0x21, 0x45, 0x3d, 0x54, 0x57, 0x46, 0x75] = none ∧
    base64Decode [0x54, 0x57, 0x46, 0x21] = none := by decide +kernel

/-- Against C30: "!!!=", "====" and "A=A=" are accepted (two, one and one byte), as are
trailing bits that are not zero ("TR==" like "TQ=="). -/
theorem C30_malformed_accepted : base64Decode [0x21, 0x21, 0x21, 0x3d] = some [0x04, 0x10] ∧
    base64Decode [0x3d, 0x3d, 0x3d, 0x3d] = some [0x04] ∧
    base64Decode [0x41, 0x3d, 0x41, 0x3d] = some [0x04, 0x00] ∧ ¬ inAlphabet 0x21 ∧ ¬ inAlphabet 0x3d ∧
    base64Decode [0x54, 0x52, 0x3d, 0x3d] = base64Decode [0x54, 0x51, 0x3d, 0x3d] := by
  refine ⟨by decide +kernel, by decide +kernel, by decide +kernel, ?_, ?_, by decide +kernel⟩ <;> rw [inAlphabet_iff] <;> decide

end HppProto.Props
