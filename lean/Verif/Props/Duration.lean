import Verif.Proofs.Duration
/-!
# C31: durations as JSON text

`durationEncode`/`durationDecode` model the codec; `Spec.DurationText` is the text form.
-/
namespace HppProto.Props
open HppProto Spec

/-- C31: the encoder refuses exactly the values that are out of range or of mixed sign; for the others
decoding the text gives the same seconds and nanos. -/
theorem C31_round_trip (s n : Int) :
    (durationOk s n → ∃ t, durationEncode s n = some t ∧ durationDecode t = some (s, n)) ∧
    (¬ durationOk s n → durationEncode s n = none) := by
  refine ⟨fun h => ⟨_, encode_duration h, ?_⟩, encode_refuses⟩
  obtain ⟨hw, hs, hn⟩ := durationParts_spec h
  rw [decode_text _ hw, hs, hn]

/-- -1.5 s, and the extremes; a mixed sign is refused. -/
example : durationEncode (-1) (-500000000) = some [0x2d, 0x31, 0x2e, 0x35, 0x30, 0x30, 0x73] ∧ durationOk (-1) (-500000000) ∧
    durationOk 315576000000 999999999 ∧ durationOk 0 (-1) ∧ ¬ durationOk 1 (-1) := by
  unfold durationOk
  refine ⟨by decide +kernel, ?_, ?_, ?_, ?_⟩ <;> omega

/-- The text the encoder writes: well formed, of the same value, whole seconds without leading zeros, a
fraction of three, six or nine digits, the fewest that are exact, and at most 24 characters (the buffer
has 32). -/
theorem C31_text (s n : Int) (h : durationOk s n) : ∃ p : DurationText, durationEncode s n = some p.text ∧ p.wf ∧ p.value = s * 1000000000 + n ∧
    (s ≠ 0 → p.whole.head? ≠ some 0x30) ∧ (p.frac = none ↔ n = 0) ∧
    (∀ f, p.frac = some f → f.length = (if n % 1000 ≠ 0 then 9 else if n % 1000000 ≠ 0 then 6 else 3)) ∧ p.text.length ≤ 24 := by
  obtain ⟨hw, hs, hn⟩ := durationParts_spec h
  have hb := h
  obtain ⟨h1, h2, h3, h4, h5, h6⟩ := hb
  have hnd := nanosDigits_spec (n := n.natAbs) (by omega)
  refine ⟨durationParts s n, encode_duration h, hw, ?_, ?_, ?_, ?_, ?_⟩
  · unfold DurationText.value
    unfold sgn at hs hn
    simp only
    split <;> simp_all <;> omega
  · intro h0
    exact toDecAux_head 19 _ (by omega) (by omega)
  · unfold durationParts
    simp only
    split
    · rename_i hh; simp [hh]
    · rename_i hh; simpa using hh
  · intro f hf
    unfold durationParts at hf
    simp only at hf
    split at hf
    · injection hf with hf
      subst hf
      rw [hnd.2.2]
      have e1 : (n.natAbs % 1000 ≠ 0) ↔ (n % 1000 ≠ 0) := by omega
      have e2 : (n.natAbs % 1000000 ≠ 0) ↔ (n % 1000000 ≠ 0) := by omega
      simp only [e1, e2]
    · cases hf
  · have hl : (toDec s.natAbs).length ≤ 12 := toDecAux_length 19 _ 11 (by omega)
    unfold DurationText.text durationParts signText
    simp only [List.length_append]
    have hsl : (if decide (n < 0 ∨ s < 0) = true then ([0x2d] : List Byte) else []).length ≤ 1 := by split <;> simp
    have hfl : (fracText (if n ≠ 0 then some (nanosDigits n.natAbs) else none)).length ≤ 10 := by
      split
      · simp only [fracText, List.length_cons, hnd.2.2]
        split <;> (try split) <;> omega
      · simp [fracText]
    simp only [List.length_cons, List.length_nil] at hsl hfl ⊢
    omega

/-- The decoder accepts exactly the texts `-?digits(.digits{1,9})?s` with at most 315576000000 whole
seconds, and returns the value they denote, in range and of one sign. -/
theorem C31_decode_exact (t : List Byte) (s n : Int) : durationDecode t = some (s, n) ↔
    ∃ p : DurationText, p.wf ∧ p.text = t ∧ durationOk s n ∧ s * 1000000000 + n = p.value := by
  have key : ∀ p : DurationText, p.wf → 0 ≤ fracNanos p.frac ∧ fracNanos p.frac < 1000000000 := by
    intro p hw
    refine ⟨fracNanos_nonneg _, ?_⟩
    cases hf : p.frac with
    | none => simp [fracNanos]
    | some f =>
      obtain ⟨_, h2, h3⟩ := hw.2.2.2 f hf
      exact fracNanos_lt f h2 h3
  constructor
  · intro h
    obtain ⟨p, hw, rfl⟩ := decode_sound h
    rw [decode_text p hw] at h
    injection h with h
    injection h with hs hn
    obtain ⟨k1, k2⟩ := key p hw
    have hle := hw.2.2.1
    unfold sgn at hs hn
    cases hneg : p.negative <;> rw [hneg] at hs hn <;> simp only [Bool.false_eq_true, if_false, if_true] at hs hn
    · refine ⟨p, hw, rfl, ?_, ?_⟩
      · unfold durationOk; omega
      · unfold DurationText.value; rw [hneg]; simp only [Bool.false_eq_true, if_false]; omega
    · refine ⟨p, hw, rfl, ?_, ?_⟩
      · unfold durationOk; omega
      · unfold DurationText.value; rw [hneg]; simp only [if_true]; omega
  · rintro ⟨p, hw, rfl, hok, hv⟩
    rw [decode_text p hw]
    obtain ⟨k1, k2⟩ := key p hw
    have hle := hw.2.2.1
    unfold DurationText.value at hv
    unfold durationOk at hok
    unfold sgn
    simp only at hv
    cases hneg : p.negative
    · rw [hneg] at hv
      simp only [Bool.false_eq_true, if_false] at hv ⊢
      congr 2 <;> omega
    · rw [hneg] at hv
      simp only [if_true] at hv ⊢
      congr 2 <;> omega

/-- "-0.05s" is minus fifty milliseconds; "1.s", "1.-5s", "+1s" and "1" are refused. -/
example : durationDecode [0x2d, 0x30, 0x2e, 0x30, 0x35, 0x73] = some (0, -50000000) ∧ durationDecode [0x31, 0x2e, 0x73] = none ∧
    durationDecode [0x31, 0x2e, 0x2d, 0x35, 0x73] = none ∧ durationDecode [0x2b, 0x31, 0x73] = none ∧ durationDecode [0x31] = none := by decide +kernel

end HppProto.Props
