import Verif.Model.Duration
import Verif.Spec.Duration
import Verif.Proofs.Decimal
/-! Duration text: what the decoder accepts and what the encoder writes. -/
namespace HppProto
open Spec

theorem splitPoint_join (s : List Byte) : s = (splitPoint s).1 ++ fracText (splitPoint s).2 := by
  unfold splitPoint
  have h := List.takeWhile_append_dropWhile (p := fun ch : Byte => decide (ch ≠ 0x2e)) (l := s)
  split
  · simp [fracText]
  · rename_i c rest heq
    have hc : c = 0x2e := by
      have := List.head?_dropWhile_not (fun ch : Byte => decide (ch ≠ 0x2e)) s
      rw [heq] at this
      simpa using this
    subst hc
    simp only [fracText]
    rw [heq] at h
    exact h.symm

theorem splitPoint_whole {w : List Byte} (h : ∀ ch ∈ w, isDigit ch = true) : splitPoint w = (w, none) := by
  have hp : ∀ ch ∈ w, decide (ch ≠ 0x2e) = true := by
    intro ch hc
    have := h ch hc
    simp only [ne_eq, decide_not, Bool.not_eq_eq_eq_not, Bool.not_true, decide_eq_false_iff_not]
    rintro rfl
    rw [not_digit_point] at this; cases this
  unfold splitPoint
  have e : w.dropWhile (fun ch : Byte => decide (ch ≠ 0x2e)) = [] := by
    have := List.dropWhile_append_of_pos (l₂ := []) hp
    simpa using this
  rw [e]

theorem splitPoint_frac {w f : List Byte} (h : ∀ ch ∈ w, isDigit ch = true) : splitPoint (w ++ 0x2e :: f) = (w, some f) := by
  have hp : ∀ ch ∈ w, decide (ch ≠ 0x2e) = true := by
    intro ch hc
    have := h ch hc
    simp only [ne_eq, decide_not, Bool.not_eq_eq_eq_not, Bool.not_true, decide_eq_false_iff_not]
    rintro rfl
    rw [not_digit_point] at this; cases this
  unfold splitPoint
  rw [List.dropWhile_append_of_pos hp, List.takeWhile_append_of_pos hp]
  simp

/-- Signed by a flag. -/
def sgn (neg : Bool) (x : Int) : Int := if neg then -x else x

theorem fracNanos_lt (f : List Byte) (h1 : f.length ≤ 9) (h : ∀ ch ∈ f, isDigit ch = true) : fracNanos (some f) < 1000000000 := by
  have := decVal_lt f h
  have e : 10 ^ f.length * 10 ^ (9 - f.length) = 1000000000 := by
    rw [← Nat.pow_add, show f.length + (9 - f.length) = 9 by omega]
  have h2 : decVal f * 10 ^ (9 - f.length) < 1000000000 := by
    rw [← e]
    exact Nat.mul_lt_mul_of_pos_right this (Nat.pow_pos (by omega))
  show (decVal f : Int) * 10 ^ (9 - f.length) < 1000000000
  have h3 : ((decVal f * 10 ^ (9 - f.length) : Nat) : Int) < ((1000000000 : Nat) : Int) := Int.ofNat_lt.2 h2
  rw [Int.natCast_mul, Int.natCast_pow] at h3
  exact h3

theorem fracNanos_nonneg (f : Option (List Byte)) : 0 ≤ fracNanos f := by
  cases f with
  | none => simp [fracNanos]
  | some f => simp only [fracNanos]; exact_mod_cast Nat.zero_le _

theorem decode_text (p : DurationText) (h : p.wf) : durationDecode p.text = some (sgn p.negative (decVal p.whole), sgn p.negative (fracNanos p.frac)) := by
  obtain ⟨hne, hd, hle, hf⟩ := h
  obtain ⟨neg, w, frac⟩ := p
  simp only at hne hd hle hf
  unfold durationDecode
  have hlast : (DurationText.text ⟨neg, w, frac⟩).getLast? = some 0x73 := by simp [DurationText.text]
  have hdrop : (DurationText.text ⟨neg, w, frac⟩).dropLast = signText neg ++ (w ++ fracText frac) := by
    simp [DurationText.text]
  rw [if_neg (by simp [hlast]), hdrop]
  simp only
  have hwhead : w.head? ≠ some 0x2d := by
    intro hh
    have := hd 0x2d (List.mem_of_mem_head? hh)
    rw [not_digit_minus] at this; cases this
  have hneg : ((signText neg ++ (w ++ fracText frac)).head? = some (0x2d : Byte)) ↔ neg = true := by
    cases neg with
    | true => simp [signText]
    | false =>
      simp only [signText, Bool.false_eq_true, if_false, List.nil_append, iff_false]
      rw [List.head?_append, Option.or_of_isSome (by simpa using hne)]
      exact hwhead
  have htail : (if ((signText neg ++ (w ++ fracText frac)).head? = some (0x2d : Byte)) then
      (signText neg ++ (w ++ fracText frac)).tail else
      (signText neg ++ (w ++ fracText frac))) = w ++ fracText frac := by
    cases neg with
    | true => simp [signText]
    | false => rw [if_neg (by rw [hneg]; simp)]; rfl
  rw [htail]
  have hsplit : splitPoint (w ++ fracText frac) = (w, frac) := by
    cases frac with
    | none => simpa [fracText] using splitPoint_whole hd
    | some f => exact splitPoint_frac hd
  rw [hsplit]
  simp only
  have hw : fromStrView 0 maxU64 w = some (decVal w : Int) := by
    rw [fromStrView_iff]
    exact ⟨false, w, by simp, rfl, hne, hd, rfl, by omega, by unfold maxU64; omega⟩
  rw [hw]
  simp only
  rw [if_pos (show (decVal w : Int) < 2 ^ 63 by omega), if_neg (by omega)]
  simp only [hneg]
  cases frac with
  | none => cases neg <;> simp [sgn, fracNanos]
  | some f =>
    obtain ⟨h1, h2, h3⟩ := hf f rfl
    have hfh : ¬ (f.head? = some 0x2d ∨ f.length > 9) := by
      rintro (hh | hh)
      · have := h3 0x2d (List.mem_of_mem_head? hh)
        rw [not_digit_minus] at this; cases this
      · omega
    have hv : fromStrView minI32 maxI32 f = some (decVal f : Int) := by
      rw [fromStrView_iff]
      have hb := decVal_lt f h3
      have : 10 ^ f.length ≤ 10 ^ 9 := Nat.pow_le_pow_right (by omega) h2
      refine ⟨false, f, by simp, rfl, ?_, h3, rfl, by unfold minI32; omega, by unfold maxI32; omega⟩
      rintro rfl; simp at h1
    simp only [hfh, if_false, hv, Option.map_some]
    cases neg <;> simp [sgn, fracNanos, scaleNanos]

theorem decode_sound {t : List Byte} {v : Int × Int} (h : durationDecode t = some v) : ∃ p : DurationText, p.wf ∧ p.text = t := by
  unfold durationDecode at h
  split at h
  · simp at h
  rename_i hl
  simp only at h
  have ht : t = t.dropLast ++ [0x73] := by
    have hl' : t.getLast? = some 0x73 := by simpa using hl
    obtain ⟨ys, hy⟩ := List.getLast?_eq_some_iff.1 hl'
    rw [hy]; simp
  generalize hs : t.dropLast = s at h ht
  generalize hs' : (if s.head? = some 0x2d then s.tail else s) = s' at h
  have hss : s = signText (decide (s.head? = some 0x2d)) ++ s' := by
    subst hs'
    unfold signText
    by_cases hh : s.head? = some 0x2d
    · cases s with
      | nil => simp at hh
      | cons a s => simp at hh; simp [hh]
    · simp only [hh, if_false, decide_false, Bool.false_eq_true, List.nil_append]
  split at h
  · simp at h
  rename_i u hu
  by_cases hr : (if u < 2 ^ 63 then u else u - 2 ^ 64) > 315576000000 ∨ (if u < 2 ^ 63 then u else u - 2 ^ 64) < 0
  · rw [if_pos hr] at h; cases h
  rw [if_neg hr] at h
  rw [fromStrView_iff] at hu
  obtain ⟨neg, ds, hlo, hds, hne, hall, hu, h0, hmax⟩ := hu
  have hneg : neg = false := by cases neg with | false => rfl | true => simp at hlo
  subst hneg
  simp only [Bool.false_eq_true, if_false] at hds hu
  have hle : decVal ds ≤ 315576000000 := by
    unfold maxU64 at hmax
    split at hr <;> omega
  refine ⟨⟨decide (s.head? = some 0x2d), ds, (splitPoint s').2⟩, ⟨hne, hall, hle, ?_⟩, ?_⟩
  · intro f hf
    simp only at hf
    rw [hf] at h
    simp only at h
    split at h
    · simp at h
    rename_i n hn
    split at hn
    · simp at hn
    rename_i hb
    simp only [Option.map_eq_some_iff] at hn
    obtain ⟨m, hm, -⟩ := hn
    rw [fromStrView_iff] at hm
    obtain ⟨neg, fs, -, hfs, hfne, hfall, -⟩ := hm
    cases neg with
    | true =>
      simp only [if_true] at hfs
      subst hfs
      simp at hb
    | false =>
      simp only [Bool.false_eq_true, if_false] at hfs
      subst hfs
      exact ⟨List.length_pos_iff.2 hfne, by omega, hfall⟩
  · have := splitPoint_join s'
    rw [hds] at this
    rw [ht]
    conv => rhs; rw [hss, this]
    simp [DurationText.text]

/-! ### Encoder -/

theorem digits_append {a b : List Byte} (ha : ∀ ch ∈ a, isDigit ch = true) (hb : ∀ ch ∈ b, isDigit ch = true) : ∀ ch ∈ a ++ b, isDigit ch = true := by
  intro ch h
  rcases List.mem_append.1 h with h | h
  · exact ha ch h
  · exact hb ch h

/-- The fraction has three, six or nine digits, and denotes the nanoseconds. -/
theorem nanosDigits_spec {n : Nat} (h : n < 1000000000) :
    (∀ ch ∈ nanosDigits n, isDigit ch = true) ∧ decVal (nanosDigits n) * 10 ^ (9 - (nanosDigits n).length) = n ∧
    (nanosDigits n).length = (if n % 1000 ≠ 0 then 9 else if n % 1000000 ≠ 0 then 6 else 3) := by
  unfold nanosDigits
  simp only
  by_cases h1 : n % 1000 ≠ 0
  · rw [if_pos h1, if_pos h1]
    refine ⟨digits_append (digits_append (fixed_digits _ _) (fixed_digits _ _)) (fixed_digits _ _), ?_, by simp [fixed_length]⟩
    simp only [decVal_append, fixed_val, fixed_length, List.length_append]
    omega
  · rw [if_neg h1, if_neg h1]
    by_cases h2 : n / 1000 % 1000 ≠ 0
    · rw [if_pos h2, if_pos (by omega)]
      refine ⟨digits_append (fixed_digits _ _) (fixed_digits _ _), ?_, by simp [fixed_length]⟩
      simp only [decVal_append, fixed_val, fixed_length, List.length_append]
      omega
    · rw [if_neg h2, if_neg (by omega)]
      refine ⟨fixed_digits _ _, ?_, by simp [fixed_length]⟩
      simp only [fixed_val, fixed_length]
      omega

theorem sameSign_iff (s n : Int) : hasSameSign s n = true ↔ ¬ (s < 0 ∧ 0 < n) ∧ ¬ (0 < s ∧ n < 0) := by
  unfold hasSameSign
  simp only [Bool.or_eq_true, decide_eq_true_eq, beq_iff_eq, decide_eq_decide]
  omega

/-- The parts the encoder writes. -/
def durationParts (s n : Int) : DurationText :=
  ⟨decide (n < 0 ∨ s < 0), toDec s.natAbs, if n ≠ 0 then some (nanosDigits n.natAbs) else none⟩

theorem encode_duration {s n : Int} (h : durationOk s n) : durationEncode s n = some (durationParts s n).text := by
  obtain ⟨h1, h2, h3, h4, h5, h6⟩ := h
  unfold durationEncode
  rw [if_neg (by rw [sameSign_iff]; omega)]
  unfold durationParts DurationText.text signText
  simp only [Option.some.injEq, decide_eq_true_eq]
  by_cases hn : n ≠ 0
  · simp only [if_pos hn, fracText]
  · simp only [if_neg hn, fracText]

theorem encode_refuses {s n : Int} (h : ¬ durationOk s n) : durationEncode s n = none := by
  unfold durationOk at h
  unfold durationEncode
  rw [if_pos]
  rw [sameSign_iff]
  omega

theorem durationParts_spec {s n : Int} (h : durationOk s n) : (durationParts s n).wf ∧
    sgn (durationParts s n).negative (decVal (durationParts s n).whole) = s ∧
    sgn (durationParts s n).negative (fracNanos (durationParts s n).frac) = n := by
  obtain ⟨h1, h2, h3, h4, h5, h6⟩ := h
  have hv : decVal (toDec s.natAbs) = s.natAbs := toDecAux_val 19 _ (by omega)
  have hs := nanosDigits_spec (n := n.natAbs) (by omega)
  have hf : fracNanos (durationParts s n).frac = n.natAbs := by
    unfold durationParts
    simp only
    split
    · have := hs.2.1
      simp only [fracNanos]
      have h' : (((decVal (nanosDigits n.natAbs)) * 10 ^ (9 - (nanosDigits n.natAbs).length) : Nat) : Int) = (n.natAbs : Int) := by rw [this]
      rw [Int.natCast_mul, Int.natCast_pow] at h'
      exact h'
    · simp only [fracNanos]; omega
  refine ⟨⟨toDecAux_ne 19 _, toDecAux_digits 19 _, ?_, ?_⟩, ?_, ?_⟩
  · show decVal (toDec s.natAbs) ≤ _
    rw [hv]; omega
  · intro f hf
    unfold durationParts at hf
    simp only at hf
    split at hf
    · injection hf with hf
      subst hf
      refine ⟨?_, ?_, hs.1⟩ <;> rw [hs.2.2] <;> split <;> (try split) <;> omega
    · cases hf
  · show sgn (decide (n < 0 ∨ s < 0)) (decVal (toDec s.natAbs) : Int) = s
    rw [hv]
    unfold sgn
    simp only [decide_eq_true_eq]
    split <;> omega
  · rw [hf]
    show sgn (decide (n < 0 ∨ s < 0)) (n.natAbs : Int) = n
    unfold sgn
    simp only [decide_eq_true_eq]
    split <;> omega

end HppProto
