import Verif.Proofs.FloatLiteral

/-!
# Claim C151: floating defaults in generated code
-/

namespace HppProto.Props
open HppProto HppProto.Lex HppProto.Spec.Flt

/-- Not one of the three words. -/
def notWord (s : List Byte) : Prop := s ≠ b!"nan" ∧ s ≠ b!"inf" ∧ s ≠ b!"-inf"

/-- A text other than the three words is accepted exactly if it is a decimal number that is in the range of the type. -/
theorem C151_accepts (inRange : Bool → Nat → Int → Bool) (s : List Byte) (hs : notWord s) (float : Bool) :
    (∃ out, floatingLiteral inRange s float = some out) ↔ ∃ neg m e, Denotes s neg m e ∧ inRange float m e = true := by
  have h1 : ¬(s = b!"inf" ∨ s = b!"-inf") := fun h => h.elim hs.2.1 hs.2.2
  have key : validFloatSpelling (inRange float) s = true ↔ ∃ neg m e, Denotes s neg m e ∧ inRange float m e = true := by
    constructor
    · intro h
      unfold validFloatSpelling at h
      split at h
      · rename_i neg m e hf
        exact ⟨neg, m, e, fromChars_inv hf, h⟩
      · cases h
    · rintro ⟨neg, m, e, ⟨n, hn, rfl, rfl, rfl, rfl⟩, hr⟩
      unfold validFloatSpelling
      rw [fromChars_text hn]
      exact hr
  rw [← key]
  unfold floatingLiteral
  simp only [if_neg hs.1, if_neg h1]
  cases hv : validFloatSpelling (inRange float) s with
  | false => simp
  | true =>
    simp only [Bool.not_true, Bool.false_eq_true, if_false, iff_true]
    split
    · exact ⟨_, rfl⟩
    · split <;> exact ⟨_, rfl⟩

/-- A text is at most one number. -/
theorem C151_unambiguous {s : List Byte} {neg neg' : Bool} {m m' : Nat} {e e' : Int} (h : Denotes s neg m e) (h' : Denotes s neg' m' e') :
    neg = neg' ∧ m = m' ∧ e = e' := by
  obtain ⟨n, hn, rfl, rfl, rfl, rfl⟩ := h
  obtain ⟨k, hk, ht, rfl, rfl, rfl⟩ := h'
  have h1 := fromChars_text hn
  rw [← ht, fromChars_text hk] at h1
  simp only [Option.some.injEq, Prod.mk.injEq, and_true] at h1
  exact ⟨h1.1.symm, h1.2.1.symm, h1.2.2.symm⟩

/-- The C++ expression is of the type of the field and has the number of the text; with `k = 1`, it has one more zero. -/
theorem C151_value (inRange : Bool → Nat → Int → Bool) (s out : List Byte) (hs : notWord s) (float : Bool)
    (h : floatingLiteral inRange s float = some out) :
    ∃ neg m e, ∃ k : Nat, Denotes s neg m e ∧ IsExpression out float neg (m * 10 ^ k) (e - k) := by
  obtain ⟨_, _, _, ⟨n, hn, rfl, rfl, rfl, rfl⟩, _⟩ := (C151_accepts inRange s hs float).1 ⟨out, h⟩
  have h1 : ¬(n.text = b!"inf" ∨ n.text = b!"-inf") := fun h => h.elim hs.2.1 hs.2.2
  unfold floatingLiteral at h
  simp only [if_neg hs.1, if_neg h1] at h
  cases hv : validFloatSpelling (inRange float) n.text with
  | false => simp [hv] at h
  | true =>
    simp only [hv, Bool.not_true, Bool.false_eq_true, if_false] at h
    by_cases hi : dot ∉ n.text ∧ smallE ∉ n.text ∧ bigE ∉ n.text
    · rw [if_pos hi] at h
      obtain ⟨i1, i2⟩ := (integral_iff hn).1 hi
      obtain ⟨neg, whole, point, frac, expo⟩ := n
      cases i1
      cases i2
      obtain ⟨n1, n2, n3, n4, n5⟩ := hn
      cases n3 rfl
      have ht : Num.text ⟨neg, whole, false, [], none⟩ ++ [dot] ++ b!"0" = Num.text ⟨neg, whole, true, b!"0", none⟩ := by
        simp [Num.text]
      refine ⟨_, _, _, 1, ⟨_, ⟨n1, n2, n3, n4, n5⟩, rfl, rfl, rfl, rfl⟩, ⟨neg, whole, true, b!"0", none⟩,
        ⟨n1, fun c hc => ?_, fun h => (nomatch h), .inr (by simp), n5⟩, .inl rfl, rfl, ?_, ?_, ?_⟩
      · rw [List.mem_singleton.1 hc]; decide
      · show decVal (whole ++ b!"0") = decVal (whole ++ []) * 10 ^ 1
        rw [decVal_append_zero, List.append_nil, Nat.pow_one]
      · rfl
      · rw [ht] at h
        cases float with
        | true => simpa using h.symm
        | false => exact .inl (by simpa using h.symm)
    · rw [if_neg hi] at h
      have hl : n.point = true ∨ n.expo.isSome = true := by
        cases hp : n.point with
        | true => exact .inl rfl
        | false =>
          cases he : n.expo with
          | some _ => exact .inr rfl
          | none => exact absurd ((integral_iff hn).2 ⟨hp, he⟩) hi
      refine ⟨_, _, _, 0, ⟨n, hn, rfl, rfl, rfl, rfl⟩, n, hn, hl, rfl, by simp, by simp, ?_⟩
      cases float with
      | true => simpa using h.symm
      | false => exact .inr (by simpa using h.symm)

/-- The three words. -/
theorem C151_words (inRange : Bool → Nat → Int → Bool) :
    floatingLiteral inRange b!"nan" true = some b!"std::numeric_limits<float>::quiet_NaN()" ∧
    floatingLiteral inRange b!"nan" false = some b!"std::numeric_limits<double>::quiet_NaN()" ∧
    floatingLiteral inRange b!"inf" true = some b!"std::numeric_limits<float>::infinity()" ∧
    floatingLiteral inRange b!"inf" false = some b!"std::numeric_limits<double>::infinity()" ∧
    floatingLiteral inRange b!"-inf" true = some b!"-std::numeric_limits<float>::infinity()" ∧
    floatingLiteral inRange b!"-inf" false = some b!"-std::numeric_limits<double>::infinity()" :=
  ⟨rfl, rfl, rfl, rfl, rfl, rfl⟩

/-! ## Concrete cases -/

example : floatingLiteral (fun _ _ _ => true) b!"-017" true = some b!"-017.0F" := by decide +kernel
example : floatingLiteral (fun _ _ _ => true) b!"1.5e+10" false = some b!"static_cast<double>(1.5e+10)" := by decide +kernel
example : floatingLiteral (fun _ _ _ => true) b!".5E-3" true = some b!".5E-3F" := by decide +kernel
example : fromCharsGeneral b!"-1.5e-3" = some (true, 15, -4, []) := by decide +kernel
example : ["", "-", ".", "+1", "1e", "1.5f", "0x1p3", "1;x()", "e5", "1e+", "INF", "nan(1)"].map
    (fun s => floatingLiteral (fun _ _ _ => true) (s.toUTF8.toList.map fun c => BitVec.ofNat 8 c.toNat) false) = List.replicate 12 none := by
  decide +kernel
example : notWord b!"1.5" := by unfold notWord; decide

end HppProto.Props
