import Verif.Model.Popcount
/-! # Counting by words counts the bytes with a clear top bit -/
namespace HppProto

/-- One byte, as 0 or 1. -/
def termBit (b : Byte) : Nat := if b.msb then 0 else 1

theorem countTerm_cons (b : Byte) (bs : List Byte) : countTerm (b :: bs) = termBit b + countTerm bs := by
  unfold countTerm termBit
  rw [List.countP_cons]
  cases b.msb <;> simp <;> omega

theorem word64_bits (b0 b1 b2 b3 b4 b5 b6 b7 : Byte) :
    (word64 b0 b1 b2 b3 b4 b5 b6 b7).getLsbD 7 = b0.msb ∧ (word64 b0 b1 b2 b3 b4 b5 b6 b7).getLsbD 15 = b1.msb ∧
    (word64 b0 b1 b2 b3 b4 b5 b6 b7).getLsbD 23 = b2.msb ∧ (word64 b0 b1 b2 b3 b4 b5 b6 b7).getLsbD 31 = b3.msb ∧
    (word64 b0 b1 b2 b3 b4 b5 b6 b7).getLsbD 39 = b4.msb ∧ (word64 b0 b1 b2 b3 b4 b5 b6 b7).getLsbD 47 = b5.msb ∧
    (word64 b0 b1 b2 b3 b4 b5 b6 b7).getLsbD 55 = b6.msb ∧ (word64 b0 b1 b2 b3 b4 b5 b6 b7).getLsbD 63 = b7.msb := by
  unfold word64
  simp only [BitVec.getLsbD_append, BitVec.msb_eq_getLsbD_last]
  simp

theorem popcount64_mask (v : BitVec 64) : popcount64 (~~~v &&& 0x8080808080808080#64) =
    (if v.getLsbD 7 then 0 else 1) + (if v.getLsbD 15 then 0 else 1) + (if v.getLsbD 23 then 0 else 1) + (if v.getLsbD 31 then 0 else 1) +
    (if v.getLsbD 39 then 0 else 1) + (if v.getLsbD 47 then 0 else 1) + (if v.getLsbD 55 then 0 else 1) + (if v.getLsbD 63 then 0 else 1) := by
  unfold popcount64
  have e : ∀ b : Bool, (if b = false then 1 else 0) = (if b = true then 0 else 1 : Nat) := by decide
  simp [List.range, List.range.loop, List.countP_cons]
  simp only [e]
  omega

theorem wordTerms_eq (b0 b1 b2 b3 b4 b5 b6 b7 : Byte) :
    wordTerms (word64 b0 b1 b2 b3 b4 b5 b6 b7) =
      termBit b0 + termBit b1 + termBit b2 + termBit b3 + termBit b4 + termBit b5 + termBit b6 + termBit b7 := by
  obtain ⟨h0, h1, h2, h3, h4, h5, h6, h7⟩ := word64_bits b0 b1 b2 b3 b4 b5 b6 b7
  unfold wordTerms
  rw [popcount64_mask, h0, h1, h2, h3, h4, h5, h6, h7]
  rfl

theorem wordsTerms_eq : ∀ (n : Nat) (bs : List Byte), bs.length = 8 * n → wordsTerms bs = countTerm bs
  | 0, bs, h => by
    have : bs = [] := List.length_eq_zero_iff.1 (by omega)
    subst this; rfl
  | n + 1, bs, h => by
    match bs, h with
    | b0 :: b1 :: b2 :: b3 :: b4 :: b5 :: b6 :: b7 :: rest, h =>
      simp only [wordsTerms, wordTerms_eq, countTerm_cons]
      rw [wordsTerms_eq n rest (by simp at h; omega)]
      omega

theorem restTerms_eq (bs : List Byte) (h : bs.length < 8) : restTerms bs = countTerm bs := by
  have e : termBit 255#8 = 0 := rfl
  have z : countTerm [] = 0 := rfl
  match bs, h with
  | [], _ => rfl
  | [b0], _ => simp [restTerms, wordTerms_eq, countTerm_cons, e, z]
  | [b0, b1], _ => simp [restTerms, wordTerms_eq, countTerm_cons, e, z]
  | [b0, b1, b2], _ => simp [restTerms, wordTerms_eq, countTerm_cons, e, z]; omega
  | [b0, b1, b2, b3], _ => simp [restTerms, wordTerms_eq, countTerm_cons, e, z]; omega
  | [b0, b1, b2, b3, b4], _ => simp [restTerms, wordTerms_eq, countTerm_cons, e, z]; omega
  | [b0, b1, b2, b3, b4, b5], _ => simp [restTerms, wordTerms_eq, countTerm_cons, e, z]; omega
  | [b0, b1, b2, b3, b4, b5, b6], _ => simp [restTerms, wordTerms_eq, countTerm_cons, e, z]; omega
  | _ :: _ :: _ :: _ :: _ :: _ :: _ :: _ :: _, h => simp at h; omega

/-- The two counts agree on every byte string. -/
theorem regionTerms_eq (bs : List Byte) : regionTerms bs = countTerm bs := by
  unfold regionTerms
  simp only
  rw [wordsTerms_eq (bs.length / 8) _ (by rw [List.length_take]; omega), restTerms_eq _ (by rw [List.length_drop]; omega)]
  unfold countTerm
  rw [← List.countP_append, List.take_append_drop]

end HppProto
