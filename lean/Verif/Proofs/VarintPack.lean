import Verif.Proofs.ShiftMix
/-! # Writer lemmas: `packVarint`, `varintSize`, zig-zag -/
namespace HppProto
open Spec

theorem packVarint_small {v : Nat} (h : v < 128) : packVarint v = [BitVec.ofNat 8 v] := by
  rw [packVarint]; simp; omega

theorem packVarint_big {v : Nat} (h : 128 ≤ v) :
    packVarint v = BitVec.ofNat 8 (v % 128 + 128) :: packVarint (v / 128) := by
  rw [packVarint]
  have h1 : v &&& 127 = v % 128 := Nat.and_two_pow_sub_one_eq_mod v 7
  have h2 : (v % 128) ||| 128 = v % 128 + 128 := by
    have := Nat.two_pow_add_eq_or_of_lt (i := 7) (b := v % 128) (by omega) 1
    rw [Nat.or_comm, Nat.add_comm]
    simpa using this.symm
  simp [h, h1, h2, Nat.shiftRight_eq_div_pow]

theorem packVarint_ne_nil (v : Nat) : packVarint v ≠ [] := by
  rw [packVarint]; split <;> simp

theorem varintVal_congr {g h : Mem} : ∀ n, (∀ i, i < n → g i = h i) → varintVal g n = varintVal h n := by
  intro n
  induction n generalizing g h with
  | zero => intro _; rfl
  | succ n ih =>
    intro hh
    simp only [varintVal]
    rw [hh 0 (by omega), ih (fun i hi => hh (i + 1) (by omega))]

theorem startsWith_cons {g : Mem} {b : Byte} {bs : List Byte} :
    startsWith g (b :: bs) ↔ g 0 = b ∧ startsWith (fun i => g (i + 1)) bs := by
  constructor
  · intro h
    exact ⟨h 0 (by simp), fun i hi => h (i + 1) (by simpa using hi)⟩
  · rintro ⟨h0, h⟩ i hi
    cases i with
    | zero => exact h0
    | succ i => exact h i (by simpa using hi)

/-- Any memory that starts with the packed bytes of `v` holds a varint of exactly that
length and value `v`. -/
theorem packVarint_reads (v : Nat) : ∀ g, startsWith g (packVarint v) →
    EndsAt g (packVarint v).length ∧ varintVal g (packVarint v).length = v := by
  induction v using Nat.strongRecOn with
  | _ v ih =>
    intro g hg
    by_cases h : v < 128
    · rw [packVarint_small h] at hg ⊢
      obtain ⟨h0, -⟩ := startsWith_cons.1 hg
      refine ⟨⟨by simp, by simp, ?_⟩, ?_⟩
      · simp only [List.length_singleton, Nat.sub_self, h0]
        rw [not_msb_iff]; simp; omega
      · simp [varintVal, h0]; omega
    · rw [packVarint_big (by omega)] at hg ⊢
      obtain ⟨h0, h1⟩ := startsWith_cons.1 hg
      obtain ⟨⟨e1, e2, e3⟩, ev⟩ := ih (v / 128) (by omega) _ h1
      refine ⟨⟨by simp, ?_, ?_⟩, ?_⟩
      · intro i hi
        simp only [List.length_cons, Nat.add_sub_cancel] at hi
        cases i with
        | zero => rw [h0, msb_iff]; simp; omega
        | succ i => exact e2 i (by omega)
      · simp only [List.length_cons]
        have : (packVarint (v / 128)).length - 1 + 1 = (packVarint (v / 128)).length := by omega
        rw [Nat.add_sub_cancel, ← this]; exact e3
      · simp only [List.length_cons, varintVal, ev, h0]
        simp; omega

theorem log2_or_one {w : Nat} (h : 1 ≤ w) : Nat.log2 (w ||| 1) = Nat.log2 w := by
  have hor : w ||| 1 = w + (1 - w % 2) := by
    have e1 : w = 2 ^ 1 * (w / 2) + w % 2 := by omega
    have e2 := Nat.two_pow_add_eq_or_of_lt (i := 1) (b := w % 2) (by omega) (w / 2)
    have e3 := Nat.two_pow_add_eq_or_of_lt (i := 1) (b := 1) (by omega) (w / 2)
    rcases Nat.mod_two_eq_zero_or_one w with hm | hm
    · rw [hm] at e1 e2
      conv => lhs; rw [e1, Nat.add_zero, ← e3]
      omega
    · have : w ||| 1 = w := by
        conv => lhs; rw [e1, hm, e3, Nat.or_assoc, Nat.or_self, ← e3]
        omega
      omega
  have hw0 : w ≠ 0 := by omega
  rw [hor, Nat.log2_eq_iff (by omega)]
  have a := Nat.log2_self_le hw0
  have b := Nat.lt_log2_self (n := w)
  have : 2 ^ (w.log2 + 1) % 2 = 0 := by rw [Nat.pow_succ]; omega
  omega

theorem packVarint_length_log (v : Nat) : (packVarint v).length = (Nat.log2 (v ||| 1) + 7) / 7 := by
  induction v using Nat.strongRecOn with
  | _ v ih =>
    by_cases h : v < 128
    · rw [packVarint_small h]
      have h1 : v ||| 1 < 2 ^ 7 := Nat.or_lt_two_pow (by omega) (by omega)
      have h2 : v ||| 1 ≠ 0 := by
        intro e; have : 1 ≤ v ||| 1 := Nat.right_le_or; omega
      have := (Nat.log2_lt h2).2 h1
      simp; omega
    · rw [packVarint_big (by omega), List.length_cons, ih _ (by omega)]
      rw [log2_or_one (by omega), log2_or_one (by omega)]
      have : v.log2 = (v / 128).log2 + 7 := by
        rw [Nat.log2_eq_iff (by omega)]
        have hw : v / 128 ≠ 0 := by omega
        have a := Nat.log2_self_le hw
        have b := Nat.lt_log2_self (n := v / 128)
        have e1 : 2 ^ ((v / 128).log2 + 7) = 2 ^ ((v / 128).log2) * 128 := by rw [Nat.pow_add]
        have e2 : 2 ^ ((v / 128).log2 + 7 + 1) = 2 ^ ((v / 128).log2 + 1) * 128 := by
          rw [show (v / 128).log2 + 7 + 1 = ((v / 128).log2 + 1) + 7 by omega, Nat.pow_add]
        rw [e1, e2]
        omega
      omega

/-- `varint_size` is the number of bytes written. -/
theorem varintSize_eq {w v : Nat} (h : v < 2 ^ w) (hw : 1 ≤ w) : varintSize w v = (packVarint v).length := by
  rw [packVarint_length_log, varintSize]
  have h1 : v ||| 1 < 2 ^ w := by
    apply Nat.or_lt_two_pow h
    calc 1 < 2 ^ 1 := by omega
      _ ≤ 2 ^ w := Nat.pow_le_pow_right (by omega) hw
  have h2 : v ||| 1 ≠ 0 := by
    intro e; have : 1 ≤ v ||| 1 := Nat.right_le_or; omega
  have := (Nat.log2_lt h2).2 h1
  omega

theorem packVarint_length_le {v k : Nat} (h : v < 128 ^ (k + 1)) : (packVarint v).length ≤ k + 1 := by
  induction k generalizing v with
  | zero => rw [packVarint_small (by omega)]; simp
  | succ k ih =>
    by_cases h' : v < 128
    · rw [packVarint_small h']; simp
    · rw [packVarint_big (by omega), List.length_cons]
      have : v / 128 < 128 ^ (k + 1) := by
        rw [Nat.div_lt_iff_lt_mul (by omega), ← Nat.pow_succ]; exact h
      have := ih this
      omega

theorem packVarint_length_le10 {v : Nat} (h : v < 2 ^ 64) : (packVarint v).length ≤ 10 := by
  apply packVarint_length_le; omega

theorem packVarint_length_le5 {v : Nat} (h : v < 2 ^ 32) : (packVarint v).length ≤ 5 := by
  apply packVarint_length_le; omega

/-- No encoding of the same value is shorter. -/
theorem packVarint_minimal {v n : Nat} {g : Mem} (hn : 1 ≤ n) (h : varintVal g n = v) :
    (packVarint v).length ≤ n := by
  obtain ⟨k, rfl⟩ : ∃ k, n = k + 1 := ⟨n - 1, by omega⟩
  apply packVarint_length_le
  have := varintVal_lt (g := g) (n := k + 1)
  rw [Nat.pow_mul] at this
  rw [← h]; simpa using this

theorem encodeBits_lt (ty : VarTy) (v : BitVec 64) : ty.encodeBits v < 2 ^ ty.encodeWidth := by
  cases ty <;> simp only [VarTy.encodeBits, VarTy.encodeWidth] <;> exact BitVec.isLt _

theorem encodeBits_lt64 (ty : VarTy) (v : BitVec 64) : ty.encodeBits v < 2 ^ 64 := by
  have h := encodeBits_lt ty v
  have : 2 ^ ty.encodeWidth ≤ 2 ^ 64 := Nat.pow_le_pow_right (by omega) (by cases ty <;> decide)
  omega

/-! zig-zag -/

theorem zigzag32_spec (v : BitVec 32) : (zigzag32 v).toNat = zigzag v.toInt := by
  have hs : v.sshiftRight 31 = if v.msb then BitVec.allOnes 32 else 0#32 := by
    ext i hi
    rw [BitVec.getElem_sshiftRight]
    cases hm : v.msb
    · simp only [Bool.false_eq_true, if_false]
      split
      · have : 31 + i = 31 := by omega
        simp only [this]
        rw [BitVec.msb_eq_getLsbD_last] at hm
        simpa using hm
      · simp
    · simp only [if_true]
      rw [BitVec.getElem_allOnes]
      split
      · have : 31 + i = 31 := by omega
        simp only [this]
        rw [BitVec.msb_eq_getLsbD_last] at hm
        simpa using hm
      · simp
  rw [zigzag32, hs]
  have hlt := v.isLt
  cases hm : v.msb
  · rw [BitVec.msb_eq_false_iff_two_mul_lt] at hm
    simp only [Bool.false_eq_true, if_false, BitVec.xor_zero, BitVec.toNat_shiftLeft, zigzag]
    rw [BitVec.toInt_eq_toNat_of_lt hm, Nat.shiftLeft_eq, if_pos (by omega)]
    omega
  · rw [BitVec.msb_eq_true_iff_two_mul_ge] at hm
    simp only [if_true, BitVec.xor_allOnes, BitVec.toNat_not, BitVec.toNat_shiftLeft, zigzag]
    rw [BitVec.toInt_eq_toNat_cond, Nat.shiftLeft_eq]
    rw [if_neg (by omega)]
    split <;> omega

theorem zigzag64_spec (v : BitVec 64) : (zigzag64 v).toNat = zigzag v.toInt := by
  have hs : v.sshiftRight 63 = if v.msb then BitVec.allOnes 64 else 0#64 := by
    ext i hi
    rw [BitVec.getElem_sshiftRight]
    cases hm : v.msb
    · simp only [Bool.false_eq_true, if_false]
      split
      · have : 63 + i = 63 := by omega
        simp only [this]
        rw [BitVec.msb_eq_getLsbD_last] at hm
        simpa using hm
      · simp
    · simp only [if_true]
      rw [BitVec.getElem_allOnes]
      split
      · have : 63 + i = 63 := by omega
        simp only [this]
        rw [BitVec.msb_eq_getLsbD_last] at hm
        simpa using hm
      · simp
  rw [zigzag64, hs]
  have hlt := v.isLt
  cases hm : v.msb
  · rw [BitVec.msb_eq_false_iff_two_mul_lt] at hm
    simp only [Bool.false_eq_true, if_false, BitVec.xor_zero, BitVec.toNat_shiftLeft, zigzag]
    rw [BitVec.toInt_eq_toNat_of_lt hm, Nat.shiftLeft_eq, if_pos (by omega)]
    omega
  · rw [BitVec.msb_eq_true_iff_two_mul_ge] at hm
    simp only [if_true, BitVec.xor_allOnes, BitVec.toNat_not, BitVec.toNat_shiftLeft, zigzag]
    rw [BitVec.toInt_eq_toNat_cond, Nat.shiftLeft_eq]
    rw [if_neg (by omega)]
    split <;> omega

/-- Zig-zag decoding, arithmetically: `r` is `2m` or `2m+1`, giving `m` or `-m-1`. -/
theorem unzigzag_toNat (r : BitVec 64) : unzigzag r =
    if r.toNat % 2 = 0 then BitVec.ofNat 64 (r.toNat / 2) else ~~~ (BitVec.ofNat 64 (r.toNat / 2)) := by
  have h1 : r >>> 1 = BitVec.ofNat 64 (r.toNat / 2) := by
    apply BitVec.eq_of_toNat_eq
    have := r.isLt
    simp [Nat.shiftRight_eq_div_pow]; omega
  have h2 : r &&& 1#64 = BitVec.ofNat 64 (r.toNat % 2) := by
    apply BitVec.eq_of_toNat_eq
    simp [Nat.and_one_is_mod]; omega
  rw [unzigzag, h1, h2]
  rcases Nat.mod_two_eq_zero_or_one r.toNat with hm | hm
  · simp [hm]
  · rw [hm]
    have : -(1#64) = BitVec.allOnes 64 := by decide
    rw [show BitVec.ofNat 64 1 = 1#64 from rfl, this, BitVec.xor_allOnes]
    simp

end HppProto
