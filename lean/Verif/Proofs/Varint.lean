import Verif.Spec.Varint
/-! Helper lemmas for the varint theorems. -/
namespace HppProto
open Spec

/-- bit `i` of the base-128 payload of `g` -/
def payBit (g : Mem) (i : Nat) : Bool := (g (i / 7)).getLsbD (i % 7)

theorem byte_testBit_mod (b : Byte) (i : Nat) (h : i < 7) :
    (b.toNat % 128).testBit i = b.getLsbD i := by
  have : (128 : Nat) = 2 ^ 7 := rfl
  rw [this, Nat.testBit_mod_two_pow]
  simp [h, BitVec.getLsbD]

theorem testBit_varintVal (n : Nat) : ∀ (g : Mem) (i : Nat),
    (varintVal g n).testBit i = if i < 7 * n then payBit g i else false := by
  induction n with
  | zero => intro g i; simp [varintVal]
  | succ n ih =>
    intro g i
    have hlt : (g 0).toNat % 128 < 2 ^ 7 := Nat.mod_lt _ (by decide)
    have : varintVal g (n + 1) = 2 ^ 7 * varintVal (fun i => g (i + 1)) n + (g 0).toNat % 128 := by
      simp only [varintVal]; omega
    rw [this, Nat.testBit_two_pow_mul_add _ hlt]
    by_cases h : i < 7
    · simp only [h, if_true]
      rw [byte_testBit_mod _ _ h]
      have : i < 7 * (n + 1) := by omega
      simp only [this, if_true, payBit]
      have h1 : i / 7 = 0 := by omega
      have h2 : i % 7 = i := by omega
      rw [h1, h2]
    · simp only [h, if_false]
      rw [ih]
      by_cases h' : i < 7 * (n + 1)
      · have : i - 7 < 7 * n := by omega
        simp only [this, h', if_true, payBit]
        have h1 : i / 7 = (i - 7) / 7 + 1 := by omega
        have h2 : i % 7 = (i - 7) % 7 := by omega
        rw [h1, h2]
      · have : ¬ i - 7 < 7 * n := by omega
        simp [this, h']

theorem varintVal_lt (n : Nat) : ∀ g, varintVal g n < 2 ^ (7 * n) := by
  induction n with
  | zero => intro g; simp [varintVal]
  | succ n ih =>
    intro g
    have h := ih (fun i => g (i + 1))
    have hlt : (g 0).toNat % 128 < 128 := Nat.mod_lt _ (by decide)
    have : 2 ^ (7 * (n + 1)) = 128 * 2 ^ (7 * n) := by
      rw [Nat.mul_add, Nat.pow_add]; omega
    simp only [varintVal]; omega

/-- all bytes so far continue: bits below `7k` are payload, the rest ones -/
def Open (g : Mem) (k : Nat) (r : BitVec 64) : Prop :=
  ∀ i, i < 64 → r.getLsbD i = if i < 7 * k then payBit g i else true

/-- terminated: bits below `7k` are payload, the rest zero -/
def Closed (g : Mem) (k : Nat) (r : BitVec 64) : Prop :=
  ∀ i, i < 64 → r.getLsbD i = if i < 7 * k then payBit g i else false

theorem Closed.eq {g k r} (h : Closed g k r) : r = BitVec.ofNat 64 (varintVal g k) := by
  apply BitVec.eq_of_getLsbD_eq
  intro i hi
  rw [h i hi, BitVec.getLsbD_ofNat, testBit_varintVal]
  simp [hi]

theorem msb_eq (b : Byte) : b.msb = b.getLsbD 7 := by
  simp [BitVec.msb_eq_getLsbD_last]

theorem getLsbD_sext (b : Byte) (i : Nat) (hi : i < 64) :
    (b.signExtend 64).getLsbD i = if i < 7 then b.getLsbD i else b.msb := by
  rw [BitVec.getLsbD_signExtend]
  by_cases h : i < 7
  · have : i < 8 := by omega
    simp [h, hi, this]
  · by_cases h8 : i < 8
    · have : i = 7 := by omega
      subst this
      simp [msb_eq]
    · simp [h, h8, hi]

theorem open_one {g : Mem} (h : (g 0).msb = true) : Open g 1 ((g 0).signExtend 64) := by
  intro i hi
  rw [getLsbD_sext _ _ hi]
  by_cases h7 : i < 7
  · have h1 : i / 7 = 0 := by omega
    have h2 : i % 7 = i := by omega
    simp [h7, payBit, h1, h2]
  · simp [h7, h]

theorem closed_one {g : Mem} (h : (g 0).msb = false) : Closed g 1 ((g 0).signExtend 64) := by
  intro i hi
  rw [getLsbD_sext _ _ hi]
  by_cases h7 : i < 7
  · have h1 : i / 7 = 0 := by omega
    have h2 : i % 7 = i := by omega
    simp [h7, payBit, h1, h2]
  · simp [h7, h]

theorem getLsbD_shlByte {g : Mem} (h0 : (g 0).msb = true) (n : Nat) (hn : 1 ≤ n) (hn8 : n ≤ 8)
    (b : Byte) (i : Nat) (hi : i < 64) :
    (shlByte n b ((g 0).signExtend 64)).getLsbD i =
      if i < 7 * n then true else if i < 7 * n + 7 then b.getLsbD (i - 7 * n) else b.msb := by
  unfold shlByte
  rw [BitVec.getLsbD_or, BitVec.getLsbD_shiftLeft, BitVec.getLsbD_ushiftRight]
  by_cases h : i < 7 * n
  · have h1 : i < n * 7 := by omega
    have h2 : 64 - n * 7 + i < 64 := by omega
    rw [getLsbD_sext _ _ h2]
    have h3 : ¬ 64 - n * 7 + i < 7 := by omega
    simp [h, h1, h3, h0]
  · have h1 : ¬ i < n * 7 := by omega
    have h2 : i - n * 7 < 64 := by omega
    have h3 : ((g 0).signExtend 64).getLsbD (64 - n * 7 + i) = false := by
      apply BitVec.getLsbD_of_ge; omega
    rw [getLsbD_sext _ _ h2, h3]
    have e : i - n * 7 = i - 7 * n := by omega
    by_cases h7 : i < 7 * n + 7
    · have : i - n * 7 < 7 := by omega
      have h4 : i - 7 * n < 7 := by omega
      simp [h, h1, hi, h7, e, h4]
    · have h4 : ¬ i - 7 * n < 7 := by omega
      simp [h, h1, hi, h7, e, h4]

theorem msb_shlByte {g : Mem} (h0 : (g 0).msb = true) (n : Nat) (hn : 1 ≤ n) (hn8 : n ≤ 8)
    (b : Byte) : (shlByte n b ((g 0).signExtend 64)).msb = b.msb := by
  rw [BitVec.msb_eq_getLsbD_last, getLsbD_shlByte h0 n hn hn8 b _ (by omega)]
  have h1 : ¬ 64 - 1 < 7 * n := by omega
  have h2 : ¬ 64 - 1 < 7 * n + 7 := by omega
  simp [h1, h2]

theorem open_step {g : Mem} (h0 : (g 0).msb = true) {k : Nat} {r : BitVec 64} (hk : 1 ≤ k) (hk8 : k ≤ 8)
    (ho : Open g k r) (hb : (g k).msb = true) :
    Open g (k + 1) (r &&& shlByte k (g k) ((g 0).signExtend 64)) := by
  intro i hi
  rw [BitVec.getLsbD_and, ho i hi, getLsbD_shlByte h0 k hk hk8 _ _ hi]
  by_cases h : i < 7 * k
  · have : i < 7 * (k + 1) := by omega
    simp [h, this]
  · by_cases h7 : i < 7 * k + 7
    · have h' : i < 7 * (k + 1) := by omega
      have h1 : i / 7 = k := by omega
      have h2 : i % 7 = i - 7 * k := by omega
      simp [h, h7, h', payBit, h1, h2]
    · have h' : ¬ i < 7 * (k + 1) := by omega
      simp [h, h7, h', hb]

theorem closed_step {g : Mem} (h0 : (g 0).msb = true) {k : Nat} {r : BitVec 64} (hk : 1 ≤ k) (hk8 : k ≤ 8)
    (ho : Open g k r) (hb : (g k).msb = false) :
    Closed g (k + 1) (r &&& shlByte k (g k) ((g 0).signExtend 64)) := by
  intro i hi
  rw [BitVec.getLsbD_and, ho i hi, getLsbD_shlByte h0 k hk hk8 _ _ hi]
  by_cases h : i < 7 * k
  · have : i < 7 * (k + 1) := by omega
    simp [h, this]
  · by_cases h7 : i < 7 * k + 7
    · have h' : i < 7 * (k + 1) := by omega
      have h1 : i / 7 = k := by omega
      have h2 : i % 7 = i - 7 * k := by omega
      simp [h, h7, h', payBit, h1, h2]
    · have h' : ¬ i < 7 * (k + 1) := by omega
      simp [h, h7, h', hb]

theorem msb_sext (b : Byte) : (b.signExtend 64).msb = b.msb := by
  rw [BitVec.msb_eq_getLsbD_last, getLsbD_sext _ _ (by omega)]; simp

/-- index of the first byte without continuation bit, in terms of `msb` -/
theorem msb_iff (b : Byte) : b.msb = true ↔ 128 ≤ b.toNat := by
  rw [BitVec.msb_eq_decide]; simp

theorem not_msb_iff (b : Byte) : b.msb = false ↔ b.toNat < 128 := by
  rw [BitVec.msb_eq_decide]; simp

/-- Varint length by first index: `firstEnd g n` says byte `n-1` is the first below 128. -/
def EndsAt (g : Mem) (n : Nat) : Prop :=
  1 ≤ n ∧ (∀ i, i < n - 1 → (g i).msb = true) ∧ (g (n - 1)).msb = false

theorem varintLen_some {fuel : Nat} : ∀ {g : Mem} {n : Nat},
    varintLen g fuel = some n ↔ (EndsAt g n ∧ n ≤ fuel) := by
  induction fuel with
  | zero => intro g n; simp [varintLen, EndsAt]; omega
  | succ fuel ih =>
    intro g n
    simp only [varintLen]
    by_cases h : (g 0).toNat < 128
    · have hm := (not_msb_iff _).2 h
      simp only [h, if_true, Option.some.injEq]
      constructor
      · rintro rfl
        exact ⟨⟨Nat.le_refl _, fun i hi => by omega, hm⟩, by omega⟩
      · rintro ⟨⟨h1, h2, h3⟩, h4⟩
        apply Classical.byContradiction
        intro hne
        have := h2 0 (by omega)
        rw [hm] at this; exact absurd this (by decide)
    · have hm : (g 0).msb = true := (msb_iff _).2 (by omega)
      simp only [h, if_false, Option.map_eq_some_iff]
      constructor
      · rintro ⟨m, hm', rfl⟩
        obtain ⟨⟨h1, h2, h3⟩, h4⟩ := ih.1 hm'
        refine ⟨⟨by omega, fun i hi => ?_, ?_⟩, by omega⟩
        · cases i with
          | zero => exact hm
          | succ i => exact h2 i (by omega)
        · have : m + 1 - 1 = (m - 1) + 1 := by omega
          rw [this]; exact h3
      · rintro ⟨⟨h1, h2, h3⟩, h4⟩
        have hn1 : n ≠ 1 := by
          rintro rfl; simp at h3; rw [hm] at h3; exact absurd h3 (by decide)
        refine ⟨n - 1, ih.2 ⟨⟨by omega, fun i hi => h2 (i + 1) (by omega), ?_⟩, by omega⟩, by omega⟩
        have : n - 1 - 1 + 1 = n - 1 := by omega
        simp only [this]; exact h3

theorem varintLen_none {fuel : Nat} : ∀ {g : Mem},
    varintLen g fuel = none ↔ ∀ i, i < fuel → (g i).msb = true := by
  induction fuel with
  | zero => intro g; simp [varintLen]
  | succ fuel ih =>
    intro g
    simp only [varintLen]
    by_cases h : (g 0).toNat < 128
    · have hm := (not_msb_iff _).2 h
      simp only [h, if_true]
      constructor
      · intro h; simp at h
      · intro h; have := h 0 (by omega); rw [hm] at this; exact absurd this (by decide)
    · have hm : (g 0).msb = true := (msb_iff _).2 (by omega)
      simp only [h, if_false, Option.map_eq_none_iff]
      rw [ih]
      constructor
      · intro h i hi
        cases i with
        | zero => exact hm
        | succ i => exact h i (by omega)
      · intro h i hi; exact h (i + 1) (by omega)

end HppProto
