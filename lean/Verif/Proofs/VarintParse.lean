import Verif.Proofs.VarintPack
import Verif.Model.Tag
/-! # Reader lemmas: per-type parse, bool, tags -/
namespace HppProto
open Spec

theorem ofNat_low {r : BitVec 64} {v m : Nat} (h : ∀ i, i < m → r.getLsbD i = v.testBit i) (hm : m ≤ 64) :
    r.setWidth m = BitVec.ofNat m v := by
  apply BitVec.eq_of_getLsbD_eq
  intro i hi
  rw [BitVec.getLsbD_setWidth, h i hi, BitVec.getLsbD_ofNat]

theorem ofNat_full {r : BitVec 64} {v : Nat} (h : ∀ i, i < 64 → r.getLsbD i = v.testBit i) :
    r = BitVec.ofNat 64 v := by
  simpa using ofNat_low h (Nat.le_refl 64)

theorem ofNat_low_eq {r : BitVec 64} {v m : Nat} (h : ∀ i, i < m → r.getLsbD i = v.testBit i) (hm : m ≤ 64) :
    r.toNat % 2 ^ m = v % 2 ^ m := by
  have := congrArg BitVec.toNat (ofNat_low h hm)
  simpa using this

theorem setWidth32_of_low {r : BitVec 64} {v m : Nat} (hm : 32 ≤ m)
    (h : ∀ i, i < m → r.getLsbD i = v.testBit i) : r.setWidth 32 = BitVec.ofNat 32 v :=
  ofNat_low (fun i hi => h i (by omega)) (by decide)

theorem cast_eq_of_low32 {ty : VarTy} {a b : BitVec 64} (hty : ty.mix ≠ .w64)
    (h : a.setWidth 32 = b.setWidth 32) : ty.cast a = ty.cast b := by
  cases ty <;> simp only [VarTy.mix, ne_eq, not_true, not_false_eq_true, reduceCtorEq] at hty <;>
    simp only [VarTy.cast, h]

/-- length part for every varint type -/
theorem parse_fst (ty : VarTy) (g : Mem) : (ty.parse g).1 = varintLen g ty.mix.maxLen := by
  rw [← (shiftMix_spec ty.mix g).1]
  cases ty <;> rfl

/-- value part, plain encodings -/
theorem parse_plain (ty : VarTy) (g : Mem) (n : Nat) (hz : ty ≠ .s32 ∧ ty ≠ .s64)
    (h : varintLen g ty.mix.maxLen = some n) :
    (ty.parse g).2 = ty.cast (BitVec.ofNat 64 (varintVal g n)) := by
  have hv := (shiftMix_spec ty.mix g).2 n h
  have hp : (ty.parse g).2 = ty.cast (shiftMix ty.mix g).2 := by
    cases ty <;> first | rfl | simp at hz
  rw [hp]
  by_cases hw : ty.mix = .w64
  · rw [hw] at hv ⊢
    rw [ofNat_full hv]
  · apply cast_eq_of_low32 hw
    have h32 : 32 ≤ ty.mix.exact n := by
      cases ty <;> simp only [VarTy.mix, MixTy.exact] at hw ⊢ <;> first | omega | (split <;> omega)
    rw [setWidth32_of_low h32 hv]
    apply BitVec.eq_of_toNat_eq
    simp

theorem unzigzag_zigzag64 (v : BitVec 64) : unzigzag (zigzag64 v) = v := by
  rw [unzigzag_toNat, zigzag64_spec]
  have hlt := v.isLt
  have hc := BitVec.toInt_eq_toNat_cond v
  split at hc
  · have : zigzag v.toInt = 2 * v.toNat := by rw [zigzag, if_pos (by omega)]; omega
    rw [this, if_pos (by omega)]
    apply BitVec.eq_of_toNat_eq; simp
  · have : zigzag v.toInt = 2 * (2 ^ 64 - 1 - v.toNat) + 1 := by rw [zigzag, if_neg (by omega)]; omega
    rw [this, if_neg (by omega)]
    apply BitVec.eq_of_toNat_eq
    rw [BitVec.toNat_not, BitVec.toNat_ofNat]; omega

theorem cast_unzigzag_zigzag32 (w : BitVec 32) :
    VarTy.s32.cast (unzigzag ((zigzag32 w).setWidth 64)) = w.signExtend 64 := by
  have key : (unzigzag ((zigzag32 w).setWidth 64)).setWidth 32 = w := by
    rw [unzigzag_toNat]
    have hz := zigzag32_spec w
    have hlt := w.isLt
    have hzl := (zigzag32 w).isLt
    have e : ((zigzag32 w).setWidth 64).toNat = (zigzag32 w).toNat := by
      rw [BitVec.toNat_setWidth]; omega
    rw [e, hz]
    have hc := BitVec.toInt_eq_toNat_cond w
    split at hc
    · have : zigzag w.toInt = 2 * w.toNat := by rw [zigzag, if_pos (by omega)]; omega
      rw [this, if_pos (by omega)]
      apply BitVec.eq_of_toNat_eq; simp
    · have : zigzag w.toInt = 2 * (2 ^ 32 - 1 - w.toNat) + 1 := by rw [zigzag, if_neg (by omega)]; omega
      rw [this, if_neg (by omega)]
      apply BitVec.eq_of_toNat_eq
      rw [BitVec.toNat_setWidth, BitVec.toNat_not, BitVec.toNat_ofNat]; omega
  simp only [VarTy.cast, key]

/-- Writer then reader, all six types. -/
theorem parse_pack (ty : VarTy) (v : BitVec 64) (hc : ty.canonical v) (g : Mem)
    (hg : startsWith g (ty.pack v)) : ty.parse g = (some (ty.pack v).length, v) := by
  obtain ⟨he, hv⟩ := packVarint_reads _ g hg
  have hle : (packVarint (ty.encodeBits v)).length ≤ ty.mix.maxLen := by
    cases ty
    case u32 => exact Nat.le_trans (packVarint_length_le5 (encodeBits_lt .u32 v)) (by decide)
    all_goals exact packVarint_length_le10 (encodeBits_lt64 _ v)
  have hl : varintLen g ty.mix.maxLen = some (ty.pack v).length := varintLen_some.2 ⟨he, hle⟩
  apply Prod.ext
  · rw [parse_fst, hl]
  · by_cases hz : ty ≠ .s32 ∧ ty ≠ .s64
    · rw [parse_plain ty g _ hz hl]
      show ty.cast (BitVec.ofNat 64 (varintVal g (packVarint (ty.encodeBits v)).length)) = v
      rw [hv]
      have : BitVec.ofNat 64 (ty.encodeBits v) = v := by
        cases ty
        case s32 => simp at hz
        case s64 => simp at hz
        case u32 =>
          simp only [VarTy.encodeBits]
          rw [← BitVec.setWidth_eq (BitVec.setWidth 32 v), BitVec.setWidth_eq, ← BitVec.ofNat_toNat]
          rw [BitVec.ofNat_toNat]; exact hc
        all_goals simp [VarTy.encodeBits]
      rw [this]; exact hc
    · have hvv := (shiftMix_spec ty.mix g).2 _ hl
      have hz : ty = .s32 ∨ ty = .s64 := by cases ty <;> simp at hz ⊢
      rcases hz with rfl | rfl
      · have h5 : (packVarint (VarTy.s32.encodeBits v)).length ≤ 5 := packVarint_length_le5 (encodeBits_lt .s32 v)
        have hex : VarTy.s32.mix.exact (VarTy.s32.pack v).length = 64 := by
          simp only [VarTy.mix, MixTy.exact, VarTy.pack, h5, if_true]
        rw [hex] at hvv
        show VarTy.s32.cast (unzigzag (shiftMix VarTy.s32.mix g).2) = v
        rw [ofNat_full hvv]
        show VarTy.s32.cast (unzigzag (BitVec.ofNat 64 (varintVal g (packVarint (VarTy.s32.encodeBits v)).length))) = v
        rw [hv]
        have : BitVec.ofNat 64 (VarTy.s32.encodeBits v) = (zigzag32 (v.setWidth 32)).setWidth 64 := by
          simp [VarTy.encodeBits]
        rw [this, cast_unzigzag_zigzag32]; exact hc
      · show unzigzag (shiftMix VarTy.s64.mix g).2 = v
        rw [ofNat_full hvv]
        show unzigzag (BitVec.ofNat 64 (varintVal g (packVarint (VarTy.s64.encodeBits v)).length)) = v
        rw [hv]
        simp [VarTy.encodeBits, unzigzag_zigzag64]

/-! bool -/

theorem varintVal_snoc (g : Mem) (n : Nat) :
    varintVal g (n + 1) = varintVal g n + 128 ^ n * ((g n).toNat % 128) := by
  induction n generalizing g with
  | zero => simp [varintVal]
  | succ n ih =>
    rw [varintVal, ih, varintVal, Nat.pow_succ]
    rw [Nat.mul_add, Nat.add_assoc, ← Nat.mul_assoc, Nat.mul_comm 128 (128 ^ n)]

theorem and7f (b : Byte) : (b &&& 0x7f#8).toNat = b.toNat % 128 := by
  rw [BitVec.toNat_and]; exact Nat.and_two_pow_sub_one_eq_mod _ 7

theorem sub80 : ∀ b : Byte, b.msb = true → b - 0x80#8 = b &&& 0x7f#8 := by decide

theorem ne_zero_of_not_msb : ∀ b : Byte, b.msb = false → ((b != 0#8) = (b &&& 0x7f#8 != 0#8)) := by decide

/-- `byte` summarises the payload bits seen in the first `pos` bytes -/
structure BoolInv (g : Mem) (pos : Nat) (byte : Byte) : Prop where
  pos1 : 1 ≤ pos
  cont : ∀ i, i < pos - 1 → (g i).msb = true
  msb : byte.msb = (g (pos - 1)).msb
  nz : byte &&& 0x7f#8 = 0#8 ↔ varintVal g pos % 2 ^ 64 = 0

theorem varintVal_mod64 {g : Mem} {n : Nat} (h : n ≤ 9) : varintVal g n % 2 ^ 64 = varintVal g n := by
  have h1 := varintVal_lt (g := g) (n := n)
  have : 2 ^ (7 * n) ≤ 2 ^ 64 := Nat.pow_le_pow_right (by omega) (by omega)
  exact Nat.mod_eq_of_lt (by omega)

theorem boolInv_step {g : Mem} {pos : Nat} {byte : Byte} (h : BoolInv g pos byte) (hm : byte.msb = true)
    (hp : pos ≤ 9) :
    BoolInv g (pos + 1) ((byte - 0x80#8) ||| (if pos = 9 then g pos &&& 0x81#8 else g pos)) := by
  obtain ⟨h1, h2, h3, h4⟩ := h
  rw [varintVal_mod64 hp] at h4
  refine ⟨by omega, ?_, ?_, ?_⟩
  · intro i hi
    by_cases e : i = pos - 1
    · rw [e, ← h3]; exact hm
    · exact h2 i (by omega)
  · rw [sub80 _ hm, Nat.add_sub_cancel, BitVec.msb_or]
    have : ∀ b : Byte, (b &&& 0x7f#8).msb = false := by decide
    rw [this]
    have : ∀ b : Byte, (b &&& 0x81#8).msb = b.msb := by decide
    split <;> simp [this]
  · have hm127 : ∀ b : Byte, b &&& 0x7f#8 &&& 0x7f#8 = b &&& 0x7f#8 := by decide
    rw [sub80 _ hm, BitVec.and_comm, BitVec.and_or_distrib_left, BitVec.and_comm 0x7f#8, hm127, BitVec.or_eq_zero_iff, h4]
    by_cases e : pos = 9
    · subst e
      simp only [if_true]
      have hlt := varintVal_lt (g := g) (n := 9)
      rw [varintVal_snoc g 9]
      have : ∀ b : Byte, 0x7f#8 &&& (b &&& 0x81#8) = 0#8 ↔ b.toNat % 2 = 0 := by decide
      rw [this]
      have : (128 : Nat) ^ 9 = 2 ^ 63 := by decide
      rw [this]
      omega
    · rw [if_neg e, varintVal_mod64 (by omega), varintVal_snoc, BitVec.and_comm]
      have : g pos &&& 0x7f#8 = 0#8 ↔ (g pos).toNat % 128 = 0 := by
        rw [← and7f]
        constructor
        · intro h; rw [h]; rfl
        · intro h; exact BitVec.eq_of_toNat_eq h
      rw [this]
      have hpos : 128 ^ pos > 0 := Nat.pow_pos (by omega)
      constructor
      · rintro ⟨a, b⟩; rw [a, b]; simp
      · intro h
        have a : varintVal g pos = 0 := by omega
        have b : 128 ^ pos * ((g pos).toNat % 128) = 0 := by omega
        rcases Nat.mul_eq_zero.1 b with b | b
        · omega
        · exact ⟨a, b⟩

theorem endsAt_inv {g : Mem} {pos : Nat} {byte : Byte} (h : BoolInv g pos byte) (hm : byte.msb = false) :
    EndsAt g pos := ⟨h.pos1, h.cont, by rw [← h.msb]; exact hm⟩

theorem parseBoolFrom_spec (g : Mem) : ∀ left pos byte, BoolInv g pos byte → left + pos = 10 →
    (parseBoolFrom g left pos byte).1 = varintLen g 10 ∧
    ∀ n, varintLen g 10 = some n →
      (parseBoolFrom g left pos byte).2 = decide (varintVal g n % 2 ^ 64 ≠ 0) := by
  intro left
  have stop : ∀ pos byte, BoolInv g pos byte → pos ≤ 10 → byte.msb = false →
      (some pos = varintLen g 10 ∧
    ∀ n, varintLen g 10 = some n → (byte != 0#8) = decide (varintVal g n % 2 ^ 64 ≠ 0)) := by
    intro pos byte hi hp hm
    have hl := varintLen_some.2 ⟨endsAt_inv hi hm, hp⟩
    rw [hl]
    refine ⟨rfl, ?_⟩
    intro n hn; cases hn
    rw [ne_zero_of_not_msb _ hm]
    have := hi.nz
    by_cases e : byte &&& 0x7f#8 = 0#8
    · have hz := this.1 e
      rw [e]; simp only [hz]; decide
    · have hz : ¬ varintVal g pos % 2 ^ 64 = 0 := fun h => e (this.2 h)
      simp only [ne_eq, hz, not_false_eq_true, decide_true]
      simpa using e
  induction left with
  | zero =>
    intro pos byte hi hp
    simp only [parseBoolFrom]
    cases hm : byte.msb
    · simpa using stop pos byte hi (by omega) hm
    · have : varintLen g 10 = none := by
        rw [varintLen_none]
        intro i hlt
        by_cases e : i = pos - 1
        · rw [e, ← hi.msb]; exact hm
        · exact hi.cont i (by omega)
      simp [this]
  | succ left ih =>
    intro pos byte hi hp
    simp only [parseBoolFrom]
    cases hm : byte.msb
    · simpa using stop pos byte hi (by omega) hm
    · simp only [if_true]
      have hs := boolInv_step hi hm (by omega)
      have : (left = 0) = (pos = 9) := by apply propext; omega
      simp only [this]
      exact ih (pos + 1) _ hs (by omega)

theorem parseBool_spec (g : Mem) : (parseBool g).1 = varintLen g 10 ∧
    ∀ n, varintLen g 10 = some n → (parseBool g).2 = decide (varintVal g n % 2 ^ 64 ≠ 0) := by
  have hinit : BoolInv g 1 (g 0) := by
    refine ⟨by omega, by omega, rfl, ?_⟩
    rw [varintVal_mod64 (by omega)]
    simp only [varintVal]
    rw [← and7f]
    constructor
    · intro h; rw [h]; rfl
    · intro h; apply BitVec.eq_of_toNat_eq; simp at h ⊢; exact h
  rw [show parseBool g = parseBoolFrom g 9 1 (g 0) from ?_]
  · exact parseBoolFrom_spec g 9 1 (g 0) hinit (by omega)
  · simp only [parseBool]
    split
    · rename_i h
      rcases h with h | h <;> rw [h] <;> simp [parseBoolFrom]
    · rfl

/-! tags -/

theorem readTag_fst (g : Mem) : (readTag g).1 = varintLen g 5 := (shiftMix_spec .tag g).1

theorem readTag_short (g : Mem) (n : Nat) (h : varintLen g 5 = some n) (h4 : n ≤ 4) :
    (shiftMix .tag g) = (some n, BitVec.ofNat 64 (varintVal g n)) := by
  have hv := (shiftMix_spec .tag g).2 n h
  have h1 := (shiftMix_spec .tag g).1
  apply Prod.ext
  · rw [h1]; exact h
  · apply ofNat_full
    simpa [MixTy.exact, h4] using hv

theorem makeTag_number {number : BitVec 32} {wt : WireType} (hn : number.toNat < 2 ^ 29)
    (hw : wt.toNat < 8) : tagNumber (makeTag number wt) = number ∧ tagType (makeTag number wt) = wt ∧
      (makeTag number wt).toNat = number.toNat * 8 + wt.toNat := by
  have e : (makeTag number wt).toNat = number.toNat * 8 + wt.toNat := by
    rw [makeTag, BitVec.toNat_or, BitVec.toNat_shiftLeft, Nat.shiftLeft_eq]
    rw [Nat.mod_eq_of_lt (by omega), Nat.mul_comm, ← Nat.two_pow_add_eq_or_of_lt (by omega)]
  refine ⟨?_, ?_, e⟩
  · apply BitVec.eq_of_toNat_eq
    rw [tagNumber, BitVec.toNat_ushiftRight, e, Nat.shiftRight_eq_div_pow]; omega
  · apply BitVec.eq_of_toNat_eq
    rw [tagType, BitVec.toNat_and, e]
    have := Nat.and_two_pow_sub_one_eq_mod (number.toNat * 8 + wt.toNat) 3
    simp at this ⊢
    omega

end HppProto
