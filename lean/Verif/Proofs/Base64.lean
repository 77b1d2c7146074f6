import Verif.Model.Base64
import Verif.Spec.Base64
/-! Base64: the encoder writes the RFC 4648 text, the decoder inverts it. -/
namespace HppProto
open Spec

theorem char_alphabet {i : BitVec 32} (h : i.toNat < 64) : base64Char i = alphabet i.toNat := by
  have : ∀ n < 64, base64Chars.getD n 0 = alphabet n := by decide +kernel
  exact this _ h

theorem value_alphabet : ∀ n < 64, base64Value (alphabet n) = n := by decide +kernel

theorem value_cases : ∀ ch : Byte, base64Value ch = 64 ∨ (base64Value ch < 64 ∧ ch = alphabet (base64Value ch)) := by decide +kernel

theorem value_pad' : base64Value 61#8 = 64 := by decide

theorem value_pad : base64Value 0x3d = 64 := by decide

theorem alphabet_ne_pad : ∀ n < 64, alphabet n ≠ 0x3d := by decide +kernel

/-! ### Bits -/

theorem foldl_number (l : List Bool) : ∀ n, l.foldl (fun n b => 2 * n + b.toNat) n = n * 2 ^ l.length + number l := by
  induction l with
  | nil => intro n; simp [number]
  | cons b l ih =>
    intro n
    have e : number (b :: l) = b.toNat * 2 ^ l.length + number l := by
      unfold number; rw [List.foldl_cons, ih]; simp [number]
    rw [List.foldl_cons, ih, e, List.length_cons, Nat.pow_succ, Nat.add_mul, Nat.mul_comm 2 n, Nat.mul_assoc, Nat.mul_comm 2]
    omega

theorem number_append (a b : List Bool) : number (a ++ b) = number a * 2 ^ b.length + number b := by
  unfold number
  rw [List.foldl_append, foldl_number]
  rfl

theorem bits_hi6 : ∀ a : Byte, number ((bits a).take 6) = a.toNat / 4 := by decide +kernel
theorem bits_lo2 : ∀ a : Byte, number ((bits a).drop 6) = a.toNat % 4 := by decide +kernel
theorem bits_hi4 : ∀ a : Byte, number ((bits a).take 4) = a.toNat / 16 := by decide +kernel
theorem bits_lo4 : ∀ a : Byte, number ((bits a).drop 4) = a.toNat % 16 := by decide +kernel
theorem bits_hi2 : ∀ a : Byte, number ((bits a).take 2) = a.toNat / 64 := by decide +kernel
theorem bits_lo6 : ∀ a : Byte, number ((bits a).drop 2) = a.toNat % 64 := by decide +kernel

theorem groups_three (a b c : Byte) (rest : List Bool) : groups (bits a ++ bits b ++ bits c ++ rest) =
    a.toNat / 4 :: (a.toNat % 4 * 16 + b.toNat / 16) :: (b.toNat % 16 * 4 + c.toNat / 64) :: c.toNat % 64 :: groups rest := by
  have e2 : number ((bits a).drop 6 ++ (bits b).take 4) = a.toNat % 4 * 16 + b.toNat / 16 := by
    rw [number_append, bits_lo2, bits_hi4]; rfl
  have e3 : number ((bits b).drop 4 ++ (bits c).take 2) = b.toNat % 16 * 4 + c.toNat / 64 := by
    rw [number_append, bits_lo4, bits_hi2]; rfl
  rw [← bits_hi6, ← e2, ← e3, ← bits_lo6]
  simp only [bits, List.map_cons, List.map_nil, List.cons_append, List.nil_append, groups, List.take_succ_cons, List.take_zero,
    List.drop_succ_cons, List.drop_zero]

theorem groups_one (a : Byte) : groups (bits a) = [a.toNat / 4, a.toNat % 4 * 16] := by
  have e2 : number ((bits a).drop 6 ++ [false, false, false, false]) = a.toNat % 4 * 16 := by
    rw [number_append, bits_lo2]; rfl
  rw [← bits_hi6, ← e2]
  simp only [bits, List.map_cons, List.map_nil, List.cons_append, List.nil_append, groups, List.take_succ_cons, List.take_zero,
    List.drop_succ_cons, List.drop_zero]
  rfl

theorem groups_two (a b : Byte) : groups (bits a ++ bits b) = [a.toNat / 4, a.toNat % 4 * 16 + b.toNat / 16, b.toNat % 16 * 4] := by
  have e2 : number ((bits a).drop 6 ++ (bits b).take 4) = a.toNat % 4 * 16 + b.toNat / 16 := by
    rw [number_append, bits_lo2, bits_hi4]; rfl
  have e3 : number ((bits b).drop 4 ++ [false, false]) = b.toNat % 16 * 4 := by
    rw [number_append, bits_lo4]; rfl
  rw [← bits_hi6, ← e2, ← e3]
  simp only [bits, List.map_cons, List.map_nil, List.cons_append, List.nil_append, groups, List.take_succ_cons, List.take_zero,
    List.drop_succ_cons, List.drop_zero]
  rfl

/-! ### Encoder -/

theorem and_mask6 (x : Nat) : x &&& 63 = x % 64 := Nat.and_two_pow_sub_one_eq_mod x 6
theorem and_mask4 (x : Nat) : x &&& 15 = x % 16 := Nat.and_two_pow_sub_one_eq_mod x 4
theorem and_mask2 (x : Nat) : x &&& 3 = x % 4 := Nat.and_two_pow_sub_one_eq_mod x 2

theorem or_add {x y k : Nat} (h : y < 2 ^ k) : (x * 2 ^ k) ||| y = x * 2 ^ k + y := by
  rw [Nat.mul_comm, Nat.two_pow_add_eq_or_of_lt h]

theorem x_toNat (s0 s1 s2 : Byte) : (s0.setWidth 32 ||| (s1.setWidth 32 <<< 8) ||| (s2.setWidth 32 <<< 16) : BitVec 32).toNat =
    s0.toNat + 256 * s1.toNat + 65536 * s2.toNat := by
  have h0 := s0.isLt; have h1 := s1.isLt; have h2 := s2.isLt
  simp only [BitVec.toNat_or, BitVec.toNat_shiftLeft, BitVec.toNat_setWidth]
  rw [Nat.mod_eq_of_lt (a := s0.toNat) (by omega), Nat.mod_eq_of_lt (a := s1.toNat) (by omega), Nat.mod_eq_of_lt (a := s2.toNat) (by omega),
    Nat.shiftLeft_eq, Nat.shiftLeft_eq, Nat.mod_eq_of_lt (a := s1.toNat * 2 ^ 8) (by omega), Nat.mod_eq_of_lt (a := s2.toNat * 2 ^ 16) (by omega),
    Nat.or_comm s0.toNat, or_add (k := 8) (by omega), Nat.or_comm, or_add (k := 16) (by omega)]
  omega

theorem chunk_eq (a b c : Byte) : base64Chunk a b c =
    [a.toNat / 4, a.toNat % 4 * 16 + b.toNat / 16, b.toNat % 16 * 4 + c.toNat / 64, c.toNat % 64].map alphabet := by
  unfold base64Chunk
  simp only
  have hx := x_toNat a b c
  generalize (a.setWidth 32 ||| (b.setWidth 32 <<< 8) ||| (c.setWidth 32 <<< 16) : BitVec 32) = x at hx
  have ha := a.isLt; have hb := b.isLt; have hc := c.isLt
  have d16 : x.toNat / 2 ^ 16 = c.toNat := by omega
  have d22 : x.toNat / 2 ^ 22 = c.toNat / 64 := by omega
  have d8 : x.toNat / 2 ^ 8 = b.toNat + 256 * c.toNat := by omega
  have m1 : (b.toNat + 256 * c.toNat) % 16 = b.toNat % 16 := by omega
  have m2 : c.toNat / 64 % 64 = c.toNat / 64 := Nat.mod_eq_of_lt (by omega)
  have e1 : ((x >>> 2) &&& 0x3f#32).toNat = a.toNat / 4 := by
    simp only [BitVec.toNat_and, BitVec.toNat_ushiftRight, BitVec.toNat_ofNat, Nat.shiftRight_eq_div_pow]
    rw [show (63 % 2 ^ 32) = 63 from rfl, and_mask6, hx]; simp only [Nat.reducePow]; omega
  have e2 : (((x <<< 4) &&& 0x30#32) ||| ((x >>> 12) &&& 0x0f#32)).toNat = a.toNat % 4 * 16 + b.toNat / 16 := by
    have : (x <<< 4) &&& 0x30#32 = (x &&& 3#32) <<< 4 := by
      rw [BitVec.shiftLeft_and_distrib]; rfl
    rw [this]
    simp only [BitVec.toNat_or, BitVec.toNat_and, BitVec.toNat_ushiftRight, BitVec.toNat_shiftLeft, BitVec.toNat_ofNat, Nat.shiftRight_eq_div_pow,
      Nat.shiftLeft_eq]
    rw [show (15 % 2 ^ 32) = 15 from rfl, show (3 % 2 ^ 32) = 3 from rfl, and_mask4, and_mask2, hx, Nat.mod_eq_of_lt (b := 2 ^ 32) (by omega), or_add (k := 4) (by omega)]
    omega
  have e3 : (((x >>> 6) &&& 0x3c#32) ||| ((x >>> 22) &&& 0x3f#32)).toNat = b.toNat % 16 * 4 + c.toNat / 64 := by
    have : (x >>> 6) &&& 0x3c#32 = ((x >>> 8) &&& 15#32) <<< 2 := by
      have : (x >>> 6) &&& 0x3c#32 = ((x >>> 6) &&& (0x3c#32 &&& 0x3c#32)) := by simp
      apply BitVec.eq_of_toNat_eq
      simp only [BitVec.toNat_and, BitVec.toNat_ushiftRight, BitVec.toNat_shiftLeft, BitVec.toNat_ofNat, Nat.shiftRight_eq_div_pow, Nat.shiftLeft_eq]
      rw [show (15 % 2 ^ 32) = 15 from rfl, show (60 % 2 ^ 32) = 60 from rfl, and_mask4]
      have h60 : ∀ y : Nat, y &&& 60 = y / 4 % 16 * 4 := by
        intro y
        have : y = y / 4 * 2 ^ 2 + y % 4 := by omega
        conv => lhs; rw [this]
        rw [← or_add (k := 2) (by omega), Nat.and_or_distrib_right]
        have h1 : y / 4 * 2 ^ 2 &&& 60 = (y / 4 &&& 15) * 2 ^ 2 := by
          rw [← Nat.shiftLeft_eq, ← Nat.shiftLeft_eq, Nat.shiftLeft_and_distrib]; rfl
        have h2 : ∀ z < 4, z &&& 60 = 0 := by decide
        rw [h1, h2 _ (by omega), Nat.or_zero, and_mask4]
      rw [h60]
      have h1 : x.toNat / 2 ^ 6 / 4 = x.toNat / 2 ^ 8 := by omega
      rw [h1]
      omega
    rw [this]
    simp only [BitVec.toNat_or, BitVec.toNat_and, BitVec.toNat_ushiftRight, BitVec.toNat_shiftLeft, BitVec.toNat_ofNat, Nat.shiftRight_eq_div_pow,
      Nat.shiftLeft_eq]
    rw [show (15 % 2 ^ 32) = 15 from rfl, show (63 % 2 ^ 32) = 63 from rfl, and_mask4, and_mask6, d22, d8, m1, m2, Nat.mod_eq_of_lt (b := 2 ^ 32) (by omega), or_add (k := 2) (by omega)]
  have e4 : ((x >>> 16) &&& 0x3f#32).toNat = c.toNat % 64 := by
    simp only [BitVec.toNat_and, BitVec.toNat_ushiftRight, BitVec.toNat_ofNat, Nat.shiftRight_eq_div_pow]
    rw [show (63 % 2 ^ 32) = 63 from rfl, and_mask6, d16]
  rw [char_alphabet (by omega), char_alphabet (by omega), char_alphabet (by omega), char_alphabet (by omega), e1, e2, e3, e4]
  rfl

theorem rest_chars : ∀ bs, base64Rest bs = (groups (bs.flatMap bits)).map alphabet ++
    List.replicate ((4 - ((groups (bs.flatMap bits)).map alphabet).length % 4) % 4) 0x3d
  | a :: b :: c :: rest => by
    have e : (a :: b :: c :: rest).flatMap bits = bits a ++ bits b ++ bits c ++ rest.flatMap bits := by simp [List.flatMap_cons]
    rw [base64Rest, rest_chars rest, chunk_eq, e, groups_three]
    simp only [List.map_cons, List.map_nil, List.cons_append, List.nil_append, List.length_cons, List.length_map]
    rw [show ((groups (rest.flatMap bits)).length + 1 + 1 + 1 + 1) % 4 = (groups (rest.flatMap bits)).length % 4 by omega]
  | [] => rfl
  | [a] => by
    have ha := a.isLt
    have e : [a].flatMap bits = bits a := by simp
    have e1 : (a.setWidth 32 >>> 2 : BitVec 32).toNat = a.toNat / 4 := by
      simp only [BitVec.toNat_ushiftRight, BitVec.toNat_setWidth, Nat.shiftRight_eq_div_pow]; omega
    have e2 : (((a.setWidth 32 : BitVec 32) &&& 0x03#32) <<< 4).toNat = a.toNat % 4 * 16 := by
      simp only [BitVec.toNat_and, BitVec.toNat_shiftLeft, BitVec.toNat_ofNat, BitVec.toNat_setWidth, Nat.shiftLeft_eq]
      rw [show (3 % 2 ^ 32) = 3 from rfl, and_mask2]; omega
    rw [base64Rest, e, groups_one]
    rw [char_alphabet (by omega), char_alphabet (by omega), e1, e2]
    rfl
  | [a, b] => by
    have ha := a.isLt; have hb := b.isLt
    have e : [a, b].flatMap bits = bits a ++ bits b := by simp
    have e1 : (a.setWidth 32 >>> 2 : BitVec 32).toNat = a.toNat / 4 := by
      simp only [BitVec.toNat_ushiftRight, BitVec.toNat_setWidth, Nat.shiftRight_eq_div_pow]; omega
    have e2 : ((((a.setWidth 32 : BitVec 32) &&& 0x03#32) <<< 4) ||| ((b.setWidth 32 : BitVec 32) >>> 4)).toNat = a.toNat % 4 * 16 + b.toNat / 16 := by
      simp only [BitVec.toNat_or, BitVec.toNat_and, BitVec.toNat_shiftLeft, BitVec.toNat_ofNat, BitVec.toNat_setWidth, Nat.shiftLeft_eq,
        BitVec.toNat_ushiftRight, Nat.shiftRight_eq_div_pow]
      rw [show (3 % 2 ^ 32) = 3 from rfl, and_mask2, Nat.mod_eq_of_lt (a := b.toNat) (by omega), Nat.mod_eq_of_lt (a := a.toNat) (by omega),
        Nat.mod_eq_of_lt (b := 2 ^ 32) (by omega), or_add (k := 4) (by omega)]
    have e3 : (((b.setWidth 32 : BitVec 32) &&& 0x0f#32) <<< 2).toNat = b.toNat % 16 * 4 := by
      simp only [BitVec.toNat_and, BitVec.toNat_shiftLeft, BitVec.toNat_ofNat, BitVec.toNat_setWidth, Nat.shiftLeft_eq]
      rw [show (15 % 2 ^ 32) = 15 from rfl, and_mask4]; omega
    rw [base64Rest, e, groups_two]
    rw [char_alphabet (by omega), char_alphabet (by omega), char_alphabet (by omega), e1, e2, e3]
    rfl

theorem chunks_rest : ∀ (j : Nat) (bs : List Byte), j * 3 ≤ bs.length → (base64Chunks j bs).1 ++ base64Rest (base64Chunks j bs).2 = base64Rest bs ∧
    (base64Chunks j bs).2.length = bs.length - j * 3
  | 0, bs, _ => by simp [base64Chunks]
  | j + 1, a :: b :: c :: rest, h => by
    have := chunks_rest j rest (by simp at h; omega)
    simp only [base64Chunks, List.append_assoc, this.1, this.2, base64Rest, List.length_cons, true_and]
    omega
  | j + 1, [], h => by simp at h
  | j + 1, [a], h => by simp at h; omega
  | j + 1, [a, b], h => by simp at h; omega

theorem blocks_rest : ∀ (k : Nat) (bs : List Byte), k * 24 ≤ bs.length → (base64Blocks k bs).1 ++ base64Rest (base64Blocks k bs).2 = base64Rest bs
  | 0, bs, _ => by simp [base64Blocks]
  | k + 1, bs, h => by
    obtain ⟨h1, h2⟩ := chunks_rest 8 bs (by omega)
    have := blocks_rest k (base64Chunks 8 bs).2 (by omega)
    simp only [base64Blocks, List.append_assoc, this, h1]

theorem encode_text (bs : List Byte) : base64Encode bs = base64Text bs := by
  unfold base64Encode
  simp only
  rw [blocks_rest _ _ (Nat.div_mul_le_self _ _), rest_chars]
  rfl

theorem encode_rest (bs : List Byte) : base64Encode bs = base64Rest bs := by
  unfold base64Encode
  simp only
  rw [blocks_rest _ _ (Nat.div_mul_le_self _ _)]

theorem rest_length : ∀ bs, (base64Rest bs).length = base64MaxSize bs.length
  | a :: b :: c :: rest => by
    rw [base64Rest, List.length_append, rest_length rest, chunk_eq]
    simp only [List.length_map, List.length_cons, List.length_nil, base64MaxSize]
    have h1 : (rest.length + 1 + 1 + 1) / 3 = rest.length / 3 + 1 := by omega
    have h2 : (rest.length + 1 + 1 + 1) % 3 = rest.length % 3 := by omega
    simp only [h1, h2]
    omega
  | [] => rfl
  | [a] => by rw [base64Rest]; simp [base64MaxSize]
  | [a, b] => by rw [base64Rest]; simp [base64MaxSize]

/-! ### Decoder -/

theorem triple_toNat {a b c d : Nat} (ha : a ≤ 64) (hb : b ≤ 64) (hc : c ≤ 64) (hd : d ≤ 64) :
    ((BitVec.ofNat 32 a <<< 18) + (BitVec.ofNat 32 b <<< 12) + (BitVec.ofNat 32 c <<< 6) + BitVec.ofNat 32 d).toNat =
    a * 262144 + b * 4096 + c * 64 + d := by
  simp only [BitVec.toNat_add, BitVec.toNat_shiftLeft, BitVec.toNat_ofNat, Nat.shiftLeft_eq]
  omega

theorem write_bytes {t : BitVec 32} {x y z : Byte} (h : t.toNat / 65536 % 256 = x.toNat) (h2 : t.toNat / 256 % 256 = y.toNat) (h3 : t.toNat % 256 = z.toNat)
    (j len : Nat) : base64Write t j len = [x, y, z].take (len - j) := by
  have and8 : ∀ x : Nat, x &&& 255 = x % 256 := fun x => Nat.and_two_pow_sub_one_eq_mod x 8
  have e : ∀ {v : BitVec 32} {b : Byte}, v.toNat % 256 = b.toNat → BitVec.setWidth 8 (v &&& 0xff#32) = b := by
    intro v b h
    apply BitVec.eq_of_toNat_eq
    simp only [BitVec.toNat_setWidth, BitVec.toNat_and, BitVec.toNat_ofNat]
    rw [show (255 % 2 ^ 32) = 255 from rfl, and8]; omega
  unfold base64Write
  simp only [List.map_cons, List.map_nil]
  rw [e (b := x) (by simp only [BitVec.toNat_ushiftRight, Nat.shiftRight_eq_div_pow]; exact h),
    e (b := y) (by simp only [BitVec.toNat_ushiftRight, Nat.shiftRight_eq_div_pow]; exact h2), e h3]

theorem or_lt64 {a b c d : Nat} (ha : a < 64) (hb : b < 64) (hc : c < 64) (hd : d < 64) : a ||| b ||| c ||| d < 64 :=
  Nat.or_lt_two_pow (n := 6) (Nat.or_lt_two_pow (n := 6) (Nat.or_lt_two_pow (n := 6) ha hb) hc) hd

theorem or_ge {a b : Nat} : a ||| b < 64 → a < 64 ∧ b < 64 := fun h => ⟨Nat.lt_of_le_of_lt Nat.left_le_or h, Nat.lt_of_le_of_lt Nat.right_le_or h⟩

/-- Decoding what follows `out`, with room for exactly the bytes. -/
theorem loop_rest : ∀ (bs out : List Byte), base64Loop (out.length + bs.length) (base64Rest bs) out = some (out ++ bs)
  | a :: b :: c :: rest, out => by
    have ha := a.isLt; have hb := b.isLt; have hc := c.isLt
    rw [base64Rest, chunk_eq]
    simp only [List.map_cons, List.map_nil, List.cons_append, List.nil_append, base64Loop]
    rw [value_alphabet _ (by omega), value_alphabet _ (by omega), value_alphabet _ (by omega), value_alphabet _ (by omega)]
    have hv : ∀ x y w, base64Valid (a.toNat / 4) (a.toNat % 4 * 16 + b.toNat / 16) (b.toNat % 16 * 4 + c.toNat / 64) (c.toNat % 64) x y w = true := by
      intro x y w
      unfold base64Valid
      rw [if_neg]
      have := or_lt64 (a := a.toNat / 4) (b := a.toNat % 4 * 16 + b.toNat / 16) (c := b.toNat % 16 * 4 + c.toNat / 64) (d := c.toNat % 64) (by omega) (by omega) (by omega) (by omega)
      omega
    rw [if_pos (hv _ _ _), write_bytes (x := a) (y := b) (z := c) (by rw [triple_toNat (by omega) (by omega) (by omega) (by omega)]; omega)
      (by rw [triple_toNat (by omega) (by omega) (by omega) (by omega)]; omega) (by rw [triple_toNat (by omega) (by omega) (by omega) (by omega)]; omega)]
    have e : [a, b, c].take (out.length + (rest.length + 1 + 1 + 1) - out.length) = [a, b, c] := by
      apply List.take_of_length_le; simp
    simp only [List.length_cons]
    rw [e]
    have := loop_rest rest (out ++ [a, b, c])
    simp only [List.length_append, List.length_cons, List.length_nil] at this
    rw [show out.length + (rest.length + 1 + 1 + 1) = out.length + (0 + 1 + 1 + 1) + rest.length by omega, this]
    simp
  | [], out => by simp [base64Rest, base64Loop]
  | [a], out => by
    have ha := a.isLt
    have e : [a].flatMap bits = bits a := by simp
    have hr := rest_chars [a]
    rw [e, groups_one] at hr
    have hr' : base64Rest [a] = [alphabet (a.toNat / 4), alphabet (a.toNat % 4 * 16), 0x3d, 0x3d] := hr
    rw [hr', base64Loop]
    simp only
    rw [value_alphabet _ (by omega), value_alphabet _ (by omega), value_pad]
    have hv : base64Valid (a.toNat / 4) (a.toNat % 4 * 16) 64 64 0x3d 0x3d ([] : List Byte).isEmpty = true := by
      unfold base64Valid
      simp
    rw [if_pos hv, write_bytes (x := a) (y := 0x10) (z := 0x40) (by rw [triple_toNat (by omega) (by omega) (by omega) (by omega)]; omega)
      (by rw [triple_toNat (by omega) (by omega) (by omega) (by omega)]; simp; omega) (by rw [triple_toNat (by omega) (by omega) (by omega) (by omega)]; simp; omega)]
    simp [base64Loop]
  | [a, b], out => by
    have ha := a.isLt; have hb := b.isLt
    have e : [a, b].flatMap bits = bits a ++ bits b := by simp
    have hr := rest_chars [a, b]
    rw [e, groups_two] at hr
    have hr' : base64Rest [a, b] = [alphabet (a.toNat / 4), alphabet (a.toNat % 4 * 16 + b.toNat / 16), alphabet (b.toNat % 16 * 4), 0x3d] := hr
    rw [hr', base64Loop]
    simp only
    rw [value_alphabet _ (by omega), value_alphabet _ (by omega), value_alphabet _ (by omega), value_pad]
    have hv : base64Valid (a.toNat / 4) (a.toNat % 4 * 16 + b.toNat / 16) (b.toNat % 16 * 4) 64 (alphabet (b.toNat % 16 * 4)) 0x3d ([] : List Byte).isEmpty = true := by
      unfold base64Valid
      have := alphabet_ne_pad (b.toNat % 16 * 4) (by omega)
      have this' : ¬ alphabet (b.toNat % 16 * 4) = 61#8 := this
      simp [this']
    rw [if_pos hv, write_bytes (x := a) (y := b) (z := 0x40 + 0x40 * BitVec.ofNat 8 (b.toNat % 4 * 0)) (by rw [triple_toNat (by omega) (by omega) (by omega) (by omega)]; omega)
      (by rw [triple_toNat (by omega) (by omega) (by omega) (by omega)]; omega) (by rw [triple_toNat (by omega) (by omega) (by omega) (by omega)]; simp; omega)]
    simp [base64Loop]

/-- The length computed by the decoder from the last two characters. -/
def decLen (t : List Byte) : Nat :=
  t.length / 4 * 3 - (if t.getD (t.length - 1) 0 = 0x3d then 1 else 0) - (if t.getD (t.length - 2) 0 = 0x3d then 1 else 0)

theorem decode_eq (t : List Byte) (h0 : t.length ≠ 0) (h4 : t.length % 4 = 0) : base64Decode t = base64Loop (decLen t) t [] := by
  unfold base64Decode decLen
  simp only
  rw [if_neg h0, if_neg (by omega)]
  congr 1
  by_cases h1 : t.getD (t.length - 1) 0 = 0x3d <;> by_cases h2 : t.getD (t.length - 2) 0 = 0x3d <;> simp only [h1, h2, if_true, if_false] <;> omega

theorem getD_append_back (p t : List Byte) (i : Nat) (h : i < t.length) (h' : 0 < i) :
    (p ++ t).getD ((p ++ t).length - i) 0 = t.getD (t.length - i) 0 := by
  rw [List.getD_eq_getElem?_getD, List.getD_eq_getElem?_getD, List.getElem?_append_right (by simp; omega)]
  congr 2
  simp; omega

theorem getD_append_last2 (p t : List Byte) (h : 2 < t.length) : decLen (p ++ t) = (p.length + t.length) / 4 * 3 -
    (if t.getD (t.length - 1) 0 = 0x3d then 1 else 0) - (if t.getD (t.length - 2) 0 = 0x3d then 1 else 0) := by
  unfold decLen
  rw [getD_append_back p t 1 (by omega) (by omega), getD_append_back p t 2 (by omega) (by omega), List.length_append]

theorem decLen_rest : ∀ bs : List Byte, decLen (base64Rest bs) = bs.length
  | a :: b :: c :: rest => by
    have ih := decLen_rest rest
    have hl := rest_length rest
    by_cases hr : rest = []
    · subst hr
      have ha := a.isLt; have hb := b.isLt; have hc := c.isLt
      have e : base64Rest [a, b, c] = [alphabet (a.toNat / 4), alphabet (a.toNat % 4 * 16 + b.toNat / 16),
          alphabet (b.toNat % 16 * 4 + c.toNat / 64), alphabet (c.toNat % 64)] := by
        rw [base64Rest, chunk_eq]; rfl
      rw [e]
      have h1 := alphabet_ne_pad (b.toNat % 16 * 4 + c.toNat / 64) (by omega)
      have h2 := alphabet_ne_pad (c.toNat % 64) (by omega)
      unfold decLen
      simp only [List.length_cons, List.length_nil, List.getD_cons_succ, List.getD_cons_zero, Nat.zero_add, Nat.reduceAdd, Nat.reduceSub]
      rw [if_neg h1, if_neg h2]
    · have hpos : 0 < rest.length := List.length_pos_iff.2 hr
      have h4 : 4 ≤ (base64Rest rest).length := by
        rw [hl]; unfold base64MaxSize; split <;> omega
      rw [base64Rest, getD_append_last2 _ _ (by omega), chunk_eq]
      unfold decLen at ih
      simp only [List.length_map, List.length_cons, List.length_nil]
      rw [show (0 + 1 + 1 + 1 + 1 + (base64Rest rest).length) / 4 * 3 = (base64Rest rest).length / 4 * 3 + 3 by omega]
      split at ih <;> split at ih <;> simp_all <;> omega
  | [] => rfl
  | [a] => by
    have e : [a].flatMap bits = bits a := by simp
    have hr := rest_chars [a]
    rw [e, groups_one] at hr
    have hr' : base64Rest [a] = [alphabet (a.toNat / 4), alphabet (a.toNat % 4 * 16), 0x3d, 0x3d] := hr
    rw [hr']; unfold decLen; simp
  | [a, b] => by
    have hb := b.isLt
    have e : [a, b].flatMap bits = bits a ++ bits b := by simp
    have hr := rest_chars [a, b]
    rw [e, groups_two] at hr
    have hr' : base64Rest [a, b] = [alphabet (a.toNat / 4), alphabet (a.toNat % 4 * 16 + b.toNat / 16), alphabet (b.toNat % 16 * 4), 0x3d] := hr
    rw [hr']
    have h1 := alphabet_ne_pad (b.toNat % 16 * 4) (by omega)
    unfold decLen
    simp only [List.length_cons, List.length_nil, List.getD_cons_succ, List.getD_cons_zero, Nat.zero_add, Nat.reduceAdd, Nat.reduceSub]
    rw [if_neg h1]; rfl

theorem decode_encode (bs : List Byte) : base64Decode (base64Encode bs) = some bs := by
  rw [encode_rest]
  have hl := rest_length bs
  by_cases hb : bs = []
  · subst hb; rfl
  have hpos : 0 < bs.length := List.length_pos_iff.2 hb
  have h4 : (base64Rest bs).length ≠ 0 ∧ (base64Rest bs).length % 4 = 0 := by
    rw [hl]; unfold base64MaxSize; split <;> omega
  rw [decode_eq _ h4.1 h4.2, decLen_rest]
  have := loop_rest bs []
  simpa using this

/-! ### What the decoder accepts -/

theorem inAlphabet_iff (ch : Byte) : inAlphabet ch ↔ base64Value ch < 64 := by
  constructor
  · rintro ⟨i, hi, rfl⟩
    rw [value_alphabet i hi]; exact hi
  · intro h
    rcases value_cases ch with h' | ⟨h1, h2⟩
    · omega
    · exact ⟨_, h1, h2⟩

/-- Four characters accepted. -/
theorem valid_iff (a b c d : Byte) (e : Bool) : base64Valid (base64Value a) (base64Value b) (base64Value c) (base64Value d) c d e = true ↔
    ((inAlphabet a ∧ inAlphabet b ∧ inAlphabet c ∧ inAlphabet d) ∨ (d = 0x3d ∧ e = true)) := by
  simp only [inAlphabet_iff]
  unfold base64Valid
  by_cases h : base64Value a ||| base64Value b ||| base64Value c ||| base64Value d ≥ 64
  · have hn : ¬ (base64Value a < 64 ∧ base64Value b < 64 ∧ base64Value c < 64 ∧ base64Value d < 64) := by
      rintro ⟨h1, h2, h3, h4⟩
      have := or_lt64 h1 h2 h3 h4
      omega
    rw [if_pos h]
    by_cases hd : d = 0x3d
    · subst hd
      by_cases hc : c = 0x3d
      · subst hc
        rw [value_pad] at hn
        cases e <;> simp [value_pad'] <;> omega
      · have hc' : ¬ c = 61#8 := hc
        rw [value_pad] at hn
        cases e <;> simp [value_pad', hc'] <;> omega
    · have hd' : ¬ d = 61#8 := hd
      simp [hd']; omega
  · rw [if_neg h]
    have h1 := or_ge (Nat.lt_of_not_le h)
    have h2 := or_ge h1.1
    have h3 := or_ge h2.1
    simp [h3.1, h3.2, h2.2, h1.2]

/-- A text the decoder accepts. -/
def lenient (t : List Byte) : Prop :=
  t = [] ∨ ∃ pre a b c d, t = pre ++ [a, b, c, d] ∧ pre.length % 4 = 0 ∧ (∀ ch ∈ pre, inAlphabet ch) ∧
    ((inAlphabet a ∧ inAlphabet b ∧ inAlphabet c ∧ inAlphabet d) ∨ d = 0x3d)

theorem lenient_cons (a b c d : Byte) (rest : List Byte) (hr : rest ≠ []) : lenient (a :: b :: c :: d :: rest) ↔
    ((inAlphabet a ∧ inAlphabet b ∧ inAlphabet c ∧ inAlphabet d) ∧ lenient rest) := by
  constructor
  · rintro (h | ⟨pre, a', b', c', d', h, hl, hp, hq⟩)
    · simp at h
    · match pre, h, hl, hp with
      | [], h, _, _ => simp at h; exact absurd h.2.2.2.2 hr
      | [_], h, hl, _ => simp at hl
      | [_, _], h, hl, _ => simp at hl
      | [_, _, _], h, hl, _ => simp at hl
      | x :: y :: z :: w :: pre, h, hl, hp =>
        simp only [List.cons_append, List.cons.injEq] at h
        obtain ⟨rfl, rfl, rfl, rfl, h⟩ := h
        refine ⟨⟨hp _ (by simp), hp _ (by simp), hp _ (by simp), hp _ (by simp)⟩, Or.inr ⟨pre, a', b', c', d', h, ?_, fun ch hc => hp ch (by simp [hc]), hq⟩⟩
        simp at hl; omega
  · rintro ⟨⟨ha, hb, hc, hd⟩, (h | ⟨pre, a', b', c', d', h, hl, hp, hq⟩)⟩
    · exact absurd h hr
    · refine Or.inr ⟨a :: b :: c :: d :: pre, a', b', c', d', by simp [h], by simp; omega, ?_, hq⟩
      intro ch hm
      simp only [List.mem_cons] at hm
      rcases hm with rfl | rfl | rfl | rfl | hm
      · exact ha
      · exact hb
      · exact hc
      · exact hd
      · exact hp ch hm

theorem lenient_one (a b c d : Byte) : lenient [a, b, c, d] ↔ ((inAlphabet a ∧ inAlphabet b ∧ inAlphabet c ∧ inAlphabet d) ∨ d = 0x3d) := by
  constructor
  · rintro (h | ⟨pre, a', b', c', d', h, hl, hp, hq⟩)
    · simp at h
    · match pre, h with
      | [], h =>
        simp at h
        obtain ⟨rfl, rfl, rfl, rfl⟩ := h
        exact hq
      | x :: pre, h =>
        have := congrArg List.length h
        simp at this
  · intro h
    exact Or.inr ⟨[], a, b, c, d, rfl, rfl, by simp, h⟩

theorem loop_some (len : Nat) : ∀ (t out : List Byte), t.length % 4 = 0 → out.length ≤ len → len ≤ out.length + t.length / 4 * 3 →
    ((base64Loop len t out).isSome ↔ lenient t)
  | [], out, _, h1, h2 => by
    have : out.length = len := by simp at h2; omega
    simp [base64Loop, this, lenient]
  | [_], _, h, _, _ => by simp at h
  | [_, _], _, h, _, _ => by simp at h
  | [_, _, _], _, h, _, _ => by simp at h
  | a :: b :: c :: d :: rest, out, h, h1, h2 => by
    have hw : ∀ t, (base64Write t out.length len).length = min 3 (len - out.length) := by
      intro t; simp [base64Write, Nat.min_comm]
    have hr : rest.length % 4 = 0 := by simp at h; omega
    rw [base64Loop]
    simp only
    by_cases hv : base64Valid (base64Value a) (base64Value b) (base64Value c) (base64Value d) c d rest.isEmpty = true
    · rw [if_pos hv]
      have hlen := fun t => hw t
      rw [loop_some len rest _ hr (by rw [List.length_append, hw]; omega) (by
        rw [List.length_append, hw]
        simp only [List.length_cons] at h2
        omega)]
      rw [valid_iff] at hv
      by_cases he : rest = []
      · subst he
        rw [lenient_one]
        simp only [List.isEmpty_nil, and_true] at hv
        exact iff_of_true (Or.inl rfl) hv
      · rw [lenient_cons _ _ _ _ _ he]
        have hf : rest.isEmpty = false := by simpa using he
        rw [hf] at hv
        simp only [Bool.false_eq_true, and_false, or_false] at hv
        simp [hv]
    · rw [if_neg hv]
      rw [valid_iff] at hv
      by_cases he : rest = []
      · subst he
        rw [lenient_one]
        simp only [List.isEmpty_nil, and_true] at hv
        exact iff_of_false (by simp) hv
      · rw [lenient_cons _ _ _ _ _ he]
        have hf : rest.isEmpty = false := by simpa using he
        rw [hf] at hv
        simp only [Bool.false_eq_true, and_false, or_false] at hv
        simp [hv]

theorem lenient_length {t : List Byte} (h : lenient t) : t.length % 4 = 0 := by
  rcases h with rfl | ⟨pre, a, b, c, d, rfl, hl, _⟩
  · rfl
  · simp; omega

theorem decode_some (t : List Byte) : (base64Decode t).isSome ↔ lenient t := by
  by_cases h0 : t.length = 0
  · have : t = [] := List.length_eq_zero_iff.1 h0
    subst this
    simp [base64Decode, lenient]
  · by_cases h4 : t.length % 4 = 0
    · rw [decode_eq t h0 h4]
      apply loop_some _ _ _ h4 (Nat.zero_le _)
      unfold decLen
      simp only [List.length_nil]
      omega
    · constructor
      · intro h
        unfold base64Decode at h
        simp only at h
        rw [if_neg h0, if_pos h4] at h
        simp at h
      · intro h
        exact absurd (lenient_length h) h4

end HppProto
