import Verif.Model.ByteOrder
import Verif.Proofs.Base64
import Verif.Proofs.WireItems

/-! Lemmas for `Verif/Props/ByteOrder.lean`. -/

namespace HppProto.ByteOrder
open HppProto

theorem leNat_leBytes : ∀ (k v : Nat), v < 256 ^ k → leNat (leBytes k v) = v
  | 0, v, h => by simp at h; simp [leBytes, leNat, h]
  | k + 1, v, h => by
    have := leNat_leBytes k (v / 256) (by rw [Nat.pow_succ] at h; omega)
    simp only [leBytes, leNat, this, BitVec.toNat_ofNat]
    omega

theorem leNat_lt : ∀ bs : List Byte, leNat bs < 256 ^ bs.length
  | [] => by simp [leNat]
  | b :: bs => by
    have := leNat_lt bs
    have hb := b.isLt
    simp only [leNat, List.length_cons, Nat.pow_succ]
    omega

theorem leBytes_leNat : ∀ bs : List Byte, leBytes bs.length (leNat bs) = bs
  | [] => rfl
  | b :: bs => by
    have hb := b.isLt
    have h1 : (b.toNat + 256 * leNat bs) / 256 = leNat bs := by omega
    have h2 : BitVec.ofNat 8 (b.toNat + 256 * leNat bs) = b := by
      apply BitVec.eq_of_toNat_eq
      simp only [BitVec.toNat_ofNat]
      omega
    simp only [leNat, List.length_cons, leBytes, h1, h2, leBytes_leNat bs]

theorem reverse_one {bs : List Byte} (h : bs.length = 1) : bs.reverse = bs := by
  match bs, h with
  | [b], _ => rfl

theorem toMemory_one (o : Order) (v : Nat) : toMemory o 1 v = leBytes 1 v := by
  cases o
  · rfl
  · exact reverse_one (leBytes_length 1 v)

theorem writeItem_eq (o : Order) (k v : Nat) : writeItem o k v = leBytes k v := by
  unfold writeItem
  cases o with
  | little => rfl
  | big =>
    by_cases h : k = 1
    · subst h; exact toMemory_one .big v
    · simp [Order.swapped, h, toMemory]

theorem writeArray_eq (o : Order) (k : Nat) (vs : List Nat) : writeArray o k vs = (vs.map (leBytes k)).flatten := by
  unfold writeArray
  by_cases h : (!o.swapped || k == 1) = true
  · rw [if_pos h]
    congr 2
    funext v
    cases o with
    | little => rfl
    | big =>
      have : k = 1 := by simpa [Order.swapped] using h
      subst this
      exact toMemory_one .big v
  · rw [if_neg h]
    congr 2
    funext v
    exact writeItem_eq o k v

theorem readItem_eq (o : Order) (bytes : List Byte) : readItem o bytes = leNat bytes := by
  cases o <;> simp [readItem, Order.swapped, fromMemory]

theorem pieces_length (k : Nat) : ∀ (n : Nat) (bytes : List Byte), (pieces k n bytes).length = n
  | 0, _ => rfl
  | n + 1, bytes => by simp [pieces, pieces_length k n]

theorem pieces_each (k : Nat) : ∀ (n : Nat) (bytes : List Byte), bytes.length = n * k → ∀ p ∈ pieces k n bytes, p.length = k
  | 0, _, _, p, hp => by simp [pieces] at hp
  | n + 1, bytes, h, p, hp => by
    rw [Nat.succ_mul] at h
    simp only [pieces, List.mem_cons] at hp
    rcases hp with rfl | hp
    · simp; omega
    · exact pieces_each k n _ (by simp; omega) p hp

theorem pieces_flatten (k : Nat) : ∀ (n : Nat) (bytes : List Byte), bytes.length = n * k → (pieces k n bytes).flatten = bytes
  | 0, bytes, h => by
    simp at h
    simp [pieces, h]
  | n + 1, bytes, h => by
    rw [Nat.succ_mul] at h
    simp only [pieces, List.flatten_cons]
    rw [pieces_flatten k n _ (by simp; omega), List.take_append_drop]

theorem pieces_of_flatten (k : Nat) : ∀ (ps : List (List Byte)), (∀ p ∈ ps, p.length = k) → pieces k ps.length ps.flatten = ps
  | [], _ => rfl
  | p :: ps, h => by
    have hp := h p (by simp)
    have ih := pieces_of_flatten k ps (fun q hq => h q (by simp [hq]))
    simp only [List.length_cons, pieces, List.flatten_cons]
    rw [List.take_left' hp, List.drop_left' hp, ih]

theorem fromMemory_swapped (o : Order) (p : List Byte) :
    fromMemory o (if o.swapped then p.reverse else p) = leNat p := by
  cases o <;> simp [Order.swapped, fromMemory]

theorem fromMemory_one (o : Order) {p : List Byte} (h : p.length ≤ 1) : fromMemory o p = leNat p := by
  cases o with
  | little => rfl
  | big =>
    show leNat p.reverse = leNat p
    congr 1
    match p, h with
    | [], _ => rfl
    | [b], _ => rfl

theorem readPacked_eq (o : Order) (k n : Nat) {bytes : List Byte} (h : bytes.length = n * k) :
    readPacked o k n bytes = (pieces k n bytes).map leNat := by
  unfold readPacked
  by_cases hc : (decide (k > 1) && o.swapped) = true
  · rw [if_pos hc]
    cases o with
    | little => simp [Order.swapped] at hc
    | big => simp [fromMemory]
  · rw [if_neg hc]
    apply List.map_congr_left
    intro p hp
    have hl := pieces_each k n bytes h p hp
    cases o with
    | little => rfl
    | big =>
      have : k ≤ 1 := by simpa [Order.swapped] using hc
      exact fromMemory_one _ (by omega)

theorem appendRaw_eq (o : Order) (k n : Nat) (hk : 0 < k) {bytes : List Byte} (h : bytes.length = n * k) :
    appendRaw o k bytes = .ok ((pieces k n bytes).map leNat) := by
  have hd : bytes.length / k = n := by rw [h]; exact Nat.mul_div_cancel _ hk
  have hm : bytes.length % k = 0 := by rw [h]; exact Nat.mul_mod_left _ _
  unfold appendRaw
  by_cases hc : (decide (k > 1) && o.swapped) = true
  · rw [if_pos hc]
    unfold bitCastView
    rw [if_pos hm, hd]
    congr 1
    apply List.map_congr_left
    intro p _
    exact fromMemory_swapped o p
  · rw [if_neg hc, hd]
    congr 1
    apply List.map_congr_left
    intro p hp
    have hl := pieces_each k n bytes h p hp
    cases o with
    | little => rfl
    | big =>
      have : k ≤ 1 := by simpa [Order.swapped] using hc
      exact fromMemory_one _ (by omega)

/-! ## Base64 -/

theorem y_toNat (s0 s1 s2 : Byte) :
    (((s0.setWidth 32 <<< 24) ||| (s1.setWidth 32 <<< 16) ||| (s2.setWidth 32 <<< 8) : BitVec 32) >>> 8).toNat =
    65536 * s0.toNat + 256 * s1.toNat + s2.toNat := by
  have h0 := s0.isLt; have h1 := s1.isLt; have h2 := s2.isLt
  simp only [BitVec.toNat_ushiftRight, BitVec.toNat_or, BitVec.toNat_shiftLeft, BitVec.toNat_setWidth]
  rw [Nat.mod_eq_of_lt (a := s0.toNat) (by omega), Nat.mod_eq_of_lt (a := s1.toNat) (by omega), Nat.mod_eq_of_lt (a := s2.toNat) (by omega),
    Nat.shiftLeft_eq, Nat.shiftLeft_eq, Nat.shiftLeft_eq, Nat.mod_eq_of_lt (a := s0.toNat * 2 ^ 24) (by omega),
    Nat.mod_eq_of_lt (a := s1.toNat * 2 ^ 16) (by omega), Nat.mod_eq_of_lt (a := s2.toNat * 2 ^ 8) (by omega),
    or_add (k := 24) (by omega)]
  have e : s0.toNat * 2 ^ 24 + s1.toNat * 2 ^ 16 = (s0.toNat * 256 + s1.toNat) * 2 ^ 16 := by omega
  rw [e, or_add (k := 16) (by omega), Nat.shiftRight_eq_div_pow]
  omega

theorem char_mask (x : BitVec 32) (n : Nat) (h : x.toNat % 64 = n) : base64Char (x &&& 0x3f#32) = Spec.alphabet n := by
  have e : (x &&& 0x3f#32).toNat = n := by
    simp only [BitVec.toNat_and, BitVec.toNat_ofNat]
    rw [show (63 % 2 ^ 32) = 63 from rfl, and_mask6, h]
  rw [char_alphabet (by rw [e, ← h]; exact Nat.mod_lt _ (by decide)), e]

theorem bigChunk_eq (a b c : Byte) : bigChunk a b c = base64Chunk a b c := by
  rw [chunk_eq]
  unfold bigChunk
  simp only
  have hx := y_toNat a b c
  generalize (((a.setWidth 32 <<< 24) ||| (b.setWidth 32 <<< 16) ||| (c.setWidth 32 <<< 8) : BitVec 32) >>> 8) = x at hx
  have ha := a.isLt; have hb := b.isLt; have hc := c.isLt
  rw [char_mask x (c.toNat % 64) (by omega),
    char_mask (x >>> 6) (b.toNat % 16 * 4 + c.toNat / 64)
      (by simp only [BitVec.toNat_ushiftRight, Nat.shiftRight_eq_div_pow, hx]; omega),
    char_mask (x >>> 6 >>> 6) (a.toNat % 4 * 16 + b.toNat / 16)
      (by simp only [BitVec.toNat_ushiftRight, Nat.shiftRight_eq_div_pow, hx]; omega),
    char_mask (x >>> 6 >>> 6 >>> 6) (a.toNat / 4)
      (by simp only [BitVec.toNat_ushiftRight, Nat.shiftRight_eq_div_pow, hx]; omega)]
  rfl

theorem chunk_any (o : Order) (a b c : Byte) : chunk o a b c = base64Chunk a b c := by
  cases o
  · rfl
  · exact bigChunk_eq a b c

theorem chunks_any (o : Order) : ∀ (j : Nat) (bs : List Byte), chunks o j bs = base64Chunks j bs
  | 0, bs => by unfold chunks base64Chunks; rfl
  | j + 1, a :: b :: c :: r => by simp only [chunks, base64Chunks, chunk_any, chunks_any o j r]
  | j + 1, [] => rfl
  | j + 1, [a] => rfl
  | j + 1, [a, b] => rfl

theorem blocks_any (o : Order) : ∀ (k : Nat) (bs : List Byte), blocks o k bs = base64Blocks k bs
  | 0, bs => rfl
  | k + 1, bs => by simp only [blocks, base64Blocks, chunks_any, blocks_any o k]

theorem rest_any (o : Order) : ∀ (bs : List Byte), rest o bs = base64Rest bs
  | a :: b :: c :: r => by simp only [rest, base64Rest, chunk_any, rest_any o r]
  | [] => rfl
  | [a] => rfl
  | [a, b] => rfl

end HppProto.ByteOrder
