import Verif.Proofs.ByteOrder
import Verif.Spec.Wire

/-!
# C154: the byte order of the platform does not matter

`o` is the byte order of the platform.  `Spec.littleEndian k v` are the `k` bytes that the wire format has
for the number `v`.
-/

namespace HppProto.Props
open HppProto HppProto.ByteOrder

/-- Numbers are written least significant byte first on every platform, alone and in arrays. -/
theorem C154_written (o : Order) (k : Nat) :
    (∀ v, writeItem o k v = Spec.littleEndian k v) ∧
    (∀ vs, writeArray o k vs = (vs.map (Spec.littleEndian k)).flatten) := by
  have e : Spec.littleEndian k = leBytes k := funext (littleEndian_eq k)
  rw [e]
  exact ⟨writeItem_eq o k, writeArray_eq o k⟩

/-- What is read from bytes, whoever wrote them, is on every platform the number with these bytes on the wire. -/
theorem C154_read (o : Order) (bytes : List Byte) :
    readItem o bytes < 256 ^ bytes.length ∧ Spec.littleEndian bytes.length (readItem o bytes) = bytes := by
  rw [readItem_eq, littleEndian_eq]
  exact ⟨leNat_lt bytes, leBytes_leNat bytes⟩

/-- The same for packed numbers, with both ways of reading them: `n` numbers, each of `k` bytes, and these
bytes are the input. -/
theorem C154_read_packed (o : Order) (k n : Nat) (hk : 0 < k) (bytes : List Byte) (h : bytes.length = n * k) :
    ∃ vs : List Nat, readPacked o k n bytes = vs ∧ appendRaw o k bytes = .ok vs ∧
      vs.length = n ∧ (∀ v ∈ vs, v < 256 ^ k) ∧ (vs.map (Spec.littleEndian k)).flatten = bytes := by
  refine ⟨_, readPacked_eq o k n h, appendRaw_eq o k n hk h, by simp [pieces_length], ?_, ?_⟩
  · intro v hv
    obtain ⟨p, hp, rfl⟩ := List.mem_map.mp hv
    have := leNat_lt p
    rw [pieces_each k n bytes h p hp] at this
    exact this
  · rw [List.map_map]
    have : (pieces k n bytes).map (Spec.littleEndian k ∘ leNat) = pieces k n bytes := by
      conv => rhs; rw [← List.map_id (pieces k n bytes)]
      apply List.map_congr_left
      intro p hp
      have hl := pieces_each k n bytes h p hp
      show Spec.littleEndian k (leNat p) = p
      rw [littleEndian_eq, ← hl, leBytes_leNat]
    rw [this, pieces_flatten k n bytes h]

/-- What one platform writes another reads. -/
theorem C154_exchange (o o' : Order) (k : Nat) (hk : 0 < k) (vs : List Nat) (hv : ∀ v ∈ vs, v < 256 ^ k) :
    (∀ v ∈ vs, readItem o' (writeItem o k v) = v) ∧
    readPacked o' k vs.length (writeArray o k vs) = vs ∧ appendRaw o' k (writeArray o k vs) = .ok vs := by
  have hps : ∀ p ∈ vs.map (leBytes k), p.length = k := by
    intro p hp
    obtain ⟨v, _, rfl⟩ := List.mem_map.mp hp
    exact leBytes_length k v
  have hpc : pieces k vs.length (vs.map (leBytes k)).flatten = vs.map (leBytes k) := by
    have := pieces_of_flatten k (vs.map (leBytes k)) hps
    rwa [List.length_map] at this
  have hl : ((vs.map (leBytes k)).flatten).length = vs.length * k := by
    clear hv hpc hps
    induction vs with
    | nil => simp
    | cons v vs ih => simp [leBytes_length, ih, Nat.succ_mul]; omega
  have hback : (vs.map (leBytes k)).map leNat = vs := by
    rw [List.map_map]
    conv => rhs; rw [← List.map_id vs]
    apply List.map_congr_left
    intro v h
    exact leNat_leBytes k v (hv v h)
  refine ⟨?_, ?_, ?_⟩
  · intro v h
    rw [writeItem_eq, readItem_eq, leNat_leBytes k v (hv v h)]
  · rw [writeArray_eq, readPacked_eq o' k _ hl, hpc, hback]
  · rw [writeArray_eq, appendRaw_eq o' k _ hk hl, hpc, hback]

/-- Base64 texts are the same on every platform; those of little-endian platforms are described by C29. -/
theorem C154_base64 (o : Order) (source : List Byte) : ByteOrder.encode o source = base64Encode source := by
  unfold ByteOrder.encode base64Encode
  simp only [blocks_any, rest_any]

example : writeItem .big 4 0x01020304 = [0x04, 0x03, 0x02, 0x01] := by decide +kernel
example : toMemory .big 4 0x01020304 = [0x01, 0x02, 0x03, 0x04] := by decide +kernel
example : readPacked .big 4 2 [1, 0, 0, 0, 2, 1, 0, 0] = [1, 258] := by decide +kernel
example : ByteOrder.encode .big [0x4d, 0x61, 0x6e] = [0x54, 0x57, 0x46, 0x75] := by decide +kernel

end HppProto.Props
