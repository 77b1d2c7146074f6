import Verif.Proofs.VarintParse
/-!
# Claims C01–C06: varints and tags

Specification vocabulary (`Verif/Spec/Varint.lean`): `varintLen g k` is the number of
bytes up to and including the first byte below 128 among the first `k`; `varintVal g n`
is the base-128 value of the first `n` bytes; `startsWith g bs` says the memory `g`
begins with `bs` and is otherwise arbitrary; `zigzag` is the mathematical map
0,-1,1,-2,… ↦ 0,1,2,3,….
-/
namespace HppProto.Props
open HppProto HppProto.Spec

/-- C01. Writing a value of any of the six varint types and reading it back from any
memory that starts with the written bytes gives the value and the number of written
bytes. `canonical` says the 64-bit pattern is a value of the (possibly 32-bit) type. -/
theorem C01_varint_round_trip (ty : VarTy) (v : BitVec 64) (hv : ty.canonical v)
    (g : Mem) (hg : startsWith g (ty.pack v)) :
    ty.parse g = (some (ty.pack v).length, v) :=
  parse_pack ty v hv g hg

/-- The hypotheses of C01 hold for a negative int32 followed by other bytes. -/
example : VarTy.i32.canonical (BitVec.ofInt 64 (-3)) ∧
    startsWith (memOf (VarTy.i32.pack (BitVec.ofInt 64 (-3)) ++ [0xff#8])) (VarTy.i32.pack (BitVec.ofInt 64 (-3))) := by
  constructor
  · decide
  · intro i h
    rw [memOf, List.getD_eq_getElem?_getD, List.getElem?_append_left h, List.getElem?_eq_getElem h]
    rfl

/-- Every 32-bit value has a canonical pattern, for each type (C01 is not about a
special subset of values). -/
theorem C01_canonical_all (w : BitVec 32) :
    VarTy.i32.canonical (w.signExtend 64) ∧ VarTy.s32.canonical (w.signExtend 64) ∧
    VarTy.u32.canonical (w.setWidth 64) := by
  have h1 : (w.signExtend 64).setWidth 32 = w := by
    ext i hi
    simp [BitVec.getLsbD_signExtend, hi]; omega
  have h2 : (w.setWidth 64).setWidth 32 = w := by
    apply BitVec.eq_of_toNat_eq; have := w.isLt; simp
  refine ⟨?_, ?_, ?_⟩ <;> simp only [VarTy.canonical, VarTy.cast, h1, h2]

/-- C02. The announced size is the written length, it is between 1 and 10, the bytes form
one varint (every byte but the last has the continuation bit) of the value's bits, and
no `n`-byte base-128 string with the same value is shorter. -/
theorem C02_varint_size (ty : VarTy) (v : BitVec 64) :
    ty.encodeSize v = (ty.pack v).length ∧
    1 ≤ (ty.pack v).length ∧ (ty.pack v).length ≤ 10 ∧
    (∀ i (h : i < (ty.pack v).length), 128 ≤ ((ty.pack v)[i]).toNat ↔ i + 1 < (ty.pack v).length) ∧
    (∀ g n, 1 ≤ n → varintVal g n = ty.encodeBits v → (ty.pack v).length ≤ n) := by
  have hne := packVarint_ne_nil (ty.encodeBits v)
  have hpos : 1 ≤ (ty.pack v).length := List.length_pos_iff.2 hne
  refine ⟨?_, hpos, packVarint_length_le10 (encodeBits_lt64 ty v), ?_,
    fun g n hn h => packVarint_minimal hn h⟩
  · rw [VarTy.encodeSize, varintSize_eq (encodeBits_lt ty v) (by cases ty <;> decide)]; rfl
  · intro i hi
    have hs : startsWith (memOf (ty.pack v)) (ty.pack v) := by
      intro j hj; simp [memOf, hj]
    have hg : ∀ j (hj : j < (ty.pack v).length), memOf (ty.pack v) j = (ty.pack v)[j] := hs
    obtain ⟨⟨-, h2, h3⟩, -⟩ := packVarint_reads _ _ hs
    rw [← hg i hi, ← msb_iff]
    constructor
    · intro hm
      apply Classical.byContradiction
      intro hlt
      have : i = (packVarint (ty.encodeBits v)).length - 1 := by
        have : (ty.pack v).length = (packVarint (ty.encodeBits v)).length := rfl
        omega
      rw [this] at hm
      rw [hm] at h3; cases h3
    · intro hlt
      exact h2 i (by have : (ty.pack v).length = (packVarint (ty.encodeBits v)).length := rfl; omega)

/-- C03, 64-bit. On arbitrary memory the 64-bit readers consume exactly up to the first
byte below 128 if it is among the first ten, and fail otherwise; the value is the
base-128 value modulo 2^64 (for sint64: its zig-zag preimage). -/
theorem C03_parse64 (g : Mem) :
    (VarTy.u64.parse g).1 = varintLen g 10 ∧ (VarTy.i64.parse g).1 = varintLen g 10 ∧
    (VarTy.s64.parse g).1 = varintLen g 10 ∧
    ∀ n, varintLen g 10 = some n →
      (VarTy.u64.parse g).2 = BitVec.ofNat 64 (varintVal g n) ∧
      (VarTy.i64.parse g).2 = BitVec.ofNat 64 (varintVal g n) ∧
      zigzag (VarTy.s64.parse g).2.toInt = varintVal g n % 2 ^ 64 := by
  refine ⟨parse_fst .u64 g, parse_fst .i64 g, parse_fst .s64 g, ?_⟩
  intro n hn
  refine ⟨parse_plain .u64 g n (by simp) hn, parse_plain .i64 g n (by simp) hn, ?_⟩
  have hv := ofNat_full ((shiftMix_spec .w64 g).2 n hn)
  show zigzag (unzigzag (shiftMix .w64 g).2).toInt = _
  rw [hv, ← zigzag64_spec]
  have : ∀ r : BitVec 64, zigzag64 (unzigzag r) = r := by
    intro r
    apply BitVec.eq_of_toNat_eq
    rw [zigzag64_spec, unzigzag_toNat]
    have hr := r.isLt
    split
    · rename_i hm
      rw [BitVec.toInt_eq_toNat_cond, BitVec.toNat_ofNat, zigzag, if_pos (by omega), if_pos (by omega)]
      omega
    · rename_i hm
      have e : (~~~(BitVec.ofNat 64 (r.toNat / 2))).toNat = 2 ^ 64 - 1 - r.toNat / 2 := by
        rw [BitVec.toNat_not, BitVec.toNat_ofNat]; omega
      rw [BitVec.toInt_eq_toNat_cond, e, zigzag, if_neg (by omega), if_neg (by omega)]
      omega
  rw [this]; simp

/-- C03, 32-bit. `int32` accepts up to ten bytes, `uint32` up to six (protobuf: ten), both
yield the base-128 value modulo 2^32. `sint32` accepts ten and inverts zig-zag whenever
the encoding has at most five bytes and the value is below 2^32. -/
theorem C03_parse32 (g : Mem) :
    (VarTy.i32.parse g).1 = varintLen g 10 ∧ (VarTy.u32.parse g).1 = varintLen g 6 ∧
    (VarTy.s32.parse g).1 = varintLen g 10 ∧
    (∀ n, varintLen g 10 = some n →
      (VarTy.i32.parse g).2 = (BitVec.ofNat 32 (varintVal g n)).signExtend 64) ∧
    (∀ n, varintLen g 6 = some n →
      (VarTy.u32.parse g).2 = (BitVec.ofNat 32 (varintVal g n)).setWidth 64) ∧
    (∀ n, varintLen g 5 = some n → varintVal g n < 2 ^ 32 →
      ∃ w : BitVec 32, (VarTy.s32.parse g).2 = w.signExtend 64 ∧ zigzag w.toInt = varintVal g n) := by
  have e : ∀ v, (BitVec.ofNat 64 v).setWidth 32 = BitVec.ofNat 32 v := by
    intro v; apply BitVec.eq_of_toNat_eq; simp
  refine ⟨parse_fst .i32 g, parse_fst .u32 g, parse_fst .s32 g, ?_, ?_, ?_⟩
  · intro n hn
    rw [parse_plain .i32 g n (by simp) hn]; simp only [VarTy.cast, e]
  · intro n hn
    rw [parse_plain .u32 g n (by simp) hn]; simp only [VarTy.cast, e]
  · intro n hn hlt
    have hn5 := (varintLen_some.1 hn)
    have hn10 : varintLen g 10 = some n := varintLen_some.2 ⟨hn5.1, by omega⟩
    have hv := (shiftMix_spec .i32 g).2 n hn10
    simp only [MixTy.exact, hn5.2, if_true] at hv
    have hs : (VarTy.s32.parse g).2 = VarTy.s32.cast (unzigzag (shiftMix .i32 g).2) := rfl
    rw [hs, ofNat_full hv]
    refine ⟨(unzigzag (BitVec.ofNat 64 (varintVal g n))).setWidth 32, rfl, ?_⟩
    rw [unzigzag_toNat]
    have et : (BitVec.ofNat 64 (varintVal g n)).toNat = varintVal g n := by
      rw [BitVec.toNat_ofNat]; omega
    rw [et]
    split
    · rename_i hm
      have : ((BitVec.ofNat 64 (varintVal g n / 2)).setWidth 32).toNat = varintVal g n / 2 := by
        rw [BitVec.toNat_setWidth, BitVec.toNat_ofNat]; omega
      rw [BitVec.toInt_eq_toNat_cond, this, zigzag, if_pos (by omega), if_pos (by omega)]
      omega
    · rename_i hm
      have : ((~~~(BitVec.ofNat 64 (varintVal g n / 2))).setWidth 32).toNat = 2 ^ 32 - 1 - varintVal g n / 2 := by
        rw [BitVec.toNat_setWidth, BitVec.toNat_not, BitVec.toNat_ofNat]; omega
      rw [BitVec.toInt_eq_toNat_cond, this, zigzag, if_neg (by omega), if_neg (by omega)]
      omega

/-- C03 holds of an over-long, truncated-to-64-bit encoding: eleven set payload bits. -/
example : varintLen (memOf [0xff#8, 0xff#8, 0x7f#8]) 10 = some 3 ∧
    varintVal (memOf [0xff#8, 0xff#8, 0x7f#8]) 3 = 2 ^ 21 - 1 := by decide

/-- Deviation from protobuf: a `uint32` (or length) varint of seven to ten bytes is
refused although `uint64` accepts it. -/
theorem C03_uint32_overlong_refused :
    let g := memOf [0x81#8, 0x80#8, 0x80#8, 0x80#8, 0x80#8, 0x80#8, 0x00#8]
    (VarTy.u64.parse g) = (some 7, 1#64) ∧ (VarTy.u32.parse g).1 = none := by decide

/-- Deviation from protobuf: `sint32` does not truncate the payload to 32 bits before
undoing zig-zag. The wire value 2^32 (protobuf: 0) is read as the minimum. -/
theorem C03_sint32_not_truncated :
    let g := memOf [0x80#8, 0x80#8, 0x80#8, 0x80#8, 0x10#8]
    varintVal g 5 = 2 ^ 32 ∧ (VarTy.s32.parse g) = (some 5, (BitVec.intMin 32).signExtend 64) := by decide

/-- C04. The written number is the mathematical zig-zag of the value, zig-zag is injective,
every 32/64-bit number is hit, and decoding inverts encoding for every value. -/
theorem C04_zigzag :
    (∀ w : BitVec 32, VarTy.s32.encodeBits (w.signExtend 64) = zigzag w.toInt) ∧
    (∀ v : BitVec 64, VarTy.s64.encodeBits v = zigzag v.toInt) ∧
    (∀ a b : Int, zigzag a = zigzag b → a = b) ∧
    (∀ u : Nat, ∃ z : Int, zigzag z = u) ∧
    (∀ z : Int, (zigzag z < 2 * z.natAbs + 1)) ∧
    (∀ v : BitVec 64, unzigzag (zigzag64 v) = v) ∧
    (∀ w : BitVec 32, VarTy.s32.cast (unzigzag ((zigzag32 w).setWidth 64)) = w.signExtend 64) := by
  refine ⟨?_, zigzag64_spec, ?_, ?_, ?_, unzigzag_zigzag64, cast_unzigzag_zigzag32⟩
  · intro w
    have h1 : (w.signExtend 64).setWidth 32 = w := by
      ext i hi; simp [BitVec.getLsbD_signExtend, hi]; omega
    simp only [VarTy.encodeBits, h1, zigzag32_spec]
  · intro a b h
    simp only [zigzag] at h
    split at h <;> split at h <;> omega
  · intro u
    refine ⟨if u % 2 = 0 then (u / 2 : Int) else -(u / 2 : Int) - 1, ?_⟩
    simp only [zigzag]
    split <;> split <;> omega
  · intro z; simp only [zigzag]; split <;> omega

example : zigzag (-1) = 1 ∧ zigzag 1 = 2 ∧ zigzag (-2147483648) = 4294967295 := by decide

/-- C05. Reading a bool consumes one varint of at most ten bytes, fails exactly when there
is none, and yields whether the base-128 value is non-zero modulo 2^64. -/
theorem C05_bool (g : Mem) :
    (parseBool g).1 = varintLen g 10 ∧
    ∀ n, varintLen g 10 = some n → (parseBool g).2 = decide (varintVal g n % 2 ^ 64 ≠ 0) :=
  parseBool_spec g

/-- A non-canonical true, a non-canonical false, and a value that is 0 modulo 2^64. -/
example : parseBool (memOf [0x80#8, 0x80#8, 0x04#8]) = (some 3, true) ∧
    parseBool (memOf [0x80#8, 0x80#8, 0x00#8]) = (some 3, false) ∧
    parseBool (memOf [0x80#8, 0x80#8, 0x80#8, 0x80#8, 0x80#8, 0x80#8, 0x80#8, 0x80#8, 0x80#8, 0x02#8])
      = (some 10, false) := by decide

/-- C06, partial: the full claim is for field numbers up to 2^29-1; it is proved for numbers
below 2^25 (tags of at most four bytes) and refuted above by `C06_five_byte_tags_fail`. -/
theorem C06_tag_round_trip_partial (number : BitVec 32) (wt : WireType)
    (hn : number.toNat < 2 ^ 25) (hw : wt.toNat < 8)
    (g : Mem) (hg : startsWith g (packTag (makeTag number wt))) :
    readTag g = (some (packTag (makeTag number wt)).length, makeTag number wt) ∧
    tagNumber (readTag g).2 = number ∧ tagType (readTag g).2 = wt ∧
    matchTag g (makeTag number wt) = some (packTag (makeTag number wt)).length := by
  obtain ⟨h1, h2, h3⟩ := makeTag_number (number := number) (wt := wt) (by omega) hw
  obtain ⟨he, hv⟩ := packVarint_reads _ g hg
  have h4 : (packVarint (makeTag number wt).toNat).length ≤ 4 := packVarint_length_le (by omega)
  have hl : varintLen g 5 = some (packVarint (makeTag number wt).toNat).length := varintLen_some.2 ⟨he, by omega⟩
  have hs := readTag_short g _ hl h4
  rw [hv] at hs
  have hr : readTag g = (some (packTag (makeTag number wt)).length, makeTag number wt) := by
    simp only [readTag, hs, packTag]
    congr 1
    apply BitVec.eq_of_toNat_eq
    have := (makeTag number wt).isLt
    simp
  refine ⟨hr, by rw [hr]; exact h1, by rw [hr]; exact h2, ?_⟩
  simp only [matchTag, hs, packTag]
  rw [if_pos]
  rw [BitVec.toInt_eq_toNat_cond, BitVec.toNat_ofNat, if_pos (by omega)]
  omega

example : (33554431#32 : BitVec 32).toNat < 2 ^ 25 ∧ wtLen.toNat < 8 := by decide

/-- C06 fails for every tag that needs five bytes: the field number read back has all its
upper bits set (it is at least 2^29 - 16, whatever was written), and `matchTag` never
recognises the tag. -/
theorem C06_five_byte_tags_fail (number : BitVec 32) (wt : WireType)
    (hn : 2 ^ 25 ≤ number.toNat) (hn' : number.toNat < 2 ^ 29) (hw : wt.toNat < 8)
    (g : Mem) (hg : startsWith g (packTag (makeTag number wt))) :
    (readTag g).1 = some 5 ∧
    (tagNumber (readTag g).2).toNat = 15 * 2 ^ 25 + number.toNat % 2 ^ 25 ∧
    matchTag g (makeTag number wt) = none := by
  obtain ⟨h1, h2, h3⟩ := makeTag_number (number := number) (wt := wt) (by omega) hw
  obtain ⟨he, hv⟩ := packVarint_reads _ g hg
  have h5 : (packVarint (makeTag number wt).toNat).length ≤ 5 := packVarint_length_le (by omega)
  have h5' : (packVarint (makeTag number wt).toNat).length = 5 := by
    have hlt := varintVal_lt (g := g) (n := (packVarint (makeTag number wt).toNat).length)
    rw [hv] at hlt
    apply Classical.byContradiction
    intro hne
    have : 2 ^ (7 * (packVarint (makeTag number wt).toNat).length) ≤ 2 ^ 28 :=
      Nat.pow_le_pow_right (by omega) (by omega)
    omega
  rw [h5'] at he hv
  have hl : varintLen g 5 = some 5 := varintLen_some.2 ⟨he, by omega⟩
  have hlow := (shiftMix_spec .tag g).2 5 hl
  simp only [MixTy.exact] at hlow
  have hhigh := shiftMix_tag5 g hl
  have hfst := (shiftMix_spec .tag g).1
  have hsplit : (shiftMix .tag g).2.toNat = (2 ^ 36 - 1) * 2 ^ 28 + varintVal g 5 % 2 ^ 28 := by
    have hmod := ofNat_low_eq (m := 28) (by simpa using hlow) (by decide)
    rw [← hmod]
    have hdiv : (shiftMix .tag g).2 >>> 28 = BitVec.ofNat 64 (2 ^ 36 - 1) := by
      apply BitVec.eq_of_getLsbD_eq
      intro i hi
      rw [BitVec.getLsbD_ushiftRight, BitVec.getLsbD_ofNat, Nat.testBit_two_pow_sub_one]
      by_cases h : i < 36
      · rw [hhigh (28 + i) (by omega) (by omega)]; simp [h, hi]
      · rw [BitVec.getLsbD_of_ge _ _ (by omega)]; simp [h]
    have := congrArg BitVec.toNat hdiv
    rw [BitVec.toNat_ushiftRight, Nat.shiftRight_eq_div_pow, BitVec.toNat_ofNat] at this
    omega
  have e1 : (readTag g).1 = some 5 := by rw [readTag_fst]; exact hl
  refine ⟨e1, ?_, ?_⟩
  · rw [tagNumber, BitVec.toNat_ushiftRight, Nat.shiftRight_eq_div_pow]
    show ((shiftMix .tag g).2.setWidth 32).toNat / 2 ^ 3 = _
    rw [BitVec.toNat_setWidth, hsplit, hv, h3]
    omega
  · have hf : (shiftMix .tag g).1 = some 5 := e1
    simp only [matchTag, hf]
    rw [if_neg]
    rw [BitVec.toInt_eq_toNat_cond, hsplit, if_neg (by omega)]
    omega

example : tagNumber (readTag (memOf (packTag (makeTag 33554432#32 wtVarint)))).2 = 0x1e000000#32 := by
  decide +kernel

end HppProto.Props
