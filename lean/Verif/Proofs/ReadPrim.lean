import Verif.Model.Flat
import Verif.Spec.Records
import Verif.Proofs.VarintParse
/-! Primitive reads of the contiguous archive, in terms of the record grammar. -/
namespace HppProto
open Spec

theorem res_bind_ok {α β} {x : Res α} {f : α → Res β} {b : β} :
    (x >>= f) = .ok b ↔ ∃ a, x = .ok a ∧ f a = .ok b := by
  show Res.bind x f = _ ↔ _
  cases x <;> simp [Res.bind]

/-! ## Locality of varint parsing -/

theorem accum_congr {g g' : Mem} : ∀ k, 1 ≤ k → (∀ i, i < k → g i = g' i) → accum g k = accum g' k
  | 1, _, h => by simp only [accum, h 0 (by omega)]
  | k + 2, _, h => by
    simp only [accum, term]
    rw [accum_congr (k + 1) (by omega) (fun i hi => h i (by omega)), h 0 (by omega), h (k + 1) (by omega)]

theorem endsAt_congr {g g' : Mem} {n : Nat} (h : ∀ i, i < n → g i = g' i) (he : EndsAt g n) : EndsAt g' n := by
  obtain ⟨h1, h2, h3⟩ := he
  exact ⟨h1, fun i hi => by rw [← h i (by omega)]; exact h2 i hi, by rw [← h _ (by omega)]; exact h3⟩

theorem varintLen_congr {g g' : Mem} {k n : Nat} (h : ∀ i, i < n → g i = g' i) (hl : varintLen g k = some n) :
    varintLen g' k = some n := by
  obtain ⟨h1, h2⟩ := varintLen_some.1 hl
  exact varintLen_some.2 ⟨endsAt_congr h h1, h2⟩

theorem mem_append_left {a b : List Byte} {i : Nat} (h : i < a.length) : memOf (a ++ b) i = memOf a i := by
  simp [memOf, List.getElem?_append_left h]

theorem isVarint_append {k : Nat} {bs more : List Byte} (h : isVarint k bs) :
    varintLen (memOf (bs ++ more)) k = some bs.length :=
  varintLen_congr (fun _ hi => (mem_append_left hi).symm) h

theorem isVarint_take {k n : Nat} {l : List Byte} (h : varintLen (memOf l) k = some n) (hn : n ≤ l.length) :
    isVarint k (l.take n) ∧ (l.take n).length = n := by
  have hl : (l.take n).length = n := by simp; omega
  refine ⟨?_, hl⟩
  unfold isVarint
  rw [hl]
  refine varintLen_congr (fun i hi => ?_) h
  conv => lhs; rw [← List.take_append_drop n l]
  exact mem_append_left (by omega)

theorem isVarint_ne_nil {k bs} (h : isVarint k bs) : bs ≠ [] := by
  rintro rfl
  have := (varintLen_some.1 h).1.1
  simp at this

theorem isVarint_pos {k bs} (h : isVarint k bs) : 0 < bs.length :=
  List.length_pos_iff.2 (isVarint_ne_nil h)

theorem isVarint_le {k bs} (h : isVarint k bs) : bs.length ≤ k := (varintLen_some.1 h).2

theorem isVarint_mono {k k' bs} (h : isVarint k bs) (hk : bs.length ≤ k') : isVarint k' bs :=
  varintLen_some.2 ⟨(varintLen_some.1 h).1, hk⟩

theorem shiftMix_congr (ty : MixTy) {g g' : Mem} {n : Nat} (h : ∀ i, i < n → g i = g' i)
    (hl : varintLen g ty.maxLen = some n) : shiftMix ty g' = shiftMix ty g := by
  obtain ⟨⟨h1, h2, h3⟩, hle⟩ := varintLen_some.1 hl
  have hm : ∀ i, i < n - 1 → (g i).msb = true ∧ (g' i).msb = true := fun i hi =>
    ⟨h2 i hi, by rw [← h i (by omega)]; exact h2 i hi⟩
  have he : (g (n - 1)).msb = false ∧ (g' (n - 1)).msb = false := ⟨h3, by rw [← h _ (by omega)]; exact h3⟩
  have ha : ∀ k, 1 ≤ k → k ≤ n → accum g' k = accum g k := fun k hk hkn =>
    (accum_congr k hk (fun i hi => h i (by omega))).symm
  rw [shiftMix_cases ty g, shiftMix_cases ty g']
  clear h2 h3
  have hn10 : n ≤ 10 := by cases ty <;> simp only [MixTy.maxLen] at hle <;> omega
  match n, hn10 with
  | 1, _ => simp [he.1, he.2, ha 1]
  | 2, _ => simp [(hm 0 (by omega)).1, (hm 0 (by omega)).2, he.1, he.2, ha 2]
  | 3, _ => simp [(hm 0 (by omega)).1, (hm 0 (by omega)).2, (hm 1 (by omega)).1, (hm 1 (by omega)).2, he.1, he.2, ha 3]
  | 4, _ => simp [(hm 0 (by omega)).1, (hm 0 (by omega)).2, (hm 1 (by omega)).1, (hm 1 (by omega)).2,
      (hm 2 (by omega)).1, (hm 2 (by omega)).2, he.1, he.2, ha 4]
  | 5, _ => simp [(hm 0 (by omega)).1, (hm 0 (by omega)).2, (hm 1 (by omega)).1, (hm 1 (by omega)).2,
      (hm 2 (by omega)).1, (hm 2 (by omega)).2, (hm 3 (by omega)).1, (hm 3 (by omega)).2, he.1, he.2, ha 4, ha 5]
  | 6, _ => cases ty <;> simp [MixTy.maxLen] at hle <;>
      simp [(hm 0 (by omega)).1, (hm 0 (by omega)).2, (hm 1 (by omega)).1, (hm 1 (by omega)).2,
      (hm 2 (by omega)).1, (hm 2 (by omega)).2, (hm 3 (by omega)).1, (hm 3 (by omega)).2,
      (hm 4 (by omega)).1, (hm 4 (by omega)).2, he.1, he.2, ha 5, ha 6]
  | 7, _ => cases ty <;> simp [MixTy.maxLen] at hle <;>
      simp [(hm 0 (by omega)).1, (hm 0 (by omega)).2, (hm 1 (by omega)).1, (hm 1 (by omega)).2,
      (hm 2 (by omega)).1, (hm 2 (by omega)).2, (hm 3 (by omega)).1, (hm 3 (by omega)).2,
      (hm 4 (by omega)).1, (hm 4 (by omega)).2, (hm 5 (by omega)).1, (hm 5 (by omega)).2, he.1, he.2, ha 5, ha 7]
  | 8, _ => cases ty <;> simp [MixTy.maxLen] at hle <;>
      simp [(hm 0 (by omega)).1, (hm 0 (by omega)).2, (hm 1 (by omega)).1, (hm 1 (by omega)).2,
      (hm 2 (by omega)).1, (hm 2 (by omega)).2, (hm 3 (by omega)).1, (hm 3 (by omega)).2,
      (hm 4 (by omega)).1, (hm 4 (by omega)).2, (hm 5 (by omega)).1, (hm 5 (by omega)).2,
      (hm 6 (by omega)).1, (hm 6 (by omega)).2, he.1, he.2, ha 5, ha 8]
  | 9, _ => cases ty <;> simp [MixTy.maxLen] at hle <;>
      simp [(hm 0 (by omega)).1, (hm 0 (by omega)).2, (hm 1 (by omega)).1, (hm 1 (by omega)).2,
      (hm 2 (by omega)).1, (hm 2 (by omega)).2, (hm 3 (by omega)).1, (hm 3 (by omega)).2,
      (hm 4 (by omega)).1, (hm 4 (by omega)).2, (hm 5 (by omega)).1, (hm 5 (by omega)).2,
      (hm 6 (by omega)).1, (hm 6 (by omega)).2, (hm 7 (by omega)).1, (hm 7 (by omega)).2, he.1, he.2, ha 5, ha 9]
  | 10, _ => cases ty <;> simp [MixTy.maxLen] at hle <;>
      simp [(hm 0 (by omega)).1, (hm 0 (by omega)).2, (hm 1 (by omega)).1, (hm 1 (by omega)).2,
      (hm 2 (by omega)).1, (hm 2 (by omega)).2, (hm 3 (by omega)).1, (hm 3 (by omega)).2,
      (hm 4 (by omega)).1, (hm 4 (by omega)).2, (hm 5 (by omega)).1, (hm 5 (by omega)).2,
      (hm 6 (by omega)).1, (hm 6 (by omega)).2, (hm 7 (by omega)).1, (hm 7 (by omega)).2,
      (hm 8 (by omega)).1, (hm 8 (by omega)).2, he.1, he.2, ha 5, ha 9, h 9 (by omega)]

theorem parse_congr (ty : VarTy) {g g' : Mem} {n : Nat} (h : ∀ i, i < n → g i = g' i)
    (hl : varintLen g ty.mix.maxLen = some n) : ty.parse g' = ty.parse g := by
  unfold VarTy.parse
  rw [shiftMix_congr ty.mix h hl]

theorem parse_append (ty : VarTy) {bs more : List Byte} (h : isVarint ty.mix.maxLen bs) :
    ty.parse (memOf (bs ++ more)) = (some bs.length, (ty.parse (memOf bs)).2) := by
  rw [parse_congr ty (fun _ hi => (mem_append_left hi).symm) h]
  apply Prod.ext
  · rw [parse_fst]; exact h
  · rfl

theorem parseBool_append {bs more : List Byte} (h : isVarint 10 bs) :
    parseBool (memOf (bs ++ more)) = (some bs.length, (parseBool (memOf bs)).2) := by
  have h1 := parseBool_spec (memOf (bs ++ more))
  have h2 := parseBool_spec (memOf bs)
  have h3 := isVarint_append (more := more) h
  apply Prod.ext
  · rw [h1.1]; exact h3
  · show (parseBool (memOf (bs ++ more))).2 = (parseBool (memOf bs)).2
    rw [h1.2 _ h3, h2.2 _ h, varintVal_congr _ (fun i hi => mem_append_left hi)]

/-! ## Tags -/

theorem tag5_toNat (g : Mem) (hl : varintLen g 5 = some 5) :
    (shiftMix .tag g).2.toNat = (2 ^ 36 - 1) * 2 ^ 28 + varintVal g 5 % 2 ^ 28 := by
  have hlow := (shiftMix_spec .tag g).2 5 hl
  simp only [MixTy.exact] at hlow
  have hhigh := shiftMix_tag5 g hl
  have hmod := ofNat_low_eq (m := 28) (by simpa using hlow) (by decide)
  rw [← hmod]
  have hdiv : (shiftMix .tag g).2 >>> 28 = BitVec.ofNat 64 (2 ^ 36 - 1) := by
    apply BitVec.eq_of_getLsbD_eq
    intro i hi
    rw [BitVec.getLsbD_ushiftRight, BitVec.getLsbD_ofNat, Nat.testBit_two_pow_sub_one]
    by_cases h : i < 36
    · rw [hhigh (28 + i) (by omega) (by omega)]; simp [h, hi]
    · rw [BitVec.getLsbD_of_ge _ _ (by omega)]; simp [h]
  have := congrArg BitVec.toNat hdiv
  rw [BitVec.toNat_ushiftRight, Nat.shiftRight_eq_div_pow, BitVec.toNat_ofNat] at this
  omega

theorem readTag_iff (bs : List Byte) (t : BitVec 32) : isTag bs t ↔ isVarint 5 bs ∧ (readTag (memOf bs)).2 = t := by
  unfold isTag
  refine and_congr_right (fun h => ?_)
  by_cases h4 : bs.length ≤ 4
  · rw [if_pos h4]
    have := readTag_short _ _ h h4
    unfold readTag
    rw [this]
    constructor
    · intro e
      apply BitVec.eq_of_toNat_eq
      show ((BitVec.ofNat 64 (valueOf bs)).setWidth 32).toNat = _
      rw [BitVec.toNat_setWidth, BitVec.toNat_ofNat]
      have := t.isLt; omega
    · rintro rfl
      show ((BitVec.ofNat 64 (valueOf bs)).setWidth 32).toNat = _
      have : valueOf bs < 2 ^ 28 := by
        refine Nat.lt_of_lt_of_le (varintVal_lt _ _) (Nat.pow_le_pow_right (by omega) (by omega))
      rw [BitVec.toNat_setWidth, BitVec.toNat_ofNat]; omega
  · rw [if_neg h4]
    have h5 : bs.length = 5 := by have := isVarint_le h; omega
    have hs := tag5_toNat (memOf bs) (by have h' := h; unfold isVarint at h'; rw [h5] at h'; exact h')
    have e : ((readTag (memOf bs)).2).toNat = 15 * 2 ^ 28 + valueOf bs % 2 ^ 28 := by
      show ((shiftMix .tag (memOf bs)).2.setWidth 32).toNat = _
      rw [BitVec.toNat_setWidth, hs, valueOf, h5]; omega
    rw [← e]
    exact ⟨fun h => BitVec.eq_of_toNat_eq h.symm, fun h => by rw [h]⟩

theorem isTag_append {bs more : List Byte} {t} (h : isTag bs t) :
    readTag (memOf (bs ++ more)) = (some bs.length, t) := by
  obtain ⟨h1, h2⟩ := (readTag_iff _ _).1 h
  have e := shiftMix_congr .tag (fun _ hi => (mem_append_left (b := more) hi).symm) h1
  have : readTag (memOf (bs ++ more)) = readTag (memOf bs) := by unfold readTag; rw [e]
  rw [this]
  exact Prod.ext ((readTag_fst _).trans h1) h2

theorem matchTag_append {bs more : List Byte} {t u} (h : isTag bs t) :
    matchTag (memOf (bs ++ more)) u = if t = u ∧ bs.length ≤ 4 then some bs.length else none := by
  obtain ⟨h1, h2⟩ := (readTag_iff _ _).1 h
  have e := shiftMix_congr .tag (fun _ hi => (mem_append_left (b := more) hi).symm) h1
  have hf : (shiftMix .tag (memOf bs)).1 = some bs.length := (readTag_fst _).trans h1
  unfold matchTag
  rw [e]
  show (match (shiftMix .tag (memOf bs)).1 with
    | some n => if (shiftMix .tag (memOf bs)).2.toInt = _ then some n else none
    | none => none) = _
  rw [hf]
  simp only
  by_cases h4 : bs.length ≤ 4
  · have hs := readTag_short _ _ h1 h4
    have hv : valueOf bs < 2 ^ 28 :=
      Nat.lt_of_lt_of_le (varintVal_lt _ _) (Nat.pow_le_pow_right (by omega) (by omega))
    have ht := h.2
    rw [if_pos h4] at ht
    rw [hs]
    have hi : (BitVec.ofNat 64 (varintVal (memOf bs) bs.length)).toInt = (t.toNat : Int) := by
      rw [ht, BitVec.toInt_eq_toNat_cond, BitVec.toNat_ofNat]
      unfold valueOf at hv ⊢
      rw [if_pos (by omega)]; omega
    simp only [hi, h4, and_true]
    congr 1
    rw [Int.ofNat_inj]
    exact propext ⟨fun h => BitVec.eq_of_toNat_eq h, fun h => by rw [h]⟩
  · have h5 : bs.length = 5 := by have := isVarint_le h1; omega
    have hs := tag5_toNat (memOf bs) (by have h' := h1; unfold isVarint at h'; rw [h5] at h'; exact h')
    rw [if_neg, if_neg (fun h => h4 h.2)]
    rw [BitVec.toInt_eq_toNat_cond, hs, if_neg (by omega)]
    omega

/-- Size of the minimal encoding of a tag never exceeds the bytes read for it. -/
theorem isTag_size {bs : List Byte} {t} (h : isTag bs t) : varintSize 32 t.toNat ≤ bs.length := by
  rw [varintSize_eq t.isLt (by omega)]
  by_cases h4 : bs.length ≤ 4
  · have ht := h.2
    rw [if_pos h4] at ht
    exact packVarint_minimal (isVarint_pos h.1) ht.symm
  · have := packVarint_length_le5 t.isLt
    omega

theorem isTag_pos {bs : List Byte} {t} (h : isTag bs t) : 0 < bs.length := isVarint_pos h.1

theorem rdTag_iff {l : List Byte} {n t} : rdTag l = some (n, t) ↔
    ∃ bs more, l = bs ++ more ∧ n = bs.length ∧ isTag bs t := by
  constructor
  · intro h
    unfold rdTag at h
    have hf := readTag_fst (memOf l)
    split at h
    · rename_i m t' e
      rw [e] at hf
      split at h
      · rename_i hle
        cases h
        obtain ⟨h1, h2⟩ := isVarint_take hf.symm hle
        refine ⟨l.take n, l.drop n, (List.take_append_drop n l).symm, h2.symm, (readTag_iff _ _).2 ⟨h1, ?_⟩⟩
        have := shiftMix_congr .tag (fun _ hi => (mem_append_left (b := l.drop n) hi).symm) h1
        rw [List.take_append_drop] at this
        have e2 : readTag (memOf (l.take n)) = readTag (memOf l) := by unfold readTag; rw [this]
        rw [e2, e]
      · cases h
    · cases h
  · rintro ⟨bs, more, rfl, rfl, h⟩
    unfold rdTag
    rw [isTag_append h]
    simp

theorem rdVarint_iff {ty : VarTy} {l : List Byte} {n v} : rdVarint ty l = some (n, v) ↔
    ∃ bs more, l = bs ++ more ∧ n = bs.length ∧ isVarint ty.mix.maxLen bs ∧ v = (ty.parse (memOf bs)).2 := by
  constructor
  · intro h
    unfold rdVarint at h
    have hf := parse_fst ty (memOf l)
    split at h
    · rename_i m t' e
      rw [e] at hf
      split at h
      · rename_i hle
        cases h
        obtain ⟨h1, h2⟩ := isVarint_take hf.symm hle
        refine ⟨l.take n, l.drop n, (List.take_append_drop n l).symm, h2.symm, h1, ?_⟩
        have := parse_append ty (more := l.drop n) h1
        rw [List.take_append_drop, e] at this
        exact (Prod.mk.inj this).2
      · cases h
    · cases h
  · rintro ⟨bs, more, rfl, rfl, h, rfl⟩
    unfold rdVarint
    rw [parse_append ty h]
    simp

theorem rdBool_iff {l : List Byte} {n v} : rdBool l = some (n, v) ↔
    ∃ bs more, l = bs ++ more ∧ n = bs.length ∧ isVarint 10 bs ∧ v = (parseBool (memOf bs)).2 := by
  constructor
  · intro h
    unfold rdBool at h
    have hf := (parseBool_spec (memOf l)).1
    split at h
    · rename_i m t' e
      rw [e] at hf
      split at h
      · rename_i hle
        cases h
        obtain ⟨h1, h2⟩ := isVarint_take hf.symm hle
        refine ⟨l.take n, l.drop n, (List.take_append_drop n l).symm, h2.symm, h1, ?_⟩
        have := parseBool_append (more := l.drop n) h1
        rw [List.take_append_drop, e] at this
        exact (Prod.mk.inj this).2
      · cases h
    · cases h
  · rintro ⟨bs, more, rfl, rfl, h, rfl⟩
    unfold rdBool
    rw [parseBool_append h]
    simp

theorem memOf_cons (b : Byte) (bs : List Byte) : (fun i => memOf (b :: bs) (i + 1)) = memOf bs := by
  funext i; simp [memOf]

theorem rdSkipVarint_eq : ∀ k l, rdSkipVarint k l =
    match varintLen (memOf l) k with
    | some n => if n ≤ l.length then some n else none
    | none => none
  | 0, l => by simp [rdSkipVarint, varintLen]
  | k + 1, [] => by
    have : varintLen (memOf []) (k + 1) = some 1 := by simp [varintLen, memOf]
    rw [this]; simp [rdSkipVarint]
  | k + 1, b :: bs => by
    rw [rdSkipVarint, varintLen, memOf_cons, rdSkipVarint_eq k bs]
    have e : memOf (b :: bs) 0 = b := by simp [memOf]
    rw [e]
    cases hm : b.msb
    · have := (not_msb_iff b).1 hm
      simp [this]
    · have := (msb_iff b).1 hm
      have h2 : ¬ b.toNat < 128 := by omega
      cases varintLen (memOf bs) k with
      | none => simp [h2]
      | some n => simp [h2]

theorem rdSkipVarint_iff {l : List Byte} {n} : rdSkipVarint 10 l = some n ↔
    ∃ bs more, l = bs ++ more ∧ n = bs.length ∧ isVarint 10 bs := by
  rw [rdSkipVarint_eq]
  constructor
  · intro h
    split at h
    · rename_i m e
      split at h
      · rename_i hle
        cases h
        obtain ⟨h1, h2⟩ := isVarint_take e hle
        exact ⟨l.take n, l.drop n, (List.take_append_drop n l).symm, h2.symm, h1⟩
      · cases h
    · cases h
  · rintro ⟨bs, more, rfl, rfl, h⟩
    rw [isVarint_append h]
    simp

end HppProto
