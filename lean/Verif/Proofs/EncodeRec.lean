import Verif.Proofs.WireItems
import Verif.Spec.Object
import Verif.Proofs.ReadMembers
/-! Values as written are records that read back as the same values. -/
namespace HppProto
open Spec

theorem inRange_canonical {ty : VarTy} {x : BitVec 64} : inRange ty x ↔ ty.canonical x := by
  have s32 : (-(2 : Int) ^ 31 ≤ x.toInt ∧ x.toInt < 2 ^ 31) ↔ (x.setWidth 32).signExtend 64 = x := by
    constructor
    · intro ⟨h1, h2⟩
      apply BitVec.eq_of_toInt_eq
      rw [BitVec.toInt_signExtend_of_le (by omega), BitVec.toInt_setWidth]
      have := BitVec.toInt_eq_toNat_bmod x
      rw [BitVec.toInt_eq_toNat_bmod] at h1 h2 ⊢
      simp only [Int.bmod_def] at *
      omega
    · intro h
      have h1 := BitVec.le_toInt (x.setWidth 32)
      have h2 := BitVec.toInt_lt (x := x.setWidth 32)
      rw [← h, BitVec.toInt_signExtend_of_le (by omega)]
      exact ⟨by simpa using h1, by simpa using h2⟩
  cases ty with
  | i32 => exact s32
  | s32 => exact s32
  | u32 =>
    show x.toNat < 2 ^ 32 ↔ (x.setWidth 32).setWidth 64 = x
    constructor
    · intro h
      apply BitVec.eq_of_toNat_eq
      simp only [BitVec.toNat_setWidth]
      omega
    · intro h
      rw [← h]
      simp only [BitVec.toNat_setWidth]
      omega
  | _ => exact ⟨fun _ => rfl, fun _ => trivial⟩

theorem startsWith_memOf (bs : List Byte) : startsWith (memOf bs) bs := by
  intro i h
  simp [memOf, h]

theorem leb_varint {v k : Nat} (h : (leb v).length ≤ k) : isVarint k (leb v) ∧ valueOf (leb v) = v := by
  rw [leb_eq] at *
  obtain ⟨h1, h2⟩ := packVarint_reads v (memOf (packVarint v)) (startsWith_memOf _)
  exact ⟨varintLen_some.2 ⟨h1, h⟩, h2⟩

/-- The tag of a written record. -/
theorem tag_read {n : BitVec 32} {wt : WireType} {w : Nat} (hn : n.toNat < 2 ^ 25) (hw : wt.toNat = w) (h8 : w < 8) :
    isTag (Spec.tag n w) (makeTag n wt) ∧ tagWt (makeTag n wt) = w ∧ tagNumber (makeTag n wt) = n ∧
    tagNum (makeTag n wt) = n.toNat ∧
    (Spec.tag n w).length = (leb (makeTag n wt).toNat).length := by
  obtain ⟨h1, h2, h3⟩ := makeTag_number (number := n) (wt := wt) (by omega) (by omega)
  have hl : (leb (n.toNat * 8 + w)).length ≤ 4 := by
    rw [leb_eq]; exact packVarint_length_le (k := 3) (by omega)
  obtain ⟨i1, i2⟩ := leb_varint (k := 5) (Nat.le_trans hl (by omega))
  refine ⟨⟨i1, ?_⟩, ?_, h1, ?_, ?_⟩
  · rw [if_pos (by exact hl)]
    show _ = valueOf (leb (n.toNat * 8 + w))
    rw [i2, h3, hw]
  · rw [tagWt, h3, hw]; omega
  · rw [tagNum, h3, hw]; omega
  · rw [h3, hw]; rfl

theorem makeTag_ne {n : BitVec 32} {wt : WireType} (hn : n.toNat < 2 ^ 25) (h0 : 0 < n.toNat) (h8 : wt.toNat < 8) : makeTag n wt ≠ 0#32 := by
  intro e
  have := (makeTag_number (number := n) (wt := wt) (by omega) h8).2.2
  rw [e] at this
  simp at this
  omega

theorem littleNumber_le : ∀ k n, n < 256 ^ k → littleNumber (littleEndian k n) = n
  | 0, n, h => by simp at h; subst h; rfl
  | k + 1, n, h => by
    simp only [littleEndian, littleNumber]
    rw [littleNumber_le k (n / 256) (by rw [Nat.pow_succ] at h; omega)]
    simp
    omega

theorem littleEndian_length (k n) : (littleEndian k n).length = k := by rw [littleEndian_eq, leBytes_length]

/-- Read one number as written. -/
theorem varint_piece (ty : VarTy) {x : BitVec 64} (h : inRange ty x) :
    isVarint ty.mix.maxLen (leb (varintNumber ty x)) ∧ (ty.parse (memOf (leb (varintNumber ty x)))).2 = x := by
  have e : leb (varintNumber ty x) = ty.pack x := by rw [leb_eq, varintNumber_eq]; rfl
  rw [e]
  have p := parse_pack ty x (inRange_canonical.1 h) (memOf (ty.pack x)) (startsWith_memOf _)
  refine ⟨?_, by rw [p]⟩
  have := parse_fst ty (memOf (ty.pack x))
  rw [p] at this
  exact this.symm

theorem maxLen_le (ty : VarTy) : ty.mix.maxLen ≤ 10 := by cases ty <;> decide

theorem bool_written (v : Val) (h : v = .num 0 ∨ v = .num 1) :
    isVarint 10 (scalar .bool v) ∧ (.num (if (parseBool (memOf (scalar .bool v))).2 then 1 else 0) : Val) = v := by
  rcases h with rfl | rfl
  · refine ⟨by unfold isVarint; decide, ?_⟩
    have : (parseBool (memOf (scalar .bool (.num 0)))).2 = false := by decide
    rw [this]; rfl
  · refine ⟨by unfold isVarint; decide, ?_⟩
    have : (parseBool (memOf (scalar .bool (.num 1)))).2 = true := by decide
    rw [this]; rfl

theorem enum_number (x : BitVec 64) : leb x.toNat = leb (varintNumber .i64 x) := rfl

theorem valid_of_ok {C : Cfg} {sc v} (h : scalarOk C sc v) : sc.valid v = true ∧ narrow sc v = v := by
  cases sc with
  | enum c =>
    obtain ⟨x, rfl, h1, h2⟩ := h
    have hx : VarTy.i32.cast x = x := inRange_canonical.1 h1
    refine ⟨?_, by simp only [narrow, hx]⟩
    cases c with
    | none => rfl
    | some vs =>
      simp only [Scalar.valid, hx]
      simpa using h2 vs rfl
  | _ => refine ⟨?_, ?_⟩ <;> cases v <;> rfl

/-- A scalar as a record. -/
theorem scalar_rec {C : Cfg} {sc : Scalar} {v : Val} {n : BitVec 32} (hn : n.toNat < 2 ^ 25) (h0 : 0 < n.toNat)
    (hv : scalarOk C sc v) (hl : (scalar sc v).length < 2 ^ 32) :
    ∃ r, r.wf ∧ r.raw = tag n (wireTypeOf sc) ++ scalar sc v ∧ tagNumber r.tag = n ∧ minimalTag r ∧
      recScalar C sc r = some v ∧ (sc.packable = true → ∀ t h p x, r ≠ .len t h p x) := by
  cases sc with
  | varint ty =>
    obtain ⟨x, rfl, hx⟩ := hv
    obtain ⟨t1, t2, t3, -, t4⟩ := tag_read (wt := wtVarint) (w := 0) hn rfl (by omega)
    obtain ⟨p1, p2⟩ := varint_piece ty hx
    refine ⟨.varint (makeTag n wtVarint) (tag n 0) (scalar (.varint ty) (.num x)), ?_, rfl, t3, t4, ?_, by simp⟩
    · unfold Rec.wf
      exact ⟨t1, makeTag_ne hn h0 (by decide), t2, isVarint_mono p1 (Nat.le_trans (isVarint_le p1) (maxLen_le ty))⟩
    · simp only [recScalar]
      rw [if_pos (by exact isVarint_le p1)]
      exact congrArg (fun y => some (Val.num y)) p2
  | bool =>
    obtain ⟨t1, t2, t3, -, t4⟩ := tag_read (wt := wtVarint) (w := 0) hn rfl (by omega)
    obtain ⟨p1, p2⟩ := bool_written v hv
    refine ⟨.varint (makeTag n wtVarint) (tag n 0) (scalar .bool v), ?_, rfl, t3, t4, ?_, by simp⟩
    · unfold Rec.wf
      exact ⟨t1, makeTag_ne hn h0 (by decide), t2, p1⟩
    · simp only [recScalar, p2]
  | enum c =>
    obtain ⟨x, rfl, hx, -⟩ := hv
    obtain ⟨t1, t2, t3, -, t4⟩ := tag_read (wt := wtVarint) (w := 0) hn rfl (by omega)
    obtain ⟨p1, p2⟩ := varint_piece .i64 (x := x) trivial
    refine ⟨.varint (makeTag n wtVarint) (tag n 0) (scalar (.enum c) (.num x)), ?_, rfl, t3, t4, ?_, by simp⟩
    · unfold Rec.wf
      exact ⟨t1, makeTag_ne hn h0 (by decide), t2, p1⟩
    · simp only [recScalar, scalar, Val.bits, enum_number, p2]
  | fixed32 f =>
    obtain ⟨x, rfl, hx⟩ := hv
    obtain ⟨t1, t2, t3, -, t4⟩ := tag_read (wt := wtFixed32) (w := 5) hn rfl (by omega)
    refine ⟨.fixed (makeTag n wtFixed32) (tag n 5) (scalar (.fixed32 f) (.num x)), ?_, rfl, t3, t4, ?_, by simp⟩
    · unfold Rec.wf
      exact ⟨t1, .inr ⟨t2, littleEndian_length _ _⟩⟩
    · simp only [recScalar, scalar, Val.bits, littleEndian_length, if_true, leVal_eq]
      rw [littleNumber_le 4 _ (by omega)]; simp
  | fixed64 f =>
    obtain ⟨x, rfl⟩ := hv
    obtain ⟨t1, t2, t3, -, t4⟩ := tag_read (wt := wtFixed64) (w := 1) hn rfl (by omega)
    refine ⟨.fixed (makeTag n wtFixed64) (tag n 1) (scalar (.fixed64 f) (.num x)), ?_, rfl, t3, t4, ?_, by simp⟩
    · unfold Rec.wf
      exact ⟨t1, .inl ⟨t2, littleEndian_length _ _⟩⟩
    · simp only [recScalar, scalar, Val.bits, littleEndian_length, if_true, leVal_eq]
      rw [littleNumber_le 8 _ (by have := x.isLt; omega)]; simp
  | str u =>
    obtain ⟨bs, rfl, hu⟩ := hv
    obtain ⟨t1, t2, t3, -, t4⟩ := tag_read (wt := wtLen) (w := 2) hn rfl (by omega)
    have hb : bs.length < 2 ^ 32 := by
      simp only [scalar, Val.str, List.length_append] at hl; omega
    have hp := leb_varint (v := bs.length) (k := 6) (by rw [leb_eq]; exact Nat.le_trans (packVarint_length_le5 hb) (by omega))
    refine ⟨.len (makeTag n wtLen) (tag n 2) (leb bs.length) bs, ?_, rfl, t3, t4, ?_, by simp [Scalar.packable]⟩
    · unfold Rec.wf
      exact ⟨t1, t2, hp.1, by rw [hp.2]; omega⟩
    · simp only [recScalar]
      cases u with
      | false => rfl
      | true => rw [hu rfl]; rfl

theorem cutEvery_flatMap {k : Nat} {f : Val → List Byte} : ∀ (vs : List Val), (∀ v ∈ vs, (f v).length = k) →
    cutEvery k vs.length (vs.flatMap f) = vs.map f
  | [], _ => rfl
  | v :: vs, h => by
    simp only [List.length_cons, List.flatMap_cons, cutEvery, List.map_cons]
    have hv := h v (by simp)
    rw [← hv, List.take_left, List.drop_left, hv, cutEvery_flatMap vs (fun x hx => h x (by simp [hx]))]

theorem length_flatMap_const {k : Nat} {f : Val → List Byte} : ∀ (vs : List Val), (∀ v ∈ vs, (f v).length = k) →
    (vs.flatMap f).length = vs.length * k
  | [], _ => by simp
  | v :: vs, h => by
    simp only [List.flatMap_cons, List.length_append, List.length_cons]
    rw [h v (by simp), length_flatMap_const vs (fun x hx => h x (by simp [hx])), Nat.succ_mul]; omega

theorem map_id_of {α β} {f : α → β} {g : β → α} {l : List α} (h : ∀ x ∈ l, g (f x) = x) : (l.map f).map g = l := by
  rw [List.map_map]
  conv => rhs; rw [← List.map_id l]
  exact List.map_congr_left h

/-- A packed list reads back. -/
theorem packed_written {C : Cfg} {sc : Scalar} (hp : sc.packable = true) {vs : List Val} (hv : ∀ v ∈ vs, scalarOk C sc v) :
    packedVals sc (vs.flatMap (scalar sc)) = some vs := by
  have fl : ∀ f : Val → List Byte, vs.flatMap f = (vs.map f).flatten := fun f => List.flatMap_def ..
  have fx : ∀ (k : Nat) (_ : 0 < k), (∀ v ∈ vs, (scalar sc v).length = k) → (∀ v ∈ vs, Val.num (leVal (scalar sc v)) = v) →
      (vs.flatMap (scalar sc)).length % k = 0 ∧
      (chunksLe k ((vs.flatMap (scalar sc)).length / k) (vs.flatMap (scalar sc))).map Val.num = vs := by
    intro k hk h1 h2
    rw [length_flatMap_const vs h1]
    refine ⟨Nat.mul_mod_left _ _, ?_⟩
    rw [Nat.mul_div_cancel _ hk, chunksLe_eq, cutEvery_flatMap vs h1, List.map_map]
    exact map_id_of h2
  cases sc with
  | varint ty =>
    have hx : ∀ v ∈ vs, isVarint ty.mix.maxLen (scalar (.varint ty) v) ∧ Val.num (ty.parse (memOf (scalar (.varint ty) v))).2 = v := by
      intro v h
      obtain ⟨x, rfl, hx⟩ := hv v h
      obtain ⟨p1, p2⟩ := varint_piece ty hx
      exact ⟨p1, congrArg Val.num p2⟩
    have hm : ∀ y ∈ vs.map (scalar (.varint ty)), isVarint ty.mix.maxLen y := by
      intro y hy; obtain ⟨v, h, rfl⟩ := List.mem_map.1 hy; exact (hx v h).1
    simp only [packedVals]
    rw [rdPacked_iff.2 ⟨vs.map (scalar (.varint ty)), by rw [fl, countTerm_flatten hm]; exact Nat.le_refl _, hm, fl _, rfl⟩]
    simp only [Option.map_some, Option.some.injEq]
    rw [List.map_map]
    exact map_id_of (g := fun y => Val.num (ty.parse (memOf y)).2) (fun v h => (hx v h).2)
  | bool =>
    have hx : ∀ v ∈ vs, _ := fun v h => bool_written v (hv v h)
    have hm : ∀ y ∈ vs.map (scalar .bool), isVarint 10 y := by
      intro y hy; obtain ⟨v, h, rfl⟩ := List.mem_map.1 hy; exact (hx v h).1
    simp only [packedVals]
    rw [rdPackedBools_iff.2 ⟨vs.map (scalar .bool), by rw [fl, countTerm_flatten hm], hm, ⟨[], by rw [fl]; simp⟩, rfl, rfl⟩]
    simp only [Option.bind_some]
    rw [if_pos (by rw [fl])]
    rw [Option.some.injEq, List.map_map, ← List.map_map]
    rw [List.map_map]
    exact map_id_of (g := fun y => (Val.num (if (parseBool (memOf y)).2 then 1 else 0))) (fun v h => (hx v h).2)
  | enum c =>
    have hx : ∀ v ∈ vs, isVarint 10 (scalar (.enum c) v) ∧ Val.num (VarTy.i32.cast (VarTy.i64.parse (memOf (scalar (.enum c) v))).2) = v := by
      intro v h
      obtain ⟨x, rfl, hx, -⟩ := hv v h
      obtain ⟨p1, p2⟩ := varint_piece .i64 (x := x) trivial
      refine ⟨p1, ?_⟩
      show Val.num (VarTy.i32.cast (VarTy.i64.parse (memOf (leb (varintNumber .i64 x)))).2) = _
      rw [p2]
      exact congrArg Val.num (inRange_canonical.1 hx)
    have hm : ∀ y ∈ vs.map (scalar (.enum c)), isVarint VarTy.i64.mix.maxLen y := by
      intro y hy; obtain ⟨v, h, rfl⟩ := List.mem_map.1 hy; exact (hx v h).1
    simp only [packedVals]
    rw [rdPacked_iff.2 ⟨vs.map (scalar (.enum c)), by rw [fl, countTerm_flatten hm]; exact Nat.le_refl _, hm, fl _, rfl⟩]
    simp only [Option.map_some, Option.some.injEq]
    rw [List.map_map]
    exact map_id_of (g := fun y => Val.num (VarTy.i32.cast (VarTy.i64.parse (memOf y)).2)) (fun v h => (hx v h).2)
  | fixed32 f =>
    obtain ⟨h1, h2⟩ := fx 4 (by omega) (fun v _ => littleEndian_length _ _) (by
      intro v h
      obtain ⟨x, rfl, hx⟩ := hv v h
      simp only [scalar, Val.bits, leVal_eq]
      rw [littleNumber_le 4 _ (by omega)]; simp)
    simp only [packedVals, h1, if_true, h2]
  | fixed64 f =>
    obtain ⟨h1, h2⟩ := fx 8 (by omega) (fun v _ => littleEndian_length _ _) (by
      intro v h
      obtain ⟨x, rfl⟩ := hv v h
      simp only [scalar, Val.bits, leVal_eq]
      rw [littleNumber_le 8 _ (by have := x.isLt; omega)]; simp)
    simp only [packedVals, h1, if_true, h2]
  | str u => cases hp

end HppProto
