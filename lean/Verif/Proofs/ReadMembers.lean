import Verif.Proofs.ReadInv
import Verif.Spec.Values
/-! Scalars in records, and what the records of a member do to it. -/
namespace HppProto
open Spec

theorem msb_lt (b : Byte) : b.msb = false ↔ b.toNat < 128 := by
  rw [BitVec.msb_eq_decide]; simp

theorem cutVarints_one : ∀ {i : List Byte} {t : Byte} {l}, (∀ b ∈ i, b.msb = true) → t.msb = false →
    cutVarints (i ++ [t] ++ l) = (i ++ [t]) :: cutVarints l
  | [], t, l, _, ht => by simp only [List.nil_append, List.cons_append, cutVarints]; rw [if_pos ((msb_lt t).1 ht)]
  | b :: i, t, l, hi, ht => by
    have ih := cutVarints_one (l := l) (fun b hb => hi b (List.mem_cons_of_mem _ hb)) ht
    rw [List.cons_append, List.cons_append]
    simp only [cutVarints]
    rw [if_neg (fun h => by have := (msb_lt b).2 h; rw [hi b List.mem_cons_self] at this; cases this), ih]

theorem cutVarints_flatten {k} : ∀ {vs : List (List Byte)}, (∀ x ∈ vs, isVarint k x) → cutVarints vs.flatten = vs
  | [], _ => rfl
  | x :: vs, h => by
    obtain ⟨i, t, e, ht, hi⟩ := varint_shape (h x List.mem_cons_self)
    rw [List.flatten_cons, e, cutVarints_one hi ht, cutVarints_flatten (fun y hy => h y (List.mem_cons_of_mem _ hy))]

theorem leVal_eq (bs : List Byte) : leVal bs = BitVec.ofNat 64 (littleNumber bs) := by
  unfold leVal
  congr 1
  induction bs with
  | nil => rfl
  | cons b bs ih => rw [List.foldr_cons, ih]; rfl

theorem chunksLe_eq (k) : ∀ n bs, chunksLe k n bs = (cutEvery k n bs).map leVal
  | 0, _ => rfl
  | n + 1, bs => by simp only [chunksLe, cutEvery, List.map_cons, chunksLe_eq k n]

theorem cast32_ofNat (n : Nat) : VarTy.i32.cast (BitVec.ofNat 64 n) = signed32 n := by
  simp only [VarTy.cast, signed32]
  congr 1
  apply BitVec.eq_of_toNat_eq
  simp

theorem signed32_toNat (v : BitVec 64) : signed32 v.toNat = VarTy.i32.cast v := by
  rw [← cast32_ofNat, BitVec.ofNat_toNat, BitVec.setWidth_eq]

theorem cast32_idem (v : BitVec 64) : VarTy.i32.cast (VarTy.i32.cast v) = VarTy.i32.cast v := by
  simp only [VarTy.cast]
  congr 1
  ext i hi
  simp [BitVec.getLsbD_signExtend, hi]; omega

theorem parse_piece (ty : VarTy) {p : List Byte} (h : isVarint ty.mix.maxLen p) :
    Val.num (ty.parse (memOf p)).2 = pieceVal (.varint ty) p := by
  have e : ∀ v, (BitVec.ofNat 64 v).setWidth 32 = BitVec.ofNat 32 v := by
    intro v; apply BitVec.eq_of_toNat_eq; simp
  cases ty with
  | s32 => rfl
  | s64 => rfl
  | i32 => rw [parse_plain .i32 _ _ (by simp) h]; simp only [VarTy.cast, e]; rfl
  | u32 => rw [parse_plain .u32 _ _ (by simp) h]; simp only [VarTy.cast, e]; rfl
  | i64 => rw [parse_plain .i64 _ _ (by simp) h]; rfl
  | u64 => rw [parse_plain .u64 _ _ (by simp) h]; rfl

theorem bool_piece {p : List Byte} (h : isVarint 10 p) :
    Val.num (if (parseBool (memOf p)).2 then 1 else 0) = pieceVal .bool p := by
  rw [(parseBool_spec (memOf p)).2 _ h]
  show Val.num (if decide (valueOf p % 2 ^ 64 ≠ 0) = true then 1 else 0) = Val.num (if valueOf p % 2 ^ 64 = 0 then 0 else 1)
  by_cases h0 : valueOf p % 2 ^ 64 = 0
  · rw [if_pos h0]; simp [h0]
  · rw [if_neg h0]; simp [h0]

theorem enum_piece {p : List Byte} (h : isVarint 10 p) (c) :
    Val.num (VarTy.i32.cast (VarTy.i64.parse (memOf p)).2) = pieceVal (.enum c) p := by
  rw [parse_plain .i64 _ _ (by simp) h]
  show Val.num (VarTy.i32.cast (BitVec.ofNat 64 (varintVal (memOf p) p.length))) = _
  rw [cast32_ofNat]
  rfl

/-- A scalar record holds one value. -/
theorem recScalar_vals {C : Cfg} {sc : Scalar} {r : Rec} {w} (hr : r.wf) (h : recScalar C sc r = some w) :
    (∀ t hd p v, r = .len t hd p v → sc.packable = false) ∧ recVals sc r = [narrow sc w] := by
  cases r with
  | varint t hd v =>
    refine ⟨by intros; contradiction, ?_⟩
    unfold Rec.wf at hr
    have hv := hr.2.2.2
    cases sc with
    | varint ty =>
      simp only [recScalar] at h
      split at h
      · cases h
        rename_i hl
        show [pieceVal _ v] = _
        rw [← parse_piece ty (isVarint_mono hv hl)]; rfl
      · cases h
    | bool =>
      simp only [recScalar] at h
      cases h
      show [pieceVal _ v] = _
      rw [← bool_piece hv]; rfl
    | enum c =>
      simp only [recScalar] at h
      cases h
      show [pieceVal _ v] = _
      rw [← enum_piece hv]; rfl
    | fixed32 f => cases h
    | fixed64 f => cases h
    | str u => cases h
  | fixed t hd v =>
    refine ⟨by intros; contradiction, ?_⟩
    cases sc with
    | fixed32 f =>
      simp only [recScalar] at h
      split at h
      · cases h; show [Val.num _] = [Val.num _]; rw [leVal_eq]
      · cases h
    | fixed64 f =>
      simp only [recScalar] at h
      split at h
      · cases h; show [Val.num _] = [Val.num _]; rw [leVal_eq]
      · cases h
    | _ => cases h
  | len t hd p v =>
    cases sc with
    | str u =>
      refine ⟨fun _ _ _ _ _ => rfl, ?_⟩
      simp only [recScalar] at h
      split at h
      · cases h
      · cases h; rfl
    | _ => cases h
  | group t hd b tl => cases h

theorem packedVals_vals {sc : Scalar} {v vs t hd p} (h : packedVals sc v = some vs) :
    recVals sc (.len t hd p v) = vs := by
  have fl : ∀ {k} {l : List (List Byte)}, (∀ x ∈ l, isVarint k x) → l.flatten = v → cutVarints v = l := by
    intro k l h1 e; rw [← e]; exact cutVarints_flatten h1
  cases sc with
  | varint ty =>
    simp only [packedVals, Option.map_eq_some_iff] at h
    obtain ⟨xs, h1, rfl⟩ := h
    obtain ⟨l, -, h2, h3, rfl⟩ := rdPacked_iff.1 h1
    show (cutVarints v).map _ = _
    rw [fl h2 h3.symm, List.map_map]
    exact List.map_congr_left (fun x hx => (parse_piece ty (h2 x hx)).symm)
  | enum c =>
    simp only [packedVals, Option.map_eq_some_iff] at h
    obtain ⟨xs, h1, rfl⟩ := h
    obtain ⟨l, -, h2, h3, rfl⟩ := rdPacked_iff.1 h1
    show (cutVarints v).map _ = _
    rw [fl h2 h3.symm, List.map_map]
    exact List.map_congr_left (fun x hx => (enum_piece (h2 x hx) c).symm)
  | bool =>
    simp only [packedVals, Option.bind_eq_some_iff] at h
    obtain ⟨⟨n, xs⟩, h1, h2⟩ := h
    obtain ⟨l, -, h3, ⟨more, h4⟩, h5, rfl⟩ := rdPackedBools_iff.1 h1
    simp only at h2
    split at h2
    · rename_i hn
      cases h2
      have : l.flatten = v := by
        have hl := congrArg List.length h4
        rw [List.length_append] at hl
        have : more = [] := List.length_eq_zero_iff.1 (by omega)
        rw [h4, this, List.append_nil]
      show (cutVarints v).map _ = _
      rw [fl h3 this, List.map_map]
      exact List.map_congr_left (fun x hx => (bool_piece (h3 x hx)).symm)
    · cases h2
  | fixed32 f =>
    simp only [packedVals] at h
    split at h
    · cases h
      show (cutEvery 4 (v.length / 4) v).map _ = _
      rw [chunksLe_eq, List.map_map]
      exact List.map_congr_left (fun x _ => by simp only [Function.comp, leVal_eq, pieceVal])
    · cases h
  | fixed64 f =>
    simp only [packedVals] at h
    split at h
    · cases h
      show (cutEvery 8 (v.length / 8) v).map _ = _
      rw [chunksLe_eq, List.map_map]
      exact List.map_congr_left (fun x _ => by simp only [Function.comp, leVal_eq, pieceVal])
    · cases h
  | str u => cases h

/-- Values produced by `narrow` are canonical for enums, so `valid` is plain membership. -/
theorem pieceVal_valid (sc : Scalar) (p) : sc.valid (pieceVal sc p) = allowed sc (pieceVal sc p) := by
  cases sc with
  | enum c => cases c with
    | none => rfl
    | some vs =>
      simp only [Scalar.valid, pieceVal, allowed, Val.bits]
      rw [← cast32_ofNat, cast32_idem]
  | _ => rfl

theorem recVals_valid {sc : Scalar} {r v} (h : v ∈ recVals sc r) : sc.valid v = allowed sc v := by
  obtain ⟨p, -, rfl⟩ := List.mem_map.1 h
  exact pieceVal_valid sc p

theorem valid_narrow (sc : Scalar) (w : Val) : sc.valid (narrow sc w) = sc.valid w := by
  cases sc with
  | enum c => cases c with
    | none => rfl
    | some vs => cases w <;> simp only [Scalar.valid, narrow, cast32_idem]
  | _ => rfl

theorem valid_false {sc : Scalar} {w : Val} (h : ¬ sc.valid w = true) : ∃ vs x, sc = .enum (some vs) ∧ w = .num x := by
  cases sc with
  | enum c => cases c with
    | none => exact absurd rfl h
    | some vs => cases w with
      | num x => exact ⟨vs, x, rfl, rfl⟩
      | bytes b => exact absurd rfl h
      | msg m => exact absurd rfl h
  | _ => exact absurd rfl h

section
variable {C : Cfg} {S : Sem}

theorem repEff_scalar {number sc unique r es es' u} (hr : r.wf) (h : repEff C S number (.scalar sc) unique r es es' u) :
    es' = es ++ ((recVals sc r).filter (allowed sc)).map (fun v => (0, v)) ∧
    u.map Prod.snd = ((recVals sc r).filter (fun v => !allowed sc v)).map Val.bits := by
  have el : elemEff C S (.scalar sc) unique r es es' u →
      es' = es ++ ((recVals sc r).filter (allowed sc)).map (fun v => (0, v)) ∧
      u.map Prod.snd = ((recVals sc r).filter (fun v => !allowed sc v)).map Val.bits := by
    rintro ⟨w, h1, h2⟩
    obtain ⟨-, e⟩ := recScalar_vals hr h1
    have ha : sc.valid (narrow sc w) = allowed sc (narrow sc w) := recVals_valid (by rw [e]; simp)
    rw [e]
    split at h2
    · rename_i hv
      rw [ha] at hv
      obtain ⟨rfl, rfl⟩ := h2
      simp [hv]
    · rename_i hv
      rw [ha] at hv
      obtain ⟨rfl, rfl⟩ := h2
      simp [hv]
  cases r with
  | len t hd p v =>
    simp only [repEff] at h
    split at h
    · rename_i hp
      unfold packedEff at h
      split at h
      · rename_i hv
        subst hv
        obtain ⟨rfl, rfl⟩ := h
        have : recVals sc (.len t hd p []) = [] := by
          cases sc <;> first | rfl | (simp [Scalar.packable] at hp)
        simp [this]
      · obtain ⟨vs, h1, rfl, rfl⟩ := h
        have e := packedVals_vals (t := t) (hd := hd) (p := p) h1
        rw [e]
        have hv : ∀ v ∈ vs, sc.valid v = allowed sc v := fun v hv => recVals_valid (by rw [e]; exact hv)
        rw [List.filter_congr hv, List.filter_congr (fun v h => by rw [hv v h] : ∀ v ∈ vs, (!sc.valid v) = !allowed sc v)]
        simp [Function.comp_def]
    · exact el h
  | _ => simp only [repEff] at h; exact el h

theorem repEff_msg {number id unique r es es' u} :
    repEff C S number (.msg id) unique r es es' u ↔ elemEff C S (.msg id) unique r es es' u := by
  cases r <;> simp only [repEff]

/-- Diverted numbers are the numbers of the record outside the enum. -/
theorem slotEff_outside {sd r k es es' u} (hr : r.wf) (hk : usesKind sd r k)
    (hi : ∀ n vs dflt, sd ≠ .field n (.scalar (.enum (some vs))) (.implicit dflt))
    (h : slotEff C S sd r es es' u) :
    u.map (fun p => VarTy.i32.cast p.2) = outside k r := by
  have one : ∀ {sc w}, recScalar C sc r = some w → sc.valid w = true →
      ((recVals sc r).filter (fun v => !allowed sc v)).map Val.bits = [] := by
    intro sc w h1 h2
    obtain ⟨-, e⟩ := recScalar_vals hr h1
    have ha : sc.valid (narrow sc w) = allowed sc (narrow sc w) := recVals_valid (by rw [e]; simp)
    rw [e]
    rw [valid_narrow, h2] at ha
    simp [← ha]
  have two : ∀ {sc w}, recScalar C sc r = some w → ¬ sc.valid w = true →
      [VarTy.i32.cast w.bits] = ((recVals sc r).filter (fun v => !allowed sc v)).map Val.bits := by
    intro sc w h1 h2
    obtain ⟨-, e⟩ := recScalar_vals hr h1
    have ha : sc.valid (narrow sc w) = allowed sc (narrow sc w) := recVals_valid (by rw [e]; simp)
    rw [e]
    rw [valid_narrow] at ha
    rw [ha] at h2
    obtain ⟨vs, x, rfl, rfl⟩ := valid_false (by rw [ha]; exact h2)
    simp only [Bool.not_eq_true] at h2
    simp [h2]
    rfl
  have rep : ∀ {number sc unique}, repEff C S number (.scalar sc) unique r es es' u →
      u.map (fun p => VarTy.i32.cast p.2) = ((recVals sc r).filter (fun v => !allowed sc v)).map Val.bits := by
    intro number sc unique h
    have e := (repEff_scalar hr h).2
    have : u.map (fun p => VarTy.i32.cast p.2) = (u.map Prod.snd).map VarTy.i32.cast := by simp
    rw [this, e, List.map_map]
    refine List.map_congr_left (fun v hv => ?_)
    obtain ⟨hv1, hv2⟩ := List.mem_filter.1 hv
    obtain ⟨p, -, rfl⟩ := List.mem_map.1 hv1
    have : ∃ vs, sc = .enum (some vs) := by
      cases sc with
      | enum c => cases c with
        | none => simp [allowed] at hv2
        | some vs => exact ⟨vs, rfl⟩
      | _ => simp [allowed] at hv2
    obtain ⟨vs, rfl⟩ := this
    simp only [Function.comp, pieceVal, Val.bits]
    rw [← cast32_ofNat, cast32_idem]
  have repM : ∀ {id unique}, elemEff C S (.msg id) unique r es es' u → u = [] := by
    rintro id unique ⟨e, -, h, -⟩; exact h
  cases sd with
  | field number k' card =>
    cases hk
    cases card with
    | implicit d =>
      obtain ⟨v, h1, -, rfl⟩ := h
      cases k with
      | scalar sc =>
        have : ∀ v, allowed sc v = true := by
          intro v
          cases sc with
          | enum c => cases c with
            | none => rfl
            | some vs => exact absurd rfl (hi number vs d)
          | _ => rfl
        simp [outside, this]
      | msg id => rfl
      | group id => rfl
    | always d =>
      cases k with
      | scalar sc =>
        obtain ⟨w, h1, h2, -, rfl⟩ := h
        exact (one h1 h2).symm
      | msg id => obtain ⟨v, -, -, rfl⟩ := h; rfl
      | group id => obtain ⟨v, -, -, rfl⟩ := h; rfl
    | optional =>
      cases k with
      | scalar sc =>
        obtain ⟨w, h1, h2⟩ := h
        split at h2
        · rename_i hv; obtain ⟨-, rfl⟩ := h2; exact (one h1 hv).symm
        · rename_i hv; obtain ⟨-, rfl⟩ := h2; exact two h1 hv
      | msg id => obtain ⟨v, -, -, rfl⟩ := h; rfl
      | group id => obtain ⟨v, -, -, rfl⟩ := h; rfl
    | repeated p =>
      cases k with
      | scalar sc => exact rep h
      | msg id => rw [show u = [] from repM ((repEff_msg (number := number)).1 h)]; rfl
      | group id =>
        have : u = [] := by
          simp only [slotEff] at h
          cases r <;> simp only [repEff] at h <;> (obtain ⟨e, -, h, -⟩ := h; exact h)
        rw [this]; rfl
    | map p =>
      cases k with
      | scalar sc => exact rep h
      | msg id => rw [show u = [] from repM ((repEff_msg (number := number)).1 h)]; rfl
      | group id =>
        have : u = [] := by
          simp only [slotEff] at h
          cases r <;> simp only [repEff] at h <;> (obtain ⟨e, -, h, -⟩ := h; exact h)
        rw [this]; rfl
  | oneof alts =>
    obtain ⟨j, k', hf, h⟩ := h
    obtain ⟨j', hk⟩ := hk
    rw [hf] at hk
    cases hk
    cases k with
    | scalar sc =>
      obtain ⟨w, h1, h2⟩ := h
      split at h2
      · rename_i hv; obtain ⟨-, -, rfl⟩ := h2; exact (one h1 hv).symm
      · rename_i hv; obtain ⟨-, rfl⟩ := h2; exact two h1 hv
    | msg id => obtain ⟨v, -, -, rfl⟩ := h; rfl
    | group id => obtain ⟨v, -, -, rfl⟩ := h; rfl

/-- Everything that reading keeps. -/
theorem fold_keptAs {D : MsgD} (hm : D.unk ≠ .none) (hi : noImplicitClosed D) : ∀ {rs last m m'}, wfAll rs →
    (m.unk.map Prod.fst).Nodup → fold C S D last rs m m' →
    (∀ r ∈ rs, fieldKind D (tagNum r.tag) = none → minimalTag r) →
    (m'.unk.map Prod.fst).Nodup ∧ (∀ n, n ∈ m'.unk.map Prod.fst → n ∈ m.unk.map Prod.fst ∨ ∃ r ∈ rs, n = keyOf D.unk (tagNum r.tag)) ∧
    ∃ parts : List (List Byte), parts.length = rs.length ∧
      (∀ p ∈ rs.zip parts, keptAs D p.1 p.2) ∧
      ∀ n, keptUnder m' n = keptUnder m n ++
        ((rs.zip parts).filter (fun p => n = keyOf D.unk (tagNum p.1.tag))).flatMap Prod.snd
  | [], _, m, m', _, hn, h, _ => by cases h; exact ⟨hn, fun n h => .inl h, [], rfl, by simp, fun n => by simp⟩
  | r :: rs, last, m, m', hw, hn, h, hmin => by
    unfold wfAll at hw
    obtain ⟨m1, ⟨-, h1⟩, h2⟩ := h
    have keys : ∀ (num : BitVec 32) bs (m : Msg), (m.unk.map Prod.fst).Nodup → ∀ n, n ∈ (m.addUnk D.unk num bs).unk.map Prod.fst →
        n ∈ m.unk.map Prod.fst ∨ n = keyOf D.unk num.toNat := by
      intro num bs m hn n hx
      cases hu : D.unk with
      | none => exact absurd hu hm
      | bytes =>
        rw [hu] at hx
        rcases ((unkAppend_keys _ _ _ hn).2 n).1 hx with h | h
        · exact .inr h
        · exact .inl h
      | ext =>
        rw [hu] at hx
        rcases ((unkAppend_keys _ _ _ hn).2 n).1 hx with h | h
        · exact .inr h
        · exact .inl h
    have : (m1.unk.map Prod.fst).Nodup ∧
        (∀ n, n ∈ m1.unk.map Prod.fst → n ∈ m.unk.map Prod.fst ∨ n = keyOf D.unk (tagNum r.tag)) ∧
        ∃ part, keptAs D r part ∧ ∀ n, keptUnder m1 n = keptUnder m n ++
        if n = keyOf D.unk (tagNum r.tag) then part else [] := by
      split at h1
      · rename_i i hfi
        obtain ⟨sd, hs, h1⟩ := h1
        obtain ⟨es', u, k1, rfl⟩ := slotStep_eff.1 h1
        obtain ⟨d1, -⟩ := slotEff_divert (find_has hfi hs) k1
        obtain ⟨k2, k3⟩ := divert_kept hm (tagNumber r.tag) u (m.put i es') d1 hn
        refine ⟨k2, ?_, u.flatMap (fun p => unkEnumRecord (tagNumber r.tag) p.2), ?_, fun n => ?_⟩
        · have dk : ∀ (u : List (BitVec 32 × BitVec 64)) (m : Msg), (∀ p ∈ u, p.1 = tagNumber r.tag) → (m.unk.map Prod.fst).Nodup →
              ∀ n, n ∈ (divert D.unk u m).unk.map Prod.fst → n ∈ m.unk.map Prod.fst ∨ n = keyOf D.unk (tagNum r.tag) := by
            intro u
            induction u with
            | nil => intro m _ _ n h; exact .inl h
            | cons p u ih =>
              intro m hu hn n h
              rcases ih (m.addUnk D.unk p.1 (unkEnumRecord p.1 p.2)) (fun q hq => hu q (List.mem_cons_of_mem _ hq))
                (addUnk_kept hm hn _ _).1 n h with h | h
              · rcases keys _ _ _ hn n h with h | h
                · exact .inl h
                · exact .inr (by rw [h, hu p List.mem_cons_self, tagNumber_toNat])
              · exact .inr h
          exact dk u (m.put i es') d1 hn
        · unfold keptAs
          cases hk : fieldKind D (tagNum r.tag) with
          | none => rw [← tagNumber_toNat, fieldKind_none, hfi] at hk; cases hk
          | some k =>
            have hu := (fieldKind_uses hfi hs (k := k)).1 hk
            have ho := slotEff_outside hw.1 hu (fun n vs d e => hi n vs d (e ▸ List.mem_of_getElem? hs)) k1
            refine ⟨u.map Prod.snd, ?_, ?_⟩
            · rw [List.flatMap_map]
              congr 1
              funext p
              rw [unkEnumRecord_eq _ (tagNumber_lt _), ← tagNumber_toNat, BitVec.ofNat_toNat, BitVec.setWidth_eq]
            · rw [List.map_map]
              have : (fun p : BitVec 32 × BitVec 64 => VarTy.i32.cast p.2) = ((fun x : BitVec 64 => signed32 x.toNat) ∘ Prod.snd) := by
                funext p; simp only [Function.comp, signed32_toNat]
              rw [← this, ho]
        · rw [k3, tagNumber_toNat]; rfl
      · rename_i hfi
        obtain ⟨-, rfl⟩ := h1
        have hk : fieldKind D (tagNum r.tag) = none := by rw [← tagNumber_toNat, fieldKind_none, hfi]
        obtain ⟨k2, k3⟩ := addUnk_kept hm hn (tagNumber r.tag) (captured (contd last r) r)
        refine ⟨k2, fun n hx => ?_, _, ?_, fun n => by rw [k3, tagNumber_toNat]⟩
        · rw [← tagNumber_toNat]; exact keys _ _ _ hn n hx
        · unfold keptAs
          rw [hk]
          exact captured_minimal (hmin r List.mem_cons_self hk) _
    obtain ⟨n1, ks1, part, hp, hk⟩ := this
    obtain ⟨n2, ks2, parts, i1, i2, i3⟩ := fold_keptAs hm hi hw.2 n1 h2 (fun r hr => hmin r (List.mem_cons_of_mem _ hr))
    refine ⟨n2, fun n hx => ?_, part :: parts, by simp [i1], ?_, fun n => ?_⟩
    · rcases ks2 n hx with h | ⟨r', hr', e⟩
      · rcases ks1 n h with h | h
        · exact .inl h
        · exact .inr ⟨r, List.mem_cons_self, h⟩
      · exact .inr ⟨r', List.mem_cons_of_mem _ hr', e⟩
    · intro p hp'
      rw [List.zip_cons_cons, List.mem_cons] at hp'
      rcases hp' with rfl | hp'
      · exact hp
      · exact i2 p hp'
    · rw [i3, hk, List.zip_cons_cons, List.filter_cons]
      by_cases e : n = keyOf D.unk (tagNum r.tag)
      · simp [e]
      · simp [e]

/-! ### Members -/

theorem slotFold_repeated {n sc p} : ∀ {rs es es'}, wfAll rs →
    slotFold C S (.field n (.scalar sc) (.repeated p)) rs es es' →
    es' = es ++ ((rs.flatMap (recVals sc)).filter (allowed sc)).map (fun v => (0, v))
  | [], es, es', _, h => by cases h; simp
  | r :: rs, es, es', hw, h => by
    unfold wfAll at hw
    obtain ⟨es1, u, h1, h2⟩ := h
    rw [slotFold_repeated hw.2 h2, (repEff_scalar hw.1 h1).1]
    simp [List.flatMap_cons, List.filter_append]

theorem slotFold_optional {n sc} : ∀ {rs es es'}, wfAll rs →
    slotFold C S (.field n (.scalar sc) .optional) rs es es' →
    es' = match ((rs.flatMap (recVals sc)).filter (allowed sc)).getLast? with
      | some v => [(0, v)]
      | none => es
  | [], es, es', _, h => by cases h; rfl
  | r :: rs, es, es', hw, h => by
    unfold wfAll at hw
    obtain ⟨es1, u, ⟨w, h1, h2⟩, h3⟩ := h
    obtain ⟨-, e⟩ := recScalar_vals hw.1 h1
    have ha : sc.valid (narrow sc w) = allowed sc (narrow sc w) := recVals_valid (by rw [e]; simp)
    rw [valid_narrow] at ha
    rw [slotFold_optional hw.2 h3, List.flatMap_cons, e, List.filter_append]
    split at h2
    · rename_i hv
      obtain ⟨rfl, -⟩ := h2
      rw [ha] at hv
      rw [List.filter_cons_of_pos hv, List.filter_nil, List.singleton_append, List.getLast?_cons]
      cases ((rs.flatMap (recVals sc)).filter (allowed sc)).getLast? <;> rfl
    · rename_i hv
      obtain ⟨rfl, -⟩ := h2
      rw [ha] at hv
      rw [List.filter_cons_of_neg hv, List.filter_nil, List.nil_append]

theorem slotFold_map {n id} : ∀ {rs es es'},
    slotFold C S (.field n (.msg id) (.map true)) rs es es' →
    ∃ ms : List Msg, ms.length = rs.length ∧
      (∀ p ∈ rs.zip ms, recMsg C S (.msg id) p.1 (C.schema id).default p.2) ∧
      es' = insertAll (ms.map .msg) es
  | [], es, es', h => by cases h; exact ⟨[], rfl, by simp, rfl⟩
  | r :: rs, es, es', h => by
    obtain ⟨es1, u, h1, h2⟩ := h
    obtain ⟨e, h3, -, h4⟩ := (repEff_msg (number := n)).1 h1
    simp only [if_true] at h4
    obtain ⟨ms, i1, i2, i3⟩ := slotFold_map h2
    refine ⟨e :: ms, by simp [i1], ?_, ?_⟩
    · intro p hp
      rw [List.zip_cons_cons, List.mem_cons] at hp
      rcases hp with rfl | hp
      · exact h3
      · exact i2 p hp
    · rw [i3, h4]; rfl

theorem ofMember_eq {D : MsgD} (hd : distinctNumbers D) {i sd} (hs : D.slots[i]? = some sd) (r : Rec) :
    ofMember D i r = (slotKind (tagNum r.tag) sd).isSome := by
  rw [← tagNumber_toNat, slotKind_has]
  unfold ofMember
  cases hf : D.find (tagNumber r.tag) with
  | none =>
    rw [← fieldKind_none] at hf
    unfold fieldKind at hf
    rw [List.findSome?_eq_none_iff] at hf
    have := hf sd (List.mem_of_getElem? hs)
    rw [← slotKind_has, this]; rfl
  | some j =>
    obtain ⟨a, ha⟩ : ∃ a, D.slots[j]? = some a := by
      unfold MsgD.find at hf
      rw [List.findIdx?_eq_some_iff_getElem] at hf
      obtain ⟨hj, -⟩ := hf
      exact ⟨_, List.getElem?_eq_getElem hj⟩
    have hh := find_has hf ha
    rw [Bool.eq_iff_iff]
    simp only [beq_iff_eq, Option.some.injEq]
    constructor
    · rintro rfl
      rw [hs] at ha
      cases ha
      exact hh
    · intro h
      refine hd (tagNumber r.tag).toNat j i a sd ha hs ?_ ?_
      · rw [slotKind_has]; exact hh
      · rw [slotKind_has]; exact h

theorem recordsOf_eq {D : MsgD} (hd : distinctNumbers D) {i sd} (hs : D.slots[i]? = some sd) (rs : List Rec) :
    rs.filter (ofMember D i) = recordsOf sd rs :=
  List.filter_congr (fun r _ => ofMember_eq hd hs r)

theorem wfAll_filter {p : Rec → Bool} {rs} (h : wfAll rs) : wfAll (rs.filter p) :=
  wfAll_iff.2 (fun r hr => wfAll_iff.1 h r (List.mem_filter.1 hr).1)

end

theorem default_get {D : MsgD} {i sd} (hs : D.slots[i]? = some sd) : D.default.get i = sd.initial := by
  simp [MsgD.default, MsgOf.get, hs]

/-- Reading a message into a fresh object, seen from one member. -/
theorem read_member {C : Cfg} {limit id old buf m i sd} (h : readBinpb C limit id old buf = .ok m)
    (hd : distinctNumbers (C.schema id)) (hs : (C.schema id).slots[i]? = some sd) {rs} (hw : wfAll rs) (he : rawAll rs = buf) :
    slotFold C (sem C limit) sd (recordsOf sd rs) sd.initial (m.get i) := by
  rw [readBinpb_eq] at h
  obtain ⟨rs', w', e', -, f⟩ := (parseOnto_iff _ _ _ _ _ _).1 h
  cases recs_unique hw w' (he.trans e'.symm)
  have := fold_proj hs (m := (C.schema id).default) (by simp [MsgD.default]) f
  rw [recordsOf_eq hd hs, default_get hs] at this
  exact this

/-! ### Invariants of values -/

theorem default_every {C : Cfg} {P} (h : defaultsHave C P) : ∀ d id, everyScalar C P d id (C.schema id).default
  | 0, _ => trivial
  | d + 1, id => by
    rw [everyScalar_succ]
    intro i sd hs
    rw [default_get hs]
    have hm := List.mem_of_getElem? hs
    have key : ∀ n k card dflt, SlotD.field n k card ∈ (C.schema id).slots → (card = .implicit dflt ∨ card = .always dflt) →
        goodEntries C P d (.field n k card) [(0, dflt)] := by
      intro n k card dflt hm e2 e he k' hk
      cases hk
      have := h id n k card dflt hm e2
      simp only [List.mem_singleton] at he
      subst he
      cases k with
      | scalar sc => exact this
      | msg sub => simp only at this ⊢; rw [this]; exact default_every h d sub
      | group sub => simp only at this ⊢; rw [this]; exact default_every h d sub
    cases sd with
    | oneof alts => intro e he; cases he
    | field n k' card =>
      cases card with
      | implicit dflt => exact key n k' _ dflt hm (.inl rfl)
      | always dflt => exact key n k' _ dflt hm (.inr rfl)
      | optional => intro e he; cases he
      | repeated p => intro e he; cases he
      | map u => intro e he; cases he

theorem good_utf8 {C : Cfg} (h : defaultsHave C (utf8Val C)) : ReadsGood C (utf8Val C) where
  one sd sc r w hr _ := by
    rintro rfl
    cases r with
    | len t hd p v =>
      simp only [recScalar] at hr
      split at hr
      · cases hr
      · rename_i hc
        cases hr
        simpa [narrow, Val.str] using hc
    | _ => cases hr
  elem sd sc r w hr _ := by
    rintro rfl
    cases r with
    | len t hd p v =>
      simp only [recScalar] at hr
      split at hr
      · cases hr
      · rename_i hc
        cases hr
        simpa [narrow, Val.str] using hc
    | _ => cases hr
  packed sd sc v vs hp x _ _ := by rintro rfl; cases hp
  dflt := default_every h

theorem valid_enum {vs : List (BitVec 64)} {x} (h : Scalar.valid (.enum (some vs)) (.num x) = true) : VarTy.i32.cast x ∈ vs := by
  simpa [Scalar.valid] using h

theorem recScalar_num {C : Cfg} {c r w} (h : recScalar C (.enum c) r = some w) : ∃ x, w = .num x := by
  cases r <;> first | cases h | skip
  exact ⟨_, rfl⟩

theorem good_enum {C : Cfg} (h : defaultsHave C enumVal) : ReadsGood C enumVal where
  one sd sc r w hr hv := by
    rintro vs rfl hi
    obtain ⟨x, rfl⟩ := recScalar_num hr
    rcases hv with hv | hv
    · exact valid_enum hv
    · cases sd with
      | field n k card => cases card <;> first | (cases hv; done) | exact absurd rfl (hi _ _ _)
      | oneof alts => cases hv
  elem sd sc r w hr hv := by
    rintro vs rfl hi
    obtain ⟨x, rfl⟩ := recScalar_num hr
    have := valid_enum hv
    rw [cast32_idem] at this
    exact this
  packed sd sc v vs hp x hx hv := by
    rintro l rfl hi
    have e := packedVals_vals (t := 0) (hd := []) (p := []) hp
    have : Scalar.valid (.enum (some l)) x = allowed (.enum (some l)) x := recVals_valid (r := .len 0 [] [] v) (by rw [e]; exact hx)
    rw [hv] at this
    simpa [allowed] using this.symm
  dflt := default_every h

/-! ### Oneofs -/

section
variable {C : Cfg} {S : Sem} {D : MsgD}

theorem slotFold_append {sd : SlotD} : ∀ {a b : List Rec} {es es'}, slotFold C S sd (a ++ b) es es' ↔
    ∃ es1, slotFold C S sd a es es1 ∧ slotFold C S sd b es1 es'
  | [], b, es, es' => by simp [slotFold]
  | r :: a, b, es, es' => by
    simp only [List.cons_append, slotFold]
    constructor
    · rintro ⟨e1, u, h1, h2⟩
      obtain ⟨e2, h3, h4⟩ := slotFold_append.1 h2
      exact ⟨e2, ⟨e1, u, h1, h3⟩, h4⟩
    · rintro ⟨e2, ⟨e1, u, h1, h3⟩, h4⟩
      exact ⟨e1, u, h1, slotFold_append.2 ⟨e2, h3, h4⟩⟩

theorem findAlt_get {n : BitVec 32} : ∀ {alts : List (BitVec 32 × Kind)} {j0 j k}, findAlt n alts j0 = some (j, k) →
    j0 ≤ j ∧ alts[j - j0]? = some (n, k)
  | [], j0, j, k, h => by cases h
  | (a, ka) :: alts, j0, j, k, h => by
    simp only [findAlt] at h
    split at h
    · rename_i e
      cases h
      subst e
      simp
    · obtain ⟨h1, h2⟩ := findAlt_get h
      refine ⟨by omega, ?_⟩
      rw [show j - j0 = (j - (j0 + 1)) + 1 by omega]
      simpa using h2

/-- No alternative is a closed enum. -/
def plainAlts (alts : List (BitVec 32 × Kind)) : Prop := ∀ a ∈ alts, a.2.closed = false

theorem plain_valid {alts : List (BitVec 32 × Kind)} (hp : plainAlts alts) {n j0 j sc} (h : findAlt n alts j0 = some (j, .scalar sc)) (w) :
    sc.valid w = true ∧ Kind.closed (.scalar sc) = false := by
  obtain ⟨a, ha, e⟩ := findAlt_mem h
  have := hp a ha
  rw [e] at this
  refine ⟨?_, this⟩
  cases sc with
  | enum c => cases c with
    | none => rfl
    | some vs => cases this
  | _ => rfl

theorem oneof_eff {alts r es es' u} (hp : plainAlts alts) (h : slotEff C S (.oneof alts) r es es' u) :
    ∃ j k v, findAlt (tagNumber r.tag) alts 0 = some (j, k) ∧ es' = [(j, v)] ∧
      ∀ es2, altVal C k j es2 = altVal C k j es → slotEff C S (.oneof alts) r es2 es' u := by
  obtain ⟨j, k, hf, h⟩ := h
  cases k with
  | scalar sc =>
    obtain ⟨w, h1, h2⟩ := h
    obtain ⟨hv, hc⟩ := plain_valid hp hf w
    rw [if_pos hv] at h2
    obtain ⟨-, rfl, rfl⟩ := h2
    exact ⟨j, _, _, hf, rfl, fun es2 _ => ⟨j, _, hf, w, h1, by rw [if_pos hv]; exact ⟨by simp [hc], rfl, rfl⟩⟩⟩
  | msg id =>
    obtain ⟨v, h1, rfl, rfl⟩ := h
    exact ⟨j, _, v, hf, rfl, fun es2 e => ⟨j, _, hf, v, by rw [e]; exact h1, rfl, rfl⟩⟩
  | group id =>
    obtain ⟨v, h1, rfl, rfl⟩ := h
    exact ⟨j, _, v, hf, rfl, fun es2 e => ⟨j, _, hf, v, by rw [e]; exact h1, rfl, rfl⟩⟩

/-- A run of records of one alternative after a record of another does not see it. -/
theorem oneof_run {alts} (hp : plainAlts alts) {pre : List Rec} {r : Rec} {run : List Rec} {es'}
    (hlast : ∀ q, pre.getLast? = some q → tagNum q.tag ≠ tagNum r.tag)
    (h : slotFold C S (.oneof alts) (pre ++ r :: run) [] es') : slotFold C S (.oneof alts) (r :: run) [] es' := by
  obtain ⟨es1, h1, es2, u, h2, h3⟩ := slotFold_append.1 h
  obtain ⟨j, k, v, hf, rfl, hx⟩ := oneof_eff hp h2
  refine ⟨_, u, hx [] ?_, h3⟩
  cases hpre : pre.getLast? with
  | none =>
    have : pre = [] := List.getLast?_eq_none_iff.1 hpre
    subst this
    cases h1
    rfl
  | some q =>
    obtain ⟨l, rfl⟩ := List.getLast?_eq_some_iff.1 hpre
    obtain ⟨es0, -, es3, u3, h4, h5⟩ := slotFold_append.1 h1
    cases h5
    obtain ⟨j', k', v', hf', rfl, -⟩ := oneof_eff hp h4
    have hne : j' ≠ j := by
      rintro rfl
      have a := (findAlt_get hf).2
      have b := (findAlt_get hf').2
      rw [a] at b
      simp only [Option.some.injEq, Prod.mk.injEq] at b
      exact hlast q hpre (by rw [← tagNumber_toNat, ← tagNumber_toNat, b.1])
    simp [altVal, hne]

theorem slotFold_oneof_last {alts} (hp : plainAlts alts) {rs : List Rec} {r : Rec} {es es'} (hr : r.wf)
    (h : slotFold C S (.oneof alts) (rs ++ [r]) es es') :
    ∃ j k v, alts[j]? = some (tagNumber r.tag, k) ∧ es' = [(j, v)] ∧ ∀ sc, k = .scalar sc → recVals sc r = [v] := by
  obtain ⟨es1, -, es2, u, h2, h3⟩ := slotFold_append.1 h
  cases h3
  obtain ⟨j, k, v, hf, rfl, -⟩ := oneof_eff hp h2
  refine ⟨j, k, v, by simpa using (findAlt_get hf).2, rfl, ?_⟩
  rintro sc rfl
  obtain ⟨j', k', hf', h2⟩ := h2
  rw [hf] at hf'
  cases hf'
  obtain ⟨w, h1, h2⟩ := h2
  rw [if_pos (plain_valid hp hf w).1] at h2
  obtain ⟨-, e, -⟩ := h2
  cases e
  exact (recScalar_vals hr h1).2

/-- The records of one member alone can be read, with the same effect on it. -/
theorem fold_of_slotFold {i sd} (hs : D.slots[i]? = some sd) : ∀ {rs last m es'}, m.slots.length = D.slots.length →
    (∀ r ∈ rs, ofMember D i r = true ∧ tagNumber r.tag ≠ 0#32) → slotFold C S sd rs (m.get i) es' →
    ∃ m', fold C S D last rs m m' ∧ m'.get i = es'
  | [], _, m, es', _, _, h => ⟨m, rfl, h⟩
  | r :: rs, last, m, es', hl, hr, h => by
    obtain ⟨es1, u, h1, h2⟩ := h
    have hi : i < m.slots.length := by rw [hl]; exact (List.getElem?_eq_some_iff.1 hs).1
    have hf : D.find (tagNumber r.tag) = some i := by simpa [ofMember] using (hr r List.mem_cons_self).1
    have hg : (divert D.unk u (m.put i es1)).get i = es1 := by rw [get_slots (divert_slots _ _ _), get_put_self hi]
    obtain ⟨m', f, e⟩ := fold_of_slotFold hs (last := nextRun D r) (m := divert D.unk u (m.put i es1)) (es' := es')
      (by rw [divert_slots, put_length, hl]) (fun q hq => hr q (List.mem_cons_of_mem _ hq)) (by rw [hg]; exact h2)
    exact ⟨m', ⟨_, (step_known hf hs).2 ⟨(hr r List.mem_cons_self).2, slotStep_eff.2 ⟨es1, u, h1, rfl⟩⟩, f⟩, e⟩

theorem fold_numbers : ∀ {rs last m m'}, fold C S D last rs m m' → ∀ r ∈ rs, tagNumber r.tag ≠ 0#32
  | [], _, _, _, _, r, h => by cases h
  | q :: rs, _, _, _, h, r, hr => by
    obtain ⟨m1, h1, h2⟩ := h
    rcases List.mem_cons.1 hr with rfl | hr
    · exact h1.1
    · exact fold_numbers h2 r hr

end

end HppProto
