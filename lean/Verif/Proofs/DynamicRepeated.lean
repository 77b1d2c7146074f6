import Verif.Proofs.DynamicMsgField

/-! Repeated fields read by the two readers. Helper lemmas for `Verif/Props/DynamicRead.lean`. -/

namespace HppProto
open Spec

theorem fillLoop_err {α : Type} {one : α → Flat → Res (Flat × Option α)} (h : ∀ x s, ∃ e, one x s = .err e)
    {c i : Nat} (hc : 0 < c) {vs : List α} (hi : i < vs.length) (s : Flat) :
    ∃ e, fillLoop flatOps one c i vs s = .err e := by
  obtain ⟨c, rfl⟩ : ∃ c', c = c' + 1 := ⟨c - 1, by omega⟩
  simp only [fillLoop, List.getElem?_eq_getElem hi]
  obtain ⟨e, he⟩ := h vs[i] s
  rw [he]
  exact ⟨e, rfl⟩

theorem fine_cases {α : Type} {x : Res α} (h : x.Fine False) : (∃ a, x = .ok a) ∨ ∃ e, x = .err e := by
  cases x with
  | ok a => exact Or.inl ⟨a, rfl⟩
  | err e => exact Or.inr ⟨e, rfl⟩
  | ub => exact absurd rfl h.1
  | throw => exact (h.2.2 rfl).elim
  | stuck => exact absurd rfl h.2.1

theorem divertInvalid_none (sc : Scalar) (number : BitVec 32) (vs : List Val) (m : Msg) :
    divertInvalid sc .none number vs m = m := by
  induction vs generalizing m with
  | nil => rfl
  | cons v vs ih =>
    simp only [divertInvalid]
    split
    · exact ih m
    · exact ih _

theorem nums_of {vs : List Val} (h : ∀ v ∈ vs, ∃ x, v = Val.num x) : vs = (vs.map Val.bits).map .num := by
  induction vs with
  | nil => rfl
  | cons v vs ih =>
    obtain ⟨x, rfl⟩ := h v List.mem_cons_self
    rw [List.map_cons, List.map_cons, ← ih (fun v hv => h v (List.mem_cons_of_mem _ hv))]
    rfl

theorem admits_of_valid {sc : Scalar} {x : BitVec 64} (h : sc.valid (.num x) = true)
    (hx : ∀ c, sc = .enum c → VarTy.i32.cast x = x) : (Kind.scalar sc).admits (.num x) := by
  intro vs e
  cases e
  have := valid_enum h
  rw [hx _ rfl] at this
  exact this

theorem valid_of_admits {sc : Scalar} {x : BitVec 64} (h : (Kind.scalar sc).admits (.num x))
    (hx : ∀ vs, sc = .enum (some vs) → ∀ y ∈ vs, VarTy.i32.cast y = y) : sc.valid (.num x) = true := by
  by_cases hc : (Kind.scalar sc).closed = false
  · exact valid_open hc _
  · cases sc with
    | enum c =>
      cases c with
      | none => rfl
      | some vs =>
        have := h vs rfl
        have e := hx vs rfl x this
        have this : x ∈ vs := this
        simp only [Scalar.valid, e]
        simpa using this
    | _ => exact absurd rfl hc

theorem putUnpacked_eq {f : DynField} {m : DynMsg} (hl : f.layout.slot < m.length) {sc : Scalar}
    {xs zs : List (BitVec 64)} {b c : Nat} (hb : zs.length + b = c)
    (hc : (Kind.scalar sc).closed = false → (zs.map some).length = c) :
    f.putUnpacked sc ((xs.map some).length + c) ((xs.map some).length + (zs.map some).length)
      (xs.map some ++ zs.map some ++ List.replicate b none) m =
    f.store m ((xs ++ zs).length, .nums ((xs ++ zs).map some)) := by
  by_cases hen : ∃ c, sc = .enum c
  · obtain ⟨c', rfl⟩ := hen
    simp only [DynField.putUnpacked]
    unfold DynField.resizeNums
    rw [storage_store_self hl, store_store]
    have : resizeWith none ((xs.map some).length + (zs.map some).length)
        (numElems ((xs.map some).length + c, Cell.nums (xs.map some ++ zs.map some ++ List.replicate b none))) =
        (xs ++ zs).map some := by
      unfold numElems resizeWith
      dsimp only
      rw [List.take_of_length_le (i := (xs.map some).length + c)
        (by simp only [List.length_append, List.length_map, List.length_replicate]; omega)]
      rw [← List.length_append, List.take_left, List.map_append]
      simp
    rw [this]
    simp
  · have hn : f.putUnpacked sc ((xs.map some).length + c) ((xs.map some).length + (zs.map some).length)
      (xs.map some ++ zs.map some ++ List.replicate b none) m = f.store m ((xs.map some).length + c,
        .nums (xs.map some ++ zs.map some ++ List.replicate b none)) := by
      cases sc <;> first | rfl | exact absurd ⟨_, rfl⟩ hen
    have h2 := hc (by cases sc <;> first | rfl | exact absurd ⟨_, rfl⟩ hen)
    rw [hn]
    simp only [List.length_map] at h2
    have : b = 0 := by omega
    subst this
    simp [h2]

theorem packed_nums {sc n} {s s' : Flat} {vs} (h : readPackedElems flatOps sc n s = .ok (s', vs)) :
    ∀ v ∈ vs, ∃ x, v = .num x ∧ ∀ c, sc = .enum c → VarTy.i32.cast x = x := by
  have aux : ∀ {α : Type} (xs : List α) (f : α → BitVec 64), (∀ x ∈ xs, ∀ c, sc = .enum c → VarTy.i32.cast (f x) = f x) →
      ∀ v ∈ xs.map (fun x => Val.num (f x)), ∃ x, v = .num x ∧ ∀ c, sc = .enum c → VarTy.i32.cast x = x := by
    intro α xs f h v hv
    obtain ⟨x, hx, rfl⟩ := List.mem_map.1 hv
    exact ⟨_, rfl, h x hx⟩
  cases sc <;> simp only [readPackedElems] at h
  · simp only [res_bind_ok] at h
    obtain ⟨o, -, h⟩ := h
    cases o with
    | none => cases h
    | some c =>
      simp only [res_bind_ok] at h
      obtain ⟨⟨t, x⟩, h1, h2⟩ := h
      cases h2
      exact aux x (fun v => v) (fun _ _ _ e => by cases e)
  · simp only [res_bind_ok] at h
    obtain ⟨o, -, h⟩ := h
    cases o with
    | none => cases h
    | some c =>
      simp only [res_bind_ok] at h
      obtain ⟨⟨t, x⟩, h1, h2⟩ := h
      cases h2
      exact aux x _ (fun _ _ _ e => by cases e)
  · simp only [res_bind_ok] at h
    obtain ⟨o, -, h⟩ := h
    cases o with
    | none => cases h
    | some c =>
      simp only [res_bind_ok] at h
      obtain ⟨⟨t, x⟩, h1, h2⟩ := h
      cases h2
      exact aux x _ (fun _ _ _ _ => cast32_idem _)
  · split at h
    · simp only [res_bind_ok] at h
      obtain ⟨⟨t, x⟩, h1, h2⟩ := h
      cases h2
      exact aux _ (fun v => v) (fun _ _ _ e => by cases e)
    · cases h
  · split at h
    · simp only [res_bind_ok] at h
      obtain ⟨⟨t, x⟩, h1, h2⟩ := h
      cases h2
      exact aux _ (fun v => v) (fun _ _ _ e => by cases e)
    · cases h
  · cases h

section
variable {T : DynTypes} {utf8 : List Byte → Bool} (hT : ∀ id, (T id).Ok) (hR : T.Readable)

/-- A repeated field of a generated message. -/
theorem repeated_slot (hT : ∀ id, (T id).Ok) {id k j : Nat} {g : List DynField} {f : DynField}
    (hg : (groupFields (T id).fields)[k]? = some g) (hj : g[j]? = some f) (hr : f.repeated = true) :
    g = [f] ∧ j = 0 ∧ ∀ (l : Level Flat) (tag : BitVec 32) (M : Msg) (s : Flat),
      readSlot (T.cfg utf8) flatOps l .none tag k (staticSlot T T.blank (T id).entry g) M s =
        readRepeated (T.cfg utf8) flatOps l .none f.number f.kind false tag k M s := by
  have hf : f ∈ (T id).fields := mem_of_group (List.mem_of_getElem? hg) (List.mem_of_getElem? hj)
  have ho := (hT id).singularMembers f hf hr
  rcases staticSlot_cases (T := T) T.blank (T id).entry (List.mem_of_getElem? hg) with ⟨f', rfl, -, e⟩ | ⟨h, -⟩
  · have : f = f' := List.mem_singleton.1 (List.mem_of_getElem? hj)
    subst this
    refine ⟨rfl, ?_, fun l tag M s => ?_⟩
    · cases j with
      | zero => rfl
      | succ j => simp at hj
    · rw [e]
      simp only [DynField.card, hr, if_true]
      cases hk : f.kind with
      | msg i => simp only; split <;> rfl
      | scalar sc => rfl
      | group i => rfl
  · obtain ⟨o, ho'⟩ := h f (List.mem_of_getElem? hj)
    rw [ho] at ho'
    cases ho'

include hT

/-- New numbers of a repeated field. -/
theorem append_nums {id k : Nat} {f : DynField} {sc : Scalar} {m : DynMsg} {M : Msg} (h : DynReads T id m M)
    (hg : (groupFields (T id).fields)[k]? = some [f]) (hr : f.repeated = true)
    (hk : f.kind = .scalar sc) (hs : ∀ u, sc ≠ .str u) {old vs : List Val} {xs : List (BitVec 64)}
    (ho : M.get k = old.map fun v => (0, v)) (hadm : ∀ v ∈ old ++ vs, f.kind.admits v)
    (e : old ++ vs = xs.map .num) :
    DynReads T id (f.store m (xs.length, .nums (xs.map some))) (appendVals M k vs) := by
  have hl := (dynReads_iff.1 h).1
  have hf : f ∈ (T id).fields := mem_of_group (List.mem_of_getElem? hg) (by simp)
  have hn : (Kind.scalar sc).isNum = true := by
    cases sc <;> first | rfl | exact absurd rfl (hs _)
  have hst : f.storage (f.store m (xs.length, .nums (xs.map some))) = ((xs.map some).length, .nums (xs.map some)) := by
    rw [storage_store_self (field_length hT hl hf)]
    simp
  have hval := (value_nums hr (by rw [hk]; exact hn) hst).1
  unfold appendVals
  rw [ho, ← List.map_append]
  refine h.elements hT hg hr ?_ hadm (fun ss hss => by rw [hval] at hss; cases hss)
  unfold holdsList
  rw [hk]
  cases sc <;> first
    | exact absurd rfl (hs _)
    | exact ⟨xs, hval, e⟩

/-- Packed numbers. -/
theorem packed_sim (hR : T.Readable) {id k : Nat} {f : DynField} {sc : Scalar} {m : DynMsg} {M : Msg}
    (hm : DynReads T id m M)
    (hg : (groupFields (T id).fields)[k]? = some [f]) (hr : f.repeated = true)
    (hk : f.kind = .scalar sc) (hs : ∀ u, sc ≠ .str u) (number) (s : Flat) :
    DynSim (Rel T id s) (readPacked flatOps .none number sc k M s) (dynPackedNums flatOps f sc m s) := by
  have hf : f ∈ (T id).fields := mem_of_group (List.mem_of_getElem? hg) (by simp)
  obtain ⟨old, ho1, ho2, -, ho4⟩ := hm.old hg hr
  have hold : ∃ xs : List (BitVec 64), f.value m = .nums (xs.map some) ∧ old = xs.map .num := by
    unfold holdsList at ho1
    rw [hk] at ho1
    cases sc <;> first | exact absurd rfl (hs _) | exact ho1
  obtain ⟨xs, hv, rfl⟩ := hold
  obtain ⟨e1, e2⟩ := elements_nums hr hv
  have henum : ∀ vs, sc = .enum (some vs) → ∀ y ∈ vs, VarTy.i32.cast y = y := by
    intro vs e
    exact hR.enums id f hf vs (by rw [hk, e])
  have hxs : ∀ x ∈ xs, sc.valid (.num x) = true := by
    intro x hx
    exact valid_of_admits (by rw [← hk]; exact ho2 _ (List.mem_map_of_mem hx)) henum
  -- what is stored in the end
  have store : ∀ (s2 : Flat) (new : List Val), NotBefore s s2 →
      (∀ v ∈ new, ∃ x, v = .num x ∧ ∀ c, sc = .enum c → VarTy.i32.cast x = x) →
      DynSim (Rel T id s) (.ok (s2, appendVals M k (new.filter sc.valid)))
        (f.putPacked sc (xs.map some ++ new.map (fun v => some v.bits)) m >>= fun m => .ok (s2, m)) := by
    intro s2 new hl hn
    have e : f.putPacked sc (xs.map some ++ new.map (fun v => some v.bits)) m =
        .ok (f.store m ((xs ++ (new.filter sc.valid).map Val.bits).length,
          .nums ((xs ++ (new.filter sc.valid).map Val.bits).map some))) := by
      have e0 : xs.map some ++ new.map (fun v => some v.bits) = (xs ++ new.map Val.bits).map some := by simp
      have ef : xs ++ (new.filter sc.valid).map Val.bits =
          (xs ++ new.map Val.bits).filter (fun v => sc.valid (.num v)) := by
        rw [List.filter_append, List.filter_eq_self.2 hxs, List.filter_map]
        congr 2
        refine List.filter_congr ?_
        intro v hv
        obtain ⟨x, rfl, -⟩ := hn v hv
        rfl
      rw [ef, e0]
      by_cases hc : (Kind.scalar sc).closed = false
      · have hf : (xs ++ new.map Val.bits).filter (fun v => sc.valid (.num v)) = xs ++ new.map Val.bits :=
          List.filter_eq_self.2 fun v _ => valid_open hc _
        rw [hf]
        unfold DynField.putPacked
        split
        · cases hc
        · simp
      · cases sc with
        | enum c =>
          cases c with
          | none => exact absurd rfl hc
          | some vs => simp only [DynField.putPacked, mapM_some]
        | _ => exact absurd rfl hc
    rw [e]
    refine dsim_ok ⟨rfl, hl, ?_⟩
    refine append_nums hT hm hg hr hk hs ho4 ?_ ?_
    · intro v hv
      rcases List.mem_append.1 hv with hv | hv
      · exact ho2 v hv
      · obtain ⟨hv1, hv2⟩ := List.mem_filter.1 hv
        obtain ⟨x, rfl, hx⟩ := hn v hv1
        rw [hk]
        exact admits_of_valid hv2 hx
    · rw [List.map_append, ← nums_of]
      intro v hv
      obtain ⟨x, rfl, -⟩ := hn v (List.mem_filter.1 hv).1
      exact ⟨x, rfl⟩
  unfold readPacked dynPackedNums
  rw [e2]
  refine dsim_op (fine_varint _ _) ?_
  rintro ⟨s1, n⟩ h1
  have l1 := later_varint h1
  dsimp only
  by_cases h0 : n = 0
  · rw [if_pos h0, if_pos h0]
    have := store s1 [] l1 (by simp)
    have e : appendVals M k [] = M := append_nil_vals M k
    simp only [List.filter_nil, e] at this
    exact this
  · rw [if_neg h0, if_neg h0]
    refine dsim_op (fine_packed (by simpa [BitVec.toNat_eq] using h0) _) ?_
    rintro ⟨s2, new⟩ h2
    dsimp only
    rw [divertInvalid_none]
    exact store s2 new (l1.trans (later_packed h2)) (packed_nums h2)

section
variable {l : Level Flat} {dl : DynLevel Flat} (L : LevelSim T l dl)
include L

omit hT in
theorem count_fine {h tag} (h0 : tag ≠ 0#32) (ht : isTag h tag) (k : Kind) (s : Flat) :
    (dynCountElems flatOps dl k tag s).Fine False := by
  obtain ⟨S, A⟩ := L.agrees
  have hl : s.rest.length < fuelOf flatOps s := by have := ops_avail s; unfold fuelOf; omega
  unfold dynCountElems
  split
  · exact fine_countGroups L.fine L.consumes _ _ _ _ hl
  · exact fine_count L.fine A h0 ht _ _ _ hl

omit hT L in
theorem dynCount_pos {k : Kind} {tag} {s : Flat} {c} (h : dynCountElems flatOps dl k tag s = .ok c) : 0 < c := by
  unfold dynCountElems at h
  split at h
  · exact countGroups_pos _ _ _ _ h
  · exact count_pos _ _ _ _ h

/-- Strings. -/
theorem strs_sim (hu : utf8 [] = true) {id k : Nat} {f : DynField} {u : Bool} {h tag}
    (h0 : tag ≠ 0#32) (ht : isTag h tag) {m : DynMsg} {M : Msg} (hm : DynReads T id m M)
    (hg : (groupFields (T id).fields)[k]? = some [f]) (hr : f.repeated = true)
    (hk : f.kind = .scalar (.str u)) (number) (s : Flat) :
    DynSim (Rel T id s) (readRepeated (T.cfg utf8) flatOps l .none number f.kind false tag k M s)
      (dynStrs utf8 flatOps dl f u tag m s) := by
  have hl := (dynReads_iff.1 hm).1
  have hf : f ∈ (T id).fields := mem_of_group (List.mem_of_getElem? hg) (by simp)
  obtain ⟨old, ho1, -, -, ho4⟩ := hm.old hg hr
  have hk' : k < M.slots.length := by
    rw [(dynReads_iff.1 hm).2.2.1]
    exact (List.getElem?_eq_some_iff.1 hg).1
  unfold holdsList at ho1
  rw [hk] at ho1
  obtain ⟨bs, hv, rfl⟩ := ho1
  obtain ⟨e1, e2⟩ := elements_strs hr hv
  have hcount := count_fine L h0 ht f.kind s
  unfold dynStrs
  rw [e1, e2]
  rw [hk] at hcount ⊢
  simp only [readRepeated, Scalar.packable, Bool.false_and, Bool.false_eq_true, if_false]
  by_cases hw : tagType tag = (Scalar.str u).wireType
  · rw [if_neg (by simpa using hw)]
    have ec : countUnpackedLoop flatOps l tag (fuelOf flatOps s) 0 s =
        dynCountElems flatOps dl (.scalar (.str u)) tag s := by
      rw [countUnpacked_level L.skip]
      rfl
    rw [ec]
    refine dsim_op hcount ?_
    intro c hc
    rw [resize_blanks]
    have he : ElemSim (fun (y : List Byte) v => v = .bytes y) True k []
        (readElem (T.cfg utf8) flatOps l .none (.scalar (.str u)) false tag k)
        (fun _ s => do
          let (s, bs) ← dynBytes utf8 flatOps u tag s
          .ok (s, some bs)) := by
      intro M s
      simp only [readElem]
      refine dsim_bind (bytes_sim hu u tag s) ?_
      rintro ⟨s1, v⟩ ⟨s1', y⟩ ⟨a, b, c⟩
      simp only at a b c
      subst a c
      simp only [narrow, Scalar.valid, if_true]
      exact dsim_ok ⟨rfl, b, Or.inl ⟨y, _, rfl, rfl, rfl⟩⟩
    have key := elems_sim he c bs c M s (Nat.le_refl _) hk'
    have e : elemLoop flatOps (readElem (T.cfg utf8) flatOps l .none (.scalar (.str u)) false tag k) c M s =
        (elemLoop flatOps (readElem (T.cfg utf8) flatOps l .none (.scalar (.str u)) false tag k) c M s >>=
          fun p => .ok p) := by
      show _ = Res.bind _ _
      cases elemLoop flatOps (readElem (T.cfg utf8) flatOps l .none (.scalar (.str u)) false tag k) c M s <;> rfl
    rw [e]
    refine dsim_bind key ?_
    rintro ⟨s1, M1⟩ ⟨s1', i, vs⟩ ⟨a, b, ys, vals, b', -, g2, g3, g4, g5, g6⟩
    simp only at a b g2 g5
    subst a g2 g5
    have hy := g6 trivial
    have hb : b' = 0 := by omega
    subst hb
    simp only [List.replicate_zero, List.append_nil]
    refine dsim_ok ⟨rfl, b, ?_⟩
    have hp : vals = ys.map .bytes := by
      clear g3 g6 hy
      induction g4 with
      | nil => rfl
      | cons h _ ih => rw [h, ih]; rfl
    have hst : f.storage (f.store m (bs.length + c, .strs (bs ++ ys))) = ((bs ++ ys).length, .strs (bs ++ ys)) := by
      rw [storage_store_self (field_length hT hl hf)]
      simp [hy]
    have hval := (value_strs hr (by rw [hk]; rfl) hst).1
    show DynReads T id _ (appendVals M k vals)
    unfold appendVals
    rw [ho4, ← List.map_append]
    refine hm.elements hT hg hr ?_ ?_ (fun ss hss => by rw [hval] at hss; cases hss)
    · unfold holdsList
      rw [hk]
      exact ⟨_, hval, by rw [hp]; simp⟩
    · intro v _ vs' e
      rw [hk] at e
      cases e
  · rw [if_pos (by simpa using hw)]
    rcases fine_cases hcount with ⟨c, hc⟩ | ⟨e, hc⟩
    · rw [hc]
      show DynSim _ _ (Res.bind _ _)
      simp only [Res.bind]
      have hw' : tagType tag ≠ wtLen := hw
      obtain ⟨e, he⟩ := fillLoop_err (one := fun (_ : List Byte) s => do
          let (s, bs) ← dynBytes utf8 flatOps u tag s
          .ok (s, some bs)) (by
        intro x s
        unfold dynBytes
        rw [if_pos hw']
        exact ⟨_, rfl⟩) (dynCount_pos hc) (i := bs.length) (vs := resizeWith [] (bs.length + c) bs)
        (by rw [resizeWith_length]; have := dynCount_pos hc; omega) s
      show DynSim _ _ (fillLoop _ _ _ _ _ _ >>= _)
      rw [he]
      exact dsim_err _ _
    · rw [hc]
      exact dsim_err _ _

/-- Unpacked numbers. -/
theorem nums_sim (hR : T.Readable) {id k : Nat} {f : DynField} {sc : Scalar} {h tag}
    (h0 : tag ≠ 0#32) (ht : isTag h tag) {m : DynMsg} {M : Msg} (hm : DynReads T id m M)
    (hg : (groupFields (T id).fields)[k]? = some [f]) (hr : f.repeated = true)
    (hk : f.kind = .scalar sc) (hs : ∀ u, sc ≠ .str u) (s : Flat) :
    DynSim (Rel T id s) (countUnpackedLoop flatOps l tag (fuelOf flatOps s) 0 s >>= fun c =>
        elemLoop flatOps (readElem (T.cfg utf8) flatOps l .none (.scalar sc) false tag k) c M s)
      (dynUnpackedNums flatOps dl f sc tag m s) := by
  have hl := (dynReads_iff.1 hm).1
  have hf : f ∈ (T id).fields := mem_of_group (List.mem_of_getElem? hg) (by simp)
  obtain ⟨old, ho1, ho2, -, ho4⟩ := hm.old hg hr
  have hk' : k < M.slots.length := by
    rw [(dynReads_iff.1 hm).2.2.1]
    exact (List.getElem?_eq_some_iff.1 hg).1
  have hold : ∃ xs : List (BitVec 64), f.value m = .nums (xs.map some) ∧ old = xs.map .num := by
    unfold holdsList at ho1
    rw [hk] at ho1
    cases sc <;> first | exact absurd rfl (hs _) | exact ho1
  obtain ⟨xs, hv, rfl⟩ := hold
  obtain ⟨e1, e2⟩ := elements_nums hr hv
  have hcount := count_fine L h0 ht f.kind s
  unfold dynUnpackedNums
  rw [e1, e2]
  rw [hk] at hcount ⊢
  have ec : countUnpackedLoop flatOps l tag (fuelOf flatOps s) 0 s =
      dynCountElems flatOps dl (.scalar sc) tag s := by
    rw [countUnpacked_level L.skip]
    rfl
  rw [ec]
  refine dsim_op hcount ?_
  intro c hc
  dsimp only
  rw [resize_blanks]
  have he : ElemSim (fun (y : Option (BitVec 64)) v => ∃ x, y = some x ∧ v = .num x ∧ (Kind.scalar sc).admits v)
      ((Kind.scalar sc).closed = false) k none
      (readElem (T.cfg utf8) flatOps l .none (.scalar sc) false tag k)
      (fun _ s => do
        let (s, r) ← dynNum flatOps sc tag s
        .ok (s, r.map some)) := by
    intro M s
    simp only [readElem, dynNum]
    rw [readScalar_cfg (T.cfg utf8) skipCfg hs]
    have assoc : ∀ {α β γ : Type} (x : Res α) (f : α → Res β) (g : β → Res γ),
        ((x >>= f) >>= g) = (x >>= fun a => f a >>= g) := by
      intro α β γ x f g
      cases x <;> rfl
    rw [assoc]
    refine dsim_op (fine_readScalar _ _ _) ?_
    rintro ⟨s1, v⟩ h1
    have l1 := later_readScalar h1
    obtain ⟨x, rfl⟩ := readScalar_num hs h1
    have hn : ∃ y, narrow sc (.num x) = .num y ∧ ∀ c, sc = .enum c → VarTy.i32.cast y = y := by
      by_cases hen : ∃ c, sc = .enum c
      · obtain ⟨c, rfl⟩ := hen
        exact ⟨_, rfl, fun _ _ => cast32_idem _⟩
      · refine ⟨x, ?_, fun c e => absurd ⟨c, e⟩ hen⟩
        cases sc <;> first | rfl | exact absurd ⟨_, rfl⟩ hen
    obtain ⟨y, hy1, hy2⟩ := hn
    dsimp only
    rw [hy1]
    by_cases hval : sc.valid (.num y) = true
    · rw [if_pos hval, if_pos hval]
      exact dsim_ok ⟨rfl, l1, Or.inl ⟨some y, .num y, rfl, ⟨y, rfl, rfl, admits_of_valid hval hy2⟩, rfl⟩⟩
    · rw [if_neg hval, if_neg hval]
      exact dsim_ok ⟨rfl, l1, Or.inr ⟨rfl, rfl, fun hc => hval (valid_open hc _)⟩⟩
  have key := elems_sim he c (xs.map some) c M s (Nat.le_refl _) hk'
  have e : elemLoop flatOps (readElem (T.cfg utf8) flatOps l .none (.scalar sc) false tag k) c M s =
      (elemLoop flatOps (readElem (T.cfg utf8) flatOps l .none (.scalar sc) false tag k) c M s >>=
        fun p => .ok p) := by
    show _ = Res.bind _ _
    cases elemLoop flatOps (readElem (T.cfg utf8) flatOps l .none (.scalar sc) false tag k) c M s <;> rfl
  rw [e]
  refine dsim_bind key ?_
  rintro ⟨s1, M1⟩ ⟨s1', i, vs⟩ ⟨a, b, ys, vals, b', g1, g2, g3, g4, g5, g6⟩
  simp only at a b g1 g2 g5
  subst a g1 g2 g5
  have hp : ∃ zs : List (BitVec 64), ys = zs.map some ∧ vals = zs.map .num ∧
      ∀ v ∈ vals, (Kind.scalar sc).admits v := by
    clear g3 g6
    induction g4 with
    | nil => exact ⟨[], rfl, rfl, by simp⟩
    | cons h _ ih =>
      obtain ⟨x, rfl, rfl, hx⟩ := h
      obtain ⟨zs, rfl, rfl, i3⟩ := ih
      refine ⟨x :: zs, rfl, rfl, ?_⟩
      intro v hv
      rcases List.mem_cons.1 hv with rfl | hv
      · exact hx
      · exact i3 v hv
  obtain ⟨zs, rfl, rfl, hz⟩ := hp
  have fin : DynReads T id (f.store m ((xs ++ zs).length, .nums ((xs ++ zs).map some)))
      (appendVals M k (zs.map .num)) := by
    refine append_nums hT hm hg hr hk hs ho4 ?_ (by simp)
    intro v hv
    rcases List.mem_append.1 hv with hv | hv
    · exact ho2 v hv
    · rw [hk]; exact hz v hv
  rw [putUnpacked_eq (field_length hT hl hf) (by simpa using g3) g6]
  exact dsim_ok ⟨rfl, b, fin⟩

/-- Messages. -/
theorem msgs_sim (hR : T.Readable) {id k sid : Nat} {f : DynField} {h tag}
    (h0 : tag ≠ 0#32) (ht : isTag h tag) {m : DynMsg} {M : Msg} (hm : DynReads T id m M)
    (hg : (groupFields (T id).fields)[k]? = some [f]) (hr : f.repeated = true)
    (hk : f.kind.msgType = some sid) (number) (s : Flat) :
    DynSim (Rel T id s) (readRepeated (T.cfg utf8) flatOps l .none number f.kind false tag k M s)
      (dynMsgs T flatOps dl f sid tag m s) := by
  have hl := (dynReads_iff.1 hm).1
  have hf : f ∈ (T id).fields := mem_of_group (List.mem_of_getElem? hg) (by simp)
  obtain ⟨old, ho1, -, ho3, ho4⟩ := hm.old hg hr
  have hk' : k < M.slots.length := by
    rw [(dynReads_iff.1 hm).2.2.1]
    exact (List.getElem?_eq_some_iff.1 hg).1
  have ho1 : ∃ ss Ns, f.value m = .msgs ss ∧ old = Ns.map .msg ∧ ss.length = Ns.length ∧
      ∀ p ∈ ss.zip Ns, DynReads T sid p.1 p.2 := by
    unfold holdsList at ho1
    cases e : f.kind with
    | scalar sc => rw [e] at hk; cases hk
    | msg i => rw [e] at hk ho1; cases hk; exact ho1
    | group i => rw [e] at hk ho1; cases hk; exact ho1
  obtain ⟨ss, Ns, hv, rfl, hlen, hrel⟩ := ho1
  obtain ⟨e1, e2⟩ := elements_msgs hr hv
  have hcount := count_fine L h0 ht f.kind s
  -- the wire type
  obtain ⟨w, hw1, hw2, hw3⟩ : ∃ w, (∀ M s, readRepeated (T.cfg utf8) flatOps l .none number f.kind false tag k M s =
      if tagType tag ≠ w then .err .badMessage else
        (dynCountElems flatOps dl f.kind tag s >>= fun c =>
          elemLoop flatOps (readElem (T.cfg utf8) flatOps l .none f.kind false tag k) c M s)) ∧
      (tagType tag = w → ∀ M s, readElem (T.cfg utf8) flatOps l .none f.kind false tag k M s =
        (readMsg (T.cfg utf8) flatOps l f.kind tag ((T.cfg utf8).schema sid).default s >>= fun p =>
          .ok (p.1, appendVals M k [.msg p.2]))) ∧
      (tagType tag ≠ w → ∀ r s, dynMessage T flatOps dl f.kind tag r s = .err .badMessage) := by
    cases e : f.kind with
    | scalar sc => rw [e] at hk; cases hk
    | msg i =>
      rw [e] at hk
      cases hk
      refine ⟨wtLen, fun M s => ?_, fun hw M s => ?_, fun hw r s => ?_⟩
      · simp only [readRepeated, countUnpacked_level L.skip]
        rfl
      · simp only [readElem, readMsg, if_pos hw]
        rfl
      · simp only [dynMessage, if_neg hw]
    | group i =>
      rw [e] at hk
      cases hk
      refine ⟨wtSGroup, fun M s => ?_, fun hw M s => ?_, fun hw r s => ?_⟩
      · simp only [readRepeated, countGroups_level L.skip]
        rfl
      · simp only [readElem, readMsg, if_pos hw]
      · simp only [dynMessage, if_neg hw]
  rw [hw1]
  unfold dynMsgs
  rw [e1, e2]
  by_cases hw : tagType tag = w
  · rw [if_neg (by simpa using hw)]
    refine dsim_op hcount ?_
    intro c hc
    dsimp only
    rw [resize_blanks]
    have he : ElemSim (fun (y : DynMsg) v => ∃ N, v = .msg N ∧ DynReads T sid y N ∧ entryComplete T f.kind y) True k
        (T sid).empty (readElem (T.cfg utf8) flatOps l .none f.kind false tag k)
        (fun old s => do
          let (s, r) ← dynMessage T flatOps dl f.kind tag old s
          .ok (s, some r)) := by
      intro M s
      rw [hw2 hw]
      refine dsim_bind (message_sim hT L hR hk (empty_reads hT sid utf8) tag s) ?_
      rintro ⟨s1, N⟩ ⟨s1', y⟩ ⟨⟨a, b, c⟩, d⟩
      simp only at a b c d
      subst a
      exact dsim_ok ⟨rfl, b, Or.inl ⟨y, _, rfl, ⟨N, rfl, c, d⟩, rfl⟩⟩
    have key := elems_sim he c ss c M s (Nat.le_refl _) hk'
    have e : elemLoop flatOps (readElem (T.cfg utf8) flatOps l .none f.kind false tag k) c M s =
        (elemLoop flatOps (readElem (T.cfg utf8) flatOps l .none f.kind false tag k) c M s >>=
          fun p => .ok p) := by
      show _ = Res.bind _ _
      cases elemLoop flatOps (readElem (T.cfg utf8) flatOps l .none f.kind false tag k) c M s <;> rfl
    rw [e]
    refine dsim_bind key ?_
    rintro ⟨s1, M1⟩ ⟨s1', i, vs⟩ ⟨a, b, ys, vals, b', -, g2, g3, g4, g5, g6⟩
    simp only at a b g2 g5
    subst a g2 g5
    have hy := g6 trivial
    have hb : b' = 0 := by omega
    subst hb
    simp only [List.replicate_zero, List.append_nil]
    refine dsim_ok ⟨rfl, b, ?_⟩
    have hp : ∃ Ms : List Msg, vals = Ms.map .msg ∧ ys.length = Ms.length ∧ (∀ p ∈ ys.zip Ms, DynReads T sid p.1 p.2) ∧
        ∀ y ∈ ys, entryComplete T f.kind y := by
      clear g3 g6 hy
      induction g4 with
      | nil => exact ⟨[], rfl, rfl, by simp, by simp⟩
      | cons h _ ih =>
        obtain ⟨N, rfl, hN, hE⟩ := h
        obtain ⟨Ms, rfl, i2, i3, i4⟩ := ih
        refine ⟨N :: Ms, rfl, by simp [i2], ?_, ?_⟩
        · intro p hp
          simp only [List.zip_cons_cons, List.mem_cons] at hp
          rcases hp with rfl | hp
          · exact hN
          · exact i3 p hp
        · intro y hy
          rcases List.mem_cons.1 hy with rfl | hy
          · exact hE
          · exact i4 y hy
    obtain ⟨Ms, rfl, p2, p3, p4⟩ := hp
    have hst : f.storage (f.store m (ss.length + c, .msgs (ss ++ ys))) = ((ss ++ ys).length, .msgs (ss ++ ys)) := by
      rw [storage_store_self (field_length hT hl hf)]
      simp [hy]
    have hval := (value_msgs hr hk hst).1
    show DynReads T id _ (appendVals M k (Ms.map .msg))
    unfold appendVals
    rw [ho4, ← List.map_append]
    refine hm.elements hT hg hr ?_ ?_ ?_
    · have : ∃ ss' Ns', f.value (f.store m (ss.length + c, .msgs (ss ++ ys))) = .msgs ss' ∧
          Ns.map Val.msg ++ Ms.map Val.msg = Ns'.map .msg ∧ ss'.length = Ns'.length ∧
          ∀ p ∈ ss'.zip Ns', DynReads T sid p.1 p.2 := by
        refine ⟨ss ++ ys, Ns ++ Ms, hval, by simp, by simp [hlen, p2], ?_⟩
        intro p hp
        rw [List.zip_append hlen] at hp
        rcases List.mem_append.1 hp with hp | hp
        · exact hrel p hp
        · exact p3 p hp
      unfold holdsList
      cases e : f.kind with
      | scalar sc => rw [e] at hk; cases hk
      | msg i => rw [e] at hk; cases hk; exact this
      | group i => rw [e] at hk; cases hk; exact this
    · intro v _ vs' e
      rw [e] at hk
      cases hk
    · intro ss' hss' x hx
      rw [hval] at hss'
      cases hss'
      rcases List.mem_append.1 hx with hx | hx
      · exact ho3 ss hv x hx
      · exact p4 x hx
  · rw [if_pos (by simpa using hw)]
    rcases fine_cases hcount with ⟨c, hc⟩ | ⟨e, hc⟩
    · rw [hc]
      show DynSim _ _ (Res.bind _ _)
      simp only [Res.bind]
      obtain ⟨e, he⟩ := fillLoop_err (one := fun (old : DynMsg) s => do
          let (s, r) ← dynMessage T flatOps dl f.kind tag old s
          .ok (s, some r)) (by
        intro x s
        rw [hw3 hw]
        exact ⟨_, rfl⟩) (dynCount_pos hc) (i := ss.length) (vs := resizeWith (T sid).empty (ss.length + c) ss)
        (by rw [resizeWith_length]; have := dynCount_pos hc; omega) s
      show DynSim _ _ (fillLoop _ _ _ _ _ _ >>= _)
      rw [he]
      exact dsim_err _ _
    · rw [hc]
      exact dsim_err _ _

end

end

end HppProto
