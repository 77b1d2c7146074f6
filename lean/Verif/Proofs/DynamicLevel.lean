import Verif.Proofs.DynamicRepeated

/-! Whole messages read by the two readers. Helper lemmas for `Verif/Props/DynamicRead.lean`. -/

namespace HppProto
open Spec

/-- The first byte of a message that starts with field 1. -/
theorem tag_of_byte {b : Byte} {h : List Byte} {more : List Byte} {l : List Byte} {tag : BitVec 32}
    (hb : b >>> 3 = 1#8) (e : b :: l = h ++ more) (ht : isTag h tag) : tagNumber tag = 1#32 := by
  have hpos := isTag_pos ht
  cases h with
  | nil => cases hpos
  | cons c h =>
    cases e
    have hb' : b.toNat / 8 = 1 := by
      have := congrArg BitVec.toNat hb
      simpa [BitVec.toNat_ushiftRight, Nat.shiftRight_eq_div_pow] using this
    have hlt : (memOf (b :: h) 0).toNat < 128 := by
      show b.toNat < 128
      omega
    have hlen : (b :: h).length = 1 := by
      have := ht.1
      simp only [isVarint, varintLen, if_pos hlt, Option.some.injEq] at this
      exact this.symm
    have hv := ht.2
    rw [hlen] at hv
    rw [if_pos (by decide)] at hv
    simp only [valueOf, hlen, varintVal] at hv
    have hm : (memOf (b :: h) 0).toNat = b.toNat := rfl
    rw [hm] at hv
    apply BitVec.eq_of_toNat_eq
    rw [tagNumber_toNat, tagNum]
    simp
    omega

section
variable {T : DynTypes} {utf8 : List Byte → Bool} (hT : ∀ id, (T id).Ok) (hR : T.Readable)

/-! ## The key of a map entry -/

/-- A singular field read changes at most its own slot. -/
theorem singular_store {dl : DynLevel Flat} {f : DynField} {tag} {m m' : DynMsg} {s s' : Flat}
    (h : dynSingular T utf8 flatOps dl f tag m s = .ok (s', m')) : m' = m ∨ ∃ st, m' = f.store m st := by
  unfold dynSingular at h
  split at h
  · simp only [res_bind_ok] at h
    obtain ⟨⟨t, x⟩, -, h2⟩ := h
    cases h2
    unfold DynField.putReadStr DynField.setStr DynField.resetStr
    split
    · exact Or.inr ⟨_, rfl⟩
    · exact Or.inr ⟨_, rfl⟩
  · simp only [res_bind_ok] at h
    obtain ⟨⟨t, x⟩, -, h2⟩ := h
    cases x with
    | none => cases h2; exact Or.inl rfl
    | some v =>
      cases h2
      unfold DynField.putRead DynField.setNum DynField.clear
      split
      · exact Or.inr ⟨_, rfl⟩
      · exact Or.inr ⟨_, rfl⟩
  all_goals
    simp only [dynMsgField, res_bind_ok] at h
    obtain ⟨old, -, ⟨t, r⟩, -, h2⟩ := h
    cases h2
    exact Or.inr ⟨_, rfl⟩

include hT

/-- The key is set when it is read. -/
theorem key_stored {id : Nat} {k : DynField} (hm : k ∈ (T id).fields) (hr : k.repeated = false)
    (he : k.explicit = true) (hmt : k.kind.msgType = none) (hc : k.kind.closed = false)
    {dl : DynLevel Flat} {tag} {m m' : DynMsg} {s s' : Flat} (hl : m.length = (T id).slots)
    (h : dynSingular T utf8 flatOps dl k tag m s = .ok (s', m')) : k.hasValue m' = true := by
  unfold dynSingular at h
  split at h
  · simp only [res_bind_ok] at h
    obtain ⟨⟨t, x⟩, -, h2⟩ := h
    cases h2
    simp only [DynField.putReadStr, he, Bool.true_or, if_true]
    exact hasValue_stored hT hl hm hr _
  · rename_i sc hs hk
    simp only [dynNum, res_bind_ok] at h
    obtain ⟨⟨t, x⟩, ⟨⟨t', y⟩, -, h1⟩, h2⟩ := h
    simp only [valid_open (sc := sc) (by rw [← hk]; exact hc), if_true] at h1
    cases h1
    cases h2
    simp only [DynField.putRead, he, Bool.true_or, if_true]
    exact hasValue_stored hT hl hm hr _
  all_goals
    rename_i hk
    rw [hk] at hmt
    cases hmt

include hR

/-- One field of a map entry. -/
theorem field_key {id : Nat} {k v : DynField} (he : (T id).entry = true) (hfs : (T id).fields = [k, v])
    {dl : DynLevel Flat} {tag} {m m' : DynMsg} {s s' : Flat} (hl : m.length = (T id).slots)
    (h : dynField T utf8 flatOps dl (T id) tag m s = .ok (s', m')) :
    m'.length = (T id).slots ∧ ((tagNumber tag = 1#32 ∨ k.hasValue m = true) → k.hasValue m' = true) := by
  obtain ⟨k', v', hfs', n1, n2, hkr, hvr, hko, hvo, hke, hve, hkm, hkc, -, -⟩ := hR.entries id he
  rw [hfs] at hfs'
  cases hfs'
  have hmk : k ∈ (T id).fields := by rw [hfs]; simp
  have hmv : v ∈ (T id).fields := by rw [hfs]; simp
  have hne : k ≠ v := by
    intro e
    rw [e, n2] at n1
    cases n1
  have hslot : v.layout.slot ≠ k.layout.slot := by
    intro e
    rcases (hT id).same_slot hmv hmk e with h | ⟨h, -⟩
    · exact hne h.symm
    · obtain ⟨o, h1, h2⟩ := h
      rw [hvo] at h1
      cases h1
  unfold dynField at h
  split at h
  · cases h
  split at h
  · rename_i hf
    simp only [res_bind_ok] at h
    obtain ⟨t, -, h2⟩ := h
    cases h2
    refine ⟨hl, ?_⟩
    rintro (h1 | h1)
    · rw [hfs] at hf
      simp [List.find?_cons, n1, h1] at hf
    · exact h1
  · rename_i f hf
    have hmem := List.mem_of_find?_eq_some hf
    have hnum : f.number = tagNumber tag := by simpa using List.find?_some hf
    have hcase : f = k ∨ f = v := by
      rw [hfs] at hmem
      simpa using hmem
    have hr : f.repeated = false := by rcases hcase with rfl | rfl <;> assumption
    rw [hr] at h
    simp only [Bool.false_eq_true, if_false] at h
    have hlen : m'.length = (T id).slots := by
      rcases singular_store h with rfl | ⟨st, rfl⟩
      · exact hl
      · rw [store_length]; exact hl
    refine ⟨hlen, fun hor => ?_⟩
    rcases hcase with rfl | rfl
    · exact key_stored hT hmk hkr hke hkm hkc hl h
    · rcases hor with h1 | h1
      · rw [h1, n2] at hnum
        exact absurd hnum (by decide)
      · rcases singular_store h with rfl | ⟨st, rfl⟩
        · exact h1
        · rw [hasValue_congr (storage_store_other hslot st)]
          exact h1

theorem loop_key {id : Nat} {k v : DynField} (he : (T id).entry = true) (hfs : (T id).fields = [k, v])
    {dl : DynLevel Flat} : ∀ fuel {m m' : DynMsg} {s s' : Flat}, m.length = (T id).slots →
    k.hasValue m = true →
    dynLoop T utf8 flatOps dl (T id) fuel m s = .ok (s', m') → k.hasValue m' = true
  | 0, m, m', s, s', _, _, h => by cases h
  | fuel + 1, m, m', s, s', hl, hv, h => by
    unfold dynLoop at h
    split at h
    · simp only [res_bind_ok] at h
      obtain ⟨⟨t, tag⟩, -, ⟨t', m1⟩, h1, h2⟩ := h
      have := field_key hT hR he hfs hl h1
      exact loop_key he hfs fuel this.1 (this.2 (Or.inr hv)) h2
    · split at h
      · cases h; exact hv
      · cases h

theorem body_key {id : Nat} {dl : DynLevel Flat} (he : (T id).entry = true) {m m' : DynMsg} {s s' : Flat}
    (hs : s.rest ≠ []) (hl : m.length = (T id).slots) (h : dynBody T utf8 flatOps dl id m s = .ok (s', m'))
    (k v : DynField) (hfs : (T id).fields = [k, v]) : k.hasValue m' = true := by
  cases hrest : s.rest with
  | nil => exact absurd hrest hs
  | cons b l =>
    have hav : 0 < flatOps.avail s := by rw [ops_avail, hrest]; simp
    unfold dynBody at h
    simp only [he, hav, and_self, if_true] at h
    have hp : flatOps.peek s = .ok b := by
      show (match s.rest with | b :: _ => Res.ok b | [] => .ub) = _
      rw [hrest]
    rw [hp] at h
    have h : (if b >>> 3 ≠ 1#8 then .err .badMessage
      else dynLoop T utf8 flatOps dl (T id) (fuelOf flatOps s) m s) = .ok (s', m') := h
    split at h
    · cases h
    · rename_i hb
      have hb : b >>> 3 = 1#8 := by simpa using hb
      unfold fuelOf at h
      unfold dynLoop at h
      simp only [hav, if_true, res_bind_ok] at h
      obtain ⟨⟨t, tag⟩, h0, ⟨t', m1⟩, h1, h2⟩ := h
      have ht0 : tag ≠ 0#32 := by
        intro e
        subst e
        have : dynField T utf8 flatOps dl (T id) 0#32 m t = .err .badMessage := rfl
        simp only [this] at h1
        cases h1
      obtain ⟨hd, ha, ht⟩ := (ops_readTag ht0).1 h0
      have hn := tag_of_byte hb (hrest ▸ ha.1) ht
      have := field_key hT hR he hfs hl h1
      exact loop_key hT hR he hfs _ this.1 (this.2 (Or.inl hn)) h2

/-! ## Fields, messages and groups -/

section
variable (hu : utf8 [] = true) {l : Level Flat} {dl : DynLevel Flat} (L : LevelSim T l dl)
include L hu

theorem field_sim {id : Nat} {h tag} (h0 : tag ≠ 0#32) (ht : isTag h tag) {m : DynMsg} {M : Msg}
    (hm : DynReads T id m M) (s : Flat) :
    DynSim (Rel T id s) (readField (T.cfg utf8) flatOps l ((T.cfg utf8).schema id) tag M s)
      (dynField T utf8 flatOps dl (T id) tag m s) := by
  obtain ⟨S, A⟩ := L.agrees
  unfold readField dynField
  refine dsim_ite (fun _ => dsim_err _ _) (fun _ => ?_)
  cases hf : (T id).fields.find? (fun f => f.number == tagNumber tag) with
  | none =>
    rw [find_none hf]
    dsimp only
    by_cases hav : 0 < flatOps.avail s
    · rw [if_pos hav]
      have e : skipField flatOps l ((T.cfg utf8).schema id).unk tag M s =
          (doSkipField flatOps dl.skip tag s >>= fun s => .ok (s, M)) := by
        unfold skipField
        rw [if_pos (show ((T.cfg utf8).schema id).unk = .none from rfl), doSkip_level L.skip]
      rw [e]
      refine dsim_op (fine_doSkip L.fine _ _) ?_
      intro s1 h1
      exact dsim_ok ⟨rfl, later_doSkip A ht h1, hm⟩
    · rw [if_neg hav]
      have hs : s.rest = [] := by
        rw [ops_avail] at hav
        exact List.length_eq_zero_iff.1 (by omega)
      obtain ⟨e, he⟩ := doSkip_empty L.fine A ht hs
      rw [he]
      exact dsim_err _ _
  | some f =>
    obtain ⟨hmem, hn, k, g, j, hg, hj, h1, h2⟩ := find_group (utf8 := utf8) hT (hR.distinct id) hf
    rw [h1]
    dsimp only
    have hslot : ((T.cfg utf8).schema id).slots[k]? = some (staticSlot T T.blank (T id).entry g) := by
      simp [DynTypes.cfg, hg]
    rw [hslot]
    dsimp only
    show DynSim _ (readSlot (T.cfg utf8) flatOps l .none tag k _ M s) _
    cases hr : f.repeated with
    | false =>
      simp only [Bool.false_eq_true, if_false]
      cases hk : f.kind.msgType with
      | none =>
        have : ∃ sc, f.kind = .scalar sc := by
          cases e : f.kind with
          | scalar sc => exact ⟨sc, rfl⟩
          | msg i => rw [e] at hk; cases hk
          | group i => rw [e] at hk; cases hk
        obtain ⟨sc, hsc⟩ := this
        exact scalar_sim hT hR hu hm hg hj hr hsc h2 l dl s
      | some sid => exact msgField_sim hT L hR hm hg hj hr hk h2 s
    | true =>
      simp only [if_true]
      obtain ⟨rfl, rfl, e⟩ := repeated_slot (utf8 := utf8) hT hg hj hr
      rw [e]
      unfold dynRepeated
      split
      · rename_i u hk
        exact strs_sim hT L hu h0 ht hm hg hr hk _ s
      · rename_i sc hs hk
        have hs : ∀ u, sc ≠ .str u := by
          intro u e
          exact hs u e
        rw [hk]
        have hp : sc.packable = true ∧ sc.wireType ≠ wtLen := by
          cases sc <;> first | exact absurd rfl (hs _) | exact ⟨rfl, by unfold Scalar.wireType; simp only; decide⟩
        simp only [readRepeated, hp.1, Bool.true_and]
        by_cases hw : tagType tag = sc.wireType
        · have hw' : (tagType tag == wtLen) = false := by
            rw [hw]
            simpa using hp.2
          rw [hw', if_pos hw, if_neg (by decide), if_neg (by simpa using hw)]
          exact nums_sim hT L hR h0 ht hm hg hr hk hs s
        · rw [if_neg hw]
          by_cases hw2 : tagType tag = wtLen
          · rw [if_pos hw2, if_pos (by simpa using hw2)]
            exact packed_sim hT hR hm hg hr hk hs _ s
          · rw [if_neg hw2, if_neg (by simpa using hw2), if_pos hw]
            exact dsim_err _ _
      · rename_i sid hk
        exact msgs_sim hT L hR h0 ht hm hg hr (by rw [hk]; rfl) _ s
      · rename_i sid hk
        exact msgs_sim hT L hR h0 ht hm hg hr (by rw [hk]; rfl) _ s

theorem msgLoop_sim {id : Nat} : ∀ fuel {m : DynMsg} {M : Msg} {s : Flat}, s.rest.length < fuel →
    DynReads T id m M →
    DynSim (Rel T id s) (msgLoop (T.cfg utf8) flatOps l ((T.cfg utf8).schema id) fuel M s)
      (dynLoop T utf8 flatOps dl (T id) fuel m s)
  | 0, _, _, _, h, _ => by cases h
  | fuel + 1, m, M, s, hf, hm => by
    unfold msgLoop dynLoop
    refine dsim_ite (fun _ => ?_) (fun _ => dsim_ite (fun _ => dsim_ok ⟨rfl, NotBefore.refl _, hm⟩) (fun _ => dsim_err _ _))
    refine dsim_op (fine_readTag _) ?_
    rintro ⟨s1, tag⟩ h1
    dsimp only
    by_cases h0 : tag = 0#32
    · subst h0
      exact dsim_err _ _
    obtain ⟨h, ha, ht⟩ := (ops_readTag h0).1 h1
    have hlt : s1.rest.length < s.rest.length := by
      have := ha.length
      have := isTag_pos ht
      omega
    refine dsim_bind (field_sim hT hR hu L h0 ht hm s1) ?_
    rintro ⟨s2, M2⟩ ⟨s2', m2⟩ ⟨a, b, c⟩
    simp only at a b c
    subst a
    have b' : s2.rest.length ≤ s1.rest.length := b
    refine (msgLoop_sim fuel (show s2.rest.length < fuel by omega) c).imp ?_
    rintro ⟨s3, M3⟩ ⟨s3', m3⟩ - ⟨a, b, c⟩
    exact ⟨a, (show NotBefore s s2 from by unfold NotBefore; omega).trans b, c⟩

theorem grpLoop_sim {id : Nat} {number : BitVec 32} : ∀ fuel {m : DynMsg} {M : Msg} {s : Flat},
    s.rest.length < fuel → DynReads T id m M →
    DynSim (Rel T id s) (grpLoop (T.cfg utf8) flatOps l ((T.cfg utf8).schema id) number fuel M s)
      (dynGrpLoop T utf8 flatOps dl (T id) number fuel m s)
  | 0, _, _, _, h, _ => by cases h
  | fuel + 1, m, M, s, hf, hm => by
    unfold grpLoop dynGrpLoop
    refine dsim_ite (fun _ => ?_) (fun _ => dsim_err _ _)
    refine dsim_op (fine_readTag _) ?_
    rintro ⟨s1, tag⟩ h1
    dsimp only
    have l1 := later_readTag h1
    refine dsim_ite (fun _ => dsim_ok ⟨rfl, l1, hm⟩) (fun _ => ?_)
    by_cases h0 : tag = 0#32
    · subst h0
      exact dsim_err _ _
    obtain ⟨h, ha, ht⟩ := (ops_readTag h0).1 h1
    have hlt : s1.rest.length < s.rest.length := by
      have := ha.length
      have := isTag_pos ht
      omega
    refine dsim_bind (field_sim hT hR hu L h0 ht hm s1) ?_
    rintro ⟨s2, M2⟩ ⟨s2', m2⟩ ⟨a, b, c⟩
    simp only at a b c
    subst a
    have b' : s2.rest.length ≤ s1.rest.length := b
    refine (grpLoop_sim fuel (show s2.rest.length < fuel by omega) c).imp ?_
    rintro ⟨s3, M3⟩ ⟨s3', m3⟩ - ⟨a, b, c⟩
    exact ⟨a, (show NotBefore s s2 from by unfold NotBefore; omega).trans b, c⟩

theorem body_sim {id : Nat} {m : DynMsg} {M : Msg} (hm : DynReads T id m M) (s : Flat) :
    DynSim (Rel T id s) (msgBody (T.cfg utf8) flatOps l id M s) (dynBody T utf8 flatOps dl id m s) := by
  have hl : s.rest.length < fuelOf flatOps s := by have := ops_avail s; unfold fuelOf; omega
  have hloop := msgLoop_sim hT hR hu L (fuelOf flatOps s) hl hm
  unfold msgBody dynBody
  show DynSim _ (if (T id).entry = true ∧ 0 < flatOps.avail s then _ else _) _
  refine dsim_ite (fun hc => ?_) (fun _ => hloop)
  have hp : ∃ b, flatOps.peek s = .ok b := by
    have hav := hc.2
    rw [ops_avail] at hav
    cases hrest : s.rest with
    | nil => rw [hrest] at hav; cases hav
    | cons b l =>
      refine ⟨b, ?_⟩
      show (match s.rest with | b :: _ => Res.ok b | [] => .ub) = _
      rw [hrest]
  obtain ⟨b, hb⟩ := hp
  rw [hb]
  exact dsim_ite (fun _ => dsim_err _ _) (fun _ => hloop)

end

theorem level_sim (hu : utf8 [] = true) : ∀ d, LevelSim T (level (T.cfg utf8) flatOps d) (dynLevel T utf8 flatOps d)
  | 0 => {
    msg := fun _ _ _ _ _ => dsim_err _ _
    grp := fun _ _ _ _ _ _ => dsim_err _ _
    key := fun _ _ _ _ _ _ _ _ h => by cases h
    skip := rfl
    fine := skipCfg_fine 0
    agrees := ⟨_, level_agrees skipCfg 0⟩
    consumes := skipGrp_consumes skipCfg 0 }
  | d + 1 => {
    msg := fun id m M s h => body_sim hT hR hu (level_sim hu d) h s
    grp := fun id number m M s h => grpLoop_sim hT hR hu (level_sim hu d) _
      (by have := ops_avail s; unfold fuelOf; omega) h
    key := fun id m s s' m' he hs hl h => body_key hT hR he hs hl h
    skip := skipGrp_level flatOps _ _ (d + 1)
    fine := skipCfg_fine (d + 1)
    agrees := ⟨_, level_agrees skipCfg (d + 1)⟩
    consumes := skipGrp_consumes skipCfg (d + 1) }

end

end HppProto
