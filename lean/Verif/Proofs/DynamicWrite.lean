import Verif.Proofs.DynamicItems
import Verif.Proofs.Write
import Verif.Proofs.RegBuild

/-! The writer of dynamic messages agrees with that of generated messages. Helper lemmas for
`Verif/Props/DynamicWrite.lean`. -/

namespace HppProto

/-! ## Pieces of a whole message -/

section
variable {rel rel' : Nat → DynMsg → Msg → Prop} {m : DynMsg}

theorem FieldItems.mono (h : ∀ id s N, rel id s N → rel' id s N) {f its} (hf : FieldItems rel m f its) :
    FieldItems rel' m f its := by
  cases hf with
  | absent hp => exact .absent hp
  | num hp hk hpack hc => exact .num hp hk hpack hc
  | str hp hk hpack hc => exact .str hp hk hpack hc
  | packed hp hk hs hpack hr hc => exact .packed hp hk hs hpack hr hc
  | nums hp hk hs hpack hc => exact .nums hp hk hs hpack hc
  | strs hp hk hpack hc => exact .strs hp hk hpack hc
  | msg hp hk hc hr => exact .msg hp hk hc (h _ _ _ hr)
  | msgs hp hk hc hl hr => exact .msgs hp hk hc hl fun p hp => h _ _ _ (hr p hp)

theorem FieldsItems.mono (h : ∀ id s N, rel id s N → rel' id s N) {fs its} (hf : FieldsItems rel m fs its) :
    FieldsItems rel' m fs its := by
  induction hf with
  | nil => exact .nil
  | cons hf _ ih => exact .cons (hf.mono h) ih

theorem fieldsItems_groups (st : List DynField → SlotD) :
    ∀ (gs : List (List DynField)) (Ms : List (List (Nat × Val))), Ms.length = gs.length →
    (∀ i fs, gs[i]? = some fs → FieldsItems rel m fs (slotItems (st fs) (Ms.getD i []))) →
    FieldsItems rel m gs.flatten (((gs.map st).zip Ms).flatMap fun p => slotItems p.1 p.2)
  | [], _, _, _ => by simpa using FieldsItems.nil
  | g :: gs, [], hl, _ => by simp at hl
  | g :: gs, M :: Ms, hl, h => by
    have := fieldsItems_groups st gs Ms (by simpa using hl) fun i fs hi => by
      have := h (i + 1) fs (by simpa using hi)
      simpa using this
    have h0 := h 0 g rfl
    simpa using h0.append this

end

/-- The pieces of a generated message are those of the dynamic message it corresponds to. -/
theorem holds_items {T : DynTypes} (hT : ∀ id, (T id).Ok) (hP : ∀ id, (T id).Pooled) {utf8 : List Byte → Bool}
    {id : Nat} {m : DynMsg} {M : Msg} (h : DynHolds T True id m M) :
    M.unk = [] ∧
    FieldsItems (DynHolds T True) m (T id).fields (msgItems ((T.cfg utf8).schema id) M) := by
  obtain ⟨d, h⟩ := h
  cases d with
  | zero => exact h.elim
  | succ d =>
    obtain ⟨_, hu, hl, hs⟩ := h
    refine ⟨hu, ?_⟩
    refine FieldsItems.mono (rel := HoldsAt T True d) (fun _ _ _ h => ⟨d, h⟩) ?_
    have := fieldsItems_groups (rel := HoldsAt T True d) (m := m)
      (staticSlot T T.blank (T id).entry) (groupFields (T id).fields) M.slots hl fun i fs hi =>
        group_items (hT id) (hP id) (List.mem_of_getElem? hi) (hs i fs hi)
    rw [groupFields_flatten] at this
    exact this

/-! ## Pass 1 -/

section
variable {rel : Nat → DynMsg → Msg → Prop} {m : DynMsg} (C : Cfg)

theorem countItems_append (rec : Nat → Msg → Nat × Bool) (a b : List Item) :
    countItems C rec (a ++ b) = ((countItems C rec a).1 + (countItems C rec b).1,
      (countItems C rec a).2 || (countItems C rec b).2) := by
  induction a with
  | nil => simp [countItems]
  | cons x a ih => simp [countItems, ih, Nat.add_assoc, Bool.or_assoc]

theorem countItems_scalars (rec : Nat → Msg → Nat × Bool) {α} (g : α → Val) (n : BitVec 32) (sc : Scalar)
    (xs : List α) : countItems C rec (xs.map fun x => .one n (.scalar sc) (g x)) = (0, false) := by
  induction xs with
  | nil => rfl
  | cons x xs ih => simp [countItems, ih, countItem]

theorem dynCountAll_ok {drec : DynMsg → Res (Nat × Bool)} {srec : Msg → Nat × Bool} :
    ∀ (ss : List DynMsg) (Ns : List Msg), ss.length = Ns.length →
    (∀ p ∈ ss.zip Ns, drec p.1 = .ok (srec p.2)) →
    dynCountAll drec ss = .ok ((Ns.map fun N => (srec N).1).sum, Ns.any fun N => (srec N).2)
  | [], [], _, _ => rfl
  | s :: ss, N :: Ns, hl, h => by
    have := dynCountAll_ok ss Ns (by simpa using hl) fun p hp => h p (by simp [hp])
    have h0 := h (s, N) (by simp)
    simp only at h0
    simp only [dynCountAll, h0, ok_bind, this, List.map_cons, List.sum_cons, List.any_cons]
  | [], _ :: _, hl, _ => by simp at hl
  | _ :: _, [], hl, _ => by simp at hl

theorem countItems_msgs (rec : Nat → Msg → Nat × Bool) (n : BitVec 32) (id : Nat) (Ns : List Msg) :
    countItems C rec (Ns.map fun N => .one n (.msg id) (.msg N)) =
      ((Ns.map fun N => (rec id N).1).sum + Ns.length, Ns.any fun N => (rec id N).2) := by
  induction Ns with
  | nil => rfl
  | cons N Ns ih =>
    simp only [List.map_cons, countItems, ih, countItem, Val.asMsg, List.sum_cons, List.length_cons,
      List.any_cons, Prod.mk.injEq, and_true]
    omega

theorem countItems_groups (rec : Nat → Msg → Nat × Bool) (n : BitVec 32) (id : Nat) (Ns : List Msg) :
    countItems C rec (Ns.map fun N => .one n (.group id) (.msg N)) =
      ((Ns.map fun N => (rec id N).1).sum, Ns.any fun N => (rec id N).2) := by
  induction Ns with
  | nil => rfl
  | cons N Ns ih => simp only [List.map_cons, countItems, ih, countItem, Val.asMsg, List.sum_cons, List.any_cons]

theorem dynCountField_ok {drec : Nat → DynMsg → Res (Nat × Bool)} {srec : Nat → Msg → Nat × Bool}
    (hrec : ∀ id s N, rel id s N → drec id s = .ok (srec id N)) {f : DynField} {its : List Item}
    (h : FieldItems rel m f its) : ∃ p, f.present m = .ok p ∧
    (if p then dynCountField drec f m else .ok (0, false)) = .ok (countItems C srec its) := by
  cases h with
  | absent hp => exact ⟨false, hp, rfl⟩
  | num hp hk hpack hc =>
    refine ⟨true, hp, ?_⟩
    simp [dynCountField, hk, hpack, countItems, countItem]
  | str hp hk hpack hc =>
    refine ⟨true, hp, ?_⟩
    simp [dynCountField, hk, hpack, countItems, countItem]
  | packed hp hk hs hpack hrep hc =>
    refine ⟨true, hp, ?_⟩
    simp only [dynCountField, hk, hpack, if_true, countItems, countItem, hrep, Bool.true_and, Bool.and_true,
      Nat.add_zero, Bool.or_false]
  | nums hp hk hs hpack hc =>
    refine ⟨true, hp, ?_⟩
    rw [hk, countItems_scalars]
    simp [dynCountField, hk, hpack]
  | strs hp hk hpack hc =>
    refine ⟨true, hp, ?_⟩
    rw [hk, countItems_scalars]
    simp [dynCountField, hk, hpack]
  | @msg s N id hp hk hc hr =>
    refine ⟨true, hp, ?_⟩
    simp only [if_true, dynCountField]
    cases hkk : f.kind with
    | scalar sc => rw [hkk] at hk; cases hk
    | msg id' =>
      rw [hkk] at hk; cases hk
      simp [hc, ok_bind, hrec _ _ _ hr, countItems, countItem, Val.asMsg]
    | group id' =>
      rw [hkk] at hk; cases hk
      simp [hc, ok_bind, hrec _ _ _ hr, countItems, countItem, Val.asMsg]
  | @msgs ss Ns id hp hk hc hl hr =>
    refine ⟨true, hp, ?_⟩
    simp only [if_true, dynCountField]
    have hall := dynCountAll_ok (drec := drec id) (srec := srec id) ss Ns hl fun p hp => hrec _ _ _ (hr p hp)
    cases hkk : f.kind with
    | scalar sc => rw [hkk] at hk; cases hk
    | msg id' =>
      rw [hkk] at hk; cases hk
      rw [countItems_msgs]
      simp only [hc, ok_bind, hall, hl]
    | group id' =>
      rw [hkk] at hk; cases hk
      rw [countItems_groups]
      simp only [hc, ok_bind, hall]

theorem dynCountFields_ok {drec : Nat → DynMsg → Res (Nat × Bool)} {srec : Nat → Msg → Nat × Bool}
    (hrec : ∀ id s N, rel id s N → drec id s = .ok (srec id N)) {fs : List DynField} {its : List Item}
    (h : FieldsItems rel m fs its) : dynCountFields drec m fs = .ok (countItems C srec its) := by
  induction h with
  | nil => rfl
  | cons hf _ ih =>
    obtain ⟨p, hp, he⟩ := dynCountField_ok C hrec hf
    cases p with
    | true =>
      simp only [if_true] at he
      simp only [dynCountFields, hp, ok_bind, if_true, he, ih, countItems_append]
    | false =>
      simp only [Bool.false_eq_true, if_false, Res.ok.injEq] at he
      simp only [dynCountFields, hp, ok_bind, Bool.false_eq_true, if_false, he, ih, countItems_append]

end

theorem dynCount_ok {T : DynTypes} (hT : ∀ id, (T id).Ok) (hP : ∀ id, (T id).Pooled) {utf8 : List Byte → Bool} :
    ∀ (d id : Nat) (m : DynMsg) (M : Msg), DynHolds T True id m M →
    dynCount T d id m = .ok (countMsg (T.cfg utf8) d id M)
  | 0, _, _, _, _ => rfl
  | d + 1, id, m, M, h =>
    dynCountFields_ok (T.cfg utf8) (rel := DynHolds T True) (fun id s N h => dynCount_ok hT hP d id s N h)
      (holds_items hT hP h).2

/-! ## Pass 2 -/

theorem tagLen_eq (f : DynField) : f.tagLen = tagSize f.number := by
  have hw : ∃ w : Nat, w < 8 ∧ f.tagWire = BitVec.ofNat 32 w := by
    unfold DynField.tagWire
    split
    · exact ⟨2, by omega, rfl⟩
    · cases f.kind with
      | scalar sc => cases sc <;> exact ⟨_, by decide, rfl⟩
      | msg _ => exact ⟨2, by omega, rfl⟩
      | group _ => exact ⟨3, by omega, rfl⟩
  obtain ⟨w, hw8, hw⟩ := hw
  have e : (f.number <<< 3).toNat = (f.number.toNat % 2 ^ 29) * 8 := by
    rw [BitVec.toNat_shiftLeft, Nat.shiftLeft_eq]; omega
  have e2 : f.serializedTag.toNat = (f.number.toNat % 2 ^ 29) * 8 + w := by
    unfold DynField.serializedTag makeTag
    rw [hw, BitVec.toNat_or, e, BitVec.toNat_ofNat, Nat.mod_eq_of_lt (a := w) (by omega)]
    have := (Nat.shiftLeft_add_eq_or_of_lt (i := 3) (b := w) (by omega) (f.number.toNat % 2 ^ 29))
    rw [Nat.shiftLeft_eq] at this
    exact this.symm
  have hlt : f.number.toNat % 2 ^ 29 < 2 ^ 29 := Nat.mod_lt _ (by omega)
  unfold DynField.tagLen tagSize
  rw [e, e2, varintSize_eq (by omega) (by omega), varintSize_eq (by omega) (by omega),
    pack_length_low hw8]

theorem u64_lt (n : Nat) : u64 n < 2 ^ 64 := Nat.mod_lt _ (by omega)

theorem sum64_mod (l : List Nat) : sum64 l = l.sum % 2 ^ 64 := by
  have : ∀ (l : List Nat) (a : Nat), a < 2 ^ 64 →
      l.foldl (fun acc x => u64 (acc + x)) a = (a + l.sum) % 2 ^ 64 := by
    intro l
    induction l with
    | nil => intro a ha; simp [Nat.mod_eq_of_lt ha]
    | cons x l ih =>
      intro a ha
      rw [List.foldl_cons, ih _ (u64_lt _), List.sum_cons, u64]
      omega
  have h := this l 0 (by omega)
  rw [Nat.zero_add] at h
  exact h

section
variable {rel : Nat → DynMsg → Msg → Prop} {m : DynMsg} (C : Cfg)

theorem sizeItems_lt {srec} : ∀ (its : List Item) (st : CacheSt) {n st'},
    sizeItems C srec its st = .ok (n, st') → n < 2 ^ 64 := by
  intro its
  cases its with
  | nil => intro st n st' h; simp [sizeItems] at h; omega
  | cons it its =>
    intro st n st' h
    rw [sizeItems] at h
    cases h1 : sizeItem C srec it st with
    | ok r =>
      rw [h1, ok_bind] at h
      cases h2 : sizeItems C srec its r.2 with
      | ok r2 =>
        simp only at h
        rw [h2, ok_bind] at h
        simp only [Res.ok.injEq, Prod.mk.injEq] at h
        rw [← h.1]; exact Nat.mod_lt _ (by omega)
      | _ => simp only at h; rw [h2] at h; cases h
    | _ => rw [h1] at h; cases h

/-- Continue after a size, adding to what is there. -/
def addSize (acc : Nat) (r : Res (Nat × CacheSt)) : Res (Nat × CacheSt) := do
  let (n, st) ← r
  .ok (u64 (acc + n), st)

theorem u64_add_u64 (a b c : Nat) : u64 (u64 (a + b) + c) = u64 (a + u64 (b + c)) := by
  unfold u64; omega

theorem sizeItems_append {srec} (a b : List Item) (st : CacheSt) :
    sizeItems C srec (a ++ b) st = (do
      let (x, st) ← sizeItems C srec a st
      let (y, st) ← sizeItems C srec b st
      .ok (u64 (x + y), st)) := by
  induction a generalizing st with
  | nil =>
    simp only [List.nil_append, sizeItems, ok_bind, Nat.zero_add]
    cases hb : sizeItems C srec b st with
    | ok r =>
      have := sizeItems_lt C b st (n := r.1) (st' := r.2) (by rw [hb])
      rw [ok_bind]
      simp only [u64, Nat.mod_eq_of_lt this]
    | _ => rfl
  | cons x a ih =>
    simp only [List.cons_append, sizeItems, ih]
    cases sizeItem C srec x st with
    | ok r =>
      simp only [ok_bind]
      cases sizeItems C srec a r.2 with
      | ok r2 =>
        simp only [ok_bind]
        cases sizeItems C srec b r2.2 with
        | ok r3 =>
          simp only [ok_bind, u64_add_u64]
        | _ => rfl
      | _ => rfl
    | _ => rfl

theorem sizeItem_lt {srec} (it : Item) (st : CacheSt) {n st'} (h : sizeItem C srec it st = .ok (n, st')) :
    n < 2 ^ 64 := by
  have : ∀ x, u64 x < 2 ^ 64 := fun x => Nat.mod_lt _ (by omega)
  cases it with
  | packed n sc vs =>
    simp only [sizeItem] at h
    split at h
    · cases hw : CacheSt.write { st with pos := st.pos + 1 } st.pos (saturate (sum64 (vs.map (scalarSize sc)))) with
      | ok r =>
        rw [hw, ok_bind] at h
        simp only [Res.ok.injEq, Prod.mk.injEq] at h
        rw [← h.1]; exact this _
      | _ => rw [hw] at h; cases h
    · simp only [Res.ok.injEq, Prod.mk.injEq] at h
      rw [← h.1]; exact this _
  | one n k v =>
    cases k with
    | scalar sc =>
      simp only [sizeItem, Res.ok.injEq, Prod.mk.injEq] at h
      rw [← h.1]; exact this _
    | msg id =>
      simp only [sizeItem] at h
      cases h1 : srec id (v.asMsg (C.schema id).default) { st with pos := st.pos + 1 } with
      | ok r =>
        rw [h1, ok_bind] at h
        cases hw : r.2.write st.pos (saturate r.1) with
        | ok r2 =>
          rw [hw, ok_bind] at h
          simp only [Res.ok.injEq, Prod.mk.injEq] at h
          rw [← h.1]; exact this _
        | _ => rw [hw] at h; cases h
      | _ => rw [h1] at h; cases h
    | group id =>
      simp only [sizeItem] at h
      cases h1 : srec id (v.asMsg (C.schema id).default) st with
      | ok r =>
        rw [h1, ok_bind] at h
        simp only [Res.ok.injEq, Prod.mk.injEq] at h
        rw [← h.1]; exact this _
      | _ => rw [h1] at h; cases h

theorem sizeItems_single {srec} (it : Item) (st : CacheSt) :
    sizeItems C srec [it] st = sizeItem C srec it st := by
  simp only [sizeItems]
  cases h : sizeItem C srec it st with
  | ok r =>
    have := sizeItem_lt C it st (n := r.1) (st' := r.2) (by rw [h])
    simp only [ok_bind, Nat.add_zero, u64, Nat.mod_eq_of_lt this]
  | _ => rfl

theorem sizeItems_scalars {srec} {α} (g : α → Val) (n : BitVec 32) (sc : Scalar) (xs : List α) (st : CacheSt) :
    sizeItems C srec (xs.map fun x => .one n (.scalar sc) (g x)) st =
      .ok (sum64 (xs.map fun x => u64 (tagSize n + scalarSize sc (g x))), st) := by
  induction xs with
  | nil => rfl
  | cons x xs ih =>
    simp only [List.map_cons, sizeItems, ih, sizeItem, ok_bind, sum64_mod, List.sum_cons, u64]
    congr 2
    omega

theorem dynSizeAll_ok {one : DynMsg → CacheSt → Res (Nat × CacheSt)} {srec} {mk : Msg → Item} :
    ∀ (ss : List DynMsg) (Ns : List Msg) (acc : Nat) (st : CacheSt), acc < 2 ^ 64 → ss.length = Ns.length →
    (∀ p ∈ ss.zip Ns, ∀ st, one p.1 st = sizeItem C srec (mk p.2) st) →
    dynSizeAll one acc ss st = addSize acc (sizeItems C srec (Ns.map mk) st)
  | [], [], acc, st, ha, _, _ => by
    simp [dynSizeAll, sizeItems, addSize, ok_bind, u64, Nat.mod_eq_of_lt ha]
  | s :: ss, N :: Ns, acc, st, ha, hl, h => by
    have h0 := h (s, N) (by simp) st
    simp only at h0
    simp only [dynSizeAll, List.map_cons, sizeItems, addSize, h0]
    cases sizeItem C srec (mk N) st with
    | ok r =>
      simp only [ok_bind]
      rw [dynSizeAll_ok ss Ns _ _ (u64_lt _) (by simpa using hl)
        fun p hp => h p (by simp [hp])]
      simp only [addSize]
      cases sizeItems C srec (Ns.map mk) r.2 with
      | ok r2 => simp only [ok_bind, u64_add_u64]
      | _ => rfl
    | _ => rfl
  | [], _ :: _, _, _, _, hl, _ => by simp at hl
  | _ :: _, [], _, _, _, hl, _ => by simp at hl

theorem addSize_zero {srec} (its : List Item) (st : CacheSt) :
    addSize 0 (sizeItems C srec its st) = sizeItems C srec its st := by
  unfold addSize
  cases h : sizeItems C srec its st with
  | ok r =>
    have := sizeItems_lt C its st (n := r.1) (st' := r.2) (by rw [h])
    simp only [ok_bind, Nat.zero_add, u64, Nat.mod_eq_of_lt this]
  | _ => rfl

theorem dynSizeOne_ok {drec : Nat → DynMsg → CacheSt → Res (Nat × CacheSt)} {srec}
    (hrec : ∀ id s N, rel id s N → drec id s = srec id N) {f : DynField} {id : Nat} {s : DynMsg} {N : Msg}
    (h : rel id s N) (st : CacheSt) :
    dynSizeOne (drec id) f false s st = sizeItem C srec (.one f.number (.msg id) (.msg N)) st ∧
    dynSizeOne (drec id) f true s st = sizeItem C srec (.one f.number (.group id) (.msg N)) st := by
  simp only [dynSizeOne, sizeItem, Val.asMsg, hrec _ _ _ h, tagLen_eq, Bool.false_eq_true, if_false, if_true,
    and_self]

theorem dynSizeField_ok {drec : Nat → DynMsg → CacheSt → Res (Nat × CacheSt)} {srec}
    (hrec : ∀ id s N, rel id s N → drec id s = srec id N) {f : DynField} {its : List Item}
    (h : FieldItems rel m f its) (st : CacheSt) : ∃ p, f.present m = .ok p ∧
    (if p then dynSizeField drec f m st else .ok (0, st)) = sizeItems C srec its st := by
  cases h with
  | absent hp => exact ⟨false, hp, rfl⟩
  | @num v sc hp hk hpack hc =>
    refine ⟨true, hp, ?_⟩
    rw [sizeItems_single]
    simp only [if_true, dynSizeField, hc, ok_bind, hk, sizeItem, tagLen_eq]
  | @str bs u hp hk hpack hc =>
    refine ⟨true, hp, ?_⟩
    rw [sizeItems_single]
    simp only [if_true, dynSizeField, hc, ok_bind, hk, sizeItem, tagLen_eq, scalarSize, Val.str]
  | @packed vs sc hp hk hs hpack hrep hc =>
    refine ⟨true, hp, ?_⟩
    rw [sizeItems_single]
    simp only [if_true, dynSizeField, hc, ok_bind, hk, sizeItem, tagLen_eq, hpack, List.map_map,
      List.length_map]
    cases sc.cached <;> rfl
  | @nums vs sc hp hk hs hpack hc =>
    refine ⟨true, hp, ?_⟩
    rw [hk, sizeItems_scalars]
    simp only [if_true, dynSizeField, hc, ok_bind, hk, tagLen_eq, hpack, Bool.false_eq_true, if_false]
    cases hcc : sc.cached with
    | true => rfl
    | false =>
      simp only [Bool.false_eq_true, if_false, Res.ok.injEq, Prod.mk.injEq, and_true]
      have : ∀ v, scalarSize sc (.num v) = sc.rawSize := by
        intro v; cases sc <;> simp_all [Scalar.cached, Scalar.packable, scalarSize, Scalar.rawSize]
      simp only [this, sum64_mod, u64]
      rw [List.map_const', List.sum_replicate_nat]
  | @strs vs u hp hk hpack hc =>
    refine ⟨true, hp, ?_⟩
    rw [hk, sizeItems_scalars]
    simp only [if_true, dynSizeField, hc, ok_bind, hk, tagLen_eq]
    rfl
  | @msg s N id hp hk hc hr =>
    refine ⟨true, hp, ?_⟩
    have ho := dynSizeOne_ok C hrec (f := f) hr st
    rw [sizeItems_single]
    simp only [if_true, dynSizeField, hc, ok_bind]
    cases hkk : f.kind with
    | scalar sc => rw [hkk] at hk; cases hk
    | msg id' => rw [hkk] at hk; cases hk; exact ho.1
    | group id' => rw [hkk] at hk; cases hk; exact ho.2
  | @msgs ss Ns id hp hk hc hl hr =>
    refine ⟨true, hp, ?_⟩
    simp only [if_true, dynSizeField, hc, ok_bind]
    cases hkk : f.kind with
    | scalar sc => rw [hkk] at hk; cases hk
    | msg id' =>
      rw [hkk] at hk; cases hk
      simp only
      rw [dynSizeAll_ok C (srec := srec) (mk := fun N => .one f.number (.msg id) (.msg N)) ss Ns 0 st (by omega) hl
        fun p hp st => (dynSizeOne_ok C hrec (f := f) (hr p hp) st).1, addSize_zero]
    | group id' =>
      rw [hkk] at hk; cases hk
      simp only
      rw [dynSizeAll_ok C (srec := srec) (mk := fun N => .one f.number (.group id) (.msg N)) ss Ns 0 st (by omega) hl
        fun p hp st => (dynSizeOne_ok C hrec (f := f) (hr p hp) st).2, addSize_zero]

theorem dynSizeFields_ok {drec : Nat → DynMsg → CacheSt → Res (Nat × CacheSt)} {srec}
    (hrec : ∀ id s N, rel id s N → drec id s = srec id N) {fs : List DynField} {its : List Item}
    (h : FieldsItems rel m fs its) : ∀ (acc : Nat) (st : CacheSt), acc < 2 ^ 64 →
    dynSizeFields drec m acc fs st = addSize acc (sizeItems C srec its st) := by
  induction h with
  | nil =>
    intro acc st ha
    simp [dynSizeFields, sizeItems, addSize, ok_bind, u64, Nat.mod_eq_of_lt ha]
  | @cons f fs its its' hf _ ih =>
    intro acc st ha
    obtain ⟨p, hp, he⟩ := dynSizeField_ok C hrec hf st
    have e : dynSizeFields drec m acc (f :: fs) st = (do
        let (n, st) ← sizeItems C srec its st
        dynSizeFields drec m (u64 (acc + n)) fs st) := by
      rw [← he]
      cases p <;> simp only [dynSizeFields, hp, ok_bind, if_true, Bool.false_eq_true, if_false]
    rw [e]
    simp only [sizeItems_append, addSize]
    cases sizeItems C srec its st with
    | ok r =>
      simp only [ok_bind]
      rw [ih _ _ (u64_lt _)]
      simp only [addSize]
      cases sizeItems C srec its' r.2 with
      | ok r2 => simp only [ok_bind, u64_add_u64]
      | _ => rfl
    | _ => rfl

end

theorem dynSize_ok {T : DynTypes} (hT : ∀ id, (T id).Ok) (hP : ∀ id, (T id).Pooled) {utf8 : List Byte → Bool} :
    ∀ (d id : Nat) (m : DynMsg) (M : Msg), DynHolds T True id m M →
    dynSize T d id m = sizeMsg (T.cfg utf8) d id M
  | 0, _, _, _, _ => rfl
  | d + 1, id, m, M, h => by
    obtain ⟨hu, hi⟩ := holds_items hT hP (utf8 := utf8) h
    funext st
    have := dynSizeFields_ok (T.cfg utf8) (rel := DynHolds T True) (m := m)
      (fun id s N h => dynSize_ok hT hP (utf8 := utf8) d id s N h) hi 0 st (by omega)
    rw [dynSize, this, addSize_zero, sizeMsg, hu]
    cases h : sizeItems (T.cfg utf8) (sizeMsg (T.cfg utf8) d) (msgItems ((T.cfg utf8).schema id) M) st with
    | ok r =>
      have := sizeItems_lt _ _ st (n := r.1) (st' := r.2) (by rw [h])
      simp only [ok_bind, List.map_nil, sum64, List.foldl_nil, Nat.add_zero, u64, Nat.mod_eq_of_lt this]
    | _ => rfl

end HppProto
