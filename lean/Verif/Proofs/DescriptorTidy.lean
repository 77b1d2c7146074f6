import Verif.Proofs.DescriptorTypes
import Verif.Proofs.ReadObject
import Verif.Proofs.DescriptorFiles
import Verif.Proofs.Tidy
/-! What a file says does not depend on −0.0 in an uninterpreted option, nor on its source information, nor on the number of levels
looked at if there are enough. -/
namespace HppProto.Desc
open HppProto Spec

/-- A member of scalar type other than floating-point. -/
def exactSlot : SlotD → Bool
  | .field _ (.scalar (.fixed32 true)) _ | .field _ (.scalar (.fixed64 true)) _ => false
  | .field _ (.scalar _) _ => true
  | _ => false

/-- A list of messages, or one with presence. -/
def itemSlot (sub : Nat) : SlotD → Bool
  | .field _ (.msg s) (.repeated _) | .field _ (.msg s) .optional => s == sub
  | _ => false

variable {d id i sub : Nat} {m : Msg} {sd : SlotD}

theorem obj_slot (h : objLike false descriptorCfg (d + 1) id m) (hs : (descriptorCfg.schema id).slots[i]? = some sd) :
    slotOk false descriptorCfg (objLike false descriptorCfg d) sd (m.get i) ∧
      (tidy descriptorCfg (d + 1) id m).get i = (m.get i).map (tidyEntry descriptorCfg (tidy descriptorCfg d) sd) := by
  obtain ⟨h1, h2, -⟩ := h
  have hi : i < m.slots.length := by
    rw [h1]; exact (List.getElem?_eq_some_iff.1 hs).1
  have hg : m.slots[i]? = some (m.get i) := by
    simp [MsgOf.get, List.getD, List.getElem?_eq_getElem hi]
  refine ⟨h2 (sd, m.get i) (List.mem_of_getElem? (List.getElem?_zip_eq_some.2 ⟨hs, hg⟩)), ?_⟩
  rw [tidy_eq]
  simp [MsgOf.get, List.getD, List.getElem?_zipWith, hs, hi]

theorem tidy_exact (h : objLike false descriptorCfg (d + 1) id m) (hs : (descriptorCfg.schema id).slots[i]? = some sd)
    (he : exactSlot sd = true) : (tidy descriptorCfg (d + 1) id m).get i = m.get i := by
  obtain ⟨h1, h2⟩ := obj_slot h hs
  rw [h2]
  cases sd with
  | oneof a => cases he
  | field n k c =>
    cases k with
    | msg s => cases he
    | group s => cases he
    | scalar sc =>
      have hp := (slots_plain id).1 _ (List.mem_of_getElem? hs)
      cases c with
      | implicit v =>
        obtain ⟨w, hw, hv, -⟩ := h1
        rw [hw]
        simp only [plainSlot, Bool.and_eq_true] at hp
        have hv' := plainValue_ok (C := descriptorCfg) hp.1
        simp only [List.map_cons, List.map_nil, tidyEntry, tidyVal]
        split
        · rename_i hd
          have : w = v := by
            cases sc with
            | varint t => obtain ⟨x, rfl, -⟩ := hv; obtain ⟨y, rfl, -⟩ := hv'; simpa [isDefault, Val.bits] using hd
            | bool => rcases hv with rfl | rfl <;> rcases hv' with rfl | rfl <;> simp_all [isDefault, Val.bits]
            | enum t => obtain ⟨x, rfl, -⟩ := hv; obtain ⟨y, rfl, -⟩ := hv'; simpa [isDefault, Val.bits] using hd
            | fixed32 f =>
              cases f
              · obtain ⟨x, rfl, -⟩ := hv; obtain ⟨y, rfl, -⟩ := hv'; simpa [isDefault, Val.bits] using hd
              · cases he
            | fixed64 f =>
              cases f
              · obtain ⟨x, rfl⟩ := hv; obtain ⟨y, rfl⟩ := hv'; simpa [isDefault, Val.bits] using hd
              · cases he
            | str u => obtain ⟨x, rfl, -⟩ := hv; obtain ⟨y, rfl, -⟩ := hv'; simpa [isDefault, Val.str] using hd
          rw [this]
        · rfl
      | always v => exact (List.map_congr_left fun e _ => (rfl : _ = _root_.id e)).trans (List.map_id _)
      | optional => exact (List.map_congr_left fun e _ => (rfl : _ = _root_.id e)).trans (List.map_id _)
      | repeated p => exact (List.map_congr_left fun e _ => (rfl : _ = _root_.id e)).trans (List.map_id _)
      | map u => exact (List.map_congr_left fun e _ => (rfl : _ = _root_.id e)).trans (List.map_id _)

theorem tidy_items (h : objLike false descriptorCfg (d + 1) id m) (hs : (descriptorCfg.schema id).slots[i]? = some sd)
    (he : itemSlot sub sd = true) :
    itemsOf (tidy descriptorCfg (d + 1) id m) i = (itemsOf m i).map (tidy descriptorCfg d sub) ∧
    optionOf (tidy descriptorCfg (d + 1) id m) i = (optionOf m i).map (tidy descriptorCfg d sub) ∧
    (∀ x ∈ itemsOf m i, objLike false descriptorCfg d sub x) ∧
    (∀ x, optionOf m i = some x → objLike false descriptorCfg d sub x) := by
  obtain ⟨h1, h2⟩ := obj_slot h hs
  have hall : (∀ e ∈ m.get i, ∃ x, e.2 = .msg x ∧ objLike false descriptorCfg d sub x) ∧
      ∀ e, tidyEntry descriptorCfg (tidy descriptorCfg d) sd e =
        (e.1, .msg (tidy descriptorCfg d sub (e.2.asMsg (descriptorCfg.schema sub).default))) := by
    cases sd with
    | oneof a => cases he
    | field n k c =>
      cases k <;> cases c <;> simp only [itemSlot, beq_iff_eq] at he <;> first | cases he | skip
      · refine ⟨fun e hx => ?_, fun e => rfl⟩
        rcases h1 with h1 | ⟨v, h1, x, rfl, hx'⟩
        · rw [h1] at hx; cases hx
        · rw [h1] at hx
          obtain rfl := List.mem_singleton.1 hx
          exact ⟨x, rfl, hx'⟩
      · exact ⟨fun e hx => (h1 e hx).2, fun e => rfl⟩
  obtain ⟨ha, hb⟩ := hall
  have hm : ∀ e ∈ m.get i, (tidyEntry descriptorCfg (tidy descriptorCfg d) sd e).2.asMsg ⟨[], []⟩ =
      tidy descriptorCfg d sub (e.2.asMsg ⟨[], []⟩) := by
    intro e hx
    obtain ⟨x, hx, -⟩ := ha e hx
    rw [hb, hx]
    rfl
  refine ⟨?_, ?_, ?_, ?_⟩
  · unfold itemsOf
    rw [h2, List.map_map, List.map_map]
    exact List.map_congr_left hm
  · unfold optionOf
    rw [h2]
    cases hg : m.get i with
    | nil => rfl
    | cons e l => simp [hm e (hg ▸ List.mem_cons_self)]
  · intro x hx
    obtain ⟨e, he', rfl⟩ := List.mem_map.1 hx
    obtain ⟨y, hy, ho⟩ := ha e he'
    rw [hy]; exact ho
  · intro x hx
    obtain ⟨e, he', rfl⟩ := Option.map_eq_some_iff.1 hx
    obtain ⟨y, hy, ho⟩ := ha e (List.mem_of_head? he')
    rw [hy]; exact ho

section
variable (h : objLike false descriptorCfg (d + 1) id m)
include h

theorem tidy_text (hs : (descriptorCfg.schema id).slots[i]? = some sd) (he : exactSlot sd = true) :
    textOf (tidy descriptorCfg (d + 1) id m) i = textOf m i := by unfold textOf; rw [tidy_exact h hs he]
theorem tidy_int (hs : (descriptorCfg.schema id).slots[i]? = some sd) (he : exactSlot sd = true) :
    intOf (tidy descriptorCfg (d + 1) id m) i = intOf m i := by unfold intOf; rw [tidy_exact h hs he]
theorem tidy_flag (hs : (descriptorCfg.schema id).slots[i]? = some sd) (he : exactSlot sd = true) :
    flagOf (tidy descriptorCfg (d + 1) id m) i = flagOf m i := by unfold flagOf; rw [tidy_exact h hs he]
theorem tidy_texts (hs : (descriptorCfg.schema id).slots[i]? = some sd) (he : exactSlot sd = true) :
    textsOf (tidy descriptorCfg (d + 1) id m) i = textsOf m i := by unfold textsOf; rw [tidy_exact h hs he]
end

theorem tidy_features (h : objLike false descriptorCfg d 26 m) : featuresOf (tidy descriptorCfg d 26 m) = featuresOf m := by
  cases d with
  | zero => cases h
  | succ d =>
    unfold featuresOf
    rw [tidy_int h (i := 0) rfl rfl, tidy_int h (i := 1) rfl rfl, tidy_int h (i := 2) rfl rfl, tidy_int h (i := 3) rfl rfl,
      tidy_int h (i := 4) rfl rfl, tidy_int h (i := 5) rfl rfl, tidy_int h (i := 6) rfl rfl, tidy_int h (i := 7) rfl rfl]

theorem tidy_optionFeatures {j o : Nat} {sd' : SlotD} (h : objLike false descriptorCfg (d + 1) id m)
    (hs : (descriptorCfg.schema id).slots[i]? = some sd) (he : itemSlot o sd = true)
    (hs' : (descriptorCfg.schema o).slots[j]? = some sd') (he' : itemSlot 26 sd' = true) :
    optionFeatures (tidy descriptorCfg (d + 1) id m) i j = optionFeatures m i j := by
  obtain ⟨-, h2, -, h4⟩ := tidy_items h hs he
  unfold optionFeatures
  rw [h2]
  cases hx : optionOf m i with
  | none => rfl
  | some x =>
    have hx' := h4 x hx
    cases d with
    | zero => cases hx'
    | succ d =>
      obtain ⟨-, g2, -, g4⟩ := tidy_items hx' hs' he'
      show (optionOf (tidy descriptorCfg (d + 1) o x) j).map featuresOf = (optionOf x j).map featuresOf
      rw [g2]
      cases hy : optionOf x j with
      | none => rfl
      | some y => exact congrArg some (tidy_features (g4 y hy))

theorem tidy_field (h : objLike false descriptorCfg d 7 m) : fieldOf (tidy descriptorCfg d 7 m) = fieldOf m := by
  cases d with
  | zero => cases h
  | succ d =>
    obtain ⟨-, h2, -, h4⟩ := tidy_items h (i := 9) (sub := 16) rfl rfl
    have hp : ((optionOf (tidy descriptorCfg (d + 1) 7 m) 9).bind fun o => (o.get 1).head?.map fun e => e.2.bits != 0) =
        (optionOf m 9).bind fun o => (o.get 1).head?.map fun e => e.2.bits != 0 := by
      rw [h2]
      cases hx : optionOf m 9 with
      | none => rfl
      | some x =>
        have hx' := h4 x hx
        cases d with
        | zero => cases hx'
        | succ d =>
          show (((tidy descriptorCfg (d + 1) 16 x).get 1).head?.map _) = _
          rw [tidy_exact hx' (i := 1) rfl rfl]
          rfl
    unfold fieldOf
    rw [hp, tidy_text h (i := 0) rfl rfl, tidy_int h (i := 1) rfl rfl, tidy_int h (i := 2) rfl rfl, tidy_int h (i := 3) rfl rfl,
      tidy_text h (i := 4) rfl rfl, tidy_text h (i := 5) rfl rfl, tidy_exact h (i := 7) rfl rfl, tidy_text h (i := 8) rfl rfl,
      tidy_flag h (i := 10) rfl rfl, tidy_text h (i := 6) rfl rfl, tidy_optionFeatures h (i := 9) (j := 11) (o := 16) rfl rfl rfl rfl]

theorem tidy_oneof (h : objLike false descriptorCfg d 8 m) : oneofOf (tidy descriptorCfg d 8 m) = oneofOf m := by
  cases d with
  | zero => cases h
  | succ d =>
    unfold oneofOf
    rw [tidy_text h (i := 0) rfl rfl, tidy_optionFeatures h (i := 1) (j := 0) (o := 19) rfl rfl rfl rfl]

/-- A list of messages in a member. -/
theorem tidy_list {α : Type} {f g : Msg → α} (h : objLike false descriptorCfg (d + 1) id m)
    (hs : (descriptorCfg.schema id).slots[i]? = some sd) (he : itemSlot sub sd = true)
    (hf : ∀ x, objLike false descriptorCfg d sub x → f (tidy descriptorCfg d sub x) = g x) :
    (itemsOf (tidy descriptorCfg (d + 1) id m) i).map f = (itemsOf m i).map g := by
  obtain ⟨h1, -, h3, -⟩ := tidy_items h hs he
  rw [h1, List.map_map]
  exact List.map_congr_left fun x hx => hf x (h3 x hx)

theorem tidy_enum (h : objLike false descriptorCfg d 9 m) : enumOf (tidy descriptorCfg d 9 m) = enumOf m := by
  cases d with
  | zero => cases h
  | succ d =>
    unfold enumOf
    rw [tidy_text h (i := 0) rfl rfl, tidy_optionFeatures h (i := 2) (j := 3) (o := 20) rfl rfl rfl rfl,
      tidy_list (g := fun v => (textOf v 0, intOf v 1)) h (i := 1) (sub := 11) rfl rfl]
    intro x hx
    cases d with
    | zero => cases hx
    | succ d => rw [tidy_text hx (i := 0) rfl rfl, tidy_int hx (i := 1) rfl rfl]

theorem tidy_message : ∀ {d : Nat} {m : Msg} {a b : Nat}, objLike false descriptorCfg d 2 m → d ≤ a → d ≤ b →
    messageOf a (tidy descriptorCfg d 2 m) = messageOf b m
  | 0, _, _, _, h, _, _ => by cases h
  | d + 1, m, a + 1, b + 1, h, ha, hb => by
    obtain ⟨-, h2, -, h4⟩ := tidy_items h (i := 7) (sub := 15) rfl rfl
    have hp : ((optionOf (tidy descriptorCfg (d + 1) 2 m) 7).map fun o => flagOf o 3) = (optionOf m 7).map fun o => flagOf o 3 := by
      rw [h2]
      cases hx : optionOf m 7 with
      | none => rfl
      | some x =>
        have hx' := h4 x hx
        cases d with
        | zero => cases hx'
        | succ d => exact congrArg some (tidy_flag hx' (i := 3) rfl rfl)
    unfold messageOf
    rw [hp, tidy_text h (i := 0) rfl rfl, tidy_optionFeatures h (i := 7) (j := 5) (o := 15) rfl rfl rfl rfl,
      tidy_list (g := fieldOf) h (i := 1) (sub := 7) rfl rfl fun x hx => tidy_field hx,
      tidy_list (g := fieldOf) h (i := 2) (sub := 7) rfl rfl fun x hx => tidy_field hx,
      tidy_list (g := enumOf) h (i := 4) (sub := 9) rfl rfl fun x hx => tidy_enum hx,
      tidy_list (g := oneofOf) h (i := 6) (sub := 8) rfl rfl fun x hx => tidy_oneof hx,
      tidy_list (g := messageOf b) h (i := 3) (sub := 2) rfl rfl fun x hx => tidy_message hx (by omega) (by omega)]
  | _ + 1, _, 0, _, _, ha, _ => by omega
  | _ + 1, _, _, 0, _, _, hb => by omega

theorem tidy_file {a b : Nat} (h : objLike false descriptorCfg d 1 m) (ha : d ≤ a) (hb : d ≤ b) :
    fileOf a (tidy descriptorCfg d 1 m) = fileOf b m := by
  cases d with
  | zero => cases h
  | succ d =>
    unfold fileOf
    rw [tidy_text h (i := 0) rfl rfl, tidy_text h (i := 1) rfl rfl, tidy_texts h (i := 2) rfl rfl, tidy_text h (i := 12) rfl rfl,
      tidy_int h (i := 13) rfl rfl, tidy_optionFeatures h (i := 10) (j := 19) (o := 14) rfl rfl rfl rfl,
      tidy_list (g := messageOf b) h (i := 6) (sub := 2) rfl rfl fun x hx => tidy_message hx (by omega) (by omega),
      tidy_list (g := enumOf) h (i := 7) (sub := 9) rfl rfl fun x hx => tidy_enum hx,
      tidy_list (g := fieldOf) h (i := 9) (sub := 7) rfl rfl fun x hx => tidy_field hx]

/-- More levels than there are make no difference. -/
theorem fileOf_levels {a b : Nat} (h : objLike false descriptorCfg d 1 m) (ha : d ≤ a) (hb : d ≤ b) : fileOf a m = fileOf b m :=
  (tidy_file h ha ha).symm.trans (tidy_file h ha hb)

theorem get_withoutSource (hi : i ≠ 11) : (withoutSource m).get i = m.get i := by
  simp [withoutSource, MsgOf.put, MsgOf.get, List.getD, Ne.symm hi]

theorem fileOf_withoutSource (a : Nat) : fileOf a (withoutSource m) = fileOf a m := by
  simp [fileOf, textOf, textsOf, intOf, itemsOf, optionFeatures, optionOf, get_withoutSource]

theorem obj_withoutSource (h : objLike false descriptorCfg d 1 m) : objLike false descriptorCfg d 1 (withoutSource m) := by
  cases d with
  | zero => cases h
  | succ d =>
    obtain ⟨h1, h2, h3⟩ := h
    refine ⟨by simpa [withoutSource, MsgOf.put] using h1, fun p hp => ?_, h3⟩
    obtain ⟨i, hi⟩ := List.mem_iff_getElem?.1 hp
    obtain ⟨g1, g2⟩ := List.getElem?_zip_eq_some.1 hi
    by_cases e : i = 11
    · subst e
      obtain ⟨sd, es⟩ := p
      obtain rfl : msgSlot 9 27 = sd := Option.some.inj g1
      refine .inl ?_
      simp only [withoutSource, MsgOf.put, List.getElem?_set] at g2
      split at g2
      · split at g2
        · exact (Option.some.inj g2).symm
        · cases g2
      · exact absurd trivial ‹_›
    · refine h2 p (List.mem_of_getElem? (List.getElem?_zip_eq_some.2 ⟨g1, ?_⟩))
      rw [← g2]
      simp [withoutSource, MsgOf.put, Ne.symm e]

theorem objLike_weaken {C : Cfg} : ∀ {d id : Nat} {m : Msg}, objOk C d id m → objLike false C d id m
  | 0, _, _, h => h.elim
  | d + 1, id, m, ⟨h1, h2, h3⟩ => by
    refine ⟨h1, fun p hp => ?_, h3⟩
    have h := slotOk_mono (fun _ _ h => objLike_weaken h) (h2 p hp)
    generalize p.1 = sd at h ⊢
    cases sd with
    | oneof a => exact h
    | field n k c =>
      cases c with
      | implicit v =>
        obtain ⟨w, e, hw, -⟩ := h
        exact ⟨w, e, hw, fun h => nomatch h⟩
      | always v => exact h
      | optional => exact h
      | repeated p => exact h
      | map u => cases u <;> exact h

end HppProto.Desc
