import Verif.Proofs.GenJsonRead
import Verif.Proofs.JsonStyle

/-! # What is written for a generated message is among what is read -/

namespace HppProto.Json
open HppProto

section
variable {T : GTypes} {G : Glaze} {utf8 : List Byte → Bool} {preserve always : Bool}

theorem gen_enum_weaken {E : EnumInfo} (hn : (E.values.map (·.1)).Nodup) (hp : ∀ p ∈ E.values, p.1 ≠ [] ∧ Plain p.1)
    {v : BitVec 64} {j : JTree} (h : enumFirst E v j) : enumEither E v j := by
  rcases h with ⟨p, hm, rfl, rfl⟩ | ⟨_, h1, h2, rfl⟩
  · exact enum_weaken hn hp (.inl ⟨p, hm, rfl, rfl⟩)
  · exact .inr ⟨h1, h2, rfl⟩

/-- The enums of a type have distinct, plain names. -/
def NamedEnums (ty : JType) : Prop :=
  ∀ E, ty = .enum E → (E.values.map (·.1)).Nodup ∧ ∀ p ∈ E.values, p.1 ≠ [] ∧ Plain p.1

theorem gen_num_weaken {ty : JType} (hE : NamedEnums ty) {v : BitVec 64} {j : JTree}
    (h : numForm G (genStyle preserve always false).num ty v j) : numForm G genAnyStyle.num ty v j := by
  cases ty with
  | enum E => exact ⟨h.1, gen_enum_weaken (hE E rfl).1 (hE E rfl).2 h.2⟩
  | int _ _ => exact h
  | float _ => exact h
  | bool => exact h
  | string => exact h
  | bytes => exact h
  | msg _ => exact h

variable {form form' : Nat → Msg → JTree → Prop} (hform : ∀ id m j, form id m j → form' id m j)
include hform

theorem gen_val_weaken {ty : JType} (hE : NamedEnums ty) {v : Val} {j : JTree}
    (h : gValForm G utf8 (genStyle preserve always false) form ty v j) : gValForm G utf8 genAnyStyle form' ty v j := by
  cases ty with
  | msg id => obtain ⟨m, rfl, h⟩ := h; exact ⟨m, rfl, hform _ _ _ h⟩
  | string => exact h
  | bytes => exact h
  | int _ _ => obtain ⟨x, rfl, h⟩ := h; exact ⟨x, rfl, gen_num_weaken hE h⟩
  | float _ => obtain ⟨x, rfl, h⟩ := h; exact ⟨x, rfl, gen_num_weaken hE h⟩
  | bool => obtain ⟨x, rfl, h⟩ := h; exact ⟨x, rfl, gen_num_weaken hE h⟩
  | enum _ => obtain ⟨x, rfl, h⟩ := h; exact ⟨x, rfl, gen_num_weaken hE h⟩

theorem gen_entry_weaken {D : GDesc} (hD : D.Ok T) {e : Val} {p : JStr × JTree}
    (h : gEntryForm G utf8 (genStyle preserve always false) form D e p) : gEntryForm G utf8 genAnyStyle form' D e p := by
  obtain ⟨k, kc, x, xc, kv, xv, hs, rfl, hk, hx⟩ := h
  refine ⟨k, kc, x, xc, kv, xv, hs, rfl, hk, gen_val_weaken hform ?_ hx⟩
  exact hD.enums x (GSlot.field_name (card := xc) (by rw [hs]; simp))

theorem gen_field_weaken (hT : ∀ id, (T id).Ok T) {f : GName} (hE : NamedEnums f.ty) {card : Card} {es : List (Nat × Val)}
    {j : JTree} (h : gFieldForm T G utf8 (genStyle preserve always false) form f card es j) :
    gFieldForm T G utf8 genAnyStyle form' f card es j := by
  cases card with
  | implicit d => obtain ⟨v, rfl, h⟩ := h; exact ⟨v, rfl, gen_val_weaken hform hE h⟩
  | «always» d => obtain ⟨v, rfl, h, hl⟩ := h; exact ⟨v, rfl, gen_val_weaken hform hE h, hl⟩
  | optional => obtain ⟨v, rfl, h, hl⟩ := h; exact ⟨v, rfl, gen_val_weaken hform hE h, hl⟩
  | «repeated» p =>
    obtain ⟨vs, js, rfl, h, rfl⟩ := h
    exact ⟨vs, js, rfl, all2_mono (fun _ _ => gen_val_weaken hform hE) h, rfl⟩
  | map u =>
    obtain ⟨id, vs, ps, hty, h, rfl, hu⟩ := h
    refine ⟨id, vs, ps, hty, all2_mono (fun _ _ => gen_entry_weaken hform (hT id)) h, rfl, ?_⟩
    cases u with
    | false => exact hu
    | true =>
      simp only [if_true, genStyle, genAnyStyle, Option.isSome_some, Option.isSome_none, Bool.false_eq_true, if_false] at hu ⊢
      exact ⟨hu.1, by rw [hu.2]⟩

theorem gen_member_weaken (hT : ∀ id, (T id).Ok T) {D : GDesc} (hD : D.Ok T) {m : Msg} {t : Nat × Nat} {p : JStr × JTree}
    (h : gMemberForm T G utf8 (genStyle preserve always false) form D m t p) :
    gMemberForm T G utf8 genAnyStyle form' D m t p := by
  have key : ∀ f : GName, (genStyle preserve always false).key f p.1.text → genAnyStyle.key f p.1.text := by
    intro f h
    replace h : p.1.text = if preserve then f.name else f.jsonName := h
    split at h
    · exact .inr h
    · exact .inl h
  obtain ⟨hp, h⟩ := h
  refine ⟨hp, ?_⟩
  cases hs : D.slots[t.1]? with
  | none => rw [hs] at h; exact h
  | some sl =>
    rw [hs] at h
    cases sl with
    | field f card =>
      obtain ⟨h0, hk, h⟩ := h
      refine ⟨h0, key f hk, .inl ?_⟩
      rcases h with h | ⟨h, _⟩
      · exact gen_field_weaken hform hT (hD.enums f (GSlot.field_name (List.mem_of_getElem? hs))) h
      · cases h
    | oneof alts =>
      obtain ⟨f, hf, hk, h⟩ := h
      refine ⟨f, hf, key f hk, .inl ?_⟩
      rcases h with ⟨v, h1, h2, h3⟩ | ⟨h, _⟩
      · refine ⟨v, h1, gen_val_weaken hform (hD.enums f ?_) h2, h3⟩
        rw [names_alts]
        exact List.mem_flatMap.2 ⟨_, List.mem_of_getElem? hs, List.mem_of_getElem? hf⟩
      · cases h

theorem gen_sole_weaken (hT : ∀ id, (T id).Ok T) {id : Nat} {m : Msg} {j : JTree}
    (h : gSoleForm T G utf8 (genStyle preserve always false) form id m j) : gSoleForm T G utf8 genAnyStyle form' id m j := by
  obtain ⟨f, card, es, hs, rfl, h⟩ := h
  refine ⟨f, card, es, hs, rfl, gen_field_weaken hform hT ?_ h⟩
  exact (hT id).enums f (GSlot.field_name (card := card) (by rw [hs]; simp))

end

/-- The form that is written is one of those that are read. -/
theorem gen_form_weaken {T : GTypes} {G : Glaze} {utf8 : List Byte → Bool} {preserve always : Bool} (hT : ∀ id, (T id).Ok T)
    (d : Nat) : ∀ id m j, GFormAt T G utf8 (genStyle preserve always false) d id m j → GFormAt T G utf8 genAnyStyle d id m j := by
  induction d with
  | zero => exact fun _ _ _ h => h
  | succ d ih =>
    intro id m j h
    obtain ⟨hu, hlen, h⟩ := h
    refine ⟨hu, hlen, ?_⟩
    cases hwk : (T id).wk with
    | none =>
      rw [hwk] at h
      obtain ⟨ts, ps, h1, h2, h3, _, h5⟩ := h
      exact ⟨ts, ps, all2_mono (fun _ _ => gen_member_weaken ih hT (hT id)) h1, h2, h3, trivial, h5⟩
    | any => rw [hwk] at h; exact h
    | timestamp => rw [hwk] at h; exact h
    | duration => rw [hwk] at h; exact h
    | fieldMask => rw [hwk] at h; exact h
    | value =>
      rw [hwk] at h
      obtain ⟨alts, a, v, f, hs, hm, hf, h⟩ := h
      refine ⟨alts, a, v, f, hs, hm, hf, ?_⟩
      have hE : NamedEnums f.ty := by
        refine (hT id).enums f ?_
        rw [names_alts, hs]
        exact List.mem_flatMap.2 ⟨.oneof alts, by simp, List.mem_of_getElem? hf⟩
      cases hty : f.ty with
      | enum E => rw [hty] at h; exact h
      | msg sid =>
        rw [hty] at h
        obtain ⟨s, rfl, h⟩ := h
        exact ⟨s, rfl, gen_sole_weaken ih hT h⟩
      | string => rw [hty] at h hE; exact gen_val_weaken ih hE h
      | bytes => rw [hty] at h hE; exact gen_val_weaken ih hE h
      | int _ _ => rw [hty] at h hE; exact gen_val_weaken ih hE h
      | float _ => rw [hty] at h hE; exact gen_val_weaken ih hE h
      | bool => rw [hty] at h hE; exact gen_val_weaken ih hE h
    | struct => rw [hwk] at h; exact gen_sole_weaken ih hT h
    | listValue => rw [hwk] at h; exact gen_sole_weaken ih hT h
    | wrapper =>
      rw [hwk] at h
      obtain ⟨f, c, v, hs, hm, hv⟩ := h
      exact ⟨f, c, v, hs, hm, gen_val_weaken ih ((hT id).enums f (GSlot.field_name (card := c) (by rw [hs]; simp))) hv⟩

end HppProto.Json
