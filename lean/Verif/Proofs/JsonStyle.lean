import Verif.Proofs.JsonLevel

/-! # What is written is among what is read -/

namespace HppProto.Json
open HppProto HppProto.Spec

theorem find_nodup {ps : List (List Byte × BitVec 32)} (hn : (ps.map (·.1)).Nodup) {q : List Byte × BitVec 32} (hq : q ∈ ps) :
    ps.find? (fun p => p.1 == q.1) = some q := by
  induction ps with
  | nil => cases hq
  | cons p ps ih =>
    rw [List.map_cons, List.nodup_cons] at hn
    rw [List.find?_cons]
    rcases List.mem_cons.1 hq with rfl | hq
    · simp
    · have : p.1 ≠ q.1 := fun e => hn.1 (e ▸ List.mem_map_of_mem hq)
      rw [show (p.1 == q.1) = false by simpa using this]
      exact ih hn.2 hq

theorem enum_weaken {E : EnumInfo} (hn : (E.values.map (·.1)).Nodup) (hp : ∀ p ∈ E.values, p.1 ≠ [] ∧ Plain p.1)
    {v : BitVec 64} {j : JTree} (h : enumNamed E v j) : enumEither E v j := by
  rcases h with ⟨p, hm, rfl, rfl⟩ | ⟨_, h1, h2, rfl⟩
  · obtain ⟨q, hq, h1, h2⟩ := nameOf_mem hm
    refine .inl ⟨E.nameOf p.2, p.2, ?_, rfl, ?_, rfl⟩
    · unfold EnumInfo.valueOf
      rw [h2, find_nodup hn hq, ← h1]
      rfl
    · rw [h2]; exact (hp q hq).2
  · exact .inr ⟨by omega, h2, rfl⟩

section
variable {T : JTypes} {G : Glaze} {utf8 : List Byte → Bool} {preserve : Bool}

theorem num_weaken {ty : JType} (hE : ∀ E, ty = .enum E → (E.values.map (·.1)).Nodup ∧ ∀ p ∈ E.values, p.1 ≠ [] ∧ Plain p.1)
    {v : BitVec 64} {j : JTree} (h : numForm G (writerStyle preserve) ty v j) : numForm G anyStyle ty v j := by
  cases ty with
  | enum E => exact ⟨h.1, enum_weaken (hE E rfl).1 (hE E rfl).2 h.2⟩
  | int _ _ => exact h
  | float _ => exact h
  | bool => exact h
  | string => exact h
  | bytes => exact h
  | msg _ => exact h

theorem field_weaken {form form' : Nat → DynMsg → JTree → Prop} (hform : ∀ id m j, form id m j → form' id m j) {f : JField}
    (hE : ∀ E, f.ty = .enum E → (E.values.map (·.1)).Nodup ∧ ∀ p ∈ E.values, p.1 ≠ [] ∧ Plain p.1)
    {m : DynMsg} {j : JTree} (h : fieldForm T G utf8 (writerStyle preserve) form f m j) :
    fieldForm T G utf8 anyStyle form' f m j := by
  unfold fieldForm at h ⊢
  split at h
  · rename_i id _
    split at h
    · obtain ⟨ss, h1, h⟩ := h
      rw [if_pos (by assumption)]
      refine ⟨ss, h1, ?_⟩
      split at h
      · obtain ⟨ms, h2, h3⟩ := h
        rw [if_pos (by assumption)]
        exact ⟨ms, all2_mono (fun _ _ => hform _ _ _) h2, h3⟩
      · obtain ⟨ms, h2, h3⟩ := h
        rw [if_neg (by assumption)]
        exact ⟨ms, all2_mono (fun _ _ => hform _ _ _) h2, h3⟩
    · obtain ⟨s, h1, h⟩ := h
      rw [if_neg (by assumption)]
      exact ⟨s, h1, hform _ _ _ h⟩
  · exact h
  · exact h
  · split at h
    · obtain ⟨vs, js, h1, h2, h3⟩ := h
      rw [if_pos (by assumption)]
      exact ⟨vs, js, h1, all2_mono (fun _ _ => num_weaken hE) h2, h3⟩
    · obtain ⟨v, h1, h2⟩ := h
      rw [if_neg (by assumption)]
      exact ⟨v, h1, num_weaken hE h2⟩

theorem all2_mono_mem {α β : Type} {R Q : α → β → Prop} :
    ∀ {as : List α} {bs : List β}, (∀ a ∈ as, ∀ b, R a b → Q a b) → All2 R as bs → All2 Q as bs
  | [], [], _, _ => trivial
  | a :: _, _ :: _, h, hr => ⟨h a (by simp) _ hr.1, all2_mono_mem (fun a ha => h a (by simp [ha])) hr.2⟩
  | [], _ :: _, _, hr => hr.elim
  | _ :: _, [], _, hr => hr.elim

/-- The form that is written is one of those that are read, if this is so of the messages in it. -/
theorem body_weaken (hT : ∀ id, (T id).Ok T) {form form' : Nat → DynMsg → JTree → Prop}
    (ih : ∀ id m j, form id m j → form' id m j) {id : Nat} {m : DynMsg} {j : JTree}
    (h : bodyForm T G utf8 (writerStyle preserve) form id m j) : bodyForm T G utf8 anyStyle form' id m j := by
  have hf : ∀ f ∈ (T id).fields, ∀ x, fieldForm T G utf8 (writerStyle preserve) form f m x →
      fieldForm T G utf8 anyStyle form' f m x :=
    fun f hf x h => field_weaken ih ((hT id).enums f hf) h
  obtain ⟨hlen, h⟩ := h
  refine ⟨hlen, ?_⟩
  simp only at h ⊢
  split at h
  · rw [if_pos (by assumption)]
    obtain ⟨k, v, s, x, e, h1, h2, h3, h4, h5⟩ := h
    exact ⟨k, v, s, x, e, h1, h2, h3, hf v (by rw [e]; simp) _ h4, h5⟩
  · rw [if_neg (by assumption)]
    cases hwk : (T id).wk with
    | none =>
      rw [hwk] at h
      obtain ⟨fs, ms, h1, h2, h3, h4⟩ := h
      refine ⟨fs, ms, all2_mono_mem (fun f hfm p hp => ?_) h1, h2, ?_, h4⟩
      · obtain ⟨k1, k2, k3⟩ := hp
        refine ⟨?_, k2, ?_⟩
        · replace k1 : p.1.text = if preserve then f.name else f.jsonName := k1
          split at k1
          · exact .inr k1
          · exact .inl k1
        · rcases k3 with ⟨k3, k4⟩ | ⟨k3, _⟩
          · exact .inl ⟨k3, hf f (h2 f hfm) _ k4⟩
          · cases k3
      · replace h3 : fs.filter (fun f => f.dyn.hasValue m) = (T id).fields.filter (fun f => f.dyn.hasValue m) := h3
        show (fs.filter (fun f => f.dyn.hasValue m)).Perm ((T id).fields.filter (fun f => f.dyn.hasValue m))
        rw [h3]
    | any => rw [hwk] at h; exact h
    | timestamp => rw [hwk] at h; exact h
    | duration => rw [hwk] at h; exact h
    | fieldMask => rw [hwk] at h; exact h
    | value =>
      rw [hwk] at h
      obtain ⟨f, h1, h2, h3⟩ := h
      exact ⟨f, h1, h2, h3.imp (fun x => x) (hf f h1 _)⟩
    | struct =>
      rw [hwk] at h
      obtain ⟨f, h1, h2⟩ := h
      exact ⟨f, h1, hf f (by rw [h1]; simp) _ h2⟩
    | listValue =>
      rw [hwk] at h
      obtain ⟨f, h1, h2⟩ := h
      exact ⟨f, h1, hf f (by rw [h1]; simp) _ h2⟩
    | wrapper =>
      rw [hwk] at h
      obtain ⟨f, h1, h3, h2⟩ := h
      exact ⟨f, h1, h3, hf f (by rw [h1]; simp) _ h2⟩

/-- The form that is written is one of those that are read. -/
theorem form_weaken (hT : ∀ id, (T id).Ok T) (d : Nat) : ∀ id m j, FormAt T G utf8 (writerStyle preserve) d id m j →
    FormAt T G utf8 anyStyle d id m j := by
  induction d with
  | zero => exact fun _ _ _ h => h
  | succ d ih => exact fun _ _ _ h => body_weaken hT ih h

end

end HppProto.Json
