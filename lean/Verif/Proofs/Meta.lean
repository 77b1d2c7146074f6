import Verif.Proofs.MetaView

/-! # The class of a message follows the rules -/

namespace HppProto
open Spec

namespace Meta

theorem type_cases {t : Int} (h : 1 ≤ t ∧ t ≤ 18) :
    t = 1 ∨ t = 2 ∨ t = 3 ∨ t = 4 ∨ t = 5 ∨ t = 6 ∨ t = 7 ∨ t = 8 ∨ t = 9 ∨ t = 10 ∨ t = 11 ∨ t = 12 ∨
      t = 13 ∨ t = 14 ∨ t = 15 ∨ t = 16 ∨ t = 17 ∨ t = 18 := by omega

section
variable {p : Pool} {d : MsgDesc} {L : List FieldDesc} {f : FieldDesc}

theorem View.ok (V : View p d L) (hf : f ∈ L) : FieldOk f.proto := V.fields.each _ (V.proto_mem f hf)

theorem View.bits_packed (V : View p d L) (hf : f ∈ L) : f.bits.packed = (fieldBits f.proto f.features).packed :=
  (congrArg FieldBits.packed (V.own f hf) :)

theorem View.bits_utf8 (V : View p d L) (hf : f ∈ L) : f.bits.utf8 = (fieldBits f.proto f.features).utf8 :=
  (congrArg FieldBits.utf8 (V.own f hf) :)

theorem View.bits_delimited (V : View p d L) (hf : f ∈ L) : f.bits.delimited = (fieldBits f.proto f.features).delimited :=
  (congrArg FieldBits.delimited (V.own f hf) :)

theorem View.bits_required (V : View p d L) (hf : f ∈ L) : f.bits.required = (fieldBits f.proto f.features).required :=
  (congrArg FieldBits.required (V.own f hf) :)

theorem enumOf_none (h : f.proto.type ≠ 14) : enumOf p f = none := by
  unfold enumOf; rw [if_neg h]

theorem isClosedEnum_false (h : f.proto.type ≠ 14) : isClosedEnum p f = false := by
  unfold isClosedEnum; rw [enumOf_none h]

theorem namedBy_dot (full : List Byte) : namedBy [b!"."] full = true := by
  unfold namedBy
  simp only [List.any_cons, List.any_nil, Bool.or_false]
  show List.isPrefixOf [] full = true
  simp

/-- `is_cpp_optional` when the option `proto2_explicit_presence` is not used. -/
theorem cppOptional_default {S : Setup} (hS : S.explicit = [b!"."]) (V : View p d L) (hA : Accepted p) (hd : d ∈ p.messages)
    (he : d.proto.mapEntry = false) (hf : f ∈ L) :
    cppOptional S p d f = (fieldBits f.proto f.features).presence := by
  have hp := V.presence f hf
  rw [he, Bool.false_or] at hp
  unfold cppOptional
  rw [he, if_neg (by simp), ← hp]
  split
  · rfl
  · next h =>
    simp only [hS, not_or, Decidable.not_not] at h
    have h2 := h.1
    unfold syntaxOf at h2
    rw [hp, hS, namedBy_dot]
    have : (under d.features f.proto.features).presence = 1 := by
      cases hfile : p.files[d.file]? with
      | none => rw [hfile] at h2; simp at h2
      | some file =>
        rw [hfile] at h2
        simp only at h2
        refine hA.proto2 d hd file hfile ?_ f.proto (V.proto_mem f hf)
        by_cases h3 : file.proto.syntaxName = []
        · exact .inl h3
        · rw [if_neg h3] at h2; exact .inr h2
    rw [← V.features f hf] at this
    simp [fieldBits, this]

theorem View.noExtendee (V : View p d L) (hA : Accepted p) (hd : d ∈ p.messages) (hf : f ∈ L) : f.extendee = none :=
  (V.resolved f hf).no_extendee (hA.extendee d hd _ (V.proto_mem f hf))

theorem View.mapEntry_iff (V : View p d L) (hf : f ∈ L) (hN : (p.messages.map (·.fullName)).Nodup) :
    f.bits.mapEntry = true ↔ (f.proto.type = 10 ∨ f.proto.type = 11) ∧
      ∃ m ∈ p.messages, f.proto.typeName = b!"." ++ m.fullName ∧ m.proto.mapEntry = true := by
  have R := V.resolved f hf
  constructor
  · intro h
    by_cases ht : f.proto.type = 10 ∨ f.proto.type = 11
    · obtain ⟨i, m, _, hm, hn, hb⟩ := R.message ht
      exact ⟨ht, m, List.mem_of_getElem? hm, hn, by rw [← hb]; exact h⟩
    · rw [R.other (fun e => ht (.inl e)) (fun e => ht (.inr e))] at h
      cases h
  · rintro ⟨ht, m, hm, hn, hb⟩
    obtain ⟨i, m', _, hm', hn', hb'⟩ := R.message ht
    rw [hb']
    obtain ⟨k, hk⟩ := List.mem_iff_getElem?.1 hm
    have e : m'.fullName = m.fullName := by
      rw [hn] at hn'
      exact (List.append_cancel_left hn').symm
    have := nodup_map_get hN hm' hk e
    subst this
    rw [hm'] at hk
    cases hk
    exact hb

/-- Whether a closed enum is checked, when the option is not used. -/
theorem emitClosed_default {S : Setup} (hS : S.explicit = [b!"."]) (V : View p d L) (hA : Accepted p) (hd : d ∈ p.messages) (hf : f ∈ L)
    (hx : ¬ (f.proto.label = 1 ∧ f.features.presence = 3)) : emitClosed S p d f = isClosedEnum p f := by
  unfold emitClosed
  cases hc : isClosedEnum p f with
  | false => rfl
  | true =>
    rw [Bool.true_and, Bool.not_eq_true']
    cases he : d.proto.mapEntry with
    | true => simp
    | false =>
      rw [cppOptional_default hS V hA hd he hf]
      cases hl : f.proto.label == 1 with
      | false => simp
      | true =>
        cases ho : f.proto.oneofIndex.isNone with
        | false => simp
        | true =>
          have ht : f.proto.type = 14 := by
            by_cases h : f.proto.type = 14
            · exact h
            · rw [isClosedEnum_false h] at hc; cases hc
          have hp : hasPresence False f.proto (under d.features f.proto.features) := by
            obtain ⟨i, e, hi, he', hn⟩ := (V.resolved f hf).enum ht
            refine hA.closed d hd _ (V.proto_mem f hf) e (List.mem_of_getElem? he') ht hn he ?_ ?_
            · have := eq_of_beq hl; omega
            · unfold isClosedEnum enumOf at hc
              rw [if_pos ht, hi] at hc
              simpa [he'] using hc
          rw [← V.features f hf] at hp
          have h1 := eq_of_beq hl
          have hfb : (fieldBits f.proto f.features).presence = true := by
            obtain ⟨_, hp⟩ := hp
            have hx2 : f.features.presence ≠ 3 := fun e => hx ⟨h1, e⟩
            have hk := hA.presence d hd _ (V.proto_mem f hf)
            rw [← V.features f hf] at hk
            simp only [List.mem_cons, List.not_mem_nil, or_false] at hk
            have ho' : f.proto.oneofIndex = none := by simpa using ho
            simp only [fieldBits, h1, ht, ho', required] at hp ⊢
            simp at hp ⊢
            rcases hp with hp | hp | hp
            · exact .inl (.inl hp)
            · exact absurd hp hx2
            · rcases hk with hk | hk | hk
              · exact .inl (.inr hk)
              · exact absurd hk hp
              · exact absurd hk hx2
          rw [hfb]
          simp

/-- The kind of value is the one of the rules. -/
theorem kind_rule {S : Setup} (V : View p d L) (hf : f ∈ L)
    (hg : f.proto.type = 11 → f.features.messageEncoding = 2 → f.bits.mapEntry = false ∧ d.proto.mapEntry = false)
    (hc : emitClosed S p d f = isClosedEnum p f) :
    KindRule p d f.proto (under d.features f.proto.features) (valueKind p (cppType f) (metaOptions S p d f)) := by
  rw [← V.features f hf]
  have R := V.resolved f hf
  have hu : (metaOptions S p d f).utf8 = (f.proto.type == 9 && f.features.utf8 == 2) := by
    simp only [metaOptions, V.bits_utf8 hf, V.bits_delimited hf, fieldBits]
    cases h : f.proto.type == 9 with
    | false => simp
    | true => simp [eq_of_beq h]
  have hgr : (metaOptions S p d f).group = (f.proto.type == 10 || (f.proto.type == 11 && f.features.messageEncoding == 2)) := by
    simp only [metaOptions, V.bits_delimited hf, fieldBits]
  have hcl : f.proto.type = 14 → (metaOptions S p d f).closed = isClosedEnum p f := by
    intro h
    simp only [metaOptions, V.bits_delimited hf, V.bits_utf8 hf, fieldBits, h, hc]
    simp
  rcases type_cases (V.ok hf).type with h | h | h | h | h | h | h | h | h | h | h | h | h | h | h | h | h | h <;>
    simp only [cppType, h, valueKind] <;> simp (config := { decide := true }) only [if_true, if_false]
  any_goals first
    | exact h
    | exact Or.inl (And.intro rfl h)
    | exact Or.inr (And.intro rfl (Or.inl h))
    | exact Or.inr (And.intro rfl (Or.inr h))
  · rw [hu, h]
    refine .inl ⟨h, ?_⟩
    simp
  · obtain ⟨i, m, hi, hm, hn, _⟩ := R.message (.inl h)
    rw [hgr, h, hi]
    exact ⟨m, hm, hn, .inl h⟩
  · obtain ⟨i, m, hi, hm, hn, hb⟩ := R.message (.inr h)
    rw [hgr, h, hi]
    by_cases he : f.features.messageEncoding = 2
    · rw [he]
      obtain ⟨g1, g2⟩ := hg h he
      refine ⟨m, hm, hn, .inr ⟨h, he, ?_, ?_⟩⟩
      · rw [← hb, g1]; simp
      · rw [g2]; simp
    · rw [if_neg (by simp [he])]
      refine ⟨m, hm, hn, h, ?_⟩
      rintro (e | ⟨_, e, _⟩)
      · omega
      · exact he e
  · rw [hu, h]
    exact .inr ⟨h, rfl⟩
  · obtain ⟨i, e, hi, he, hn⟩ := R.enum h
    refine ⟨h, e, List.mem_of_getElem? he, hn, ?_⟩
    have hce : isClosedEnum p f = (e.features.enumType == 2) := by
      unfold isClosedEnum enumOf
      rw [if_pos h, hi]
      simp [he]
    rw [hcl h, hce, hi]
    by_cases h2 : e.features.enumType = 2
    · rw [if_pos h2]
      refine ⟨enumNumbers p i, by simp [h2], fun v => ?_⟩
      unfold enumNumbers
      rw [he]
      simp [eq_comm]
    · rw [if_neg h2]
      simp [h2]

end

end Meta
end HppProto
