import Verif.Proofs.MetaSlots

/-! # Classes satisfy what the theorems on reader and writer ask of message types -/

namespace HppProto
open Spec

namespace Meta

section
variable {S : Setup} {p : Pool} {d : MsgDesc} {L : List FieldDesc} {fresh : Nat → Msg} {w : Bool} {f : FieldDesc}

theorem presenceOpt_eq (V : View p d L) (hA : Accepted p) (hd : d ∈ p.messages) (hf : f ∈ L) :
    presenceOpt S p d f = (cppOptional S p d f || f.bits.required || f.proto.oneofIndex.isSome) := by
  unfold presenceOpt
  rw [V.noExtendee hA hd hf]
  simp

theorem required_repeated (V : View p d L) (hA : Accepted p) (hd : d ∈ p.messages) (hf : f ∈ L)
    (h : f.proto.label = 3) : f.bits.required = false := by
  have := hA.repeated d hd _ (V.proto_mem f hf) h
  rw [← V.features f hf] at this
  rw [V.bits_required hf]
  simp [fieldBits, h, this]

theorem cppOptional_label (V : View p d L) (hf : f ∈ L) (h : f.proto.label ≠ 1) : cppOptional S p d f = false := by
  have hp := V.presence f hf
  unfold cppOptional
  split
  · rfl
  · next he =>
    have he : d.proto.mapEntry = false := by simpa using he
    rw [he, Bool.false_or] at hp
    split
    · rw [hp]; simp [fieldBits, h]
    · simp [h]

theorem cppOptional_message (V : View p d L) (hf : f ∈ L) (he : d.proto.mapEntry = false) (h : f.proto.label = 1)
    (ht : f.proto.type = 10 ∨ f.proto.type = 11) : cppOptional S p d f = true := by
  have hp := V.presence f hf
  rw [he, Bool.false_or] at hp
  unfold cppOptional
  rw [he, if_neg (by simp)]
  split
  · rw [hp]
    rcases ht with ht | ht <;> simp [fieldBits, h, ht]
  · rcases ht with ht | ht <;> simp [h, ht]

/-- A plain member without presence is an `optional` scalar of the schema. -/
theorem plain_implicit (V : View p d L) (hA : Accepted p) (hd : d ∈ p.messages) (hf : f ∈ L)
    (he : d.proto.mapEntry = false) (ho : f.proto.oneofIndex = none) {init : Option Val}
    (hh : holder S p d f = .plain init) (hp : presenceOpt S p d f = false) :
    f.proto.label = 1 ∧ f.proto.type ≠ 10 ∧ f.proto.type ≠ 11 ∧ cppOptional S p d f = false ∧ f.bits.required = false ∧
      emitClosed S p d f = false ∧ f.bits.packed = false ∧ f.bits.delimited = false := by
  rw [presenceOpt_eq V hA hd hf] at hp
  simp only [Bool.or_eq_false_iff] at hp
  obtain ⟨⟨hp1, hp2⟩, _⟩ := hp
  have hok := (V.ok hf).label
  have h3 : f.proto.label ≠ 3 := by
    intro h
    unfold holder at hh
    rw [if_pos h] at hh
    split at hh <;> cases hh
  have h1 : f.proto.label = 1 := by
    have := hp2
    rw [V.bits_required hf] at this
    simp only [fieldBits, Bool.or_eq_false_iff, beq_eq_false_iff_ne] at this
    have := this.1
    omega
  have hm : ¬ (f.proto.type = 10 ∨ f.proto.type = 11) := by
    intro ht
    rw [cppOptional_message V hf he h1 ht] at hp1
    cases hp1
  have hm1 : f.proto.type ≠ 10 := fun e => hm (.inl e)
  have hm2 : f.proto.type ≠ 11 := fun e => hm (.inr e)
  refine ⟨h1, hm1, hm2, hp1, hp2, ?_, ?_, ?_⟩
  · unfold emitClosed
    rw [V.noExtendee hA hd hf, he, ho, hp1, h1]
    simp
  · rw [V.bits_packed hf]; simp [fieldBits, h1]
  · rw [V.bits_delimited hf]; simp [fieldBits, hm1, hm2]

theorem defaultOf_none (h : S.dflt d.fullName f.proto.number = none) (ht : f.proto.type ≠ 14) : defaultOf S p d f = none := by
  unfold defaultOf
  rw [h, enumOf_none ht]
  simp

/-- The option reaches the field, as the generator tests it. -/
theorem namedBy_iff (scopes : List (List Byte)) (full : List Byte) : namedBy scopes full = true ↔ Reached scopes full := by
  unfold namedBy Reached
  rw [List.any_eq_true]
  constructor
  · rintro ⟨s, hs, h⟩
    exact ⟨s, hs, List.isPrefixOf_iff_prefix.1 h⟩
  · rintro ⟨s, hs, h⟩
    exact ⟨s, hs, List.isPrefixOf_iff_prefix.2 h⟩

/-- A string with a default, when the option reaches it, is held as an optional. -/
theorem string_optional (V : View p d L) (hA : Accepted p) (hd : d ∈ p.messages) (hD : DefaultsGiven S p)
    (hs : StringsReached S p) (hf : f ∈ L) (he : d.proto.mapEntry = false) (ho : f.proto.oneofIndex = none)
    (ht : f.proto.type = 9 ∨ f.proto.type = 12) (h1 : f.proto.label = 1) (hr : f.bits.required = false)
    (hv : (S.dflt d.fullName f.proto.number).isSome) : cppOptional S p d f = true := by
  have hm := V.proto_mem f hf
  have hreach := (namedBy_iff _ _).2 (hs d hd _ hm ht h1 ho hv)
  have hp := V.presence f hf
  rw [he, Bool.false_or] at hp
  unfold cppOptional
  rw [he, if_neg (by simp)]
  split
  · rw [hp]
    have h2 := (hD d hd _ hm hv).1
    rw [← V.features f hf] at h2
    rw [V.bits_required hf] at hr
    have hk := hA.presence d hd _ hm
    rw [← V.features f hf] at hk
    simp only [List.mem_cons, List.not_mem_nil, or_false] at hk
    simp only [fieldBits, Bool.or_eq_false_iff, beq_eq_false_iff_ne] at hr
    obtain ⟨_, h2⟩ := h2
    simp only [required] at h2
    simp only [fieldBits, h1, ho, beq_self_eq_true, Bool.true_and, Bool.or_eq_true, beq_iff_eq, Option.isSome_none,
      Bool.false_eq_true, or_false]
    simp only [ho, Option.isSome_none, Bool.false_eq_true, false_or] at h2
    have : f.proto.type ≠ 10 ∧ f.proto.type ≠ 11 := by omega
    rcases h2 with h2 | h2 | h2 | h2 | h2
    · exact absurd h2 this.1
    · exact absurd h2 this.2
    · exact .inl (.inl (.inr h2))
    · exact absurd h2 (fun h => h.elim hr.1 hr.2)
    · rcases hk with hk | hk | hk
      · exact .inl (.inr hk)
      · exact absurd hk h2
      · exact absurd hk hr.2
  · rw [hreach]; simp [h1]

theorem valueKind_scalar (V : View p d L) (hf : f ∈ L) (h1 : f.proto.type ≠ 10) (h2 : f.proto.type ≠ 11) :
    ∃ sc, kindAt S p d f = .scalar sc ∧
      (zeroOf fresh (kindAt S p d f) = if f.proto.type = 9 ∨ f.proto.type = 12 then .bytes [] else .num 0) := by
  unfold kindAt
  rcases type_cases (V.ok hf).type with h | h | h | h | h | h | h | h | h | h | h | h | h | h | h | h | h | h <;>
    first
    | exact absurd h h1
    | exact absurd h h2
    | (simp only [cppType, h, valueKind]
       exact ⟨_, rfl, by simp [zeroOf]⟩)

/-- How a field is held, when the option `proto2_explicit_presence` is not used. -/
theorem card_rule (hS : S.explicit = [b!"."]) (V : View p d L) (hA : Accepted p) (hD : DefaultsGiven S p)
    (hN : (p.messages.map (·.fullName)).Nodup) (hd : d ∈ p.messages) (he : d.proto.mapEntry = false) (hf : f ∈ L)
    (ho : f.proto.oneofIndex = none)
    (hx : ¬ (f.proto.packed = some false ∧ f.features.repeatedEncoding = 1)) :
    ∃ card, slotOf S p fresh w (fieldEntry S p d f) =
        .field (BitVec.ofInt 32 f.proto.number) (kindAt S p d f) card ∧
      CardRule p f.proto (under d.features f.proto.features) card := by
  have hm := V.proto_mem f hf
  have hfe := V.features f hf
  rw [← hfe]
  refine ⟨_, rfl, ?_⟩
  have hmap := V.mapEntry_iff hf hN
  have hopt := cppOptional_default hS V hA hd he hf
  have hlab := (V.ok hf).label
  have hkp := hA.presence d hd _ hm
  rw [← hfe] at hkp
  simp only [List.mem_cons, List.not_mem_nil, or_false] at hkp
  have h3o := hA.proto3 d hd _ hm
  rw [← hfe] at h3o
  have h3 : f.proto.proto3Optional = false := by
    cases h : f.proto.proto3Optional with
    | false => rfl
    | true => have := (h3o h).1; rw [ho] at this; simp at this
  have hreq : f.bits.required = (f.proto.label == 2 || f.features.presence == 3) := V.bits_required hf
  have hrep := hA.repeated d hd _ hm
  rw [← hfe] at hrep
  have hmaps := hA.maps d hd _ hm
  have hisMap : isMap p f.proto ↔ f.bits.mapEntry = true := by
    rw [hmap]
    constructor
    · rintro ⟨a, m, b⟩; exact ⟨.inr a, m, b⟩
    · rintro ⟨a, m, b, c, e⟩; exact ⟨(hmaps m b e c a).2, m, b, c, e⟩
  show CardRule p f.proto f.features (match holder S p d f with | _ => _)
  cases hb : f.bits.mapEntry with
  | true =>
    have : holder S p d f = .map := by unfold holder; rw [if_pos hb]
    rw [this]
    exact hisMap.2 hb
  | false =>
    have hnm : ¬ isMap p f.proto := fun h => by rw [hisMap, hb] at h; cases h
    by_cases hl3 : f.proto.label = 3
    · have : holder S p d f = .repeated := by unfold holder; rw [if_neg (by simp [hb]), if_pos hl3]
      rw [this]
      refine ⟨hl3, hnm, ?_⟩
      have hpo : presenceOpt S p d f = false := by
        rw [presenceOpt_eq V hA hd hf, cppOptional_label V hf (by omega), required_repeated V hA hd hf hl3, ho]
        rfl
      show (metaOptions S p d f).packed = true ↔ _
      simp only [metaOptions, hpo, V.bits_packed hf, fieldBits, packed, packable, hl3]
      cases hpk : f.proto.packed with
      | none => simp; omega
      | some b =>
        cases b with
        | true => simp; omega
        | false =>
          have : f.features.repeatedEncoding ≠ 1 := fun e => hx ⟨hpk, e⟩
          simp [this]
    · have hpres : cppOptional S p d f = true → hasPresence False f.proto f.features := by
        intro h
        rw [hopt] at h
        refine ⟨hl3, ?_⟩
        simp only [fieldBits, h3, ho, Bool.and_eq_true, Bool.or_eq_true, beq_iff_eq, Option.isSome_none, Bool.false_eq_true,
          or_false] at h
        rcases h.2 with ((h | h) | h) | h
        · exact .inl h
        · exact .inr (.inl h)
        · exact .inr (.inr (.inr (.inr (.inr (.inr (by omega))))))
        · omega
      have hoptreq : cppOptional S p d f = true → required f.proto f.features → f.proto.type = 10 ∨ f.proto.type = 11 := by
        intro h hr
        rw [hopt] at h
        simp only [fieldBits, h3, ho, Bool.and_eq_true, Bool.or_eq_true, beq_iff_eq, Option.isSome_none, Bool.false_eq_true,
          or_false] at h
        rcases hr with hr | hr
        · omega
        · rcases h.2 with ((h | h) | h) | h
          · exact .inl h
          · exact .inr h
          · omega
          · omega
      by_cases ht : f.proto.type = 10 ∨ f.proto.type = 11
      · by_cases hrc : (S.recursive d.fullName f.proto.number || cppOptional S p d f) = true
        · have : holder S p d f = .optional := by
            unfold holder; rw [if_neg (by simp [hb]), if_neg hl3, if_pos ht, if_pos hrc]
          rw [this]
          exact ⟨hl3, ⟨hl3, by rcases ht with h | h <;> simp [h]⟩, fun _ => ht⟩
        · have : holder S p d f = .plain none := by
            unfold holder; rw [if_neg (by simp [hb]), if_neg hl3, if_pos ht, if_neg hrc]
          have hco : cppOptional S p d f = false := by
            cases h : cppOptional S p d f with
            | false => rfl
            | true => rw [h] at hrc; simp at hrc
          have hl2 : f.proto.label = 2 := by
            by_cases hl1 : f.proto.label = 1
            · rw [cppOptional_message V hf he hl1 ht] at hco; cases hco
            · omega
          have hpo : presenceOpt S p d f = true := by
            rw [presenceOpt_eq V hA hd hf, hreq, hl2]; simp
          rw [this]
          show CardRule p f.proto f.features (if (metaOptions S p d f).presence = true then _ else _)
          rw [if_pos (show (metaOptions S p d f).presence = true from hpo)]
          exact ⟨hl3, .inl hl2⟩
      · cases hco : cppOptional S p d f with
        | true =>
          have : holder S p d f = .optional := by
            unfold holder; rw [if_neg (by simp [hb]), if_neg hl3, if_neg ht, if_pos hco]
          rw [this]
          exact ⟨hl3, hpres hco, hoptreq hco⟩
        | false =>
          have ht1 : f.proto.type ≠ 10 := fun e => ht (.inl e)
          have ht2 : f.proto.type ≠ 11 := fun e => ht (.inr e)
          have hh : holder S p d f = .plain (if f.proto.type = 9 ∨ f.proto.type = 12 then none else defaultOf S p d f) := by
            unfold holder
            rw [if_neg (by simp [hb]), if_neg hl3, if_neg ht, if_neg (by simp [hco])]
            split <;> rfl
          by_cases hr : f.bits.required = true
          · have hpo : (metaOptions S p d f).presence = true := by
              show presenceOpt S p d f = true
              rw [presenceOpt_eq V hA hd hf, hr]; simp
            rw [hh]
            simp only
            rw [if_pos hpo]
            refine ⟨hl3, ?_⟩
            rw [hreq] at hr
            simpa [required] using hr
          · have hr : f.bits.required = false := by simpa using hr
            have hpo : (metaOptions S p d f).presence = false := by
              show presenceOpt S p d f = false
              rw [presenceOpt_eq V hA hd hf, hr, hco, ho]; simp
            have hnr : ¬ required f.proto f.features := by
              rw [hreq] at hr
              simpa [required] using hr
            have hl1 : f.proto.label = 1 := by
              have : f.proto.label ≠ 2 := fun e => hnr (.inl e)
              omega
            have hnp : ¬ hasPresence False f.proto f.features := by
              rintro ⟨_, h⟩
              rcases h with h | h | h | h | h | h | h
              · exact ht1 h
              · exact ht2 h
              · exact h
              · rw [ho] at h; simp at h
              · rw [h3] at h; cases h
              · exact hnr h
              · have : f.features.presence = 1 := by
                  have : f.features.presence ≠ 3 := fun e => hnr (.inr e)
                  omega
                rw [hopt] at hco
                simp [fieldBits, hl1, this] at hco
            have hdf : S.dflt d.fullName f.proto.number = none := by
              cases hv : S.dflt d.fullName f.proto.number with
              | none => rfl
              | some v =>
                have := (hD d hd _ hm (by rw [hv]; rfl)).1
                rw [← hfe] at this
                exact absurd this hnp
            obtain ⟨sc, hsc, hz⟩ := valueKind_scalar (S := S) (fresh := fresh) V hf ht1 ht2
            have hdo : defaultOf S p d f = none ∨ (f.proto.type = 14 ∧ defaultOf S p d f = some (.num 0)) := by
              by_cases h14 : f.proto.type = 14
              · refine .inr ⟨h14, ?_⟩
                obtain ⟨i, e, hi, hie, hn⟩ := (V.resolved f hf).enum h14
                have hem := List.mem_of_getElem? hie
                have hop : e.features.enumType ≠ 2 := by
                  intro h2
                  have := hA.closed d hd _ hm e hem h14 hn he hl3 h2
                  rw [← hfe] at this
                  exact hnp this
                have h0 := (hA.enums e hem).2.2 hop
                unfold defaultOf
                rw [hdf, hl1]
                simp only [beq_self_eq_true, if_true]
                unfold enumOf
                rw [if_pos h14, hi]
                simp [hie, firstNumber, h0]
              · exact .inl (defaultOf_none hdf h14)
            have hmd : metaDefault S p d f = none ∨ (f.proto.type = 14 ∧ metaDefault S p d f = some (.num 0)) := by
              unfold metaDefault
              split
              · exact hdo
              · exact .inl rfl
            rw [hh]
            simp only
            rw [if_neg (by rw [hpo]; simp)]
            refine ⟨hl3, hnp, ?_⟩
            rw [← hz]
            show (if w then (metaDefault S p d f).getD (zeroOf fresh (kindAt S p d f)) else
              (if f.proto.type = 9 ∨ f.proto.type = 12 then none else defaultOf S p d f).getD (zeroOf fresh (kindAt S p d f))) = _
            have key : ∀ o : Option Val, (o = none ∨ (f.proto.type = 14 ∧ o = some (.num 0))) →
                o.getD (zeroOf fresh (kindAt S p d f)) = zeroOf fresh (kindAt S p d f) := by
              intro o ho
              rcases ho with rfl | ⟨h14, rfl⟩
              · rfl
              · rw [hz]; simp [h14]
            cases w with
            | true => exact key _ hmd
            | false =>
              rw [if_neg (by simp)]
              split
              · rfl
              · exact key _ hdo

end

end Meta
end HppProto
