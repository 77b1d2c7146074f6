import Verif.Spec.StaticType
import Verif.Proofs.Dynamic

/-! Helper lemmas about the generated type of a dynamic one. -/

namespace HppProto

theorem groupFields_flatten (fs : List DynField) : (groupFields fs).flatten = fs := by
  induction fs with
  | nil => rfl
  | cons f fs ih =>
    unfold groupFields
    split
    · next g gs rest e =>
      rw [e] at ih
      split <;> simpa using ih
    · simpa using ih

/-- The groups: never empty, and more than one field only for a oneof. -/
theorem groupFields_shape (fs : List DynField) : ∀ g ∈ groupFields fs,
    (∃ f, g = [f]) ∨ (∃ o, ∀ f ∈ g, f.oneof = some o) := by
  induction fs with
  | nil => simp [groupFields]
  | cons f fs ih =>
    unfold groupFields
    split
    · next g gs rest e =>
      rw [e] at ih
      split
      · next h =>
        intro x hx
        rcases List.mem_cons.1 hx with rfl | hx
        · right
          obtain ⟨h1, h2⟩ := h
          obtain ⟨o, ho⟩ := Option.ne_none_iff_exists'.1 h1
          refine ⟨o, fun y hy => ?_⟩
          rcases List.mem_cons.1 hy with rfl | hy
          · exact ho
          · rcases ih _ (List.mem_cons_self ..) with ⟨z, hz⟩ | ⟨o', ho'⟩
            · rw [hz] at hy
              cases (List.mem_singleton.1 hy)
              have : g = y := by simpa using (List.cons.inj hz).1
              rw [← this, ← h2, ho]
            · rw [ho' y hy, ← ho' g (List.mem_cons_self ..), ← h2, ho]
        · exact ih x (List.mem_cons_of_mem _ hx)
      · intro x hx
        rcases List.mem_cons.1 hx with rfl | hx
        · exact Or.inl ⟨_, rfl⟩
        · exact ih x hx
    · intro x hx
      rcases List.mem_cons.1 hx with rfl | hx
      · exact Or.inl ⟨_, rfl⟩
      · exact ih x hx

theorem groupFields_ne (fs : List DynField) : [] ∉ groupFields fs := by
  induction fs with
  | nil => simp [groupFields]
  | cons f fs ih =>
    unfold groupFields
    split
    · next g gs rest e =>
      rw [e] at ih
      split <;> simp_all
    · simp_all

theorem mem_of_group {fs g : List DynField} {f : DynField} (hg : g ∈ groupFields fs) (hf : f ∈ g) :
    f ∈ fs := by
  rw [← groupFields_flatten fs]
  exact List.mem_flatten.2 ⟨g, hg, hf⟩

/-- Is the first field a member of the oneof? -/
def headIn (o : Nat) : List DynField → Bool
  | f :: _ => f.oneof == some o
  | [] => false

theorem groupFields_head (f : DynField) (fs : List DynField) :
    ∃ g rest, groupFields (f :: fs) = (f :: g) :: rest := by
  rw [groupFields]
  split
  · split
    · exact ⟨_, _, rfl⟩
    · exact ⟨_, _, rfl⟩
  · exact ⟨_, _, rfl⟩

theorem groupFields_cons (f : DynField) (fs : List DynField) :
    (groupFields (f :: fs) = [f] :: groupFields fs ∧ ∀ o, f.oneof = some o → headIn o fs = false) ∨
    (∃ o g rest, f.oneof = some o ∧ headIn o fs = true ∧ groupFields fs = g :: rest ∧
      groupFields (f :: fs) = (f :: g) :: rest) := by
  cases fs with
  | nil => left; exact ⟨rfl, by simp [headIn]⟩
  | cons a as =>
    obtain ⟨g, rest, e⟩ := groupFields_head a as
    rw [groupFields, e]
    dsimp only
    by_cases h : f.oneof ≠ none ∧ f.oneof = a.oneof
    · right
      rw [if_pos h]
      obtain ⟨o, ho⟩ := Option.ne_none_iff_exists'.1 h.1
      exact ⟨o, a :: g, rest, ho, by simp [headIn, ← h.2, ho], rfl, rfl⟩
    · left
      rw [if_neg h]
      refine ⟨rfl, fun o ho => ?_⟩
      cases hh : headIn o (a :: as) with
      | false => rfl
      | true =>
        exfalso
        refine h ⟨by simp [ho], ?_⟩
        rw [ho]
        exact (by simpa only [headIn, beq_iff_eq] using hh : a.oneof = some o).symm

/-- The group number is the slot number. -/
theorem groups_laid (count : Nat) : ∀ (fs : List DynField) (s s' : SlotState) (i : Nat),
    s.oneofCount = count → (s.prevOneof ≠ count → 0 < s.curSlot) →
    (∀ f ∈ fs, ∀ o, f.oneof = some o → o < count) →
    layoutLoop (fs.map DynField.slotField) s i = some (fs.map DynField.layout, s') →
    ∀ k g, (groupFields fs)[k]? = some g → ∀ f ∈ g,
      f.layout.slot = (if headIn s.prevOneof fs then s.curSlot - 1 else s.curSlot) + k := by
  intro fs
  induction fs with
  | nil => intro s s' i _ _ _ _ k g h; simp [groupFields] at h
  | cons f fs ih =>
    intro s s' i hc hp hr h k g hk x hx
    simp only [List.map_cons, layoutLoop_cons] at h
    cases hst : layoutStep f.slotField s i with
    | none => simp [hst] at h
    | some p =>
      obtain ⟨l, s1⟩ := p
      simp only [hst] at h
      cases hl : layoutLoop (fs.map DynField.slotField) s1 (i + 1) with
      | none => simp [hl] at h
      | some q =>
        obtain ⟨ls, s2⟩ := q
        simp only [hl, Option.some.injEq, Prod.mk.injEq, List.cons.injEq] at h
        obtain ⟨⟨rfl, rfl⟩, rfl⟩ := h
        have hr' : ∀ f ∈ fs, ∀ o, f.oneof = some o → o < count :=
          fun f hf => hr f (List.mem_cons_of_mem _ hf)
        have tail := ih s1 s2 (i + 1)
        -- the step
        have step : s1.oneofCount = count ∧
            f.layout.slot = (if headIn s.prevOneof (f :: fs) then s.curSlot - 1 else s.curSlot) ∧
            s1.curSlot = f.layout.slot + 1 ∧ s1.prevOneof = f.oneof.getD count := by
          unfold layoutStep at hst
          cases ho : f.oneof with
          | none =>
            have : f.slotField.oneof = none := ho
            rw [this] at hst
            simp only [setupPlain, Option.some.injEq, Prod.mk.injEq] at hst
            obtain ⟨h1, rfl⟩ := hst
            refine ⟨hc, ?_, ?_, ?_⟩
            · rw [← h1]; simp [headIn, ho]
            · rw [← h1]
            · simp [hc]
          | some o =>
            have hlt := hr f (List.mem_cons_self ..) o ho
            have : f.slotField.oneof = some o := ho
            rw [this] at hst
            simp only [setupOneof] at hst
            by_cases hpo : s.prevOneof ≠ o
            · rw [if_pos hpo] at hst
              split at hst
              · cases hst
              · next e =>
                split at e
                · cases e
                · simp only [Option.some.injEq, Prod.mk.injEq] at e
                  obtain ⟨rfl, rfl⟩ := e
                  split at hst
                  · cases hst
                  · simp only [Option.some.injEq, Prod.mk.injEq] at hst
                    obtain ⟨h1, rfl⟩ := hst
                    rw [← h1]
                    refine ⟨hc, ?_, rfl, by simp⟩
                    have : (some o == some s.prevOneof) = false := by
                      simp; exact fun e => hpo e.symm
                    simp [headIn, ho, this]
            · rw [if_neg hpo] at hst
              have hpo : s.prevOneof = o := by simpa using hpo
              simp only at hst
              split at hst
              · cases hst
              · simp only [Option.some.injEq, Prod.mk.injEq] at hst
                obtain ⟨h1, rfl⟩ := hst
                have := hp (by omega)
                rw [← h1]
                refine ⟨hc, by simp [headIn, ho, hpo], ?_, by simp⟩
                show s.curSlot = s.curSlot - 1 + 1
                omega
        obtain ⟨hc1, hslot, hcur, hprev⟩ := step
        have tail := tail hc1 (by intro _; omega) hr' hl
        rcases groupFields_cons f fs with ⟨e, hne⟩ | ⟨o, g0, rest, ho, hin, e0, e⟩
        · rw [e] at hk
          have hfalse : headIn s1.prevOneof fs = false := by
            rw [hprev]
            cases ho : f.oneof with
            | none =>
              cases fs with
              | nil => rfl
              | cons b bs =>
                simp only [headIn, Option.getD_none, beq_eq_false_iff_ne, ne_eq]
                intro hb
                have := hr' b (List.mem_cons_self ..) _ hb
                omega
            | some o => exact hne o ho
          cases k with
          | zero =>
            simp only [List.getElem?_cons_zero, Option.some.injEq] at hk
            subst hk
            cases List.mem_singleton.1 hx
            rw [hslot]; omega
          | succ k =>
            rw [List.getElem?_cons_succ] at hk
            have := tail k g hk x hx
            rw [hfalse, if_neg (by simp)] at this
            omega
        · rw [e] at hk
          have htrue : headIn s1.prevOneof fs = true := by rw [hprev, ho]; exact hin
          rw [htrue] at tail
          simp only [if_true] at tail
          cases k with
          | zero =>
            simp only [List.getElem?_cons_zero, Option.some.injEq] at hk
            subst hk
            rcases List.mem_cons.1 hx with rfl | hx
            · rw [hslot]; omega
            · have := tail 0 g0 (by rw [e0]; rfl) x hx
              omega
          | succ k =>
            rw [List.getElem?_cons_succ] at hk
            have := tail (k + 1) g (by rw [e0]; exact hk) x hx
            omega

/-- The group number is the slot number. -/
theorem DynDesc.Ok.group_slot {D : DynDesc} (hD : D.Ok) {k : Nat} {g : List DynField}
    (hg : (groupFields D.fields)[k]? = some g) {f : DynField} (hf : f ∈ g) : f.layout.slot = k := by
  obtain ⟨count, hr, e⟩ := hD.laid
  unfold layoutFields at e
  cases h : layoutLoop (D.fields.map DynField.slotField) (SlotState.init count) 0 with
  | none => simp [h] at e
  | some p =>
    obtain ⟨ls, s⟩ := p
    simp only [h, Option.map_some, Option.some.injEq, Prod.mk.injEq] at e
    obtain ⟨rfl, _⟩ := e
    have := groups_laid count D.fields _ _ _ rfl (by simp [SlotState.init]) hr h k g hg f hf
    rw [this]
    have : headIn (SlotState.init count).prevOneof D.fields = false := by
      cases hf : D.fields with
      | nil => rfl
      | cons b bs =>
        simp only [headIn, SlotState.init, beq_eq_false_iff_ne, ne_eq]
        intro hb
        have := hr b (by simp [hf]) _ hb
        omega
    rw [this]
    simp [SlotState.init]

end HppProto
