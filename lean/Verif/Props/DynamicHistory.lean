import Verif.Props.Dynamic
import Verif.Proofs.DynamicHistory

/-!
# C63, C64: every history of calls on a dynamic message

`DynReach T grow id m` (`Verif/Proofs/DynamicHistory.lean`): a sequence of calls of the field API
turns an empty message of type `id` into `m`.  With `grow = False` the sequence does not enlarge a
repeated number field by `resize`.
-/

namespace HppProto.Props

/-- `s`, of type `sid`, is `m` itself or a message held by it at any depth. -/
inductive DynPart (T : DynTypes) (id : Nat) (m : DynMsg) : Nat → DynMsg → Prop
  | self : DynPart T id m id m
  | field {fid n f sid s} : DynPart T id m fid n → f ∈ (T fid).fields → f.repeated = false →
      f.kind.msgType = some sid → f.value n = .msg s → DynPart T id m sid s
  | element {fid n f sid ss s} : DynPart T id m fid n → f ∈ (T fid).fields → f.repeated = true →
      f.kind.msgType = some sid → f.value n = .msgs ss → s ∈ ss → DynPart T id m sid s

theorem DynPart.wf {T : DynTypes} {grow : Prop} (hT : ∀ id, (T id).Ok) {id m sid s}
    (h : DynWF T grow id m) (p : DynPart T id m sid s) : DynWF T grow sid s := by
  induction p with
  | self => exact h
  | field _ hf hr hk hv ih =>
    obtain ⟨hv, hst⟩ := value_msg_storage hr hk hv
    exact ih.sub _ hf (Or.inr hv) _ hk _ (by rw [hst])
  | element _ hf hr hk hv hs ih =>
    rcases value_msgs_storage hr hk hv with ⟨_, e⟩ | ⟨vs, e, e'⟩
    · rw [e] at hs; cases hs
    · rw [e'] at hs
      exact ih.subs _ hf (Or.inl ((hT _).singularMembers _ hf hr)) _ hk _ e _
        (List.mem_of_mem_take hs)

/-- After any history, at any depth, no read of a field through its read-only reference is
undefined: a slot shared by the members of a oneof is never read as the wrong member, and no element
beyond the stored ones is read. -/
theorem C64_defined {T : DynTypes} (hT : ∀ id, (T id).Ok) {grow : Prop} {id : Nat} {m : DynMsg}
    (h : DynReach T grow id m) {sid : Nat} {s : DynMsg} (part : DynPart T id m sid s)
    {f : DynField} (hf : f ∈ (T sid).fields) : f.value s ≠ .undefined :=
  (part.wf hT (h.wf hT)).defined hT hf

/-- After any history, at any depth: at most one member of a oneof has a value, and `has_oneof`
answers whether one has. -/
theorem C64_oneof {T : DynTypes} (hT : ∀ id, (T id).Ok) {grow : Prop} {id : Nat} {m : DynMsg}
    (h : DynReach T grow id m) {sid : Nat} {s : DynMsg} (part : DynPart T id m sid s)
    {f : DynField} (hf : f ∈ (T sid).fields) {o : Nat} (member : f.oneof = some o) :
    (∀ g ∈ (T sid).fields, g.oneof = some o → f.hasValue s = true → g.hasValue s = true → g = f) ∧
    (f.hasOneof s = true ↔ ∃ g ∈ (T sid).fields, g.oneof = some o ∧ g.hasValue s = true) := by
  have hw := part.wf hT (h.wf hT)
  have hD := hT sid
  have hr := (hD.member_explicit hf member).1
  constructor
  · intro g hg hgo hv hv'
    have hrg := (hD.member_explicit hg hgo).1
    have hs : SameOneof f g := ⟨o, member, hgo⟩
    have hslot := hD.slot_of_sameOneof hf hg hs
    rcases hD.same_slot hf hg hslot with e | e
    · exact e.symm
    · exfalso
      apply e.2
      have : g.storage s = f.storage s := by simp [DynField.storage, hslot]
      simp only [DynField.hasValue, slotHasValue, hr, hrg, this, Bool.false_eq_true, if_false,
        beq_iff_eq] at hv hv'
      rw [← hv, ← hv']
  · constructor
    · intro hone
      rcases hw.words f hf hr with e | ⟨g, hg, e, e'⟩
      · simp [DynField.hasOneof, e] at hone
      · have hgo : g.oneof = some o := by
          rcases hD.same_slot hg hf e with h | ⟨⟨o', h1, h2⟩, _⟩
          · rw [h]; exact member
          · rw [member] at h2; cases h2; exact h1
        refine ⟨g, hg, hgo, ?_⟩
        have hrg := (hD.member_explicit hg hgo).1
        have : g.storage s = f.storage s := by simp [DynField.storage, e]
        simp [DynField.hasValue, slotHasValue, hrg, this, e']
    · rintro ⟨g, hg, hgo, hv⟩
      have hrg := (hD.member_explicit hg hgo).1
      have hslot := hD.slot_of_sameOneof hf hg ⟨o, member, hgo⟩
      have : f.storage s = g.storage s := by simp [DynField.storage, hslot]
      have h2 := hD.ordinal_member hg hgo
      simp only [DynField.hasValue, slotHasValue, hrg, Bool.false_eq_true, if_false,
        beq_iff_eq] at hv
      simp only [DynField.hasOneof, this, hv, bne_iff_ne, ne_eq]
      omega

/-- When no call enlarges repeated numbers by `resize`, no element of a repeated number field is
ever indeterminate. -/
theorem C64_determinate_partial {T : DynTypes} (hT : ∀ id, (T id).Ok) {id : Nat} {m : DynMsg}
    (h : DynReach T False id m) {sid : Nat} {s : DynMsg} (part : DynPart T id m sid s)
    {f : DynField} (hf : f ∈ (T sid).fields) (repeated : f.repeated = true)
    {vs : List (Option (BitVec 64))} (hv : f.value s = .nums vs) : none ∉ vs := by
  have hw := part.wf hT (h.wf hT)
  have hfit := hw.fits f hf (Or.inl ((hT sid).singularMembers f hf repeated))
  obtain ⟨_, e⟩ := elements_nums repeated hv
  rw [← e]
  intro hm
  obtain ⟨ws, e', hm⟩ := numElems_mem hm
  unfold DynField.fits at hfit
  rw [if_pos repeated, e'] at hfit
  rcases hfit.2.2 with h | h
  · exact h
  · exact h hm

/-- A call of `resize` on a repeated number field makes elements that nothing wrote. -/
theorem C64_indeterminate : DynReach exampleTypes True 0 (exList.resizeNums 2 exampleDyn.empty) ∧
    exList.value (exList.resizeNums 2 exampleDyn.empty) = .nums [none, none] :=
  ⟨.step .empty (.resizeNums (by simp [exampleTypes, exampleDyn]) rfl rfl 2 (Or.inl trivial)), rfl⟩

/-! ## Reads -/

/-- The full claim of C63: a read of an enum through its mutable reference leaves every field as it
was. -/
def C63_statement : Prop :=
  ∀ (T : DynTypes), (∀ id, (T id).Ok) → ∀ id m, DynReach T False id m → ∀ f ∈ (T id).fields,
    f.repeated = false → f.kind.isNum = true → ∀ g ∈ (T id).fields,
      g.hasValue (f.touchEnum m) = g.hasValue m ∧ g.value (f.touchEnum m) = g.value m

/-- The claim holds when the enum is present or outside a oneof. -/
theorem C63_read_partial {D : DynDesc} (hD : D.Ok) {m : DynMsg} (hm : m.length = D.slots)
    {f : DynField} (hf : f ∈ D.fields) (singular : f.repeated = false)
    (number : f.kind.isNum = true) (own : f.oneof = none ∨ f.hasValue m = true) :
    ∀ g ∈ D.fields,
      g.hasValue (f.touchEnum m) = g.hasValue m ∧ g.value (f.touchEnum m) = g.value m := by
  intro g hg
  unfold DynField.touchEnum
  split
  · rename_i hc
    have hc' : f.explicit = true ∧ f.hasValue m = false := by
      cases e : f.hasValue m <;> cases e' : f.explicit <;> simp_all
    have ho : f.oneof = none := by
      rcases own with h | h
      · exact h
      · rw [hc'.2] at h; cases h
    by_cases e : g = f
    · subst e
      have hst := storage_store_self (m := m) (by rw [hm]; exact hD.slot_lt hf)
        ((g.storage m).1, Cell.num g.dflt.bits)
      have hv : g.hasValue (g.store m ((g.storage m).1, Cell.num g.dflt.bits)) = g.hasValue m := by
        simp [DynField.hasValue, hst]
      refine ⟨hv, ?_⟩
      rw [value_unset singular hc'.1 (by rw [hv, hc'.2]), value_unset singular hc'.1 hc'.2]
    · exact othersKept_store hD hf ho m _ g hg e
  · exact ⟨rfl, rfl⟩

/-- Reading the absent enum of a oneof whose string is set destroys the string: its next read is
undefined (the pointer was overwritten with the enum's default). -/
theorem C63_disagreement :
    DynReach exampleTypes False 0 (exName.setStr [1, 2] exampleDyn.empty) ∧
    exName.value (exName.setStr [1, 2] exampleDyn.empty) = .str [1, 2] ∧
    exName.hasValue (exMode.touchEnum (exName.setStr [1, 2] exampleDyn.empty)) = true ∧
    exName.value (exMode.touchEnum (exName.setStr [1, 2] exampleDyn.empty)) = .undefined :=
  ⟨.step .empty (.setStr (by simp [exampleTypes, exampleDyn]) rfl rfl _), rfl, rfl, rfl⟩

theorem C63_statement_false : ¬ C63_statement := by
  intro h
  have := (h exampleTypes exampleTypes_ok 0 _ C63_disagreement.1 exMode
    (by simp [exampleTypes, exampleDyn]) rfl rfl exName (by simp [exampleTypes, exampleDyn])).2
  rw [C63_disagreement.2.2.2, C63_disagreement.2.1] at this
  cases this

/-! ## A history that meets the hypotheses -/

/-- Emplace a message in the oneof, set a number inside it, append two messages and a number, set the
number in the second message. -/
def exampleHistory : DynMsg :=
  exSubs.updateAt 1 (fun _ => exCount.setNum 9 (exampleTypes 1).empty)
    (exList.pushNum 3 (exSubs.pushMsg exampleTypes (fun s => s)
      (exSubs.pushMsg exampleTypes (fun s => s)
        (exSub.update (fun _ => exCount.setNum 5 (exampleTypes 1).empty)
          (exSub.emplace exampleTypes exampleDyn.empty)))))

theorem exampleHistory_reach : DynReach exampleTypes False 0 exampleHistory := by
  have mem : ∀ f ∈ [exSub, exList, exSubs], f ∈ (exampleTypes 0).fields := by
    intro f hf
    simp only [List.mem_cons, List.not_mem_nil, or_false] at hf
    rcases hf with rfl | rfl | rfl <;> simp [exampleTypes, exampleDyn]
  have cnt : exCount ∈ (exampleTypes 1).fields := by simp [exampleTypes]
  have h1 : DynReach exampleTypes False 0 (exSub.emplace exampleTypes exampleDyn.empty) :=
    .step .empty (.emplace (mem _ (by simp)) rfl)
  have h2 := h1.step (.within (mem exSub (by simp)) rfl rfl rfl (.setNum cnt rfl rfl 5))
  have h3 := h2.step (.pushMsg (mem exSubs (by simp)) rfl)
  have h4 := h3.step (.pushMsg (mem exSubs (by simp)) rfl)
  have h5 := h4.step (.pushNum (mem exList (by simp)) rfl rfl 3)
  exact h5.step (.withinAt (mem exSubs (by simp)) rfl rfl rfl 1 rfl (.setNum cnt rfl rfl 9))

/-- Its second message holds the number 9, and its message in the oneof the number 5. -/
example : DynPart exampleTypes 0 exampleHistory 1 (exCount.setNum 9 (exampleTypes 1).empty) ∧
    DynPart exampleTypes 0 exampleHistory 1 (exCount.setNum 5 (exampleTypes 1).empty) ∧
    exList.value exampleHistory = .nums [some 3] :=
  ⟨.element (f := exSubs) .self (by simp [exampleTypes, exampleDyn]) rfl rfl rfl
      (.tail _ (.head _)),
    .field (f := exSub) .self (by simp [exampleTypes, exampleDyn]) rfl rfl rfl, rfl⟩

end HppProto.Props
