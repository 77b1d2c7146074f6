import Verif.Props.DynamicHistory
import Verif.Proofs.DynamicClone

/-!
# C62: copies of dynamic messages

`cloneMsg T d id dst src` (`Verif/Model/Dynamic.lean`) is `clone_from`: `dst` after copying `src`
into it, when the messages inside `src` are nested less than `d` deep.  `SameValues`
(`Verif/Proofs/DynamicClone.lean`) compares two messages field by field and at every depth.
-/

namespace HppProto.Props

/-- The full claim: a copy has the fields of the original, present or absent as there. -/
def C62_statement : Prop :=
  ∀ (T : DynTypes), (∀ id, (T id).Ok) → ∀ id src, DynReach T False id src →
    ∃ d r, cloneMsg T d id (T id).empty src = some r ∧
      ∀ f ∈ (T id).fields, f.hasValue r = f.hasValue src ∧ SameShape (f.value r) (f.value src)

/-- When no oneof has two members, copying any message built by the API over any other ends, all
fields of the copy can be read, and they hold the values of the original at every depth.  Presence is
the same except for singular numbers, which are present in the copy (`C62_disagreement`). -/
theorem C62_clone_partial {T : DynTypes} (hT : ∀ id, (T id).Ok)
    (single : ∀ id, ∀ f ∈ (T id).fields, ∀ g ∈ (T id).fields, SameOneof f g → f = g)
    {grow : Prop} {id : Nat} {src dst : DynMsg} (hsrc : DynReach T grow id src)
    (hdst : DynReach T grow id dst) :
    ∃ d r, (∀ d', d ≤ d' → cloneMsg T d' id dst src = some r) ∧ SameValues T id r src ∧
      ∀ sid s, DynPart T id r sid s → ∀ f ∈ (T sid).fields, f.value s ≠ .undefined := by
  obtain ⟨d, r, h1, h2, h3⟩ := clones_all hT single (hsrc.wf hT) dst (hdst.wf hT)
  exact ⟨d, r, h1, h3, fun sid s p f hf => (p.wf hT h2).defined hT hf⟩

/-- A copy of a well-formed message is again one to which all theorems on histories apply: it can be
copied in turn, with the same values. -/
theorem C62_clone_twice_partial {T : DynTypes} (hT : ∀ id, (T id).Ok)
    (single : ∀ id, ∀ f ∈ (T id).fields, ∀ g ∈ (T id).fields, SameOneof f g → f = g)
    {grow : Prop} {id : Nat} {src : DynMsg} (hsrc : DynReach T grow id src) :
    ∃ d r r', cloneMsg T d id (T id).empty src = some r ∧
      cloneMsg T d id (T id).empty r = some r' ∧ SameValues T id r src ∧ SameValues T id r' r := by
  obtain ⟨d, r, h1, h2, h3⟩ := clones_all hT single (hsrc.wf hT) _ (DynWF.empty hT id)
  obtain ⟨d2, r', g1, g2, g3⟩ := clones_all hT single h2 _ (DynWF.empty hT id)
  exact ⟨max d d2, r, r', h1 _ (by omega), g1 _ (by omega), h3, g3⟩

/-! ## What goes wrong -/

/-- `oneof { string name = 2; Mode mode = 3; } int32 count = 1;`. -/
def tornTypes : DynTypes
  | 0 => ⟨[{ exName with layout := ⟨0, 2, 2 ^ 32 - 1, -2⟩ },
           { exMode with layout := ⟨0, 3, 2 ^ 32 - 1, -2⟩ },
           { exCount with layout := ⟨1, 1, 0, 2⟩ }], 2, false⟩
  | _ => ⟨[], 0, false⟩

/-- The factory accepts it. -/
theorem tornTypes_ok : ∀ id, (tornTypes id).Ok
  | 0 => by
    refine ⟨⟨1, ?_, by decide +kernel⟩, ?_, ?_⟩ <;>
      · intro f hf
        simp only [tornTypes, List.mem_cons, List.not_mem_nil, or_false] at hf
        rcases hf with rfl | rfl | rfl <;>
          simp [exName, exMode, exCount, DynField.explicit, DynField.presence, presenceFor, Val.bits,
            Val.str]
  | _ + 1 => exampleTypes_ok 2

/-- Three ways in which a copy differs.  A message with a oneof of two or more members has fewer
slots than fields, and the last fields are not copied.  A number that was absent is present in the
copy.  The string of a oneof that also has an enum cannot be read in the copy: part of its pointer
was overwritten. -/
theorem C62_disagreement (d : Nat) :
    (exParts.value (exParts.setStrs [[1]] exampleDyn.empty) = .strs [[1]] ∧
      ∃ r, cloneMsg exampleTypes (d + 1) 0 exampleDyn.empty
        (exParts.setStrs [[1]] exampleDyn.empty) = some r ∧ exParts.value r = .strs []) ∧
    (exCount.hasValue (exampleTypes 1).empty = false ∧
      ∃ r, cloneMsg exampleTypes (d + 1) 1 (exampleTypes 1).empty (exampleTypes 1).empty = some r ∧
        exCount.hasValue r = true) ∧
    (∃ name ∈ (tornTypes 0).fields,
      name.value (name.setStr [1, 2] (tornTypes 0).empty) = .str [1, 2] ∧
      ∃ r, cloneMsg tornTypes (d + 1) 0 (tornTypes 0).empty
        (name.setStr [1, 2] (tornTypes 0).empty) = some r ∧
        name.hasValue r = true ∧ name.value r = .undefined) :=
  ⟨⟨rfl, _, rfl, rfl⟩, ⟨rfl, _, rfl, rfl⟩, _, List.mem_cons_self .., rfl, _, rfl, rfl, rfl⟩

theorem C62_statement_false : ¬ C62_statement := by
  intro h
  obtain ⟨d, r, h1, h2⟩ := h exampleTypes exampleTypes_ok 1 _ .empty
  cases d with
  | zero => cases h1
  | succ d =>
    obtain ⟨e, r', e1, e2⟩ := (C62_disagreement d).2.1
    rw [h1] at e1
    cases e1
    have := (h2 exCount (by simp [exampleTypes])).1
    rw [e, e2] at this
    cases this

/-! ## A case that meets the hypotheses -/

/-- A list of `Sub` messages, a repeated number and a oneof of one member. -/
def cloneTypes : DynTypes
  | 0 => ⟨[{ exSubs with layout := ⟨0, 0, 0, 0⟩ }, { exList with layout := ⟨1, 0, 0, 1⟩ },
           { exSub with layout := ⟨2, 2, 2 ^ 32 - 1, 0⟩ }], 3, false⟩
  | 1 => ⟨[exCount], 1, false⟩
  | _ => ⟨[], 0, false⟩

theorem cloneTypes_ok : ∀ id, (cloneTypes id).Ok
  | 0 => by
    refine ⟨⟨1, ?_, by decide +kernel⟩, ?_, ?_⟩ <;>
      · intro f hf
        simp only [cloneTypes, List.mem_cons, List.not_mem_nil, or_false] at hf
        rcases hf with rfl | rfl | rfl <;>
          simp [exSub, exList, exSubs, DynField.explicit, DynField.presence, presenceFor, Val.bits,
            Val.str]
  | 1 => exampleTypes_ok 1
  | _ + 2 => exampleTypes_ok 2

example : ∀ id, ∀ f ∈ (cloneTypes id).fields, ∀ g ∈ (cloneTypes id).fields,
    SameOneof f g → f = g
  | 0 => by
    intro f hf g hg ⟨o, h1, h2⟩
    simp only [cloneTypes, List.mem_cons, List.not_mem_nil, or_false] at hf hg
    rcases hf with rfl | rfl | rfl <;> rcases hg with rfl | rfl | rfl <;>
      simp_all [exSub, exList, exSubs]
  | 1 => by
    intro f hf g hg _
    simp only [cloneTypes, List.mem_cons, List.not_mem_nil, or_false] at hf hg
    rw [hf, hg]
  | _ + 2 => by
    intro f hf
    simp [cloneTypes] at hf

end HppProto.Props
