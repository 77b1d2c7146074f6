import Verif.Proofs.Slots

/-!
# C49: the storage of a dynamic message

`layoutFields count fields` (`Verif/Model/Slots.lean`) is the storage layout that the dynamic
message factory computes for a message with `count` oneofs and the given fields: for each field the
slot that holds it and the selector value that marks it as set, and the number of slots.
`Member fields i o` says that field `i` belongs to oneof `o` (`Verif/Proofs/Slots.lean`).
-/

namespace HppProto.Props

/-- Two fields share a slot exactly when they are the same field or members of the same oneof; every
slot lies in the storage of the message, and every slot of the storage is used. -/
theorem C49_share {count : Nat} {fields : List SlotField} {layouts : List SlotLayout} {slots : Nat}
    (indexes : ∀ f ∈ fields, ∀ o, f.oneof = some o → o < count)
    (accepted : layoutFields count fields = some (layouts, slots)) :
    layouts.length = fields.length ∧
    (∀ i j a b, layouts[i]? = some a → layouts[j]? = some b →
      (a.slot = b.slot ↔ i = j ∨ ∃ o, Member fields i o ∧ Member fields j o)) ∧
    ∀ k, k < slots ↔ ∃ a ∈ layouts, a.slot = k := by
  obtain ⟨s, h, rfl⟩ := layoutFields_laid indexes accepted
  refine ⟨h.len, h.share, fun k => ⟨h.full k, ?_⟩⟩
  rintro ⟨a, ha, rfl⟩
  exact h.bound a ha

/-- Which descriptors the factory accepts: those in which the members of every oneof are adjacent,
and no oneof has more than 65534 members. -/
theorem C49_accepts {count : Nat} {fields : List SlotField}
    (indexes : ∀ f ∈ fields, ∀ o, f.oneof = some o → o < count) :
    (∃ r, layoutFields count fields = some r) ↔
      (∀ i j k o, i ≤ j → j ≤ k → Member fields i o → Member fields k o → Member fields j o) ∧
      ∀ o, (fields.filter fun f => f.oneof == some o).length ≤ 65534 := by
  constructor
  · rintro ⟨⟨ls, n⟩, e⟩
    obtain ⟨s, h, _⟩ := layoutFields_laid indexes e
    refine ⟨h.contig, fun o => ?_⟩
    rw [← List.countP_eq_length_filter]
    exact h.cntLe o
  · rintro ⟨h1, h2⟩
    have := (laid_init count).succeeds (fs := fields) indexes (by simpa using h1) (by
      intro o
      have := h2 o
      rw [← List.countP_eq_length_filter] at this
      exact this)
    unfold layoutFields
    cases e : layoutLoop fields (SlotState.init count) 0 with
    | none => exact absurd e this
    | some r => exact ⟨_, rfl⟩

/-- The selector identifies the member.  When the slot of a oneof holds the selector of member `i`,
every member `j` reports `i` as the active field, and of all members only `i` has a value.  The
selector of a member is never 0, which stands for "no member". -/
theorem C49_active {count : Nat} {fields : List SlotField} {layouts : List SlotLayout} {slots : Nat}
    (indexes : ∀ f ∈ fields, ∀ o, f.oneof = some o → o < count)
    (accepted : layoutFields count fields = some (layouts, slots))
    (fits : fields.length ≤ 2 ^ 31)
    {o i j : Nat} {a b : SlotLayout} (hi : Member fields i o) (hj : Member fields j o)
    (ha : layouts[i]? = some a) (hb : layouts[j]? = some b) :
    activeIndex b a.ordinal = (i : Int) ∧
    (slotHasValue false b a.ordinal = true ↔ j = i) ∧
    activeIndex b 0 = -1 ∧ slotHasValue false b 0 = false ∧ a.ordinal < 2 ^ 16 := by
  obtain ⟨s, h, rfl⟩ := layoutFields_laid indexes accepted
  obtain ⟨a1, a2, a3, a4⟩ := h.memb i o a hi ha
  obtain ⟨b1, b2, b3, b4⟩ := h.memb j o b hj hb
  have hr := h.run i j o a b hi hj ha hb
  have hlt := hi.lt
  refine ⟨?_, ?_, by simp [activeIndex], ?_, by omega⟩
  · unfold activeIndex
    have hand : a.ordinal &&& b.mask = a.ordinal := by
      rw [b3, Nat.and_two_pow_sub_one_eq_mod]
      exact Nat.mod_eq_of_lt (by omega)
    rw [if_neg (by omega), hand]
    simp only
    have hidx : (a.ordinal : Int) + b.bias = i := by omega
    rw [hidx, if_neg (by omega)]
  · unfold slotHasValue
    simp only [Bool.false_eq_true, if_false, beq_iff_eq]
    omega
  · unfold slotHasValue
    simp only [Bool.false_eq_true, if_false, beq_eq_false_iff_ne]
    omega

/-- Fields outside a oneof: a singular field has a value exactly when its slot holds the selector 1,
a repeated field when the slot holds a positive number of elements; a set field reports itself as
active. -/
theorem C49_plain {count : Nat} {fields : List SlotField} {layouts : List SlotLayout} {slots : Nat}
    (indexes : ∀ f ∈ fields, ∀ o, f.oneof = some o → o < count)
    (accepted : layoutFields count fields = some (layouts, slots))
    (fits : fields.length ≤ 2 ^ 31)
    {i : Nat} {f : SlotField} {a : SlotLayout} (hf : fields[i]? = some f)
    (ha : layouts[i]? = some a) (plain : f.oneof = none) (word : Nat) :
    (slotHasValue f.repeated a word = true ↔ if f.repeated then 0 < word else word = 1) ∧
    activeIndex a word = if word = 0 then -1 else (i : Int) := by
  obtain ⟨s, h, rfl⟩ := layoutFields_laid indexes accepted
  obtain ⟨h1, h2, h3⟩ := h.plain i f a hf ha plain
  have hlt := (List.getElem?_eq_some_iff.1 hf).1
  constructor
  · unfold slotHasValue
    rw [h1]
    cases f.repeated <;> simp
  · unfold activeIndex
    rw [h2, h3]
    by_cases e : word = 0
    · simp [e]
    · rw [if_neg e, if_neg e, Nat.and_zero]
      simp only
      rw [if_neg (by omega)]
      simp

/-! ## Cases that meet the hypotheses -/

/-- A scalar, a oneof of three members, a repeated field, a second oneof of one member. -/
def exampleSlotFields : List SlotField :=
  [⟨none, false⟩, ⟨some 0, false⟩, ⟨some 0, false⟩, ⟨some 0, false⟩, ⟨none, true⟩,
    ⟨some 1, false⟩]

theorem exampleSlotFields_layout : layoutFields 2 exampleSlotFields = some
    ([⟨0, 1, 0, 0⟩, ⟨1, 2, 2 ^ 32 - 1, -1⟩, ⟨1, 3, 2 ^ 32 - 1, -1⟩, ⟨1, 4, 2 ^ 32 - 1, -1⟩,
      ⟨2, 0, 0, 4⟩, ⟨3, 2, 2 ^ 32 - 1, 3⟩], 4) := by decide +kernel

example : ∀ f ∈ exampleSlotFields, ∀ o, f.oneof = some o → o < 2 := by
  intro f hf o ho
  simp only [exampleSlotFields, List.mem_cons, List.not_mem_nil, or_false] at hf
  rcases hf with rfl | rfl | rfl | rfl | rfl | rfl <;> simp at ho <;> omega

/-- Fields 2 and 3 are members of the first oneof: with field 2 set, field 3 reports field 2. -/
example : Member exampleSlotFields 2 0 ∧ Member exampleSlotFields 3 0 ∧
    activeIndex ⟨1, 4, 2 ^ 32 - 1, -1⟩ 3 = 2 :=
  ⟨⟨_, rfl, rfl⟩, ⟨_, rfl, rfl⟩, by decide +kernel⟩

/-- Members that are not adjacent are rejected. -/
example : layoutFields 1 [⟨some 0, false⟩, ⟨none, false⟩, ⟨some 0, false⟩] = none := by
  decide +kernel

end HppProto.Props
