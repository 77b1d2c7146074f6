import Verif.Model.Dynamic
import Verif.Proofs.Slots

/-! Helper lemmas for `Verif/Props/Dynamic.lean`. -/

namespace HppProto

/-- A message descriptor as the factory accepts it: the layouts are those of the slot assignment, no
repeated field is in a oneof, and fields without presence have the zero default. -/
structure DynDesc.Ok (D : DynDesc) : Prop where
  laid : ∃ count, (∀ f ∈ D.fields, ∀ o, f.oneof = some o → o < count) ∧
    layoutFields count (D.fields.map DynField.slotField) =
      some (D.fields.map DynField.layout, D.slots)
  singularMembers : ∀ f ∈ D.fields, f.repeated = true → f.oneof = none
  zeroDefaults : ∀ f ∈ D.fields, f.explicit = false → f.dflt.bits = 0 ∧ f.dflt.str = []

/-- Both fields are members of one oneof. -/
def SameOneof (f g : DynField) : Prop := ∃ o, f.oneof = some o ∧ g.oneof = some o

section
variable {D : DynDesc} (hD : D.Ok)
include hD

theorem DynDesc.Ok.laidOut : ∃ count s,
    Laid count (D.fields.map DynField.slotField) (D.fields.map DynField.layout) s ∧
      s.curSlot = D.slots := by
  obtain ⟨count, hr, e⟩ := hD.laid
  obtain ⟨s, h, e'⟩ := layoutFields_laid (by
    intro f hf o ho
    obtain ⟨g, hg, rfl⟩ := List.mem_map.1 hf
    exact hr g hg o ho) e
  exact ⟨count, s, h, e'⟩

theorem DynDesc.Ok.slot_lt {f : DynField} (hf : f ∈ D.fields) : f.layout.slot < D.slots := by
  obtain ⟨_, s, h, e⟩ := hD.laidOut
  rw [← e]
  exact h.bound _ (List.mem_map.2 ⟨f, hf, rfl⟩)

theorem DynDesc.Ok.same_slot {f g : DynField} (hf : f ∈ D.fields) (hg : g ∈ D.fields)
    (hs : f.layout.slot = g.layout.slot) :
    f = g ∨ (SameOneof f g ∧ f.layout.ordinal ≠ g.layout.ordinal) := by
  obtain ⟨_, s, h, _⟩ := hD.laidOut
  obtain ⟨i, hi, rfl⟩ := List.getElem_of_mem hf
  obtain ⟨j, hj, rfl⟩ := List.getElem_of_mem hg
  have hli : (D.fields.map DynField.layout)[i]? = some D.fields[i].layout := by simp [hi]
  have hlj : (D.fields.map DynField.layout)[j]? = some D.fields[j].layout := by simp [hj]
  have hmi : ∀ o, Member (D.fields.map DynField.slotField) i o ↔ D.fields[i].oneof = some o := by
    intro o
    constructor
    · rintro ⟨f, hf, e⟩
      rw [List.getElem?_map, List.getElem?_eq_getElem hi] at hf
      cases hf
      exact e
    · intro e
      exact ⟨D.fields[i].slotField, by simp [hi], e⟩
  have hmj : ∀ o, Member (D.fields.map DynField.slotField) j o ↔ D.fields[j].oneof = some o := by
    intro o
    constructor
    · rintro ⟨f, hf, e⟩
      rw [List.getElem?_map, List.getElem?_eq_getElem hj] at hf
      cases hf
      exact e
    · intro e
      exact ⟨D.fields[j].slotField, by simp [hj], e⟩
  by_cases hij : i = j
  · subst hij; exact Or.inl rfl
  · rcases (h.share i j _ _ hli hlj).1 hs with e | ⟨o, h1, h2⟩
    · exact absurd e hij
    · right
      refine ⟨⟨o, (hmi o).1 h1, (hmj o).1 h2⟩, fun e => hij ?_⟩
      have := h.run i j o _ _ h1 h2 hli hlj
      omega

theorem DynDesc.Ok.slot_of_sameOneof {f g : DynField} (hf : f ∈ D.fields) (hg : g ∈ D.fields)
    (hs : SameOneof f g) : f.layout.slot = g.layout.slot := by
  obtain ⟨_, s, h, _⟩ := hD.laidOut
  obtain ⟨o, ho, ho'⟩ := hs
  obtain ⟨i, hi, rfl⟩ := List.getElem_of_mem hf
  obtain ⟨j, hj, rfl⟩ := List.getElem_of_mem hg
  have hli : (D.fields.map DynField.layout)[i]? = some D.fields[i].layout := by simp [hi]
  have hlj : (D.fields.map DynField.layout)[j]? = some D.fields[j].layout := by simp [hj]
  refine (h.share i j _ _ hli hlj).2 (Or.inr ⟨o, ⟨D.fields[i].slotField, by simp [hi], ho⟩,
    ⟨D.fields[j].slotField, by simp [hj], ho'⟩⟩)

theorem DynDesc.Ok.ordinal_plain {f : DynField} (hf : f ∈ D.fields) (ho : f.oneof = none) :
    f.layout.ordinal = if f.repeated then 0 else 1 := by
  obtain ⟨_, s, h, _⟩ := hD.laidOut
  obtain ⟨i, hi, rfl⟩ := List.getElem_of_mem hf
  have hli : (D.fields.map DynField.layout)[i]? = some D.fields[i].layout := by simp [hi]
  have := h.plain i D.fields[i].slotField _ (by simp [hi]) hli ho
  exact this.1

theorem DynDesc.Ok.ordinal_member {f : DynField} (hf : f ∈ D.fields) {o : Nat}
    (ho : f.oneof = some o) : 2 ≤ f.layout.ordinal := by
  obtain ⟨_, s, h, _⟩ := hD.laidOut
  obtain ⟨i, hi, rfl⟩ := List.getElem_of_mem hf
  have hli : (D.fields.map DynField.layout)[i]? = some D.fields[i].layout := by simp [hi]
  exact (h.memb i o _ ⟨D.fields[i].slotField, by simp [hi], ho⟩ hli).1

theorem DynDesc.Ok.ordinal_pos {f : DynField} (hf : f ∈ D.fields) (hr : f.repeated = false) :
    0 < f.layout.ordinal := by
  cases ho : f.oneof with
  | none => rw [hD.ordinal_plain hf ho, hr]; simp
  | some o => have := hD.ordinal_member hf ho; omega

theorem DynDesc.Ok.member_explicit {f : DynField} (hf : f ∈ D.fields) {o : Nat}
    (ho : f.oneof = some o) : f.repeated = false ∧ f.explicit = true := by
  have hr : f.repeated = false := by
    cases h : f.repeated with
    | false => rfl
    | true => have := hD.singularMembers f hf h; rw [this] at ho; cases ho
  refine ⟨hr, ?_⟩
  simp [DynField.explicit, DynField.presence, presenceFor, hr, ho]

end

/-! ## Storage -/

theorem storage_store_self {f : DynField} {m : DynMsg} (h : f.layout.slot < m.length)
    (s : Nat × Cell) : f.storage (f.store m s) = s := by
  simp [DynField.storage, DynField.store, List.getD_eq_getElem?_getD, h]

theorem storage_store_other {f g : DynField} {m : DynMsg} (h : f.layout.slot ≠ g.layout.slot)
    (s : Nat × Cell) : g.storage (f.store m s) = g.storage m := by
  simp [DynField.storage, DynField.store, List.getD_eq_getElem?_getD, List.getElem?_set_ne h]

theorem storage_store_slot {f g : DynField} {m : DynMsg} (h : f.layout.slot < m.length)
    (e : f.layout.slot = g.layout.slot) (s : Nat × Cell) : g.storage (f.store m s) = s := by
  have : g.storage (f.store m s) = f.storage (f.store m s) := by
    simp [DynField.storage, e]
  rw [this, storage_store_self h]

@[simp] theorem store_length (f : DynField) (m : DynMsg) (s : Nat × Cell) :
    (f.store m s).length = m.length := by simp [DynField.store]

theorem hasValue_congr {f : DynField} {m m' : DynMsg} (h : f.storage m' = f.storage m) :
    f.hasValue m' = f.hasValue m := by simp [DynField.hasValue, h]

theorem value_congr {f : DynField} {m m' : DynMsg} (h : f.storage m' = f.storage m) :
    f.value m' = f.value m := by
  unfold DynField.value DynField.elements DynField.numValue DynField.strValue DynField.msgValue
    DynField.hasValue
  rw [h]

/-- What an absent field reads as. -/
def DynField.unset (f : DynField) : Reading :=
  if f.repeated then
    if f.kind.isNum then .nums [] else if f.kind.isStr then .strs [] else .msgs []
  else if f.kind.isNum then .num f.dflt.bits
  else if f.kind.isStr then .str f.dflt.str
  else .absent

theorem value_unset {f : DynField} {m : DynMsg} (hr : f.repeated = false) (he : f.explicit = true)
    (hv : f.hasValue m = false) : f.value m = f.unset := by
  simp [DynField.value, DynField.unset, DynField.numValue, DynField.strValue, DynField.msgValue,
    hr, he, hv]

/-- Storing a word that is the ordinal of no sibling leaves the siblings absent. -/
theorem sibling_absent {D : DynDesc} (hD : D.Ok) {f g : DynField} (hf : f ∈ D.fields)
    (hg : g ∈ D.fields) {m : DynMsg} (hm : m.length = D.slots) (hso : SameOneof f g) {w : Nat}
    (hw : w ≠ g.layout.ordinal) (c : Cell) :
    g.hasValue (f.store m (w, c)) = false ∧ g.value (f.store m (w, c)) = g.unset := by
  obtain ⟨o, ho, ho'⟩ := id hso
  obtain ⟨hr, he⟩ := hD.member_explicit hg ho'
  have hst := storage_store_slot (m := m) (by rw [hm]; exact hD.slot_lt hf)
    (hD.slot_of_sameOneof hf hg hso) (w, c)
  have hv : g.hasValue (f.store m (w, c)) = false := by
    simp [DynField.hasValue, hst, slotHasValue, hr, hw]
  exact ⟨hv, value_unset hr he hv⟩

theorem other_kept {D : DynDesc} (hD : D.Ok) {f g : DynField} (hf : f ∈ D.fields)
    (hg : g ∈ D.fields) (hne : g ≠ f) (hso : ¬ SameOneof f g) (m : DynMsg) (s : Nat × Cell) :
    g.storage (f.store m s) = g.storage m := by
  refine storage_store_other (fun e => ?_) s
  rcases hD.same_slot hf hg e with h | h
  · exact hne h.symm
  · exact hso h.1

/-! ## Elements of repeated fields -/

theorem isStr_of_isNum {k : Kind} (h : k.isNum = true) : k.isStr = false := by
  unfold Kind.isNum at h
  unfold Kind.isStr
  split at h <;> simp_all

theorem msgType_plain {k : Kind} {id : Nat} (h : k.msgType = some id) :
    k.isNum = false ∧ k.isStr = false := by
  unfold Kind.msgType at h
  split at h <;> simp_all [Kind.isNum, Kind.isStr]

theorem elements_nums {f : DynField} {m : DynMsg} (hr : f.repeated = true)
    {vs : List (Option (BitVec 64))} (h : f.value m = .nums vs) :
    (f.storage m).1 = vs.length ∧ numElems (f.storage m) = vs := by
  unfold DynField.value at h
  rw [if_pos hr] at h
  unfold DynField.elements at h
  unfold numElems
  dsimp only at h
  generalize f.storage m = s at h ⊢
  obtain ⟨w, c⟩ := s
  cases hn : f.kind.isNum <;> cases hs : f.kind.isStr <;> cases c <;>
    simp only [hn, hs, if_true, if_false, Bool.false_eq_true, reduceCtorEq] at h
  all_goals (split at h <;> simp at h)
  all_goals (obtain rfl := h; simp; try omega)

theorem elements_strs {f : DynField} {m : DynMsg} (hr : f.repeated = true)
    {vs : List (List Byte)} (h : f.value m = .strs vs) :
    (f.storage m).1 = vs.length ∧ strElems (f.storage m) = vs := by
  unfold DynField.value at h
  rw [if_pos hr] at h
  unfold DynField.elements at h
  unfold strElems
  dsimp only at h
  generalize f.storage m = s at h ⊢
  obtain ⟨w, c⟩ := s
  cases hn : f.kind.isNum <;> cases hs : f.kind.isStr <;> cases c <;>
    simp only [hn, hs, if_true, if_false, Bool.false_eq_true, reduceCtorEq] at h
  all_goals (split at h <;> simp at h)
  all_goals (obtain rfl := h; simp; try omega)

theorem elements_msgs {f : DynField} {m : DynMsg} (hr : f.repeated = true)
    {vs : List DynMsg} (h : f.value m = .msgs vs) :
    (f.storage m).1 = vs.length ∧ msgElems (f.storage m) = vs := by
  unfold DynField.value at h
  rw [if_pos hr] at h
  unfold DynField.elements at h
  unfold msgElems
  dsimp only at h
  generalize f.storage m = s at h ⊢
  obtain ⟨w, c⟩ := s
  cases hn : f.kind.isNum <;> cases hs : f.kind.isStr <;> cases c <;>
    simp only [hn, hs, if_true, if_false, Bool.false_eq_true, reduceCtorEq] at h
  all_goals (split at h <;> simp at h)
  all_goals (obtain rfl := h; simp; try omega)

theorem value_nums {f : DynField} {m : DynMsg} (hr : f.repeated = true) (hk : f.kind.isNum = true)
    {vs : List (Option (BitVec 64))} (h : f.storage m = (vs.length, .nums vs)) :
    f.value m = .nums vs ∧ f.hasValue m = !vs.isEmpty := by
  unfold DynField.value DynField.elements DynField.hasValue slotHasValue
  rw [h]
  cases vs <;> simp [hr, hk]

theorem value_strs {f : DynField} {m : DynMsg} (hr : f.repeated = true) (hk : f.kind.isStr = true)
    {vs : List (List Byte)} (h : f.storage m = (vs.length, .strs vs)) :
    f.value m = .strs vs ∧ f.hasValue m = !vs.isEmpty := by
  have hn : f.kind.isNum = false := by
    cases e : f.kind.isNum with
    | false => rfl
    | true => rw [isStr_of_isNum e] at hk; cases hk
  unfold DynField.value DynField.elements DynField.hasValue slotHasValue
  rw [h]
  cases vs <;> simp [hr, hk, hn]

theorem value_msgs {f : DynField} {m : DynMsg} (hr : f.repeated = true) {id : Nat}
    (hk : f.kind.msgType = some id) {vs : List DynMsg} (h : f.storage m = (vs.length, .msgs vs)) :
    f.value m = .msgs vs ∧ f.hasValue m = !vs.isEmpty := by
  obtain ⟨h1, h2⟩ := msgType_plain hk
  unfold DynField.value DynField.elements DynField.hasValue slotHasValue
  rw [h]
  cases vs <;> simp [hr, h1, h2]

theorem resizeWith_length {α} (x : α) (n : Nat) (l : List α) : (resizeWith x n l).length = n := by
  unfold resizeWith
  simp
  omega

theorem resizeWith_succ {α} (x : α) (l : List α) : resizeWith x (l.length + 1) l = l ++ [x] := by
  unfold resizeWith
  rw [List.take_of_length_le (by omega)]
  simp [show l.length + 1 - l.length = 1 by omega]

theorem modify_snoc {α} (g : α → α) (x : α) (l : List α) :
    (l ++ [x]).modify l.length g = l ++ [g x] := by
  induction l with
  | nil => rfl
  | cons a l ih => simpa using ih

theorem store_store (f : DynField) (m : DynMsg) (s t : Nat × Cell) :
    f.store (f.store m s) t = f.store m t := by
  simp [DynField.store]

theorem pushNum_eq {f : DynField} {m : DynMsg} (hl : f.layout.slot < m.length)
    (hr : f.repeated = true) {vs : List (Option (BitVec 64))} (h : f.value m = .nums vs)
    (v : BitVec 64) :
    f.pushNum v m = f.store m ((vs ++ [some v]).length, .nums (vs ++ [some v])) := by
  obtain ⟨h1, h2⟩ := elements_nums hr h
  unfold DynField.pushNum DynField.resizeNums DynField.putNum
  rw [h1, h2, storage_store_self hl, resizeWith_succ]
  simp [store_store]

theorem pushStr_eq {f : DynField} {m : DynMsg} (hl : f.layout.slot < m.length)
    (hr : f.repeated = true) {vs : List (List Byte)} (h : f.value m = .strs vs)
    (bs : List Byte) :
    f.pushStr bs m = f.store m ((vs ++ [bs]).length, .strs (vs ++ [bs])) := by
  obtain ⟨h1, h2⟩ := elements_strs hr h
  unfold DynField.pushStr DynField.resizeStrs DynField.putStr
  rw [h1, h2, storage_store_self hl, resizeWith_succ]
  simp [store_store]

theorem pushMsg_eq {T : DynTypes} {f : DynField} {m : DynMsg} (hl : f.layout.slot < m.length)
    (hr : f.repeated = true) {id : Nat} (hk : f.kind.msgType = some id) {vs : List DynMsg}
    (h : f.value m = .msgs vs) (g : DynMsg → DynMsg) :
    f.pushMsg T g m = f.store m ((vs ++ [g (T id).empty]).length, .msgs (vs ++ [g (T id).empty])) := by
  obtain ⟨h1, h2⟩ := elements_msgs hr h
  unfold DynField.pushMsg DynField.resizeMsgs DynField.updateAt
  rw [hk]
  dsimp only
  rw [h1, h2, storage_store_self hl, resizeWith_succ]
  simp [store_store, modify_snoc]

end HppProto
