import Verif.Proofs.Dynamic

/-!
# C60, C61: writing and clearing fields of dynamic messages

Fields are read through `hasValue` (the API's `has_value()`) and `value` (the API's `value()`,
`undefined` standing for a read of storage that holds something else).  `DynDesc.Ok`
(`Verif/Proofs/Dynamic.lean`) says that the descriptor is one the factory accepts, `SameOneof` that
two fields are members of one oneof, and `unset` is what an absent field reads as: its default, no
elements, or `absent`.
-/

namespace HppProto.Props

/-- What a write to field `f` does to the other fields: members of the same oneof become absent, all
others keep presence and value. -/
def OthersFollow (D : DynDesc) (f : DynField) (m m' : DynMsg) : Prop :=
  ∀ g ∈ D.fields, g ≠ f →
    (SameOneof f g → g.hasValue m' = false ∧ g.value m' = g.unset) ∧
    (¬ SameOneof f g → g.hasValue m' = g.hasValue m ∧ g.value m' = g.value m)

theorem othersFollow_store {D : DynDesc} (hD : D.Ok) {f : DynField} (hf : f ∈ D.fields)
    {m : DynMsg} (hm : m.length = D.slots) (c : Cell) :
    OthersFollow D f m (f.store m (f.layout.ordinal, c)) := by
  intro g hg hne
  refine ⟨fun hs => ?_, fun hs => ?_⟩
  · refine sibling_absent hD hf hg hm hs (fun e => ?_) c
    rcases hD.same_slot hf hg (hD.slot_of_sameOneof hf hg hs) with h | h
    · exact hne h.symm
    · exact h.2 e
  · have := other_kept hD hf hg hne hs m (f.layout.ordinal, c)
    exact ⟨hasValue_congr this, value_congr this⟩

/-- A write to a repeated field leaves every other field as it was. -/
theorem othersKept_store {D : DynDesc} (hD : D.Ok) {f : DynField} (hf : f ∈ D.fields)
    (hr : f.oneof = none) (m : DynMsg) (s : Nat × Cell) :
    ∀ g ∈ D.fields, g ≠ f → g.hasValue (f.store m s) = g.hasValue m ∧
      g.value (f.store m s) = g.value m := by
  intro g hg hne
  have := other_kept hD hf hg hne (by rintro ⟨o, ho, _⟩; rw [hr] at ho; cases ho) m s
  exact ⟨hasValue_congr this, value_congr this⟩

/-- Setting a singular number or enum: the field has that value, its oneof siblings are absent, every
other field is unchanged. -/
theorem C60_set_number {D : DynDesc} (hD : D.Ok) {m : DynMsg} (hm : m.length = D.slots)
    {f : DynField} (hf : f ∈ D.fields) (singular : f.repeated = false)
    (number : f.kind.isNum = true) (v : BitVec 64) :
    f.hasValue (f.setNum v m) = true ∧ f.value (f.setNum v m) = .num v ∧
    OthersFollow D f m (f.setNum v m) := by
  have hst := storage_store_self (m := m) (by rw [hm]; exact hD.slot_lt hf)
    (f.layout.ordinal, Cell.num v)
  have hv : f.hasValue (f.setNum v m) = true := by
    simp [DynField.hasValue, DynField.setNum, hst, slotHasValue, singular]
  refine ⟨hv, ?_, othersFollow_store hD hf hm _⟩
  simp [DynField.value, DynField.numValue, singular, number, hv]
  simp [DynField.setNum, hst, Cell.asNum]

/-- Setting a singular string or byte string. -/
theorem C60_set_string {D : DynDesc} (hD : D.Ok) {m : DynMsg} (hm : m.length = D.slots)
    {f : DynField} (hf : f ∈ D.fields) (singular : f.repeated = false)
    (string : f.kind.isStr = true) (bs : List Byte) :
    f.hasValue (f.setStr bs m) = true ∧ f.value (f.setStr bs m) = .str bs ∧
    OthersFollow D f m (f.setStr bs m) := by
  have hn : f.kind.isNum = false := by
    cases e : f.kind.isNum with
    | false => rfl
    | true => rw [isStr_of_isNum e] at string; cases string
  have hst := storage_store_self (m := m) (by rw [hm]; exact hD.slot_lt hf)
    (f.layout.ordinal, Cell.str bs)
  have hv : f.hasValue (f.setStr bs m) = true := by
    simp [DynField.hasValue, DynField.setStr, hst, slotHasValue, singular]
  refine ⟨hv, ?_, othersFollow_store hD hf hm _⟩
  simp [DynField.value, DynField.strValue, singular, string, hn, hv]
  simp [DynField.setStr, hst, Cell.asStr]

/-- Emplacing a singular message: the field holds the empty message of its type. -/
theorem C60_emplace (T : DynTypes) {D : DynDesc} (hD : D.Ok) {m : DynMsg}
    (hm : m.length = D.slots) {f : DynField} (hf : f ∈ D.fields) (singular : f.repeated = false)
    {id : Nat} (message : f.kind.msgType = some id) :
    f.hasValue (f.emplace T m) = true ∧ f.value (f.emplace T m) = .msg (T id).empty ∧
    OthersFollow D f m (f.emplace T m) := by
  obtain ⟨h1, h2⟩ := msgType_plain message
  have hst := storage_store_self (m := m) (by rw [hm]; exact hD.slot_lt hf)
    (f.layout.ordinal, Cell.msg (T id).empty)
  have he : f.emplace T m = f.store m (f.layout.ordinal, .msg (T id).empty) := by
    simp [DynField.emplace, message]
  have hv : f.hasValue (f.emplace T m) = true := by
    rw [he]
    simp [DynField.hasValue, hst, slotHasValue, singular]
  refine ⟨hv, ?_, he ▸ othersFollow_store hD hf hm _⟩
  simp [DynField.value, DynField.msgValue, singular, h1, h2, hv]
  simp [he, hst]

/-- Changing the message a present field holds changes that message and no other field. -/
theorem C60_update {D : DynDesc} (hD : D.Ok) {m : DynMsg} (hm : m.length = D.slots)
    {f : DynField} (hf : f ∈ D.fields) (singular : f.repeated = false)
    {s : DynMsg} (present : f.value m = .msg s) (g : DynMsg → DynMsg) :
    f.hasValue (f.update g m) = true ∧ f.value (f.update g m) = .msg (g s) ∧
    ∀ g' ∈ D.fields, g' ≠ f → g'.hasValue (f.update g m) = g'.hasValue m ∧
      g'.value (f.update g m) = g'.value m := by
  have hlt : f.layout.slot < m.length := by rw [hm]; exact hD.slot_lt hf
  have h1 : f.kind.isNum = false := by
    cases e : f.kind.isNum with
    | false => rfl
    | true =>
      simp only [DynField.value, singular, e, DynField.numValue] at present
      simp only [Bool.false_eq_true, if_false, if_true] at present
      split at present
      · cases present
      · split at present <;> cases present
  have h2 : f.kind.isStr = false := by
    cases e : f.kind.isStr with
    | false => rfl
    | true =>
      simp only [DynField.value, singular, e, h1, DynField.strValue] at present
      simp only [Bool.false_eq_true, if_false, if_true] at present
      split at present
      · cases present
      · split at present <;> cases present
  have hv : f.hasValue m = true ∧ (f.storage m).2 = .msg s := by
    simp only [DynField.value, singular, h1, h2, DynField.msgValue] at present
    simp only [Bool.false_eq_true, if_false] at present
    split at present
    · rename_i h
      split at present
      · cases present; exact ⟨h, by assumption⟩
      · cases present
    · cases present
  have hw : (f.storage m).1 = f.layout.ordinal := by
    have := hv.1
    simpa [DynField.hasValue, slotHasValue, singular] using this
  have hu : f.update g m = f.store m (f.layout.ordinal, .msg (g s)) := by
    unfold DynField.update
    have : f.storage m = (f.layout.ordinal, .msg s) := Prod.ext hw hv.2
    rw [this]
  have hst := storage_store_self (m := m) hlt (f.layout.ordinal, Cell.msg (g s))
  have hv' : f.hasValue (f.update g m) = true := by
    rw [hu]
    simp [DynField.hasValue, hst, slotHasValue, singular]
  refine ⟨hv', ?_, fun g' hg hne => ?_⟩
  · simp [DynField.value, DynField.msgValue, singular, h1, h2, hv']
    simp [hu, hst]
  · have ho := othersFollow_store hD hf hm (.msg (g s)) g' hg hne
    rw [hu]
    by_cases hs : SameOneof f g'
    · have hw' : (g'.storage m).1 = f.layout.ordinal := by
        have : g'.storage m = f.storage m := by
          simp [DynField.storage, hD.slot_of_sameOneof hf hg hs]
        rw [this, hw]
      have hord : f.layout.ordinal ≠ g'.layout.ordinal := by
        rcases hD.same_slot hf hg (hD.slot_of_sameOneof hf hg hs) with h | h
        · exact absurd h.symm hne
        · exact h.2
      obtain ⟨o, _, ho'⟩ := id hs
      obtain ⟨hr, he⟩ := hD.member_explicit hg ho'
      have habs : g'.hasValue m = false := by
        simp [DynField.hasValue, slotHasValue, hr, hw', hord]
      rw [habs, value_unset hr he habs]
      exact ho.1 hs
    · exact ho.2 hs

/-- Setting a repeated number field to a list of values. -/
theorem C60_set_numbers {D : DynDesc} (hD : D.Ok) {m : DynMsg} (hm : m.length = D.slots)
    {f : DynField} (hf : f ∈ D.fields) (repeated : f.repeated = true)
    (number : f.kind.isNum = true) (vs : List (BitVec 64)) :
    f.hasValue (f.setNums vs m) = !vs.isEmpty ∧
    f.value (f.setNums vs m) = .nums (vs.map some) ∧
    ∀ g ∈ D.fields, g ≠ f → g.hasValue (f.setNums vs m) = g.hasValue m ∧
      g.value (f.setNums vs m) = g.value m := by
  have hlt : f.layout.slot < m.length := by rw [hm]; exact hD.slot_lt hf
  have hst := storage_store_self hlt (vs.length, Cell.nums (vs.map some))
  have := value_nums (m := f.setNums vs m) (vs := vs.map some) repeated number (by
    rw [List.length_map]; exact hst)
  refine ⟨?_, this.1, othersKept_store hD hf (hD.singularMembers f hf repeated) m _⟩
  rw [this.2]
  cases vs <;> rfl

/-- Setting a repeated string field to a list of values. -/
theorem C60_set_strings {D : DynDesc} (hD : D.Ok) {m : DynMsg} (hm : m.length = D.slots)
    {f : DynField} (hf : f ∈ D.fields) (repeated : f.repeated = true)
    (string : f.kind.isStr = true) (vs : List (List Byte)) :
    f.hasValue (f.setStrs vs m) = !vs.isEmpty ∧ f.value (f.setStrs vs m) = .strs vs ∧
    ∀ g ∈ D.fields, g ≠ f → g.hasValue (f.setStrs vs m) = g.hasValue m ∧
      g.value (f.setStrs vs m) = g.value m := by
  have hlt : f.layout.slot < m.length := by rw [hm]; exact hD.slot_lt hf
  have hst := storage_store_self hlt (vs.length, Cell.strs vs)
  have := value_strs (m := f.setStrs vs m) repeated string hst
  exact ⟨this.2, this.1, othersKept_store hD hf (hD.singularMembers f hf repeated) m _⟩

/-- Appending a number. -/
theorem C60_push_number {D : DynDesc} (hD : D.Ok) {m : DynMsg} (hm : m.length = D.slots)
    {f : DynField} (hf : f ∈ D.fields) (repeated : f.repeated = true)
    (number : f.kind.isNum = true) {vs : List (Option (BitVec 64))} (old : f.value m = .nums vs)
    (v : BitVec 64) :
    f.hasValue (f.pushNum v m) = true ∧ f.value (f.pushNum v m) = .nums (vs ++ [some v]) ∧
    ∀ g ∈ D.fields, g ≠ f → g.hasValue (f.pushNum v m) = g.hasValue m ∧
      g.value (f.pushNum v m) = g.value m := by
  have hlt : f.layout.slot < m.length := by rw [hm]; exact hD.slot_lt hf
  rw [pushNum_eq hlt repeated old]
  have := value_nums repeated number
    (storage_store_self hlt ((vs ++ [some v]).length, Cell.nums (vs ++ [some v])))
  exact ⟨by rw [this.2]; cases vs <;> rfl, this.1,
    othersKept_store hD hf (hD.singularMembers f hf repeated) m _⟩

/-- Appending a string. -/
theorem C60_push_string {D : DynDesc} (hD : D.Ok) {m : DynMsg} (hm : m.length = D.slots)
    {f : DynField} (hf : f ∈ D.fields) (repeated : f.repeated = true)
    (string : f.kind.isStr = true) {vs : List (List Byte)} (old : f.value m = .strs vs)
    (bs : List Byte) :
    f.hasValue (f.pushStr bs m) = true ∧ f.value (f.pushStr bs m) = .strs (vs ++ [bs]) ∧
    ∀ g ∈ D.fields, g ≠ f → g.hasValue (f.pushStr bs m) = g.hasValue m ∧
      g.value (f.pushStr bs m) = g.value m := by
  have hlt : f.layout.slot < m.length := by rw [hm]; exact hD.slot_lt hf
  rw [pushStr_eq hlt repeated old]
  have := value_strs repeated string
    (storage_store_self hlt ((vs ++ [bs]).length, Cell.strs (vs ++ [bs])))
  exact ⟨by rw [this.2]; cases vs <;> rfl, this.1,
    othersKept_store hD hf (hD.singularMembers f hf repeated) m _⟩

/-- Appending a message: an empty one, changed by `g`. -/
theorem C60_push_message (T : DynTypes) {D : DynDesc} (hD : D.Ok) {m : DynMsg}
    (hm : m.length = D.slots) {f : DynField} (hf : f ∈ D.fields) (repeated : f.repeated = true)
    {id : Nat} (message : f.kind.msgType = some id) {vs : List DynMsg} (old : f.value m = .msgs vs)
    (g : DynMsg → DynMsg) :
    f.hasValue (f.pushMsg T g m) = true ∧
    f.value (f.pushMsg T g m) = .msgs (vs ++ [g (T id).empty]) ∧
    ∀ h ∈ D.fields, h ≠ f → h.hasValue (f.pushMsg T g m) = h.hasValue m ∧
      h.value (f.pushMsg T g m) = h.value m := by
  have hlt : f.layout.slot < m.length := by rw [hm]; exact hD.slot_lt hf
  rw [pushMsg_eq hlt repeated message old]
  have := value_msgs repeated message (storage_store_self hlt
    ((vs ++ [g (T id).empty]).length, Cell.msgs (vs ++ [g (T id).empty])))
  exact ⟨by rw [this.2]; cases vs <;> rfl, this.1,
    othersKept_store hD hf (hD.singularMembers f hf repeated) m _⟩

/-! ## Clearing -/

/-- After a clear no field is present that was not before, and the cleared one is absent. -/
theorem C61_absent {D : DynDesc} (hD : D.Ok) {m : DynMsg} (hm : m.length = D.slots) {f : DynField}
    (hf : f ∈ D.fields) :
    f.hasValue (f.clear m) = false ∧
    ∀ g ∈ D.fields, g.hasValue (f.clear m) = true → g.hasValue m = true := by
  have hlt : f.layout.slot < m.length := by rw [hm]; exact hD.slot_lt hf
  have hst := storage_store_self hlt (0, (f.storage m).2)
  have hf0 : f.hasValue (f.clear m) = false := by
    unfold DynField.hasValue DynField.clear
    rw [hst]
    unfold slotHasValue
    cases hr : f.repeated with
    | true => simp
    | false => have := hD.ordinal_pos hf hr; simp; omega
  refine ⟨hf0, fun g hg hv => ?_⟩
  by_cases hgf : g = f
  · subst hgf; rw [hf0] at hv; cases hv
  · by_cases hs : SameOneof f g
    · obtain ⟨o, _, ho⟩ := id hs
      have := hD.ordinal_member hg ho
      have h2 := (sibling_absent hD hf hg hm hs (w := 0) (by omega) (f.storage m).2).1
      unfold DynField.clear at hv
      rw [h2] at hv
      cases hv
    · rw [← hv]
      exact (hasValue_congr (other_kept hD hf hg hgf hs m _)).symm

/-- The full claim: after clearing a field it reads as its default (or has no elements), and every
other field is unchanged. -/
def C61_statement : Prop :=
  ∀ (D : DynDesc), D.Ok → ∀ (m : DynMsg), m.length = D.slots →
    ∀ f ∈ D.fields, (∀ g ∈ D.fields, g.value m ≠ .undefined) →
      f.value (f.clear m) = f.unset ∧
      ∀ g ∈ D.fields, g ≠ f → g.hasValue (f.clear m) = g.hasValue m ∧
        g.value (f.clear m) = g.value m

/-- The claim holds for fields with explicit presence and repeated fields, when the field is present
or not in a oneof. -/
theorem C61_clear_partial {D : DynDesc} (hD : D.Ok) {m : DynMsg} (hm : m.length = D.slots)
    {f : DynField} (hf : f ∈ D.fields) (defined : f.value m ≠ .undefined)
    (tracked : f.explicit = true ∨ f.repeated = true)
    (own : f.oneof = none ∨ f.hasValue m = true) :
    f.value (f.clear m) = f.unset ∧
    ∀ g ∈ D.fields, g ≠ f → g.hasValue (f.clear m) = g.hasValue m ∧
      g.value (f.clear m) = g.value m := by
  have hlt : f.layout.slot < m.length := by rw [hm]; exact hD.slot_lt hf
  have hf0 := (C61_absent hD hm hf).1
  constructor
  · cases hr : f.repeated with
    | false =>
      refine value_unset hr ?_ hf0
      rcases tracked with h | h
      · exact h
      · rw [hr] at h; cases h
    | true =>
      have hst := storage_store_self hlt (0, (f.storage m).2)
      unfold DynField.value DynField.unset DynField.clear
      rw [if_pos hr, if_pos hr]
      unfold DynField.elements
      rw [hst]
      unfold DynField.value at defined
      rw [if_pos hr] at defined
      unfold DynField.elements at defined
      dsimp only at defined ⊢
      generalize f.storage m = s at defined ⊢
      obtain ⟨w, c⟩ := s
      cases hn : f.kind.isNum <;> cases hs : f.kind.isStr <;> cases c <;> simp_all
  · intro g hg hne
    by_cases hs : SameOneof f g
    · obtain ⟨o, hof, ho⟩ := id hs
      have hv : f.hasValue m = true := by
        rcases own with h | h
        · rw [hof] at h; cases h
        · exact h
      obtain ⟨hr, he⟩ := hD.member_explicit hg ho
      obtain ⟨hrf, _⟩ := hD.member_explicit hf hof
      have hw : (f.storage m).1 = f.layout.ordinal := by
        simpa [DynField.hasValue, slotHasValue, hrf] using hv
      have hw' : (g.storage m).1 = f.layout.ordinal := by
        have : g.storage m = f.storage m := by
          simp [DynField.storage, hD.slot_of_sameOneof hf hg hs]
        rw [this, hw]
      have hord : f.layout.ordinal ≠ g.layout.ordinal := by
        rcases hD.same_slot hf hg (hD.slot_of_sameOneof hf hg hs) with h | h
        · exact absurd h.symm hne
        · exact h.2
      have habs : g.hasValue m = false := by
        simp [DynField.hasValue, slotHasValue, hr, hw', hord]
      rw [habs, value_unset hr he habs]
      have := hD.ordinal_member hg ho
      exact sibling_absent hD hf hg hm hs (w := 0) (by omega) _
    · have := other_kept hD hf hg hne hs m (0, (f.storage m).2)
      exact ⟨hasValue_congr this, value_congr this⟩

/-! ## Cases that meet the hypotheses, and the two failures of C61 -/

/-- `int32 count = 1;` without presence. -/
def exCount : DynField :=
  ⟨1, .scalar (.varint .i32), false, false, none, false, false, .num 0, ⟨0, 1, 0, 0⟩⟩
/-- `oneof kind { string name = 2; ...`. -/
def exName : DynField :=
  ⟨2, .scalar (.str true), false, false, some 0, false, true, .bytes [], ⟨1, 2, 2 ^ 32 - 1, -1⟩⟩
/-- `... Mode mode = 3; ...`. -/
def exMode : DynField :=
  ⟨3, .scalar (.enum none), false, false, some 0, false, true, .num 0, ⟨1, 3, 2 ^ 32 - 1, -1⟩⟩
/-- `... Sub sub = 4; }`. -/
def exSub : DynField :=
  ⟨4, .msg 1, false, false, some 0, false, true, .num 0, ⟨1, 4, 2 ^ 32 - 1, -1⟩⟩
/-- `repeated int32 list = 5;`. -/
def exList : DynField :=
  ⟨5, .scalar (.varint .i32), true, true, none, false, false, .num 0, ⟨2, 0, 0, 4⟩⟩
/-- `optional string label = 6 [default = "hi"];`. -/
def exLabel : DynField :=
  ⟨6, .scalar (.str true), false, false, none, false, true, .bytes [104, 105], ⟨3, 1, 0, 5⟩⟩
/-- `repeated Sub subs = 7;`. -/
def exSubs : DynField :=
  ⟨7, .msg 1, true, false, none, false, false, .num 0, ⟨4, 0, 0, 6⟩⟩
/-- `repeated bytes parts = 8;`. -/
def exParts : DynField :=
  ⟨8, .scalar (.str false), true, false, none, false, false, .num 0, ⟨5, 0, 0, 7⟩⟩

/-- A message with all of them. -/
def exampleDyn : DynDesc := ⟨[exCount, exName, exMode, exSub, exList, exLabel, exSubs, exParts], 6, false⟩

/-- Type 0 is `exampleDyn`, type 1 (`Sub`) has one number. -/
def exampleTypes : DynTypes
  | 0 => exampleDyn
  | 1 => ⟨[exCount], 1, false⟩
  | _ => ⟨[], 0, false⟩

theorem exampleTypes_ok : ∀ id, (exampleTypes id).Ok
  | 0 => by
    refine ⟨⟨1, ?_, by decide +kernel⟩, ?_, ?_⟩ <;>
      · intro f hf
        simp only [exampleTypes, exampleDyn, List.mem_cons, List.not_mem_nil, or_false] at hf
        rcases hf with rfl | rfl | rfl | rfl | rfl | rfl | rfl | rfl <;>
          simp [exCount, exName, exMode, exSub, exList, exLabel, exSubs, exParts,
            DynField.explicit, DynField.presence, presenceFor, Val.bits, Val.str]
  | 1 => by
    refine ⟨⟨0, ?_, by decide +kernel⟩, ?_, ?_⟩ <;>
      · intro f hf
        simp only [exampleTypes, List.mem_cons, List.not_mem_nil, or_false] at hf
        subst hf
        simp [exCount, DynField.explicit, DynField.presence, presenceFor, Val.bits, Val.str]
  | _ + 2 => by
    refine ⟨⟨0, ?_, rfl⟩, ?_, ?_⟩ <;>
      · intro f hf
        simp [exampleTypes] at hf

/-- Set the enum, then the string of the oneof: the string is there, the enum is gone. -/
example : exName.value (exName.setStr [1, 2] (exMode.setNum 7 exampleDyn.empty)) = .str [1, 2] ∧
    exMode.hasValue (exName.setStr [1, 2] (exMode.setNum 7 exampleDyn.empty)) = false := by
  constructor <;> rfl

example : exampleDyn.Ok ∧ exampleDyn.empty.length = exampleDyn.slots ∧ exMode ∈ exampleDyn.fields ∧
    exMode.repeated = false ∧ exMode.kind.isNum = true :=
  ⟨exampleTypes_ok 0, rfl, by simp [exampleDyn], rfl, rfl⟩

/-- The premises on old elements are met by the empty message. -/
example : exList.value exampleDyn.empty = .nums [] ∧ exSubs.value exampleDyn.empty = .msgs [] ∧
    exParts.value exampleDyn.empty = .strs [] := ⟨rfl, rfl, rfl⟩

example : exSub.value (exSub.emplace exampleTypes exampleDyn.empty) =
    .msg (exampleTypes 1).empty := rfl

/-- Clearing a present field with a default. -/
example : exLabel.value (exLabel.setStr [1] exampleDyn.empty) = .str [1] ∧
    exLabel.value (exLabel.clear (exLabel.setStr [1] exampleDyn.empty)) = .str [104, 105] :=
  ⟨rfl, rfl⟩

/-- The code violates C61 in two ways: a number without presence keeps its value when cleared, and
clearing an absent member of a oneof clears the member that is present. -/
theorem C61_disagreement :
    exCount.value (exCount.clear (exCount.setNum 5 exampleDyn.empty)) = .num 5 ∧
    exCount.unset = .num 0 ∧
    exName.hasValue (exName.setStr [1] exampleDyn.empty) = true ∧
    exMode.hasValue (exName.setStr [1] exampleDyn.empty) = false ∧
    exName.hasValue (exMode.clear (exName.setStr [1] exampleDyn.empty)) = false := by
  refine ⟨rfl, rfl, rfl, rfl, rfl⟩

theorem C61_statement_false : ¬ C61_statement := by
  intro h
  have hd : ∀ g ∈ exampleDyn.fields, g.value (exCount.setNum 5 exampleDyn.empty) ≠ .undefined := by
    intro g hg
    simp only [exampleDyn, List.mem_cons, List.not_mem_nil, or_false] at hg
    rcases hg with rfl | rfl | rfl | rfl | rfl | rfl | rfl | rfl <;> (intro e; cases e)
  have := (h exampleDyn (exampleTypes_ok 0) _ rfl exCount (by simp [exampleDyn]) hd).1
  rw [C61_disagreement.1, C61_disagreement.2.1] at this
  injection this with e
  exact absurd e (by decide)

end HppProto.Props
