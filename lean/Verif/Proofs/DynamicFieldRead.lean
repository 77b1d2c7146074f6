import Verif.Proofs.DynamicElems

/-! One field read by the two readers. Helper lemmas for `Verif/Props/DynamicRead.lean`. -/

namespace HppProto
open Spec

/-- Positions agree and the messages hold the same. -/
def Rel (T : DynTypes) (id : Nat) (s : Flat) (p : Flat × Msg) (q : Flat × DynMsg) : Prop :=
  p.1 = q.1 ∧ NotBefore s p.1 ∧ DynReads T id q.2 p.2

/-- The two readers with the same number of recursion scopes left. -/
structure LevelSim (T : DynTypes) (l : Level Flat) (dl : DynLevel Flat) : Prop where
  msg : ∀ id m M s, DynReads T id m M → DynSim (Rel T id s) (l.msg id M s) (dl.msg id m s)
  grp : ∀ id number m M s, DynReads T id m M → DynSim (Rel T id s) (l.grp id number M s) (dl.grp id number m s)
  key : ∀ id m s s' m', (T id).entry = true → s.rest ≠ [] → m.length = (T id).slots →
    dl.msg id m s = .ok (s', m') → ∀ k v, (T id).fields = [k, v] → k.hasValue m' = true
  skip : l.skipGrp = dl.skip.skipGrp
  fine : FineL False dl.skip
  agrees : ∃ S, Agrees dl.skip S
  consumes : ∀ number s s', dl.skip.skipGrp number s = .ok s' → s'.rest.length < s.rest.length

section
variable {T : DynTypes} {utf8 : List Byte → Bool} (hT : ∀ id, (T id).Ok) (hR : T.Readable)

/-! ## Storing what was read -/

/-- What a slot holds after a value was stored. -/
def cellHolds (T : DynTypes) (k : Kind) (c : Cell) (v : Val) : Prop :=
  match k with
  | .scalar (.str _) => ∃ bs, c = .str bs ∧ v = .bytes bs
  | .scalar _ => ∃ x, c = .num x ∧ v = .num x
  | .msg id | .group id => ∃ s N, c = .msg s ∧ v = .msg N ∧ DynReads T id s N

theorem holdsValue_cell {f : DynField} {m : DynMsg} {c : Cell} {v : Val} (hr : f.repeated = false)
    (hs : f.storage m = (f.layout.ordinal, c)) (hv : f.hasValue m = true) (h : cellHolds T f.kind c v) :
    holdsValue (DynReads T) f m v := by
  unfold cellHolds at h
  unfold holdsValue
  split at h
  · next hk =>
    obtain ⟨bs, rfl, rfl⟩ := h
    simp [DynField.value, hr, hk, Kind.isNum, Kind.isStr, DynField.strValue, hv, hs, Cell.asStr]
  · next sc hk hne =>
    obtain ⟨x, rfl, rfl⟩ := h
    have hn : (Kind.scalar sc).isNum = true := by
      cases sc <;> first | rfl | exact absurd rfl (hk _)
    simp [DynField.value, hr, hn, DynField.numValue, hv, hs, Cell.asNum, hne]
  · next sid hk =>
    obtain ⟨s, N, rfl, rfl, h⟩ := h
    simp only [hk]
    exact ⟨s, N, by simp [DynField.value, hr, hk, Kind.isNum, Kind.isStr, DynField.msgValue, hv, hs], rfl, h⟩
  · next sid hk =>
    obtain ⟨s, N, rfl, rfl, h⟩ := h
    simp only [hk]
    exact ⟨s, N, by simp [DynField.value, hr, hk, Kind.isNum, Kind.isStr, DynField.msgValue, hv, hs], rfl, h⟩

include hT

theorem field_length {id : Nat} {m : DynMsg} (hl : m.length = (T id).slots) {f : DynField}
    (hf : f ∈ (T id).fields) : f.layout.slot < m.length := by
  rw [hl]
  exact (hT id).slot_lt hf

theorem hasValue_stored {id : Nat} {m : DynMsg} (hl : m.length = (T id).slots) {f : DynField}
    (hf : f ∈ (T id).fields) (hr : f.repeated = false) (c : Cell) :
    f.hasValue (f.store m (f.layout.ordinal, c)) = true := by
  have := (hT id).ordinal_pos hf hr
  unfold DynField.hasValue slotHasValue
  rw [storage_store_self (field_length hT hl hf)]
  simp [hr]

/-- A singular field is set. -/
theorem DynReads.present {id : Nat} {m : DynMsg} {M : Msg} (h : DynReads T id m M) {k j : Nat}
    {g : List DynField} (hg : (groupFields (T id).fields)[k]? = some g) {f : DynField} (hj : g[j]? = some f)
    (hr : f.repeated = false) {c : Cell} {v : Val} (hc : cellHolds T f.kind c v)
    (hx : f.explicit = false → isDefault f.kind f.dflt v = false) :
    DynReads T id (f.store m (f.layout.ordinal, c)) (M.put k [(j, v)]) := by
  have hl := (dynReads_iff.1 h).1
  have hfg : f ∈ g := List.mem_of_getElem? hj
  have hf : f ∈ (T id).fields := mem_of_group (List.mem_of_getElem? hg) hfg
  have hv := hasValue_stored hT hl hf hr c
  refine h.update hT hg hfg _ _ (Or.inl ⟨j, f, v, hj, hr, hv, ?_, hx, rfl⟩)
  exact holdsValue_cell hr (storage_store_self (field_length hT hl hf) _) hv hc

/-- A field without presence is reset because the value is its default. -/
theorem DynReads.reset {id : Nat} {m : DynMsg} {M : Msg} (h : DynReads T id m M) {k : Nat}
    {f : DynField} (hg : (groupFields (T id).fields)[k]? = some [f])
    (hr : f.repeated = false) (he : f.explicit = false) {c : Cell} {v : Val}
    (hd : isDefault f.kind f.dflt v = true) :
    DynReads T id (f.store m (0, c)) (M.put k [(0, v)]) := by
  have hl := (dynReads_iff.1 h).1
  have hf : f ∈ (T id).fields := mem_of_group (List.mem_of_getElem? hg) (by simp)
  have := (hT id).ordinal_pos hf hr
  refine h.update hT hg (by simp) _ _ (Or.inr (Or.inl ⟨fun f' hf' => ?_, Or.inr ⟨f, v, rfl, he, hd, rfl⟩⟩))
  rw [List.mem_singleton.1 hf']
  refine ⟨hr, ?_⟩
  unfold DynField.hasValue slotHasValue
  rw [storage_store_self (field_length hT hl hf)]
  simp [hr]
  omega

/-- A repeated field gets new elements. -/
theorem DynReads.elements {id : Nat} {m : DynMsg} {M : Msg} (h : DynReads T id m M) {k : Nat}
    {f : DynField} (hg : (groupFields (T id).fields)[k]? = some [f]) (hr : f.repeated = true)
    {st : Nat × Cell} {vs : List Val} (hl : holdsList (DynReads T) f (f.store m st) vs)
    (ha : ∀ v ∈ vs, f.kind.admits v)
    (he : ∀ ss, f.value (f.store m st) = .msgs ss → ∀ s ∈ ss, entryComplete T f.kind s) :
    DynReads T id (f.store m st) (M.put k (vs.map fun v => (0, v))) :=
  h.update hT hg (by simp) _ _ (Or.inr (Or.inr ⟨f, vs, rfl, hr, hl, ha, he, rfl⟩))

omit hT in
/-- The elements before. -/
theorem DynReads.old {id : Nat} {m : DynMsg} {M : Msg} (h : DynReads T id m M) {k : Nat}
    {f : DynField} (hg : (groupFields (T id).fields)[k]? = some [f]) (hr : f.repeated = true) :
    ∃ vs, holdsList (DynReads T) f m vs ∧ (∀ v ∈ vs, f.kind.admits v) ∧
      (∀ ss, f.value m = .msgs ss → ∀ s ∈ ss, entryComplete T f.kind s) ∧
      M.get k = vs.map fun v => (0, v) := by
  rcases (dynReads_iff.1 h).2.2.2 k _ hg with ⟨j, f', v, h1, h2, -⟩ | ⟨h1, -⟩ | ⟨f', vs, h1, h2, h3, h4, h5, h6⟩
  · have := List.mem_of_getElem? h1
    rw [List.mem_singleton.1 this, hr] at h2
    cases h2
  · have := (h1 f (by simp)).1
    rw [hr] at this
    cases this
  · cases h1
    exact ⟨vs, h3, h4, h5, h6⟩

/-! ## Finding the field -/

omit hT in
theorem number_unique {id : Nat} (hd : ((T id).fields.map DynField.number).Nodup) {f f' : DynField}
    (hf : f ∈ (T id).fields) (hf' : f' ∈ (T id).fields) (e : f.number = f'.number) : f = f' := by
  obtain ⟨i, hi, rfl⟩ := List.getElem_of_mem hf
  obtain ⟨j, hj, rfl⟩ := List.getElem_of_mem hf'
  have := (List.getElem_inj (i := i) (j := j) (h₀ := by simpa using hi) (h₁ := by simpa using hj) hd).1 (by simpa using e)
  subst this
  rfl

omit hT in
theorem findAlt_group {n : BitVec 32} {f : DynField} (hn : f.number = n) : ∀ (g : List DynField) (j0 : Nat),
    f ∈ g → (∀ f' ∈ g, f'.number = n → f' = f) →
    ∃ j, g[j]? = some f ∧ findAlt n (g.map fun f => (f.number, f.kind)) j0 = some (j0 + j, f.kind)
  | [], _, h, _ => by cases h
  | a :: g, j0, h, hu => by
    by_cases e : a.number = n
    · have := hu a (List.mem_cons_self ..) e
      subst this
      exact ⟨0, rfl, by simp [findAlt, e]⟩
    · have hf : f ∈ g := by
        rcases List.mem_cons.1 h with rfl | h
        · exact absurd hn e
        · exact h
      obtain ⟨j, h1, h2⟩ := findAlt_group hn g (j0 + 1) hf fun f' hf' => hu f' (List.mem_cons_of_mem _ hf')
      refine ⟨j + 1, by simpa using h1, ?_⟩
      simp only [List.map_cons, findAlt, if_neg e, h2, Option.some.injEq, Prod.mk.injEq, and_true]
      omega

omit hT in
theorem staticSlot_cases (b : Nat → Msg) (e : Bool) {fs g : List DynField} (hg : g ∈ groupFields fs) :
    (∃ f, g = [f] ∧ f.oneof = none ∧ staticSlot T b e g = .field f.number f.kind (f.card T b e)) ∨
    ((∀ f ∈ g, ∃ o, f.oneof = some o) ∧
      staticSlot T b e g = .oneof (g.map fun f => (f.number, f.kind))) := by
  rcases groupFields_shape _ g hg with ⟨f, rfl⟩ | ⟨o, ho⟩
  · cases h : f.oneof with
    | none => exact Or.inl ⟨f, rfl, h, by simp [staticSlot, h]⟩
    | some o => exact Or.inr ⟨by simp [h], by simp [staticSlot, h]⟩
  · refine Or.inr ⟨fun f hf => ⟨o, ho f hf⟩, ?_⟩
    unfold staticSlot
    split
    · next f => rw [ho f (by simp)]; rfl
    · rfl

omit hT in
theorem staticSlot_hasNumber (b : Nat → Msg) (e : Bool) {fs g : List DynField} (hg : g ∈ groupFields fs)
    (n : BitVec 32) : (staticSlot T b e g).hasNumber n = g.any fun f => f.number == n := by
  rcases staticSlot_cases (T := T) b e hg with ⟨f, rfl, -, h⟩ | ⟨-, h⟩
  · simp [h, SlotD.hasNumber]
  · simp [h, SlotD.hasNumber, Function.comp_def]

theorem find_group {id : Nat} (hd : ((T id).fields.map DynField.number).Nodup) {n : BitVec 32} {f : DynField}
    (h : (T id).fields.find? (fun f => f.number == n) = some f) :
    f ∈ (T id).fields ∧ f.number = n ∧ ∃ k g j, (groupFields (T id).fields)[k]? = some g ∧ g[j]? = some f ∧
      ((T.cfg utf8).schema id).find n = some k ∧
      findAlt n (g.map fun f => (f.number, f.kind)) 0 = some (j, f.kind) := by
  have hf := List.mem_of_find?_eq_some h
  have hn : f.number = n := by simpa using List.find?_some h
  obtain ⟨g, hg, hfg⟩ := List.mem_flatten.1 ((groupFields_flatten (T id).fields).symm ▸ hf)
  obtain ⟨k, hk, rfl⟩ := List.getElem_of_mem hg
  obtain ⟨j, h1, h2⟩ := findAlt_group hn _ 0 hfg fun f' hf' e =>
    number_unique hd (mem_of_group hg hf') hf (by rw [e, hn])
  refine ⟨hf, hn, k, _, j, List.getElem?_eq_getElem hk, h1, ?_, by simpa using h2⟩
  simp only [MsgD.find, DynTypes.cfg]
  rw [List.findIdx?_eq_some_iff_getElem]
  refine ⟨by simpa using hk, ?_, fun i hi => ?_⟩
  · rw [List.getElem_map, staticSlot_hasNumber _ _ hg]
    simp only [List.any_eq_true, beq_iff_eq]
    exact ⟨f, hfg, hn⟩
  · have hi' : i < (groupFields (T id).fields).length := by omega
    rw [List.getElem_map, staticSlot_hasNumber _ _ (List.getElem_mem hi')]
    simp only [Bool.not_eq_true, List.any_eq_false, beq_iff_eq]
    intro f' hf' e
    have : f' = f := number_unique hd (mem_of_group (List.getElem_mem hi') hf') hf (by rw [e, hn])
    subst this
    have a := (hT id).group_slot (List.getElem?_eq_getElem hk) hfg
    have b := (hT id).group_slot (List.getElem?_eq_getElem hi') hf'
    omega

omit hT in
theorem find_none {id : Nat} {n : BitVec 32} (h : (T id).fields.find? (fun f => f.number == n) = none) :
    ((T.cfg utf8).schema id).find n = none := by
  simp only [MsgD.find, DynTypes.cfg]
  rw [List.findIdx?_eq_none_iff]
  intro sd hsd
  obtain ⟨g, hg, rfl⟩ := List.mem_map.1 hsd
  rw [staticSlot_hasNumber _ _ hg]
  simp only [List.any_eq_false, beq_iff_eq]
  intro f hf
  have := List.find?_eq_none.1 h f (mem_of_group hg hf)
  simpa using this

end

end HppProto
