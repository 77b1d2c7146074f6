import Verif.Proofs.Dynamic

/-! Histories of a dynamic message, and the invariant they keep.  Helper lemmas for
`Verif/Props/DynamicHistory.lean`. -/

namespace HppProto

/-- One call of the field API on a message of type `id`, or on a message inside it (`within`,
`withinAt`).  `grow` says whether `resize` may enlarge repeated numbers, which leaves the new ones
indeterminate.  A read of an enum through its mutable reference (`readEnum`) is a step because it
writes; here the enum is present or outside a oneof. -/
inductive DynStep (T : DynTypes) (grow : Prop) : Nat → DynMsg → DynMsg → Prop
  | setNum {id m f} (hf : f ∈ (T id).fields) (single : f.repeated = false)
      (kind : f.kind.isNum = true) (v : BitVec 64) : DynStep T grow id m (f.setNum v m)
  | setStr {id m f} (hf : f ∈ (T id).fields) (single : f.repeated = false)
      (kind : f.kind.isStr = true) (bs : List Byte) : DynStep T grow id m (f.setStr bs m)
  | emplace {id m f} (hf : f ∈ (T id).fields) (single : f.repeated = false) :
      DynStep T grow id m (f.emplace T m)
  | clear {id m f} (hf : f ∈ (T id).fields) : DynStep T grow id m (f.clear m)
  | resetStr {id m f} (hf : f ∈ (T id).fields) (single : f.repeated = false)
      (kind : f.kind.isStr = true) : DynStep T grow id m (f.resetStr m)
  | within {id m f sid s s'} (hf : f ∈ (T id).fields) (single : f.repeated = false)
      (kind : f.kind.msgType = some sid) (now : f.value m = .msg s) (step : DynStep T grow sid s s') :
      DynStep T grow id m (f.update (fun _ => s') m)
  | resizeNums {id m f} (hf : f ∈ (T id).fields) (rep : f.repeated = true)
      (kind : f.kind.isNum = true) (n : Nat) (ok : grow ∨ n ≤ (f.storage m).1) :
      DynStep T grow id m (f.resizeNums n m)
  | resizeStrs {id m f} (hf : f ∈ (T id).fields) (rep : f.repeated = true)
      (kind : f.kind.isStr = true) (n : Nat) : DynStep T grow id m (f.resizeStrs n m)
  | resizeMsgs {id m f} (hf : f ∈ (T id).fields) (rep : f.repeated = true) (n : Nat) :
      DynStep T grow id m (f.resizeMsgs T n m)
  | putNum {id m f} (hf : f ∈ (T id).fields) (rep : f.repeated = true)
      (kind : f.kind.isNum = true) (i : Nat) (v : BitVec 64) : DynStep T grow id m (f.putNum i v m)
  | putStr {id m f} (hf : f ∈ (T id).fields) (rep : f.repeated = true)
      (kind : f.kind.isStr = true) (i : Nat) (bs : List Byte) :
      DynStep T grow id m (f.putStr i bs m)
  | withinAt {id m f sid ss s s'} (hf : f ∈ (T id).fields) (rep : f.repeated = true)
      (kind : f.kind.msgType = some sid) (now : f.value m = .msgs ss) (i : Nat)
      (here : ss[i]? = some s) (step : DynStep T grow sid s s') :
      DynStep T grow id m (f.updateAt i (fun _ => s') m)
  | setNums {id m f} (hf : f ∈ (T id).fields) (rep : f.repeated = true)
      (kind : f.kind.isNum = true) (vs : List (BitVec 64)) : DynStep T grow id m (f.setNums vs m)
  | setStrs {id m f} (hf : f ∈ (T id).fields) (rep : f.repeated = true)
      (kind : f.kind.isStr = true) (vs : List (List Byte)) : DynStep T grow id m (f.setStrs vs m)
  | pushNum {id m f} (hf : f ∈ (T id).fields) (rep : f.repeated = true)
      (kind : f.kind.isNum = true) (v : BitVec 64) : DynStep T grow id m (f.pushNum v m)
  | pushStr {id m f} (hf : f ∈ (T id).fields) (rep : f.repeated = true)
      (kind : f.kind.isStr = true) (bs : List Byte) : DynStep T grow id m (f.pushStr bs m)
  | pushMsg {id m f} (hf : f ∈ (T id).fields) (rep : f.repeated = true) :
      DynStep T grow id m (f.pushMsg T (fun s => s) m)
  | resetRepeated {id m f} (hf : f ∈ (T id).fields) (rep : f.repeated = true) :
      DynStep T grow id m (f.resetRepeated m)
  | readEnum {id m f} (hf : f ∈ (T id).fields) (single : f.repeated = false)
      (kind : f.kind.isNum = true) (own : f.oneof = none ∨ f.hasValue m = true) :
      DynStep T grow id m (f.touchEnum m)

/-- The messages of type `id` that calls of the API produce from the empty one. -/
inductive DynReach (T : DynTypes) (grow : Prop) (id : Nat) : DynMsg → Prop
  | empty : DynReach T grow id (T id).empty
  | step {m m'} : DynReach T grow id m → DynStep T grow id m m' → DynReach T grow id m'

/-- Does the content of its slot belong to the field? -/
def DynField.live (f : DynField) (m : DynMsg) : Prop := f.oneof = none ∨ f.hasValue m = true

/-- The slot holds something the field can be read from. -/
def DynField.fits (grow : Prop) (f : DynField) (s : Nat × Cell) : Prop :=
  if f.repeated then
    match s.2 with
    | .zero => s.1 = 0
    | .nums vs => f.kind.isNum = true ∧ s.1 ≤ vs.length ∧ (grow ∨ none ∉ vs)
    | .strs vs => f.kind.isStr = true ∧ s.1 ≤ vs.length
    | .msgs vs => f.kind.msgType ≠ none ∧ s.1 ≤ vs.length
    | _ => False
  else
    match s.2 with
    | .zero => f.kind.msgType = none ∨ s.1 ≠ f.layout.ordinal
    | .num _ => f.kind.isNum = true
    | .str _ => f.kind.isStr = true
    | .msg _ => f.kind.msgType ≠ none
    | _ => False

/-- Well-formed messages of type `id`. -/
inductive DynWF (T : DynTypes) (grow : Prop) : Nat → DynMsg → Prop
  | mk (id : Nat) (m : DynMsg)
      (len : m.length = (T id).slots)
      (words : ∀ f ∈ (T id).fields, f.repeated = false → (f.storage m).1 = 0 ∨
        ∃ g ∈ (T id).fields, g.layout.slot = f.layout.slot ∧ (f.storage m).1 = g.layout.ordinal)
      (fits : ∀ f ∈ (T id).fields, f.live m → f.fits grow (f.storage m))
      (sub : ∀ f ∈ (T id).fields, f.live m → ∀ sid, f.kind.msgType = some sid →
        ∀ s, (f.storage m).2 = .msg s → DynWF T grow sid s)
      (subs : ∀ f ∈ (T id).fields, f.live m → ∀ sid, f.kind.msgType = some sid →
        ∀ vs, (f.storage m).2 = .msgs vs → ∀ v ∈ vs, DynWF T grow sid v) : DynWF T grow id m

section
variable {T : DynTypes} {grow : Prop}

theorem DynWF.len {id m} : DynWF T grow id m → m.length = (T id).slots
  | .mk _ _ h _ _ _ _ => h

theorem DynWF.words {id m} : DynWF T grow id m → ∀ f ∈ (T id).fields, f.repeated = false →
    (f.storage m).1 = 0 ∨
      ∃ g ∈ (T id).fields, g.layout.slot = f.layout.slot ∧ (f.storage m).1 = g.layout.ordinal
  | .mk _ _ _ h _ _ _ => h

theorem DynWF.fits {id m} : DynWF T grow id m → ∀ f ∈ (T id).fields, f.live m →
    f.fits grow (f.storage m)
  | .mk _ _ _ _ h _ _ => h

theorem DynWF.sub {id m} : DynWF T grow id m → ∀ f ∈ (T id).fields, f.live m →
    ∀ sid, f.kind.msgType = some sid → ∀ s, (f.storage m).2 = .msg s → DynWF T grow sid s
  | .mk _ _ _ _ _ h _ => h

theorem DynWF.subs {id m} : DynWF T grow id m → ∀ f ∈ (T id).fields, f.live m →
    ∀ sid, f.kind.msgType = some sid → ∀ vs, (f.storage m).2 = .msgs vs → ∀ v ∈ vs,
      DynWF T grow sid v
  | .mk _ _ _ _ _ _ h => h

theorem storage_empty (f : DynField) (D : DynDesc) : f.storage D.empty = (0, .zero) := by
  simp only [DynField.storage, DynDesc.empty, List.getD_eq_getElem?_getD, List.getElem?_replicate]
  split <;> rfl

theorem kind_cases (k : Kind) : k.isNum = true ∧ k.isStr = false ∧ k.msgType = none ∨
    k.isNum = false ∧ k.isStr = true ∧ k.msgType = none ∨
    k.isNum = false ∧ k.isStr = false ∧ k.msgType ≠ none := by
  rcases k with s | _ | _
  · cases s <;> simp [Kind.isNum, Kind.isStr, Kind.msgType]
  · simp [Kind.isNum, Kind.isStr, Kind.msgType]
  · simp [Kind.isNum, Kind.isStr, Kind.msgType]

theorem DynWF.empty (hT : ∀ id, (T id).Ok) (id : Nat) : DynWF T grow id (T id).empty := by
  refine .mk _ _ (by simp [DynDesc.empty]) (fun f _ _ => Or.inl (by rw [storage_empty]))
    (fun f hf _ => ?_) (fun f _ _ sid _ s hs => ?_) (fun f _ _ sid _ s hs => ?_)
  · rw [storage_empty]
    unfold DynField.fits
    cases hr : f.repeated with
    | true => simp
    | false => have := (hT id).ordinal_pos hf hr; simp; right; omega
  · rw [storage_empty] at hs; cases hs
  · rw [storage_empty] at hs; cases hs

/-- Storing into the slot of a field. -/
theorem DynWF.store (hT : ∀ id, (T id).Ok) {id m} (h : DynWF T grow id m) {f : DynField}
    (hf : f ∈ (T id).fields) (w : Nat) (c : Cell)
    (hw : f.repeated = false → w = 0 ∨ w = f.layout.ordinal)
    (hfit : f.oneof = none ∨ w = f.layout.ordinal → f.fits grow (w, c))
    (hsub : f.oneof = none ∨ w = f.layout.ordinal → ∀ sid, f.kind.msgType = some sid →
      ∀ s, c = .msg s → DynWF T grow sid s)
    (hsubs : f.oneof = none ∨ w = f.layout.ordinal → ∀ sid, f.kind.msgType = some sid →
      ∀ vs, c = .msgs vs → ∀ v ∈ vs, DynWF T grow sid v) :
    DynWF T grow id (f.store m (w, c)) := by
  have hD := hT id
  have hlt : f.layout.slot < m.length := by rw [h.len]; exact hD.slot_lt hf
  have hself := storage_store_self hlt (w, c)
  have hlive : f.live (f.store m (w, c)) → f.oneof = none ∨ w = f.layout.ordinal := by
    rintro (ho | hv)
    · exact Or.inl ho
    · cases ho : f.oneof with
      | none => exact Or.inl rfl
      | some o =>
        right
        have hr := (hD.member_explicit hf ho).1
        simpa [DynField.hasValue, hself, slotHasValue, hr] using hv
  -- a live field other than `f` has another slot
  have hother : ∀ g ∈ (T id).fields, g ≠ f → g.live (f.store m (w, c)) →
      g.storage (f.store m (w, c)) = g.storage m := by
    intro g hg hne hl
    by_cases hs : SameOneof f g
    · exfalso
      obtain ⟨o, hof, ho⟩ := _root_.id hs
      have h2 := hD.ordinal_member hg ho
      have hrf := (hD.member_explicit hf hof).1
      have hord : f.layout.ordinal ≠ g.layout.ordinal := by
        rcases hD.same_slot hf hg (hD.slot_of_sameOneof hf hg hs) with h | h
        · exact absurd h.symm hne
        · exact h.2
      have := (sibling_absent hD hf hg h.len hs (w := w) (by
        rcases hw hrf with e | e <;> omega) c).1
      rcases hl with hl | hl
      · rw [hl] at ho; cases ho
      · rw [this] at hl; cases hl
    · exact other_kept hD hf hg hne hs m _
  have hlive' : ∀ g ∈ (T id).fields, g ≠ f → g.live (f.store m (w, c)) → g.live m := by
    intro g hg hne hl
    rcases hl with hl' | hl'
    · exact Or.inl hl'
    · right
      rw [← hl']
      exact (hasValue_congr (hother g hg hne (Or.inr hl'))).symm
  refine .mk _ _ (by rw [store_length, h.len]) (fun g hg hr => ?_) (fun g hg hl => ?_)
    (fun g hg hl sid hk s hs => ?_) (fun g hg hl sid hk vs hs => ?_)
  · by_cases e : f.layout.slot = g.layout.slot
    · rw [storage_store_slot hlt e]
      have hrf : f.repeated = false := by
        rcases hD.same_slot hf hg e with h | h
        · rw [h]; exact hr
        · obtain ⟨⟨o, ho, _⟩, _⟩ := h
          exact (hD.member_explicit hf ho).1
      rcases hw hrf with e' | e'
      · exact Or.inl e'
      · exact Or.inr ⟨f, hf, e, e'⟩
    · rw [storage_store_other e]
      exact h.words g hg hr
  · by_cases e : g = f
    · subst e
      rw [hself]
      exact hfit (hlive hl)
    · rw [hother g hg e hl]
      exact h.fits g hg (hlive' g hg e hl)
  · by_cases e : g = f
    · subst e
      rw [hself] at hs
      exact hsub (hlive hl) sid hk s hs
    · rw [hother g hg e hl] at hs
      exact h.sub g hg (hlive' g hg e hl) sid hk s hs
  · by_cases e : g = f
    · subst e
      rw [hself] at hs
      exact hsubs (hlive hl) sid hk vs hs
    · rw [hother g hg e hl] at hs
      exact h.subs g hg (hlive' g hg e hl) sid hk vs hs

theorem DynField.fits_defined {f : DynField} {m : DynMsg} (h : f.fits grow (f.storage m))
    (hr : f.repeated = true) : f.value m ≠ .undefined := by
  unfold DynField.value
  rw [if_pos hr]
  unfold DynField.fits at h
  rw [if_pos hr] at h
  unfold DynField.elements
  dsimp only
  generalize f.storage m = s at h ⊢
  obtain ⟨w, c⟩ := s
  rcases kind_cases f.kind with ⟨h1, h2, h3⟩ | ⟨h1, h2, h3⟩ | ⟨h1, h2, h3⟩ <;>
    cases c <;> simp_all

theorem DynWF.defined (hT : ∀ id, (T id).Ok) {id m} (h : DynWF T grow id m) {f : DynField}
    (hf : f ∈ (T id).fields) : f.value m ≠ .undefined := by
  have hfit := h.fits f hf
  cases hr : f.repeated with
  | true => exact DynField.fits_defined (hfit (Or.inl ((hT id).singularMembers f hf hr))) hr
  | false =>
    by_cases hl : f.live m
    · replace hfit := hfit hl
      unfold DynField.fits at hfit
      unfold DynField.value DynField.numValue DynField.strValue DynField.msgValue DynField.hasValue
        slotHasValue
      rw [hr] at hfit
      rw [hr]
      simp only [Bool.false_eq_true, if_false] at hfit ⊢
      generalize f.storage m = s at hfit ⊢
      obtain ⟨w, c⟩ := s
      rcases kind_cases f.kind with ⟨h1, h2, h3⟩ | ⟨h1, h2, h3⟩ | ⟨h1, h2, h3⟩ <;>
        simp only [h1, h2, if_true, if_false, Bool.false_eq_true] <;>
        cases c <;> simp_all [Cell.asNum, Cell.asStr] <;> split <;> simp_all
    · have hv : f.hasValue m = false := by
        cases e : f.hasValue m with
        | false => rfl
        | true => exact absurd (Or.inr e) hl
      cases ho : f.oneof with
      | none => exact absurd (Or.inl ho) hl
      | some o =>
        obtain ⟨_, he⟩ := (hT id).member_explicit hf ho
        rw [value_unset hr he hv]
        unfold DynField.unset
        rw [hr]
        simp only [Bool.false_eq_true, if_false]
        split
        · simp
        · split <;> simp

/-- What the reading of a message field says about the storage. -/
theorem value_msg_storage {f : DynField} {m s : DynMsg} (hr : f.repeated = false) {sid : Nat}
    (hk : f.kind.msgType = some sid) (h : f.value m = .msg s) :
    f.hasValue m = true ∧ f.storage m = (f.layout.ordinal, .msg s) := by
  obtain ⟨h1, h2⟩ := msgType_plain hk
  simp only [DynField.value, hr, h1, h2, DynField.msgValue, Bool.false_eq_true, if_false] at h
  split at h
  · rename_i hv
    refine ⟨hv, ?_⟩
    split at h
    · cases h
      refine Prod.ext ?_ (by assumption)
      simpa [DynField.hasValue, slotHasValue, hr] using hv
    · cases h
  · cases h

theorem value_msgs_storage {f : DynField} {m : DynMsg} {ss : List DynMsg} (hr : f.repeated = true)
    {sid : Nat} (hk : f.kind.msgType = some sid) (h : f.value m = .msgs ss) :
    (f.storage m).2 = .zero ∧ ss = [] ∨
      ∃ vs, (f.storage m).2 = .msgs vs ∧ ss = vs.take (f.storage m).1 := by
  obtain ⟨h1, h2⟩ := msgType_plain hk
  simp only [DynField.value, hr, h1, h2, DynField.elements, Bool.false_eq_true, if_false,
    if_true] at h
  split at h
  · rename_i vs e
    split at h
    · cases h
      exact Or.inr ⟨vs, e, rfl⟩
    · cases h
  · split at h
    · cases h
      exact Or.inl ⟨by assumption, rfl⟩
    · cases h
  · cases h

theorem mem_resizeWith {α} {x y : α} {n : Nat} {l : List α} (h : y ∈ resizeWith x n l) :
    y ∈ l ∨ y = x := by
  unfold resizeWith at h
  rcases List.mem_append.1 h with h | h
  · exact Or.inl (List.mem_of_mem_take h)
  · exact Or.inr (List.eq_of_mem_replicate h)

theorem none_not_mem_resize {α} {n : Nat} {l : List (Option α)} (h : none ∉ l) (hn : n ≤ l.length) :
    none ∉ resizeWith none n l := by
  unfold resizeWith
  rw [show n - l.length = 0 by omega]
  intro hm
  rcases List.mem_append.1 hm with hm | hm
  · exact h (List.mem_of_mem_take hm)
  · cases hm

theorem msgElems_mem {s : Nat × Cell} {v : DynMsg} (h : v ∈ msgElems s) :
    ∃ vs, s.2 = .msgs vs ∧ v ∈ vs := by
  unfold msgElems at h
  split at h
  · exact ⟨_, by assumption, List.mem_of_mem_take h⟩
  · cases h

theorem numElems_mem {s : Nat × Cell} {v : Option (BitVec 64)} (h : v ∈ numElems s) :
    ∃ vs, s.2 = .nums vs ∧ v ∈ vs := by
  unfold numElems at h
  split at h
  · exact ⟨_, by assumption, List.mem_of_mem_take h⟩
  · cases h

section
variable (hT : ∀ id, (T id).Ok)
include hT

/-- Storing into a repeated field. -/
theorem DynWF.storeRep {id m} (h : DynWF T grow id m) {f : DynField} (hf : f ∈ (T id).fields)
    (rep : f.repeated = true) (w : Nat) (c : Cell) (hfit : f.fits grow (w, c))
    (hsubs : ∀ sid, f.kind.msgType = some sid → ∀ vs, c = .msgs vs → ∀ v ∈ vs,
      DynWF T grow sid v) : DynWF T grow id (f.store m (w, c)) := by
  refine h.store hT hf w c (by rw [rep]; intro h; cases h) (fun _ => hfit)
    (fun _ sid hk s hs => ?_) (fun _ => hsubs)
  subst hs
  unfold DynField.fits at hfit
  rw [if_pos rep] at hfit
  exact hfit.elim

theorem DynWF.resizeNums {id m} (h : DynWF T grow id m) {f : DynField} (hf : f ∈ (T id).fields)
    (rep : f.repeated = true) (kind : f.kind.isNum = true) (n : Nat)
    (ok : grow ∨ n ≤ (f.storage m).1) : DynWF T grow id (f.resizeNums n m) := by
  refine h.storeRep hT hf rep _ _ ?_ (fun sid hk => ?_)
  · unfold DynField.fits
    rw [if_pos rep]
    refine ⟨kind, by rw [resizeWith_length]; exact Nat.le_refl _, ?_⟩
    by_cases hg : grow
    · exact Or.inl hg
    · right
      have hn := ok.resolve_left hg
      have hfit := h.fits f hf (Or.inl ((hT id).singularMembers f hf rep))
      unfold DynField.fits at hfit
      rw [if_pos rep] at hfit
      unfold numElems
      generalize f.storage m = s at hfit hn ⊢
      obtain ⟨w, c⟩ := s
      cases c with
      | nums vs =>
        dsimp only at hfit hn ⊢
        obtain ⟨_, hw, hx⟩ := hfit
        refine none_not_mem_resize (fun hm => (hx.resolve_left hg) (List.mem_of_mem_take hm)) ?_
        simp; omega
      | zero =>
        dsimp only at hfit hn ⊢
        rw [hfit] at hn
        exact none_not_mem_resize (by simp) hn
      | strs _ => have := isStr_of_isNum kind; rw [hfit.1] at this; cases this
      | msgs _ => rcases kind_cases f.kind with ⟨h1, h2, h3⟩ | ⟨h1, h2, h3⟩ | ⟨h1, h2, h3⟩ <;> simp_all
      | num | str | msg | torn => exact hfit.elim
  · have := (msgType_plain hk).1
    rw [kind] at this
    cases this

theorem DynWF.resizeMsgs {id m} (h : DynWF T grow id m) {f : DynField} (hf : f ∈ (T id).fields)
    (rep : f.repeated = true) (n : Nat) : DynWF T grow id (f.resizeMsgs T n m) := by
  unfold DynField.resizeMsgs
  split
  · rename_i sid hk
    refine h.storeRep hT hf rep _ _ ?_ (fun sid' hk' vs hvs v hv => ?_)
    · unfold DynField.fits
      rw [if_pos rep]
      exact ⟨by simp [hk], by rw [resizeWith_length]; exact Nat.le_refl _⟩
    · rw [hk] at hk'
      cases hk'
      cases hvs
      rcases mem_resizeWith hv with hv | rfl
      · obtain ⟨ws, hws, hv⟩ := msgElems_mem hv
        exact h.subs f hf (Or.inl ((hT id).singularMembers f hf rep)) sid hk ws hws v hv
      · exact DynWF.empty hT sid
  · exact h

theorem DynWF.putNum {id m} (h : DynWF T grow id m) {f : DynField} (hf : f ∈ (T id).fields)
    (rep : f.repeated = true) (i : Nat) (v : BitVec 64) : DynWF T grow id (f.putNum i v m) := by
  have hfit := h.fits f hf (Or.inl ((hT id).singularMembers f hf rep))
  unfold DynField.putNum
  split
  · rename_i w vs e
    rw [e] at hfit
    refine h.storeRep hT hf rep _ _ ?_ (fun sid hk vs h => by cases h)
    unfold DynField.fits at hfit ⊢
    rw [if_pos rep] at hfit ⊢
    refine ⟨hfit.1, by simpa using hfit.2.1, ?_⟩
    rcases hfit.2.2 with h | h
    · exact Or.inl h
    · right
      intro hm
      rcases List.mem_or_eq_of_mem_set hm with h' | h'
      · exact h h'
      · cases h'
  · exact h

theorem DynWF.resizeStrs {id m} (h : DynWF T grow id m) {f : DynField} (hf : f ∈ (T id).fields)
    (rep : f.repeated = true) (kind : f.kind.isStr = true) (n : Nat) :
    DynWF T grow id (f.resizeStrs n m) := by
  refine h.storeRep hT hf rep _ _ ?_ (fun sid hk vs h => by cases h)
  unfold DynField.fits
  rw [if_pos rep]
  exact ⟨kind, by rw [resizeWith_length]; exact Nat.le_refl _⟩

theorem DynWF.putStr {id m} (h : DynWF T grow id m) {f : DynField} (hf : f ∈ (T id).fields)
    (rep : f.repeated = true) (i : Nat) (bs : List Byte) : DynWF T grow id (f.putStr i bs m) := by
  have hfit := h.fits f hf (Or.inl ((hT id).singularMembers f hf rep))
  unfold DynField.putStr
  split
  · rename_i w vs e
    rw [e] at hfit
    refine h.storeRep hT hf rep _ _ ?_ (fun sid hk vs h => by cases h)
    unfold DynField.fits at hfit ⊢
    rw [if_pos rep] at hfit ⊢
    exact ⟨hfit.1, by simpa using hfit.2⟩
  · exact h

theorem DynWF.pushNum {id m} (h : DynWF T grow id m) {f : DynField} (hf : f ∈ (T id).fields)
    (rep : f.repeated = true) (kind : f.kind.isNum = true) (v : BitVec 64) :
    DynWF T grow id (f.pushNum v m) := by
  have hlive : f.live m := Or.inl ((hT id).singularMembers f hf rep)
  have hlt : f.layout.slot < m.length := by rw [h.len]; exact (hT id).slot_lt hf
  have hfit := h.fits f hf hlive
  have hval : ∃ vs, f.value m = .nums vs ∧ (grow ∨ none ∉ vs) := by
    unfold DynField.value DynField.elements
    rw [if_pos rep]
    unfold DynField.fits at hfit
    rw [if_pos rep] at hfit
    dsimp only
    rw [if_pos kind]
    generalize f.storage m = s at hfit
    obtain ⟨w, c⟩ := s
    cases c with
    | nums vs =>
      obtain ⟨_, hw, hx⟩ := hfit
      dsimp only at hw ⊢
      rw [if_pos hw]
      refine ⟨_, rfl, ?_⟩
      rcases hx with hx | hx
      · exact Or.inl hx
      · exact Or.inr (fun hm => hx (List.mem_of_mem_take hm))
    | zero =>
      dsimp only at hfit ⊢
      rw [if_pos hfit]
      exact ⟨[], rfl, Or.inr (by simp)⟩
    | strs _ => have := isStr_of_isNum kind; rw [hfit.1] at this; cases this
    | msgs _ => rcases kind_cases f.kind with ⟨h1, h2, h3⟩ | ⟨h1, h2, h3⟩ | ⟨h1, h2, h3⟩ <;> simp_all
    | num | str | msg | torn => exact hfit.elim
  obtain ⟨vs, hv, hx⟩ := hval
  rw [pushNum_eq hlt rep hv]
  refine h.storeRep hT hf rep _ _ ?_ (fun sid hk vs h => by cases h)
  unfold DynField.fits
  rw [if_pos rep]
  refine ⟨kind, Nat.le_refl _, ?_⟩
  rcases hx with hx | hx
  · exact Or.inl hx
  · right
    simpa using hx

theorem DynWF.pushStr {id m} (h : DynWF T grow id m) {f : DynField} (hf : f ∈ (T id).fields)
    (rep : f.repeated = true) (kind : f.kind.isStr = true) (bs : List Byte) :
    DynWF T grow id (f.pushStr bs m) :=
  (h.resizeStrs hT hf rep kind _).putStr hT hf rep _ _

omit hT in
theorem modify_id {α} (l : List α) (i : Nat) : l.modify i (fun s => s) = l := by
  induction l generalizing i with
  | nil => simp
  | cons a l ih => cases i with
    | zero => rfl
    | succ i => simp [ih]

theorem DynWF.step {id m m'} (h : DynWF T grow id m) (st : DynStep T grow id m m') :
    DynWF T grow id m' := by
  induction st with
  | @setNum id m f hf single kind v =>
    refine h.store hT hf _ _ (fun _ => Or.inr rfl) (fun _ => ?_) (fun _ _ _ _ e => by cases e)
      (fun _ _ _ _ e => by cases e)
    unfold DynField.fits
    rw [single]
    exact kind
  | @setStr id m f hf single kind bs =>
    refine h.store hT hf _ _ (fun _ => Or.inr rfl) (fun _ => ?_) (fun _ _ _ _ e => by cases e)
      (fun _ _ _ _ e => by cases e)
    unfold DynField.fits
    rw [single]
    exact kind
  | @emplace id m f hf single =>
    unfold DynField.emplace
    split
    · rename_i sid hk
      refine h.store hT hf _ _ (fun _ => Or.inr rfl) (fun _ => ?_) (fun _ sid' hk' s e => ?_)
        (fun _ _ _ _ e => by cases e)
      · unfold DynField.fits
        rw [single]
        simp [hk]
      · rw [hk] at hk'
        cases hk'
        cases e
        exact DynWF.empty hT sid
    · exact h
  | @clear id m f hf =>
    have hpos : f.repeated = false → 0 < f.layout.ordinal := (hT id).ordinal_pos hf
    have hlive : f.oneof = none ∨ 0 = f.layout.ordinal → f.live m := by
      rintro (h' | h')
      · exact Or.inl h'
      · cases hr : f.repeated with
        | true => exact Or.inl ((hT id).singularMembers f hf hr)
        | false => have := hpos hr; omega
    refine h.store hT hf _ _ (fun _ => Or.inl rfl) (fun hl => ?_) (fun hl sid hk s e => ?_)
      (fun hl sid hk vs e => ?_)
    · have hfit := h.fits f hf (hlive hl)
      unfold DynField.fits at hfit ⊢
      generalize f.storage m = s at hfit ⊢
      obtain ⟨w, c⟩ := s
      split
      · rename_i hr
        rw [if_pos hr] at hfit
        cases c <;> simp_all
      · rename_i hr
        rw [if_neg hr] at hfit
        have := hpos (by simpa using hr)
        cases c <;> simp_all
        right; omega
    · exact h.sub f hf (hlive hl) sid hk s e
    · exact h.subs f hf (hlive hl) sid hk vs e
  | @resetStr id m f hf single kind =>
    have hpos : 0 < f.layout.ordinal := (hT id).ordinal_pos hf single
    have hnone : f.kind.msgType = none := by
      rcases kind_cases f.kind with ⟨h1, h2, h3⟩ | ⟨h1, h2, h3⟩ | ⟨h1, h2, h3⟩
      · exact h3
      · exact h3
      · rw [h2] at kind; cases kind
    refine h.store hT hf _ _ (fun _ => Or.inl rfl) (fun hl => ?_)
      (fun _ sid hk => by rw [hnone] at hk; cases hk)
      (fun _ sid hk => by rw [hnone] at hk; cases hk)
    have hlive : f.live m := by
      rcases hl with h' | h'
      · exact Or.inl h'
      · omega
    have hfit := h.fits f hf hlive
    unfold DynField.fits at hfit ⊢
    rw [single] at hfit ⊢
    simp only [Bool.false_eq_true, if_false] at hfit ⊢
    generalize f.storage m = s at hfit ⊢
    obtain ⟨w, c⟩ := s
    cases c <;> simp_all
  | @within id m f sid s s' hf single kind now step ih =>
    obtain ⟨hv, hst⟩ := value_msg_storage single kind now
    have hs := h.sub f hf (Or.inr hv) sid kind s (by rw [hst])
    have hu : f.update (fun _ => s') m = f.store m (f.layout.ordinal, .msg s') := by
      unfold DynField.update
      rw [hst]
    rw [hu]
    refine h.store hT hf _ _ (fun _ => Or.inr rfl) (fun _ => ?_) (fun _ sid' hk' t e => ?_)
      (fun _ _ _ _ e => by cases e)
    · unfold DynField.fits
      rw [single]
      simp [kind]
    · rw [kind] at hk'
      cases hk'
      cases e
      exact ih hs
  | @resizeNums id m f hf rep kind n ok => exact h.resizeNums hT hf rep kind n ok
  | @resizeStrs id m f hf rep kind n => exact h.resizeStrs hT hf rep kind n
  | @resizeMsgs id m f hf rep n => exact h.resizeMsgs hT hf rep n
  | @putNum id m f hf rep kind i v => exact h.putNum hT hf rep i v
  | @putStr id m f hf rep kind i bs => exact h.putStr hT hf rep i bs
  | @withinAt id m f sid ss s s' hf rep kind now i here step ih =>
    have hlive : f.live m := Or.inl ((hT id).singularMembers f hf rep)
    rcases value_msgs_storage rep kind now with ⟨_, e⟩ | ⟨vs, e, e'⟩
    · rw [e] at here; simp at here
    · have hmem : s ∈ vs := by
        have := List.mem_of_getElem? here
        rw [e'] at this
        exact List.mem_of_mem_take this
      have hs := h.subs f hf hlive sid kind vs e s hmem
      unfold DynField.updateAt
      split
      · rename_i w ws e2
        rw [e2] at e
        cases e
        refine h.storeRep hT hf rep _ _ ?_ (fun sid' hk' us hus v hv => ?_)
        · have hfit := h.fits f hf hlive
          rw [e2] at hfit
          unfold DynField.fits at hfit ⊢
          rw [if_pos rep] at hfit ⊢
          exact ⟨hfit.1, by simpa using hfit.2⟩
        · rw [kind] at hk'
          cases hk'
          cases hus
          obtain ⟨j, hj, rfl⟩ := List.getElem_of_mem hv
          rw [List.getElem_modify]
          split
          · exact ih hs
          · exact h.subs f hf hlive sid kind _ (by rw [e2]) _ (List.getElem_mem _)
      · exact h
  | @setNums id m f hf rep kind vs =>
    refine h.storeRep hT hf rep _ _ ?_ (fun sid hk vs h => by cases h)
    unfold DynField.fits
    rw [if_pos rep]
    exact ⟨kind, by simp, Or.inr (by simp)⟩
  | @setStrs id m f hf rep kind vs =>
    refine h.storeRep hT hf rep _ _ ?_ (fun sid hk vs h => by cases h)
    unfold DynField.fits
    rw [if_pos rep]
    exact ⟨kind, Nat.le_refl _⟩
  | @pushNum id m f hf rep kind v => exact h.pushNum hT hf rep kind v
  | @pushStr id m f hf rep kind bs => exact h.pushStr hT hf rep kind bs
  | @pushMsg id m f hf rep =>
    have h' := h.resizeMsgs hT hf rep ((f.storage m).1 + 1)
    unfold DynField.pushMsg DynField.updateAt
    split
    · rename_i w ws e
      rw [modify_id]
      refine h'.storeRep hT hf rep _ _ ?_ (fun sid' hk' us hus v hv => ?_)
      · have := h'.fits f hf (Or.inl ((hT id).singularMembers f hf rep))
        rw [e] at this
        exact this
      · cases hus
        exact h'.subs f hf (Or.inl ((hT id).singularMembers f hf rep)) _ hk' ws (by rw [e]) v hv
    · exact h'
  | @resetRepeated id m f hf rep =>
    refine h.storeRep hT hf rep _ _ ?_ (fun sid hk vs h => by cases h)
    unfold DynField.fits
    rw [if_pos rep]
  | @readEnum id m f hf single kind own =>
    unfold DynField.touchEnum
    split
    · rename_i hc
      have hv : f.hasValue m = false := by
        cases e : f.hasValue m <;> simp_all
      have ho : f.oneof = none := by
        rcases own with h' | h'
        · exact h'
        · rw [hv] at h'; cases h'
      refine h.store hT hf _ _ (fun _ => ?_) (fun _ => ?_) (fun _ _ _ _ e => by cases e)
        (fun _ _ _ _ e => by cases e)
      · rcases h.words f hf single with e | ⟨g, hg, e, e'⟩
        · exact Or.inl e
        · rcases (hT id).same_slot hg hf e with h' | ⟨⟨o, _, h'⟩, _⟩
          · subst h'; exact Or.inr e'
          · rw [ho] at h'; cases h'
      · unfold DynField.fits
        rw [single]
        exact kind
    · exact h

theorem DynReach.wf {id m} (h : DynReach T grow id m) : DynWF T grow id m := by
  induction h with
  | empty => exact DynWF.empty hT id
  | step _ st ih => exact ih.step hT st

end

end

end HppProto
