import Verif.Proofs.DynamicHistory
import Verif.Proofs.FileGraph

/-! `clone_from` of dynamic messages.  Helper lemmas for `Verif/Props/DynamicClone.lean`. -/

namespace HppProto

/-- No oneof has two members. -/
def DynDesc.SingleMembers (D : DynDesc) : Prop :=
  ∀ f ∈ D.fields, ∀ g ∈ D.fields, SameOneof f g → f = g

/-- The same kind of answer: both absent, both a message, as many elements, or equal. -/
def SameShape : Reading → Reading → Prop
  | .msg _, .msg _ => True
  | .msgs ss, .msgs ts => ss.length = ts.length
  | r, r' => r = r'

/-- Is it a number other than an enum? -/
def Kind.isPlainNum : Kind → Bool
  | .scalar (.enum _) => false
  | k => k.isNum

/-- `a` holds what `b` holds, field by field and at every depth.  Singular numbers may be present in
`a` and absent in `b`; they then read the same.  A string without presence that is absent in `b`
reads as empty in `a`. -/
inductive SameValues (T : DynTypes) : Nat → DynMsg → DynMsg → Prop
  | mk (id : Nat) (a b : DynMsg)
      (has : ∀ f ∈ (T id).fields, f.repeated = true ∨ f.kind.isPlainNum = false →
        f.hasValue a = f.hasValue b)
      (values : ∀ f ∈ (T id).fields, SameShape (f.value a) (f.value b) ∨
        f.explicit = false ∧ f.repeated = false ∧ f.kind.isStr = true ∧ f.hasValue b = false ∧
          f.value a = .str [])
      (inner : ∀ f ∈ (T id).fields, ∀ sid, f.kind.msgType = some sid →
        ∀ s t, f.value a = .msg s → f.value b = .msg t → SameValues T sid s t)
      (elements : ∀ f ∈ (T id).fields, ∀ sid, f.kind.msgType = some sid →
        ∀ ss ts, f.value a = .msgs ss → f.value b = .msgs ts → ∀ (i : Nat) s t, ss[i]? = some s →
          ts[i]? = some t → SameValues T sid s t) : SameValues T id a b

section
variable {D : DynDesc}

theorem DynDesc.Ok.slots_nodup (hD : D.Ok) (hs : D.SingleMembers) :
    (D.fields.map fun f => f.layout.slot).Nodup := by
  obtain ⟨count, s, h, _⟩ := hD.laidOut
  rw [List.nodup_iff_pairwise_ne, List.pairwise_map, List.pairwise_iff_getElem]
  intro i j hi hj hij e
  have hli : (D.fields.map DynField.layout)[i]? = some D.fields[i].layout := by simp [hi]
  have hlj : (D.fields.map DynField.layout)[j]? = some D.fields[j].layout := by simp [hj]
  rcases (h.share i j _ _ hli hlj).1 e with e' | ⟨o, h1, h2⟩
  · omega
  · have e1 : D.fields[i].oneof = some o := by
      obtain ⟨f, hf, e⟩ := h1
      rw [List.getElem?_map, List.getElem?_eq_getElem hi] at hf
      cases hf
      exact e
    have e2 : D.fields[j].oneof = some o := by
      obtain ⟨f, hf, e⟩ := h2
      rw [List.getElem?_map, List.getElem?_eq_getElem hj] at hf
      cases hf
      exact e
    have := hs _ (List.getElem_mem hi) _ (List.getElem_mem hj) ⟨o, e1, e2⟩
    have hr := h.run i j o _ _ h1 h2 hli hlj
    rw [this] at hr
    omega

theorem DynDesc.Ok.take_slots (hD : D.Ok) (hs : D.SingleMembers) :
    D.fields.take D.slots = D.fields := by
  have := nodup_length_le D.slots _ (hD.slots_nodup hs) (by
    intro x hx
    obtain ⟨f, hf, rfl⟩ := List.mem_map.1 hx
    exact hD.slot_lt hf)
  exact List.take_of_length_le (by simpa using this)

end

section
variable {T : DynTypes} {grow : Prop} (hT : ∀ id, (T id).Ok)

/-- What a clone of `src` into any message does. -/
def Clones (T : DynTypes) (grow : Prop) (id : Nat) (src : DynMsg) : Prop :=
  ∀ dst, DynWF T grow id dst → ∃ d r, (∀ d', d ≤ d' → cloneMsg T d' id dst src = some r) ∧
    DynWF T grow id r ∧ SameValues T id r src

/-- The relation `SameValues` for one field. -/
structure FieldSame (T : DynTypes) (f : DynField) (a b : DynMsg) : Prop where
  has : f.repeated = true ∨ f.kind.isPlainNum = false → f.hasValue a = f.hasValue b
  values : SameShape (f.value a) (f.value b) ∨
        f.explicit = false ∧ f.repeated = false ∧ f.kind.isStr = true ∧ f.hasValue b = false ∧
          f.value a = .str []
  inner : ∀ sid, f.kind.msgType = some sid →
        ∀ s t, f.value a = .msg s → f.value b = .msg t → SameValues T sid s t
  elements : ∀ sid, f.kind.msgType = some sid →
        ∀ ss ts, f.value a = .msgs ss → f.value b = .msgs ts → ∀ (i : Nat) s t, ss[i]? = some s →
          ts[i]? = some t → SameValues T sid s t

theorem FieldSame.congr {f : DynField} {a a' b : DynMsg} (h : FieldSame T f a b)
    (e : f.storage a' = f.storage a) : FieldSame T f a' b := by
  constructor
  · rw [hasValue_congr e]; exact h.has
  · rw [value_congr e]; exact h.values
  · rw [value_congr e]; exact h.inner
  · rw [value_congr e]; exact h.elements

theorem FieldSame.ofEq {f : DynField} {a b : DynMsg} (hk : f.kind.msgType = none)
    (hh : f.repeated = true ∨ f.kind.isPlainNum = false → f.hasValue a = f.hasValue b)
    (hv : f.value a = f.value b) : FieldSame T f a b := by
  refine ⟨hh, Or.inl ?_, ?_, ?_⟩
  · rw [hv]
    cases f.value b <;> simp [SameShape]
  · intro sid h; rw [hk] at h; cases h
  · intro sid h; rw [hk] at h; cases h

theorem clones_list {id : Nat} : ∀ (olds vs : List DynMsg), olds.length = vs.length →
    (∀ m ∈ olds, DynWF T grow id m) → (∀ v ∈ vs, Clones T grow id v) →
    ∃ d rs, (∀ d', d ≤ d' →
        (olds.zip vs).mapM (fun p => cloneMsg T d' id p.1 p.2) = some rs) ∧
      rs.length = vs.length ∧ (∀ r ∈ rs, DynWF T grow id r) ∧
      ∀ (i : Nat) (r v : DynMsg), rs[i]? = some r → vs[i]? = some v → SameValues T id r v
  | [], [], _, _, _ => ⟨0, [], by simp, rfl, by simp, by simp⟩
  | [], _ :: _, h, _, _ => by simp at h
  | _ :: _, [], h, _, _ => by simp at h
  | o :: olds, v :: vs, h, ho, hv => by
    obtain ⟨d1, rs, h1, h2, h3, h4⟩ := clones_list olds vs (by simpa using h)
      (fun m hm => ho m (List.mem_cons_of_mem _ hm)) (fun m hm => hv m (List.mem_cons_of_mem _ hm))
    obtain ⟨d2, r, g1, g2, g3⟩ := hv v (List.mem_cons_self ..) o (ho o (List.mem_cons_self ..))
    refine ⟨max d1 d2, r :: rs, fun d' hd' => ?_, by simp [h2], ?_, ?_⟩
    · rw [List.zip_cons_cons, List.mapM_cons, g1 d' (by omega), h1 d' (by omega)]
      rfl
    · intro x hx
      rcases List.mem_cons.1 hx with rfl | hx
      · exact g2
      · exact h3 x hx
    · intro i x y hx hy
      cases i with
      | zero => simp at hx hy; subst hx; subst hy; exact g3
      | succ i => exact h4 i x y (by simpa using hx) (by simpa using hy)

include hT

theorem clone_field {id : Nat} (hs : (T id).SingleMembers) {dst src : DynMsg}
    (hd : DynWF T grow id dst) (hw : DynWF T grow id src) {f : DynField}
    (hf : f ∈ (T id).fields)
    (sub : f.live src → ∀ sid, f.kind.msgType = some sid → ∀ s, (f.storage src).2 = .msg s →
      Clones T grow sid s)
    (subs : f.live src → ∀ sid, f.kind.msgType = some sid → ∀ vs, (f.storage src).2 = .msgs vs →
      ∀ v ∈ vs, Clones T grow sid v) :
    ∃ d c, (∀ d', d ≤ d' → f.clone T (cloneMsg T d') dst src = some (f.store dst c)) ∧
      DynWF T grow id (f.store dst c) ∧ FieldSame T f (f.store dst c) src := by
  have hlt : f.layout.slot < dst.length := by rw [hd.len]; exact (hT id).slot_lt hf
  have hdef := hw.defined hT hf
  cases hr : f.repeated with
  | true =>
    have hlive : f.live src := Or.inl ((hT id).singularMembers f hf hr)
    have hval : f.elements src = f.value src := by simp [DynField.value, hr]
    have hfit := hw.fits f hf hlive
    rcases kind_cases f.kind with ⟨h1, h2, h3⟩ | ⟨h1, h2, h3⟩ | ⟨h1, h2, h3⟩
    · have : ∃ vs, f.value src = .nums vs ∧ (grow ∨ none ∉ vs) := by
        rw [← hval] at hdef ⊢
        unfold DynField.elements at hdef ⊢
        unfold DynField.fits at hfit
        rw [if_pos hr] at hfit
        rw [h1] at hdef ⊢
        dsimp only [if_true] at hdef ⊢
        generalize f.storage src = s at hdef hfit ⊢
        obtain ⟨w, c⟩ := s
        cases c <;> simp_all
        rcases hfit with h | h
        · exact Or.inl h
        · exact Or.inr (fun hm => h (List.mem_of_mem_take hm))
      obtain ⟨vs, hvs, hx⟩ := this
      have hst := storage_store_self hlt (vs.length, Cell.nums vs)
      refine ⟨0, (vs.length, .nums vs), fun _ _ => by simp [DynField.clone, hr, h1, h2, hval, hvs], ?_, ?_⟩
      · refine hd.storeRep hT hf hr _ _ ?_ (fun sid hk => by rw [h3] at hk; cases hk)
        unfold DynField.fits
        rw [if_pos hr]
        exact ⟨h1, Nat.le_refl _, hx⟩
      · obtain ⟨e1, e2⟩ := value_nums hr h1 hst
        refine .ofEq h3 (fun _ => ?_) (by rw [e1, hvs])
        rw [e2]
        unfold DynField.hasValue slotHasValue
        rw [(elements_nums hr hvs).1, hr]
        cases vs <;> simp
    · have : ∃ vs, f.value src = .strs vs := by
        rw [← hval] at hdef ⊢
        unfold DynField.elements at hdef ⊢
        unfold DynField.fits at hfit
        rw [if_pos hr] at hfit
        rw [h1, h2] at hdef ⊢
        dsimp only [if_true] at hdef ⊢
        generalize f.storage src = s at hdef hfit ⊢
        obtain ⟨w, c⟩ := s
        cases c <;> simp_all
      obtain ⟨vs, hvs⟩ := this
      have hst := storage_store_self hlt (vs.length, Cell.strs vs)
      refine ⟨0, (vs.length, .strs vs), fun _ _ => by simp [DynField.clone, hr, h1, h2, hval, hvs], ?_, ?_⟩
      · refine hd.storeRep hT hf hr _ _ ?_ (fun sid hk => by rw [h3] at hk; cases hk)
        unfold DynField.fits
        rw [if_pos hr]
        exact ⟨h2, Nat.le_refl _⟩
      · obtain ⟨e1, e2⟩ := value_strs hr h2 hst
        refine .ofEq h3 (fun _ => ?_) (by rw [e1, hvs])
        rw [e2]
        unfold DynField.hasValue slotHasValue
        rw [(elements_strs hr hvs).1, hr]
        cases vs <;> simp
    · obtain ⟨sid, hk⟩ : ∃ sid, f.kind.msgType = some sid := by
        cases e : f.kind.msgType with
        | none => exact absurd e h3
        | some sid => exact ⟨sid, rfl⟩
      have : ∃ vs, f.value src = .msgs vs := by
        rw [← hval] at hdef ⊢
        unfold DynField.elements at hdef ⊢
        unfold DynField.fits at hfit
        rw [if_pos hr] at hfit
        rw [h1, h2] at hdef ⊢
        dsimp only [if_true] at hdef ⊢
        generalize f.storage src = s at hdef hfit ⊢
        obtain ⟨w, c⟩ := s
        cases c <;> simp_all
      obtain ⟨vs, hvs⟩ := this
      have hcl : ∀ v ∈ vs, Clones T grow sid v := by
        intro v hv
        rcases value_msgs_storage hr hk hvs with ⟨_, e⟩ | ⟨ws, e, e'⟩
        · rw [e] at hv; cases hv
        · rw [e'] at hv
          exact subs hlive sid hk ws e v (List.mem_of_mem_take hv)
      obtain ⟨d, rs, g1, g2, g3, g4⟩ := clones_list
        (resizeWith (T sid).empty vs.length (msgElems (f.storage dst))) vs
        (resizeWith_length ..) (by
          intro m hm
          rcases mem_resizeWith hm with hm | rfl
          · obtain ⟨ws, e, hm⟩ := msgElems_mem hm
            exact hd.subs f hf (Or.inl ((hT id).singularMembers f hf hr)) sid hk ws e m hm
          · exact DynWF.empty hT sid) hcl
      have hst := storage_store_self hlt (rs.length, Cell.msgs rs)
      obtain ⟨e1, e2⟩ := value_msgs hr hk hst
      refine ⟨d, (rs.length, .msgs rs), fun d' hd' => ?_, ?_, ?_, ?_, ?_, ?_⟩
      · simp only [DynField.clone, hr, h1, h2, hval, hvs, hk, if_true, if_false,
          Bool.false_eq_true]
        rw [g1 d' hd', ← g2]
        rfl
      · refine hd.storeRep hT hf hr _ _ ?_ (fun sid' hk' ws e => ?_)
        · unfold DynField.fits
          rw [if_pos hr]
          exact ⟨h3, Nat.le_refl _⟩
        · rw [hk] at hk'; cases hk'; cases e; exact g3
      · intro _
        rw [e2]
        unfold DynField.hasValue slotHasValue
        rw [(elements_msgs hr hvs).1, hr, ← g2]
        cases rs <;> simp
      · left
        rw [e1, hvs]
        exact g2
      · intro _ _ s t e
        rw [e1] at e
        cases e
      · intro sid' hk' ss ts e e'
        rw [hk] at hk'
        cases hk'
        rw [e1] at e
        rw [hvs] at e'
        cases e
        cases e'
        exact g4
  | false =>
    have hord := (hT id).ordinal_pos hf hr
    have hval : f.value src = if f.kind.isNum then f.numValue src
        else if f.kind.isStr then f.strValue src else f.msgValue src := by
      simp [DynField.value, hr]
    have hhas : ∀ w c, f.hasValue (f.store dst (w, c)) = (w == f.layout.ordinal) := by
      intro w c
      unfold DynField.hasValue slotHasValue
      rw [storage_store_self hlt, hr]
      rfl
    have hhsrc : f.hasValue src = ((f.storage src).1 == f.layout.ordinal) := by
      unfold DynField.hasValue slotHasValue
      rw [hr]
      rfl
    have hword : (f.storage src).1 = 0 ∨ (f.storage src).1 = f.layout.ordinal := by
      rcases hw.words f hf hr with e | ⟨g, hg, e, e'⟩
      · exact Or.inl e
      · right
        rcases (hT id).same_slot hg hf e with h | h
        · rw [← h, h]; rw [h] at e'; exact e'
        · rw [hs g hg f hf h.1] at e'; exact e'
    rcases kind_cases f.kind with ⟨h1, h2, h3⟩ | ⟨h1, h2, h3⟩ | ⟨h1, h2, h3⟩
    · rw [h1] at hval
      simp only [if_true] at hval
      by_cases hen : ∃ cl, f.kind = .scalar (.enum cl)
      · -- an enum: the storage is copied
        obtain ⟨cl, hkind⟩ := hen
        refine ⟨0, enumCopy (f.storage src), fun _ _ => by
          simp [DynField.clone, hr, hkind, Kind.isNum], ?_, ?_⟩
        · have hfit := hw.fits f hf
          have hl : f.oneof = none ∨ (f.storage src).1 = f.layout.ordinal → f.live src := by
            rintro (h | h)
            · exact Or.inl h
            · right; rw [hhsrc, h]; simp
          generalize f.storage src = s at hfit hword hl
          obtain ⟨w, c⟩ := s
          have key : ∀ c', (f.oneof = none ∨ w = f.layout.ordinal → f.fits grow (w, c')) →
              DynWF T grow id (f.store dst (w, c')) := fun c' hc => hd.store hT hf w c'
            (fun _ => hword) hc (fun _ sid hk => by rw [h3] at hk; cases hk)
            (fun _ sid hk => by rw [h3] at hk; cases hk)
          cases c
          all_goals
            refine key _ (fun h => ?_)
            have := hfit (hl h)
            unfold DynField.fits at this ⊢
            rw [hr] at this ⊢
            simp_all
        · have hst := storage_store_self hlt (enumCopy (f.storage src))
          have hfst : (enumCopy (f.storage src)).1 = (f.storage src).1 := by
            generalize f.storage src = s
            obtain ⟨w, c⟩ := s
            cases c <;> rfl
          have hh : f.hasValue (f.store dst (enumCopy (f.storage src))) = f.hasValue src := by
            unfold DynField.hasValue
            rw [hst, hfst]
          refine .ofEq h3 (fun _ => hh) ?_
          rw [hval]
          unfold DynField.value
          rw [hr, h1]
          simp only [Bool.false_eq_true, if_false, if_true]
          rw [hval] at hdef
          unfold DynField.numValue at hdef ⊢
          rw [hh, hst]
          split
          · rfl
          · rename_i hc
            rw [if_neg hc] at hdef
            generalize f.storage src = s at hdef ⊢
            obtain ⟨w, c⟩ := s
            cases c <;> simp_all [enumCopy, Cell.asNum]
      · have hne : ∀ cl, f.kind ≠ .scalar (.enum cl) := fun cl e => hen ⟨cl, e⟩
        have hcl : ∀ d', f.clone T (cloneMsg T d') dst src = match f.numValue src with
            | .num v => some (f.setNum v dst)
            | _ => none := by
          intro d'
          unfold DynField.clone
          rw [hr, h1]
          simp only [Bool.false_eq_true, if_false, if_true]
          generalize f.kind = k at hne
          rcases k with sc | _ | _
          · cases sc <;> first | rfl | exact absurd rfl (hne _)
          · rfl
          · rfl
        have : ∃ v, f.numValue src = .num v := by
          rw [hval] at hdef
          unfold DynField.numValue at hdef ⊢
          split
          · exact ⟨_, rfl⟩
          · rename_i hc
            rw [if_neg hc] at hdef
            split
            · exact ⟨_, rfl⟩
            · rename_i e; rw [e] at hdef; exact absurd rfl hdef
        obtain ⟨v, hv⟩ := this
        refine ⟨0, (f.layout.ordinal, .num v), fun _ _ => by rw [hcl, hv]; rfl,
          hd.step hT (.setNum hf hr h1 v), .ofEq h3 (fun h => ?_) ?_⟩
        · exfalso
          rcases h with h | h
          · rw [hr] at h; cases h
          · have : f.kind.isPlainNum = f.kind.isNum := by
              unfold Kind.isPlainNum
              split
              · rename_i cl hk; exact absurd hk (hne cl)
              · rfl
            rw [this, h1] at h
            cases h
        · rw [hval, hv]
          unfold DynField.value DynField.numValue
          rw [hr, h1, hhas, storage_store_self hlt]
          simp [Cell.asNum]
    · rw [h1, h2] at hval
      simp only [Bool.false_eq_true, if_false, if_true] at hval
      cases hv : f.hasValue src with
      | true =>
        have : ∃ bs, f.strValue src = .str bs := by
          rw [hval] at hdef
          unfold DynField.strValue at hdef ⊢
          split
          · exact ⟨_, rfl⟩
          · rename_i hc
            rw [if_neg hc] at hdef
            split
            · exact ⟨_, rfl⟩
            · rename_i e; rw [e] at hdef; exact absurd rfl hdef
        obtain ⟨bs, hb⟩ := this
        refine ⟨0, (f.layout.ordinal, .str bs), fun _ _ => by
            simp [DynField.clone, hr, h1, h2, hv, hb, DynField.setStr],
          hd.step hT (.setStr hf hr h2 bs), .ofEq h3 (fun _ => ?_) ?_⟩
        · rw [hhas, hv]; simp
        · rw [hval, hb]
          unfold DynField.value DynField.strValue
          rw [hr, h1, h2, hhas, storage_store_self hlt]
          simp [Cell.asStr]
      | false =>
        refine ⟨0, (0, match (f.storage dst).2 with
          | .str _ => .str []
          | c => c), fun _ _ => by
            simp only [DynField.clone, hr, h1, h2, hv, DynField.resetStr, if_true, if_false,
              Bool.false_eq_true]
            rfl, hd.step hT (.resetStr hf hr h2), ?_⟩
        have hz : (0 == f.layout.ordinal) = false := by
          rw [beq_eq_false_iff_ne]; omega
        cases he : f.explicit with
        | true =>
          refine .ofEq h3 (fun _ => by rw [hhas, hz, hv]) ?_
          rw [value_unset hr he (by rw [hhas, hz]), value_unset hr he hv]
        | false =>
          have hone : f.oneof = none := by
            cases ho : f.oneof with
            | none => rfl
            | some o => rw [((hT id).member_explicit hf ho).2] at he; cases he
          have hfit := hd.fits f hf (Or.inl hone)
          refine ⟨fun _ => by rw [hhas, hz, hv], Or.inr ⟨he, hr, h2, hv, ?_⟩,
            (fun sid hk => by rw [h3] at hk; cases hk), (fun sid hk => by rw [h3] at hk; cases hk)⟩
          unfold DynField.value DynField.strValue
          rw [hr, h1, h2, he, storage_store_self hlt]
          simp only [Bool.false_eq_true, if_false, if_true, Bool.false_and]
          unfold DynField.fits at hfit
          rw [hr] at hfit
          generalize f.storage dst = s at hfit ⊢
          obtain ⟨w, c⟩ := s
          cases c <;> simp_all [Cell.asStr]
    · rw [h1, h2] at hval
      simp only [Bool.false_eq_true, if_false] at hval
      obtain ⟨sid, hk⟩ : ∃ sid, f.kind.msgType = some sid := by
        cases e : f.kind.msgType with
        | none => exact absurd e h3
        | some sid => exact ⟨sid, rfl⟩
      cases hv : f.hasValue src with
      | true =>
        have : ∃ s, f.msgValue src = .msg s := by
          rw [hval] at hdef
          unfold DynField.msgValue at hdef ⊢
          rw [if_pos hv] at hdef ⊢
          split
          · exact ⟨_, rfl⟩
          · simp_all
        obtain ⟨s, hm⟩ := this
        obtain ⟨_, hst⟩ := value_msg_storage hr hk (hval.trans hm)
        obtain ⟨d, r, g1, g2, g3⟩ := sub (Or.inr hv) sid hk s (by rw [hst]) _ (DynWF.empty hT sid)
        have hnew : f.value (f.store dst (f.layout.ordinal, .msg r)) = .msg r := by
          unfold DynField.value DynField.msgValue
          rw [hr, h1, h2, hhas, storage_store_self hlt]
          simp
        refine ⟨d, (f.layout.ordinal, .msg r), fun d' hd' => ?_, ?_, ?_, ?_, ?_, ?_⟩
        · simp only [DynField.clone, hr, h1, h2, hm, hk, if_false, Bool.false_eq_true]
          rw [g1 d' hd']
          rfl
        · refine hd.store hT hf _ _ (fun _ => Or.inr rfl) (fun _ => ?_) (fun _ sid' hk' t e => ?_)
            (fun _ _ _ _ e => by cases e)
          · unfold DynField.fits
            rw [hr]
            exact h3
          · rw [hk] at hk'; cases hk'; cases e; exact g2
        · intro _
          rw [hhas, hv]; simp
        · left
          rw [hnew, hval, hm]
          trivial
        · intro sid' hk' a b e e'
          rw [hk] at hk'
          cases hk'
          rw [hnew] at e
          rw [hval, hm] at e'
          cases e
          cases e'
          exact g3
        · intro _ _ ss ts e
          rw [hnew] at e
          cases e
      | false =>
        have hm : f.msgValue src = .absent := by
          unfold DynField.msgValue
          rw [hv]
          simp
        have hz : (0 == f.layout.ordinal) = false := by
          rw [beq_eq_false_iff_ne]; omega
        have hnew : f.value (f.store dst (0, (f.storage dst).2)) = .absent := by
          unfold DynField.value DynField.msgValue
          rw [hr, h1, h2, hhas, hz]
          simp
        refine ⟨0, (0, (f.storage dst).2), fun _ _ => by
            simp [DynField.clone, hr, h1, h2, hm, hk, DynField.clear],
          hd.step hT (.clear hf), ?_, ?_, ?_, ?_⟩
        · intro _
          rw [hhas, hz, hv]
        · left
          rw [hnew, hval, hm]
          rfl
        · intro _ _ s t e
          rw [hnew] at e
          cases e
        · intro _ _ s t e
          rw [hnew] at e
          cases e

theorem clone_fields {id : Nat} (hs : (T id).SingleMembers) {src : DynMsg}
    (hw : DynWF T grow id src)
    (sub : ∀ f ∈ (T id).fields, f.live src → ∀ sid, f.kind.msgType = some sid →
      ∀ s, (f.storage src).2 = .msg s → Clones T grow sid s)
    (subs : ∀ f ∈ (T id).fields, f.live src → ∀ sid, f.kind.msgType = some sid →
      ∀ vs, (f.storage src).2 = .msgs vs → ∀ v ∈ vs, Clones T grow sid v) :
    ∀ (fs : List DynField), (∀ f ∈ fs, f ∈ (T id).fields) →
      (fs.map fun f => f.layout.slot).Nodup → ∀ dst, DynWF T grow id dst →
      ∃ d r, (∀ d', d ≤ d' → cloneFields T (cloneMsg T d') src fs dst = some r) ∧
        DynWF T grow id r ∧ (∀ f ∈ fs, FieldSame T f r src) ∧
        ∀ g : DynField, (∀ f ∈ fs, f.layout.slot ≠ g.layout.slot) → g.storage r = g.storage dst
  | [], _, _, dst, hd => ⟨0, dst, fun _ _ => rfl, hd, by simp, fun _ _ => rfl⟩
  | f :: fs, hmem, hnd, dst, hd => by
    rw [List.map_cons, List.nodup_cons] at hnd
    have hf := hmem f (List.mem_cons_self ..)
    obtain ⟨d1, c, a1, a2, a3⟩ := clone_field hT hs hd hw hf (sub f hf) (subs f hf)
    obtain ⟨d2, r, b1, b2, b3, b4⟩ := clone_fields hs hw sub subs fs
      (fun g hg => hmem g (List.mem_cons_of_mem _ hg)) hnd.2 _ a2
    refine ⟨max d1 d2, r, fun d' hd' => ?_, b2, ?_, ?_⟩
    · unfold cloneFields
      rw [a1 d' (by omega)]
      exact b1 d' (by omega)
    · intro g hg
      rcases List.mem_cons.1 hg with rfl | hg
      · refine a3.congr (b4 g (fun h hh e => hnd.1 ?_))
        exact List.mem_map.2 ⟨h, hh, e⟩
      · exact b3 g hg
    · intro g hg
      rw [b4 g (fun h hh => hg h (List.mem_cons_of_mem _ hh))]
      exact storage_store_other (hg f (List.mem_cons_self ..)) c

theorem clones_all (hs : ∀ id, (T id).SingleMembers) {id : Nat} {src : DynMsg}
    (hw : DynWF T grow id src) : Clones T grow id src := by
  induction hw with
  | mk id m len words fits sub subs ihsub ihsubs =>
    intro dst hd
    obtain ⟨d, r, h1, h2, h3, _⟩ := clone_fields hT (hs id) (.mk id m len words fits sub subs)
      ihsub ihsubs (T id).fields (fun _ h => h) ((hT id).slots_nodup (hs id)) dst hd
    refine ⟨d + 1, r, fun d' hd' => ?_, h2, ?_⟩
    · obtain ⟨d', rfl⟩ : ∃ k, d' = k + 1 := ⟨d' - 1, by omega⟩
      unfold cloneMsg
      rw [(hT id).take_slots (hs id)]
      exact h1 d' (by omega)
    · exact .mk _ _ _ (fun f hf => (h3 f hf).has) (fun f hf => (h3 f hf).values)
        (fun f hf => (h3 f hf).inner) (fun f hf => (h3 f hf).elements)

end

end HppProto
