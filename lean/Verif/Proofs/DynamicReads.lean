import Verif.Spec.DynamicRead
import Verif.Proofs.StaticType
import Verif.Proofs.DynamicItems
import Verif.Proofs.ReadProj

/-! Lemmas about `DynReads`. Helper lemmas for `Verif/Props/DynamicRead.lean`. -/

namespace HppProto

section
variable {T : DynTypes}

theorem readsValue_mono {rel rel' : Nat → DynMsg → Msg → Prop} (h : ∀ id s N, rel id s N → rel' id s N)
    {f m v} (hv : holdsValue rel f m v) : holdsValue rel' f m v := by
  unfold holdsValue at hv ⊢
  split at hv
  · exact hv
  · exact hv
  all_goals
    obtain ⟨s, N, h1, h2, h3⟩ := hv
    exact ⟨s, N, h1, h2, h _ _ _ h3⟩

theorem readsList_mono {rel rel' : Nat → DynMsg → Msg → Prop} (h : ∀ id s N, rel id s N → rel' id s N)
    {f m vs} (hv : holdsList rel f m vs) : holdsList rel' f m vs := by
  unfold holdsList at hv ⊢
  split at hv
  · exact hv
  · exact hv
  all_goals
    obtain ⟨ss, Ns, h1, h2, h3, h4⟩ := hv
    exact ⟨ss, Ns, h1, h2, h3, fun p hp => h _ _ _ (h4 p hp)⟩

theorem readsSlot_mono {rel rel' : Nat → DynMsg → Msg → Prop} (h : ∀ id s N, rel id s N → rel' id s N)
    {init fs m es} (hs : readsSlot T rel init fs m es) : readsSlot T rel' init fs m es := by
  rcases hs with ⟨j, f, v, h1, h2, h3, h4, h5⟩ | h2 | ⟨f, vs, h1, h2, h3, h4⟩
  · exact Or.inl ⟨j, f, v, h1, h2, h3, readsValue_mono h h4, h5⟩
  · exact Or.inr (Or.inl h2)
  · exact Or.inr (Or.inr ⟨f, vs, h1, h2, readsList_mono h h3, h4⟩)

theorem ReadsAt.succ : ∀ (d : Nat) {id : Nat} {m : DynMsg} {M : Msg}, ReadsAt T d id m M →
    ReadsAt T (d + 1) id m M
  | 0, _, _, _, h => h.elim
  | d + 1, _, _, _, ⟨h1, h2, h3, h4⟩ =>
    ⟨h1, h2, h3, fun i fs hi => readsSlot_mono (fun _ _ _ h => ReadsAt.succ d h) (h4 i fs hi)⟩

theorem ReadsAt.le {d d' : Nat} (hd : d ≤ d') {id : Nat} {m : DynMsg} {M : Msg} (h : ReadsAt T d id m M) :
    ReadsAt T d' id m M := by
  induction hd with
  | refl => exact h
  | step _ ih => exact ih.succ

theorem reads_pairs {sid : Nat} : ∀ (ps : List (DynMsg × Msg)), (∀ p ∈ ps, DynReads T sid p.1 p.2) →
    ∃ d, ∀ p ∈ ps, ReadsAt T d sid p.1 p.2
  | [], _ => ⟨0, by simp⟩
  | p :: ps, h => by
    obtain ⟨d, hd⟩ := reads_pairs ps fun q hq => h q (List.mem_cons_of_mem _ hq)
    obtain ⟨d', hp⟩ := h p (List.mem_cons_self ..)
    refine ⟨max d d', fun q hq => ?_⟩
    rcases List.mem_cons.1 hq with rfl | hq
    · exact hp.le (Nat.le_max_right ..)
    · exact (hd q hq).le (Nat.le_max_left ..)

theorem readsSlot_depth {init fs m es} (h : readsSlot T (DynReads T) init fs m es) :
    ∃ d, readsSlot T (ReadsAt T d) init fs m es := by
  rcases h with ⟨j, f, v, h1, h2, h3, h4, h5⟩ | h2 | ⟨f, vs, h1, h2, h3, h4⟩
  · have : ∃ d, holdsValue (ReadsAt T d) f m v := by
      unfold holdsValue at h4 ⊢
      split at h4
      · exact ⟨0, h4⟩
      · exact ⟨0, h4⟩
      all_goals
        obtain ⟨s, N, a, b, d, c⟩ := h4
        exact ⟨d, s, N, a, b, c⟩
    obtain ⟨d, h4⟩ := this
    exact ⟨d, Or.inl ⟨j, f, v, h1, h2, h3, h4, h5⟩⟩
  · exact ⟨0, Or.inr (Or.inl h2)⟩
  · have : ∃ d, holdsList (ReadsAt T d) f m vs := by
      unfold holdsList at h3 ⊢
      split at h3
      · exact ⟨0, h3⟩
      · exact ⟨0, h3⟩
      all_goals
        obtain ⟨ss, Ns, a, b, c, e⟩ := h3
        obtain ⟨d, hd⟩ := reads_pairs (ss.zip Ns) e
        exact ⟨d, ss, Ns, a, b, c, hd⟩
    obtain ⟨d, h3⟩ := this
    exact ⟨d, Or.inr (Or.inr ⟨f, vs, h1, h2, h3, h4⟩)⟩

theorem reads_groups {m : DynMsg} {init : List DynField → List (Nat × Val)} {get : Nat → List (Nat × Val)} :
    ∀ (gs : List (List DynField)) (k : Nat),
    (∀ i g, gs[i]? = some g → readsSlot T (DynReads T) (init g) g m (get (k + i))) →
    ∃ d, ∀ i g, gs[i]? = some g → readsSlot T (ReadsAt T d) (init g) g m (get (k + i))
  | [], _, _ => ⟨0, by simp⟩
  | g :: gs, k, h => by
    obtain ⟨d, hd⟩ := reads_groups gs (k + 1) fun i g' hi => by
      have := h (i + 1) g' (by simpa using hi)
      rwa [show k + (i + 1) = k + 1 + i by omega] at this
    obtain ⟨d', hg⟩ := readsSlot_depth (h 0 g rfl)
    refine ⟨max d d', fun i g' hi => ?_⟩
    cases i with
    | zero =>
      simp only [List.getElem?_cons_zero, Option.some.injEq] at hi
      subst hi
      exact readsSlot_mono (fun _ _ _ h => ReadsAt.le (Nat.le_max_right d d') h) hg
    | succ i =>
      have := hd i g' (by simpa using hi)
      rw [show k + 1 + i = k + (i + 1) by omega] at this
      exact readsSlot_mono (fun _ _ _ h => ReadsAt.le (Nat.le_max_left d d') h) this

/-- One step of the definition, without depths. -/
theorem dynReads_iff {id : Nat} {m : DynMsg} {M : Msg} : DynReads T id m M ↔
    m.length = (T id).slots ∧ M.unk = [] ∧ M.slots.length = (groupFields (T id).fields).length ∧
    ∀ i fs, (groupFields (T id).fields)[i]? = some fs →
      readsSlot T (DynReads T) (staticSlot T T.blank (T id).entry fs).initial fs m (M.get i) := by
  constructor
  · rintro ⟨d, h⟩
    cases d with
    | zero => exact h.elim
    | succ d =>
      obtain ⟨h1, h2, h3, h4⟩ := h
      exact ⟨h1, h2, h3, fun i fs hi => readsSlot_mono (fun _ _ _ h => ⟨d, h⟩) (h4 i fs hi)⟩
  · rintro ⟨h1, h2, h3, h4⟩
    obtain ⟨d, hd⟩ := reads_groups (T := T) (m := m)
      (init := fun fs => (staticSlot T T.blank (T id).entry fs).initial) (get := fun i => M.get i)
      (groupFields (T id).fields) 0 (fun i g hi => by simpa using h4 i g hi)
    exact ⟨d + 1, h1, h2, h3, fun i fs hi => by simpa using hd i fs hi⟩

/-! ## Changing one slot -/

theorem readsSlot_congr {rel : Nat → DynMsg → Msg → Prop} {init fs m m' es}
    (h : ∀ f ∈ fs, f.storage m' = f.storage m) (hs : readsSlot T rel init fs m es) :
    readsSlot T rel init fs m' es := by
  have hv : ∀ f ∈ fs, f.hasValue m' = f.hasValue m := fun f hf => hasValue_congr (h f hf)
  have hw : ∀ f ∈ fs, f.value m' = f.value m := fun f hf => value_congr (h f hf)
  rcases hs with ⟨j, f, v, h1, h2, h3, h4, h5⟩ | ⟨h1, h2⟩ | ⟨f, vs, h1, h2, h3, h4, h5, h6⟩
  · have hf : f ∈ fs := List.mem_of_getElem? h1
    refine Or.inl ⟨j, f, v, h1, h2, by rw [hv f hf, h3], ?_, h5⟩
    unfold holdsValue at h4 ⊢
    rw [hw f hf]
    exact h4
  · exact Or.inr (Or.inl ⟨fun f hf => by rw [hv f hf]; exact h1 f hf, h2⟩)
  · have hf : f ∈ fs := by rw [h1]; simp
    refine Or.inr (Or.inr ⟨f, vs, h1, h2, ?_, h4, ?_, h6⟩)
    · unfold holdsList at h3 ⊢
      rw [hw f hf]
      exact h3
    · rw [hw f hf]
      exact h5

/-- The slot of one group and the corresponding member change together. -/
theorem DynReads.update (hT : ∀ id, (T id).Ok) {id : Nat} {m : DynMsg} {M : Msg} (h : DynReads T id m M)
    {k : Nat} {g : List DynField} (hg : (groupFields (T id).fields)[k]? = some g) {f : DynField} (hf : f ∈ g)
    (st : Nat × Cell) (es : List (Nat × Val))
    (hs : readsSlot T (DynReads T) (staticSlot T T.blank (T id).entry g).initial g (f.store m st) es) :
    DynReads T id (f.store m st) (M.put k es) := by
  obtain ⟨h1, h2, h3, h4⟩ := dynReads_iff.1 h
  have hk : k < M.slots.length := by
    rw [h3]
    exact (List.getElem?_eq_some_iff.1 hg).1
  refine dynReads_iff.2 ⟨by simp [h1], h2, by simp [MsgOf.put, h3], fun i fs hi => ?_⟩
  by_cases e : k = i
  · subst e
    rw [hg] at hi
    cases hi
    rw [get_put_self hk]
    exact hs
  · rw [get_put_ne e]
    refine readsSlot_congr (fun f' hf' => ?_) (h4 i fs hi)
    refine storage_store_other ?_ st
    rw [(hT id).group_slot hg hf, (hT id).group_slot hi hf']
    exact e

/-! ## A new message -/

theorem empty_storage (D : DynDesc) (f : DynField) : f.storage D.empty = (0, .zero) := by
  unfold DynField.storage DynDesc.empty
  rw [List.getD_eq_getElem?_getD]
  by_cases h : f.layout.slot < D.slots
  · simp [h]
  · rw [List.getElem?_eq_none (by simpa using h)]
    rfl

theorem empty_absent {D : DynDesc} (hD : D.Ok) {f : DynField} (hf : f ∈ D.fields)
    (hr : f.repeated = false) : f.hasValue D.empty = false := by
  have := hD.ordinal_pos hf hr
  simp [DynField.hasValue, empty_storage, slotHasValue, hr]
  omega

/-- The members of a new message do not depend on what the types of its messages look like. -/
theorem staticSlot_initial_blank (T : DynTypes) (b b' : Nat → Msg) (fs : List DynField) :
    (staticSlot T b false fs).initial = (staticSlot T b' false fs).initial := by
  unfold staticSlot
  split
  · next f =>
    cases f.oneof with
    | some o => rfl
    | none =>
      simp only [DynField.card]
      split
      · rfl
      · split <;> rfl
  · rfl

theorem blank_eq {id : Nat} (he : (T id).entry = false) (utf8) :
    T.blank id = ((T.cfg utf8).schema id).default := by
  simp only [DynTypes.blank, MsgD.default, DynTypes.cfg, he, List.map_map]
  congr 1

theorem empty_reads (hT : ∀ id, (T id).Ok) (id : Nat) (utf8) :
    DynReads T id (T id).empty ((T.cfg utf8).schema id).default := by
  refine dynReads_iff.2 ⟨by simp [DynDesc.empty], rfl, by simp [MsgD.default, DynTypes.cfg], fun i fs hi => ?_⟩
  have hget : (((T.cfg utf8).schema id).default).get i = (staticSlot T T.blank (T id).entry fs).initial := by
    simp only [MsgOf.get, MsgD.default, DynTypes.cfg, List.map_map, List.getD_eq_getElem?_getD,
      List.getElem?_map, hi]
    rfl
  rw [hget]
  have hmem : ∀ f ∈ fs, f ∈ (T id).fields := fun f hf => mem_of_group (List.mem_of_getElem? hi) hf
  by_cases hrep : ∃ f ∈ fs, f.repeated = true
  · obtain ⟨f, hf, hr⟩ := hrep
    have hone : fs = [f] := by
      rcases groupFields_shape _ fs (List.mem_of_getElem? hi) with ⟨f', rfl⟩ | ⟨o, ho⟩
      · rw [List.mem_singleton.1 hf]
      · have := (hT id).singularMembers f (hmem f hf) hr
        rw [ho f hf] at this
        cases this
    subst hone
    refine Or.inr (Or.inr ⟨f, [], rfl, hr, ?_, by simp, ?_, ?_⟩)
    · have hs := empty_storage (T id) f
      unfold holdsList
      cases hk : f.kind with
      | scalar sc =>
        cases sc <;> refine ⟨[], ?_, rfl⟩ <;>
          simp [DynField.value, DynField.elements, hr, hk, hs, Kind.isNum, Kind.isStr]
      | msg sid =>
        refine ⟨[], [], ?_, rfl, rfl, by simp⟩
        simp [DynField.value, DynField.elements, hr, hk, hs, Kind.isNum, Kind.isStr]
      | group sid =>
        refine ⟨[], [], ?_, rfl, rfl, by simp⟩
        simp [DynField.value, DynField.elements, hr, hk, hs, Kind.isNum, Kind.isStr]
    · intro ss h s hs'
      have := (elements_msgs hr h).2
      rw [empty_storage] at this
      simp only [msgElems] at this
      rw [← this] at hs'
      cases hs'
    · have ho := (hT id).singularMembers f (hmem f hf) hr
      simp only [staticSlot, ho, DynField.card, hr, if_true, List.map_nil]
      split
      · split <;> rfl
      · rfl
  · refine Or.inr (Or.inl ⟨fun f hf => ?_, Or.inl rfl⟩)
    have hr : f.repeated = false := by
      cases e : f.repeated with
      | false => rfl
      | true => exact absurd ⟨f, hf, e⟩ hrep
    exact ⟨hr, empty_absent (hT id) (hmem f hf) hr⟩

end

end HppProto
