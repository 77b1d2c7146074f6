import Verif.Proofs.DynamicFine
import Verif.Proofs.DynamicRelaxed
import Verif.Props.DynamicRead
import Verif.Props.Merge

/-!
# C67: a dynamic message is read back as it was written

`RestoredAt T d id m m'` and `FineAt T C d id m` are defined in `Verif/Spec/DynamicSame.lean`. `T.relaxed` are the
types without `required`: `DynHolds T.relaxed True id m M` says that the generated message `M` holds what the
dynamic message `m` holds and that map entries have key and value.
-/

namespace HppProto.Props
open HppProto.Spec

/-- In every map entry of the message, at every depth, key and value are set. -/
def EntriesComplete (T : DynTypes) (id : Nat) (m : DynMsg) : Prop :=
  ∀ sid s, DynPart T id m sid s → (T sid).entry = true → ∀ f ∈ (T sid).fields, f.repeated = false → f.hasValue s = true

theorem relaxed_wf {T : DynTypes} {grow : Prop} {id : Nat} {m : DynMsg} (h : DynWF T grow id m) :
    DynWF T.relaxed grow id m := by
  induction h with
  | mk id m hlen hwords hfits hsub hsubs ihsub ihsubs =>
    refine .mk id m hlen ?_ ?_ ?_ ?_
    · intro f hf hr
      obtain ⟨f, hf', rfl⟩ := List.mem_map.1 hf
      rcases hwords f hf' hr with h | ⟨g, hg, h⟩
      · exact Or.inl h
      · exact Or.inr ⟨g.relaxed, List.mem_map_of_mem hg, h⟩
    · intro f hf hl
      obtain ⟨f, hf', rfl⟩ := List.mem_map.1 hf
      exact hfits f hf' hl
    · intro f hf hl sid hk s hs
      obtain ⟨f, hf', rfl⟩ := List.mem_map.1 hf
      exact ihsub f hf' hl sid hk s hs
    · intro f hf hl sid hk vs hvs v hv
      obtain ⟨f, hf', rfl⟩ := List.mem_map.1 hf
      exact ihsubs f hf' hl sid hk vs hvs v hv

theorem relaxed_part {T : DynTypes} {id sid : Nat} {m s : DynMsg} (h : DynPart T.relaxed id m sid s) :
    DynPart T id m sid s := by
  induction h with
  | self => exact .self
  | field _ hf hr hk hv ih =>
    obtain ⟨f, hf', rfl⟩ := List.mem_map.1 hf
    rw [relaxed_value] at hv
    exact .field ih hf' hr hk hv
  | element _ hf hr hk hv hs ih =>
    obtain ⟨f, hf', rfl⟩ := List.mem_map.1 hf
    rw [relaxed_value] at hv
    exact .element ih hf' hr hk hv hs

/-- After any history of calls (which never read what `resize` left indeterminate) there is a generated message
that holds the same. -/
theorem C67_corresponds {T : DynTypes} (hT : ∀ id, (T id).Ok) {id : Nat} {m : DynMsg}
    (h : DynReach T False id m) (complete : EntriesComplete T id m) : ∃ M, DynHolds T.relaxed True id m M := by
  refine wf_holds (relaxed_ok hT) (relaxed_wf (h.wf hT)) fun _ sid s hs f hf hr hm => ?_
  obtain ⟨f, hf', rfl⟩ := List.mem_map.1 hf
  have he : (T sid).entry = true := by simpa [DynField.must, DynField.relaxed, DynTypes.relaxed] using hm
  exact complete sid s (relaxed_part hs) he f hf' hr

theorem fine_cfg {T : DynTypes} {C C' : Cfg} (h : C.utf8 = C'.utf8) : ∀ {d id : Nat} {m : DynMsg},
    FineAt T C d id m → FineAt T C' d id m
  | 0, _, _, h => h
  | d + 1, id, m, hm => by
    have hs : ∀ sc v, scalarOk C sc v → scalarOk C' sc v := by
      intro sc v hv
      unfold scalarOk at hv ⊢
      rw [← h]
      exact hv
    intro f hf
    obtain ⟨a, b⟩ := hm f hf
    refine ⟨fun hr => ?_, fun hr hv => ?_⟩
    · have := a hr
      unfold fineElems at this ⊢
      cases hk : f.kind with
      | scalar sc =>
        rw [hk] at this
        rcases this with ⟨x, h1, h2⟩ | ⟨x, h1, h2⟩
        · exact Or.inl ⟨x, h1, fun y hy => hs _ _ (h2 y hy)⟩
        · exact Or.inr ⟨x, h1, fun y hy => hs _ _ (h2 y hy)⟩
      | msg id =>
        rw [hk] at this
        obtain ⟨ss, c1, c2⟩ := this
        exact ⟨ss, c1, fun s hs => fine_cfg h (c2 s hs)⟩
      | group id =>
        rw [hk] at this
        obtain ⟨ss, c1, c2⟩ := this
        exact ⟨ss, c1, fun s hs => fine_cfg h (c2 s hs)⟩
    · have := b hr hv
      unfold fineValue at this ⊢
      cases hk : f.kind with
      | scalar sc =>
        rw [hk] at this
        rcases this with ⟨x, h1, h2⟩ | ⟨x, h1, h2⟩
        · exact Or.inl ⟨x, h1, hs _ _ h2⟩
        · exact Or.inr ⟨x, h1, hs _ _ h2⟩
      | msg id =>
        rw [hk] at this
        obtain ⟨s, c1, c2⟩ := this
        exact ⟨s, c1, fine_cfg h c2⟩
      | group id =>
        rw [hk] at this
        obtain ⟨s, c1, c2⟩ := this
        exact ⟨s, c1, fine_cfg h c2⟩

/-- C67. What is written by `write_binpb` of a dynamic message is read back by `read_binpb` with the same
recursion limit, into whatever message: the same fields are set as before, to the same values, at every depth;
only a field without presence that was set to its default is no longer set. Writing does succeed if the encoding
is shorter than 2^31 − 1 bytes. Required fields need not be set. Missing from the full claim: map entries without
key or value, for which it is false (`C67_incomplete_entry`); field numbers from 2^25 on (C06, C10) and closed
enums in oneofs. -/
theorem C67_round_trip_partial {T : DynTypes} (hT : ∀ id, (T id).Ok) (hP : ∀ id, (T id).Pooled)
    (hR : T.relaxed.Readable) (hM : T.MapsRepeated) {utf8 : List Byte → Bool} (hu : utf8 [] = true)
    (numbers : ∀ id, ∀ f ∈ (T id).fields, 0 < f.number.toNat ∧ f.number.toNat < 2 ^ 25)
    (oneofs : ∀ id, ∀ f ∈ (T id).fields, f.oneof ≠ none → f.kind.closed = false)
    {id : Nat} (root : (T id).entry = false) {m : DynMsg} {M : Msg} (h : DynHolds T.relaxed True id m M)
    (limit : Nat) (fine : FineAt T (T.cfg utf8) (limit + 1) id m)
    (small : (wire (T.relaxed.cfg utf8) limit id M).length < 2 ^ 64) (old : DynMsg) (buf : List Byte) :
    (∀ out, dynWrite T utf8 limit true id m buf = .ok (none, out) →
      ∃ m', dynRead T utf8 limit id old out = .ok m' ∧ RestoredAt T (limit + 1) id m m') ∧
    ((wire (T.relaxed.cfg utf8) limit id M).length < 2 ^ 31 - 1 →
      ∃ out, dynWrite T utf8 limit true id m buf = .ok (none, out)) := by
  have hT' := relaxed_ok hT
  have hP' := relaxed_pooled hP
  have legal : LegalNumbers T.relaxed := by
    intro id f hf
    obtain ⟨f, hf', rfl⟩ := List.mem_map.1 hf
    exact Nat.lt_trans (numbers id f hf').2 (by decide)
  have hS : schemaOk (T.relaxed.cfg utf8) := by
    refine cfg_schemaOk hT' hR (relaxed_maps hM) hu ?_ ?_
    · intro id f hf
      obtain ⟨f, hf', rfl⟩ := List.mem_map.1 hf
      exact numbers id f hf'
    · intro id f hf
      obtain ⟨f, hf', rfl⟩ := List.mem_map.1 hf
      exact oneofs id f hf'
  have hobj := fine_obj hT' hR hu (limit + 1) id m M h (relaxed_fine (fine_cfg (C := T.cfg utf8) (C' := T.relaxed.cfg utf8) rfl fine))
  obtain ⟨st, o, o', w1, w2, w3⟩ := C65_same_bytes hT' hP' legal h utf8 limit true buf small
  obtain ⟨c1, -, c3⟩ := C10_round_trip_partial (T.relaxed.cfg utf8) hS limit id M ⟨[], []⟩ buf hobj small
  rw [relaxed_write] at w2
  constructor
  · intro out hw
    rw [hw] at w2
    simp only [Res.ok.injEq, Prod.mk.injEq] at w2
    obtain ⟨rfl, rfl⟩ := w2
    have := w3 rfl
    subst this
    obtain ⟨-, r2, -⟩ := C66_dynamic_read hT' hR hu limit id old ⟨[], []⟩ out
    obtain ⟨m', e1, e2⟩ := r2 _ (c1 out w1)
    rw [relaxed_read] at e1
    refine ⟨m', e1, relaxed_restored ?_⟩
    refine restored hT' hP' ⟨?_, relaxed_maps hM⟩ (limit + 1) id m m' M h hobj e2 fun he => ?_
    · intro id f hf
      obtain ⟨f, hf', rfl⟩ := List.mem_map.1 hf
      rfl
    · rw [show (T.relaxed id).entry = (T id).entry from rfl, root] at he
      cases he
  · intro hl
    obtain ⟨out, hw⟩ := c3 hl
    rw [hw] at w1
    simp only [Res.ok.injEq, Prod.mk.injEq] at w1
    obtain ⟨rfl, rfl⟩ := w1
    exact ⟨_, w2⟩

/-! ## Examples -/

theorem mapTypes_maps : mapTypes.MapsRepeated
  | 0, f, hf, sid, hk, he => by
    simp only [mapTypes, List.mem_cons, List.not_mem_nil, or_false] at hf
    rcases hf with rfl | rfl | rfl
    · cases hk; exact ⟨rfl, rfl⟩
    · cases hk
    · cases hk; cases he
  | 1, f, hf, sid, hk, he => by
    simp only [mapTypes, List.mem_cons, List.not_mem_nil, or_false] at hf
    rcases hf with rfl | rfl <;> cases hk
  | 2, f, hf, sid, hk, he => by
    simp only [mapTypes, List.mem_cons, List.not_mem_nil, or_false] at hf
    subst hf
    cases hk
  | _ + 3, f, hf, sid, hk, he => by simp [mapTypes] at hf

theorem mapTypes_small : ∀ id, ∀ f ∈ (mapTypes id).fields, (0 < f.number.toNat ∧ f.number.toNat < 2 ^ 25) ∧
    (f.oneof ≠ none → f.kind.closed = false)
  | 0, f, hf => by
    simp only [mapTypes, List.mem_cons, List.not_mem_nil, or_false] at hf
    rcases hf with rfl | rfl | rfl <;> decide
  | 1, f, hf => by
    simp only [mapTypes, List.mem_cons, List.not_mem_nil, or_false] at hf
    rcases hf with rfl | rfl <;> decide
  | 2, f, hf => by
    simp only [mapTypes, List.mem_cons, List.not_mem_nil, or_false] at hf
    subst hf
    decide
  | _ + 3, f, hf => by simp [mapTypes] at hf

/-- Two entries of the map and no required number. -/
def twoEntries : DynMsg :=
  exNames.pushMsg mapTypes (fun _ => exText.setStr [] (exKey.setNum 3 (mapTypes 1).empty))
    (exNames.pushMsg mapTypes (fun _ => exText.setStr [65] (exKey.setNum 2 (mapTypes 1).empty)) (mapTypes 0).empty)

theorem twoEntries_holds : DynHolds mapTypes.relaxed True 0 twoEntries
    ⟨[[(0, .msg ⟨[[(0, .num 2)], [(0, .bytes [65])]], []⟩), (0, .msg ⟨[[(0, .num 3)], [(0, .bytes [])]], []⟩)],
      [], []], []⟩ := by
  refine ⟨2, rfl, rfl, rfl, ?_⟩
  intro i fs hi
  match i with
  | 0 =>
    cases hi
    refine Or.inr (Or.inr ⟨exNames.relaxed, _, rfl, rfl,
      ⟨[exText.setStr [65] (exKey.setNum 2 (mapTypes 1).empty), exText.setStr [] (exKey.setNum 3 (mapTypes 1).empty)],
      [⟨[[(0, .num 2)], [(0, .bytes [65])]], []⟩, ⟨[[(0, .num 3)], [(0, .bytes [])]], []⟩], rfl, rfl, rfl, ?_⟩, rfl⟩)
    intro p hp
    simp only [List.zip_cons_cons, List.zip_nil_right, List.mem_cons, List.not_mem_nil, or_false] at hp
    rcases hp with rfl | rfl
    · refine ⟨rfl, rfl, rfl, ?_⟩
      intro i fs hi
      match i with
      | 0 => cases hi; exact Or.inl ⟨0, exKey.relaxed, _, rfl, rfl, rfl, ⟨2, rfl, rfl⟩, rfl⟩
      | 1 => cases hi; exact Or.inl ⟨0, exText.relaxed, _, rfl, rfl, rfl, ⟨[65], rfl, rfl⟩, rfl⟩
      | _ + 2 => cases hi
    · refine ⟨rfl, rfl, rfl, ?_⟩
      intro i fs hi
      match i with
      | 0 => cases hi; exact Or.inl ⟨0, exKey.relaxed, _, rfl, rfl, rfl, ⟨3, rfl, rfl⟩, rfl⟩
      | 1 => cases hi; exact Or.inl ⟨0, exText.relaxed, _, rfl, rfl, rfl, ⟨[], rfl, rfl⟩, rfl⟩
      | _ + 2 => cases hi
  | 1 =>
    cases hi
    refine Or.inr (Or.inl ⟨?_, rfl⟩)
    intro f hf
    cases List.mem_singleton.1 hf
    exact ⟨rfl, rfl, fun _ => rfl⟩
  | 2 => cases hi; exact Or.inr (Or.inr ⟨exItem.relaxed, [], rfl, rfl, ⟨[], [], rfl, rfl, rfl, fun p hp => by cases hp⟩, rfl⟩)
  | _ + 3 => cases hi

theorem twoEntries_fine (utf8 : List Byte → Bool) (h : utf8 [] = true) (h' : utf8 [65] = true) :
    FineAt mapTypes (mapTypes.cfg utf8) 2 0 twoEntries := by
  have entry : ∀ (k : BitVec 64) (t : List Byte), inRange .i32 k → utf8 t = true →
      FineAt mapTypes (mapTypes.cfg utf8) 1 1 (exText.setStr t (exKey.setNum k (mapTypes 1).empty)) := by
    intro k t hk ht f hf
    simp only [mapTypes, List.mem_cons, List.not_mem_nil, or_false] at hf
    rcases hf with rfl | rfl
    · exact ⟨(fun h => by cases h), fun _ _ => Or.inl ⟨k, rfl, k, rfl, hk⟩⟩
    · exact ⟨(fun h => by cases h), fun _ _ => Or.inr ⟨t, rfl, t, rfl, fun _ => ht⟩⟩
  intro f hf
  simp only [mapTypes, List.mem_cons, List.not_mem_nil, or_false] at hf
  rcases hf with rfl | rfl | rfl
  · refine ⟨fun _ => ⟨[exText.setStr [65] (exKey.setNum 2 (mapTypes 1).empty),
      exText.setStr [] (exKey.setNum 3 (mapTypes 1).empty)], rfl, ?_⟩, fun h => by cases h⟩
    intro s hs
    simp only [List.mem_cons, List.not_mem_nil, or_false] at hs
    rcases hs with rfl | rfl
    · exact entry 2 [65] (by unfold inRange; decide) h'
    · exact entry 3 [] (by unfold inRange; decide) h
  · exact ⟨(fun h => by cases h), fun _ h => by cases h⟩
  · exact ⟨fun _ => ⟨[], rfl, fun s hs => by cases hs⟩, fun h => by cases h⟩

/-- The example meets the hypotheses. -/
example (old : DynMsg) : ∃ out m', dynWrite mapTypes (fun _ => true) 1 true 0 twoEntries [] = .ok (none, out) ∧
    dynRead mapTypes (fun _ => true) 1 0 old out = .ok m' ∧ RestoredAt mapTypes 2 0 twoEntries m' := by
  have hl : (wire (mapTypes.relaxed.cfg fun _ => true) 1 0
    ⟨[[(0, .msg ⟨[[(0, .num 2)], [(0, .bytes [65])]], []⟩), (0, .msg ⟨[[(0, .num 3)], [(0, .bytes [])]], []⟩)],
      [], []], []⟩).length < 2 ^ 31 - 1 := by decide +kernel
  obtain ⟨h1, h2⟩ := C67_round_trip_partial (fun id => (mapTypes_ok id).1) (fun id => (mapTypes_ok id).2)
    (relaxed_readable mapTypes_readable) mapTypes_maps (utf8 := fun _ => true) rfl
    (fun id f hf => (mapTypes_small id f hf).1) (fun id f hf => (mapTypes_small id f hf).2)
    (id := 0) rfl twoEntries_holds 1 (twoEntries_fine _ rfl rfl) (Nat.lt_trans hl (by decide)) old []
  obtain ⟨out, hw⟩ := h2 hl
  obtain ⟨m', hr, hs⟩ := h1 out hw
  exact ⟨out, m', hw, hr, hs⟩

/-- A map entry that the API leaves without a key is written, and what was written cannot be read. -/
theorem C67_incomplete_entry : ∃ out,
    dynWrite mapTypes (fun _ => true) 100 true 0
      (exNames.pushMsg mapTypes (fun _ => exText.setStr [65] (mapTypes 1).empty) (mapTypes 0).empty) [] =
        .ok (none, out) ∧
    dynRead mapTypes (fun _ => true) 100 0 [] out = .err .badMessage := by
  refine ⟨[0x0a, 3, 0x12, 1, 65], ?_, ?_⟩ <;> with_unfolding_all rfl

end HppProto.Props
