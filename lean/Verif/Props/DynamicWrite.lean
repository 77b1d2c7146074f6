import Verif.Proofs.DynamicSer
import Verif.Proofs.DynamicHolds
import Verif.Props.Write

/-!
# C65: writing a dynamic message

`DynTypes.cfg T utf8` (`Verif/Spec/StaticType.lean`) are the generated types for the schema of the dynamic
types `T`; `DynHolds T True id m M` says that the generated message `M` holds what the dynamic message `m`
holds, and that the required fields and the keys and values of map entries are set. `dynWrite` is
`write_binpb` of a dynamic message, `writeBinpb` that of a generated one.
-/

namespace HppProto.Props
open HppProto.Spec

/-- All field numbers are legal. -/
def LegalNumbers (T : DynTypes) : Prop := ∀ id, ∀ f ∈ (T id).fields, f.number.toNat < 2 ^ 29

theorem cfg_numbersOk {T : DynTypes} (h : LegalNumbers T) (utf8 : List Byte → Bool) : numbersOk (T.cfg utf8) := by
  intro id sd hsd
  simp only [DynTypes.cfg, List.mem_map] at hsd
  obtain ⟨g, hg, rfl⟩ := hsd
  have hall : ∀ f ∈ g, f.number.toNat < 2 ^ 29 := fun f hf => h id f (mem_of_group hg hf)
  have hone : ∀ a ∈ g.map (fun f => (f.number, f.kind)), a.1.toNat < 2 ^ 29 := by
    intro a ha
    obtain ⟨f, hf, rfl⟩ := List.mem_map.1 ha
    exact hall f hf
  rcases g with _ | ⟨f, _ | ⟨f', g⟩⟩
  · exact hone
  · cases ho : f.oneof with
    | none =>
      have : staticSlot T T.blank (T id).entry [f] = .field f.number f.kind (f.card T T.blank (T id).entry) := by
        simp [staticSlot, ho]
      rw [this]
      exact hall f (by simp)
    | some o =>
      have : staticSlot T T.blank (T id).entry [f] = .oneof [(f.number, f.kind)] := by simp [staticSlot, ho]
      rw [this]
      exact hone
  · exact hone

/-- Are all required fields, and all keys and values of map entries, set, at every depth? -/
def Complete (T : DynTypes) (id : Nat) (m : DynMsg) : Prop :=
  ∀ sid s, DynPart T id m sid s → ∀ f ∈ (T sid).fields, f.repeated = false →
    (f.required = true ∨ (T sid).entry = true) → f.hasValue s = true

/-- After any history of calls (which never read what `resize` left indeterminate), there is a generated
message that holds what the dynamic message holds. -/
theorem C65_corresponds {T : DynTypes} (hT : ∀ id, (T id).Ok) {id : Nat} {m : DynMsg}
    (h : DynReach T False id m) (complete : Complete T id m) : ∃ M, DynHolds T True id m M :=
  wf_holds hT (h.wf hT) fun _ sid s hs f hf hr hm =>
    complete sid s hs f hf hr (by simpa [DynField.must] using hm)

/-- A dynamic message is written as the generated message that holds the same: the same status, and after
success the same bytes in the buffer. No access outside a slot, the size cache or the buffer. -/
theorem C65_same_bytes {T : DynTypes} (hT : ∀ id, (T id).Ok) (hP : ∀ id, (T id).Pooled)
    (numbers : LegalNumbers T) {id : Nat} {m : DynMsg} {M : Msg} (h : DynHolds T True id m M)
    (utf8 : List Byte → Bool) (limit : Nat) (growable : Bool) (buf : List Byte)
    (small : (wire (T.cfg utf8) limit id M).length < 2 ^ 64) :
    ∃ st out out', writeBinpb (T.cfg utf8) limit growable id M buf = .ok (st, out) ∧
      dynWrite T utf8 limit growable id m buf = .ok (st, out') ∧
      (st = none → out' = out) := by
  have hN := cfg_numbersOk numbers utf8
  have hN' := cfg_numbersOk numbers acceptAll
  obtain ⟨st, out, hw⟩ := C08_no_ub (T.cfg utf8) hN limit id M growable buf small
  refine ⟨st, out, ?_⟩
  rw [hw]
  rw [writeBinpb, serializeBuffer] at hw
  rw [dynWrite, dynCount_ok hT hP (utf8 := utf8) _ _ _ _ h, ok_bind]
  cases hflag : (countMsg (T.cfg utf8) (limit + 1) id M).2 with
  | true =>
    rw [hflag, if_pos rfl] at hw
    cases hw
    exact ⟨buf, rfl, by rw [if_pos rfl], fun h => by cases h⟩
  | false =>
    rw [hflag, if_neg (by simp)] at hw
    rw [if_neg (by simp)]
    have hnest : nests (T.cfg utf8) (limit + 1) id M := (count_flag _ _ _ _).1 hflag
    have hnest' : nests (T.cfg acceptAll) (limit + 1) id M := by
      rw [nests_utf8 T acceptAll utf8]; exact hnest
    have henc : enc (T.cfg acceptAll) (limit + 1) = enc (T.cfg utf8) (limit + 1) := enc_utf8 T _ _ _
    have hsize := size_run (T.cfg utf8) hN hnest small
    have hcount : countMsg (T.cfg acceptAll) (limit + 1) id M = countMsg (T.cfg utf8) (limit + 1) id M := by
      have h1 := dynCount_ok hT hP (utf8 := utf8) (limit + 1) id m M h
      have h2 := dynCount_ok hT hP (utf8 := acceptAll) (limit + 1) id m M h
      rw [h1] at h2
      exact (Res.ok.inj h2).symm
    have hsize' := size_run (T.cfg acceptAll) hN' hnest' (by
      rw [show enc (T.cfg acceptAll) (limit + 1) id M = enc (T.cfg utf8) (limit + 1) id M by rw [henc]]
      exact small)
    have hcache : cacheMsg (T.cfg acceptAll) (limit + 1) id M = cacheMsg (T.cfg utf8) (limit + 1) id M := by
      rw [← dynSize_ok hT hP (utf8 := acceptAll) (limit + 1) id m M h, hcount] at hsize'
      rw [← dynSize_ok hT hP (utf8 := utf8) (limit + 1) id m M h, hsize'] at hsize
      simp only [Res.ok.injEq, Prod.mk.injEq, CacheSt.mk.injEq] at hsize
      exact hsize.2.1
    rw [writeWithCache, hsize, ok_bind] at hw
    rw [dynWriteWithCache, dynSize_ok hT hP (utf8 := utf8) (limit + 1) id m M h, hsize, ok_bind]
    simp only at hw ⊢
    by_cases hmax : (enc (T.cfg utf8) (limit + 1) id M).length ≥ maxMessageSize
    · rw [if_pos hmax] at hw ⊢
      cases hw
      refine ⟨buf, ?_, ?_, fun h => by cases h⟩ <;> trivial
    rw [if_neg hmax] at hw ⊢
    cases hres : resizeBuffer true growable buf (enc (T.cfg utf8) (limit + 1) id M).length with
    | err e =>
      rw [hres] at hw
      simp only at hw ⊢
      cases hw
      refine ⟨buf, ?_, ?_, fun h => by cases h⟩ <;> trivial
    | ok b =>
      rw [hres] at hw
      simp only at hw ⊢
      have hfit := resizeBuffer_fits hres
      have hsame := dynSer_same hT hP utf8 (cacheMsg (T.cfg utf8) (limit + 1) id M) (limit + 1) id m M h 0
      have hle := dynSer_le T utf8 (cacheMsg (T.cfg utf8) (limit + 1) id M) (limit + 1) id m 0
      have hok := dynSer_same hT hP acceptAll (cacheMsg (T.cfg utf8) (limit + 1) id M) (limit + 1) id m M h 0
      obtain ⟨qs, e1, e2⟩ := (ser_run (T.cfg acceptAll) hN' hnest' (by
        rw [show enc (T.cfg acceptAll) (limit + 1) id M = enc (T.cfg utf8) (limit + 1) id M by rw [henc]]
        omega)).1 (utf8Ok_acceptAll T _ _ _)
      rw [hcache] at e1
      rw [e1] at hok
      have hlen : ∀ ps, dynSer T utf8 (cacheMsg (T.cfg utf8) (limit + 1) id M) (limit + 1) id m 0 = (ps, .fail) →
          (piecesBytes ps).length ≤ b.length := by
        intro ps hps
        rcases hle _ hok.1.symm with e | ⟨_, e⟩
        · rw [hps] at e
          have := hok.1
          rw [← e] at this
          cases this
        · rw [hps] at e
          have hb := hok.2 ⟨_, rfl⟩
          rw [← hb] at e
          simp only at e
          rw [e2, show enc (T.cfg acceptAll) (limit + 1) id M = enc (T.cfg utf8) (limit + 1) id M by rw [henc]] at e
          omega
      revert hsame hw hlen
      rcases serMsg (T.cfg utf8) (cacheMsg (T.cfg utf8) (limit + 1) id M) (limit + 1) id M 0 with ⟨ps, s⟩
      rcases dynSer T utf8 (cacheMsg (T.cfg utf8) (limit + 1) id M) (limit + 1) id m 0 with ⟨ps', s'⟩
      rintro hw ⟨hs1, hs2⟩ hlen
      simp only at hs1 hs2
      subst hs1
      cases s with
      | ub => cases hw
      | ok pos =>
        simp only at hw ⊢
        rw [pokePieces_bytes (hs2 ⟨_, rfl⟩)] at hw
        cases hp : pokePieces ps' b 0 with
        | none => rw [hp] at hw; cases hw
        | some b' =>
          rw [hp] at hw
          cases hw
          exact ⟨_, trivial, rfl, fun _ => rfl⟩
      | fail =>
        simp only at hw ⊢
        obtain ⟨b', hb'⟩ := pokePieces_fits (hlen ps' rfl)
        rw [hb']
        cases hp : pokePieces ps b 0 with
        | none => rw [hp] at hw; cases hw
        | some b'' =>
          rw [hp] at hw
          cases hw
          exact ⟨b', trivial, rfl, fun h => by cases h⟩
    | _ => rw [hres] at hw; cases hw

/-- In terms of the wire format: a write into a container succeeds exactly when the message is not too deep,
not too large and its checked strings are valid, and then leaves exactly the wire encoding of the message. -/
theorem C65_wire {T : DynTypes} (hT : ∀ id, (T id).Ok) (hP : ∀ id, (T id).Pooled)
    (numbers : LegalNumbers T) {id : Nat} {m : DynMsg} {M : Msg} (h : DynHolds T True id m M)
    (utf8 : List Byte → Bool) (limit : Nat) (buf : List Byte)
    (small : (wire (T.cfg utf8) limit id M).length < 2 ^ 64) :
    (∀ out, dynWrite T utf8 limit true id m buf = .ok (none, out) ↔
      out = wire (T.cfg utf8) limit id M ∧ nests (T.cfg utf8) (limit + 1) id M ∧
      utf8Ok (T.cfg utf8) isDefault (limit + 1) id M ∧
      (wire (T.cfg utf8) limit id M).length < 2 ^ 31 - 1) := by
  intro out
  obtain ⟨st, o, o', h1, h2, h3⟩ := C65_same_bytes hT hP numbers h utf8 limit true buf small
  obtain ⟨k1, k2⟩ := C09_written_bytes (T.cfg utf8) (cfg_numbersOk numbers utf8) limit id M buf small
  constructor
  · intro hd
    rw [h2] at hd
    simp only [Res.ok.injEq, Prod.mk.injEq] at hd
    obtain ⟨rfl, rfl⟩ := hd
    have := h3 rfl
    subst this
    exact k1 _ h1
  · rintro ⟨rfl, hn, hu, hl⟩
    have := k2 hn hu hl
    rw [h1] at this
    simp only [Res.ok.injEq, Prod.mk.injEq] at this
    obtain ⟨rfl, rfl⟩ := this
    rw [h2, h3 rfl]

/-! ## Examples -/

theorem exampleTypes_pooled : ∀ id, (exampleTypes id).Pooled
  | 0 => by
    refine ⟨?_, fun h => by cases h⟩
    intro f hf
    simp only [exampleTypes, exampleDyn, List.mem_cons, List.not_mem_nil, or_false] at hf
    rcases hf with rfl | rfl | rfl | rfl | rfl | rfl | rfl | rfl <;> decide
  | 1 => by
    refine ⟨?_, fun h => by cases h⟩
    intro f hf
    simp only [exampleTypes, List.mem_cons, List.not_mem_nil, or_false] at hf
    subst hf
    decide
  | _ + 2 => ⟨fun f hf => by simp [exampleTypes] at hf, fun h => by cases h⟩

theorem exampleTypes_numbers : LegalNumbers exampleTypes
  | 0 => by
    intro f hf
    simp only [exampleTypes, exampleDyn, List.mem_cons, List.not_mem_nil, or_false] at hf
    rcases hf with rfl | rfl | rfl | rfl | rfl | rfl | rfl | rfl <;> decide
  | 1 => by
    intro f hf
    simp only [exampleTypes, List.mem_cons, List.not_mem_nil, or_false] at hf
    subst hf
    decide
  | _ + 2 => fun f hf => by simp [exampleTypes] at hf

theorem exampleTypes_complete (id : Nat) (m : DynMsg) : Complete exampleTypes id m := by
  intro sid s _ f hf _ hm
  match sid with
  | 0 =>
    simp only [exampleTypes, exampleDyn, List.mem_cons, List.not_mem_nil, or_false] at hf
    rcases hf with rfl | rfl | rfl | rfl | rfl | rfl | rfl | rfl <;> exact absurd hm (by decide)
  | 1 =>
    simp only [exampleTypes, List.mem_cons, List.not_mem_nil, or_false] at hf
    subst hf
    exact absurd hm (by decide)
  | _ + 2 => simp [exampleTypes] at hf

/-- A message with a message in a oneof, a packed list and repeated messages meets the hypotheses. -/
example : ∃ M, DynHolds exampleTypes True 0 exampleHistory M :=
  C65_corresponds exampleTypes_ok exampleHistory_reach (exampleTypes_complete _ _)

/-- It is written as: field 4 with field 1 inside, the packed list, an empty message and one with field 1. -/
example : dynWrite exampleTypes (fun _ => true) 100 true 0 exampleHistory [7, 7] =
    .ok (none, [0x22, 2, 8, 5, 0x2a, 1, 3, 0x3a, 0, 0x3a, 2, 8, 9]) := by
  with_unfolding_all rfl

/-- `map<int32, string> names = 1;`. -/
def exNames : DynField := ⟨1, .msg 1, true, false, none, false, false, .num 0, ⟨0, 0, 0, 0⟩⟩
/-- `required sint32 id = 2 [default = 7];`. -/
def exId : DynField :=
  ⟨2, .scalar (.varint .s32), false, false, none, true, false, .num 7, ⟨1, 1, 0, 1⟩⟩
/-- `repeated group Item = 3 { int32 count = 1; }`. -/
def exItem : DynField := ⟨3, .group 2, true, false, none, false, false, .num 0, ⟨2, 0, 0, 2⟩⟩
/-- The key of an entry of `names`. -/
def exKey : DynField :=
  ⟨1, .scalar (.varint .i32), false, false, none, false, true, .num 0, ⟨0, 1, 0, 0⟩⟩
/-- The value of an entry of `names`. -/
def exText : DynField :=
  ⟨2, .scalar (.str true), false, false, none, false, true, .bytes [], ⟨1, 1, 0, 1⟩⟩

/-- Type 0 has a map, a required number and repeated groups; type 1 is the entry of the map. -/
def mapTypes : DynTypes
  | 0 => ⟨[exNames, exId, exItem], 3, false⟩
  | 1 => ⟨[exKey, exText], 2, true⟩
  | 2 => ⟨[exCount], 1, false⟩
  | _ => ⟨[], 0, false⟩

theorem mapTypes_ok : ∀ id, (mapTypes id).Ok ∧ (mapTypes id).Pooled
  | 0 => by
    refine ⟨⟨⟨0, ?_, by decide +kernel⟩, ?_, ?_⟩, ⟨?_, fun h => by cases h⟩⟩ <;>
      · intro f hf
        simp only [mapTypes, List.mem_cons, List.not_mem_nil, or_false] at hf
        rcases hf with rfl | rfl | rfl <;>
          simp [exNames, exId, exItem, DynField.explicit, DynField.presence, presenceFor, Val.bits, Val.str]
  | 1 => by
    refine ⟨⟨⟨0, ?_, by decide +kernel⟩, ?_, ?_⟩, ⟨?_, fun _ => ?_⟩⟩ <;>
      · intro f hf
        simp only [mapTypes, List.mem_cons, List.not_mem_nil, or_false] at hf
        rcases hf with rfl | rfl <;>
          simp [exKey, exText, DynField.explicit, DynField.presence, presenceFor]
  | 2 => by
    refine ⟨⟨⟨0, ?_, by decide +kernel⟩, ?_, ?_⟩, ⟨?_, fun h => by cases h⟩⟩ <;>
      · intro f hf
        simp only [mapTypes, List.mem_cons, List.not_mem_nil, or_false] at hf
        subst hf
        simp [exCount, DynField.explicit, DynField.presence, presenceFor, Val.bits, Val.str]
  | _ + 3 => by
    refine ⟨⟨⟨0, ?_, rfl⟩, ?_, ?_⟩, ⟨?_, fun h => by cases h⟩⟩ <;>
      · intro f hf
        simp [mapTypes] at hf

/-- One entry, the number, one group. -/
def mapHistory : DynMsg :=
  exItem.pushMsg mapTypes (fun _ => exCount.setNum 5 (mapTypes 2).empty)
    (exId.setNum 3 (exNames.pushMsg mapTypes
      (fun _ => exText.setStr [65] (exKey.setNum 2 (mapTypes 1).empty)) (mapTypes 0).empty))

/-- It holds the same as this generated message. -/
theorem mapHistory_holds : DynHolds mapTypes True 0 mapHistory
    ⟨[[(0, .msg ⟨[[(0, .num 2)], [(0, .bytes [65])]], []⟩)], [(0, .num 3)],
      [(0, .msg ⟨[[(0, .num 5)]], []⟩)]], []⟩ := by
  refine ⟨2, rfl, rfl, rfl, ?_⟩
  intro i fs hi
  match i with
  | 0 =>
    cases hi
    refine Or.inr (Or.inr ⟨exNames, _, rfl, rfl, ⟨[exText.setStr [65] (exKey.setNum 2 (mapTypes 1).empty)],
      [⟨[[(0, .num 2)], [(0, .bytes [65])]], []⟩], rfl, rfl, rfl, ?_⟩, rfl⟩)
    intro p hp
    cases List.mem_singleton.1 hp
    refine ⟨rfl, rfl, rfl, ?_⟩
    intro i fs hi
    match i with
    | 0 => cases hi; exact Or.inl ⟨0, exKey, _, rfl, rfl, rfl, ⟨2, rfl, rfl⟩, rfl⟩
    | 1 => cases hi; exact Or.inl ⟨0, exText, _, rfl, rfl, rfl, ⟨[65], rfl, rfl⟩, rfl⟩
    | _ + 2 => cases hi
  | 1 => cases hi; exact Or.inl ⟨0, exId, _, rfl, rfl, rfl, ⟨3, rfl, rfl⟩, rfl⟩
  | 2 =>
    cases hi
    refine Or.inr (Or.inr ⟨exItem, _, rfl, rfl, ⟨[exCount.setNum 5 (mapTypes 2).empty],
      [⟨[[(0, .num 5)]], []⟩], rfl, rfl, rfl, ?_⟩, rfl⟩)
    intro p hp
    cases List.mem_singleton.1 hp
    refine ⟨rfl, rfl, rfl, ?_⟩
    intro i fs hi
    match i with
    | 0 => cases hi; exact Or.inl ⟨0, exCount, _, rfl, rfl, rfl, ⟨5, rfl, rfl⟩, rfl⟩
    | _ + 1 => cases hi
  | _ + 3 => cases hi

/-- The entry, the zigzag number, and the group between its tags. -/
example : dynWrite mapTypes (fun _ => true) 100 true 0 mapHistory [] =
    .ok (none, [0x0a, 5, 8, 2, 0x12, 1, 65, 0x10, 6, 0x1b, 8, 5, 0x1c]) := by
  with_unfolding_all rfl

/-- Without `Complete` the claim fails: a required field that is not set is left out of the bytes of a
dynamic message, while a new generated message writes its default. -/
theorem C65_required_disagreement :
    dynWrite mapTypes (fun _ => true) 100 true 0 (mapTypes 0).empty [] = .ok (none, []) ∧
    writeBinpb (mapTypes.cfg fun _ => true) 100 true 0 ((mapTypes.cfg fun _ => true).schema 0).default [] =
      .ok (none, [0x10, 14]) := by
  constructor <;> with_unfolding_all rfl

end HppProto.Props
