import Verif.Proofs.ReadObjectKept
import Verif.Props.ReadObject
/-! C116 for message types that keep unknown fields. -/
namespace HppProto.Props
open HppProto Spec

/-- Message types as in `ReadBack`, except that those without closed enums may keep unknown fields. -/
structure KeepBack (C : Cfg) (k : Nat) : Prop where
  types : schemaOk C
  unknown : ∀ id, (C.schema id).unk = .none ∨ noClosedEnum (C.schema id)
  enums : ∀ id, noImplicitClosed (C.schema id)
  defaults : ∀ id, objLike false C (k + 1) id (C.schema id).default

/-- C116 for types that keep unknown fields, of an input `buf` that is the records `rs` and whose kept unknown records have minimal tags at
every level (otherwise false: `C116_overlong_fails`). Missing: closed enums in types that keep unknown fields. -/
theorem C116_read_back_kept_partial (C : Cfg) (k : Nat) (hC : KeepBack C k) (limit id : Nat) (old old' m : Msg) (buf : List Byte)
    (rs : List Rec) (hw : wfAll rs) (he : rawAll rs = buf) (hmin : keptMinimal C (limit + 1) id rs)
    (h : readBinpb C limit id old buf = .ok m) :
    objLike false C (limit + k + 1) id m ∧
    ((wire C (limit + k) id m).length < 2 ^ 31 - 1 → ∃ out, writeBinpb C (limit + k) true id m [] = .ok (none, out) ∧
      readBinpb C (limit + k) id old' out = .ok (tidy C (limit + k + 1) id m)) ∧
    (objOk C (limit + k + 1) id m → tidy C (limit + k + 1) id m = m) := by
  have ho := readBinpb_obj_kept hC.types hC.unknown hC.enums hC.defaults hw he hmin h
  rw [show limit + 1 + k = limit + k + 1 by omega] at ho
  refine ⟨ho, fun hl => ?_, tidy_self _ _ _⟩
  obtain ⟨r1, -, r3⟩ := C10_round_trip_partial C hC.types (limit + k) id m old' [] ho (Nat.lt_trans hl (by decide))
  obtain ⟨out, hw⟩ := r3 hl
  exact ⟨out, hw, r1 out hw⟩

/-- `message M { int32 i = 1; optional M m = 2; extensions 3 to max; }` -/
def keepCfg : Cfg where
  utf8 _ := true
  schema
    | 0 => { slots := [.field 1 (.scalar (.varint .i32)) (.implicit (.num 0)), .field 2 (.msg 0) .optional], unk := .ext }
    | _ => { slots := [], unk := .none }

theorem keep_keepBack : KeepBack keepCfg 0 := by
  refine ⟨⟨?_, ?_, ?_, ?_, ?_, ?_, ?_, ?_⟩, ?_, ?_, ?_⟩
  · intro id n i j a b ha hb h1 h2
    match id with
    | 0 =>
      match i, j with
      | 0, 0 => rfl
      | 1, 1 => rfl
      | 0, 1 =>
        obtain rfl := Option.some.inj ha
        obtain rfl := Option.some.inj hb
        simp [slotKind] at h1 h2; omega
      | 1, 0 =>
        obtain rfl := Option.some.inj ha
        obtain rfl := Option.some.inj hb
        simp [slotKind] at h1 h2; omega
      | _ + 2, _ => simp [keepCfg] at ha
      | _, _ + 2 => simp [keepCfg] at hb
    | _ + 1 => simp [keepCfg] at ha
  · intro id alts h
    match id with
    | 0 | _ + 1 => simp [keepCfg] at h
  · intro id alts h
    match id with
    | 0 | _ + 1 => simp [keepCfg] at h
  · intro id n h
    match id with
    | 0 | _ + 1 =>
      simp only [keepCfg, Spec.fieldKind, List.findSome?_cons, List.findSome?_nil, slotKind] at h
      by_cases h1 : n = 1
      · omega
      · by_cases h2 : n = 2
        · omega
        · have e1 : ¬ (1 : Nat) = n := fun e => h1 e.symm
          have e2 : ¬ (2 : Nat) = n := fun e => h2 e.symm
          simp [e1, e2] at h
  · intro id n k u h
    match id with
    | 0 | _ + 1 => simp [keepCfg] at h
  · intro id h
    match id with
    | 0 | _ + 1 => simp [keepCfg] at h
  · intro id n k card dflt sub h hc hk
    match id with
    | 0 =>
      simp [keepCfg] at h
      rcases h with ⟨-, rfl, rfl⟩ | ⟨-, rfl, rfl⟩
      · rcases hk with hk | hk <;> cases hk
      · rcases hc with hc | hc <;> cases hc
    | _ + 1 => simp [keepCfg] at h
  · intro id n sc dflt h
    match id with
    | 0 =>
      simp [keepCfg] at h
      obtain ⟨-, rfl, rfl⟩ := h
      exact ⟨0, rfl, by constructor <;> decide⟩
    | _ + 1 => simp [keepCfg] at h
  · intro id
    match id with
    | 0 =>
      right
      intro n vs h
      simp only [keepCfg, Spec.fieldKind, List.findSome?_cons, List.findSome?_nil, slotKind] at h
      by_cases h1 : 1 = n
      · subst h1; simp at h
      · by_cases h2 : 2 = n
        · subst h2; simp at h
        · simp [h1, h2] at h
    | _ + 1 => exact .inl rfl
  · intro id n vs dflt h
    match id with
    | 0 | _ + 1 => simp [keepCfg] at h
  · intro id
    match id with
    | 0 =>
      refine ⟨rfl, fun p hp => ?_, List.nodup_nil, fun u hu => absurd hu List.not_mem_nil⟩
      rcases List.mem_cons.1 hp with rfl | hp
      · exact ⟨_, rfl, ⟨0, rfl, by constructor <;> decide⟩, fun h => nomatch h⟩
      · obtain rfl := List.mem_singleton.1 hp
        exact .inl rfl
    | _ + 1 => exact ⟨rfl, fun p hp => absurd hp List.not_mem_nil, rfl⟩

/-- `i: 1`, `m { 3: 7 }`, `16: "x"` and again `3: 5`, with minimal tags. -/
def keepRecs : List Rec :=
  [.varint 0x08 [0x08] [0x01], .len 0x12 [0x12] [0x02] [0x18, 0x07], .len 0x82 [0x82, 0x01] [0x01] [0x78], .varint 0x18 [0x18] [0x05]]

set_option maxRecDepth 100000 in
/-- Those records meet the conditions of `C116_read_back_kept_partial`; the unknown fields of both messages are kept. -/
example : wfAll keepRecs ∧ keptMinimal keepCfg 3 0 keepRecs ∧
    readBinpb keepCfg 2 0 ⟨[], []⟩ (rawAll keepRecs) =
      .ok ⟨[[(0, .num 1)], [(0, .msg ⟨[[(0, .num 0)], []], [(3, [0x18, 0x07])]⟩)]], [(16, [0x82, 0x01, 0x01, 0x78]), (3, [0x18, 0x05])]⟩ := by
  refine ⟨?_, ?_, by with_unfolding_all rfl⟩
  · simp only [keepRecs, wfAll, Rec.wf, isTag, isVarint, and_true]
    decide
  · intro r hr
    simp only [keepRecs, List.mem_cons, List.not_mem_nil, or_false] at hr
    rcases hr with rfl | rfl | rfl | rfl
    · trivial
    · show ∀ inner, wfAll inner → rawAll inner = [0x18, 0x07] → keptMinimal keepCfg 2 0 inner
      intro inner hw he
      rw [recs_unique hw (rs' := [.varint 0x18 [0x18] [0x07]])
        (by simp only [wfAll, Rec.wf, isTag, isVarint, and_true]; decide) (he.trans (by decide))]
      intro r hr
      obtain rfl := List.mem_singleton.1 hr
      show _ ∨ minimalTag _
      right
      simp only [minimalTag]
      decide +kernel
    · show _ ∨ minimalTag _
      right
      simp only [minimalTag]
      decide +kernel
    · show _ ∨ minimalTag _
      right
      simp only [minimalTag]
      decide +kernel

set_option maxRecDepth 100000 in
/-- C116 fails for a kept unknown record whose tag is not minimal: it is read, and what is written cannot be read. -/
theorem C116_overlong_fails : ∃ m, readBinpb keepCfg 2 0 ⟨[], []⟩ [0x98, 0x00, 0x05] = .ok m ∧
    writeBinpb keepCfg 2 true 0 m [] = .ok (none, [0x00, 0x05]) ∧
    readBinpb keepCfg 2 0 ⟨[], []⟩ [0x00, 0x05] = .err .badMessage :=
  ⟨⟨[[(0, .num 0)], []], [(3, [0x00, 0x05])]⟩, by with_unfolding_all rfl, by with_unfolding_all rfl, by with_unfolding_all rfl⟩

end HppProto.Props
