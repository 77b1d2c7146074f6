import Verif.Proofs.ReadObject
import Verif.Proofs.DescriptorTypes
import Verif.Props.Merge
/-! C116: whatever is read can be written, and reads back the same. -/
namespace HppProto.Props
open HppProto Spec

/-- A message type all of whose unknown fields are discarded, whose closed enums all have presence, and whose default values have at most `k` levels
below them. -/
structure ReadBack (C : Cfg) (k : Nat) : Prop where
  types : schemaOk C
  unknown : ∀ id, (C.schema id).unk = .none
  enums : ∀ id, noImplicitClosed (C.schema id)
  defaults : ∀ id, objLike false C (k + 1) id (C.schema id).default

/-- C116. What `read_binpb` accepts is an object of its type. `write_binpb` with `k` more levels than were allowed for reading writes it,
unless its encoding has 2 GiB or more, and reading what was written gives the same object, except that −0.0 in a field without presence
becomes 0.0 (`tidy`). Missing: closed enums without presence; kept unknown fields are in `C116_read_back_kept_partial`. -/
theorem C116_read_back_partial (C : Cfg) (k : Nat) (hC : ReadBack C k) (limit id : Nat) (old old' m : Msg) (buf : List Byte)
    (h : readBinpb C limit id old buf = .ok m) :
    objLike false C (limit + k + 1) id m ∧
    ((wire C (limit + k) id m).length < 2 ^ 31 - 1 → ∃ out, writeBinpb C (limit + k) true id m [] = .ok (none, out) ∧
      readBinpb C (limit + k) id old' out = .ok (tidy C (limit + k + 1) id m)) ∧
    (objOk C (limit + k + 1) id m → tidy C (limit + k + 1) id m = m) := by
  have ho := readBinpb_obj hC.types hC.unknown hC.enums hC.defaults h
  rw [show limit + 1 + k = limit + k + 1 by omega] at ho
  refine ⟨ho, fun hl => ?_, tidy_self _ _ _⟩
  obtain ⟨r1, -, r3⟩ := C10_round_trip_partial C hC.types (limit + k) id m old' [] ho (Nat.lt_trans hl (by decide))
  obtain ⟨out, hw⟩ := r3 hl
  exact ⟨out, hw, r1 out hw⟩

/-- The messages of `descriptor.proto` with `k = 0`, and `name: "a"` with an unknown field. -/
example : ReadBack descriptorCfg 0 := ⟨descriptor_schemaOk, descriptor_unk, descriptor_implicit, descriptor_default false⟩

set_option maxRecDepth 100000 in
example : ∃ m, readBinpb descriptorCfg 100 1 ⟨[], []⟩ [0x0a, 1, 0x61, 0xf8, 1, 3] = .ok m ∧ m.get 0 = [(0, .bytes [0x61])] :=
  ⟨_, by with_unfolding_all rfl, by with_unfolding_all rfl⟩

/-- `message M { map<uint32, V> m = 1; } message V { int32 i = 1; }` -/
def deepCfg : Cfg where
  utf8 _ := true
  schema
    | 0 => { slots := [.field 1 (.msg 1) (.map true)], unk := .none }
    | 1 => { slots := [.field 1 (.scalar (.varint .u32)) (.always (.num 0)),
        .field 2 (.msg 2) (.always (.msg ⟨[[(0, .num 0)]], []⟩))], unk := .none, isEntry := true }
    | 2 => { slots := [.field 1 (.scalar (.varint .i32)) (.implicit (.num 0))], unk := .none }
    | _ => { slots := [], unk := .none }

/-- Those types with `k = 1`. -/
theorem deep_readBack : ReadBack deepCfg 1 := by
  refine ⟨⟨?_, ?_, ?_, ?_, ?_, ?_, ?_, ?_⟩, ?_, ?_, ?_⟩
  · intro id n i j a b ha hb h1 h2
    match id with
    | 0 | 2 =>
      match i, j with
      | 0, 0 => rfl
      | _ + 1, _ => simp [deepCfg] at ha
      | _, _ + 1 => simp [deepCfg] at hb
    | 1 =>
      match i, j with
      | 0, 0 => rfl
      | 1, 1 => rfl
      | 0, 1 =>
        obtain rfl := Option.some.inj ha
        obtain rfl := Option.some.inj hb
        simp [slotKind] at h1 h2; omega
      | 1, 0 =>
        obtain rfl := Option.some.inj ha
        obtain rfl := Option.some.inj hb
        simp [slotKind] at h1 h2; omega
      | _ + 2, _ => simp [deepCfg] at ha
      | _, _ + 2 => simp [deepCfg] at hb
    | _ + 3 => simp [deepCfg] at ha
  · intro id alts h
    match id with
    | 0 | 1 | 2 | _ + 3 => simp [deepCfg] at h
  · intro id alts h
    match id with
    | 0 | 1 | 2 | _ + 3 => simp [deepCfg] at h
  · intro id n h
    match id with
    | 0 | 1 | 2 | _ + 3 =>
      simp only [deepCfg, Spec.fieldKind, List.findSome?_cons, List.findSome?_nil, slotKind] at h
      by_cases h1 : n = 1
      · omega
      · by_cases h2 : n = 2
        · omega
        · have e1 : ¬ (1 : Nat) = n := fun e => h1 e.symm
          have e2 : ¬ (2 : Nat) = n := fun e => h2 e.symm
          simp [e1, e2] at h
  · intro id n k u h
    match id with
    | 0 => simp [deepCfg] at h; exact ⟨1, h.2.1, rfl⟩
    | 1 | 2 | _ + 3 => simp [deepCfg] at h
  · intro id h
    match id with
    | 1 => exact ⟨_, _, _, rfl⟩
    | 0 | 2 | _ + 3 => simp [deepCfg] at h
  · intro id n k card dflt sub h hc hk
    match id with
    | 1 =>
      simp [deepCfg] at h
      rcases h with ⟨-, rfl, rfl⟩ | ⟨-, rfl, rfl⟩
      · rcases hk with hk | hk <;> cases hk
      · rcases hk with hk | hk <;> cases hk
        rcases hc with hc | hc <;> cases hc
        rfl
    | 0 =>
      simp [deepCfg] at h
      obtain ⟨-, -, rfl⟩ := h
      rcases hc with hc | hc <;> cases hc
    | 2 =>
      simp [deepCfg] at h
      obtain ⟨-, rfl, -⟩ := h
      rcases hk with hk | hk <;> cases hk
    | _ + 3 => simp [deepCfg] at h
  · intro id n sc dflt h
    match id with
    | 2 =>
      simp [deepCfg] at h
      obtain ⟨-, rfl, rfl⟩ := h
      exact ⟨0, rfl, by constructor <;> decide⟩
    | 0 | 1 | _ + 3 => simp [deepCfg] at h
  · intro id
    match id with
    | 0 | 1 | 2 | _ + 3 => rfl
  · intro id n vs dflt h
    match id with
    | 0 | 1 | 2 | _ + 3 => simp [deepCfg] at h
  · intro id
    match id with
    | 0 =>
      refine ⟨rfl, fun p hp => ?_, rfl⟩
      obtain rfl := List.mem_singleton.1 hp
      exact ⟨fun e he => absurd he List.not_mem_nil, .nil⟩
    | 1 =>
      refine ⟨rfl, fun p hp => ?_, rfl⟩
      rcases List.mem_cons.1 hp with rfl | hp
      · exact ⟨.num 0, rfl, 0, rfl, by show _ < _; decide⟩
      · obtain rfl := List.mem_singleton.1 hp
        refine ⟨_, rfl, _, rfl, rfl, fun p hp => ?_, rfl⟩
        obtain rfl := List.mem_singleton.1 hp
        exact ⟨_, rfl, ⟨0, rfl, by constructor <;> decide⟩, fun h => nomatch h⟩
    | 2 =>
      refine ⟨rfl, fun p hp => ?_, rfl⟩
      obtain rfl := List.mem_singleton.1 hp
      exact ⟨_, rfl, ⟨0, rfl, by constructor <;> decide⟩, fun h => nomatch h⟩
    | _ + 3 => exact ⟨rfl, fun p hp => absurd hp List.not_mem_nil, rfl⟩

set_option maxRecDepth 100000 in
/-- C116, why `k` is needed: `m {7: }` without a value is read with a limit of one level. It then has a value, and cannot be written
with that limit; it can with one more level. -/
theorem C116_same_limit_fails : ∃ m, readBinpb deepCfg 1 0 ⟨[[]], []⟩ [0x0a, 2, 8, 7] = .ok m ∧
    writeBinpb deepCfg 1 true 0 m [] = .ok (some .badMessage, []) ∧
    writeBinpb deepCfg 2 true 0 m [] = .ok (none, [0x0a, 4, 8, 7, 0x12, 0]) :=
  ⟨_, by with_unfolding_all rfl, by with_unfolding_all rfl, by with_unfolding_all rfl⟩

end HppProto.Props
