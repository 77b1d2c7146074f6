import Verif.Proofs.DynamicLevel
import Verif.Props.DynamicWrite
import Verif.Props.Read

/-! C66: reading dynamic messages. -/

namespace HppProto.Props
open Spec

/-- C66. Every input is read into a dynamic message as into the generated message of the same type (with
the same recursion limit): reading never leaves the input, a slot or the size it was given, never throws,
and ends; where the generated reader accepts or rejects, so does this one; and after success the dynamic
message holds what the generated one holds, whatever was in both before. (Where the generated reader
throws, C18, the dynamic one goes on.) -/
theorem C66_dynamic_read {T : DynTypes} (hT : ∀ id, (T id).Ok) (hR : T.Readable) {utf8 : List Byte → Bool}
    (hu : utf8 [] = true) (limit id : Nat) (old : DynMsg) (old' : Msg) (buf : List Byte) :
    ((∃ m, dynRead T utf8 limit id old buf = .ok m) ∨ ∃ e, dynRead T utf8 limit id old buf = .err e) ∧
    (∀ M, readBinpb (T.cfg utf8) limit id old' buf = .ok M →
      ∃ m, dynRead T utf8 limit id old buf = .ok m ∧ DynReads T id m M) ∧
    (∀ e, readBinpb (T.cfg utf8) limit id old' buf = .err e →
      ∃ e', dynRead T utf8 limit id old buf = .err e') ∧
    (∀ m, dynRead T utf8 limit id old buf = .ok m →
      (∃ M, readBinpb (T.cfg utf8) limit id old' buf = .ok M) ∨
        readBinpb (T.cfg utf8) limit id old' buf = .throw) ∧
    (∀ m, dynRead T utf8 limit id old buf = .ok m → ∃ M, DynReads T id m M) := by
  have h := (level_sim hT hR hu (limit + 1)).msg id _ _ ⟨[], buf⟩ (empty_reads hT id utf8)
  have h : DynSim (fun M m => DynReads T id m M) (readBinpb (T.cfg utf8) limit id old' buf)
      (dynRead T utf8 limit id old buf) := by
    refine dsim_bind (P := Rel T id ⟨[], buf⟩) h ?_
    rintro ⟨s, M⟩ ⟨s', m⟩ ⟨-, -, r⟩
    exact dsim_ok r
  cases hg : readBinpb (T.cfg utf8) limit id old' buf with
  | ok M =>
    rw [hg] at h
    obtain ⟨m, h1, h2⟩ := h
    rw [h1]
    refine ⟨Or.inl ⟨m, rfl⟩, ?_, ?_, ?_, ?_⟩
    · rintro M' ⟨⟩
      exact ⟨m, rfl, h2⟩
    · rintro e ⟨⟩
    · rintro m' ⟨⟩
      exact Or.inl ⟨M, rfl⟩
    · rintro m' ⟨⟩
      exact ⟨M, h2⟩
  | err e =>
    rw [hg] at h
    obtain ⟨e', h1⟩ := h
    rw [h1]
    exact ⟨Or.inr ⟨e', rfl⟩, (fun _ h => by cases h), fun _ _ => ⟨e', rfl⟩, (fun _ h => by cases h),
      (fun _ h => by cases h)⟩
  | throw =>
    rw [hg] at h
    refine ⟨?_, (fun _ h => by cases h), (fun _ h => by cases h), fun m _ => Or.inr rfl, ?_⟩
    · rcases h with ⟨e, h⟩ | ⟨M, m, h, -⟩
      · exact Or.inr ⟨e, h⟩
      · exact Or.inl ⟨m, h⟩
    · intro m hm
      rcases h with ⟨e, h⟩ | ⟨M, m', h, h2⟩
      · rw [h] at hm; cases hm
      · rw [h] at hm
        cases hm
        exact ⟨M, h2⟩
  | ub => rw [hg] at h; exact h.elim
  | stuck => rw [hg] at h; exact h.elim

/-- Without closed enums in oneofs both readers accept the same inputs. -/
theorem C66_same_inputs {T : DynTypes} (hT : ∀ id, (T id).Ok) (hR : T.Readable) {utf8 : List Byte → Bool}
    (hu : utf8 [] = true) (hc : noClosedOneof (T.cfg utf8)) (limit id : Nat) (old : DynMsg) (old' : Msg)
    (buf : List Byte) :
    (∃ m, dynRead T utf8 limit id old buf = .ok m) ↔
      ∃ M, readBinpb (T.cfg utf8) limit id old' buf = .ok M := by
  obtain ⟨-, h2, -, h4, -⟩ := C66_dynamic_read hT hR hu limit id old old' buf
  constructor
  · rintro ⟨m, hm⟩
    rcases h4 m hm with h | h
    · exact h
    · rcases C18_terminates_partial (T.cfg utf8) limit id old' buf with ⟨M, e, -⟩ | ⟨e, he⟩ | ⟨-, hn⟩
      · exact ⟨M, e⟩
      · rw [he] at h; cases h
      · exact absurd hc hn
  · rintro ⟨M, hM⟩
    obtain ⟨m, h, -⟩ := h2 M hM
    exact ⟨m, h⟩

/-! ## Examples -/

theorem mapTypes_readable : mapTypes.Readable where
  distinct
    | 0 | 1 | 2 => by decide
    | _ + 3 => by simp [mapTypes]
  entries
    | 0, h | 2, h => by cases h
    | 1, _ => ⟨exKey, exText, rfl, rfl, rfl, rfl, rfl, rfl, rfl, rfl, rfl, rfl, rfl, rfl, fun _ h => by cases h⟩
    | _ + 3, h => by cases h
  closed
    | 0, f, hf, hc, _ => by
      simp only [mapTypes, List.mem_cons, List.not_mem_nil, or_false] at hf
      rcases hf with rfl | rfl | rfl <;> cases hc
    | 1, f, hf, hc, _ => by
      simp only [mapTypes, List.mem_cons, List.not_mem_nil, or_false] at hf
      rcases hf with rfl | rfl <;> cases hc
    | 2, f, hf, hc, _ => by
      simp only [mapTypes, List.mem_cons, List.not_mem_nil, or_false] at hf
      subst hf
      cases hc
    | _ + 3, f, hf, _, _ => by simp [mapTypes] at hf
  enums
    | 0, f, hf, vs, hk => by
      simp only [mapTypes, List.mem_cons, List.not_mem_nil, or_false] at hf
      rcases hf with rfl | rfl | rfl <;> cases hk
    | 1, f, hf, vs, hk => by
      simp only [mapTypes, List.mem_cons, List.not_mem_nil, or_false] at hf
      rcases hf with rfl | rfl <;> cases hk
    | 2, f, hf, vs, hk => by
      simp only [mapTypes, List.mem_cons, List.not_mem_nil, or_false] at hf
      subst hf
      cases hk
    | _ + 3, f, hf, _, _ => by simp [mapTypes] at hf

/-- The bytes written for the example are read back as the message. -/
example : dynRead mapTypes (fun _ => true) 100 0 [] [0x0a, 5, 8, 2, 0x12, 1, 65, 0x10, 6, 0x1b, 8, 5, 0x1c] =
    .ok mapHistory := by
  with_unfolding_all rfl

/-- An entry with only a key gets the default value. -/
example : dynRead mapTypes (fun _ => true) 100 0 [] [0x0a, 2, 8, 2] =
    .ok (exNames.pushMsg mapTypes (fun _ => exText.setStr [] (exKey.setNum 2 (mapTypes 1).empty))
      (mapTypes 0).empty) := by
  with_unfolding_all rfl

/-- An entry that does not start with its key is rejected, and so is a group without end. -/
example : dynRead mapTypes (fun _ => true) 100 0 [] [0x0a, 3, 0x12, 1, 65] = .err .badMessage ∧
    dynRead mapTypes (fun _ => true) 100 0 [] [0x1b, 8, 5] = .err .badMessage := by
  constructor <;> with_unfolding_all rfl

/-! ## Disagreements -/

/-- `int32 count = 1;` without presence. -/
def exPlain : DynField := ⟨1, .scalar (.varint .i32), false, false, none, false, false, .num 0, ⟨0, 1, 0, 0⟩⟩
/-- `float ratio = 2;` without presence. -/
def exRatio : DynField := ⟨2, .scalar (.fixed32 true), false, false, none, false, false, .num 0, ⟨1, 1, 0, 1⟩⟩
/-- `optional Color color = 3;` of a closed enum with the numbers 0 and 1. -/
def exColor : DynField :=
  ⟨3, .scalar (.enum (some [0, 1])), false, false, none, false, true, .num 0, ⟨2, 1, 0, 2⟩⟩

/-- A message with fields without presence and a closed enum. -/
def plainTypes : DynTypes
  | 0 => ⟨[exPlain, exRatio, exColor], 3, false⟩
  | _ => ⟨[], 0, false⟩

theorem plainTypes_ok : ∀ id, (plainTypes id).Ok
  | 0 => by
    refine ⟨⟨0, ?_, by decide +kernel⟩, ?_, ?_⟩ <;>
      · intro f hf
        simp only [plainTypes, List.mem_cons, List.not_mem_nil, or_false] at hf
        rcases hf with rfl | rfl | rfl <;>
          simp [exPlain, exRatio, exColor, DynField.explicit, DynField.presence, presenceFor, Val.bits, Val.str]
  | _ + 1 => by
    refine ⟨⟨0, ?_, rfl⟩, ?_, ?_⟩ <;>
      · intro f hf
        simp [plainTypes] at hf

theorem plainTypes_readable : plainTypes.Readable where
  distinct
    | 0 => by decide
    | _ + 1 => by simp [plainTypes]
  entries
    | 0, h => by cases h
    | _ + 1, h => by cases h
  closed
    | 0, f, hf, hc, _ => by
      simp only [plainTypes, List.mem_cons, List.not_mem_nil, or_false] at hf
      rcases hf with rfl | rfl | rfl <;> revert hc <;> decide
    | _ + 1, f, hf, _, _ => by simp [plainTypes] at hf
  enums
    | 0, f, hf, vs, hk => by
      simp only [plainTypes, List.mem_cons, List.not_mem_nil, or_false] at hf
      rcases hf with rfl | rfl | rfl
      · cases hk
      · cases hk
      · cases hk
        intro x hx
        simp only [List.mem_cons, List.not_mem_nil, or_false] at hx
        rcases hx with rfl | rfl <;> rfl
    | _ + 1, f, hf, _, _ => by simp [plainTypes] at hf

/-- The last value of a field counts, but not in a dynamic message whose field has no presence: after 5 and
then 0 the field is not set, as it should be, and its value still reads 5. -/
theorem C66_stale_value : ∃ m, dynRead plainTypes (fun _ => true) 100 0 [] [8, 5, 8, 0] = .ok m ∧
    exPlain.hasValue m = false ∧ exPlain.value m = .num 5 := by
  refine ⟨_, by with_unfolding_all rfl, rfl, rfl⟩

/-- A field without presence that was sent as −0.0 reads as 0.0. -/
theorem C66_negative_zero : ∃ m, dynRead plainTypes (fun _ => true) 100 0 [] [0x15, 0, 0, 0, 0x80] = .ok m ∧
    exRatio.hasValue m = false ∧ exRatio.value m = .num 0 := by
  refine ⟨_, by with_unfolding_all rfl, rfl, rfl⟩

/-- What the type does not know is dropped: an unknown field and an unknown number of a closed enum leave
an empty message. (Generated messages keep both, unless they are of the kind without unknown fields.) -/
theorem C66_unknown_dropped :
    dynRead plainTypes (fun _ => true) 100 0 [] [0x78, 1, 0x18, 7] = .ok (plainTypes 0).empty := by
  with_unfolding_all rfl

end HppProto.Props
