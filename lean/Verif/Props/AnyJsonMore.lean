import Verif.Props.AnyJson
import Verif.Props.JsonMore

/-! # C105, C107: where the JSON of `google.protobuf.Any` goes wrong -/

namespace HppProto.Props
open HppProto.Json

/-! ## C105 -/

/-- An `Any` with a payload that has a message in it. -/
def anyNested : DynMsg := [(1, .str b!"/Note"), (1, .str [0x1a, 0x02, 0x08, 0x05])]

theorem nested_form (G : Glaze) (preserve : Bool) :
    AnyFormAt anyTypes G (fun _ => true) anyEnv (writerStyle preserve) (fun _ _ => True) true (anyEnv.limit + 1) .outside 10 anyNested
      (.obj [(typeKey, .str ⟨b!"/Note", false⟩), (⟨b!"child", true⟩, .obj [(⟨b!"n", true⟩, .num b!"5")])]) := by
  refine ⟨rfl, anyUrl, anyBytes, _, _, 11, noteDeep,
    [(⟨b!"child", true⟩, .obj [(⟨b!"n", true⟩, .num b!"5")])], rfl, rfl, rfl, rfl,
    ⟨⟨[], b!"Note", rfl, by decide, by decide, rfl⟩, by with_unfolding_all rfl⟩, trivial, ?_, rfl⟩
  refine ⟨rfl, [noteChild], [(⟨b!"child", true⟩, .obj [(⟨b!"n", true⟩, .num b!"5")])], ?_, ?_, rfl, rfl⟩
  · refine ⟨⟨by cases preserve <;> rfl, rfl, .inl ⟨rfl, noteFive, rfl, ?_⟩⟩, trivial⟩
    refine ⟨.inl rfl, rfl, [noteN], [(⟨b!"n", true⟩, .num b!"5")], ?_, noteN_in, rfl, rfl⟩
    exact ⟨⟨by cases preserve <;> rfl, rfl, .inl ⟨rfl, 5, rfl, 5, ⟨rfl, by decide, by decide⟩, rfl⟩⟩, trivial⟩
  · intro f hf
    rw [List.mem_singleton.1 hf]
    simp [anyTypes]

/-- The message in the payload has no braces, so what is written is not JSON. -/
theorem C105_nested (G : Glaze) (L : G.Lawful) :
    DynReach anyTypes.dyn False 10 anyNested ∧
    jsonWriteAny anyTypes (fun _ => true) G anyEnv ⟨false, 3, false⟩ 10 anyNested = .ok b!"{\"@type\":\"/Note\",\"child\":\"n\":5}" ∧
    ¬ ∃ j, JsonText j b!"{\"@type\":\"/Note\",\"child\":\"n\":5}" := by
  refine ⟨?_, ?_, ?_⟩
  · have h1 : DynReach anyTypes.dyn False 10 _ :=
      .step .empty (.setStr (f := anyUrl.dyn) (by simp [JTypes.dyn, anyTypes, JDesc.dyn]) rfl rfl b!"/Note")
    exact .step h1 (.setStr (f := anyBytes.dyn) (by simp [JTypes.dyn, anyTypes, JDesc.dyn]) rfl rfl [0x1a, 0x02, 0x08, 0x05])
  · have hn := L.writePlain b!"n" (plain_check (by decide))
    have hc := L.writePlain b!"child" (plain_check (by decide))
    have hu := L.writePlain b!"/Note" (plain_check (by decide))
    have h1 : (anyWriters anyTypes (fun _ => true) G anyEnv ⟨false, 3, false⟩ 8).payload 0 11 noteDeep = .ok b!"\"child\":\"n\":5" := by
      show Res.ok (List.intercalate [0x2c] [G.writeStr b!"child" ++ 0x3a :: [] ++
        List.intercalate [0x2c] [G.writeStr b!"n" ++ 0x3a :: [] ++ b!"5"]]) = _
      rw [hn, hc]
      rfl
    have h2 : jsonWriteAny anyTypes (fun _ => true) G anyEnv ⟨false, 3, false⟩ 10 anyNested =
        ((anyWriters anyTypes (fun _ => true) G anyEnv ⟨false, 3, false⟩ 8).payload 0 11 noteDeep >>= fun t =>
          .ok (if t = [] then quoted b!"@type" ++ 0x3a :: [] ++ G.writeStr b!"/Note"
            else quoted b!"@type" ++ 0x3a :: [] ++ G.writeStr b!"/Note" ++ 0x2c :: [] ++ t)) >>= fun t =>
        .ok (inBraces ⟨false, 3, false⟩ 0 t) := by
      with_unfolding_all rfl
    rw [h2, h1, hu]
    rfl
  · rintro ⟨j, h⟩
    have := json_colons h
    exact absurd this (by decide +kernel)

/-- An `Any` with an `Int32Value` that is 0: its encoding is empty. -/
def anyZero : DynMsg := [(1, .str b!"/Int32Value"), (0, .zero)]

/-- It is written with nothing after the last colon. -/
theorem C105_zero (G : Glaze) (L : G.Lawful) :
    DynReach anyTypes.dyn False 10 anyZero ∧
    jsonWriteAny anyTypes (fun _ => true) G anyEnv ⟨false, 3, false⟩ 10 anyZero = .ok b!"{\"@type\":\"/Int32Value\",\"value\":}" ∧
    ¬ ∃ j, JsonText j b!"{\"@type\":\"/Int32Value\",\"value\":}" := by
  refine ⟨?_, ?_, colon_not_json b!"\"@type\":\"/Int32Value\",\"value\""⟩
  · exact .step .empty (.setStr (f := anyUrl.dyn) (by simp [JTypes.dyn, anyTypes, JDesc.dyn]) rfl rfl b!"/Int32Value")
  · have hu := L.writePlain b!"/Int32Value" (plain_check (by decide))
    have h2 : jsonWriteAny anyTypes (fun _ => true) G anyEnv ⟨false, 3, false⟩ 10 anyZero =
        .ok (inBraces ⟨false, 3, false⟩ 0 (quoted b!"@type" ++ 0x3a :: [] ++ G.writeStr b!"/Int32Value" ++
          0x2c :: [] ++ quoted b!"value" ++ 0x3a :: [] ++ [])) := by
      with_unfolding_all rfl
    rw [h2, hu]
    rfl

/-- C105 as stated does not hold. -/
theorem C105_disagreement : ¬ C105_statement := by
  intro h
  obtain ⟨t, h1, h2⟩ := h anyTypes refGlaze (fun _ => true) anyEnv ⟨false, 3, false⟩ anyTypes_ok refGlaze_lawful 10 anyNested _ rfl
    (nested_form refGlaze false)
  obtain ⟨_, h3, h4⟩ := C105_nested refGlaze refGlaze_lawful
  rw [h3] at h1
  exact h4 ⟨_, by injection h1 with h1; rw [h1]; exact h2⟩

/-! ## C107 -/

/-- The empty `Any` is written as `{}`, which is not read. -/
theorem C107_empty (G : Glaze) :
    DynReach anyTypes.dyn False 10 (anyTypes 10).dyn.empty ∧
    jsonWriteAny anyTypes (fun _ => true) G anyEnv ⟨false, 3, false⟩ 10 (anyTypes 10).dyn.empty = .ok b!"{}" ∧
    ∀ m, jsonReadAny anyTypes (fun _ => true) G anyEnv 10 m b!"{}" = .err .badMessage :=
  ⟨.empty, by with_unfolding_all rfl, fun _ => by with_unfolding_all rfl⟩

/-- The empty `Any` of a generated class is not written at all. -/
theorem C107_generated (G : Glaze) (l : AnyWriters) (ind : Nat) :
    writeGenAny anyTypes (fun _ => true) G anyEnv ⟨false, 3, false⟩ l ind [] [] = .err .badMessage := by
  with_unfolding_all rfl

/-- The URL is not checked to be UTF-8 when it is read, so a message can be read that cannot be encoded. -/
theorem C107_utf8 :
    ∃ m, jsonReadAny anyTypes (·.all (· < 0x80)) refGlaze anyEnv 10 (anyTypes 10).dyn.empty (b!"{\"@type\":\"" ++ 0xff :: b!"/Note\"}") = .ok m ∧
      ∃ out, dynWrite anyTypes.dyn (·.all (· < 0x80)) 8 true 10 m [] = .ok (some .badMessage, out) :=
  ⟨[(1, .str (0xff :: b!"/Note")), (1, .str [])], by with_unfolding_all rfl, _, by with_unfolding_all rfl⟩

/-- C107 as stated does not hold. -/
theorem C107_disagreement : ¬ C107_statement := by
  intro h
  obtain ⟨h1, h2, h3⟩ := C107_empty refGlaze
  obtain ⟨m', h4, _⟩ := h anyTypes refGlaze (fun _ => true) anyEnv ⟨false, 3, false⟩ anyTypes_ok refGlaze_lawful anyEnv_lawful 10 _ rfl h1 _ h2
  rw [h3] at h4
  cases h4

end HppProto.Props
