import Verif.Props.JsonMore
import Verif.Proofs.JsonAlways

/-!
# C146: `always_print_fields_with_no_presence` for dynamic messages

`AllFormAt T G utf8 S unset d id m j` (`Verif/Spec/JsonAlways.lean`): the JSON value `j` is the form of the message `m` in which every
field without presence is a member; `unset` tells what stands for a singular one that is not set.
-/

namespace HppProto.Props
open HppProto.Json

variable {T : JTypes} {G : Glaze} {utf8 : List Byte → Bool}

/-- C146. With the option, `write_json` writes JSON that denotes the documented form: all fields that are set and all without
presence, the latter with their default if they are not set. Partial: where singular fields without presence that are not set are
numbers or bools, and read as zero. Missing, and false: strings, bytes and enums (`C146_string`), and numbers that were cleared
(`C146_cleared`). -/
theorem C146_documented_partial (L : G.Lawful) (hT : ∀ id, (T id).Ok T) {o : JOpts} {limit id : Nat} {m : DynMsg} {j : JTree}
    (top : (T id).entry = false) (form : AllFormAt T G utf8 (writerStyle o.preserve) Unset.plain (limit + 1) id m j) :
    AllFormAt T G utf8 (writerStyle o.preserve) Unset.documented (limit + 1) id m j ∧
      ∃ t, jsonWriteAll T G o limit id m = .ok t ∧ JsonText j t := by
  refine ⟨allFormAt_mono (fun f m j h => h.2.2) _ _ _ _ form, ?_⟩
  obtain ⟨t, h1, h2⟩ := write_level_all L hT (limit + 1) 0 id m j (allFormAt_mono (fun f m j h => plain_asWritten h) _ _ _ _ form)
  exact ⟨t, h1, [], t, [], ws_nil, spells_of_written top h2, ws_nil, by simp⟩

/-- C146. What is written in general: the members are the same, but a string, bytes or enum that is not set is `null`, and
a number or bool is what `value()` reads. -/
theorem C146_written (L : G.Lawful) (hT : ∀ id, (T id).Ok T) {o : JOpts} {limit id : Nat} {m : DynMsg} {j : JTree}
    (top : (T id).entry = false) (form : AllFormAt T G utf8 (writerStyle o.preserve) Unset.asWritten (limit + 1) id m j) :
    ∃ t, jsonWriteAll T G o limit id m = .ok t ∧ JsonText j t := by
  obtain ⟨t, h1, h2⟩ := write_level_all L hT (limit + 1) 0 id m j form
  exact ⟨t, h1, [], t, [], ws_nil, spells_of_written top h2, ws_nil, by simp⟩

/-! ## Examples -/

def alwaysN := jsonField 1 (.scalar (.varint .i32)) (.int true false) b!"n" b!"n" 0
def alwaysTags := jsonList 2 (.scalar (.str true)) .string b!"tag_list" b!"tagList" 1
def alwaysAge := jsonField 3 (.scalar (.varint .i32)) (.int true false) b!"age" b!"age" 2 true
def alwaysLimit := jsonField 4 (.msg 7) (.msg 7) b!"limit" b!"limit" 3 true
def alwaysName := jsonField 5 (.scalar (.str true)) .string b!"name" b!"name" 4

/-- `message Small { int32 n = 1; repeated string tag_list = 2; optional int32 age = 3; google.protobuf.Int32Value limit = 4; }` -/
def alwaysSmall : JDesc := ⟨[alwaysN, alwaysTags, alwaysAge, alwaysLimit], 4, false, .none⟩

/-- `message Named { int32 n = 1; repeated string tag_list = 2; optional int32 age = 3; google.protobuf.Int32Value limit = 4; string name = 5; }` -/
def alwaysNamed : JDesc := ⟨[alwaysN, alwaysTags, alwaysAge, alwaysLimit, alwaysName], 5, false, .none⟩

theorem alwaysSmall_ok : ∀ id, (withType alwaysSmall id).Ok (withType alwaysSmall) :=
  withType_ok ⟨by decide +kernel, by decide +kernel, by decide +kernel, by decide +kernel⟩ (by decide +kernel) rfl rfl

theorem alwaysNamed_ok : ∀ id, (withType alwaysNamed id).Ok (withType alwaysNamed) :=
  withType_ok ⟨by decide +kernel, by decide +kernel, by decide +kernel, by decide +kernel⟩ (by decide +kernel) rfl rfl

/-- A `Small` with an empty `Int32Value`, otherwise empty. -/
def alwaysExample : DynMsg := [(0, .zero), (0, .zero), (0, .zero), (1, .msg [(0, .zero)])]

def alwaysExampleForm : JTree :=
  .obj [(⟨b!"n", true⟩, .num b!"0"), (⟨b!"tagList", true⟩, .arr []), (⟨b!"limit", true⟩, .num b!"0")]

/-- The hypotheses of `C146_documented_partial` are met. -/
theorem alwaysExample_form (G : Glaze) (d : Nat) :
    AllFormAt (withType alwaysSmall) G (fun _ => true) (writerStyle false) Unset.plain (d + 2) 0 alwaysExample alwaysExampleForm := by
  refine ⟨rfl, [(⟨b!"n", true⟩, .num b!"0"), (⟨b!"tagList", true⟩, .arr []), (⟨b!"limit", true⟩, .num b!"0")], ?_, rfl⟩
  rw [show ((withType alwaysSmall 0).fields.filter fun f => shown f alwaysExample) = [alwaysN, alwaysTags, alwaysLimit] from rfl]
  refine ⟨⟨rfl, rfl, ?_⟩, ⟨rfl, rfl, ?_⟩, ⟨rfl, rfl, ?_⟩, trivial⟩
  · exact ⟨rfl, rfl, 0, (by simp only [IntForm]; decide), rfl⟩
  · exact ⟨[], [], rfl, trivial, rfl⟩
  · exact ⟨_, rfl, rfl, jsonWrapped, rfl, rfl, rfl, rfl, 0, (by simp only [IntForm]; decide), rfl⟩

example : ∃ t, jsonWriteAll (withType alwaysSmall) refGlaze ⟨true, 3, false⟩ 4 0 alwaysExample = .ok t ∧ JsonText alwaysExampleForm t :=
  (C146_documented_partial refGlaze_lawful alwaysSmall_ok rfl (alwaysExample_form refGlaze 3)).2

/-- The text in the example, with and without the option. -/
example : jsonWriteAll (withType alwaysSmall) refGlaze ⟨false, 3, false⟩ 4 0 alwaysExample = .ok b!"{\"n\":0,\"tagList\":[],\"limit\":0}" ∧
    jsonWrite (withType alwaysSmall) refGlaze ⟨false, 3, false⟩ 4 0 alwaysExample = .ok b!"{\"limit\":}" := by
  decide +kernel

/-! ## Disagreements -/

/-- The documented form of an empty `Named`. -/
def alwaysNamedForm : JTree :=
  .obj [(⟨b!"n", true⟩, .num b!"0"), (⟨b!"tagList", true⟩, .arr []), (⟨b!"name", true⟩, .str ⟨[], false⟩)]

theorem alwaysNamed_form (G : Glaze) (d : Nat) {m : DynMsg} (h : m = alwaysNamed.dyn.empty ∨ m = alwaysN.dyn.clear (alwaysN.dyn.setNum 5 alwaysNamed.dyn.empty)) :
    AllFormAt (withType alwaysNamed) G (fun _ => true) (writerStyle false) Unset.documented (d + 1) 0 m alwaysNamedForm := by
  rcases h with rfl | rfl <;>
  · refine ⟨rfl, [(⟨b!"n", true⟩, .num b!"0"), (⟨b!"tagList", true⟩, .arr []), (⟨b!"name", true⟩, .str ⟨[], false⟩)], ?_, rfl⟩
    show All2 _ [alwaysN, alwaysTags, alwaysName] _
    refine ⟨⟨rfl, rfl, ?_⟩, ⟨rfl, rfl, ?_⟩, ⟨rfl, rfl, ?_⟩, trivial⟩
    · exact ⟨0, (by simp only [IntForm]; decide), rfl⟩
    · exact ⟨[], [], rfl, trivial, rfl⟩
    · exact ⟨rfl, rfl⟩

/-- C146 disagreement: a string without presence that is not set is written as `null`, not as `""`. -/
theorem C146_string :
    jsonWriteAll (withType alwaysNamed) refGlaze ⟨false, 3, false⟩ 4 0 alwaysNamed.dyn.empty =
      .ok b!"{\"n\":0,\"tagList\":[],\"name\":null}" := by
  decide +kernel

/-- C146 disagreement: a number without presence that was cleared is written with the value it had before. -/
theorem C146_cleared :
    let m := alwaysN.dyn.clear (alwaysN.dyn.setNum 5 alwaysNamed.dyn.empty)
    alwaysN.dyn.hasValue m = false ∧
    jsonWriteAll (withType alwaysNamed) refGlaze ⟨false, 3, false⟩ 4 0 m = .ok b!"{\"n\":5,\"tagList\":[],\"name\":null}" := by
  decide +kernel

/-- A message of which the documented form is the form without the option: the number and the string are set. -/
def alwaysNamedSet : DynMsg := [(1, .num 0), (0, .zero), (0, .zero), (0, .zero), (1, .str [])]

theorem alwaysNamedSet_form (G : Glaze) :
    FormAt (withType alwaysNamed) G (fun _ => true) anyStyle 1 0 alwaysNamedSet alwaysNamedForm := by
  refine ⟨rfl, [alwaysN, alwaysTags, alwaysName], _, ?_, ?_, ?_, rfl⟩
  · refine ⟨⟨.inl rfl, rfl, .inl ⟨rfl, ?_⟩⟩, ⟨.inl rfl, rfl, .inr ⟨rfl, rfl, .inr ⟨rfl, rfl⟩⟩⟩, ⟨.inl rfl, rfl, .inl ⟨rfl, ?_⟩⟩, trivial⟩
    · exact ⟨0, rfl, 0, (by simp only [IntForm]; decide), rfl⟩
    · exact ⟨[], rfl, rfl, rfl⟩
  · intro f hf
    simp only [List.mem_cons, List.not_mem_nil, or_false] at hf
    show f ∈ alwaysNamed.fields
    rcases hf with rfl | rfl | rfl <;> simp [alwaysNamed]
  · exact List.Perm.refl [alwaysN, alwaysName]

/-- C146 as documented is false: what is written for an empty message does not denote the documented form. -/
theorem C146_statement_false : ¬ ∀ (T : JTypes) (utf8 : List Byte → Bool), (∀ id, (T id).Ok T) → ∀ (o : JOpts) (limit id : Nat) (m : DynMsg) (j : JTree),
    (T id).entry = false → AllFormAt T refGlaze utf8 (writerStyle o.preserve) Unset.documented (limit + 1) id m j →
    ∃ t, jsonWriteAll T refGlaze o limit id m = .ok t ∧ JsonText j t := by
  intro h
  obtain ⟨t, h1, h2⟩ := h (withType alwaysNamed) (fun _ => true) alwaysNamed_ok ⟨false, 3, false⟩ 4 0 _ _ rfl (alwaysNamed_form refGlaze 4 (.inl rfl))
  rw [C146_string] at h1
  cases h1
  obtain ⟨m', h3, h4⟩ := C78_reads (limit := 0) refGlaze_lawful alwaysNamed_ok rfl (alwaysNamedSet_form refGlaze) h2
  have h5 : (match jsonRead (withType alwaysNamed) (fun _ => true) refGlaze 0 0 (withType alwaysNamed 0).dyn.empty b!"{\"n\":0,\"tagList\":[],\"name\":null}" with
    | .ok m => alwaysName.dyn.hasValue m
    | _ => true) = false := by decide +kernel
  rw [h3] at h5
  have h6 := (h4.2 alwaysName (by show alwaysName ∈ alwaysNamed.fields; simp [alwaysNamed])).1
  dsimp only at h5
  rw [h5] at h6
  cases h6

end HppProto.Props
