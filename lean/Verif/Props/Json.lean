import Verif.Props.JsonTypes
import Verif.Props.DynamicHistory
import Verif.Proofs.JsonLevel

/-!
# C76-C78: JSON of dynamic messages

`FormAt T G utf8 S d id m j` (`Verif/Spec/JsonForm.lean`): the JSON value `j` is the ProtoJSON form of the message `m`
of type `id`. `JsonText j t` (`Verif/Spec/JsonText.lean`): the text `t` spells `j` by the grammar of RFC 8259.
`G.Lawful` is what is assumed of the library glaze.
-/

namespace HppProto.Props
open HppProto.Json

variable {T : JTypes} {G : Glaze} {utf8 : List Byte → Bool}

theorem spells_of_written {id : Nat} {j : JTree} {t : List Byte} (top : (T id).entry = false) (h : Written T id j t) :
    Spells j t := by
  unfold Written at h
  rw [top] at h
  simpa using h

theorem written_of_spells {id : Nat} {j : JTree} {t : List Byte} (top : (T id).entry = false) (h : Spells j t) :
    Written T id j t := by
  unfold Written
  rw [top]
  simpa using h

/-- C76. With every option, `write_json` succeeds for a message that has a JSON form and is nested at most as deep as the
limit allows, and what it writes is JSON that denotes this form. -/
theorem C76_writes (L : G.Lawful) (hT : ∀ id, (T id).Ok T) {o : JOpts} {limit id : Nat} {m : DynMsg} {j : JTree}
    (top : (T id).entry = false) (form : FormAt T G utf8 (writerStyle o.preserve) (limit + 1) id m j) :
    ∃ t, jsonWrite T G o limit id m = .ok t ∧ JsonText j t := by
  obtain ⟨t, h1, h2⟩ := write_level L hT (limit + 1) 0 id m j form
  exact ⟨t, h1, [], t, [], ws_nil, spells_of_written top h2, ws_nil, by simp⟩

/-- C78. `read_json` accepts every JSON text, with any whitespace, escapes and order of members, of any JSON value that
stands for a message, and the empty message it is given then holds what this message holds. -/
theorem C78_reads (L : G.Lawful) (hT : ∀ id, (T id).Ok T) {limit id : Nat} {m : DynMsg} {j : JTree} {t : List Byte}
    (top : (T id).entry = false) (form : FormAt T G utf8 anyStyle (limit + 1) id m j) (text : JsonText j t) :
    ∃ m', jsonRead T utf8 G limit id (T id).dyn.empty t = .ok m' ∧ SameAt T (limit + 1) id m m' := by
  obtain ⟨a, u, b, ha, hu, hb, rfl⟩ := text
  have hb' : numChar (look b) = false := by
    have := numChar_ws hb (show numChar 0 = false from rfl) []
    cases b with
    | nil => rfl
    | cons c b => exact this
  obtain ⟨m', h1, h2⟩ := read_level L hT (limit + 1) id m j a u b form (written_of_spells top hu) ha hb'
  refine ⟨m', ?_, h2⟩
  have e : skipWs b = [] := by
    have := skipWs_append (s := []) hb
    simpa [skipWs] using this
  rw [jsonRead, h1]
  simp only [res_bind_ok]
  rw [if_pos e]

/-- C77. What `write_json` writes, with any options, is read back by `read_json` as a message that holds the same. -/
theorem C77_round_trip (L : G.Lawful) (hT : ∀ id, (T id).Ok T) {o : JOpts} {limit id : Nat} {m : DynMsg} {j : JTree}
    (top : (T id).entry = false) (form : FormAt T G utf8 (writerStyle o.preserve) (limit + 1) id m j) :
    ∃ t m', jsonWrite T G o limit id m = .ok t ∧ jsonRead T utf8 G limit id (T id).dyn.empty t = .ok m' ∧
      SameAt T (limit + 1) id m m' := by
  obtain ⟨t, h1, h2⟩ := C76_writes L hT top form
  obtain ⟨m', h3, h4⟩ := C78_reads L hT top (form_weaken hT _ _ _ _ form) h2
  exact ⟨t, m', h1, h3, h4⟩

/-! ## A message -/

/-- `{age: -5, tag_list: ["a", "\""], color: 3, marks: {"k": 7}, extra: [null], nick: "n", born_at: 1970-01-01, nums: [],
limit: 0}` -/
def jsonExample : DynMsg :=
  [(1, .num (-5)), (2, .strs [[0x61], [0x22]]), (1, .num 3), (1, .msgs [[(1, .str [0x6b]), (1, .num 7)]]),
   (1, .msg [(7, .msg [(1, .msgs [[(2, .num 0)]])])]), (2, .str [0x6e]), (1, .msg [(0, .zero), (0, .zero)]), (0, .zero),
   (1, .msg [(1, .num 0)])]

/-- Its JSON form. -/
def jsonExampleForm : JTree :=
  .obj [(⟨b!"age", true⟩, .num b!"-5"), (⟨b!"tagList", true⟩, .arr [.str ⟨[0x61], false⟩, .str ⟨[0x22], false⟩]),
    (⟨b!"color", true⟩, .str ⟨b!"GREEN", true⟩), (⟨b!"marks", true⟩, .obj [(⟨b!"k", false⟩, .str ⟨b!"7", true⟩)]),
    (⟨b!"extra", true⟩, .arr [.null]), (⟨b!"nick", true⟩, .str ⟨b!"n", false⟩),
    (⟨b!"bornAt", true⟩, .str ⟨b!"1970-01-01T00:00:00Z", true⟩), (⟨b!"limit", true⟩, .num b!"0")]

/-- The example has the form of the writer. -/
theorem jsonExample_form (G : Glaze) (d : Nat) :
    FormAt jsonTypes G (fun _ => true) (writerStyle false) (d + 5) 0 jsonExample jsonExampleForm := by
  refine ⟨rfl, [jsonAge, jsonTags, jsonColorField, jsonMarks, jsonExtra, jsonNick, jsonBorn, jsonLimit], _, ?_, ?_, ?_, rfl⟩
  · refine ⟨⟨rfl, rfl, .inl ⟨rfl, ?_⟩⟩, ⟨rfl, rfl, .inl ⟨rfl, ?_⟩⟩, ⟨rfl, rfl, .inl ⟨rfl, ?_⟩⟩, ⟨rfl, rfl, .inl ⟨rfl, ?_⟩⟩,
      ⟨rfl, rfl, .inl ⟨rfl, ?_⟩⟩, ⟨rfl, rfl, .inl ⟨rfl, ?_⟩⟩, ⟨rfl, rfl, .inl ⟨rfl, ?_⟩⟩, ⟨rfl, rfl, .inl ⟨rfl, ?_⟩⟩, trivial⟩
    · exact ⟨-5, rfl, -5, (by simp only [IntForm]; decide), rfl⟩
    · exact ⟨[[0x61], [0x22]], [.str ⟨[0x61], false⟩, .str ⟨[0x22], false⟩], rfl, ⟨⟨rfl, rfl⟩, ⟨rfl, rfl⟩, trivial⟩, rfl⟩
    · exact ⟨3, rfl, rfl, .inl ⟨(b!"GREEN", 3), by decide, rfl, rfl⟩⟩
    · exact ⟨[[(1, .str [0x6b]), (1, .num 7)]], rfl, [(⟨b!"k", false⟩, .str ⟨b!"7", true⟩)], ⟨⟨rfl, jsonKey, jsonMark, _, _, rfl, rfl, rfl, ⟨_, rfl, rfl, rfl⟩, ⟨7, rfl, 7, (by simp only [IntForm]; decide), rfl⟩, rfl⟩,
        trivial⟩, rfl⟩
    · refine ⟨_, rfl, rfl, jsonListValue, by simp [jsonTypes], rfl,
        .inr ⟨_, rfl, rfl, jsonValues, rfl, [[(2, .num 0)]], rfl, [.null], ⟨⟨rfl, ?_⟩, trivial⟩, rfl⟩⟩
      exact ⟨jsonNull, by simp [jsonTypes], rfl, .inl ⟨_, rfl, rfl, rfl, rfl⟩⟩
    · exact ⟨_, rfl, rfl, rfl⟩
    · exact ⟨_, rfl, rfl, jsonSeconds, jsonNanos, 0, 0, b!"1970-01-01T00:00:00Z", rfl, rfl, rfl, by decide +kernel, rfl⟩
    · exact ⟨_, rfl, rfl, jsonWrapped, rfl, rfl, 0, rfl, 0, (by simp only [IntForm]; decide), rfl⟩
  · intro f hf
    simp only [List.mem_cons, List.not_mem_nil, or_false] at hf
    show f ∈ jsonPerson.fields
    rcases hf with rfl | rfl | rfl | rfl | rfl | rfl | rfl | rfl <;> simp [jsonPerson]
  · rfl

/-- The hypotheses of `C76_writes` and `C77_round_trip` are met. -/
example : ∃ t, jsonWrite jsonTypes refGlaze ⟨true, 3, false⟩ 4 0 jsonExample = .ok t ∧ JsonText jsonExampleForm t :=
  C76_writes refGlaze_lawful jsonTypes_ok rfl (jsonExample_form refGlaze 0)

example : ∃ t m', jsonWrite jsonTypes refGlaze ⟨false, 3, false⟩ 4 0 jsonExample = .ok t ∧
    jsonRead jsonTypes (fun _ => true) refGlaze 4 0 jsonPerson.dyn.empty t = .ok m' ∧ SameAt jsonTypes 5 0 jsonExample m' :=
  C77_round_trip refGlaze_lawful jsonTypes_ok rfl (jsonExample_form refGlaze 0)

/-- The text in the example. -/
example : jsonWrite jsonTypes refGlaze ⟨false, 3, false⟩ 4 0 jsonExample = .ok b!"{\"age\":-5,\"tagList\":[\"a\",\"\\\"\"],\"color\":\"GREEN\",\"marks\":{\"k\":\"7\"},\"extra\":[null],\"nick\":\"n\",\"bornAt\":\"1970-01-01T00:00:00Z\",\"limit\":0}" := by
  decide +kernel

/-- The hypotheses of `C78_reads` are met by a form in which `color` is `null`, before `age`, the key of `tag_list` is the
name in the proto file, and the map `marks` is given as empty. -/
theorem jsonSmall_form (G : Glaze) (d : Nat) :
    FormAt jsonTypes G (fun _ => true) anyStyle (d + 1) 0
      [(1, .num (-5)), (1, .strs [[0x61]]), (0, .zero), (0, .zero), (0, .zero), (0, .zero), (0, .zero), (0, .zero), (0, .zero)]
      (.obj [(⟨b!"color", true⟩, .null), (⟨b!"tag_list", true⟩, .arr [.str ⟨[0x61], false⟩]), (⟨b!"age", true⟩, .num b!"-5"),
        (⟨b!"marks", true⟩, .obj [])]) := by
  refine ⟨rfl, [jsonColorField, jsonTags, jsonAge, jsonMarks], _, ?_, ?_, ?_, rfl⟩
  · refine ⟨⟨.inl rfl, rfl, .inr ⟨rfl, rfl, .inl ⟨rfl, rfl, rfl⟩⟩⟩, ⟨.inr rfl, rfl, .inl ⟨rfl, ?_⟩⟩, ⟨.inl rfl, rfl, .inl ⟨rfl, ?_⟩⟩,
      ⟨.inl rfl, rfl, .inr ⟨rfl, rfl, .inr ⟨rfl, rfl⟩⟩⟩, trivial⟩
    · exact ⟨[[0x61]], [.str ⟨[0x61], false⟩], rfl, ⟨⟨rfl, rfl⟩, trivial⟩, rfl⟩
    · exact ⟨-5, rfl, -5, (by simp only [IntForm]; decide), rfl⟩
  · intro f hf
    simp only [List.mem_cons, List.not_mem_nil, or_false] at hf
    show f ∈ jsonPerson.fields
    rcases hf with rfl | rfl | rfl | rfl <;> simp [jsonPerson]
  · exact List.Perm.swap jsonAge jsonTags []

example {t : List Byte} := C78_reads (t := t) refGlaze_lawful jsonTypes_ok rfl (jsonSmall_form refGlaze 0)

end HppProto.Props
