import Verif.Props.GenJsonTypes
import Verif.Props.JsonMore

/-!
# C90-C94: JSON of generated messages

`GFormAt T G utf8 S d id m j` (`Verif/Spec/GenJson.lean`): the JSON value `j` is the ProtoJSON form of the generated message
`m` of type `id`. `JsonText j t` (`Verif/Spec/JsonText.lean`): the text `t` spells `j` by the grammar of RFC 8259.
`G.Lawful` is what is assumed of the library glaze.
-/

namespace HppProto.Props
open HppProto.Json

variable {T : GTypes} {G : Glaze} {utf8 : List Byte → Bool}

/-! ## C90: writing -/

/-- The full claim of C90: `write_json` succeeds for every message that has a JSON form, and writes this form. -/
def C90_statement : Prop :=
  ∀ (T : GTypes) (G : Glaze) (utf8 : List Byte → Bool), G.Lawful → (∀ id, (T id).Ok T) →
    ∀ (o : GOpts) (lossy : Bool) (d id : Nat) (m : Msg) (j : JTree),
      GFormAt T G utf8 (genStyle o.jopts.preserve o.always lossy) d id m j →
      ∃ t, genWrite T G o d id m = .ok t ∧ JsonText j t

/-- C90, for classes whose oneofs have no 64-bit integers. With every option, `write_json` succeeds for a message that has a
JSON form, and what it writes is JSON that denotes this form. -/
theorem C90_writes_partial (L : G.Lawful) (hT : ∀ id, (T id).Ok T) (narrow : ∀ id, (T id).NarrowOneofs) {o : GOpts} {lossy : Bool}
    {d id : Nat} {m : Msg} {j : JTree} (form : GFormAt T G utf8 (genStyle o.jopts.preserve o.always lossy) d id m j) :
    ∃ t, genWrite T G o d id m = .ok t ∧ JsonText j t := by
  obtain ⟨t, h1, h2⟩ := gen_level L (genStyle_written o.jopts.preserve o.always lossy) hT narrow d 0 id m j form
  exact ⟨t, h1, [], t, [], ws_nil, h2, ws_nil, by simp⟩

/-! ## C91: reading -/

/-- C91. `read_json` accepts every JSON text, with any whitespace, escapes and order of members, of any JSON value that
stands for a message, and the message it is given, whatever it held before, is then exactly this message. -/
theorem C91_reads (L : G.Lawful) (hT : ∀ id, (T id).Ok T) {d id : Nat} {m : Msg} {j : JTree} {t : List Byte}
    (form : GFormAt T G utf8 genAnyStyle d id m j) (text : JsonText j t) (old : Msg) :
    genRead T utf8 G d id old t = .ok m :=
  gen_read_text L hT form text

/-- A JSON value stands for one message at most. -/
theorem C91_unique (L : G.Lawful) (hT : ∀ id, (T id).Ok T) {d id : Nat} {m m' : Msg} {j : JTree}
    (form : GFormAt T G utf8 genAnyStyle d id m j) (form' : GFormAt T G utf8 genAnyStyle d id m' j) {t : List Byte}
    (text : JsonText j t) : m = m' := by
  have h := C91_reads L hT form text m
  rw [C91_reads L hT form' text m] at h
  cases h
  rfl

/-! ## C92: round trip -/

/-- The full claim of C92: what is written for a message that has a JSON form is read back as the same message. -/
def C92_statement : Prop :=
  ∀ (T : GTypes) (G : Glaze) (utf8 : List Byte → Bool), G.Lawful → (∀ id, (T id).Ok T) →
    ∀ (o : GOpts) (d id : Nat) (m old : Msg) (j : JTree), GFormAt T G utf8 (genStyle o.jopts.preserve o.always true) d id m j →
      ∃ t, genWrite T G o d id m = .ok t ∧ genRead T utf8 G d id old t = .ok m

/-- C92, for classes whose oneofs have no 64-bit integers, and messages in which no optional field or oneof holds a
`google.protobuf.Value` that is null and every required enum has a name: what `write_json` writes, with any options, is
read back by `read_json` as the same message. -/
theorem C92_round_trip_partial (L : G.Lawful) (hT : ∀ id, (T id).Ok T) (narrow : ∀ id, (T id).NarrowOneofs) {o : GOpts}
    {d id : Nat} {m : Msg} {j : JTree} (form : GFormAt T G utf8 (genStyle o.jopts.preserve o.always false) d id m j) (old : Msg) :
    ∃ t, genWrite T G o d id m = .ok t ∧ genRead T utf8 G d id old t = .ok m := by
  obtain ⟨t, h1, h2⟩ := C90_writes_partial L hT narrow form
  exact ⟨t, h1, C91_reads L hT (gen_form_weaken hT d id m j form) h2 old⟩

/-- Two such messages that are written as the same text, with whatever options, are equal. -/
theorem C92_injective_partial (L : G.Lawful) (hT : ∀ id, (T id).Ok T) (narrow : ∀ id, (T id).NarrowOneofs) {o o' : GOpts}
    {d id : Nat} {m m' : Msg} {j j' : JTree} (form : GFormAt T G utf8 (genStyle o.jopts.preserve o.always false) d id m j)
    (form' : GFormAt T G utf8 (genStyle o'.jopts.preserve o'.always false) d id m' j')
    (same : genWrite T G o d id m = genWrite T G o' d id m') : m = m' := by
  obtain ⟨t, h1, h2⟩ := C92_round_trip_partial L hT narrow form m
  obtain ⟨t', h1', h2'⟩ := C92_round_trip_partial L hT narrow form' m
  rw [same, h1'] at h1
  cases h1
  rw [h2'] at h2
  cases h2
  rfl

/-! ## C93: generated and dynamic messages -/

/-- C93. What is written for a dynamic message is read as the generated message that has the same JSON form. -/
theorem C93_dynamic_to_generated {D : JTypes} (L : G.Lawful) (hD : ∀ id, (D id).Ok D) (hT : ∀ id, (T id).Ok T) {o : JOpts}
    {limit d did id : Nat} {x : DynMsg} {m : Msg} {j : JTree} (top : (D did).entry = false)
    (form : FormAt D G utf8 (writerStyle o.preserve) (limit + 1) did x j) (form' : GFormAt T G utf8 genAnyStyle d id m j) (old : Msg) :
    ∃ t, jsonWrite D G o limit did x = .ok t ∧ genRead T utf8 G d id old t = .ok m := by
  obtain ⟨t, h1, h2⟩ := C76_writes L hD top form
  exact ⟨t, h1, C91_reads L hT form' h2 old⟩

/-- C93. What is written for a generated message is read as a dynamic message that holds what the dynamic message with the same
JSON form holds. -/
theorem C93_generated_to_dynamic {D : JTypes} (L : G.Lawful) (hD : ∀ id, (D id).Ok D) (hT : ∀ id, (T id).Ok T)
    (narrow : ∀ id, (T id).NarrowOneofs) {o : GOpts} {lossy : Bool} {limit d did id : Nat} {x : DynMsg} {m : Msg} {j : JTree}
    (top : (D did).entry = false) (form : GFormAt T G utf8 (genStyle o.jopts.preserve o.always lossy) d id m j)
    (form' : FormAt D G utf8 anyStyle (limit + 1) did x j) :
    ∃ t x', genWrite T G o d id m = .ok t ∧ jsonRead D utf8 G limit did (D did).dyn.empty t = .ok x' ∧
      SameAt D (limit + 1) did x x' := by
  obtain ⟨t, h1, h2⟩ := C90_writes_partial L hT narrow form
  obtain ⟨x', h3, h4⟩ := C78_reads L hD top form' h2
  exact ⟨t, x', h1, h3, h4⟩

/-! ## C94: reading any text -/

/-- C94. Whatever bytes `read_json` is given for a generated message, and whatever the message held, it succeeds or reports an
error, if the stack has room for as many levels of nested calls as there are bytes and the types do not use
`google.protobuf.Any`: it does not use a value that is not there and does not loop forever. -/
theorem C94_defined (L : G.Lawful) (hT : ∀ id, (T id).Ok T) (noAny : ∀ id, (T id).wk ≠ .any) (d id : Nat) (old : Msg)
    (text : List Byte) (room : text.length < d) :
    (∃ m, genRead T utf8 G d id old text = .ok m) ∨ ∃ e, genRead T utf8 G d id old text = .err e := by
  have h := fine_genLevel (utf8 := utf8) L hT noAny d id (T id).default text (shaped_default hT id) room
  unfold genRead
  revert h
  cases genReadLevel T utf8 G d id (T id).default text with
  | ok p =>
    intro _
    by_cases e : skipWs p.2 = []
    · exact .inl ⟨p.1, if_pos e⟩
    · exact .inr ⟨.badMessage, if_neg e⟩
  | err e => intro _; exact .inr ⟨e, rfl⟩
  | ub => intro h; exact h.elim
  | throw => intro h; exact h.elim
  | stuck => intro h; exact h.elim

/-! ## Messages -/

/-- `jsonExample` as a generated message. -/
def genExample : Msg :=
  ⟨[[(0, .num (-5))], [(0, .bytes [0x61]), (0, .bytes [0x22])], [(0, .num 3)],
    [(0, .msg ⟨[[(0, .bytes [0x6b])], [(0, .num 7)]], []⟩)],
    [(0, .msg ⟨[[(5, .msg ⟨[[(0, .msg ⟨[[(0, .num 0)]], []⟩)]], []⟩)]], []⟩)],
    [(0, .bytes [0x6e])], [(0, .msg ⟨[[(0, .num 0)], [(0, .num 0)]], []⟩)], [], [(0, .msg ⟨[[(0, .num 0)]], []⟩)]], []⟩

theorem genExample_form (G : Glaze) (d : Nat) :
    GFormAt genTypes G (fun _ => true) (genStyle false false false) (d + 5) 0 genExample jsonExampleForm := by
  refine ⟨rfl, rfl, [(0, 0), (1, 0), (2, 0), (3, 0), (4, 0), (5, 0), (6, 0), (8, 0)], _, ?_, by decide, ?_, ⟨by decide, ?_⟩, rfl⟩
  · refine ⟨⟨rfl, rfl, rfl, .inl ?_⟩, ⟨rfl, rfl, rfl, .inl ?_⟩, ⟨rfl, rfl, rfl, .inl ?_⟩, ⟨rfl, rfl, rfl, .inl ?_⟩,
      ⟨rfl, rfl, rfl, .inl ?_⟩, ⟨rfl, genName jsonNick, rfl, rfl, .inl ?_⟩, ⟨rfl, rfl, rfl, .inl ?_⟩, ⟨rfl, rfl, rfl, .inl ?_⟩, trivial⟩
    · exact ⟨_, rfl, ⟨-5, rfl, -5, (by simp only [IntForm]; decide), rfl⟩, by intro _ h; cases h⟩
    · exact ⟨[.bytes [0x61], .bytes [0x22]], [.str ⟨[0x61], false⟩, .str ⟨[0x22], false⟩], rfl,
        ⟨⟨_, rfl, rfl, rfl⟩, ⟨_, rfl, rfl, rfl⟩, trivial⟩, rfl⟩
    · exact ⟨_, rfl, ⟨3, rfl, rfl, .inl ⟨(b!"GREEN", 3), by decide, rfl, rfl⟩⟩, by intro _ h; cases h⟩
    · refine ⟨1, [.msg ⟨[[(0, .bytes [0x6b])], [(0, .num 7)]], []⟩], [(⟨b!"k", false⟩, .str ⟨b!"7", true⟩)], rfl, ⟨?_, trivial⟩, rfl, ?_⟩
      · exact ⟨genName jsonKey, _, genName jsonMark, _, _, _, rfl, rfl, ⟨_, rfl, rfl, rfl⟩, ⟨7, rfl, 7, (by simp only [IntForm]; decide), rfl⟩⟩
      · exact ⟨List.pairwise_singleton _ _, rfl⟩
    · refine ⟨_, rfl, ⟨_, rfl, rfl, rfl, _, 5, _, genName jsonListValue, rfl, rfl, rfl, _, rfl, ?_⟩, by intro _ h; cases h⟩
      refine ⟨genName jsonValues, _, _, rfl, rfl, [.msg ⟨[[(0, .num 0)]], []⟩], [.null], rfl, ⟨⟨_, rfl, rfl, rfl, ?_⟩, trivial⟩, rfl⟩
      exact ⟨_, 0, _, genName jsonNull, rfl, rfl, rfl, rfl, rfl⟩
    · exact ⟨_, rfl, ⟨_, rfl, rfl, rfl⟩, by intro _ h; cases h⟩
    · exact ⟨_, rfl, ⟨_, rfl, rfl, rfl, 0, 0, b!"1970-01-01T00:00:00Z", rfl, by decide +kernel, rfl⟩, by intro _ h; cases h⟩
    · exact ⟨_, rfl, ⟨_, rfl, rfl, rfl, genName jsonWrapped, _, _, rfl, rfl, ⟨0, rfl, 0, (by simp only [IntForm]; decide), rfl⟩⟩,
        by intro _ h; cases h⟩
  · intro i sl hi hn
    match i with
    | 0 | 1 | 2 | 3 | 4 | 5 | 6 | 8 => exact absurd (by simp) (hn 0)
    | 7 => cases hi; rfl
    | _ + 9 => cases hi
  · intro i sl hi
    match i with
    | 0 | 1 | 2 | 3 | 4 | 5 | 6 | 8 =>
      cases hi
      refine ⟨fun _ => ⟨0, by simp⟩, fun _ => ?_⟩
      simp [Shown, genExample, MsgOf.get]
    | 7 =>
      cases hi
      simp [Shown, genExample, MsgOf.get]
    | _ + 9 => cases hi

/-- The hypotheses of `C90_writes_partial` and `C92_round_trip_partial` are met. -/
example : ∃ t, genWrite genTypes refGlaze ⟨⟨true, 3, false⟩, false⟩ 5 0 genExample = .ok t ∧ JsonText jsonExampleForm t :=
  C90_writes_partial refGlaze_lawful genTypes_ok genTypes_narrow (genExample_form refGlaze 0)

example : ∃ t, genWrite genTypes refGlaze ⟨⟨false, 3, false⟩, false⟩ 5 0 genExample = .ok t ∧
    genRead genTypes (fun _ => true) refGlaze 5 0 genPerson.default t = .ok genExample :=
  C92_round_trip_partial refGlaze_lawful genTypes_ok genTypes_narrow (genExample_form refGlaze 0) _

/-- The text in the example. -/
example : (match genWrite genTypes refGlaze ⟨⟨false, 3, false⟩, false⟩ 5 0 genExample with
    | .ok t => t == b!"{\"age\":-5,\"tagList\":[\"a\",\"\\\"\"],\"color\":\"GREEN\",\"marks\":{\"k\":\"7\"},\"extra\":[null],\"nick\":\"n\",\"bornAt\":\"1970-01-01T00:00:00Z\",\"limit\":0}"
    | _ => false) = true := by
  decide +kernel

/-- The hypotheses of C93 are met by `jsonExample` and `genExample`. -/
example : ∃ t, jsonWrite jsonTypes refGlaze ⟨true, 3, false⟩ 4 0 jsonExample = .ok t ∧
    genRead genTypes (fun _ => true) refGlaze 5 0 genPerson.default t = .ok genExample :=
  C93_dynamic_to_generated refGlaze_lawful jsonTypes_ok genTypes_ok rfl (jsonExample_form refGlaze 0)
    (gen_form_weaken genTypes_ok _ _ _ _ (genExample_form refGlaze 0)) _

example : ∃ t x', genWrite genTypes refGlaze ⟨⟨true, 3, false⟩, false⟩ 5 0 genExample = .ok t ∧
    jsonRead jsonTypes (fun _ => true) refGlaze 4 0 (jsonTypes 0).dyn.empty t = .ok x' ∧ SameAt jsonTypes 5 0 jsonExample x' :=
  C93_generated_to_dynamic refGlaze_lawful jsonTypes_ok genTypes_ok genTypes_narrow rfl (genExample_form refGlaze 0)
    (form_weaken jsonTypes_ok _ _ _ _ (jsonExample_form refGlaze 0))

/-- `{best: 3, note: "", who_is: {}, total: 7}` -/
def rankExample : Msg := ⟨[[(0, .num 3)], [(0, .bytes [])], [(0, .msg genPerson.default)], [(0, .num 7)]], []⟩

/-- With the default of `note` shown. -/
theorem rankExample_form (G : Glaze) (d : Nat) :
    GFormAt genTypes G (fun _ => true) (genStyle true true false) (d + 2) 10 rankExample
      (.obj [(⟨b!"best", true⟩, .str ⟨b!"GREEN", true⟩), (⟨b!"note", true⟩, .str ⟨[], false⟩),
        (⟨b!"who_is", true⟩, .obj [(⟨b!"tag_list", true⟩, .arr []), (⟨b!"marks", true⟩, .obj []), (⟨b!"nums", true⟩, .arr [])]),
        (⟨b!"total", true⟩, .str ⟨b!"7", true⟩)]) := by
  refine ⟨rfl, rfl, [(0, 0), (1, 0), (2, 0), (3, 0)], _, ?_, by decide, ?_, ⟨by decide, ?_⟩, rfl⟩
  · refine ⟨⟨rfl, rfl, rfl, .inl ?_⟩, ⟨rfl, rfl, rfl, .inl ?_⟩, ⟨rfl, rfl, rfl, .inl ?_⟩, ⟨rfl, rfl, rfl, .inl ?_⟩, trivial⟩
    · exact ⟨_, rfl, ⟨3, rfl, rfl, .inl ⟨(b!"GREEN", 3), by decide, rfl, rfl⟩⟩, fun _ _ _ => ⟨_, rfl⟩⟩
    · exact ⟨_, rfl, ⟨[], rfl, rfl, rfl⟩⟩
    · refine ⟨_, rfl, ⟨_, rfl, rfl, rfl, [(1, 0), (3, 0), (7, 0)], _, ?_, by decide, ?_, ⟨by decide, ?_⟩, rfl⟩, by intro _ _ h; cases h⟩
      · refine ⟨⟨rfl, rfl, rfl, .inl ⟨[], [], rfl, trivial, rfl⟩⟩,
          ⟨rfl, rfl, rfl, .inl ⟨1, [], [], rfl, trivial, rfl, .nil, rfl⟩⟩, ⟨rfl, rfl, rfl, .inl ⟨[], [], rfl, trivial, rfl⟩⟩, trivial⟩
      · intro i sl hi hn
        match i with
        | 1 | 3 | 7 => exact absurd (by simp) (hn 0)
        | 0 | 2 | 4 | 5 | 6 | 8 => cases hi; rfl
        | _ + 9 => cases hi
      · intro i sl hi
        match i with
        | 0 | 1 | 2 | 3 | 4 | 5 | 6 | 7 | 8 =>
          cases hi
          simp [Shown, MsgOf.get, GDesc.default, genPerson, GSlot.initial]
        | _ + 9 => cases hi
    · exact ⟨_, rfl, ⟨7, rfl, 7, (by simp only [IntForm]; decide), rfl⟩, by intro _ _ h; cases h⟩
  · intro i sl hi hn
    match i with
    | 0 | 1 | 2 | 3 => exact absurd (by simp) (hn 0)
    | _ + 4 => cases hi
  · intro i sl hi
    match i with
    | 0 | 1 | 2 | 3 =>
      cases hi
      simp [Shown]
    | _ + 4 => cases hi

example {t : List Byte} (text : JsonText _ t) (old : Msg) :=
  C91_reads (t := t) refGlaze_lawful genTypes_ok (gen_form_weaken genTypes_ok _ _ _ _ (rankExample_form refGlaze 0)) text old

example : ∃ t, genWrite genTypes refGlaze ⟨⟨true, 3, true⟩, true⟩ 2 10 rankExample = .ok t ∧
    genRead genTypes (fun _ => true) refGlaze 2 10 rankExample t = .ok rankExample :=
  C92_round_trip_partial refGlaze_lawful genTypes_ok genTypes_narrow (rankExample_form refGlaze 0) _

/-- A form that only the reader accepts: other order, `null` for a field that is not set, a number for an enum. -/
theorem genSmall_form (G : Glaze) (d : Nat) :
    GFormAt genTypes G (fun _ => true) genAnyStyle (d + 1) 0 ⟨[[(0, .num (-5))], [], [(0, .num 3)], [], [], [], [], [], []], []⟩
      (.obj [(⟨b!"born_at", true⟩, .null), (⟨b!"color", true⟩, .num b!"3"), (⟨b!"anon", true⟩, .null), (⟨b!"age", true⟩, .num b!"-5")]) := by
  refine ⟨rfl, rfl, [(6, 0), (2, 0), (5, 1), (0, 0)], _, ?_, by decide, ?_, trivial, rfl⟩
  · refine ⟨⟨rfl, rfl, .inr rfl, .inr ⟨rfl, (by intro _ h; cases h), rfl, rfl⟩⟩, ⟨rfl, rfl, .inl rfl, .inl ?_⟩,
      ⟨rfl, genName jsonAnon, rfl, .inl rfl, .inr ⟨rfl, rfl, rfl⟩⟩, ⟨rfl, rfl, .inl rfl, .inl ?_⟩, trivial⟩
    · exact ⟨_, rfl, ⟨3, rfl, rfl, .inr ⟨by decide, by decide, rfl⟩⟩, by intro _ h; cases h⟩
    · exact ⟨_, rfl, ⟨-5, rfl, -5, (by simp only [IntForm]; decide), rfl⟩, by intro _ h; cases h⟩
  · intro i sl hi hn
    match i with
    | 0 | 2 | 6 => exact absurd (by simp) (hn 0)
    | 5 => exact absurd (by simp) (hn 1)
    | 1 | 3 | 4 | 7 | 8 => cases hi; rfl
    | _ + 9 => cases hi

example : genRead genTypes (fun _ => true) refGlaze 1 0 genExample b!" {\"born_at\" : null,\"color\":3, \"anon\":null, \"age\":-5}" =
    .ok ⟨[[(0, .num (-5))], [], [(0, .num 3)], [], [], [], [], [], []], []⟩ := by
  with_unfolding_all rfl

/-- The hypotheses of `C94_defined` are met by every text. -/
example (text : List Byte) := C94_defined (utf8 := fun _ => true) refGlaze_lawful genTypes_ok genTypes_any (text.length + 1) 0
  genExample text (Nat.lt_succ_self _)

end HppProto.Props
