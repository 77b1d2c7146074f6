import Verif.Props.AnyJsonTypes
import Verif.Props.Json

/-!
# C105-C109: `google.protobuf.Any` in JSON

`AnyFormAt T G utf8 E S can bare d .outside id m j` (`Verif/Spec/AnyJson.lean`): the JSON value `j` is the ProtoJSON form
of the message `m`, in which an `Any` is the object of its payload with a member `@type`. `E.find` is the lookup of a type
by its full name.
-/

namespace HppProto.Props
open HppProto.Json

variable {T : JTypes} {G : Glaze} {utf8 : List Byte → Bool} {E : AnyEnv}

/-! ## C105: writing -/

/-- The full claim of C105: a message that has a JSON form and is nested at most as deep as the limit allows is written as
JSON that denotes this form. -/
def C105_statement : Prop :=
  ∀ (T : JTypes) (G : Glaze) (utf8 : List Byte → Bool) (E : AnyEnv) (o : JOpts), AnyTypes T → G.Lawful →
    ∀ (id : Nat) (m : DynMsg) (j : JTree), (T id).entry = false →
      AnyFormAt T G utf8 E (writerStyle o.preserve) (fun _ _ => True) true (E.limit + 1) .outside id m j →
      ∃ t, jsonWriteAny T utf8 G E o id m = .ok t ∧ JsonText j t

/-- C105, for messages in which no payload of an `Any` has messages that are neither in a map nor of a well-known type. -/
theorem C105_writes_partial (hT : AnyTypes T) (L : G.Lawful) {o : JOpts} {id : Nat} {m : DynMsg} {j : JTree}
    (top : (T id).entry = false)
    (form : AnyFormAt T G utf8 E (writerStyle o.preserve) (fun _ _ => True) false (E.limit + 1) .outside id m j) :
    ∃ t, jsonWriteAny T utf8 G E o id m = .ok t ∧ JsonText j t := by
  obtain ⟨t, h1, h2⟩ := (write_any_levels L hT (fun _ _ => True) (E.limit + 1)).1 .outside (by simp) 0 id m j form
  exact ⟨t, h1, [], t, [], ws_nil, spells_of_written top h2, ws_nil, by simp⟩

/-! ## C106: reading -/

/-- C106. `read_json` accepts every JSON text, with `@type` anywhere among the members, of any JSON value that stands for a
message, and the empty message it is given then holds what this message holds: the payload of an `Any` is the encoding of
a message that holds the same. -/
theorem C106_reads (hT : AnyTypes T) (L : G.Lawful) (N : E.Lawful) {bare : Bool} {id : Nat} {m : DynMsg} {j : JTree}
    {t : List Byte} (top : (T id).entry = false)
    (form : AnyFormAt T G utf8 E anyStyle (Encodable T utf8 E) bare (E.limit + 1) .outside id m j) (text : JsonText j t) :
    ∃ m', jsonReadAny T utf8 G E id (T id).dyn.empty t = .ok m' ∧ AnySameAt T utf8 E (E.limit + 1) id m m' := by
  obtain ⟨a, u, b, ha, hu, hb, rfl⟩ := text
  have hb' : numChar (look b) = false := by
    have := numChar_ws hb (show numChar 0 = false from rfl) []
    cases b with
    | nil => rfl
    | cons c b => exact this
  obtain ⟨m', h1, h2⟩ := (read_any_levels hT L N bare (E.limit + 1)).1 .outside (by simp) id m j a u b form
    (written_of_spells top hu) ha hb'
  refine ⟨m', ?_, h2⟩
  have e : skipWs b = [] := by
    have := skipWs_append (s := []) hb
    simpa [skipWs] using this
  rw [jsonReadAny, h1]
  simp only [res_bind_ok]
  rw [if_pos e]

/-! ## C107: round trip -/

/-- The full claim of C107: what is written is read back as a message that holds the same. -/
def C107_statement : Prop :=
  ∀ (T : JTypes) (G : Glaze) (utf8 : List Byte → Bool) (E : AnyEnv) (o : JOpts), AnyTypes T → G.Lawful → E.Lawful →
    ∀ (id : Nat) (m : DynMsg), (T id).entry = false → DynReach T.dyn False id m →
      ∀ t, jsonWriteAny T utf8 G E o id m = .ok t →
      ∃ m', jsonReadAny T utf8 G E id (T id).dyn.empty t = .ok m' ∧ AnySameAt T utf8 E (E.limit + 1) id m m'

/-- C107, for the messages of `C105_writes_partial` with payloads that can be encoded. -/
theorem C107_round_trip_partial (hT : AnyTypes T) (L : G.Lawful) (N : E.Lawful) {o : JOpts} {id : Nat} {m : DynMsg} {j : JTree}
    (top : (T id).entry = false)
    (form : AnyFormAt T G utf8 E (writerStyle o.preserve) (Encodable T utf8 E) false (E.limit + 1) .outside id m j) :
    ∃ t m', jsonWriteAny T utf8 G E o id m = .ok t ∧ jsonReadAny T utf8 G E id (T id).dyn.empty t = .ok m' ∧
      AnySameAt T utf8 E (E.limit + 1) id m m' := by
  obtain ⟨t, h1, h2⟩ := (write_any_levels L hT (Encodable T utf8 E) (E.limit + 1)).1 .outside (by simp) 0 id m j form
  obtain ⟨m', h3, h4⟩ := C106_reads hT L N (bare := false) top
    (any_weaken hT.ok _ _ (fun _ _ h => h) false false (fun h => h) _ _ _ _ _ form)
    (show JsonText j t from ⟨[], t, [], ws_nil, spells_of_written top h2, ws_nil, by simp⟩)
  exact ⟨t, m', h1, h3, h4⟩

/-! ## C108: URLs and payloads -/

/-- The message type that a URL names. -/
theorem C108_url {url : List Byte} {id : Nat} : E.typeOf url = some id ↔ IsTypeUrl E url id := by
  constructor
  · intro h
    unfold AnyEnv.typeOf messageName at h
    split at h
    · next hc =>
      refine ⟨(url.reverse.dropWhile (· != 0x2f)).tail.reverse, afterSlash url, ?_, ?_, hc.2, h⟩
      · have hne : url.reverse.dropWhile (· != 0x2f) ≠ [] := by
          intro e
          have hm : (0x2f : Byte) ∈ url.reverse.takeWhile (· != 0x2f) := by
            have hs := List.takeWhile_append_dropWhile (p := fun c : Byte => c != 0x2f) (l := url.reverse)
            rw [e, List.append_nil] at hs
            rw [hs]
            simpa using hc.1
          have := List.all_eq_true.1 (List.all_takeWhile (p := fun c : Byte => c != 0x2f) (l := url.reverse)) _ hm
          exact absurd this (by decide)
        have hhead := List.head_dropWhile_not (p := fun c : Byte => c != 0x2f) (l := url.reverse) hne
        have hs := List.takeWhile_append_dropWhile (p := fun c : Byte => c != 0x2f) (l := url.reverse)
        obtain ⟨c, r, e⟩ := List.exists_cons_of_ne_nil hne
        simp only [e, List.head_cons] at hhead
        have hc' : c = 0x2f := by simpa using hhead
        subst hc'
        rw [e]
        rw [e] at hs
        unfold afterSlash
        have := congrArg List.reverse hs
        rw [List.reverse_reverse, List.reverse_append] at this
        rw [List.tail_cons, ← List.singleton_append, ← List.append_assoc]
        rw [List.reverse_cons] at this
        exact this.symm
      · unfold afterSlash
        rw [List.mem_reverse]
        intro hm
        have := List.all_eq_true.1 (List.all_takeWhile (p := fun c : Byte => c != 0x2f) (l := url.reverse)) _ hm
        exact absurd this (by decide)
    · cases h
  · exact typeOf_url

/-- C108, reading. Whatever the text: an `Any` that is read, at whatever depth, has a URL that names a known type, and its
value is the encoding of a message of this type. So a text without `@type`, with a `@type` without a slash, or with a type that is
not known is refused. -/
theorem C108_read (hT : AnyTypes T) {d id : Nat} (message : (T id).entry = false) (any : (T id).wk = .any) {text rest : List Byte}
    {m' : DynMsg} (read : (anyReaders T utf8 G E d).msg id (T id).dyn.empty text = .ok (m', rest)) :
    ∃ u v url bytes pid p, (T id).fields = [u, v] ∧ u.dyn.value m' = .str url ∧ v.dyn.value m' = .str bytes ∧
      IsTypeUrl E url pid ∧ dynWrite T.dyn utf8 E.limit true pid p [] = .ok (none, bytes) := by
  cases d with
  | zero => cases read
  | succ d =>
    obtain ⟨u, v, hf, tu, tv, ru, rv, ou, _⟩ := hT.any id any
    simp only [anyReaders] at read
    rw [if_pos ⟨message, any⟩] at read
    unfold readAny at read
    rw [hf] at read
    cases hb : readAnyBody T utf8 G E (anyReaders T utf8 G E d) text with
    | ok x =>
      obtain ⟨url, bytes, r⟩ := x
      rw [hb] at read
      simp only [res_bind_ok, Res.ok.injEq, Prod.mk.injEq] at read
      obtain ⟨rfl, rfl⟩ := read
      obtain ⟨_, _, g3, g4⟩ := two_strings (hT.ok id) hf tu tv ru rv ou url bytes
      unfold readAnyBody at hb
      cases hg : getType G E text with
      | ok y =>
        obtain ⟨url', pos⟩ := y
        rw [hg] at hb
        simp only [res_bind_ok] at hb
        cases ht : E.typeOf url' with
        | none => rw [ht] at hb; cases hb
        | some pid =>
          rw [ht] at hb
          have key : ∀ q : Res (DynMsg × List Byte),
              (q >>= fun x => encodePayload T utf8 E pid x.1 >>= fun b => Res.ok (url', b, x.2)) = .ok (url, bytes, r) →
              url' = url ∧ ∃ p, dynWrite T.dyn utf8 E.limit true pid p [] = .ok (none, bytes) := by
            intro q hq
            cases q with
            | ok x =>
              simp only [res_bind_ok] at hq
              unfold encodePayload at hq
              cases hw : dynWrite T.dyn utf8 E.limit true pid x.1 [] with
              | ok z =>
                obtain ⟨st, out⟩ := z
                rw [hw] at hq
                simp only [res_bind_ok] at hq
                by_cases hst : st = none
                · subst hst
                  simp only [if_true, res_bind_ok, Res.ok.injEq, Prod.mk.injEq] at hq
                  obtain ⟨rfl, rfl, _⟩ := hq
                  exact ⟨rfl, x.1, hw⟩
                · rw [if_neg hst] at hq; cases hq
              | _ => rw [hw] at hq; cases hq
            | _ => cases hq
          have : url' = url ∧ ∃ p, dynWrite T.dyn utf8 E.limit true pid p [] = .ok (none, bytes) := by
            simp only at hb
            split at hb
            · exact key _ hb
            · exact key _ hb
          obtain ⟨rfl, p, hw⟩ := this
          exact ⟨u, v, url', bytes, pid, p, hf, g3, g4, C108_url.1 ht, hw⟩
      | _ => rw [hg] at hb; cases hb
    | _ => rw [hb] at read; cases read

/-- C108, writing. An `Any` that is written, at whatever depth, is empty or has a URL that names a known type and a value
that is an encoding of a message of this type. -/
theorem C108_write (hT : AnyTypes T) {o : JOpts} {d ind id : Nat} {opened : Bool} (message : (T id).entry = false)
    (any : (T id).wk = .any) {m : DynMsg} {t : List Byte} (written : (anyWriters T utf8 G E o d).msg opened ind id m = .ok t) :
    ∃ u v url bytes, (T id).fields = [u, v] ∧ u.dyn.value m = .str url ∧ v.dyn.value m = .str bytes ∧
      ((noText u url m = true ∧ noText v bytes m = true) ∨ ∃ pid p, Holds T utf8 E url bytes pid p) := by
  cases d with
  | zero => cases written
  | succ d =>
    obtain ⟨u, v, hf, _⟩ := hT.any id any
    simp only [anyWriters, message, any, Bool.false_eq_true, if_false] at written
    unfold writeAny at written
    rw [hf] at written
    simp only at written
    split at written
    · next url bytes hu hv =>
      refine ⟨u, v, url, bytes, hf, hu, hv, ?_⟩
      split at written
      · next h => exact .inl (by simpa using h)
      · right
        unfold writeAnyBody at written
        simp only at written
        cases ht : E.typeOf url with
        | none => rw [ht] at written; cases written
        | some pid =>
          rw [ht] at written
          simp only at written
          cases hd : dynRead T.dyn utf8 E.limit pid [] bytes with
          | ok p => exact ⟨pid, p, C108_url.1 ht, hd⟩
          | _ => unfold decodePayload at written; rw [hd] at written; cases written
    · cases written

/-! ## C109: conversions -/

/-- C109, for the messages of `C107_round_trip_partial`: `binpb_to_json` writes JSON that denotes the message, and
`json_to_binpb` makes of it the encoding of a message that holds the same. -/
theorem C109_conversions_partial (hT : AnyTypes T) (L : G.Lawful) (N : E.Lawful) {o : JOpts} {name : List Byte} {id : Nat}
    {bytes : List Byte} {m : DynMsg} {j : JTree} (known : E.find name = some id) (top : (T id).entry = false)
    (encoded : dynRead T.dyn utf8 E.limit id [] bytes = .ok m) (can : Encodable T utf8 E id m)
    (form : AnyFormAt T G utf8 E (writerStyle o.preserve) (Encodable T utf8 E) false (E.limit + 1) .outside id m j) :
    ∃ t m' bytes', binpbToJson T utf8 G E o name bytes = .ok t ∧ JsonText j t ∧ jsonToBinpb T utf8 G E name t = .ok bytes' ∧
      dynWrite T.dyn utf8 E.limit true id m' [] = .ok (none, bytes') ∧ AnySameAt T utf8 E (E.limit + 1) id m m' := by
  obtain ⟨t, h1, h2⟩ := (write_any_levels L hT (Encodable T utf8 E) (E.limit + 1)).1 .outside (by simp) 0 id m j form
  have htext : JsonText j t := ⟨[], t, [], ws_nil, spells_of_written top h2, ws_nil, by simp⟩
  obtain ⟨m', h3, h4⟩ := C106_reads hT L N (bare := false) top
    (any_weaken hT.ok _ _ (fun _ _ h => h) false false (fun h => h) _ _ _ _ _ form) htext
  obtain ⟨out, h5⟩ := can _ _ h4
  refine ⟨t, m', out, ?_, htext, ?_, h5, h4⟩
  · unfold binpbToJson
    rw [known]
    simp only [encoded, res_bind_ok]
    exact h1
  · unfold jsonToBinpb
    rw [known]
    simp only [h3, res_bind_ok, encodePayload, h5, if_true]

/-! ## Examples -/

/-- `Note { more: [Any("a/Note", Note{n: 5}), Any("/Int32Value", 7)] }` -/
def anyExample : DynMsg :=
  [(0, .zero), (2, .msgs [[(1, .str b!"a/Note"), (1, .str [0x08, 0x05])], [(1, .str b!"/Int32Value"), (1, .str [0x08, 0x07])]]), (0, .zero)]

def anyExampleForm : JTree :=
  .obj [(⟨b!"more", true⟩, .arr [.obj [(typeKey, .str ⟨b!"a/Note", false⟩), (⟨b!"n", true⟩, .num b!"5")],
    .obj [(typeKey, .str ⟨b!"/Int32Value", false⟩), (⟨b!"value", true⟩, .num b!"7")]])]

def noteFive : DynMsg := [(1, .num 5), (0, .zero), (0, .zero)]

/-- `Note { child: Note{n: 5} }` -/
def noteDeep : DynMsg := [(0, .zero), (0, .zero), (1, .msg noteFive)]

/-- `Regular`, as a program. -/
def regularCheck (T : JTypes) : Nat → Nat → DynMsg → Bool
  | 0, _, _ => false
  | d + 1, id, p =>
    ((T id).entry || (decide ((T id).wk ≠ .any) && decide ((T id).wk ≠ .timestamp) && decide ((T id).wk ≠ .duration) &&
      decide ((T id).wk ≠ .fieldMask))) &&
    (T id).fields.all fun f => !f.dyn.hasValue p || match f.ty, f.dyn.value p with
      | .msg t, .msg s => regularCheck T d t s
      | .msg t, .msgs ss => ss.all (regularCheck T d t)
      | _, _ => true

theorem regular_check {T : JTypes} : ∀ {d id : Nat} {p : DynMsg}, regularCheck T d id p = true → Regular T d id p
  | d + 1, id, p, h => by
    simp only [regularCheck, Bool.and_eq_true, Bool.or_eq_true, decide_eq_true_eq, and_assoc] at h
    refine ⟨h.1, fun f hf hv t ht => ?_⟩
    have := List.all_eq_true.1 h.2 f hf
    simp only [hv, Bool.not_true, Bool.false_or, ht] at this
    refine ⟨fun s hs => ?_, fun ss hs s hm => ?_⟩
    · rw [hs] at this
      exact regular_check this
    · rw [hs] at this
      exact regular_check (List.all_eq_true.1 this s hm)

theorem noteFive_encodable : Encodable anyTypes (fun _ => true) anyEnv 11 noteFive :=
  encodable_regular anyTypes_ok.ok (k := 3) (regular_check (by decide +kernel)) ⟨[0x08, 0x05], by with_unfolding_all rfl⟩

theorem noteDeep_encodable : Encodable anyTypes (fun _ => true) anyEnv 11 noteDeep :=
  encodable_regular anyTypes_ok.ok (k := 3) (regular_check (by decide +kernel)) ⟨[0x1a, 0x02, 0x08, 0x05], by with_unfolding_all rfl⟩

theorem seven_encodable : Encodable anyTypes (fun _ => true) anyEnv 7 [(1, .num 7)] :=
  encodable_regular anyTypes_ok.ok (k := 3) (regular_check (by decide +kernel)) ⟨[0x08, 0x07], by with_unfolding_all rfl⟩

theorem note_holds : Holds anyTypes (fun _ => true) anyEnv b!"a/Note" [0x08, 0x05] 11 noteFive :=
  ⟨⟨b!"a", b!"Note", rfl, by decide, by decide, rfl⟩, by with_unfolding_all rfl⟩

theorem seven_holds : Holds anyTypes (fun _ => true) anyEnv b!"/Int32Value" [0x08, 0x07] 7 [(1, .num 7)] :=
  ⟨⟨[], b!"Int32Value", rfl, by decide, by decide, rfl⟩, by with_unfolding_all rfl⟩

theorem noteN_in : ∀ f ∈ [noteN], f ∈ (anyTypes 11).fields := by
  intro f hf
  rw [List.mem_singleton.1 hf]
  simp [anyTypes]

theorem anyExample_form (G : Glaze) (can : Nat → DynMsg → Prop) (h1 : can 11 noteFive) (h2 : can 7 [(1, .num 7)]) :
    AnyFormAt anyTypes G (fun _ => true) anyEnv (writerStyle false) can false (anyEnv.limit + 1) .outside 11 anyExample anyExampleForm := by
  refine ⟨.inr rfl, rfl, [noteMore], _, ?_, ?_, rfl, rfl⟩
  · refine ⟨⟨rfl, rfl, .inl ⟨rfl, ?_⟩⟩, trivial⟩
    refine ⟨_, rfl, [.obj [(typeKey, .str ⟨b!"a/Note", false⟩), (⟨b!"n", true⟩, .num b!"5")],
      .obj [(typeKey, .str ⟨b!"/Int32Value", false⟩), (⟨b!"value", true⟩, .num b!"7")]], ⟨?_, ?_, trivial⟩, rfl⟩
    · refine ⟨rfl, anyUrl, anyBytes, _, _, 11, noteFive, [(⟨b!"n", true⟩, .num b!"5")], rfl, rfl, rfl, rfl, note_holds, h1, ?_, rfl⟩
      refine ⟨rfl, [noteN], [(⟨b!"n", true⟩, .num b!"5")], ?_, noteN_in, rfl, rfl⟩
      exact ⟨⟨rfl, rfl, .inl ⟨rfl, 5, rfl, 5, ⟨rfl, by decide, by decide⟩, rfl⟩⟩, trivial⟩
    · refine ⟨rfl, anyUrl, anyBytes, _, _, 7, [(1, .num 7)], [(⟨b!"value", true⟩, .num b!"7")], rfl, rfl, rfl, rfl, seven_holds, h2, ?_, rfl⟩
      exact ⟨.num b!"7", ⟨rfl, jsonWrapped, rfl, rfl, 7, rfl, 7, ⟨rfl, by decide, by decide⟩, rfl⟩, rfl⟩
  · intro f hf
    rw [List.mem_singleton.1 hf]
    simp [anyTypes]

/-- The hypotheses of `C105_writes_partial` and `C107_round_trip_partial` are met. -/
example : ∃ t, jsonWriteAny anyTypes (fun _ => true) refGlaze anyEnv ⟨true, 3, false⟩ 11 anyExample = .ok t ∧
    JsonText anyExampleForm t :=
  C105_writes_partial anyTypes_ok refGlaze_lawful rfl (anyExample_form refGlaze _ trivial trivial)

example : ∃ t m', jsonWriteAny anyTypes (fun _ => true) refGlaze anyEnv ⟨false, 3, false⟩ 11 anyExample = .ok t ∧
    jsonReadAny anyTypes (fun _ => true) refGlaze anyEnv 11 (anyTypes 11).dyn.empty t = .ok m' ∧
    AnySameAt anyTypes (fun _ => true) anyEnv 9 11 anyExample m' :=
  C107_round_trip_partial anyTypes_ok refGlaze_lawful anyEnv_lawful rfl
    (anyExample_form refGlaze _ noteFive_encodable seven_encodable)

/-- The texts in the example. -/
example : jsonWriteAny anyTypes (fun _ => true) refGlaze anyEnv ⟨false, 3, false⟩ 11 anyExample =
    .ok b!"{\"more\":[{\"@type\":\"a/Note\",\"n\":5},{\"@type\":\"/Int32Value\",\"value\":7}]}" := by
  with_unfolding_all rfl

example : jsonReadAny anyTypes (fun _ => true) refGlaze anyEnv 11 (anyTypes 11).dyn.empty
    b!"{\"more\":[{\"n\":5,\"@type\":\"a\\/Note\"},{\"value\": 7, \"@type\":\"/Int32Value\"}]}" = .ok anyExample := by
  with_unfolding_all rfl

/-- The hypotheses of `C109_conversions_partial` are met. -/
example : ∃ t m' bytes', binpbToJson anyTypes (fun _ => true) refGlaze anyEnv ⟨false, 3, false⟩ b!"Note" [0x08, 0x05] = .ok t ∧
    JsonText (.obj [(⟨b!"n", true⟩, .num b!"5")]) t ∧
    jsonToBinpb anyTypes (fun _ => true) refGlaze anyEnv b!"Note" t = .ok bytes' ∧
    dynWrite anyTypes.dyn (fun _ => true) anyEnv.limit true 11 m' [] = .ok (none, bytes') ∧
    AnySameAt anyTypes (fun _ => true) anyEnv 9 11 noteFive m' := by
  refine C109_conversions_partial anyTypes_ok refGlaze_lawful anyEnv_lawful rfl rfl note_holds.2 noteFive_encodable ?_
  refine ⟨.inr rfl, rfl, [noteN], _, ?_, noteN_in, rfl, rfl⟩
  exact ⟨⟨rfl, rfl, .inl ⟨rfl, 5, rfl, 5, ⟨rfl, by decide, by decide⟩, rfl⟩⟩, trivial⟩

/-- A form in which `@type` is last and the payload has a message in it. -/
theorem deep_form (G : Glaze) (can : Nat → DynMsg → Prop) (h : can 11 noteDeep) :
    AnyFormAt anyTypes G (fun _ => true) anyEnv anyStyle can true (anyEnv.limit + 1) .outside 10
      [(1, .str b!"/Note"), (1, .str [0x1a, 0x02, 0x08, 0x05])]
      (.obj [(⟨b!"child", true⟩, .obj [(⟨b!"n", true⟩, .num b!"5")]), (typeKey, .str ⟨b!"/Note", false⟩)]) := by
  refine ⟨rfl, anyUrl, anyBytes, _, _, 11, noteDeep,
    [(⟨b!"child", true⟩, .obj [(⟨b!"n", true⟩, .num b!"5")])], rfl, rfl, rfl, rfl,
    ⟨⟨[], b!"Note", rfl, by decide, by decide, rfl⟩, by with_unfolding_all rfl⟩, h, ?_, [_], [], rfl, rfl⟩
  refine ⟨rfl, [noteChild], [(⟨b!"child", true⟩, .obj [(⟨b!"n", true⟩, .num b!"5")])], ?_, ?_, .refl _, rfl⟩
  · refine ⟨⟨.inl rfl, rfl, .inl ⟨rfl, noteFive, rfl, ?_⟩⟩, trivial⟩
    refine ⟨.inl rfl, rfl, [noteN], [(⟨b!"n", true⟩, .num b!"5")], ?_, noteN_in, .refl _, rfl⟩
    exact ⟨⟨.inl rfl, rfl, .inl ⟨rfl, 5, rfl, 5, ⟨rfl, by decide, by decide⟩, rfl⟩⟩, trivial⟩
  · intro f hf
    rw [List.mem_singleton.1 hf]
    simp [anyTypes]

/-- The hypotheses of `C106_reads` are met. -/
example {t : List Byte} (text : JsonText (.obj [(⟨b!"child", true⟩, .obj [(⟨b!"n", true⟩, .num b!"5")]),
      (typeKey, .str ⟨b!"/Note", false⟩)]) t) :
    ∃ m', jsonReadAny anyTypes (fun _ => true) refGlaze anyEnv 10 (anyTypes 10).dyn.empty t = .ok m' ∧
      AnySameAt anyTypes (fun _ => true) anyEnv 9 10 [(1, .str b!"/Note"), (1, .str [0x1a, 0x02, 0x08, 0x05])] m' :=
  C106_reads anyTypes_ok refGlaze_lawful anyEnv_lawful rfl (deep_form refGlaze _ noteDeep_encodable) text

example : jsonReadAny anyTypes (fun _ => true) refGlaze anyEnv 10 (anyTypes 10).dyn.empty
    b!"{ \"child\":{\"n\":5}, \"@type\":\"/Note\"}" = .ok [(1, .str b!"/Note"), (1, .str [0x1a, 0x02, 0x08, 0x05])] := by
  with_unfolding_all rfl

end HppProto.Props
