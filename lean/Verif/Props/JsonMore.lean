import Verif.Props.Json
import Verif.Proofs.JsonReject
import Verif.Proofs.JsonWriteSafe

/-!
# C79-C82: any text, any message

`C79`: no text makes `read_json` do something undefined. `C80`: a text that is not JSON is rejected. `C81`: whatever
`write_json` writes is JSON and is read back. `C82`: the other spellings of ProtoJSON. None holds in full; each has
a disagreement and the part that holds.
-/

namespace HppProto.Props
open HppProto.Json

variable {T : JTypes} {G : Glaze} {utf8 : List Byte → Bool}

/-! ## Types -/

/-- The example types with another type 0. -/
def withType (D : JDesc) : JTypes := fun id => if id = 0 then D else jsonTypes id

theorem withType_succ (D : JDesc) {id : Nat} (h : id ≠ 0) : withType D id = jsonTypes id := by simp [withType, h]

theorem withType_ok {D : JDesc} (h : Checked D) (hm : (D.fields.all (mapsRepeated (withType D))) = true)
    (he : D.entry = false) (hw : D.wk = .none) : ∀ id, (withType D id).Ok (withType D) := by
  intro id
  by_cases h0 : id = 0
  · subst h0
    show D.Ok (withType D)
    have p := checked_plain h
    refine ⟨p.1, h.distinct, p.2.1, p.2.2.1, keys_apart h.apart, p.2.2.2, maps_check hm, ?_, ?_, ?_, ?_, ?_, ?_, ?_⟩
    · rw [he]; intro h; cases h
    all_goals (rw [hw]; simp)
  · rw [withType_succ D h0]
    have ok := jsonTypes_ok id
    have nz : ∀ f ∈ (jsonTypes id).fields, f.ty ≠ .msg 0 := by
      match id, h0 with
      | 1, _ | 2, _ | 3, _ | 4, _ | 5, _ | 6, _ | 7, _ | 8, _ | 9, _ =>
        intro f hf
        simp only [jsonTypes, List.mem_cons, List.not_mem_nil, or_false] at hf
        rcases hf with rfl | rfl | rfl | rfl | rfl | rfl <;> (intro e; cases e)
      | _ + 10, _ => intro f hf; cases hf
    refine ⟨ok.dyn, ok.distinct, ok.tied, ok.plain, ok.keys, ok.enums, ?_, ok.entries, ok.timestamps, ok.masks, ?_, ?_, ?_, ok.wrappers⟩
    · intro f hf t e h
      rw [withType_succ D (by rintro rfl; exact nz f hf e)] at h
      exact ok.maps f hf t e h
    · intro h
      obtain ⟨nul, num, str, bool, struct, list, E, sid, lid, hfs, t1, t2, t3, t4, t5, t6, s1, s2, t7, l1, l2, ho⟩ := ok.values h
      have hs := withType_succ D (id := sid) (by rintro rfl; exact nz struct (by rw [hfs]; simp) t6)
      have hl := withType_succ D (id := lid) (by rintro rfl; exact nz list (by rw [hfs]; simp) t7)
      exact ⟨nul, num, str, bool, struct, list, E, sid, lid, hfs, t1, t2, t3, t4, t5, t6, by rw [hs]; exact s1, by rw [hs]; exact s2,
        t7, by rw [hl]; exact l1, by rw [hl]; exact l2, ho⟩
    · intro h
      obtain ⟨f, t, h1, h2, h3, h4⟩ := ok.structs h
      exact ⟨f, t, h1, h2, h3, by rw [withType_succ D (by rintro rfl; exact nz f (by rw [h1]; simp) h3)]; exact h4⟩
    · intro h
      obtain ⟨f, t, h1, h2, h3, h4, h5⟩ := ok.lists h
      have ht := withType_succ D (id := t) (by rintro rfl; exact nz f (by rw [h1]; simp) h3)
      exact ⟨f, t, h1, h2, h3, by rw [ht]; exact h4, by rw [ht]; exact h5⟩

theorem withType_any {D : JDesc} (hw : D.wk = .none) (id : Nat) : (withType D id).wk ≠ .any := by
  by_cases h0 : id = 0
  · subst h0
    show D.wk ≠ .any
    rw [hw]
    simp
  · rw [withType_succ D h0]
    exact jsonTypes_noTrap.any id

/-- One member of an object. -/
theorem member_step {D : JDesc} {r : JReader} {m : DynMsg} {key s s1 s2 : List Byte} {f : JField} (fuel : Nat)
    (view : G.readView (0x22 :: s) = .ok (key, s1)) (known : D.fieldOf key = some f) (colon : readColon s1 = .ok s2)
    {res : Res (DynMsg × List Byte)} (value : Json.readField T utf8 G r f m s2 = res) :
    readMembers T utf8 G r D (fuel + 1) true m (0x22 :: s) =
      (res >>= fun p => readMembers T utf8 G r D fuel false p.1 (skipWs p.2)) ∧
    readMembers T utf8 G r D (fuel + 1) false m (0x2c :: 0x22 :: s) =
      (res >>= fun p => readMembers T utf8 G r D fuel false p.1 (skipWs p.2)) := by
  have e : skipWs (0x22 :: s) = 0x22 :: s := rfl
  constructor
  · rw [readMembers, if_neg (by simp only [look_cons]; decide)]
    simp only [if_true, view, res_bind_ok, known, colon, value]
  · rw [readMembers, if_neg (by simp only [look_cons]; decide)]
    simp only [Bool.false_eq_true, if_false, expect_cons, e, view, res_bind_ok, known, colon, value]

/-! ## C79 -/

/-- The full claim of C79: reading any text into a message that calls of the API made is defined. -/
def C79_statement : Prop :=
  ∀ (T : JTypes) (G : Glaze) (utf8 : List Byte → Bool), (∀ id, (T id).Ok T) → (∀ id, (T id).wk ≠ .any) → G.Lawful →
    ∀ (limit id : Nat) (m : DynMsg) (text : List Byte), DynReach T.dyn False id m →
      (∃ m', jsonRead T utf8 G limit id m text = .ok m') ∨ ∃ e, jsonRead T utf8 G limit id m text = .err e

/-- C79, where no message type has a repeated `google.protobuf.Value` or `ListValue`, apart from `ListValue`, which is not
read from `null` at the root. Whatever the text: there is a result or an error, and the message read is sound: the value
of every field, at any depth, is defined. -/
theorem C79_read_partial (L : G.Lawful) (hT : ∀ id, (T id).Ok T) (hN : T.NoTrap) {limit id : Nat} {m : DynMsg}
    (reach : DynReach T.dyn False id m) (text : List Byte) (hnull : ¬ listNull T id text) :
    (∃ m', jsonRead T utf8 G limit id m text = .ok m' ∧ ∀ sid s, DynPart T.dyn id m' sid s → ∀ f ∈ (T sid).fields,
      f.dyn.value s ≠ .undefined) ∨ ∃ e, jsonRead T utf8 G limit id m text = .err e := by
  have h := fine_readLevel (utf8 := utf8) L hT hN (limit + 1) id m text (reach.wf (wf_dyn hT)) hnull
  unfold jsonRead
  cases e : readLevel T utf8 G (limit + 1) id m text with
  | ok p =>
    rw [e] at h
    simp only [res_bind_ok]
    split
    · refine .inl ⟨_, rfl, fun sid s hp f hf => ?_⟩
      exact (hp.wf (wf_dyn hT) h.1).defined (wf_dyn hT) (dyn_mem (hT sid) hf)
    · exact .inr ⟨_, rfl⟩
  | err e' => exact .inr ⟨e', rfl⟩
  | ub => rw [e] at h; exact h.elim
  | throw => rw [e] at h; exact h.elim
  | stuck => rw [e] at h; exact h.elim

/-- The hypotheses of `C79_read_partial` are met. -/
example (text : List Byte) := C79_read_partial (utf8 := fun _ => true) (limit := 100) (id := 0) refGlaze_lawful jsonTypes_ok
  jsonTypes_noTrap DynReach.empty text (by rintro ⟨_, h, _⟩; cases h)

/-- `message M { repeated google.protobuf.Value vs = 1; }` -/
def manyValues : JDesc := ⟨[jsonList 1 (.msg 3) (.msg 3) b!"vs" b!"vs" 0], 1, false, .none⟩

theorem manyValues_ok : ∀ id, (withType manyValues id).Ok (withType manyValues) :=
  withType_ok (by checked) (by decide +kernel) rfl rfl

/-- With every implementation of glaze, `{"vs":null}` makes `read_json` clear a message at a null pointer. -/
theorem C79_null (G : Glaze) (L : G.Lawful) (utf8 : List Byte → Bool) (limit : Nat) :
    jsonRead (withType manyValues) utf8 G limit 0 (withType manyValues 0).dyn.empty b!"{\"vs\":null}" = .ub := by
  have h := L.readView b!"vs" b!":null}" (plain_check (by decide))
  have e : readLevel (withType manyValues) utf8 G (limit + 1) 0 (withType manyValues 0).dyn.empty b!"{\"vs\":null}" = .ub := by
    show ((G.readView (0x22 :: b!"vs" ++ 0x22 :: b!":null}")) >>= _) = _
    rw [h]
    rfl
  rw [jsonRead, e]
  rfl

theorem C79_disagreement : ¬ C79_statement := by
  intro h
  have := h (withType manyValues) refGlaze (fun _ => true) manyValues_ok (withType_any rfl) refGlaze_lawful 100 0 _
    b!"{\"vs\":null}" .empty
  rw [show (withType manyValues).dyn 0 = (withType manyValues 0).dyn from rfl, C79_null _ refGlaze_lawful] at this
  rcases this with ⟨_, h⟩ | ⟨_, h⟩ <;> cases h

/-! ## C80 -/

/-- The full claim of C80: a text that `read_json` accepts is JSON. -/
def C80_statement : Prop :=
  ∀ (T : JTypes) (G : Glaze) (utf8 : List Byte → Bool), (∀ id, (T id).Ok T) → (∀ id, (T id).wk ≠ .any) → G.Lawful →
    ∀ (limit id : Nat) (text : List Byte) (m' : DynMsg), jsonRead T utf8 G limit id (T id).dyn.empty text = .ok m' →
      ∃ j, JsonText j text

/-- C80, for a text that goes on after the JSON text of a message: it is rejected, whatever follows. -/
theorem C80_trailing_partial (L : G.Lawful) (hT : ∀ id, (T id).Ok T) {limit id : Nat} {m : DynMsg} {j : JTree}
    (top : (T id).entry = false) (form : FormAt T G utf8 anyStyle (limit + 1) id m j) {a t b : List Byte} (ha : Ws a)
    (ht : Spells j t) (hb : Ws b) {c : Byte} (hc : isWs c = false) (hn : numChar c = false) (more : List Byte) :
    jsonRead T utf8 G limit id (T id).dyn.empty (a ++ t ++ (b ++ c :: more)) = .err .badMessage := by
  obtain ⟨m', h1, _⟩ := read_level L hT (limit + 1) id m j a t (b ++ c :: more) form (written_of_spells top ht) ha
    (numChar_ws hb hn more)
  rw [jsonRead, h1]
  simp only [res_bind_ok]
  rw [skipWs_starts hb hc, if_neg (by simp)]

/-- The hypotheses of `C80_trailing_partial` are met. -/
example {t : List Byte} := C80_trailing_partial (t := t) (b := []) (c := 0x78) refGlaze_lawful jsonTypes_ok rfl
  (jsonSmall_form refGlaze 0) ws_nil (hb := ws_nil) (hc := rfl) (hn := rfl)

/-- C80, for a key that is not the name of a field: after members that stand for fields of some message, all text from the
key on is rejected. -/
theorem C80_unknown_partial (L : G.Lawful) (hT : ∀ id, (T id).Ok T) {limit id : Nat} (top : (T id).entry = false)
    (plain : (T id).wk = .none) {m : DynMsg} {fs : List JField} {ms : List (JStr × JTree)}
    (members : All2 (memberForm T anyStyle (fun f => fieldForm T G utf8 anyStyle (FormAt T G utf8 anyStyle limit) f m) m) fs ms)
    (fields : ∀ f ∈ fs, f ∈ (T id).fields) (once : (fs.filter fun f => f.dyn.hasValue m).Nodup)
    {a t c key v : List Byte} (ha : Ws a) (ht : OpenMembers ms t) (hkey : Spec.unescape key = some v) (hc : Ws c)
    (unknown : ∀ f ∈ (T id).fields, f.jsonName ≠ key ∧ f.name ≠ key) (tail : List Byte) :
    jsonRead T utf8 G limit id (T id).dyn.empty (a ++ 0x7b :: t ++ 0x22 :: key ++ 0x22 :: c ++ 0x3a :: tail) =
      .err .badMessage := by
  have h := unknown_object (hT id) L (read_level (utf8 := utf8) L hT limit) (null_is_value hT limit) hkey hc unknown ha ht
    fields once members (tail := tail)
  have e : readLevel T utf8 G (limit + 1) id (T id).dyn.empty
      (a ++ 0x7b :: t ++ 0x22 :: key ++ 0x22 :: c ++ 0x3a :: tail) = .err .badMessage := by
    rw [readLevel, readBody]
    simp only [top, plain, Bool.false_eq_true, if_false]
    exact h
  rw [jsonRead, e]
  rfl

/-- The hypotheses of `C80_unknown_partial` are met, after `"age":-5,`. -/
example : jsonRead jsonTypes (fun _ => true) refGlaze 100 0 jsonPerson.dyn.empty b!"{\"age\":-5,\"nme\":1}" = .err .badMessage :=
  C80_unknown_partial (utf8 := fun _ => true) (id := 0) (m := jsonExample) (fs := [jsonAge])
    (ms := [(⟨b!"age", true⟩, .num b!"-5")]) refGlaze_lawful jsonTypes_ok rfl rfl
    ⟨⟨.inl rfl, rfl, .inl ⟨rfl, -5, rfl, -5, (by simp only [IntForm]; decide), rfl⟩⟩, trivial⟩
    (by intro f hf; rw [List.mem_singleton.1 hf]; simp [jsonTypes, jsonPerson]) (by simp [List.filter_cons]; split <;> simp) (a := []) (c := [])
    (t := b!"\"age\":-5,") (key := b!"nme") (v := b!"nme") ws_nil
    (.cons (a := []) (t := b!"\"age\":-5") (b := []) ws_nil
      (.mk (s := b!"\"age\"") (a := []) (b := []) (t := b!"-5") ⟨⟨b!"age", by decide +kernel, rfl⟩, fun _ => ⟨plain_check (by decide), rfl⟩⟩
        ws_nil ws_nil (.num (by have := numText_int (v := -5) (by decide); exact this))) ws_nil (.nil ws_nil))
    (by decide +kernel) ws_nil (by decide +kernel) b!"1}"

/-- `message Outer { repeated Inner m = 1; }`, `message Inner { repeated int32 b = 1; }` -/
def nested : JTypes
  | 0 => ⟨[jsonList 1 (.msg 1) (.msg 1) b!"m" b!"m" 0], 1, false, .none⟩
  | 1 => ⟨[jsonList 1 (.scalar (.varint .i32)) (.int true false) b!"b" b!"b" 0], 1, false, .none⟩
  | _ => ⟨[], 0, false, .none⟩

theorem nested_ok : ∀ id, (nested id).Ok nested := by
  intro id
  have h : Checked (nested id) := by
    match id with
    | 0 | 1 => checked
    | _ + 2 => exact ⟨(by intro f hf; cases hf), rfl, .nil, .nil⟩
  have hm : ((nested id).fields.all (mapsRepeated nested)) = true := by
    match id with
    | 0 | 1 => decide +kernel
    | _ + 2 => rfl
  have hw : (nested id).wk = .none := by
    match id with
    | 0 | 1 | _ + 2 => rfl
  have he : (nested id).entry = false := by
    match id with
    | 0 | 1 | _ + 2 => rfl
  have p := checked_plain h
  refine ⟨p.1, h.distinct, p.2.1, p.2.2.1, keys_apart h.apart, p.2.2.2, maps_check hm, ?_, ?_, ?_, ?_, ?_, ?_, ?_⟩
  · rw [he]; intro h; cases h
  all_goals (rw [hw]; simp)

theorem not_json : ¬ ∃ j, JsonText j b!"{\"m\":[{\"b\":[1}]}" := by
  rintro ⟨j, a, u, b, ha, hu, hb, e⟩
  have hoc : (0x5b : Byte) = 0x7b ∧ (0x5d : Byte) = 0x7d ∨ (0x5b : Byte) = 0x5b ∧ (0x5d : Byte) = 0x5d := .inr ⟨rfl, rfl⟩
  have h : HppProto.Json.Level 0x5b 0x5d b!"{\"m\":[{\"b\":[1}]}" := by
    rw [e]
    exact ((level_dull hoc (ws_dull ha)).append (level_spells hoc hu)).append (level_dull hoc (ws_dull hb))
  have := h 0 [0x5d]
  revert this
  decide +kernel

/-- With every implementation of glaze, `{"m":[{"b":[1}]}`, in which a bracket is missing, is read as `{"m":[{"b":[1]}]}`. -/
theorem C80_unclosed (G : Glaze) (L : G.Lawful) (utf8 : List Byte → Bool) (limit : Nat) :
    jsonRead nested utf8 G (limit + 1) 0 (nested 0).dyn.empty b!"{\"m\":[{\"b\":[1}]}" =
      .ok [(1, .msgs [[(1, .nums [some 1])]])] := by
  have h1 := L.readView b!"m" b!":[{\"b\":[1}]}" (plain_check (by decide))
  have h2 := L.readView b!"b" b!":[1}]}" (plain_check (by decide))
  have h3 := L.skipLoose b!"b" b!"\"b\"" b!":[1" b!"]}" ⟨b!"b", by decide +kernel, rfl⟩ (by decide)
  have h4 := L.readInt (-2 ^ 31) (2 ^ 31 - 1) 1 b!"}]}" (by decide) (by decide) (by decide) (by decide) rfl
  have e : readLevel nested utf8 G (limit + 1 + 1) 0 (nested 0).dyn.empty b!"{\"m\":[{\"b\":[1}]}" =
      .ok ([(1, .msgs [[(1, .nums [some 1])]])], []) := by
    have i1 : readNum G false (.int true false) b!"1}]}" = .ok (1, b!"}]}") := by
      show (G.readInt (-2 ^ 31) (2 ^ 31 - 1) (intText 1 ++ b!"}]}") >>= _) = _
      rw [h4]
      rfl
    have i2 : readList G (readNum G false (.int true false)) 0x5b 0x5d b!"[1}]}" = .ok ([1], b!"}]}") := by
      show ((readNum G false (.int true false) b!"1}]}" >>= _) >>= _) = _
      rw [i1]
      rfl
    have i3 : readLevel nested utf8 G (limit + 1) 1 (nested 1).dyn.empty b!"{\"b\":[1}]}" =
        .ok ([(1, .nums [some 1])], b!"]}") := by
      show ((G.readView (0x22 :: b!"b" ++ 0x22 :: b!":[1}]}")) >>= _) = _
      rw [h2]
      show ((readList G (readNum G false (.int true false)) 0x5b 0x5d b!"[1}]}" >>= _) >>= _) = _
      rw [i2]
      rfl
    have i4 : countJson G 0x5d b!"{\"b\":[1}]}" = .ok 1 := by
      show ((G.skipObj (b!"\"b\"" ++ b!":[1" ++ 0x7d :: b!"]}")) >>= _) = _
      rw [h3]
      rfl
    have i5 : readList G (readLevel nested utf8 G (limit + 1) 1 (nested 1).dyn.empty) 0x5b 0x5d b!"[{\"b\":[1}]}" =
        .ok ([[(1, .nums [some 1])]], b!"}") := by
      show (countJson G 0x5d b!"{\"b\":[1}]}" >>= _) = _
      rw [i4]
      show ((readLevel nested utf8 G (limit + 1) 1 (nested 1).dyn.empty b!"{\"b\":[1}]}" >>= _) >>= _) = _
      rw [i3]
      rfl
    show ((G.readView (0x22 :: b!"m" ++ 0x22 :: b!":[{\"b\":[1}]}")) >>= _) = _
    rw [h1]
    show ((readList G (readLevel nested utf8 G (limit + 1) 1 (nested 1).dyn.empty) 0x5b 0x5d b!"[{\"b\":[1}]}" >>= _) >>= _) = _
    rw [i5]
    rfl
  rw [jsonRead, e]
  rfl

theorem C80_disagreement : ¬ C80_statement := by
  intro h
  refine not_json (h nested refGlaze (fun _ => true) nested_ok ?_ refGlaze_lawful 1 0 _ _ (C80_unclosed _ refGlaze_lawful _ 0))
  intro id
  match id with
  | 0 | 1 | _ + 2 => intro h; cases h

/-! ## C81 -/

/-- The full claim of C81: writing a message that calls of the API made is defined, what is written is JSON, and reading it
gives a message in which the same fields have a value. -/
def C81_statement : Prop :=
  ∀ (T : JTypes) (G : Glaze) (o : JOpts) (utf8 : List Byte → Bool), (∀ id, (T id).Ok T) → (∀ id, (T id).wk ≠ .any) → G.Lawful →
    ∀ (limit id : Nat) (m : DynMsg), (T id).entry = false → DynReach T.dyn False id m →
      (∃ e, jsonWrite T G o limit id m = .err e) ∨
      ∃ t j m', jsonWrite T G o limit id m = .ok t ∧ JsonText j t ∧
        jsonRead T utf8 G limit id (T id).dyn.empty t = .ok m' ∧ ∀ f ∈ (T id).fields, f.dyn.hasValue m' = f.dyn.hasValue m

/-- C81, first part, for messages in which map entries have their value where this is a message: writing is defined. What
holds of the rest is `C76_writes` and `C77_round_trip`. -/
theorem C81_write_partial (hT : ∀ id, (T id).Ok T) (hany : ∀ id, (T id).wk ≠ .any) {o : JOpts} {limit id : Nat} {m : DynMsg}
    (reach : DynReach T.dyn False id m) (complete : Complete T id m) :
    (∃ t, jsonWrite T G o limit id m = .ok t) ∨ ∃ e, jsonWrite T G o limit id m = .err e := by
  have h := fine_writeLevel (G := G) (o := o) hT hany (limit + 1) 0 id m (reach.wf (wf_dyn hT)) complete
  unfold jsonWrite
  cases e : writeLevel T G o (limit + 1) 0 id m with
  | ok t => exact .inl ⟨t, rfl⟩
  | err e' => exact .inr ⟨e', rfl⟩
  | ub => rw [e] at h; exact h.elim
  | throw => rw [e] at h; exact h.elim
  | stuck => rw [e] at h; exact h.elim

/-- A `Person` with an entry in `marks`. -/
theorem onePerson_complete : Complete jsonTypes 0 (jsonMarks.dyn.pushMsg jsonTypes.dyn (fun s => s) jsonPerson.dyn.empty) := by
  have parts : ∀ sid s, DynPart jsonTypes.dyn 0 (jsonMarks.dyn.pushMsg jsonTypes.dyn (fun s => s) jsonPerson.dyn.empty) sid s →
      (sid = 0 ∧ s = jsonMarks.dyn.pushMsg jsonTypes.dyn (fun s => s) jsonPerson.dyn.empty) ∨ sid = 1 := by
    intro sid s h
    induction h with
    | self => exact .inl ⟨rfl, rfl⟩
    | @field fid n f sid s _ hf hr hk hv ih =>
      rcases ih with ⟨rfl, rfl⟩ | rfl
      · simp only [JTypes.dyn, jsonTypes, jsonPerson, JDesc.dyn, List.map_cons, List.map_nil, List.mem_cons, List.not_mem_nil, or_false] at hf
        rcases hf with rfl | rfl | rfl | rfl | rfl | rfl | rfl | rfl | rfl | rfl <;> cases hr <;> cases hk <;> cases hv
      · simp only [JTypes.dyn, jsonTypes, JDesc.dyn, List.map_cons, List.map_nil, List.mem_cons, List.not_mem_nil, or_false] at hf
        rcases hf with rfl | rfl <;> cases hk
    | @element fid n f sid ss s _ hf hr hk hv hs ih =>
      rcases ih with ⟨rfl, rfl⟩ | rfl
      · simp only [JTypes.dyn, jsonTypes, jsonPerson, JDesc.dyn, List.map_cons, List.map_nil, List.mem_cons, List.not_mem_nil, or_false] at hf
        rcases hf with rfl | rfl | rfl | rfl | rfl | rfl | rfl | rfl | rfl | rfl <;> cases hr <;> cases hk
        exact .inr rfl
      · simp only [JTypes.dyn, jsonTypes, JDesc.dyn, List.map_cons, List.map_nil, List.mem_cons, List.not_mem_nil, or_false] at hf
        rcases hf with rfl | rfl <;> cases hk
  intro sid s hp he f hf t ht
  rcases parts sid s hp with ⟨rfl, _⟩ | rfl
  · cases he
  · cases hf
    cases ht

/-- The hypotheses of `C81_write_partial` are met. -/
example := C81_write_partial (G := refGlaze) (o := ⟨true, 3, true⟩) (limit := 100) jsonTypes_ok jsonTypes_noTrap.any
  (.step .empty (.pushMsg (by simp [JTypes.dyn, jsonTypes, jsonPerson, JDesc.dyn]) rfl)) onePerson_complete

/-- What does not end in a colon. -/
theorem spells_end : ∀ {j : JTree} {t : List Byte}, Spells j t → ∃ u c, t = u ++ [c] ∧ c ≠ 0x3a
  | _, _, .null => ⟨b!"nul", 0x6c, rfl, by decide⟩
  | _, _, .true => ⟨b!"tru", 0x65, rfl, by decide⟩
  | _, _, .false => ⟨b!"fals", 0x65, rfl, by decide⟩
  | _, _, .num h => by
    rename_i t
    have hd := num_dull h
    have hne : t ≠ [] := by
      obtain ⟨s, w, f, e, rfl, _, hw, _⟩ := h
      have := hw.1
      simp [this]
    refine ⟨t.dropLast, t.getLast hne, (List.dropLast_concat_getLast hne).symm, ?_⟩
    obtain ⟨s, w, f, e, rfl, hs, hw, _, hf, he⟩ := h
    have : ∀ c ∈ s ++ w ++ f ++ e, c ≠ 0x3a := by
      have digit : ∀ {ds : List Byte}, Digits ds → ∀ c ∈ ds, c ≠ 0x3a := by
        intro ds h c hc e
        have := h.2 c hc
        rw [e] at this
        cases this
      intro c hc
      simp only [List.mem_append] at hc
      rcases hc with ((hc | hc) | hc) | hc
      · rcases hs with rfl | rfl
        · cases hc
        · rw [List.mem_singleton.1 hc]; decide
      · exact digit hw c hc
      · rcases hf with rfl | ⟨ds, hds, rfl⟩
        · cases hc
        · rcases List.mem_cons.1 hc with rfl | hc
          · decide
          · exact digit hds c hc
      · rcases he with rfl | ⟨x, y, ds, hx, hy, hds, rfl⟩
        · cases hc
        · rcases List.mem_append.1 hc with hc | hc
          · rcases List.mem_cons.1 hc with rfl | hc
            · rcases hx with rfl | rfl <;> decide
            · rcases hy with rfl | rfl | rfl
              · cases hc
              · rw [List.mem_singleton.1 hc]; decide
              · rw [List.mem_singleton.1 hc]; decide
          · exact digit hds c hc
    exact this _ (List.getLast_mem hne)
  | _, _, .str h => by
    obtain ⟨u, _, rfl⟩ := h.1
    exact ⟨0x22 :: u, 0x22, rfl, by decide⟩
  | _, _, .arr (t := t) _ => ⟨0x5b :: t, 0x5d, rfl, by decide⟩
  | _, _, .obj (t := t) _ => ⟨0x7b :: t, 0x7d, rfl, by decide⟩

theorem ws_end {b : List Byte} (hb : Ws b) {u v : List Byte} {c : Byte} (hc : c ≠ 0x3a) (e : v ++ [c] ++ b = u ++ [0x3a]) : False := by
  rcases List.eq_nil_or_concat b with rfl | ⟨b, x, rfl⟩
  · rw [List.append_nil] at e
    exact hc (List.singleton_inj.1 (List.append_inj_right' e rfl))
  · rw [List.concat_eq_append] at e hb
    rw [← List.append_assoc] at e
    have hx : x = 0x3a := List.singleton_inj.1 (List.append_inj_right' e rfl)
    have := hb x (by simp)
    rw [hx] at this
    revert this
    decide

theorem member_end {p : JStr × JTree} {t : List Byte} (h : SpellsMember p t) : ∃ u c, t = u ++ [c] ∧ c ≠ 0x3a := by
  cases h with
  | @mk k x s a b t hs ha hb ht =>
    obtain ⟨u, c, rfl, hc⟩ := spells_end ht
    exact ⟨s ++ a ++ 0x3a :: b ++ u, c, by simp, hc⟩

theorem members_end : ∀ {ms : List (JStr × JTree)} {t : List Byte}, SpellsMembers ms t → ∀ u, t ≠ u ++ [0x3a]
  | _, _, .nil ha, u => by
    rintro rfl
    have := ha 0x3a (by simp)
    revert this
    decide
  | _, _, .one ha h hb, u => by
    obtain ⟨v, c, rfl, hc⟩ := member_end h
    intro e
    rw [← List.append_assoc] at e
    exact ws_end hb hc e
  | _, _, .more (r := r) ha h hb hr, u => by
    intro e
    rcases List.eq_nil_or_concat r with rfl | ⟨r', x, rfl⟩
    · have := List.append_inj_right' e rfl
      revert this
      decide
    · rw [List.concat_eq_append] at hr e
      have hx : x = 0x3a := by
        rw [← List.cons_append, ← List.append_assoc] at e
        exact List.singleton_inj.1 (List.append_inj_right' e rfl)
      exact members_end hr r' (by rw [hx])

/-- An object that ends after a colon is not JSON. -/
theorem colon_not_json (t : List Byte) : ¬ ∃ j, JsonText j (0x7b :: t ++ [0x3a, 0x7d]) := by
  rintro ⟨j, a, u, b, ha, hu, hb, e⟩
  have ha' : a = [] := by
    cases a with
    | nil => rfl
    | cons x a =>
      have : x = 0x7b := by
        simp only [List.cons_append, List.cons.injEq] at e
        exact e.1.symm
      have := this ▸ ha x (by simp)
      exact absurd this (by decide)
  have hb' : b = [] := by
    rcases List.eq_nil_or_concat b with rfl | ⟨b, x, rfl⟩
    · rfl
    · rw [List.concat_eq_append] at e hb
      have : x = 0x7d := by
        have e' : (0x7b :: t ++ [0x3a]) ++ [0x7d] = (a ++ u ++ b) ++ [x] := by simpa using e
        exact (List.singleton_inj.1 (List.append_inj_right' e' rfl)).symm
      have := this ▸ hb x (by simp)
      exact absurd this (by decide)
  subst ha' hb'
  rw [List.nil_append, List.append_nil] at e
  cases hu with
  | obj h =>
    rename_i ms t'
    have : t' = t ++ [0x3a] := by
      have e' : (0x7b :: t ++ [0x3a]) ++ [0x7d] = (0x7b :: t') ++ [0x7d] := by simpa using e
      have := List.append_inj_left' e' rfl
      simpa using this.symm
    exact members_end h t this
  | str h =>
    obtain ⟨u, _, h⟩ := h.1
    rw [h] at e
    simp at e
  | arr h => simp at e
  | num h =>
    have hd := num_dull h 0x7b (by rw [← e]; simp)
    revert hd
    decide
  | null => simp at e
  | true => simp at e
  | false => simp at e

/-- With every implementation of glaze: a `Person` whose wrapper `limit` is set, but has no value, is written as
`{"limit":}`. -/
theorem C81_wrapper (G : Glaze) (L : G.Lawful) (limit : Nat) :
    DynReach jsonTypes.dyn False 0 (jsonLimit.dyn.emplace jsonTypes.dyn jsonPerson.dyn.empty) ∧
    jsonWrite jsonTypes G ⟨false, 3, false⟩ (limit + 1) 0 (jsonLimit.dyn.emplace jsonTypes.dyn jsonPerson.dyn.empty) =
      .ok b!"{\"limit\":}" ∧ ¬ ∃ j, JsonText j b!"{\"limit\":}" := by
  refine ⟨.step .empty (.emplace (by simp [JTypes.dyn, jsonTypes, jsonPerson, JDesc.dyn]) rfl), ?_, colon_not_json b!"\"limit\""⟩
  have h := L.writePlain b!"limit" (plain_check (by decide))
  show Res.ok (0x7b :: ([] : List Byte) ++ List.intercalate [0x2c] [G.writeStr b!"limit" ++ 0x3a :: [] ++ []] ++ [] ++ [0x7d]) = _
  rw [h]
  rfl

/-- The same for a `google.protobuf.Value` that is not set. -/
theorem C81_value (G : Glaze) (L : G.Lawful) (limit : Nat) :
    DynReach jsonTypes.dyn False 0 (jsonExtra.dyn.emplace jsonTypes.dyn jsonPerson.dyn.empty) ∧
    jsonWrite jsonTypes G ⟨false, 3, false⟩ (limit + 1) 0 (jsonExtra.dyn.emplace jsonTypes.dyn jsonPerson.dyn.empty) =
      .ok b!"{\"extra\":}" ∧ ¬ ∃ j, JsonText j b!"{\"extra\":}" := by
  refine ⟨.step .empty (.emplace (by simp [JTypes.dyn, jsonTypes, jsonPerson, JDesc.dyn]) rfl), ?_, colon_not_json b!"\"extra\""⟩
  have h := L.writePlain b!"extra" (plain_check (by decide))
  show Res.ok (0x7b :: ([] : List Byte) ++ List.intercalate [0x2c] [G.writeStr b!"extra" ++ 0x3a :: [] ++ []] ++ [] ++ [0x7d]) = _
  rw [h]
  rfl

/-- The number -2 in an open enum that has no name for it is written as 4294967294, which is not read back. -/
theorem C81_enum (G : Glaze) (L : G.Lawful) (utf8 : List Byte → Bool) (limit : Nat) :
    DynReach jsonTypes.dyn False 0 (jsonColorField.dyn.setNum (-2) jsonPerson.dyn.empty) ∧
    jsonWrite jsonTypes G ⟨false, 3, false⟩ limit 0 (jsonColorField.dyn.setNum (-2) jsonPerson.dyn.empty) =
      .ok b!"{\"color\":4294967294}" ∧
    jsonRead jsonTypes utf8 G limit 0 jsonPerson.dyn.empty b!"{\"color\":4294967294}" = .err .badMessage := by
  refine ⟨.step .empty (.setNum (by simp [JTypes.dyn, jsonTypes, jsonPerson, JDesc.dyn]) rfl rfl _), ?_, ?_⟩
  · have h := L.writePlain b!"color" (plain_check (by decide))
    have e : numText G false (.enum jsonColor) (-2) = b!"4294967294" := by
      show enumText jsonColor (-2) = _
      decide +kernel
    show Res.ok (0x7b :: ([] : List Byte) ++ List.intercalate [0x2c] [G.writeStr b!"color" ++ 0x3a :: [] ++ numText G false (.enum jsonColor) (-2)] ++ [] ++ [0x7d]) = _
    rw [h, e]
    rfl
  · have h1 := L.readView b!"color" b!":4294967294}" (plain_check (by decide))
    have h2 := L.intOver (-2 ^ 31) (2 ^ 31 - 1) 4294967294 b!"}" (by decide) (by decide) (by decide) rfl
    have h3 : intText 4294967294 ++ b!"}" = b!"4294967294}" := by decide +kernel
    rw [h3] at h2
    have h4 : Json.readField jsonTypes utf8 G (readLevel jsonTypes utf8 G limit) jsonColorField jsonPerson.dyn.empty b!"4294967294}" =
        .err .badMessage := by
      have : readEnum G jsonColor b!"4294967294}" = .err .badMessage := by
        unfold readEnum
        rw [if_pos (by decide), h2]
        rfl
      show ((readEnum G jsonColor b!"4294967294}") >>= _) = _
      rw [this]
      rfl
    have e : readLevel jsonTypes utf8 G (limit + 1) 0 jsonPerson.dyn.empty b!"{\"color\":4294967294}" = .err .badMessage := by
      show readMembers jsonTypes utf8 G (readLevel jsonTypes utf8 G limit) jsonPerson (19 + 1) true jsonPerson.dyn.empty
        b!"\"color\":4294967294}" = _
      refine (member_step (D := jsonPerson) (f := jsonColorField) 19 h1 rfl rfl h4).1.trans ?_
      rfl
    rw [jsonRead, e]
    rfl

/-- `message M { optional google.protobuf.NullValue n = 1; }` -/
def holdsNull : JDesc :=
  ⟨[jsonField 1 (.scalar (.enum none)) (.enum ⟨[(b!"NULL_VALUE", 0)], true⟩) b!"n" b!"n" 0 true], 1, false, .none⟩

theorem holdsNull_ok : ∀ id, (withType holdsNull id).Ok (withType holdsNull) :=
  withType_ok (by checked) (by decide +kernel) rfl rfl

/-- A `google.protobuf.NullValue` that is set is written as `null` and is not set after reading. -/
theorem C81_null (G : Glaze) (L : G.Lawful) (utf8 : List Byte → Bool) (limit : Nat) :
    DynReach (withType holdsNull).dyn False 0 [(1, .num 0)] ∧
    jsonWrite (withType holdsNull) G ⟨false, 3, false⟩ limit 0 [(1, .num 0)] = .ok b!"{\"n\":null}" ∧
    jsonRead (withType holdsNull) utf8 G limit 0 holdsNull.dyn.empty b!"{\"n\":null}" = .ok [(0, .zero)] := by
  refine ⟨.step (m := holdsNull.dyn.empty) .empty (.setNum (f := (jsonField 1 (.scalar (.enum none)) (.enum ⟨[(b!"NULL_VALUE", 0)], true⟩)
    b!"n" b!"n" 0 true).dyn) (by simp [JTypes.dyn, withType, holdsNull, JDesc.dyn]) rfl rfl 0), ?_, ?_⟩
  · have h := L.writePlain b!"n" (plain_check (by decide))
    show Res.ok (0x7b :: ([] : List Byte) ++ List.intercalate [0x2c] [G.writeStr b!"n" ++ 0x3a :: [] ++ b!"null"] ++ [] ++ [0x7d]) = _
    rw [h]
    rfl
  · have h := L.readView b!"n" b!":null}" (plain_check (by decide))
    have e : readLevel (withType holdsNull) utf8 G (limit + 1) 0 holdsNull.dyn.empty b!"{\"n\":null}" = .ok ([(0, .zero)], []) := by
      show ((G.readView (0x22 :: b!"n" ++ 0x22 :: b!":null}")) >>= _) = _
      rw [h]
      rfl
    rw [jsonRead, e]
    rfl

/-- An entry of a `google.protobuf.Struct` that has a key only is written through a null pointer. -/
theorem C81_entry (G : Glaze) (limit : Nat) :
    DynReach jsonTypes.dyn False 4 [(1, .msgs [[(1, .str [0x6b]), (0, .zero)]])] ∧
    jsonWrite jsonTypes G ⟨false, 3, false⟩ (limit + 1) 4 [(1, .msgs [[(1, .str [0x6b]), (0, .zero)]])] = .ub := by
  refine ⟨?_, rfl⟩
  have h1 : DynReach jsonTypes.dyn False 4 (jsonFields.dyn.pushMsg jsonTypes.dyn (fun s => s) (jsonTypes 4).dyn.empty) :=
    .step .empty (.pushMsg (by simp [JTypes.dyn, jsonTypes, JDesc.dyn]) rfl)
  exact .step h1 (.withinAt (f := jsonFields.dyn) (sid := 5) (ss := [[(0, .zero), (0, .zero)]]) (by simp [JTypes.dyn, jsonTypes, JDesc.dyn])
    rfl rfl rfl 0 rfl (.setStr (f := jsonKey.dyn) (by simp [JTypes.dyn, jsonTypes, JDesc.dyn]) rfl rfl [0x6b]))

theorem C81_disagreement : ¬ C81_statement := by
  intro h
  obtain ⟨h1, h2, h3⟩ := C81_wrapper refGlaze refGlaze_lawful 0
  rcases h jsonTypes refGlaze ⟨false, 3, false⟩ (fun _ => true) jsonTypes_ok jsonTypes_noTrap.any refGlaze_lawful 1 0 _ rfl h1 with
    ⟨e, he⟩ | ⟨t, j, m', ht, hj, _⟩
  · rw [h2] at he; cases he
  · rw [h2] at ht
    cases ht
    exact h3 ⟨j, hj⟩

/-! ## C82 -/

/-- The full claim of C82: what is read does not depend on what the message held before. (Other spellings: the theorems
below.) -/
def C82_statement : Prop :=
  ∀ (T : JTypes) (G : Glaze) (utf8 : List Byte → Bool), (∀ id, (T id).Ok T) → (∀ id, (T id).wk ≠ .any) → G.Lawful →
    ∀ (limit id : Nat) (m : DynMsg) (text : List Byte), (T id).entry = false → DynReach T.dyn False id m →
      jsonRead T utf8 G limit id m text = jsonRead T utf8 G limit id (T id).dyn.empty text

/-- A key in which a character is escaped, `{"\u0061ge":1}`, is not recognised. -/
theorem C82_escaped_key (G : Glaze) (L : G.Lawful) (utf8 : List Byte → Bool) (limit : Nat) :
    (∃ j, JsonText j b!"{\"\\u0061ge\":1}") ∧
    jsonRead jsonTypes utf8 G limit 0 jsonPerson.dyn.empty b!"{\"\\u0061ge\":1}" = .err .badMessage := by
  constructor
  · refine ⟨.obj [(⟨b!"age", false⟩, .num b!"1")], [], _, [], ws_nil, .obj (t := [] ++ b!"\"\\u0061ge\":1" ++ []) (.one ws_nil ?_ ws_nil),
      ws_nil, rfl⟩
    exact .mk (s := b!"\"\\u0061ge\"") (a := []) (b := []) (t := b!"1") ⟨⟨b!"\\u0061ge", by decide +kernel, rfl⟩, by simp⟩ ws_nil ws_nil
      (.num (by have := numText_int (v := 1) (by decide); exact this))
  · have h := L.readRaw b!"\\u0061ge" b!"age" b!":1}" (by decide +kernel)
    have e : readLevel jsonTypes utf8 G (limit + 1) 0 jsonPerson.dyn.empty b!"{\"\\u0061ge\":1}" = .err .badMessage := by
      show ((G.readView (0x22 :: b!"\\u0061ge" ++ 0x22 :: b!":1}")) >>= _) = _
      rw [h]
      rfl
    rw [jsonRead, e]
    rfl

/-- A number that is not in quotes is not accepted for a 64-bit field. -/
theorem C82_unquoted (G : Glaze) (L : G.Lawful) (utf8 : List Byte → Bool) (limit : Nat) :
    jsonRead jsonTypes utf8 G limit 0 jsonPerson.dyn.empty b!"{\"nums\":[5]}" = .err .badMessage := by
  have h := L.readView b!"nums" b!":[5]}" (plain_check (by decide))
  have e : readLevel jsonTypes utf8 G (limit + 1) 0 jsonPerson.dyn.empty b!"{\"nums\":[5]}" = .err .badMessage := by
    show ((G.readView (0x22 :: b!"nums" ++ 0x22 :: b!":[5]}")) >>= _) = _
    rw [h]
    rfl
  rw [jsonRead, e]
  rfl

/-- `null` for a member of a oneof clears the member read before. -/
theorem C82_null_member (G : Glaze) (L : G.Lawful) (utf8 : List Byte → Bool) (limit : Nat) :
    ∃ m', jsonRead jsonTypes utf8 G limit 0 jsonPerson.dyn.empty b!"{\"anon\":true,\"nick\":null}" = .ok m' ∧
      jsonAnon.dyn.hasValue m' = false := by
  have h1 := L.readView b!"anon" b!":true,\"nick\":null}" (plain_check (by decide))
  have h2 := L.readView b!"nick" b!":null}" (plain_check (by decide))
  refine ⟨jsonNick.dyn.clear (jsonAnon.dyn.setNum 1 jsonPerson.dyn.empty), ?_, rfl⟩
  have e : readLevel jsonTypes utf8 G (limit + 1) 0 jsonPerson.dyn.empty b!"{\"anon\":true,\"nick\":null}" =
      .ok (jsonNick.dyn.clear (jsonAnon.dyn.setNum 1 jsonPerson.dyn.empty), []) := by
    show readMembers jsonTypes utf8 G (readLevel jsonTypes utf8 G limit) jsonPerson (24 + 1) true jsonPerson.dyn.empty
      b!"\"anon\":true,\"nick\":null}" = _
    refine (member_step (D := jsonPerson) (f := jsonAnon) 24 h1 rfl rfl rfl).1.trans ?_
    show readMembers jsonTypes utf8 G (readLevel jsonTypes utf8 G limit) jsonPerson (23 + 1) false
      (jsonAnon.dyn.setNum 1 jsonPerson.dyn.empty) b!",\"nick\":null}" = _
    refine (member_step (D := jsonPerson) (f := jsonNick) 23 h2 rfl rfl rfl).2.trans ?_
    rfl
  rw [jsonRead, e]
  rfl

/-- `read_json` does not reset the message: after reading `{}`, it holds what it held before. -/
theorem C82_keeps (G : Glaze) (utf8 : List Byte → Bool) {limit id : Nat} (top : (T id).entry = false) (plain : (T id).wk = .none)
    (m : DynMsg) : jsonRead T utf8 G limit id m b!"{}" = .ok m := by
  have e : readLevel T utf8 G (limit + 1) id m b!"{}" = .ok (m, []) := by
    rw [readLevel, readBody]
    simp only [top, plain, Bool.false_eq_true, if_false]
    rfl
  rw [jsonRead, e]
  rfl

theorem C82_disagreement : ¬ C82_statement := by
  intro h
  have h1 := h jsonTypes refGlaze (fun _ => true) jsonTypes_ok jsonTypes_noTrap.any refGlaze_lawful 100 0 _ b!"{}" rfl
    (.step .empty (.setNum (f := jsonAge.dyn) (by simp [JTypes.dyn, jsonTypes, jsonPerson, JDesc.dyn]) rfl rfl 1))
  rw [C82_keeps _ _ rfl rfl, C82_keeps _ _ rfl rfl] at h1
  cases h1

end HppProto.Props
