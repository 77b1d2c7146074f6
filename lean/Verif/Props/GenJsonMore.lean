import Verif.Props.GenJson

/-! # C90-C94: where the code of generated messages deviates -/

namespace HppProto.Props
open HppProto.Json

/-- One class that uses no other. -/
def soleClass (D : GDesc) : GTypes
  | 0 => D
  | _ => ⟨[], .none⟩

theorem soleClass_ok {D : GDesc} (h : GChecked (soleClass D) D) (hw : D.wk = .none) (hm : ∀ f ∈ D.names, ∀ id, f.ty ≠ .msg id) :
    ∀ id, ((soleClass D) id).Ok (soleClass D) := by
  intro id
  cases id with
  | zero =>
    have p := gchecked h
    refine ⟨p.1, p.2.1, p.2.2.1, p.2.2.2.1, p.2.2.2.2, ?_, ?_, ?_, ?_, ?_, ?_, ?_⟩
    · intro f d hf id e
      exact absurd e (hm f (List.mem_flatMap.2 ⟨_, hf, by simp⟩) id)
    · show D.wk = _ ∨ D.wk = _ → _
      rw [hw]
      simp
    all_goals
      intro e
      rw [show (soleClass D 0).wk = .none from hw] at e
      cases e
  | succ n =>
    refine ⟨?_, .nil, ?_, ?_, ?_, ?_, ?_, ?_, ?_, ?_, ?_, ?_⟩
    · intro f h; cases h
    · intro f h; cases h
    · intro _ _ h; cases h
    · intro _ _ h; cases h
    · intro _ _ h; cases h
    · intro h; rcases h with h | h <;> cases h
    all_goals intro h; cases h

/-- `message Wide { oneof size { int64 big = 1; bool small = 2; } }` -/
def genWide : GDesc := ⟨[.oneof [⟨b!"big", b!"big", .int true true⟩, ⟨b!"small", b!"small", .bool⟩]], .none⟩

theorem genWide_ok : ∀ id, (soleClass genWide id).Ok (soleClass genWide) :=
  soleClass_ok (by gchecks) rfl (by
    intro f hf id e
    simp only [GDesc.names, genWide, List.flatMap_cons, List.flatMap_nil, List.append_nil, List.mem_cons, List.not_mem_nil, or_false] at hf
    rcases hf with rfl | rfl <;> cases e)

/-- `{big: 5}` -/
def wideFive : Msg := ⟨[[(0, .num 5)]], []⟩

theorem wideFive_form (G : Glaze) (utf8 : List Byte → Bool) (d : Nat) (lossy : Bool) :
    GFormAt (soleClass genWide) G utf8 (genStyle false false lossy) (d + 1) 0 wideFive (.obj [(⟨b!"big", true⟩, .str ⟨b!"5", true⟩)]) := by
  refine ⟨rfl, rfl, [(0, 0)], _, ?_, by decide, ?_, ⟨by decide, ?_⟩, rfl⟩
  · exact ⟨⟨rfl, _, rfl, rfl, .inl ⟨_, rfl, ⟨5, rfl, 5, (by simp only [IntForm]; decide), rfl⟩, by intro _ h; cases h⟩⟩, trivial⟩
  · intro i sl hi hn
    match i with
    | 0 => exact absurd (by simp) (hn 0)
    | _ + 1 => cases hi
  · intro i sl hi
    match i with
    | 0 => cases hi; simp [Shown, wideFive, MsgOf.get]
    | _ + 1 => cases hi

/-- A 64-bit integer in a oneof is written without quotes, and is not read back. -/
theorem C90_wide (G : Glaze) (L : G.Lawful) (utf8 : List Byte → Bool) (d : Nat) (old : Msg) :
    genWrite (soleClass genWide) G ⟨⟨false, 3, false⟩, false⟩ (d + 1) 0 wideFive = .ok b!"{\"big\":5}" ∧
    genRead (soleClass genWide) utf8 G (d + 1) 0 old b!"{\"big\":5}" = .err .badMessage := by
  constructor
  · have h := L.writePlain b!"big" (plain_check (by decide))
    show Res.ok (0x7b :: ([] : List Byte) ++ List.intercalate [0x2c] [G.writeStr b!"big" ++ 0x3a :: [] ++ b!"5"] ++ [] ++ [0x7d]) = _
    rw [h]
    rfl
  · have h := L.readView b!"big" b!":5}" (plain_check (by decide))
    have e : genReadLevel (soleClass genWide) utf8 G (d + 1) 0 (soleClass genWide 0).default b!"{\"big\":5}" = .err .badMessage := by
      show ((G.readView (0x22 :: b!"big" ++ 0x22 :: b!":5}")) >>= _) = _
      rw [h]
      rfl
    rw [genRead, e]
    rfl

theorem C90_disagreement : ¬ C90_statement := by
  intro h
  obtain ⟨t, h1, h2⟩ := h (soleClass genWide) refGlaze (fun _ => true) refGlaze_lawful genWide_ok ⟨⟨false, 3, false⟩, false⟩ false 1 0 wideFive _
    (wideFive_form refGlaze _ 0 false)
  obtain ⟨w1, w2⟩ := C90_wide refGlaze refGlaze_lawful (fun _ => true) 0 wideFive
  rw [w1] at h1
  cases h1
  rw [C91_reads refGlaze_lawful genWide_ok (gen_form_weaken genWide_ok 1 0 wideFive _ (wideFive_form refGlaze _ 0 false)) h2] at w2
  cases w2

/-- A `google.protobuf.Value` that is not set is written as nothing, and the text is not JSON. -/
theorem C90_value (G : Glaze) (L : G.Lawful) (d : Nat) :
    genWrite genTypes G ⟨⟨false, 3, false⟩, false⟩ (d + 2) 0
      ⟨[[], [], [], [], [(0, .msg (genTypes 3).default)], [], [], [], []], []⟩ = .ok b!"{\"extra\":}" ∧
    ¬ ∃ j, JsonText j b!"{\"extra\":}" := by
  refine ⟨?_, colon_not_json b!"\"extra\""⟩
  have h := L.writePlain b!"extra" (plain_check (by decide))
  show Res.ok (0x7b :: ([] : List Byte) ++ List.intercalate [0x2c] [G.writeStr b!"extra" ++ 0x3a :: [] ++ []] ++ [] ++ [0x7d]) = _
  rw [h]
  rfl

/-- One member of an object. -/
theorem gen_member_step {T : GTypes} {G : Glaze} {utf8 : List Byte → Bool} {D : GDesc} {r : GReader} {m : Msg} {key s s1 s2 : List Byte}
    {i a : Nat} {sl : GSlot} (fuel : Nat) (view : G.readView (0x22 :: s) = .ok (key, s1))
    (known : findKey key 0 D.slots = some (i, a, sl)) (colon : readColon s1 = .ok s2)
    {res : Res (List (Nat × Val) × List Byte)} (value : genReadSlot T utf8 G r sl a (m.get i) s2 = res) :
    genReadMembers T utf8 G r D (fuel + 1) true m (0x22 :: s) =
      (res >>= fun p => genReadMembers T utf8 G r D fuel false (m.put i p.1) (skipWs p.2)) ∧
    genReadMembers T utf8 G r D (fuel + 1) false m (0x2c :: 0x22 :: s) =
      (res >>= fun p => genReadMembers T utf8 G r D fuel false (m.put i p.1) (skipWs p.2)) := by
  have e : skipWs (0x22 :: s) = 0x22 :: s := rfl
  constructor
  · rw [genReadMembers, if_neg (by simp only [Json.look_cons]; decide)]
    simp only [if_true, view, Json.res_bind_ok, known, colon, value]
  · rw [genReadMembers, if_neg (by simp only [Json.look_cons]; decide)]
    simp only [Bool.false_eq_true, if_false, expect_cons, e, view, Json.res_bind_ok, known, colon, value]

/-- `null` for one member of a oneof drops the other: `{"anon":true,"nick":null}` is read as a message in which neither is set. -/
theorem C91_null (G : Glaze) (L : G.Lawful) (utf8 : List Byte → Bool) (d : Nat) (old : Msg) :
    genRead genTypes utf8 G (d + 1) 0 old b!"{\"anon\":true,\"nick\":null}" = .ok genPerson.default := by
  have h1 := L.readView b!"anon" b!":true,\"nick\":null}" (plain_check (by decide))
  have h2 := L.readView b!"nick" b!":null}" (plain_check (by decide))
  have e : genReadLevel genTypes utf8 G (d + 1) 0 (genTypes 0).default b!"{\"anon\":true,\"nick\":null}" = .ok (genPerson.default, []) := by
    show genReadMembers genTypes utf8 G (genReadLevel genTypes utf8 G d) genPerson (24 + 1) true genPerson.default
      b!"\"anon\":true,\"nick\":null}" = _
    refine (gen_member_step (D := genPerson) (i := 5) (a := 1) 24 h1 rfl rfl rfl).1.trans ?_
    show genReadMembers genTypes utf8 G (genReadLevel genTypes utf8 G d) genPerson (23 + 1) false
      (genPerson.default.put 5 [(1, .num 1)]) b!",\"nick\":null}" = _
    refine (gen_member_step (D := genPerson) (i := 5) (a := 0) 23 h2 rfl rfl rfl).2.trans ?_
    rfl
  rw [genRead, e]
  rfl

/-- `{extra: null}` -/
def extraNull : Msg := ⟨[[], [], [], [], [(0, .msg ⟨[[(0, .num 0)]], []⟩)], [], [], [], []], []⟩

theorem extraNull_form (G : Glaze) (utf8 : List Byte → Bool) (d : Nat) :
    GFormAt genTypes G utf8 (genStyle false false true) (d + 2) 0 extraNull (.obj [(⟨b!"extra", true⟩, .null)]) := by
  refine ⟨rfl, rfl, [(4, 0)], _, ?_, by decide, ?_, ⟨by decide, ?_⟩, rfl⟩
  · refine ⟨⟨rfl, rfl, rfl, .inl ⟨_, rfl, ⟨_, rfl, rfl, rfl, ?_⟩, by intro h; cases h⟩⟩, trivial⟩
    exact ⟨_, 0, _, genName jsonNull, rfl, rfl, rfl, rfl, rfl⟩
  · intro i sl hi hn
    match i with
    | 4 => exact absurd (by simp) (hn 0)
    | 0 | 1 | 2 | 3 | 5 | 6 | 7 | 8 => cases hi; rfl
    | _ + 9 => cases hi
  · intro i sl hi
    match i with
    | 0 | 1 | 2 | 3 | 4 | 5 | 6 | 7 | 8 => cases hi; simp [Shown, extraNull, MsgOf.get]
    | _ + 9 => cases hi

/-- A `google.protobuf.Value` that is null is written as `null`, and is not set after reading. -/
theorem C92_null (G : Glaze) (L : G.Lawful) (utf8 : List Byte → Bool) (d : Nat) (old : Msg) :
    genWrite genTypes G ⟨⟨false, 3, false⟩, false⟩ (d + 2) 0 extraNull = .ok b!"{\"extra\":null}" ∧
    genRead genTypes utf8 G (d + 2) 0 old b!"{\"extra\":null}" = .ok genPerson.default := by
  constructor
  · have h := L.writePlain b!"extra" (plain_check (by decide))
    show Res.ok (0x7b :: ([] : List Byte) ++ List.intercalate [0x2c] [G.writeStr b!"extra" ++ 0x3a :: [] ++ b!"null"] ++ [] ++ [0x7d]) = _
    rw [h]
    rfl
  · have h := L.readView b!"extra" b!":null}" (plain_check (by decide))
    have e : genReadLevel genTypes utf8 G (d + 2) 0 (genTypes 0).default b!"{\"extra\":null}" = .ok (genPerson.default, []) := by
      show ((G.readView (0x22 :: b!"extra" ++ 0x22 :: b!":null}")) >>= _) = _
      rw [h]
      rfl
    rw [genRead, e]
    rfl

theorem C92_disagreement : ¬ C92_statement := by
  intro h
  obtain ⟨t, h1, h2⟩ := h genTypes refGlaze (fun _ => true) refGlaze_lawful genTypes_ok ⟨⟨false, 3, false⟩, false⟩ 2 0 extraNull extraNull _
    (extraNull_form refGlaze _ 0)
  obtain ⟨w1, w2⟩ := C92_null refGlaze refGlaze_lawful (fun _ => true) 0 extraNull
  rw [w1] at h1
  cases h1
  rw [w2] at h2
  cases h2

/-- `message Best { required Color best = 1; }` -/
def genBest : GDesc := ⟨[.field rankBest (.always (.num 0))], .none⟩

/-- A required enum whose number has no name is written as the number, and is not read back. -/
theorem C92_enum (G : Glaze) (L : G.Lawful) (utf8 : List Byte → Bool) (d : Nat) (old : Msg) :
    genWrite (soleClass genBest) G ⟨⟨false, 3, false⟩, false⟩ (d + 1) 0 ⟨[[(0, .num 9)]], []⟩ = .ok b!"{\"best\":9}" ∧
    genRead (soleClass genBest) utf8 G (d + 1) 0 old b!"{\"best\":9}" = .err .badMessage := by
  constructor
  · have h := L.writePlain b!"best" (plain_check (by decide))
    have e : genNumText G true (.enum jsonColor) 9 = b!"9" := by
      show genEnumText jsonColor 9 = _
      decide +kernel
    show Res.ok (0x7b :: ([] : List Byte) ++ List.intercalate [0x2c] [G.writeStr b!"best" ++ 0x3a :: [] ++ genNumText G true (.enum jsonColor) 9] ++ [] ++ [0x7d]) = _
    rw [h, e]
    rfl
  · have h := L.readView b!"best" b!":9}" (plain_check (by decide))
    have e : genReadLevel (soleClass genBest) utf8 G (d + 1) 0 (soleClass genBest 0).default b!"{\"best\":9}" = .err .badMessage := by
      show ((G.readView (0x22 :: b!"best" ++ 0x22 :: b!":9}")) >>= _) = _
      rw [h]
      rfl
    rw [genRead, e]
    rfl

/-- `message Named { required string name = 1; }` -/
def genNamed : GDesc := ⟨[.field ⟨b!"name", b!"name", .string⟩ (.always (.bytes []))], .none⟩

/-- A required string is read although it is not valid UTF-8. -/
theorem C91_utf8 (G : Glaze) (L : G.Lawful) (utf8 : List Byte → Bool) (d : Nat) (old : Msg) :
    genRead (soleClass genNamed) utf8 G (d + 1) 0 old (b!"{\"name\":\"" ++ 0xff :: b!"\"}") = .ok ⟨[[(0, .bytes [0xff])]], []⟩ := by
  have h1 := L.readView b!"name" (b!":\"" ++ 0xff :: b!"\"}") (plain_check (by decide))
  have h2 := L.readStr [0xff] (0x22 :: 0xff :: [0x22]) b!"}" ⟨[0xff], by decide +kernel, rfl⟩
  have e : genReadLevel (soleClass genNamed) utf8 G (d + 1) 0 (soleClass genNamed 0).default (b!"{\"name\":\"" ++ 0xff :: b!"\"}") =
      .ok (⟨[[(0, .bytes [0xff])]], []⟩, []) := by
    show ((G.readView (0x22 :: b!"name" ++ 0x22 :: (b!":\"" ++ 0xff :: b!"\"}"))) >>= _) = _
    rw [h1]
    show ((((G.readStr ((0x22 :: 0xff :: [0x22]) ++ b!"}")) >>= _) >>= _) >>= _) = _
    rw [h2]
    rfl
  rw [genRead, e]
  rfl

/-- `message A { repeated B m = 1; } message B { repeated int32 b = 1; }` -/
def genNested : GTypes
  | 0 => ⟨[.field ⟨b!"m", b!"m", .msg 1⟩ (.repeated false)], .none⟩
  | 1 => ⟨[.field ⟨b!"b", b!"b", .int true false⟩ (.repeated true)], .none⟩
  | _ => ⟨[], .none⟩

/-- With every implementation of glaze, `{"m":[{"b":[1}]}`, in which a bracket is missing and which is not JSON (`not_json`), is
read as `{"m":[{"b":[1]}]}`. -/
theorem C94_unclosed (G : Glaze) (L : G.Lawful) (utf8 : List Byte → Bool) (d : Nat) (old : Msg) :
    genRead genNested utf8 G (d + 2) 0 old b!"{\"m\":[{\"b\":[1}]}" = .ok ⟨[[(0, .msg ⟨[[(0, .num 1)]], []⟩)]], []⟩ ∧
    ¬ ∃ j, JsonText j b!"{\"m\":[{\"b\":[1}]}" := by
  refine ⟨?_, not_json⟩
  have h1 := L.readView b!"m" b!":[{\"b\":[1}]}" (plain_check (by decide))
  have h2 := L.readView b!"b" b!":[1}]}" (plain_check (by decide))
  have h3 := L.skipLoose b!"b" b!"\"b\"" b!":[1" b!"]}" ⟨b!"b", by decide +kernel, rfl⟩ (by decide)
  have h4 := L.readInt (-2 ^ 31) (2 ^ 31 - 1) 1 b!"}]}" (by decide) (by decide) (by decide) (by decide) rfl
  have e : genReadLevel genNested utf8 G (d + 2) 0 (genNested 0).default b!"{\"m\":[{\"b\":[1}]}" =
      .ok (⟨[[(0, .msg ⟨[[(0, .num 1)]], []⟩)]], []⟩, []) := by
    have i1 : genReadVal genNested utf8 G (genReadLevel genNested utf8 G d) (.int true false) b!"1}]}" = .ok (.num 1, b!"}]}") := by
      show ((G.readInt (-2 ^ 31) (2 ^ 31 - 1) (intText 1 ++ b!"}]}") >>= _) >>= _) = _
      rw [h4]
      rfl
    have i2 : readList G (genReadVal genNested utf8 G (genReadLevel genNested utf8 G d) (.int true false)) 0x5b 0x5d b!"[1}]}" =
        .ok ([.num 1], b!"}]}") := by
      show ((genReadVal genNested utf8 G (genReadLevel genNested utf8 G d) (.int true false) b!"1}]}" >>= _) >>= _) = _
      rw [i1]
      rfl
    have i3 : genReadLevel genNested utf8 G (d + 1) 1 (genNested 1).default b!"{\"b\":[1}]}" =
        .ok (⟨[[(0, .num 1)]], []⟩, b!"]}") := by
      show ((G.readView (0x22 :: b!"b" ++ 0x22 :: b!":[1}]}")) >>= _) = _
      rw [h2]
      show ((readList G (genReadVal genNested utf8 G (genReadLevel genNested utf8 G d) (.int true false)) 0x5b 0x5d b!"[1}]}" >>= _) >>= _) = _
      rw [i2]
      rfl
    have i4 : countJson G 0x5d b!"{\"b\":[1}]}" = .ok 1 := by
      show ((G.skipObj (b!"\"b\"" ++ b!":[1" ++ 0x7d :: b!"]}")) >>= _) = _
      rw [h3]
      rfl
    have i5 : readList G (genReadVal genNested utf8 G (genReadLevel genNested utf8 G (d + 1)) (.msg 1)) 0x5b 0x5d b!"[{\"b\":[1}]}" =
        .ok ([.msg ⟨[[(0, .num 1)]], []⟩], b!"}") := by
      show (countJson G 0x5d b!"{\"b\":[1}]}" >>= _) = _
      rw [i4]
      show (((genReadLevel genNested utf8 G (d + 1) 1 (genNested 1).default b!"{\"b\":[1}]}" >>= _) >>= _) >>= _) = _
      rw [i3]
      rfl
    show ((G.readView (0x22 :: b!"m" ++ 0x22 :: b!":[{\"b\":[1}]}")) >>= _) = _
    rw [h1]
    show ((readList G (genReadVal genNested utf8 G (genReadLevel genNested utf8 G (d + 1)) (.msg 1)) 0x5b 0x5d b!"[{\"b\":[1}]}" >>= _) >>= _) = _
    rw [i5]
    rfl
  rw [genRead, e]
  rfl

end HppProto.Props
