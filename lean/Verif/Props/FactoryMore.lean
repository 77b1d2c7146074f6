import Verif.Props.Factory
import Verif.Proofs.JsonLex

/-! # The factory: what it does not check (C112), default values (C113), and examples -/

namespace HppProto.Props
open Spec Meta

/-! ## Proper sets, checked by running -/

/-- Whether a field has presence. -/
def presenceCheck (f : FieldProto) (F : Features) : Bool :=
  decide (f.label ≠ 3) && (decide (f.type = 10) || decide (f.type = 11) || f.oneofIndex.isSome || f.proto3Optional ||
    decide (f.label = 2) || decide (F.presence = 3) || decide (F.presence ≠ 2))

theorem presenceCheck_iff (f : FieldProto) (F : Features) : presenceCheck f F = true ↔ hasPresence False f F := by
  unfold presenceCheck hasPresence required
  simp only [Bool.and_eq_true, Bool.or_eq_true, decide_eq_true_iff]
  constructor
  · rintro ⟨a, b⟩
    refine ⟨a, ?_⟩
    rcases b with ((((((b | b) | b) | b) | b) | b) | b)
    · exact .inl b
    · exact .inr (.inl b)
    · exact .inr (.inr (.inr (.inl b)))
    · exact .inr (.inr (.inr (.inr (.inl b))))
    · exact .inr (.inr (.inr (.inr (.inr (.inl (.inl b))))))
    · exact .inr (.inr (.inr (.inr (.inr (.inl (.inr b))))))
    · exact .inr (.inr (.inr (.inr (.inr (.inr b)))))
  · rintro ⟨a, b⟩
    refine ⟨a, ?_⟩
    rcases b with b | b | b | b | b | (b | b) | b
    · exact .inl (.inl (.inl (.inl (.inl (.inl b)))))
    · exact .inl (.inl (.inl (.inl (.inl (.inr b)))))
    · exact b.elim
    · exact .inl (.inl (.inl (.inl (.inr b))))
    · exact .inl (.inl (.inl (.inr b)))
    · exact .inl (.inl (.inr b))
    · exact .inl (.inr b)
    · exact .inr b

/-- Whether a map entry is a pair. -/
def entryCheck (fs : List FileProto) (m : MsgProto) : Bool :=
  match m.fields with
  | [k, v] => decide (k.number = 1 ∧ v.number = 2 ∧ k.label = 1 ∧ v.label = 1 ∧ k.oneofIndex = none ∧ v.oneofIndex = none ∧
      (k.type = 8 ∨ k.type = 9 ∨ (intType k.type).isSome)) &&
    (decls fs).all fun d => decide ((v.type = 10 ∨ v.type = 11) → v.typeName = b!"." ++ d.name → d.msg.mapEntry = false)
  | _ => false

/-- Whether no enum of that type is closed. -/
def openCheck (fs : List FileProto) (f : FieldProto) : Bool :=
  (enumDecls fs).all fun e => decide (f.typeName = b!"." ++ e.name → e.features.enumType ≠ 2)

/-- Whether a set is proper, and its maps are neither of closed enums nor delimited. -/
def properCheck (fs : List FileProto) : Bool :=
  ((decls fs).all fun d =>
    (d.msg.fields.all fun f =>
      decide (0 ≤ (under d.features f.features).presence ∧ (under d.features f.features).presence ≤ 3 ∧
        (f.label = 3 → (under d.features f.features).presence ≠ 3)) &&
      (decide (f.defaultValue = []) || presenceCheck f (under d.features f.features)) &&
      (decide (f.type ≠ 14) || decide (f.label = 3) || presenceCheck f (under d.features f.features) || openCheck fs f) &&
      (!d.msg.mapEntry || decide (f.type ≠ 14) || openCheck fs f) &&
      (decls fs).all fun e => decide (((f.type = 10 ∨ f.type = 11) → f.typeName = b!"." ++ e.name → e.msg.mapEntry = true →
        f.label = 3 ∧ f.type = 11 ∧ (under d.features f.features).messageEncoding ≠ 2))) &&
    (!d.msg.mapEntry || entryCheck fs d.msg)) &&
  (enumDecls fs).all fun e => e.enum.values.all fun v => decide (-2147483648 ≤ v.2 ∧ v.2 ≤ 2147483647)

theorem openCheck_spec {fs : List FileProto} {f : FieldProto} (h : openCheck fs f = true) (e : EnumDecl) (he : EnumOf fs f e) :
    e.features.enumType ≠ 2 := by
  unfold openCheck at h
  rw [List.all_eq_true] at h
  exact of_decide_eq_true (h e he.1) he.2

theorem properCheck_spec {fs : List FileProto} (h : properCheck fs = true) : Proper fs ∧ OpenMaps fs ∧ PlainMaps fs := by
  unfold properCheck at h
  rw [Bool.and_eq_true, List.all_eq_true, List.all_eq_true] at h
  obtain ⟨h1, h2⟩ := h
  have hf : ∀ d ∈ decls fs, ∀ f ∈ d.msg.fields, _ := fun d hd => List.all_eq_true.1 (Bool.and_eq_true _ _ ▸ h1 d hd).1
  simp only [Bool.and_eq_true, Bool.or_eq_true, decide_eq_true_iff, List.all_eq_true, Bool.not_eq_true', presenceCheck_iff] at hf
  have he : ∀ d ∈ decls fs, d.msg.mapEntry = true → entryCheck fs d.msg = true := by
    intro d hd hm
    have := (Bool.and_eq_true _ _ ▸ h1 d hd).2
    rwa [hm] at this
  refine ⟨⟨fun d hd f hff => (hf d hd f hff).1.1.1.1, fun d hd f hff hv => ?_, fun d hd f hff h14 h3 hp e hE => ?_, ?_, ?_, ?_⟩, ?_, ?_⟩
  · rcases (hf d hd f hff).1.1.1.2 with a | a
    · exact absurd a hv
    · exact a
  · rcases (hf d hd f hff).1.1.2 with ((a | a) | a) | a
    · exact absurd h14 a
    · exact absurd a h3
    · exact absurd a hp
    · exact openCheck_spec a e hE
  · intro e he v hv
    exact of_decide_eq_true (List.all_eq_true.1 (h2 e he) v hv)
  · intro d hd hm
    have := he d hd hm
    unfold entryCheck at this
    split at this
    · rename_i k v hkv
      rw [Bool.and_eq_true, decide_eq_true_iff, List.all_eq_true] at this
      obtain ⟨⟨a1, a2, a3, a4, a5, a6, a7⟩, b⟩ := this
      exact ⟨⟨k, v, hkv, a1, a2, a3, a4, a5, a6, a7, fun d hd => of_decide_eq_true (b d hd)⟩⟩
    · cases this
  · intro d hd f hff e he ht hn hm
    obtain ⟨a, b, -⟩ := (hf d hd f hff).2 e he ht hn hm
    exact ⟨a, b⟩
  · intro d hd hm f hff h14 e hE
    rcases (hf d hd f hff).1.2 with (a | a) | a
    · rw [hm] at a; cases a
    · exact absurd h14 a
    · exact openCheck_spec a e hE
  · intro d hd f hff e he ht hn hm
    exact ((hf d hd f hff).2 e he (.inr ht) hn hm).2.2

/-! ## Accepted and rejected sets -/

/-- A world without floating-point defaults and without built-in files. -/
def exampleEnv : FactoryEnv := ⟨fun _ _ => none, fun _ => false⟩

/-- A proto2 file with default values of all sorts. -/
def exampleDefaults : FileProto :=
  { name := b!"defaults.proto", syntaxName := b!"proto2"
    enums := [{ name := b!"Color", values := [(b!"RED", 3), (b!"BLUE", -1)] }]
    messages := [
      .mk b!"D"
        [{ name := b!"neg", number := 1, label := 1, type := 5, defaultValue := b!"-7", jsonName := b!"neg" },
         { name := b!"max", number := 2, label := 1, type := 4, defaultValue := b!"18446744073709551615", jsonName := b!"max" },
         { name := b!"blue", number := 3, label := 1, type := 14, typeName := b!".Color", defaultValue := b!"BLUE",
           jsonName := b!"blue" },
         { name := b!"first", number := 4, label := 1, type := 14, typeName := b!".Color", jsonName := b!"first" },
         { name := b!"text", number := 5, label := 1, type := 9, defaultValue := b!"hi", jsonName := b!"text" },
         { name := b!"flag", number := 6, label := 1, type := 8, defaultValue := b!"true", jsonName := b!"flag" },
         { name := b!"raw", number := 7, label := 1, type := 12, defaultValue := b!"\\001", jsonName := b!"raw" }]
        [] [] [] [] false none] }

/-- Whether a factory is made that passes a test. -/
def factoryWith (E : FactoryEnv) (fs : List FileProto) (test : Factory → Bool) : Bool :=
  match createFactory E id fs with
  | .ok F => test F
  | _ => false

theorem factoryWith_spec {E : FactoryEnv} {fs : List FileProto} {test : Factory → Bool} (h : factoryWith E fs test = true) :
    ∃ F, createFactory E id fs = .ok F ∧ test F = true := by
  unfold factoryWith at h
  split at h
  · rename_i F hF; exact ⟨F, hF, h⟩
  · cases h

theorem factory_rejects {E : FactoryEnv} {fs : List FileProto} (h : factoryWith E fs (fun _ => true) = false) :
    createFactory E id fs = .err .invalidArgument := by
  rw [← C110_rejects E id id_perm, ← C110_accepts E id id_perm]
  rintro ⟨F, hF⟩
  unfold factoryWith at h
  rw [hF] at h
  cases h

/-- C110, C111, C113: three files are accepted, and meet what the theorems ask for. -/
example : (∃ F, createFactory exampleEnv id [exampleBase, exampleUser, exampleDefaults] = .ok F) ∧
    Proper [exampleBase, exampleUser, exampleDefaults] ∧ OpenMaps [exampleBase, exampleUser, exampleDefaults] ∧
    PlainMaps [exampleBase, exampleUser, exampleDefaults] := by
  have h : factoryWith exampleEnv [exampleBase, exampleUser, exampleDefaults] (fun _ => true) = true := by decide +kernel
  obtain ⟨F, hF, -⟩ := factoryWith_spec h
  exact ⟨⟨F, hF⟩, properCheck_spec (by decide +kernel)⟩

/-- A reading of a number or of text. -/
def readingText : Reading → BitVec 64 × List Byte
  | .num v => (v, [])
  | .str t => (0, t)
  | _ => (99, b!"other")

/-- C113: what the fields of the last file read as in a new message. -/
example : factoryWith exampleEnv [exampleBase, exampleUser, exampleDefaults] (fun F =>
    match F.getMessage b!"D" with
    | some (i, m) => decide ((F.types i).fields.map (fun g => readingText (g.dyn.value m)) =
        [(BitVec.ofInt 64 (-7), []), (18446744073709551615, []), (BitVec.ofInt 64 (-1), []), (3, []), (0, b!"hi"), (1, []),
         (0, b!"\\001")])
    | none => false) = true := by
  decide +kernel

/-- A proto2 file with one field that has a default value. -/
def defaultFile (type : Int) (text : List Byte) : FileProto :=
  oneMessage { name := [], syntaxName := b!"proto2" }
    [{ name := b!"f", number := 1, label := 1, type := type, defaultValue := text, jsonName := b!"f" }]

/-- C110: a default that is no number, one that is out of range, a oneof with a field between its members, and an enum
default that is not a value of the enum are rejected. -/
example : createFactory exampleEnv id [defaultFile 5 b!"seven"] = .err .invalidArgument ∧
    createFactory exampleEnv id [defaultFile 5 b!"2147483648"] = .err .invalidArgument ∧
    createFactory exampleEnv id [defaultFile 13 b!"-1"] = .err .invalidArgument ∧
    createFactory exampleEnv id [
      { name := b!"f.proto", syntaxName := b!"proto3"
        messages := [.mk b!"M"
          [{ name := b!"a", number := 1, label := 1, type := 5, oneofIndex := some 0, jsonName := b!"a" },
           { name := b!"b", number := 2, label := 1, type := 5, jsonName := b!"b" },
           { name := b!"c", number := 3, label := 1, type := 5, oneofIndex := some 0, jsonName := b!"c" }]
          [] [] [{ name := b!"o" }] [] false none] }] = .err .invalidArgument ∧
    createFactory exampleEnv id [
      { name := b!"f.proto", syntaxName := b!"proto2", enums := [{ name := b!"E", values := [(b!"A", 0)] }]
        messages := [.mk b!"M"
          [{ name := b!"a", number := 1, label := 1, type := 14, typeName := b!".E", defaultValue := b!"B", jsonName := b!"a" }]
          [] [] [] [] false none] }] = .err .invalidArgument := by
  refine ⟨?_, ?_, ?_, ?_, ?_⟩ <;> exact factory_rejects (by decide +kernel)

/-- C110: at the ends of the range they are accepted. -/
example : factoryWith exampleEnv [defaultFile 5 b!"2147483647"] (fun _ => true) = true ∧
    factoryWith exampleEnv [defaultFile 5 b!"-2147483648"] (fun _ => true) = true ∧
    factoryWith exampleEnv [defaultFile 13 b!"4294967295"] (fun _ => true) = true := by decide +kernel

/-! ## C112: map entries are not checked -/

variable {E : FactoryEnv} {order : FileMap → FileMap} {fs : List FileProto} {F : Factory}

/-- C112, where it holds: in a factory of proper files every map entry is a pair of the fields 1 and 2, both singular.
Missing from the full claim: that accepted files are proper, which is false (`C112_no_value`). -/
theorem C112_pairs_partial (ho : ∀ m, (order m).Perm m) (h : createFactory E order fs = .ok F) (hP : Proper fs) (id : Nat)
    (he : (F.types id).entry = true) :
    ∃ k v, (F.types id).fields = [k, v] ∧ k.dyn.number = 1 ∧ v.dyn.number = 2 ∧ k.dyn.repeated = false ∧ v.dyn.repeated = false := by
  obtain ⟨hp, ht, hF⟩ := create_ok ho h
  rw [ht] at he ⊢
  cases hd : F.pool.messages[id]? with
  | none =>
    unfold typesOf at he
    rw [hd] at he
    cases he
  | some d =>
    obtain ⟨ls, n, -, h2, h3⟩ := types_at ho hp E hF hd
    rw [h3] at he ⊢
    obtain ⟨k, v, hkv, n1, n2, l1, l2, -⟩ := entry_fields ho hp hP hd he
    have hk : k ∈ listed F.pool d.fields := by rw [hkv]; simp
    have hv : v ∈ listed F.pool d.fields := by rw [hkv]; simp
    have r1 : k.bits.repeated = false := by
      rw [← Bool.not_eq_true, bit_repeated ho hp hd hk]; omega
    have r2 : v.bits.repeated = false := by
      rw [← Bool.not_eq_true, bit_repeated ho hp hd hv]; omega
    rw [hkv] at h2 ⊢
    match ls, h2 with
    | [a, b], _ =>
      refine ⟨resolvedField E F.pool k a, resolvedField E F.pool v b, rfl, ?_, ?_, r1, r2⟩
      · show BitVec.ofInt 32 k.proto.number = 1
        rw [n1]; rfl
      · show BitVec.ofInt 32 v.proto.number = 2
        rw [n2]; rfl

/-- C112: the three files above have such an entry. -/
example : factoryWith exampleEnv [exampleBase, exampleUser, exampleDefaults] (fun F => (F.types 2).entry) = true := by
  decide +kernel

/-- A map entry with a key only. -/
def halfMap : FileProto :=
  oneMessage { name := [], syntaxName := b!"proto3" }
    [{ name := b!"table", number := 1, label := 3, type := 11, typeName := b!".M.TableEntry", jsonName := b!"table" }]
    [.mk b!"TableEntry" [{ name := b!"key", number := 1, label := 1, type := 5, jsonName := b!"key" }] [] [] [] [] true none]

/-- The pool of some files. -/
def poolOf (fs : List FileProto) : Pool :=
  match initPool id fs with
  | .ok p => p
  | _ => { room := ⟨0, 0, 0, 0, 0⟩ }

abbrev tableField : Json.JField :=
  ⟨⟨1, .msg 1, true, false, none, false, false, .num 0, ⟨0, 0, 0, 0⟩⟩, b!"table", b!"table", .msg 1⟩

/-- The types of that file. -/
def halfTypes : Json.JTypes
  | 0 => ⟨[tableField], 1, false, .none⟩
  | 1 => ⟨[⟨⟨1, .scalar (.varint .i32), false, false, none, false, true, .num 0, ⟨0, 1, 0, 0⟩⟩, b!"key", b!"key",
      .int true false⟩], 1, true, .none⟩
  | _ => ⟨[], 0, false, .none⟩

set_option maxRecDepth 100000 in
theorem half_types (E : FactoryEnv) : typesOf E (poolOf [halfMap]) = halfTypes := by
  funext i
  match i with
  | 0 => with_unfolding_all rfl
  | 1 => with_unfolding_all rfl
  | n + 2 => with_unfolding_all rfl

set_option maxRecDepth 100000 in
theorem half_created (E : FactoryEnv) : createFactory E id [halfMap] = .ok ⟨poolOf [halfMap], halfTypes⟩ := by
  rw [← half_types E]
  with_unfolding_all rfl

theorem half_count {G : Json.Glaze} (L : G.Lawful) : Json.countJson G 0x7d b!"\"7\":1}}" = .ok 1 := by
  have h1 : Json.Counts G 0x7d 1 b!"}}" 1 := Json.counts_stop (.inr rfl) 1 b!"}"
  have h2 : Json.Counts G 0x7d 1 b!":1}}" 1 := Json.passes_dulls G (t := b!":1") (.inr rfl) (by decide) 1 _ 1 h1
  have h3 : Json.Counts G 0x7d 1 b!"\"7\":1}}" 1 :=
    Json.passes_str L (t := b!"\"7\"") (Json.strLit_plain (v := b!"7") (by unfold Json.Plain; decide)) 1 _ 1 h2
  have := Json.counts_full G h3
  unfold Json.countJson
  rw [show Json.skipWs b!"\"7\":1}}" = b!"\"7\":1}}" from by decide +kernel]
  simp only []
  rw [if_neg (by decide +kernel)]
  exact this

theorem half_field {G : Json.Glaze} (L : G.Lawful) (r : Json.JReader) (utf8 : List Byte → Bool) (hr : ∀ m s, r 1 m s = .ub) :
    Json.readField halfTypes utf8 G r tableField [(0, .zero)] b!"{\"7\":1}}" = .ub := by
  have e : Json.readList G (r 1 (halfTypes 1).dyn.empty) 0x7b 0x7d b!"{\"7\":1}}" = .ub := by
    show (Json.countJson G 0x7d b!"\"7\":1}}" >>= _) = _
    rw [half_count L]
    show (Json.readElems _ 1 b!"\"7\":1}}" >>= _) = _
    unfold Json.readElems
    rw [hr]
    rfl
  show ((Json.readList G (r 1 (halfTypes 1).dyn.empty) 0x7b 0x7d b!"{\"7\":1}}") >>= _) = _
  rw [e]
  rfl

theorem half_object {G : Json.Glaze} (L : G.Lawful) (r : Json.JReader) (utf8 : List Byte → Bool) (hr : ∀ m s, r 1 m s = .ub) :
    Json.readObject halfTypes utf8 G r (halfTypes 0) [(0, .zero)] b!"{\"table\":{\"7\":1}}" = .ub := by
  have e : G.readView b!"\"table\":{\"7\":1}}" = .ok (b!"table", b!":{\"7\":1}}") :=
    L.readView b!"table" b!":{\"7\":1}}" (by unfold Json.Plain; decide)
  have e2 : Json.readMembers halfTypes utf8 G r (halfTypes 0) 17 true [(0, .zero)] b!"\"table\":{\"7\":1}}" = .ub := by
    unfold Json.readMembers
    rw [if_neg (by decide)]
    show (G.readView b!"\"table\":{\"7\":1}}" >>= _) = _
    rw [e]
    show (Json.readField halfTypes utf8 G r tableField [(0, .zero)] b!"{\"7\":1}}" >>= _) = _
    rw [half_field L r utf8 hr]
    rfl
  exact e2

/-- C112 is false: a set in which a map entry has a key and no value is accepted, and messages of it are found. Reading
bytes with an entry, reading text with an entry, and writing an entry as text then read beyond the fields of the
entry, which is undefined. -/
theorem C112_no_value (E : FactoryEnv) :
    createFactory E id [halfMap] = .ok ⟨poolOf [halfMap], halfTypes⟩ ∧
    (⟨poolOf [halfMap], halfTypes⟩ : Factory).getMessage b!"M" = some (0, [(0, .zero)]) ∧
    (∀ utf8, dynRead halfTypes.dyn utf8 100 0 [(0, .zero)] [0x0a, 2, 8, 7] = .ub) ∧
    (∀ G o, Json.jsonWrite halfTypes G o 100 0 [(1, .msgs [[(1, .num 7)]])] = .ub) ∧
    ∀ (G : Json.Glaze) (utf8 : List Byte → Bool) (limit : Nat), G.Lawful →
      Json.jsonRead halfTypes utf8 G (limit + 1) 0 [(0, .zero)] b!"{\"table\":{\"7\":1}}" = .ub := by
  refine ⟨half_created E, ?_, ?_, ?_, ?_⟩
  · with_unfolding_all rfl
  · intro utf8
    with_unfolding_all rfl
  · intro G o
    with_unfolding_all rfl
  · intro G utf8 limit L
    have := half_object L (Json.readLevel halfTypes utf8 G (limit + 1)) utf8 (fun m s => rfl)
    unfold Json.jsonRead Json.readLevel Json.readBody
    show (Json.readObject _ _ _ _ _ _ _ >>= _) = _
    rw [this]
    rfl

/-! ## C113: default values that are not what was declared -/

set_option maxRecDepth 100000 in
/-- C113 is false for bytes: where the descriptor has the text `\001`, which stands for the byte 1, the field reads as the
four characters. -/
theorem C113_bytes (E : FactoryEnv) :
    Escaped b!"\\001" [1] ∧
    ∃ F i m g, createFactory E id [defaultFile 12 b!"\\001"] = .ok F ∧ F.getMessage b!"M" = some (i, m) ∧
      (F.types i).fields = [g] ∧ g.dyn.value m = .str b!"\\001" := by
  refine ⟨.octal (a := 0) (b := 0) (c := 1) (by decide) (by decide) (by decide) .nil, ?_⟩
  refine ⟨⟨poolOf [defaultFile 12 b!"\\001"], typesOf E (poolOf [defaultFile 12 b!"\\001"])⟩, 0, [(0, .zero)],
    ⟨⟨1, .scalar (.str false), false, false, none, false, true, .bytes b!"\\001", ⟨0, 1, 0, 0⟩⟩, b!"f", b!"f", .bytes⟩, ?_, ?_, ?_, ?_⟩
  · with_unfolding_all rfl
  · with_unfolding_all rfl
  · with_unfolding_all rfl
  · with_unfolding_all rfl

set_option maxRecDepth 100000 in
/-- C113: a default text of a bool field that is neither `true` nor `false` is not reported, as it is for numbers and
enums; the field reads as false. -/
theorem C113_bool (E : FactoryEnv) :
    ∃ F i m g, createFactory E id [defaultFile 8 b!"TRUE"] = .ok F ∧ F.getMessage b!"M" = some (i, m) ∧
      (F.types i).fields = [g] ∧ g.dyn.value m = .num 0 := by
  refine ⟨⟨poolOf [defaultFile 8 b!"TRUE"], typesOf E (poolOf [defaultFile 8 b!"TRUE"])⟩, 0, [(0, .zero)],
    ⟨⟨1, .scalar .bool, false, false, none, false, true, .num 0, ⟨0, 1, 0, 0⟩⟩, b!"f", b!"f", .bool⟩, ?_, ?_, ?_, ?_⟩
  · with_unfolding_all rfl
  · with_unfolding_all rfl
  · with_unfolding_all rfl
  · with_unfolding_all rfl

end HppProto.Props
