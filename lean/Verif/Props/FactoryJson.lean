import Verif.Proofs.FactoryJson
import Verif.Props.FactoryMore
import Verif.Props.AnyJson
import Verif.Props.Json

/-! # JSON with the messages of a factory (C114), and which types are well known (C115) -/

namespace HppProto.Props
open Spec Meta

variable {E : FactoryEnv} {order : FileMap → FileMap} {fs : List FileProto} {F : Factory}

/-! ## C114: the JSON functions on the messages of a factory -/

/-- What the functions on `Any` find in a factory. -/
def factoryAnyEnv (F : Factory) (limit : Nat) (skipNum : List Byte → Res (List Byte)) : Json.AnyEnv :=
  ⟨F.pool.findMessage, limit, skipNum⟩

/-- C114: the types of a factory are what the JSON functions rely on, if the files are proper, names can be keys, and the
files built into the library are those of protobuf. -/
theorem C114_types (ho : ∀ m, (order m).Perm m) (h : createFactory E order fs = .ok F) (hP : Proper fs) (hN : JsonNames fs)
    (hC : ∀ f, E.canonical f = true → f ∈ canonicalFiles) : Json.AnyTypes F.types := by
  obtain ⟨hp, ht, hF⟩ := create_ok ho h
  rw [ht]
  exact types_any ho hp E hF hC hP hN

/-- C114: every field has the JSON form of the type that it is declared with, under its declared names. -/
theorem C114_field_types (ho : ∀ m, (order m).Perm m) (h : createFactory E order fs = .ok F) {d : Decl} (hd : d ∈ decls fs)
    {i : Nat} {m : DynMsg} (hm : F.getMessage d.name = some (i, m)) {k : Nat} {f : FieldProto} {g : Json.JField}
    (hf : d.msg.fields[k]? = some f) (hg : (F.types i).fields[k]? = some g) :
    g.name = f.name ∧ g.jsonName = f.jsonName ∧ JsonTypeRule fs (fun n => (F.getMessage n).map Prod.fst) f g.ty := by
  obtain ⟨hp, hF, rfl, D, hD, rfl, ls, n, hT, hl, hL2⟩ := field_at ho h hd hm
  have V := view_of order ho hp hD
  rw [hT] at hg
  obtain ⟨x, l, hx, -, rfl⟩ := List.getElem?_zipWith_eq_some.1 hg
  have hx' := List.mem_of_getElem? hx
  have e : x.proto = f := by
    have := hf
    rw [show (⟨D.fullName, D.proto, D.features⟩ : Decl).msg.fields = D.proto.fields from rfl, ← V.protos, List.getElem?_map, hx] at this
    exact Option.some.inj this
  subst e
  refine ⟨rfl, rfl, ?_⟩
  show JsonTypeRule fs _ x.proto (fieldType F.pool x)
  have R := V.resolved x hx'
  unfold fieldType
  rcases field_types (listed_type ho hp hD hx').type with h | h | h | h | h | h | h | h | h | h | h | h | h | h | h | h | h | h <;>
    simp only [h] <;> simp (config := { decide := true }) only [if_true, if_false]
  any_goals first
    | exact h
    | (show intType x.proto.type = _; rw [h]; rfl)
  · obtain ⟨j, M, hj, hM, hn, _⟩ := R.message (.inl h)
    rw [hj]
    refine ⟨.inl h, _, pool_decl ho hp hM, hn, ?_⟩
    show ((F.pool.findMessage M.fullName).map _).map Prod.fst = some j
    rw [(C73_finds order ho hp M.fullName j).1.2 (by rw [hM]; rfl)]
    rfl
  · obtain ⟨j, M, hj, hM, hn, _⟩ := R.message (.inr h)
    rw [hj]
    refine ⟨.inr h, _, pool_decl ho hp hM, hn, ?_⟩
    show ((F.pool.findMessage M.fullName).map _).map Prod.fst = some j
    rw [(C73_finds order ho hp M.fullName j).1.2 (by rw [hM]; rfl)]
    rfl
  · obtain ⟨j, e, -, -, h3, h4⟩ := pool_enumOf ho hp (V.mem x hx') h
    refine ⟨h, _, (h4 _).2 rfl, ?_⟩
    unfold enumInfo
    rw [h3]
    exact ⟨rfl, by simp⟩

variable {G : Json.Glaze} {utf8 : List Byte → Bool}

/-- C114: a message of a factory that has a JSON form is written to a text of it, and reading that text gives a message
that holds the same. -/
theorem C114_round_trip (ho : ∀ m, (order m).Perm m) (h : createFactory E order fs = .ok F) (hP : Proper fs) (hN : JsonNames fs)
    (hC : ∀ f, E.canonical f = true → f ∈ canonicalFiles) (L : G.Lawful) {o : Json.JOpts} {limit : Nat} {name : List Byte}
    {id : Nat} {empty m : DynMsg} {j : Json.JTree} (found : F.getMessage name = some (id, empty))
    (top : (F.types id).entry = false)
    (form : Json.FormAt F.types G utf8 (Json.writerStyle o.preserve) (limit + 1) id m j) :
    ∃ t m', Json.jsonWrite F.types G o limit id m = .ok t ∧ Json.JsonText j t ∧
      Json.jsonRead F.types utf8 G limit id empty t = .ok m' ∧ Json.SameAt F.types (limit + 1) id m m' := by
  have hT := (C114_types ho h hP hN hC).ok
  have he : empty = (F.types id).dyn.empty := by
    obtain ⟨i, -, e⟩ := Option.map_eq_some_iff.1 found
    simp only [Prod.mk.injEq] at e
    obtain ⟨rfl, e⟩ := e
    exact e.symm
  subst he
  obtain ⟨t, h1, h2⟩ := C76_writes L hT top form
  obtain ⟨m', h3, h4⟩ := C78_reads L hT top (Json.form_weaken hT _ _ _ _ form) h2
  exact ⟨t, m', h1, h2, h3, h4⟩

/-- C114: every JSON text of a form of a message, with `Any` in it and with type URLs resolved by the factory, is read to a
message that holds the same. -/
theorem C114_reads (ho : ∀ m, (order m).Perm m) (h : createFactory E order fs = .ok F) (hP : Proper fs) (hN : JsonNames fs)
    (hC : ∀ f, E.canonical f = true → f ∈ canonicalFiles) (L : G.Lawful) {limit : Nat} {skipNum : List Byte → Res (List Byte)}
    (N : (factoryAnyEnv F limit skipNum).Lawful) {bare : Bool} {name : List Byte} {id : Nat} {empty m : DynMsg} {j : Json.JTree}
    {t : List Byte} (found : F.getMessage name = some (id, empty)) (top : (F.types id).entry = false)
    (form : Json.AnyFormAt F.types G utf8 (factoryAnyEnv F limit skipNum) Json.anyStyle
      (Json.Encodable F.types utf8 (factoryAnyEnv F limit skipNum)) bare (limit + 1) .outside id m j) (text : Json.JsonText j t) :
    ∃ m', Json.jsonReadAny F.types utf8 G (factoryAnyEnv F limit skipNum) id empty t = .ok m' ∧
      Json.AnySameAt F.types utf8 (factoryAnyEnv F limit skipNum) (limit + 1) id m m' := by
  have he : empty = (F.types id).dyn.empty := by
    obtain ⟨i, -, e⟩ := Option.map_eq_some_iff.1 found
    simp only [Prod.mk.injEq] at e
    obtain ⟨rfl, e⟩ := e
    exact e.symm
  subst he
  exact C106_reads (C114_types ho h hP hN hC) L N top form text

/-- C114: `binpb_to_json` and `json_to_binpb` of a factory, for messages with `Any`. Missing from the full claim: payloads that
have messages of their own, for which it is false (C105). -/
theorem C114_conversions_partial (ho : ∀ m, (order m).Perm m) (h : createFactory E order fs = .ok F) (hP : Proper fs)
    (hN : JsonNames fs) (hC : ∀ f, E.canonical f = true → f ∈ canonicalFiles) (L : G.Lawful) {limit : Nat}
    {skipNum : List Byte → Res (List Byte)} (N : (factoryAnyEnv F limit skipNum).Lawful) {o : Json.JOpts} {name : List Byte} {id : Nat}
    {empty m : DynMsg} {bytes : List Byte} {j : Json.JTree} (found : F.getMessage name = some (id, empty))
    (top : (F.types id).entry = false) (encoded : dynRead F.types.dyn utf8 limit id [] bytes = .ok m)
    (can : Json.Encodable F.types utf8 (factoryAnyEnv F limit skipNum) id m)
    (form : Json.AnyFormAt F.types G utf8 (factoryAnyEnv F limit skipNum) (Json.writerStyle o.preserve)
      (Json.Encodable F.types utf8 (factoryAnyEnv F limit skipNum)) false (limit + 1) .outside id m j) :
    ∃ t m' bytes', Json.binpbToJson F.types utf8 G (factoryAnyEnv F limit skipNum) o name bytes = .ok t ∧ Json.JsonText j t ∧
      Json.jsonToBinpb F.types utf8 G (factoryAnyEnv F limit skipNum) name t = .ok bytes' ∧
      dynWrite F.types.dyn utf8 limit true id m' [] = .ok (none, bytes') ∧
      Json.AnySameAt F.types utf8 (factoryAnyEnv F limit skipNum) (limit + 1) id m m' := by
  refine C109_conversions_partial (C114_types ho h hP hN hC) L N ?_ top encoded can form
  obtain ⟨i, hi, e⟩ := Option.map_eq_some_iff.1 found
  simp only [Prod.mk.injEq] at e
  obtain ⟨rfl, -⟩ := e
  exact hi

/-! ## C115: which types are well known -/

theorem table_iff (name : List Byte) {w : Json.WellKnown} (hw : w ≠ .none) :
    (name, w) ∈ wellKnownMappings ↔ WellKnownName name w := by
  unfold wellKnownMappings
  cases w
  · exact absurd rfl hw
  case wrapper => 
    simp only [WellKnownName, List.mem_cons, Prod.mk.injEq, List.not_mem_nil, or_false, reduceCtorEq, and_false, and_true, false_or,
      wrappersFile, wrapperOf, exists_eq_or_imp, exists_eq_left, MsgProto.name]
    exact Iff.rfl
  all_goals simp [WellKnownName]

theorem canonical_names : ∀ f ∈ canonicalFiles, f.name ∈ wellKnownFileNames := by decide +kernel

/-- C115: a message is treated as a well-known type if and only if it has the full name of that type and its file is one that
is built into the library. -/
theorem C115_recognizes (ho : ∀ m, (order m).Perm m) (h : createFactory E order fs = .ok F)
    (hC : ∀ f, E.canonical f = true → f ∈ canonicalFiles) {f : FileProto} (hf : f ∈ fs) {d : Decl} (hd : d ∈ fileDecls f)
    {i : Nat} {m : DynMsg} (found : F.getMessage d.name = some (i, m)) {w : Json.WellKnown} (hw : w ≠ .none) :
    (F.types i).wk = w ↔ WellKnownName d.name w ∧ E.canonical f = true := by
  have hd' : d ∈ decls fs := List.mem_flatMap.2 ⟨f, hf, hd⟩
  obtain ⟨hp, hF, -, D, hD, rfl, -⟩ := field_at ho h hd' found
  obtain ⟨-, ht, -⟩ := create_ok ho h
  rw [ht, (types_of ho hp E hF hD).1, wellKnown_iff E hw, table_iff _ hw]
  refine and_congr Iff.rfl ?_
  have hfile : ∃ fd, F.pool.files[D.file]? = some fd ∧ fd.proto = f := by
    have M := pool_mirrors ho hp
    obtain ⟨k, hk⟩ := List.getElem?_of_mem hf
    have := congrArg (fun l => l[k]?) M.files
    simp only [List.getElem?_map, hk, Option.map_some] at this
    obtain ⟨fd, hfd, e⟩ := Option.map_eq_some_iff.1 this
    simp only [Prod.mk.injEq] at e
    rw [← e.1] at hd
    obtain ⟨j, D', hD', e', hfile⟩ := file_decl_get ho hp hfd hd
    simp only [Decl.mk.injEq] at e'
    have := pool_name_inj ho hp hD hD' e'.1
    subst this
    rw [hD] at hD'
    cases hD'
    exact ⟨fd, by rw [hfile]; exact hfd, e.1⟩
  obtain ⟨fd, hfd, rfl⟩ := hfile
  constructor
  · rintro ⟨fd', h1, h2⟩
    rw [hfd] at h1
    cases h1
    unfold fileValidated at h2
    simp only [Bool.and_eq_true] at h2
    exact h2.2
  · intro hc
    refine ⟨fd, hfd, ?_⟩
    unfold fileValidated
    rw [hc, Bool.and_true, List.contains_iff_mem]
    exact canonical_names _ (hC _ hc)

/-- C115: every other message is an ordinary one, whatever it is called. -/
theorem C115_ordinary (ho : ∀ m, (order m).Perm m) (h : createFactory E order fs = .ok F)
    (hC : ∀ f, E.canonical f = true → f ∈ canonicalFiles) {f : FileProto} (hf : f ∈ fs) {d : Decl} (hd : d ∈ fileDecls f)
    {i : Nat} {m : DynMsg} (found : F.getMessage d.name = some (i, m)) (other : E.canonical f = false) :
    (F.types i).wk = .none := by
  false_or_by_contra
  rename_i hw
  have := ((C115_recognizes ho h hC hf hd found hw).1 rfl).2
  rw [other] at this
  cases this

/-! ## Examples -/

instance (t : List Byte) : Decidable (Json.Plain t) := inferInstanceAs (Decidable (∀ c ∈ t, _))

/-- Whether names can be keys. -/
def namesCheck (fs : List FileProto) : Bool :=
  ((decls fs).all fun d => d.msg.fields.all fun f =>
    decide (Json.Plain f.name ∧ Json.Plain f.jsonName) && decide (f.name ≠ b!"@type" ∧ f.jsonName ≠ b!"@type") &&
    d.msg.fields.all fun g => decide (f.jsonName = g.jsonName ∨ f.jsonName = g.name → f.number = g.number)) &&
  (enumDecls fs).all fun e => decide ((e.enum.values.map (·.1)).Nodup) && e.enum.values.all fun v => decide (v.1 ≠ [] ∧ Json.Plain v.1)

theorem namesCheck_spec {fs : List FileProto} (h : namesCheck fs = true) : JsonNames fs := by
  unfold namesCheck at h
  simp only [Bool.and_eq_true, List.all_eq_true, decide_eq_true_iff] at h
  obtain ⟨h1, h2⟩ := h
  exact ⟨fun d hd f hf => (h1 d hd f hf).1.1, fun d hd f hf => (h1 d hd f hf).1.2, fun d hd f hf => (h1 d hd f hf).2, h2⟩

/-- A world in which the files of protobuf are built in. -/
noncomputable def libraryEnv : FactoryEnv :=
  ⟨fun _ _ => none, fun f => @decide (f ∈ canonicalFiles) (Classical.propDecidable _)⟩

theorem library_canonical (f : FileProto) : libraryEnv.canonical f = true ↔ f ∈ canonicalFiles :=
  @decide_eq_true_iff _ (Classical.propDecidable _)

/-- A message with a timestamp and a name. -/
def stampFile : FileProto :=
  { name := b!"stamp.proto", deps := [b!"google/protobuf/timestamp.proto"], syntaxName := b!"proto3"
    messages := [.mk b!"S"
      [{ name := b!"at", number := 1, label := 1, type := 11, typeName := b!".google.protobuf.Timestamp", jsonName := b!"at" },
       { name := b!"name", number := 2, label := 1, type := 9, jsonName := b!"name" }] [] [] [] [] false none] }

/-- All files of the well-known types and one that uses them are accepted, proper, and have names that can be keys. -/
example : (∃ F, createFactory libraryEnv id (canonicalFiles ++ [stampFile]) = .ok F) ∧ Proper (canonicalFiles ++ [stampFile]) ∧
    JsonNames (canonicalFiles ++ [stampFile]) ∧ ∀ f, libraryEnv.canonical f = true → f ∈ canonicalFiles := by
  have h : factoryWith exampleEnv (canonicalFiles ++ [stampFile]) (fun _ => true) = true := by decide +kernel
  obtain ⟨F, hF, -⟩ := factoryWith_spec h
  exact ⟨(C110_accepts libraryEnv id id_perm _).2 ((C110_accepts exampleEnv id id_perm _).1 ⟨F, hF⟩),
    (properCheck_spec (by decide +kernel)).1, namesCheck_spec (by decide +kernel), fun f => (library_canonical f).1⟩

/-- The fields of the message. -/
abbrev stampAt : Json.JField :=
  ⟨⟨1, .msg 1, false, false, none, false, true, .num 0, ⟨0, 1, 0, 0⟩⟩, b!"at", b!"at", .msg 1⟩
abbrev stampName : Json.JField :=
  ⟨⟨2, .scalar (.str true), false, false, none, false, false, .bytes [], ⟨1, 1, 0, 1⟩⟩, b!"name", b!"name", .string⟩
abbrev stampSeconds : Json.JField :=
  ⟨⟨1, .scalar (.varint .i64), false, false, none, false, false, .num 0, ⟨0, 1, 0, 0⟩⟩, b!"seconds", b!"seconds", .int true true⟩
abbrev stampNanos : Json.JField :=
  ⟨⟨2, .scalar (.varint .i32), false, false, none, false, false, .num 0, ⟨1, 1, 0, 1⟩⟩, b!"nanos", b!"nanos", .int true false⟩

abbrev stampUrl : Json.JField :=
  ⟨⟨1, .scalar (.str true), false, false, none, false, false, .bytes [], ⟨0, 1, 0, 0⟩⟩, b!"type_url", b!"typeUrl", .string⟩
abbrev stampBytes : Json.JField :=
  ⟨⟨2, .scalar (.str false), false, false, none, false, false, .bytes [], ⟨1, 1, 0, 1⟩⟩, b!"value", b!"value", .bytes⟩

/-- The file with the files of `Timestamp` and `Any`. -/
abbrev stampFiles : List FileProto := [stampFile, timestampFile, anyFile]

/-- The types of the three files, if the files of `Timestamp` and `Any` are built in or not. -/
def stampTypes (known known' : Bool) : Json.JTypes
  | 0 => ⟨[stampAt, stampName], 2, false, .none⟩
  | 1 => ⟨[stampSeconds, stampNanos], 2, false, if known then .timestamp else .none⟩
  | 2 => ⟨[stampUrl, stampBytes], 2, false, if known' then .any else .none⟩
  | _ => ⟨[], 0, false, .none⟩

set_option maxRecDepth 100000 in
theorem stamp_types (E : FactoryEnv) : typesOf E (poolOf stampFiles) = stampTypes (E.canonical timestampFile) (E.canonical anyFile) := by
  funext i
  match i with
  | 0 => with_unfolding_all rfl
  | 1 => with_unfolding_all rfl
  | 2 => with_unfolding_all rfl
  | n + 3 => with_unfolding_all rfl

set_option maxRecDepth 100000 in
theorem stamp_created (E : FactoryEnv) : createFactory E id stampFiles =
    .ok ⟨poolOf stampFiles, stampTypes (E.canonical timestampFile) (E.canonical anyFile)⟩ := by
  rw [← stamp_types E]
  with_unfolding_all rfl

/-- `{at: 1970-01-01T00:00:07Z, name: "n"}` -/
def stampMessage : DynMsg := [(1, .msg [(1, .num 7), (0, .zero)]), (1, .str b!"n")]

/-- Its JSON form. -/
theorem stamp_form (G : Json.Glaze) : Json.FormAt (stampTypes true true) G (fun _ => true) (Json.writerStyle false) 3 0 stampMessage
    (.obj [(⟨b!"at", true⟩, .str ⟨b!"1970-01-01T00:00:07Z", true⟩), (⟨b!"name", true⟩, .str ⟨b!"n", false⟩)]) := by
  refine ⟨rfl, [stampAt, stampName], _, ?_, ?_, ?_, rfl⟩
  · refine ⟨⟨rfl, rfl, .inl ⟨rfl, ?_⟩⟩, ⟨rfl, rfl, .inl ⟨rfl, ?_⟩⟩, trivial⟩
    · exact ⟨_, rfl, rfl, stampSeconds, stampNanos, 7, 0, b!"1970-01-01T00:00:07Z", rfl, rfl, rfl, by decide +kernel, rfl⟩
    · exact ⟨_, rfl, rfl, rfl⟩
  · intro f hf
    exact hf
  · rfl

/-- The factory of the three files. -/
abbrev stampFactory : Factory := ⟨poolOf stampFiles, stampTypes true true⟩

theorem stamp_library : createFactory libraryEnv id stampFiles = .ok stampFactory := by
  have hc : libraryEnv.canonical timestampFile = true := (library_canonical _).2 (by simp [canonicalFiles])
  have hc' : libraryEnv.canonical anyFile = true := (library_canonical _).2 (by simp [canonicalFiles])
  have h := stamp_created libraryEnv
  rw [hc, hc'] at h
  exact h

theorem stamp_find : stampFactory.pool.findMessage b!"S" = some 0 := by decide +kernel

theorem stamp_get : stampFactory.getMessage b!"S" = some (0, (stampTypes true true 0).dyn.empty) := by
  unfold Factory.getMessage
  rw [stamp_find]
  rfl

theorem stamp_get_any : stampFactory.getMessage b!"google.protobuf.Any" = some (2, (stampTypes true true 2).dyn.empty) := by
  have : stampFactory.pool.findMessage b!"google.protobuf.Any" = some 2 := by decide +kernel
  unfold Factory.getMessage
  rw [this]
  rfl

theorem stamp_proper : Proper stampFiles := (properCheck_spec (by decide +kernel)).1

theorem stamp_names : JsonNames stampFiles := namesCheck_spec (by decide +kernel)

/-- C114: the hypotheses of `C114_round_trip` are met by that message of a factory. -/
example : ∃ t m', Json.jsonWrite stampFactory.types Json.refGlaze ⟨false, 3, false⟩ 2 0 stampMessage = .ok t ∧
    Json.JsonText (.obj [(⟨b!"at", true⟩, .str ⟨b!"1970-01-01T00:00:07Z", true⟩), (⟨b!"name", true⟩, .str ⟨b!"n", false⟩)]) t ∧
    Json.jsonRead stampFactory.types (fun _ => true) Json.refGlaze 2 0 (stampTypes true true 0).dyn.empty t = .ok m' ∧
    Json.SameAt stampFactory.types 3 0 stampMessage m' :=
  C114_round_trip id_perm stamp_library stamp_proper stamp_names (fun f => (library_canonical f).1) Json.refGlaze_lawful
    (o := ⟨false, 3, false⟩) stamp_get rfl (stamp_form _)

/-- What the functions on `Any` find in that factory. -/
def stampEnv : Json.AnyEnv := factoryAnyEnv stampFactory 8 anyEnv.skipNum

theorem stampEnv_lawful : stampEnv.Lawful := anyEnv_lawful

theorem stamp_encodable : Json.Encodable stampFactory.types (fun _ => true) stampEnv 0 [(0, .zero), (1, .str b!"n")] :=
  Json.encodable_regular (C114_types id_perm stamp_library stamp_proper stamp_names fun f => (library_canonical f).1).ok (k := 3)
    (regular_check (by decide +kernel)) ⟨[0x12, 0x01, 0x6e], by with_unfolding_all rfl⟩

/-- C114: the hypotheses of `C114_reads` are met by an `Any` that holds a message of the factory. -/
example {t : List Byte} (text : Json.JsonText (.obj [(⟨b!"name", true⟩, .str ⟨b!"n", false⟩), (Json.typeKey, .str ⟨b!"x/S", false⟩)]) t) :
    ∃ m', Json.jsonReadAny stampFactory.types (fun _ => true) Json.refGlaze stampEnv 2 (stampTypes true true 2).dyn.empty t = .ok m' ∧
      Json.AnySameAt stampFactory.types (fun _ => true) stampEnv 9 2 [(1, .str b!"x/S"), (1, .str [0x12, 0x01, 0x6e])] m' := by
  refine C114_reads (bare := true) id_perm stamp_library stamp_proper stamp_names (fun f => (library_canonical f).1)
    Json.refGlaze_lawful stampEnv_lawful stamp_get_any rfl ?_ text
  refine ⟨rfl, stampUrl, stampBytes, _, _, 0, [(0, .zero), (1, .str b!"n")], [(⟨b!"name", true⟩, .str ⟨b!"n", false⟩)], rfl, rfl, rfl, rfl,
    ⟨⟨b!"x", b!"S", rfl, by decide, by decide, stamp_find⟩, by with_unfolding_all rfl⟩, stamp_encodable, ?_, [_], [], rfl, rfl⟩
  refine ⟨rfl, [stampName], [(⟨b!"name", true⟩, .str ⟨b!"n", false⟩)], ?_, ?_, .refl _, rfl⟩
  · exact ⟨⟨.inl rfl, rfl, .inl ⟨rfl, b!"n", rfl, rfl, rfl⟩⟩, trivial⟩
  · intro f hf
    rw [List.mem_singleton.1 hf]
    simp [stampTypes]

/-- C114: the hypotheses of `C114_conversions_partial` are met. -/
example : ∃ t m' bytes',
    Json.binpbToJson stampFactory.types (fun _ => true) Json.refGlaze stampEnv ⟨false, 3, false⟩ b!"S" [0x12, 0x01, 0x6e] = .ok t ∧
    Json.JsonText (.obj [(⟨b!"name", true⟩, .str ⟨b!"n", false⟩)]) t ∧
    Json.jsonToBinpb stampFactory.types (fun _ => true) Json.refGlaze stampEnv b!"S" t = .ok bytes' ∧
    dynWrite stampFactory.types.dyn (fun _ => true) 8 true 0 m' [] = .ok (none, bytes') ∧
    Json.AnySameAt stampFactory.types (fun _ => true) stampEnv 9 0 [(0, .zero), (1, .str b!"n")] m' := by
  refine C114_conversions_partial id_perm stamp_library stamp_proper stamp_names (fun f => (library_canonical f).1)
    Json.refGlaze_lawful stampEnv_lawful stamp_get rfl (by with_unfolding_all rfl) stamp_encodable ?_
  refine ⟨.inr rfl, rfl, [stampName], [(⟨b!"name", true⟩, .str ⟨b!"n", false⟩)], ?_, ?_, rfl, rfl⟩
  · exact ⟨⟨rfl, rfl, .inl ⟨rfl, b!"n", rfl, rfl, rfl⟩⟩, trivial⟩
  · intro f hf
    rw [List.mem_singleton.1 hf]
    simp [stampTypes]

/-- C115: `Timestamp` in a file of its own is an ordinary message, in a set that is accepted all the same. -/
example : ∃ F : Factory, createFactory libraryEnv id
      [{ timestampFile with syntaxName := b!"proto2" }] = .ok F ∧ ∀ i m, F.getMessage b!"google.protobuf.Timestamp" = some (i, m) → (F.types i).wk = .none := by
  have h : factoryWith exampleEnv
      [{ timestampFile with syntaxName := b!"proto2" }] (fun _ => true) = true := by decide +kernel
  obtain ⟨F, hF, -⟩ := factoryWith_spec h
  obtain ⟨F', hF'⟩ := (C110_accepts libraryEnv id id_perm _).2 ((C110_accepts exampleEnv id id_perm _).1 ⟨F, hF⟩)
  refine ⟨F', hF', fun i m hm => ?_⟩
  refine C115_ordinary (d := ⟨b!"google.protobuf.Timestamp", _, _⟩) id_perm hF' (fun f => (library_canonical f).1)
    (List.mem_singleton.2 rfl) (List.mem_cons_self ..) hm ?_
  rw [← Bool.not_eq_true, library_canonical]
  intro hm
  have : ∀ f ∈ canonicalFiles, f.syntaxName = b!"proto3" := by decide +kernel
  have := this _ hm
  revert this
  decide +kernel

end HppProto.Props
