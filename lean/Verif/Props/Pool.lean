import Verif.Proofs.PoolView

/-! # Building a descriptor pool (C71–C75) -/

namespace HppProto.Props
open Spec

/-! ## C71: which sets of files are accepted -/

/-- C71: a pool is made exactly from the sets of files that are well formed, in whatever order the
hash maps of the pool yield their entries. -/
theorem C71_accepts (order : FileMap → FileMap) (ho : ∀ m, (order m).Perm m)
    (fs : List FileProto) : (∃ p, initPool order fs = .ok p) ↔ WellFormed fs := by
  have h := initPool_sat order ho fs
  constructor
  · rintro ⟨p, hp⟩
    rw [hp] at h
    exact h.2
  · intro hw
    revert h
    cases initPool order fs with
    | ok p => exact fun _ => ⟨p, rfl⟩
    | err e => exact fun h => absurd hw h.2
    | ub => exact False.elim
    | throw => exact False.elim
    | stuck => exact False.elim

/-- C71: every other set is rejected with an error; no table of descriptors ever grows beyond the
room that was reserved for it, which would leave the links of the pool dangling. -/
theorem C71_rejects (order : FileMap → FileMap) (ho : ∀ m, (order m).Perm m)
    (fs : List FileProto) : ¬ WellFormed fs ↔ initPool order fs = .err .invalidArgument := by
  have h := initPool_sat order ho fs
  constructor
  · intro hw
    revert h
    cases initPool order fs with
    | ok p => exact fun h => absurd h.2 hw
    | err e => exact fun h => by rw [h.1]
    | ub => exact False.elim
    | throw => exact False.elim
    | stuck => exact False.elim
  · intro e
    rw [e] at h
    exact h.2

theorem wellFormed_perm {fs fs' : List FileProto} (h : fs.Perm fs') (hw : WellFormed fs) :
    WellFormed fs' := by
  have hd : (decls fs).Perm (decls fs') := h.flatMap_right _
  have he : (enumDecls fs).Perm (enumDecls fs') := h.flatMap_right _
  have hf : (fieldDecls fs).Perm (fieldDecls fs') := (hd.flatMap_right _).append (h.flatMap_right _)
  have hi : Spec.Imports fs' = Spec.Imports fs := by
    funext a b
    unfold Spec.Imports
    simp only [h.mem_iff]
  constructor
  · exact fun f hf => hw.file_named f (h.mem_iff.2 hf)
  · exact (h.map _).nodup_iff.1 hw.file_names
  · exact fun f hf => hw.languages f (h.mem_iff.2 hf)
  · intro f hf d hd
    obtain ⟨g, hg, e⟩ := hw.imports f (h.mem_iff.2 hf) d hd
    exact ⟨g, h.mem_iff.1 hg, e⟩
  · rw [hi]; exact hw.acyclic
  · exact fun d h => hw.message_named d (hd.mem_iff.2 h)
  · exact (hd.map _).nodup_iff.1 hw.message_names
  · exact fun d h => hw.enum_named d (he.mem_iff.2 h)
  · exact (he.map _).nodup_iff.1 hw.enum_names
  · exact fun d h => hw.fields d (hd.mem_iff.2 h)
  · exact fun d h => hw.extensions d (hd.mem_iff.2 h)
  · exact fun f hf => hw.file_extensions f (h.mem_iff.2 hf)
  · intro f h
    have t := hw.types f (hf.mem_iff.2 h)
    constructor
    · intro h1
      obtain ⟨d, h2, e⟩ := t.message h1
      exact ⟨d, hd.mem_iff.1 h2, e⟩
    · intro h1
      obtain ⟨d, h2, e⟩ := t.enum h1
      exact ⟨d, he.mem_iff.1 h2, e⟩
    · intro h1
      obtain ⟨d, h2, e⟩ := t.extendee h1
      exact ⟨d, hd.mem_iff.1 h2, e⟩

/-- C71: whether a set of files is accepted depends neither on the order of the files nor on that of
the hash maps. -/
theorem C71_order (order order' : FileMap → FileMap) (ho : ∀ m, (order m).Perm m)
    (ho' : ∀ m, (order' m).Perm m) {fs fs' : List FileProto} (h : fs.Perm fs') :
    (∃ p, initPool order fs = .ok p) ↔ ∃ p, initPool order' fs' = .ok p := by
  rw [C71_accepts order ho, C71_accepts order' ho']
  exact ⟨wellFormed_perm h, wellFormed_perm h.symm⟩

/-! ## C72: what the pool shows -/

/-- C72: the pool shows the declarations of the files it was made from. -/
theorem C72_mirrors (order : FileMap → FileMap) (ho : ∀ m, (order m).Perm m)
    {fs : List FileProto} {p : Pool} (h : initPool order fs = .ok p) : Mirrors p fs := by
  have hs := initPool_sat order ho fs
  rw [h] at hs
  obtain ⟨⟨_, _, _, _, _, st⟩, _⟩ := hs
  exact st.mirrors

/-! ## C73: looking descriptors up -/

/-- C73: looking up a full name gives the message, enum or file with that name, if there is one. -/
theorem C73_finds (order : FileMap → FileMap) (ho : ∀ m, (order m).Perm m)
    {fs : List FileProto} {p : Pool} (h : initPool order fs = .ok p) (name : List Byte) (i : Nat) :
    (p.findMessage name = some i ↔ p.messages[i]?.map (·.fullName) = some name) ∧
    (p.findEnum name = some i ↔ p.enums[i]?.map (·.fullName) = some name) ∧
    (p.findFile name = some i ↔ p.files[i]?.map (·.proto.name) = some name) := by
  have hs := initPool_sat order ho fs
  rw [h] at hs
  obtain ⟨⟨_, _, _, _, _, st⟩, _⟩ := hs
  exact ⟨st.findMessage name i, st.findEnum name i, st.findFile name i⟩

/-- C73: looking up a field of a message by its number or its name gives the field with that number
or name, if there is one. -/
theorem C73_finds_field (order : FileMap → FileMap) (ho : ∀ m, (order m).Perm m)
    {fs : List FileProto} {p : Pool} (h : initPool order fs = .ok p) {i : Nat} {d : MsgDesc}
    (hd : p.messages[i]? = some d) (j : Nat) :
    (∀ n : Nat, p.fieldByNumber d n = some j ↔
      j ∈ d.fields ∧ ∃ f, p.fields[j]? = some f ∧ f.proto.number = n) ∧
    (∀ n : List Byte, p.fieldByName d n = some j ↔
      j ∈ d.fields ∧ ∃ f, p.fields[j]? = some f ∧ f.proto.name = n) := by
  have hs := initPool_sat order ho fs
  rw [h] at hs
  obtain ⟨⟨_, _, _, _, _, st⟩, hw⟩ := hs
  have ok := st.fieldsOk hw hd
  exact ⟨fun n => st.findField hd ok.numbers (n : Int) j, fun n => st.findField hd ok.names n j⟩

/-- C73: the type of a field is the message or enum that its definition names. -/
theorem C73_resolves (order : FileMap → FileMap) (ho : ∀ m, (order m).Perm m)
    {fs : List FileProto} {p : Pool} (h : initPool order fs = .ok p) :
    ∀ f ∈ p.fields, Resolved p f := by
  have hs := initPool_sat order ho fs
  rw [h] at hs
  obtain ⟨⟨_, _, _, _, _, st⟩, _⟩ := hs
  exact fun f hf => st.resolvedField hf

/-! ## C74: the flags of a field -/

/-- C74, what holds of every field and extension: the flags `repeated`, `required`, `utf8` follow
the rules; `packed` follows them unless the option `packed = false` meets the feature `PACKED`;
`delimited` follows them unless the field is a map. -/
theorem C74_flags_partial (order : FileMap → FileMap) (ho : ∀ m, (order m).Perm m)
    {fs : List FileProto} {p : Pool} (h : initPool order fs = .ok p) : ∀ f ∈ p.fields,
    (f.bits.repeated = true ↔ f.proto.label = 3) ∧
    (f.bits.required = true ↔ required f.proto f.features) ∧
    (f.bits.utf8 = true ↔ checksUtf8 f.proto f.features) ∧
    (¬ (f.proto.packed = some false ∧ f.features.repeatedEncoding = 1) →
      (f.bits.packed = true ↔ packed f.proto f.features)) ∧
    (f.bits.mapEntry = false →
      (f.bits.delimited = true ↔ delimited (f.bits.mapEntry = true) f.proto f.features)) := by
  have hs := initPool_sat order ho fs
  rw [h] at hs
  obtain ⟨⟨_, _, _, _, _, st⟩, _⟩ := hs
  intro f hf
  have e := st.ownFlags hf
  have e1 : f.bits.repeated = (fieldBits f.proto f.features).repeated :=
    (congrArg FieldBits.repeated e :)
  have e2 : f.bits.required = (fieldBits f.proto f.features).required :=
    (congrArg FieldBits.required e :)
  have e3 : f.bits.utf8 = (fieldBits f.proto f.features).utf8 :=
    (congrArg FieldBits.utf8 e :)
  have e4 : f.bits.packed = (fieldBits f.proto f.features).packed :=
    (congrArg FieldBits.packed e :)
  have e5 : f.bits.delimited = (fieldBits f.proto f.features).delimited :=
    (congrArg FieldBits.delimited e :)
  rw [e1, e2, e3, e4, e5]
  simp only [fieldBits]
  refine ⟨by simp, by simp [required], by simp [checksUtf8], ?_, ?_⟩
  · intro hp
    unfold packed packable
    cases hk : f.proto.packed with
    | none =>
      simp only [hk, Bool.and_eq_true, Bool.not_eq_true', Bool.or_eq_false_iff, beq_iff_eq,
        beq_eq_false_iff_ne, Bool.or_eq_true, reduceCtorEq, false_or]
      constructor
      · rintro ⟨⟨h1, h2⟩, h3⟩; exact ⟨h1, by omega, h3⟩
      · rintro ⟨h1, h2, h3⟩; exact ⟨⟨h1, by omega⟩, h3⟩
    | some b =>
      rw [hk] at hp
      simp only [Bool.and_eq_true, Bool.not_eq_true', Bool.or_eq_false_iff, beq_iff_eq,
        beq_eq_false_iff_ne, Bool.or_eq_true, Option.some.injEq] at hp ⊢
      constructor
      · rintro ⟨⟨h1, h2⟩, h3⟩
        refine ⟨h1, by omega, ?_⟩
        rcases h3 with h3 | h3
        · exact h3
        · cases b
          · exact absurd ⟨rfl, h3⟩ hp
          · rfl
      · rintro ⟨h1, h2, h3⟩; exact ⟨⟨h1, by omega⟩, .inl h3⟩
  · intro hm
    simp [delimited, hm]

/-- C74, presence of the fields of a message, extensions aside: a field has presence exactly if the
rules say so, provided that its feature is a known one and that a repeated field is not also
required; except that the members of a map entry always have it. -/
theorem C74_presence_partial (order : FileMap → FileMap) (ho : ∀ m, (order m).Perm m)
    {fs : List FileProto} {p : Pool} (h : initPool order fs = .ok p) {i : Nat} {d : MsgDesc}
    (hd : p.messages[i]? = some d) {j : Nat} (hj : j ∈ d.fields) {f : FieldDesc}
    (hf : p.fields[j]? = some f)
    (known : 0 ≤ f.features.presence ∧ f.features.presence ≤ 3)
    (hr : ¬ (f.proto.label = 3 ∧ f.features.presence = 3)) :
    (f.bits.presence = true ∨ f.bits.required = true) ↔
      (d.proto.mapEntry = true ∨ hasPresence False f.proto f.features) := by
  have hs := initPool_sat order ho fs
  rw [h] at hs
  obtain ⟨⟨_, _, _, _, _, st⟩, hw⟩ := hs
  obtain ⟨g, hg, e⟩ := st.field hd hj
  have hok := ((st.fieldsOk hw hd).each g hg).label
  rw [hf, Option.some.injEq] at e
  have e2 : f.bits.required = (fieldBits f.proto f.features).required :=
    (congrArg FieldBits.required (st.ownFlags (List.mem_of_getElem? hf)) :)
  have e1 : f.bits.presence = (d.proto.mapEntry || (fieldBits f.proto f.features).presence) := by
    rw [e]
    show (newField i d.proto.mapEntry d.features g).bits.presence = _
    rw [newField_presence]
    show _ = (_ || (fieldBits (newField i d.proto.mapEntry d.features g).proto _).presence)
    rw [newField_proto]
    rfl
  have ep : f.proto = g := by rw [e]; exact newField_proto _ _ _ _
  rw [← ep] at hok
  rw [e1, e2]
  simp only [fieldBits, hasPresence, required, Bool.or_eq_true, Bool.and_eq_true,
    beq_iff_eq, false_or]
  generalize hF : f.features.presence = pr at *
  generalize hL : f.proto.label = l at *
  by_cases h1 : d.proto.mapEntry = true
  · simp [h1]
  simp only [h1, Bool.false_eq_true, false_or]
  by_cases ht : f.proto.type = 10 ∨ f.proto.type = 11 ∨ f.proto.oneofIndex.isSome = true ∨
      f.proto.proto3Optional = true
  · constructor
    · rintro (⟨h, _⟩ | h)
      · exact ⟨by omega, by rcases ht with h | h | h | h <;> simp [h]⟩
      · exact ⟨by omega, by rcases ht with h | h | h | h <;> simp [h]⟩
    · rintro ⟨h, _⟩
      by_cases h2 : l = 2
      · exact .inr (.inl h2)
      · refine .inl ⟨by omega, ?_⟩
        rcases ht with h | h | h | h <;> simp [h]
  · simp only [not_or] at ht
    simp only [ht, false_or]
    simp only [Bool.false_eq_true, false_or]
    omega

/-! ## C75: JSON keys -/

/-- C75: a field with a JSON name of its own is found under that name. -/
theorem C75_custom (order : FileMap → FileMap) (ho : ∀ m, (order m).Perm m)
    {fs : List FileProto} {p : Pool} (h : initPool order fs = .ok p) {i : Nat} {d : MsgDesc}
    (hd : p.messages[i]? = some d) {j : Nat} (hj : j ∈ d.fields) {f : FieldDesc}
    (hf : p.fields[j]? = some f) (hc : CustomJson f.proto) :
    p.fieldForKey d (jsonKey false f.proto) = some j := by
  have hs := initPool_sat order ho fs
  rw [h] at hs
  obtain ⟨⟨_, _, _, _, _, st⟩, hw⟩ := hs
  have ok := st.fieldsOk hw hd
  have hmem : ∀ {j : Nat}, j ∈ d.fields → ∀ {f : FieldDesc}, p.fields[j]? = some f →
      f.proto ∈ d.proto.fields := by
    intro j hj f hf
    obtain ⟨g, hg, e⟩ := st.field hd hj
    rw [hf, Option.some.injEq] at e
    have ep : f.proto = g := by rw [e]; exact newField_proto _ _ _ _
    rw [ep]; exact hg
  unfold Pool.fieldForKey
  rw [show p.fieldByJsonName d (jsonKey false f.proto) = some j from
    findField_only hj hf (by simp [jsonKey]) ?_]
  intro j' hj' f' hf' ht
  simp only [jsonKey, beq_iff_eq, Bool.false_eq_true, if_false] at ht
  by_cases hn : f.proto.number = f'.proto.number
  · exact st.field_unique hd ok.numbers hj' hj hf' hf hn.symm
  · exact absurd ht.symm (ok.json _ (hmem hj hf) _ (hmem hj' hf') hn hc).2

/-- C75: if the JSON names of a message are all different, every field is found under the key that
it is written with; with the names of the `.proto` file as keys this takes, moreover, that no field
is named as the JSON name of another. -/
theorem C75_keys_partial (order : FileMap → FileMap) (ho : ∀ m, (order m).Perm m)
    {fs : List FileProto} {p : Pool} (h : initPool order fs = .ok p) {i : Nat} {d : MsgDesc}
    (hd : p.messages[i]? = some d) (hn : (d.proto.fields.map (·.jsonName)).Nodup)
    {j : Nat} (hj : j ∈ d.fields) {f : FieldDesc} (hf : p.fields[j]? = some f) (preserve : Bool)
    (hp : preserve = true → ∀ g ∈ d.proto.fields, g.number ≠ f.proto.number →
      g.jsonName ≠ f.proto.name) :
    p.fieldForKey d (jsonKey preserve f.proto) = some j := by
  have hs := initPool_sat order ho fs
  rw [h] at hs
  obtain ⟨⟨_, _, _, _, _, st⟩, hw⟩ := hs
  have ok := st.fieldsOk hw hd
  have hmem : ∀ {j : Nat}, j ∈ d.fields → ∀ {f : FieldDesc}, p.fields[j]? = some f →
      f.proto ∈ d.proto.fields := by
    intro j hj f hf
    obtain ⟨g, hg, e⟩ := st.field hd hj
    rw [hf, Option.some.injEq] at e
    have ep : f.proto = g := by rw [e]; exact newField_proto _ _ _ _
    rw [ep]; exact hg
  unfold Pool.fieldForKey
  by_cases hk : f.proto.jsonName = jsonKey preserve f.proto
  · rw [← hk]
    rw [show p.fieldByJsonName d f.proto.jsonName = some j from
      (st.findField (key := fun g => g.jsonName) hd hn _ j).2 ⟨hj, f, hf, rfl⟩]
  · have hpre : preserve = true := by
      cases preserve
      · exact absurd rfl hk
      · rfl
    subst hpre
    simp only [jsonKey, if_true] at hk ⊢
    rw [show p.fieldByJsonName d f.proto.name = none from findField_none ?_,
      show p.fieldByName d f.proto.name = some j from
        (st.findField (key := fun g => g.name) hd ok.names _ j).2 ⟨hj, f, hf, rfl⟩]
    intro j' hj' f' hf'
    simp only [beq_eq_false_iff_ne]
    by_cases hnum : f'.proto.number = f.proto.number
    · have := st.field_unique hd ok.numbers hj' hj hf' hf hnum
      subst this
      rw [hf] at hf'
      cases hf'
      exact hk
    · exact hp rfl _ (hmem hj' hf') hnum

/-! ## Examples -/

/-- A proto3 file with nested messages, a map, an enum and a oneof. -/
def exampleBase : FileProto :=
  { name := b!"base.proto", package := b!"p", syntaxName := b!"proto3"
    enums := [{ name := b!"E", values := [(b!"E_0", 0), (b!"E_1", 1)] }]
    messages := [
      .mk b!"M"
        [{ name := b!"id", number := 1, label := 1, type := 5, jsonName := b!"id" },
         { name := b!"kind", number := 2, label := 1, type := 14, typeName := b!".p.E",
           jsonName := b!"kind" },
         { name := b!"child_node", number := 3, label := 1, type := 11, typeName := b!".p.M.N",
           oneofIndex := some 0, jsonName := b!"childNode" },
         { name := b!"text", number := 4, label := 1, type := 9, oneofIndex := some 0,
           jsonName := b!"body" },
         { name := b!"table", number := 5, label := 3, type := 11, typeName := b!".p.M.TableEntry",
           jsonName := b!"table" },
         { name := b!"values", number := 6, label := 3, type := 5, jsonName := b!"values" }]
        [.mk b!"N" [] [] [{ name := b!"E", values := [(b!"E_0", 0)] }] [] [] false none,
         .mk b!"TableEntry"
          [{ name := b!"key", number := 1, label := 1, type := 9, jsonName := b!"key" },
           { name := b!"value", number := 2, label := 1, type := 5, jsonName := b!"value" }]
          [] [] [] [] true none]
        [] [{ name := b!"choice" }] [] false none] }

/-- An edition 2023 file that imports it and extends its own message. -/
def exampleUser : FileProto :=
  { name := b!"user.proto", deps := [b!"base.proto"], syntaxName := b!"editions", edition := 1000
    messages := [
      .mk b!"U"
        [{ name := b!"m", number := 1, label := 1, type := 11, typeName := b!".p.M",
           jsonName := b!"m" }]
        [] [] [] [] false none]
    extensions := [{ name := b!"tag", number := 100, label := 1, type := 9, extendee := b!".U" }] }

/-- Whether a pool is made that passes a test. -/
def poolWith (fs : List FileProto) (test : Pool → Bool) : Bool :=
  match initPool id fs with
  | .ok p => test p
  | _ => false

theorem poolWith_spec {fs : List FileProto} {test : Pool → Bool} (h : poolWith fs test = true) :
    ∃ p, initPool id fs = .ok p ∧ test p = true := by
  unfold poolWith at h
  split at h
  · rename_i p hp; exact ⟨p, hp, h⟩
  · cases h

theorem id_perm (m : FileMap) : (id m).Perm m := List.Perm.refl _

/-- C71: a set of two files is accepted, whatever the order of the files and of the hash maps. -/
example (order : FileMap → FileMap) (ho : ∀ m, (order m).Perm m) :
    (∃ p, initPool order [exampleBase, exampleUser] = .ok p) ∧
      ∃ p, initPool order [exampleUser, exampleBase] = .ok p := by
  have h : poolWith [exampleBase, exampleUser] (fun _ => true) = true ∧
      poolWith [exampleUser, exampleBase] (fun _ => true) = true := by decide +kernel
  obtain ⟨p, hp, _⟩ := poolWith_spec h.1
  obtain ⟨q, hq, _⟩ := poolWith_spec h.2
  exact ⟨(C71_accepts order ho _).2 ((C71_accepts id id_perm _).1 ⟨p, hp⟩),
    (C71_accepts order ho _).2 ((C71_accepts id id_perm _).1 ⟨q, hq⟩)⟩

/-- C71: a missing import and a duplicate full name are rejected. -/
example (order : FileMap → FileMap) (ho : ∀ m, (order m).Perm m) :
    initPool order [exampleUser] = .err .invalidArgument ∧
      initPool order [exampleBase, { exampleBase with name := b!"other.proto" }] =
        .err .invalidArgument := by
  have rej : ∀ fs, poolWith fs (fun _ => true) = false →
      initPool order fs = .err .invalidArgument := by
    intro fs h
    rw [← C71_rejects order ho]
    intro hw
    obtain ⟨p, hp⟩ := (C71_accepts id id_perm fs).2 hw
    unfold poolWith at h
    rw [hp] at h
    cases h
  exact ⟨rej _ (by decide +kernel), rej _ (by decide +kernel)⟩

/-- C72, C73: the pool of the two files has four messages and two enums; the field `table` of the
message `p.M` is a map, found by its number, its name and its JSON name. -/
example : ∃ p, initPool id [exampleBase, exampleUser] = .ok p ∧
    p.messages.map (·.fullName) = [b!"p.M", b!"p.M.N", b!"p.M.TableEntry", b!"U"] ∧
    p.enums.map (·.fullName) = [b!"p.M.N.E", b!"p.E"] ∧
    p.findMessage b!"p.M" = some 0 ∧
    p.messages[0]?.map (·.fields) = some [0, 1, 2, 3, 4, 5] ∧
    (p.messages[0]?.map fun d => [p.fieldByNumber d 5, p.fieldByName d b!"table",
      p.fieldForKey d b!"body", p.fieldForKey d b!"childNode", p.fieldForKey d b!"child_node"]) =
      some [some 4, some 4, some 3, some 2, some 2] ∧
    p.fields[4]?.map (·.type) = some (some 2) ∧ p.fields[4]?.map (·.bits.mapEntry) = some true := by
  have h : poolWith [exampleBase, exampleUser] (fun p => decide (
    p.messages.map (·.fullName) = [b!"p.M", b!"p.M.N", b!"p.M.TableEntry", b!"U"] ∧
    p.enums.map (·.fullName) = [b!"p.M.N.E", b!"p.E"] ∧
    p.findMessage b!"p.M" = some 0 ∧
    p.messages[0]?.map (·.fields) = some [0, 1, 2, 3, 4, 5] ∧
    (p.messages[0]?.map fun d => [p.fieldByNumber d 5, p.fieldByName d b!"table",
      p.fieldForKey d b!"body", p.fieldForKey d b!"childNode", p.fieldForKey d b!"child_node"]) =
      some [some 4, some 4, some 3, some 2, some 2] ∧
    p.fields[4]?.map (·.type) = some (some 2) ∧ p.fields[4]?.map (·.bits.mapEntry) = some true)) = true := by
    decide +kernel
  obtain ⟨p, hp, ht⟩ := poolWith_spec h
  exact ⟨p, hp, of_decide_eq_true ht⟩

/-! ## Where the flags and keys differ from the rules -/

/-- A file with one message `M`. -/
def oneMessage (f : FileProto) (fields : List FieldProto) (nested : List MsgProto := [])
    (extensions : List FieldProto := []) : FileProto :=
  { f with name := b!"f.proto", messages := [.mk b!"M" fields nested [] [] [] false none],
           extensions := extensions }

/-- A proto3 field `repeated int32 values = 1 [packed = false]`. -/
def unpackedFile : FileProto :=
  oneMessage { name := [], syntaxName := b!"proto3" }
    [{ name := b!"values", number := 1, label := 3, type := 5, jsonName := b!"values",
       packed := some false }]

/-- C74: a proto3 repeated field with `packed = false` is packed all the same. -/
theorem C74_unpacked : ∃ p f, initPool id [unpackedFile] = .ok p ∧ p.fields = [f] ∧
    f.bits.packed = true ∧ ¬ packed f.proto f.features := by
  have h : poolWith [unpackedFile] (fun p => decide (p.fields.length = 1 ∧
      ∀ f ∈ p.fields, f.bits.packed = true ∧ f.proto.packed = some false)) = true := by
    decide +kernel
  obtain ⟨p, hp, ht⟩ := poolWith_spec h
  obtain ⟨hl, hf⟩ := of_decide_eq_true ht
  obtain ⟨f, e⟩ := List.length_eq_one_iff.1 hl
  obtain ⟨h1, h2⟩ := hf f (by rw [e]; exact List.mem_singleton_self f)
  refine ⟨p, f, hp, e, h1, ?_⟩
  rintro ⟨_, _, h3⟩
  rw [h2] at h3
  cases h3

/-- An edition 2023 file with `option features.message_encoding = DELIMITED` and a map field. -/
def delimitedFile : FileProto :=
  oneMessage { name := [], syntaxName := b!"editions", edition := 1000,
               features := some { messageEncoding := 2 } }
    [{ name := b!"table", number := 1, label := 3, type := 11, typeName := b!".M.TableEntry",
       jsonName := b!"table" }]
    [.mk b!"TableEntry"
      [{ name := b!"key", number := 1, label := 1, type := 9, jsonName := b!"key" },
       { name := b!"value", number := 2, label := 1, type := 5, jsonName := b!"value" }]
      [] [] [] [] true none]

/-- C74: a map field in a file with `DELIMITED` messages is delimited, although maps never are. -/
theorem C74_delimited_map : ∃ p f, initPool id [delimitedFile] = .ok p ∧ f ∈ p.fields ∧
    f.bits.mapEntry = true ∧ f.bits.delimited = true ∧
    ¬ delimited (f.bits.mapEntry = true) f.proto f.features := by
  have h : poolWith [delimitedFile] (fun p => decide (∃ f ∈ p.fields,
      f.bits.mapEntry = true ∧ f.bits.delimited = true ∧ f.proto.type = 11)) = true := by
    decide +kernel
  obtain ⟨p, hp, ht⟩ := poolWith_spec h
  obtain ⟨f, hf, h1, h2, h3⟩ := of_decide_eq_true ht
  refine ⟨p, f, hp, hf, h1, h2, ?_⟩
  rintro (h4 | ⟨_, _, h5⟩)
  · omega
  · exact h5 h1

/-- A proto3 file that extends its message with a singular number. -/
def extensionFile : FileProto :=
  oneMessage { name := [], syntaxName := b!"proto3" } [] []
    [{ name := b!"tag", number := 100, label := 1, type := 5, extendee := b!".M" }]

/-- C74: a singular extension in a proto3 file has no presence, although extensions have. -/
theorem C74_extension : ∃ p f, initPool id [extensionFile] = .ok p ∧ p.fields = [f] ∧
    f.extendee = some 0 ∧ f.bits.presence = false ∧ f.bits.required = false ∧
    hasPresence True f.proto f.features := by
  have h : poolWith [extensionFile] (fun p => decide (p.fields.length = 1 ∧
      ∀ f ∈ p.fields, f.extendee = some 0 ∧ f.bits.presence = false ∧ f.bits.required = false ∧
        f.proto.label = 1)) = true := by
    decide +kernel
  obtain ⟨p, hp, ht⟩ := poolWith_spec h
  obtain ⟨hl, hf⟩ := of_decide_eq_true ht
  obtain ⟨f, e⟩ := List.length_eq_one_iff.1 hl
  obtain ⟨h1, h2, h3, h4⟩ := hf f (by rw [e]; exact List.mem_singleton_self f)
  exact ⟨p, f, hp, e, h1, h2, h3, by omega, .inr (.inr (.inl trivial))⟩

/-- A message with fields `foo_bar` and `fooBar`, which have the same JSON name. -/
def sameJsonFile : FileProto :=
  oneMessage { name := [], syntaxName := b!"proto3" }
    [{ name := b!"foo_bar", number := 1, label := 1, type := 5, jsonName := b!"fooBar" },
     { name := b!"fooBar", number := 2, label := 1, type := 5, jsonName := b!"fooBar" }]

/-- C75: a pool is made of a message with two fields of the same JSON name; the second one is
written with the key of the first and not read back. -/
theorem C75_collision : ∃ p d f, initPool id [sameJsonFile] = .ok p ∧
    p.messages = [d] ∧ d.fields = [0, 1] ∧ p.fields[1]? = some f ∧
    p.fieldForKey d (jsonKey false f.proto) = some 0 := by
  have h : poolWith [sameJsonFile] (fun p => decide (p.messages.length = 1 ∧
      p.fields.length = 2 ∧ ∀ d ∈ p.messages, d.fields = [0, 1] ∧
        (p.fields[1]?.map fun f => p.fieldForKey d (jsonKey false f.proto)) = some (some 0))) = true := by
    decide +kernel
  obtain ⟨p, hp, ht⟩ := poolWith_spec h
  obtain ⟨hl, hl2, hf⟩ := of_decide_eq_true ht
  obtain ⟨d, e⟩ := List.length_eq_one_iff.1 hl
  obtain ⟨h1, h2⟩ := hf d (by rw [e]; exact List.mem_singleton_self d)
  obtain ⟨f, hf, h3⟩ := Option.map_eq_some_iff.1 h2
  exact ⟨p, d, f, hp, e, h1, hf, h3⟩

/-- A message with a field named like the JSON name of another; all JSON names differ. -/
def shadowedFile : FileProto :=
  oneMessage { name := [], syntaxName := b!"proto3" }
    [{ name := b!"foo_bar", number := 1, label := 1, type := 5, jsonName := b!"fooBar" },
     { name := b!"fooBar", number := 2, label := 1, type := 5, jsonName := b!"x" }]

/-- C75: written with the names of the `.proto` file, the second field is read back as the first,
although all JSON names differ. -/
theorem C75_shadowed : ∃ p d f, initPool id [shadowedFile] = .ok p ∧
    p.messages = [d] ∧ d.fields = [0, 1] ∧ (d.proto.fields.map (·.jsonName)).Nodup ∧
    p.fields[1]? = some f ∧ p.fieldForKey d (jsonKey true f.proto) = some 0 := by
  have h : poolWith [shadowedFile] (fun p => decide (p.messages.length = 1 ∧
      p.fields.length = 2 ∧ ∀ d ∈ p.messages, d.fields = [0, 1] ∧
        (d.proto.fields.map (·.jsonName)).Nodup ∧
        (p.fields[1]?.map fun f => p.fieldForKey d (jsonKey true f.proto)) = some (some 0))) = true := by
    decide +kernel
  obtain ⟨p, hp, ht⟩ := poolWith_spec h
  obtain ⟨hl, hl2, hf⟩ := of_decide_eq_true ht
  obtain ⟨d, e⟩ := List.length_eq_one_iff.1 hl
  obtain ⟨h1, h2, h3⟩ := hf d (by rw [e]; exact List.mem_singleton_self d)
  obtain ⟨f, hf, h4⟩ := Option.map_eq_some_iff.1 h3
  exact ⟨p, d, f, hp, e, h1, h2, hf, h4⟩

/-- C74, C75: the hypotheses of the theorems on presence and on JSON keys are met by the fields of
the message `p.M` above. -/
example : poolWith [exampleBase, exampleUser] (fun p => decide (
    p.messages.length = 4 ∧ ∀ d ∈ p.messages[0]?, (d.proto.fields.map (·.jsonName)).Nodup ∧
      (∀ f ∈ d.proto.fields, ∀ g ∈ d.proto.fields, g.number ≠ f.number → g.jsonName ≠ f.name) ∧
      d.fields.length = 6 ∧ ∀ j ∈ d.fields, ∀ f ∈ p.fields[j]?,
        0 ≤ f.features.presence ∧ f.features.presence ≤ 3 ∧
        ¬ (f.proto.label = 3 ∧ f.features.presence = 3) ∧
        ¬ (f.proto.packed = some false ∧ f.features.repeatedEncoding = 1))) = true := by
  decide +kernel

end HppProto.Props
