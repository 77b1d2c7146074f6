import Verif.Props.Meta

/-!
# C96 to C99: files that meet the hypotheses, and files for which the claims are false
-/

namespace HppProto.Props
open Spec Meta

/-! ## Tests that can be computed -/

instance (f : FieldProto) (F : Features) : Decidable (required f F) := by unfold required; infer_instance

instance (f : FieldProto) (F : Features) : Decidable (hasPresence False f F) := by unfold hasPresence; infer_instance

/-- A computable form of `Accepted`. -/
def acceptedTest (p : Pool) : Bool :=
  decide (∀ d ∈ p.messages, ∀ f ∈ d.proto.fields, f.extendee = []) &&
  decide (∀ d ∈ p.messages, ∀ f ∈ d.proto.fields, (under d.features f.features).presence ∈ [1, 2, 3]) &&
  decide (∀ d ∈ p.messages, ∀ f ∈ d.proto.fields, f.label = 3 → (under d.features f.features).presence ≠ 3) &&
  decide (∀ d ∈ p.messages, ∀ file ∈ p.files[d.file]?.toList, file.proto.syntaxName = [] ∨ file.proto.syntaxName = b!"proto2" →
    ∀ f ∈ d.proto.fields, (under d.features f.features).presence = 1) &&
  decide (∀ d ∈ p.messages, ∀ f ∈ d.proto.fields, f.proto3Optional = true →
    f.oneofIndex.isSome ∧ (under d.features f.features).presence = 2) &&
  decide (∀ d ∈ p.messages, ∀ f ∈ d.proto.fields, f.oneofIndex.isSome →
    f.label = 1 ∧ (under d.features f.features).presence ≠ 3) &&
  decide (∀ d ∈ p.messages, ∀ f ∈ d.proto.fields, ∀ m ∈ p.messages, m.proto.mapEntry = true →
    f.typeName = b!"." ++ m.fullName → f.type = 10 ∨ f.type = 11 → f.label = 3 ∧ f.type = 11) &&
  decide (∀ d ∈ p.messages, d.proto.mapEntry = true → d.proto.fields.length = 2 ∧
    d.proto.fields.map (fun f => (f.number, f.label, f.oneofIndex)) = [(1, 1, none), (2, 1, none)] ∧
    ∀ k ∈ d.proto.fields.head?.toList, k.type ∉ [1, 2, 10, 11, 12, 14]) &&
  decide (∀ e ∈ p.enums, e.proto.numbers ≠ [] ∧ (∀ n ∈ e.proto.numbers, -2147483648 ≤ n ∧ n ≤ 2147483647) ∧
    (e.features.enumType ≠ 2 → e.proto.numbers.head? = some 0)) &&
  decide (∀ d ∈ p.messages, ∀ f ∈ d.proto.fields, ∀ e ∈ p.enums, f.type = 14 → f.typeName = b!"." ++ e.fullName →
    d.proto.mapEntry = false → f.label ≠ 3 → e.features.enumType = 2 → hasPresence False f (under d.features f.features))

theorem two_of_length {α : Type} : ∀ {l : List α}, l.length = 2 → ∃ a b, l = [a, b]
  | [a, b], _ => ⟨a, b, rfl⟩

theorem accepted_of_test {p : Pool} (h : acceptedTest p = true) : Accepted p := by
  simp only [acceptedTest, Bool.and_eq_true, decide_eq_true_eq] at h
  obtain ⟨⟨⟨⟨⟨⟨⟨⟨⟨h1, h2⟩, h3⟩, h4⟩, h5⟩, h6⟩, h7⟩, h8⟩, h9⟩, h10⟩ := h
  refine ⟨h1, h2, h3, ?_, h5, h6, h7, ?_, h9, h10⟩
  · intro d hd file hf
    exact h4 d hd file (by rw [hf]; simp)
  · intro d hd he
    obtain ⟨hl, hm, hk⟩ := h8 d hd he
    obtain ⟨k, v, e⟩ := two_of_length hl
    rw [e] at hm hk
    simp only [List.map_cons, List.map_nil, List.cons.injEq, Prod.mk.injEq, and_true] at hm
    exact ⟨k, v, e, hm.1.1, hm.2.1, hm.1.2.1, hm.2.2.1, hm.1.2.2, hm.2.2.2, hk k (by simp)⟩

/-- Are the defaults the same number or byte string? -/
def sameDefault : Option Val → Option Val → Bool
  | none, none => true
  | some (.num a), some (.num b) => a == b
  | some (.bytes a), some (.bytes b) => a == b
  | _, _ => false

theorem sameDefault_eq {a b : Option Val} (h : sameDefault a b = true) : a = b := by
  unfold sameDefault at h
  split at h
  · rfl
  · rw [eq_of_beq h]
  · rw [eq_of_beq h]
  · cases h

def sameHolder : Holder → Holder → Bool
  | .plain a, .plain b => sameDefault a b
  | .optional, .optional => true
  | .repeated, .repeated => true
  | .map, .map => true
  | _, _ => false

theorem sameHolder_eq {a b : Holder} (h : sameHolder a b = true) : a = b := by
  unfold sameHolder at h
  split at h
  · rw [sameDefault_eq h]
  · rfl
  · rfl
  · rfl
  · cases h

def sameEntry : Entry → Entry → Bool
  | .field n h t o d, .field n' h' t' o' d' => n == n' && sameHolder h h' && t == t' && o == o' && sameDefault d d'
  | .oneof a, .oneof b => a == b
  | _, _ => false

theorem sameEntry_eq {a b : Entry} (h : sameEntry a b = true) : a = b := by
  unfold sameEntry at h
  split at h
  · simp only [Bool.and_eq_true, beq_iff_eq] at h
    obtain ⟨⟨⟨⟨h1, h2⟩, h3⟩, h4⟩, h5⟩ := h
    rw [h1, sameHolder_eq h2, h3, h4, sameDefault_eq h5]
  · rw [eq_of_beq h]
  · cases h

def sameEntries : List Entry → List Entry → Bool
  | [], [] => true
  | a :: l, b :: m => sameEntry a b && sameEntries l m
  | _, _ => false

theorem sameEntries_eq : ∀ {a b : List Entry}, sameEntries a b = true → a = b
  | [], [], _ => rfl
  | a :: l, b :: m, h => by
    simp only [sameEntries, Bool.and_eq_true] at h
    rw [sameEntry_eq h.1, sameEntries_eq h.2]
  | [], _ :: _, h => by cases h
  | _ :: _, [], h => by cases h

/-- The classes for a pool with the single message, given the entries of its class. -/
def single (S : Setup) (p : Pool) (es : List Entry) (fresh : Nat → Msg) (utf8 : List Byte → Bool) (w : Bool) (unk : UnkMode) : Cfg where
  schema id := match id with
    | 0 => { slots := es.map (Meta.slotOf S p fresh w), unk := unk }
    | _ + 1 => { slots := [], unk := .none }
  utf8 := utf8

theorem classes_single {S : Setup} {p : Pool} {d : MsgDesc} (hd : p.messages = [d]) (he : d.proto.mapEntry = false) {es : List Entry}
    (hes : sameEntries (entries S p d) es = true) {w : Bool} {unk : UnkMode} (hu : unknownMode S p d w = unk)
    (fresh : Nat → Msg) (utf8 : List Byte → Bool) :
    classes S p fresh utf8 w = single S p es fresh utf8 w unk := by
  unfold classes single
  congr 1
  funext id
  rw [hd]
  cases id with
  | zero =>
    simp only [List.getElem?_cons_zero]
    unfold classOf
    rw [if_neg (by simp [he]), sameEntries_eq hes, hu]
  | succ n => rfl

/-- What a test of a file with one message tells. -/
def metaTest (S : Setup) (es : List Entry) (reading writing : UnkMode) (p : Pool) : Bool :=
  acceptedTest p && decide (p.messages.length = 1) && p.messages.all fun d => !d.proto.mapEntry &&
    sameEntries (entries S p d) es && decide (unknownMode S p d false = reading) && decide (unknownMode S p d true = writing)

theorem metaTest_spec {S : Setup} {es : List Entry} {ur uw : UnkMode} {p : Pool} (h : metaTest S es ur uw p = true) :
    Accepted p ∧ ∃ d, p.messages = [d] ∧ d.proto.mapEntry = false ∧
      (∀ fresh utf8, classes S p fresh utf8 false = single S p es fresh utf8 false ur) ∧
      ∀ fresh utf8, classes S p fresh utf8 true = single S p es fresh utf8 true uw := by
  unfold metaTest at h
  simp only [Bool.and_eq_true, List.all_eq_true, decide_eq_true_eq, Bool.not_eq_true'] at h
  obtain ⟨⟨h1, h2⟩, h3⟩ := h
  obtain ⟨d, hd⟩ := List.length_eq_one_iff.1 h2
  obtain ⟨⟨⟨k1, k2⟩, k3⟩, k4⟩ := h3 d (by rw [hd]; simp)
  exact ⟨accepted_of_test h1, d, hd, k1, fun fresh utf8 => classes_single hd k1 k2 k3 fresh utf8,
    fun fresh utf8 => classes_single hd k1 k2 k4 fresh utf8⟩

/-! ## C96 -/

/-- A proto2 file with a required number, a string with a default, a closed enum, a packed list, a map, a
oneof with two members, a oneof with one, and a required message. -/
def metaFile : FileProto :=
  { name := b!"m.proto", package := b!"q"
    enums := [{ name := b!"K", values := [(b!"K_3", 3), (b!"K_1", 1)] }]
    messages := [
      .mk b!"M"
        [{ name := b!"id", number := 1, label := 2, type := 5, jsonName := b!"id" },
         { name := b!"name", number := 2, label := 1, type := 9, jsonName := b!"name" },
         { name := b!"kind", number := 3, label := 1, type := 14, typeName := b!".q.K", jsonName := b!"kind" },
         { name := b!"vals", number := 4, label := 3, type := 17, packed := some true, jsonName := b!"vals" },
         { name := b!"text", number := 6, label := 1, type := 9, oneofIndex := some 0, jsonName := b!"text" },
         { name := b!"table", number := 5, label := 3, type := 11, typeName := b!".q.M.TableEntry", jsonName := b!"table" },
         { name := b!"part", number := 7, label := 1, type := 11, typeName := b!".q.N", oneofIndex := some 0,
           jsonName := b!"part" },
         { name := b!"alone", number := 8, label := 1, type := 3, oneofIndex := some 1, jsonName := b!"alone" },
         { name := b!"child", number := 9, label := 2, type := 11, typeName := b!".q.N", jsonName := b!"child" }]
        [.mk b!"TableEntry"
          [{ name := b!"key", number := 1, label := 1, type := 9, jsonName := b!"key" },
           { name := b!"value", number := 2, label := 1, type := 11, typeName := b!".q.N", jsonName := b!"value" }]
          [] [] [] [] true none]
        [] [{ name := b!"choice" }, { name := b!"other" }] [] false none,
      .mk b!"N" [{ name := b!"x", number := 1, label := 1, type := 2, jsonName := b!"x" }] [] [] [] [] false none] }

/-- Its only default value: `name` is `"abc"`. -/
def metaSetup : Setup :=
  { dflt := fun m n => if m = b!"q.M" ∧ n = 2 then some (.bytes b!"abc") else none, keeps := true }

/-- The entries of the class of `q.M`. -/
def metaEntries : List Entry :=
  [.field 1 (.plain none) (.i32, .vi64) { presence := true } none,
   .field 2 .optional (.string, .void) { presence := true } none,
   .field 3 .optional (.enum 0, .void) { presence := true, closed := true } (some (.num 3)),
   .field 4 .repeated (.i32, .vs32) { packed := true } none,
   .oneof [(6, (.string, .void), { presence := true }), (7, (.msg 2, .void), { presence := true })],
   .field 5 .map (.msg 1, .void) {} none,
   .field 8 .optional (.i64, .vi64) { presence := true } none,
   .field 9 (.plain none) (.msg 2, .void) { presence := true } none]

/-- Its classes, for reading and for writing. -/
def metaClasses (fresh : Nat → Msg) : Cfg where
  schema id := match id with
    | 0 => { slots := [
        .field 1 (.scalar (.varint .i32)) (.always (.num 0)),
        .field 2 (.scalar (.str false)) .optional,
        .field 3 (.scalar (.enum (some [3, 1]))) .optional,
        .field 4 (.scalar (.varint .s32)) (.repeated true),
        .oneof [(6, .scalar (.str false)), (7, .msg 2)],
        .field 5 (.msg 1) (.map true),
        .field 8 (.scalar (.varint .i64)) .optional,
        .field 9 (.msg 2) (.always (.msg (fresh 2)))], unk := .bytes }
    | 1 => { slots := [.field 1 (.scalar (.str false)) (.always (.bytes [])), .field 2 (.msg 2) (.always (.msg (fresh 2)))],
             unk := .none, isEntry := true }
    | 2 => { slots := [.field 1 (.scalar (.fixed32 true)) .optional], unk := .bytes }
    | _ => { slots := [], unk := .none }
  utf8 _ := true

/-- What is computed for the file. -/
def metaFileTest (p : Pool) : Bool :=
  acceptedTest p &&
  decide (∀ d ∈ p.messages, ∀ f ∈ d.proto.fields, (metaSetup.dflt d.fullName f.number).isSome →
    hasPresence False f (under d.features f.features) ∧ f.type = 9 ∧ d.proto.mapEntry = false) &&
  decide (∀ d ∈ p.messages, ∀ f ∈ d.proto.fields, f.number < 2 ^ 25 ∧ (under d.features f.features).messageEncoding ≠ 2 ∧
    (f.oneofIndex.isSome → f.type ≠ 14)) &&
  decide (∀ d ∈ p.messages, d.proto.fields ≠ []) &&
  decide (∀ x ∈ p.messages.zipIdx, ∀ y ∈ p.messages.zipIdx, ∀ f ∈ x.1.proto.fields, f.typeName = b!"." ++ y.1.fullName →
    (f.type = 10 ∨ f.type = 11) → (x.1.proto.mapEntry = true ∨ f.label = 2) → 3 - y.2 < 3 - x.2) &&
  decide (p.messages.map (fun d => (d.fullName, d.proto.mapEntry)) =
    [(b!"q.M", false), (b!"q.M.TableEntry", true), (b!"q.N", false)]) &&
  decide (p.enums.map (·.proto.numbers) = [[3, 1]]) &&
  decide (∀ d ∈ p.messages, d.proto.mapEntry = false →
    unknownMode metaSetup p d false = .bytes ∧ unknownMode metaSetup p d true = .bytes) &&
  (match p.messages[0]?, p.messages[1]?, p.messages[2]? with
    | some d, some e, some f => sameEntries (entries metaSetup p d) metaEntries &&
        decide ((listed p e.fields).map (fun x => (cppType x, metaOptions metaSetup p e x)) =
          [((.string, .void), {}), ((.msg 2, .void), {})]) &&
        sameEntries (entries metaSetup p f) [.field 1 .optional (.float, .void) { presence := true } none]
    | _, _, _ => false)

/-- C96, C97, C98: the file meets the hypotheses; the positions of its messages show that no class contains
itself; these are its classes. -/
theorem metaFile_ok : ∃ p, initPool id [metaFile] = .ok p ∧ Accepted p ∧ DefaultsGiven metaSetup p ∧ Supported metaSetup p ∧
    DefaultsTyped metaSetup p (fun _ => true) ∧ (∀ id sub, Nests metaSetup p id sub → 3 - sub < 3 - id) ∧
    p.messages.map (·.fullName) = [b!"q.M", b!"q.M.TableEntry", b!"q.N"] ∧
    ∀ fresh w, classes metaSetup p fresh (fun _ => true) w = metaClasses fresh := by
  have h : poolWith [metaFile] metaFileTest = true := by decide +kernel
  obtain ⟨p, hp, ht⟩ := poolWith_spec h
  simp only [metaFileTest, Bool.and_eq_true, decide_eq_true_eq] at ht
  obtain ⟨⟨⟨⟨⟨⟨⟨⟨t1, t2⟩, t3⟩, t4⟩, t5⟩, t6⟩, t7⟩, t8⟩, t9⟩ := ht
  have hreach : ∀ full, Reached metaSetup.explicit full := fun full => ⟨b!".", by simp [metaSetup], ⟨full, rfl⟩⟩
  refine ⟨p, hp, accepted_of_test t1, ?_, ⟨?_, ?_, ?_, ?_, ?_⟩, ?_, ?_, ?_, ?_⟩
  · intro d hd f hf hs
    obtain ⟨a, b, c⟩ := t2 d hd f hf hs
    exact ⟨a, by omega, by omega, c⟩
  · exact fun d hd f hf => (t3 d hd f hf).1
  · exact fun d hd f hf _ => (t3 d hd f hf).2.1
  · exact fun d hd f hf _ _ _ ho _ _ _ h14 _ => absurd h14 ((t3 d hd f hf).2.2 ho)
  · exact fun d _ f _ _ _ _ _ => hreach _
  · exact fun _ d hd _ => .inl (t4 d hd)
  · intro d hd f hf v hv sc hsc
    have h9 := (t2 d hd f hf (by rw [hv]; rfl)).2.1
    have hv' : v = .bytes b!"abc" := by
      simp only [metaSetup] at hv
      split at hv
      · exact (Option.some.inj hv).symm
      · cases hv
    rcases hsc with hsc | ⟨h14, _⟩
    · cases sc with
      | str u => exact ⟨_, hv', fun _ => rfl⟩
      | varint ty => cases ty <;> simp only [scalarRule] at hsc <;> omega
      | bool => simp only [scalarRule] at hsc; omega
      | enum c => exact hsc.elim
      | fixed32 _ => simp only [scalarRule] at hsc; omega
      | fixed64 _ => simp only [scalarRule] at hsc; omega
    · omega
  · rintro id sub ⟨d, m, f, hd, hm, hf, hn, ht, hl⟩
    exact t5 (d, id) (List.mem_zipIdx_iff_getElem?.2 hd) (m, sub) (List.mem_zipIdx_iff_getElem?.2 hm) f hf hn ht
      (hl.elim .inl fun h => .inr h.1)
  · have := congrArg (List.map (·.1)) t6
    rw [List.map_map] at this
    exact this
  · intro fresh w
    have hunk : ∀ d ∈ p.messages, d.proto.mapEntry = false → unknownMode metaSetup p d w = .bytes := by
      intro d hd he
      cases w
      · exact (t8 d hd he).1
      · exact (t8 d hd he).2
    split at t9
    · next d e f hd he hf =>
      simp only [Bool.and_eq_true, decide_eq_true_eq] at t9
      obtain ⟨⟨u1, u2⟩, u3⟩ := t9
      have hat : ∀ {i : Nat} {d : MsgDesc}, p.messages[i]? = some d →
          [(b!"q.M", false), (b!"q.M.TableEntry", true), (b!"q.N", false)][i]? = some (d.fullName, d.proto.mapEntry) := by
        intro i d hd
        rw [← t6, List.getElem?_map, hd]
        rfl
      have m0 : d.proto.mapEntry = false := (Prod.mk.inj (Option.some.inj (hat hd))).2.symm
      have m1 : e.proto.mapEntry = true := (Prod.mk.inj (Option.some.inj (hat he))).2.symm
      have m2 : f.proto.mapEntry = false := (Prod.mk.inj (Option.some.inj (hat hf))).2.symm
      have hen : enumNumbers p 0 = [3, 1] := by
        unfold enumNumbers
        match hpe : p.enums with
        | [] => rw [hpe] at t7; cases t7
        | en :: rest =>
          rw [hpe] at t7
          have : en.proto.numbers = [3, 1] := (List.cons.inj t7).1
          simp only [List.getElem?_cons_zero, this]
          rfl
      unfold classes metaClasses
      congr 1
      funext id
      match id with
      | 0 =>
        simp only [hd]
        unfold classOf
        rw [if_neg (by simp [m0]), sameEntries_eq u1, hunk d (List.mem_of_getElem? hd) m0]
        have : valueKind p (.enum 0, .void) { presence := true, closed := true } = .scalar (.enum (some [3, 1])) := by
          simp only [valueKind, if_true, hen]
        simp only [metaEntries, List.map_cons, List.map_nil, Meta.slotOf, this]
        rfl
      | 1 =>
        simp only [he]
        unfold classOf entryMsg
        rw [if_pos m1]
        obtain ⟨k, l, hl, ek, hm⟩ := List.map_eq_cons_iff.1 u2
        obtain ⟨v, l', hl', ev, hm'⟩ := List.map_eq_cons_iff.1 hm
        rw [hl, hl']
        simp only
        rw [(Prod.mk.inj ek).1, (Prod.mk.inj ek).2, (Prod.mk.inj ev).1, (Prod.mk.inj ev).2]
        rfl
      | 2 =>
        simp only [hf]
        unfold classOf
        rw [if_neg (by simp [m2]), sameEntries_eq u3, hunk f (List.mem_of_getElem? hf) m2]
        rfl
      | n + 3 =>
        have : p.messages[n + 3]? = none := by
          have hlen : p.messages.length = 3 := by simpa using congrArg List.length t6
          exact List.getElem?_eq_none (by omega)
        simp only [this]
    · cases t9

/-- An object of the class of `q.N`: `x` is 1.0. -/
def metaPart : Msg := ⟨[[(0, .num 0x3f800000)]], []⟩

/-- An object of the class of `q.M`. -/
def metaObject : Msg :=
  ⟨[[(0, .num 7)], [(0, .bytes b!"x")], [(0, .num 1)], [(0, .num 5), (0, .num (-1))], [(1, .msg metaPart)], [], [],
    [(0, .msg metaPart)]], []⟩

theorem metaObject_ok (fresh : Nat → Msg) : objLike false (metaClasses fresh) (2 + 1) 0 metaObject := by
  have part : ∀ n, objLike false (metaClasses fresh) (n + 1) 2 metaPart := by
    intro n
    unfold objLike
    refine ⟨rfl, ?_, .inl rfl⟩
    intro x hx
    have : x = (.field 1 (.scalar (.fixed32 true)) .optional, [(0, .num 0x3f800000)]) := by
      simpa [metaPart, metaClasses] using hx
    subst this
    exact .inr ⟨_, rfl, _, rfl, by decide⟩
  unfold objLike
  refine ⟨rfl, ?_, .inl rfl⟩
  intro x hx
  simp only [metaClasses, metaObject, List.zip_cons_cons, List.zip_nil_right, List.mem_cons, List.not_mem_nil, or_false] at hx
  rcases hx with rfl | rfl | rfl | rfl | rfl | rfl | rfl | rfl
  · exact ⟨_, rfl, _, rfl, by unfold inRange; decide⟩
  · exact .inr ⟨_, rfl, _, rfl, fun h => by cases h⟩
  · refine .inr ⟨_, rfl, _, rfl, by unfold inRange; decide, ?_⟩
    intro vs hvs
    rw [← Option.some.inj hvs]
    decide
  · intro e he
    simp only [List.mem_cons, List.not_mem_nil, or_false] at he
    rcases he with rfl | rfl
    · exact ⟨rfl, _, rfl, by unfold inRange; decide⟩
    · exact ⟨rfl, _, rfl, by unfold inRange; decide⟩
  · exact .inr ⟨1, _, _, _, rfl, rfl, _, rfl, part 1⟩
  · exact ⟨fun e he => by simp at he, List.Pairwise.nil⟩
  · exact .inl rfl
  · exact ⟨_, rfl, _, rfl, part 1⟩

/-- C98: an object of the class is written, and read back. -/
example (old : Msg) (buf : List Byte) : ∃ p fresh out, initPool id [metaFile] = .ok p ∧
    Fresh metaSetup p (fun _ => true) fresh ∧
    writeBinpb (classes metaSetup p fresh (fun _ => true) true) 2 true 0 metaObject buf = .ok (none, out) ∧
    readBinpb (classes metaSetup p fresh (fun _ => true) false) 2 0 old out = .ok metaObject := by
  obtain ⟨p, hp, hA, hD, hS, hT, hr, _, hc⟩ := metaFile_ok
  obtain ⟨fresh, hF⟩ := C98_objects metaSetup id_perm hp hA (fun _ => true) _ hr
  have hlen : (wire (metaClasses fresh) 2 0 metaObject).length = 25 := by with_unfolding_all rfl
  have := C98_round_trip_partial metaSetup id_perm hp hA hD hS (fun _ => true) hT rfl fresh hF 2 0 metaObject old buf
    (by rw [hc]; exact metaObject_ok fresh) (by rw [hc, hlen]; decide)
  obtain ⟨h1, _, h3⟩ := this
  obtain ⟨out, ho⟩ := h3 (by rw [hc, hlen]; decide)
  refine ⟨p, fresh, out, hp, hF, ho, ?_⟩
  rw [h1 out ho, hc]
  with_unfolding_all rfl

/-! ## Where the classes differ from the rules -/

/-- The message of a file with one message. -/
theorem one_message {fs : List FileProto} {S : Setup} {es : List Entry} {ur uw : UnkMode} {q : Pool → Bool}
    (h : poolWith fs (fun p => metaTest S es ur uw p && q p) = true) :
    ∃ p, initPool id fs = .ok p ∧ Accepted p ∧ (∃ d, p.messages[0]? = some d ∧ p.messages = [d] ∧ d.proto.mapEntry = false) ∧
      (∀ fresh utf8, classes S p fresh utf8 false = single S p es fresh utf8 false ur) ∧
      (∀ fresh utf8, classes S p fresh utf8 true = single S p es fresh utf8 true uw) ∧ q p = true := by
  obtain ⟨p, hp, ht⟩ := poolWith_spec h
  simp only [Bool.and_eq_true] at ht
  obtain ⟨hA, d, hd, he, h1, h2⟩ := metaTest_spec ht.1
  exact ⟨p, hp, hA, ⟨d, by rw [hd]; rfl, hd, he⟩, h1, h2, ht.2⟩

/-- C96: a proto3 list with `packed = false` is packed all the same. -/
theorem C96_unpacked : ∃ p d f, initPool id [unpackedFile] = .ok p ∧ Accepted p ∧ p.messages[0]? = some d ∧
    d.proto.fields = [f] ∧ (∀ fresh utf8 w, ((classes {} p fresh utf8 w).schema 0).slots =
      [.field 1 (.scalar (.varint .i32)) (.repeated true)]) ∧
    ¬ CardRule p f (under d.features f.features) (.repeated true) := by
  have h : poolWith [unpackedFile] (fun p => metaTest {} [.field 1 .repeated (.i32, .vi64) { packed := true } none] .none .none p &&
      decide (∀ d ∈ p.messages, d.proto.fields.length = 1 ∧ ∀ f ∈ d.proto.fields, f.packed = some false)) = true := by
    decide +kernel
  obtain ⟨p, hp, hA, ⟨d, hd0, hd, _⟩, h1, h2, hq⟩ := one_message h
  have hq := of_decide_eq_true hq d (by rw [hd]; simp)
  obtain ⟨f, hf⟩ := List.length_eq_one_iff.1 hq.1
  refine ⟨p, d, f, hp, hA, hd0, hf, ?_, ?_⟩
  · intro fresh utf8 w
    cases w
    · rw [h1]; rfl
    · rw [h2]; rfl
  · rintro ⟨_, _, h⟩
    have := (h.1 rfl).2.2
    rw [hq.2 f (by rw [hf]; simp)] at this
    cases this

/-- C96: a map field in a file with `DELIMITED` messages is read and written as a list of groups. -/
theorem C96_delimited_map : ∃ p d f, initPool id [delimitedFile] = .ok p ∧ Accepted p ∧ p.messages[0]? = some d ∧
    d.proto.fields = [f] ∧ (∀ fresh utf8 w, ((classes {} p fresh utf8 w).schema 0).slots = [.field 1 (.group 1) (.map true)]) ∧
    ¬ KindRule p d f (under d.features f.features) (.group 1) := by
  have h : poolWith [delimitedFile] (fun p => acceptedTest p && (match p.messages[0]?, p.messages[1]? with
      | some d, some e => !d.proto.mapEntry && sameEntries (entries {} p d) [.field 1 .map (.msg 1, .void) { group := true } none] &&
          decide (d.proto.fields.length = 1 ∧ ∀ f ∈ d.proto.fields, f.type = 11) && e.proto.mapEntry
      | _, _ => false)) = true := by
    decide +kernel
  obtain ⟨p, hp, ht⟩ := poolWith_spec h
  simp only [Bool.and_eq_true] at ht
  obtain ⟨t1, t2⟩ := ht
  split at t2
  · next d e hd he =>
    simp only [Bool.and_eq_true, decide_eq_true_eq, Bool.not_eq_true'] at t2
    obtain ⟨⟨⟨u1, u2⟩, u3⟩, u4⟩ := t2
    obtain ⟨f, hf⟩ := List.length_eq_one_iff.1 u3.1
    refine ⟨p, d, f, hp, accepted_of_test t1, hd, hf, ?_, ?_⟩
    · intro fresh utf8 w
      rw [schema_at _ _ _ _ _ hd]
      unfold classOf
      rw [if_neg (by simp [u1]), sameEntries_eq u2]
      rfl
    · rintro ⟨m, hm, _, h⟩
      rw [he] at hm
      cases hm
      have := u3.2 f (by rw [hf]; simp)
      rcases h with h | ⟨_, _, h, _⟩
      · omega
      · exact h u4
  · cases t2

/-- An edition 2023 file with a closed enum and a field that has `features.field_presence =
LEGACY_REQUIRED`. -/
def requiredEnumFile : FileProto :=
  { oneMessage { name := [], syntaxName := b!"editions", edition := 1000 }
      [{ name := b!"k", number := 1, label := 1, type := 14, typeName := b!".K", jsonName := b!"k",
         features := some { presence := 3 } }] with
    enums := [{ name := b!"K", values := [(b!"K_3", 3), (b!"K_1", 1)], features := some { enumType := 2 } }] }

/-- C96: a closed enum in a field that is required by a feature is not validated. -/
theorem C96_required_enum : ∃ p d f, initPool id [requiredEnumFile] = .ok p ∧ Accepted p ∧ p.messages[0]? = some d ∧
    d.proto.fields = [f] ∧ (∀ fresh utf8 w, fieldKind ((classes {} p fresh utf8 w).schema 0) 1 = some (.scalar (.enum none))) ∧
    ¬ KindRule p d f (under d.features f.features) (.scalar (.enum none)) := by
  have h : poolWith [requiredEnumFile] (fun p => metaTest {}
      [.field 1 (.plain (some (.num 3))) (.enum 0, .void) { presence := true } (some (.num 3))] .none .none p &&
      decide ((∀ d ∈ p.messages, d.proto.fields.length = 1) ∧ ∀ e ∈ p.enums, e.features.enumType = 2)) = true := by
    decide +kernel
  obtain ⟨p, hp, hA, ⟨d, hd0, hd, _⟩, h1, h2, hq⟩ := one_message h
  have hq := of_decide_eq_true hq
  obtain ⟨f, hf⟩ := List.length_eq_one_iff.1 (hq.1 d (by rw [hd]; simp))
  refine ⟨p, d, f, hp, hA, hd0, hf, ?_, ?_⟩
  · intro fresh utf8 w
    cases w
    · rw [h1]; rfl
    · rw [h2]; rfl
  · rintro ⟨_, e, he, _, h⟩
    rw [if_pos (hq.2 e he)] at h
    obtain ⟨l, hl, _⟩ := h
    cases hl

/-- A proto2 file with a required field of an enum whose numbers are 3 and 1. -/
def requiredProto2File : FileProto :=
  { oneMessage { name := [] } [{ name := b!"k", number := 1, label := 2, type := 14, typeName := b!".K", jsonName := b!"k" }] with
    enums := [{ name := b!"K", values := [(b!"K_3", 3), (b!"K_1", 1)] }] }

/-- C96: a required field of a closed enum starts out as zero, which need not be one of its numbers: the class
writes a default-constructed object, and does not read the field back. -/
theorem C96_required_initial : ∃ p, initPool id [requiredProto2File] = .ok p ∧ Accepted p ∧ ∀ fresh utf8,
    ((classes {} p fresh utf8 false).schema 0).default = ⟨[[(0, .num 0)]], []⟩ ∧
    writeBinpb (classes {} p fresh utf8 true) 0 true 0 ⟨[[(0, .num 0)]], []⟩ [] = .ok (none, [8, 0]) ∧
    fieldKind ((classes {} p fresh utf8 false).schema 0) 1 = some (.scalar (.enum (some [3, 1]))) := by
  have h : poolWith [requiredProto2File] (fun p => metaTest {}
      [.field 1 (.plain none) (.enum 0, .void) { presence := true, closed := true } none] .none .none p &&
      decide (p.enums.map (·.proto.numbers) = [[3, 1]])) = true := by
    decide +kernel
  obtain ⟨p, hp, hA, ⟨d, hd0, hd, _⟩, h1, h2, hq⟩ := one_message h
  have hq := of_decide_eq_true hq
  have hen : enumNumbers p 0 = [3, 1] := by
    unfold enumNumbers
    match hpe : p.enums with
    | [] => rw [hpe] at hq; cases hq
    | en :: rest =>
      rw [hpe] at hq
      have : en.proto.numbers = [3, 1] := (List.cons.inj hq).1
      simp only [List.getElem?_cons_zero, this]
      rfl
  have hk : valueKind p (.enum 0, .void) { presence := true, closed := true } = .scalar (.enum (some [3, 1])) := by
    simp only [valueKind, if_true, hen]
  have hs : ∀ fresh utf8 w, single {} p [.field 1 (.plain none) (.enum 0, .void) { presence := true, closed := true } none] fresh utf8 w .none
      = { schema := fun id => match id with
            | 0 => { slots := [.field 1 (.scalar (.enum (some [3, 1]))) (.always (.num 0))], unk := .none }
            | _ + 1 => { slots := [], unk := .none }
          utf8 := utf8 } := by
    intro fresh utf8 w
    unfold single
    congr 1
    funext id
    cases id with
    | zero => simp only [List.map_cons, List.map_nil, Meta.slotOf, hk]; rfl
    | succ n => rfl
  refine ⟨p, hp, hA, fun fresh utf8 => ?_⟩
  rw [h1, h2, hs, hs]
  exact ⟨rfl, by with_unfolding_all rfl, rfl⟩

/-- A proto2 file with two optional numbers, `a` and `ab`. -/
def prefixFile : FileProto :=
  oneMessage { name := [] }
    [{ name := b!"a", number := 1, label := 1, type := 5, jsonName := b!"a" },
     { name := b!"ab", number := 2, label := 1, type := 5, jsonName := b!"ab" }]

/-- C97: with `proto2_explicit_presence=.M.a` the field `ab` has presence as well. -/
theorem C97_prefix : ∃ p d, initPool id [prefixFile] = .ok p ∧ Accepted p ∧ p.messages[0]? = some d ∧
    d.proto.fields.map (fun f => d.fullName ++ b!"." ++ f.name) = [b!"M.a", b!"M.ab"] ∧
    (∀ fresh utf8 w, ((classes { explicit := [b!".M.a"] } p fresh utf8 w).schema 0).slots =
      [.field 1 (.scalar (.varint .i32)) .optional, .field 2 (.scalar (.varint .i32)) .optional]) ∧
    Within b!".M.a" b!"M.a" ∧ ¬ Within b!".M.a" b!"M.ab" := by
  have h : poolWith [prefixFile] (fun p => metaTest { explicit := [b!".M.a"] }
      [.field 1 .optional (.i32, .vi64) { presence := true } none, .field 2 .optional (.i32, .vi64) { presence := true } none]
      .none .none p && decide (∀ d ∈ p.messages, d.proto.fields.map (fun f => d.fullName ++ b!"." ++ f.name) = [b!"M.a", b!"M.ab"])) =
      true := by
    decide +kernel
  obtain ⟨p, hp, hA, ⟨d, hd0, hd, _⟩, h1, h2, hq⟩ := one_message h
  refine ⟨p, d, hp, hA, hd0, of_decide_eq_true hq d (by rw [hd]; simp), ?_, .inr (.inl rfl), ?_⟩
  · intro fresh utf8 w
    cases w
    · rw [h1]; rfl
    · rw [h2]; rfl
  · unfold Within
    decide

/-- A proto2 file with `optional string s = 1 [default = "abc"]`. -/
def stringDefaultFile : FileProto :=
  oneMessage { name := [] } [{ name := b!"s", number := 1, label := 1, type := 9, jsonName := b!"s" }]

/-- The option does not name it. -/
def stringDefaultSetup : Setup :=
  { explicit := [b!".X"], dflt := fun _ _ => some (.bytes b!"abc") }

/-- C97: a string field that has a default value and loses its presence is omitted if it has that value, but
starts out empty: the string `abc` is written as nothing, and read back as the empty string. -/
theorem C97_string_default : ∃ p, initPool id [stringDefaultFile] = .ok p ∧ Accepted p ∧ DefaultsGiven stringDefaultSetup p ∧
    ∀ fresh utf8,
      writeBinpb (classes stringDefaultSetup p fresh utf8 true) 0 true 0 ⟨[[(0, .bytes b!"abc")]], []⟩ [] = .ok (none, []) ∧
      readBinpb (classes stringDefaultSetup p fresh utf8 false) 0 0 ⟨[], []⟩ [] = .ok ⟨[[(0, .bytes [])]], []⟩ := by
  have h : poolWith [stringDefaultFile] (fun p => metaTest stringDefaultSetup
      [.field 1 (.plain none) (.string, .void) {} (some (.bytes b!"abc"))] .none .none p &&
      decide (∀ d ∈ p.messages, ∀ f ∈ d.proto.fields, hasPresence False f (under d.features f.features) ∧ f.type ≠ 10 ∧
        f.type ≠ 11 ∧ d.proto.mapEntry = false)) = true := by
    decide +kernel
  obtain ⟨p, hp, hA, ⟨d, hd0, hd, _⟩, h1, h2, hq⟩ := one_message h
  have hq := of_decide_eq_true hq
  refine ⟨p, hp, hA, fun d hd f hf _ => hq d hd f hf, fun fresh utf8 => ?_⟩
  rw [h1, h2]
  exact ⟨by with_unfolding_all rfl, by with_unfolding_all rfl⟩

/-- A file with a message without fields. -/
def emptyFile : FileProto := oneMessage { name := [] } []

/-- C99: a message without fields keeps the unknown fields that it reads, and does not write them. -/
theorem C99_dropped : ∃ p, initPool id [emptyFile] = .ok p ∧ Accepted p ∧ ∀ fresh utf8,
    readBinpb (classes { keeps := true } p fresh utf8 false) 0 0 ⟨[], []⟩ [8, 1] =
      .ok ⟨[], [(0, [8, 1])]⟩ ∧
    writeBinpb (classes { keeps := true } p fresh utf8 true) 0 true 0
      (seen ((classes { keeps := true } p fresh utf8 true).schema 0) ⟨[], [(0, [8, 1])]⟩) [] = .ok (none, []) := by
  have h : poolWith [emptyFile] (fun p => metaTest { keeps := true } [] .bytes .none p && true) = true := by
    decide +kernel
  obtain ⟨p, hp, hA, ⟨d, hd0, hd, _⟩, h1, h2, _⟩ := one_message h
  refine ⟨p, hp, hA, fun fresh utf8 => ?_⟩
  rw [h1, h2]
  exact ⟨by with_unfolding_all rfl, by with_unfolding_all rfl⟩

end HppProto.Props
