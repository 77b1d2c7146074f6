import Verif.Proofs.HeaderCheck

/-!
# Generated headers: C83, C84, C85

The theorems are about all schemas a compiler delivers (`Schema.Ok`), of any size, any depth of nesting and with any cycles
between messages.
-/

namespace HppProto.Props
open HppProto Gen Schema

/-- C83: writing a header ends, whatever the schema. It ends with a header, or by following a null pointer. -/
theorem C83_ends (P : Schema) (hP : P.Ok) (file : Nat) : (∃ es, P.header file = .ok es) ∨ P.header file = .ub := by
  obtain ⟨st, h, hf⟩ := resolve_spec hP
  unfold header
  rw [h]
  simp only [okBind]
  rcases emitFile_spec hP st hf file with ⟨h1, _⟩ | ⟨es, st', h1, _⟩
  · rw [h1]; exact .inr rfl
  · rw [h1]; exact .inl ⟨es, rfl⟩

/-- C83, for schemas whose extensions outside of messages have no type that is part of a cycle: there is a header, and every
message of the file that is no map entry is defined in it once; nothing else is. Missing: such extensions (see
`C83_no_header`). -/
theorem C83_defines_partial (P : Schema) (hP : P.Ok) (hE : P.ExtensionsSettled) (file : Nat) : ∃ es, P.header file = .ok es ∧
    (∀ m < P.messages.length, (P.msg m).file = file → (P.msg m).entry = false → defined es m = 1) ∧
    ∀ m, ¬ (m < P.messages.length ∧ (P.msg m).file = file ∧ (P.msg m).entry = false) → defined es m = 0 := by
  obtain ⟨st, h, hf⟩ := resolve_spec hP
  unfold header
  rw [h]
  simp only [okBind]
  rcases emitFile_spec hP st hf file with ⟨_, h2⟩ | ⟨es, st', h1, a, b, _⟩
  · exact absurd hE h2
  · rw [h1]; exact ⟨es, rfl, a, b⟩

/-- C84: in the header, every type is declared before it is used, if
* extensions outside of messages have no type that is part of a cycle,
* a message with repeated fields or maps of messages that are part of a cycle needs no further message that is,
* a message mentions only the messages it shares a cycle with, not what is nested in them,
* no message mentions one it is nested in.
Missing: other schemas (see `C84_undeclared_repeated`, `C84_undeclared_nested`, `C84_undeclared_enclosing`). -/
theorem C84_declared_partial (P : Schema) (hP : P.Ok) (hE : P.ExtensionsSettled) (hL : P.Lone) (hD : P.Direct)
    (hN : P.NotEnclosing) (file : Nat) : ∃ es, P.header file = .ok es ∧ P.DeclaredFirst es := by
  obtain ⟨st, h, hf⟩ := resolve_spec hP
  unfold header
  rw [h]
  simp only [okBind]
  rcases emitFile_spec hP st hf file with ⟨_, h2⟩ | ⟨es, st', h1, _, _, c⟩
  · exact absurd hE h2
  · rw [h1]; exact ⟨es, rfl, declared_first hP hD hN (c hL)⟩

/-- C85: no object contains one of its own type, if
* extensions outside of messages have no type that is part of a cycle,
* a message with repeated fields or maps of messages that are part of a cycle needs no further message that is,
* singular fields through which messages are part of a cycle are in no oneof, and in the messages of the cycle themselves.
Missing: other schemas (see `C85_infinite_optional`, `C85_infinite_oneof`, `C85_infinite_repeated`,
`C85_infinite_nested`). -/
theorem C85_finite_partial (P : Schema) (hP : P.Ok) (hE : P.ExtensionsSettled) (hL : P.Lone) (hS : P.Plain) (file : Nat) :
    ∃ es, P.header file = .ok es ∧ Finite es := by
  obtain ⟨st, h, hf⟩ := resolve_spec hP
  unfold header
  rw [h]
  simp only [okBind]
  rcases emitFile_spec hP st hf file with ⟨_, h2⟩ | ⟨es, st', h1, a, b, c⟩
  · exact absurd hE h2
  · rw [h1]; exact ⟨es, rfl, finite_of hP hS (c hL) a b⟩

/-! ## Examples -/

/-- A top-level message of package `p`. -/
def topMessage (n : Name) : Message := ⟨[b!"p", n], 0, none, false, false⟩

/-- A singular field. -/
def oneField (m t : Nat) : Field := ⟨some m, false, .message t, false, .no⟩

/-- A repeated field. -/
def manyField (m t : Nat) : Field := ⟨some m, false, .message t, true, .no⟩

/-- The package is `p`. -/
def inPackage (messages : List Message) (fields : List Field) : Schema := ⟨fun _ => [b!"p"], messages, fields, id⟩

/-- `X { Y y } Y { Z z } Z { X x } A { repeated B b; D d; map<…, D> m } B { A a; D.N n; D.Kind k } D { message N; enum Kind; N n }`.
Two cycles. -/
def headerExample : Schema := inPackage
  [topMessage b!"X", topMessage b!"Y", topMessage b!"Z", topMessage b!"A", topMessage b!"B", { topMessage b!"D" with hasEnums := true },
    ⟨[b!"p", b!"D", b!"N"], 0, some 5, false, false⟩, ⟨[b!"p", b!"A", b!"MEntry"], 0, some 3, true, false⟩]
  [oneField 0 1, oneField 1 2, oneField 2 0, manyField 3 4, oneField 3 5, manyField 3 7, ⟨some 7, false, .scalar, false, .no⟩,
    oneField 7 5, oneField 4 3, oneField 4 6, ⟨some 4, false, .enum (some 5) [b!"p", b!"D", b!"Kind"], false, .no⟩, oneField 5 6]

theorem headerExample_ok : headerExample.Ok := ok_of_check (by decide +kernel)

theorem headerExample_settled : ∀ y, ¬ headerExample.Settled y → y < 5 := by
  intro y h
  by_cases hy : y < 5
  · exact hy
  · refine absurd (settled_of ?_) h
    intro z hz
    have l : headerExample.needList y = [] := by
      by_cases h8 : y < 8
      · exact (by decide +kernel : ∀ y < 8, ¬ y < 5 → headerExample.needList y = []) y h8 hy
      · refine List.filter_eq_nil_iff.mpr ?_
        intro v _
        have : ¬ headerExample.Siblings y v := fun h => h8 h.1
        simp [this]
    rw [l] at hz
    cases hz

theorem headerExample_extensions : headerExample.ExtensionsSettled := by
  intro i hi h
  exact absurd h ((by decide +kernel : ∀ i < 12, ¬ (headerExample.field i).parent = none) i hi)

theorem headerExample_lone : headerExample.Lone := by
  intro m d hd h e he hne
  have hd := headerExample_settled d hd
  have fields : ∀ i < 12, ∀ d, d < 5 → (headerExample.field i).kind = .message d →
      (i = 3 ∧ d = 4) ∨ ((headerExample.field i).repeated = false ∧ (headerExample.field i).parent ≠ some 7) := by
    intro i hi d hd h
    have := (by decide +kernel : ∀ i < 12, ∀ d < 5, (!decide ((headerExample.field i).kind = .message d) || decide (i = 3 ∧ d = 4) ||
      decide ((headerExample.field i).repeated = false ∧ (headerExample.field i).parent ≠ some 7)) = true) i hi d hd
    simpa [h] using this
  have entries : ∀ e < 8, (headerExample.msg e).entry = true → e = 7 := by decide +kernel
  have hm : m = 3 ∧ d = 4 := by
    rcases h with ⟨⟨i, hi, h1, h2⟩, h3⟩ | ⟨x, hx, h1, h2, i, hi, h3, h4⟩
    · rcases fields i hi d hd h2 with ⟨rfl, rfl⟩ | ⟨h, _⟩
      · have : (headerExample.field 3).parent = some 3 := by decide +kernel
        rw [this] at h1
        cases h1
        exact ⟨rfl, rfl⟩
      · rw [h3 i hi h1 h2] at h; cases h
    · have := entries x hx h1
      subst this
      rcases fields i hi d hd h4 with ⟨rfl, rfl⟩ | ⟨_, h⟩
      · have : (headerExample.field 3).parent = some 3 := by decide +kernel
        rw [this] at h3; cases h3
      · exact absurd h3 h
  obtain ⟨rfl, rfl⟩ := hm
  have := need_mem he
  have l : headerExample.needList 3 = [4, 5] := by decide +kernel
  rw [l] at this
  simp at this
  rcases this with rfl | rfl
  · exact absurd rfl hne
  · exact Classical.byContradiction fun h => by have := headerExample_settled 5 h; omega

theorem headerExample_direct : headerExample.Direct := by
  intro x y m k _ hy _ hm ht
  exact (by decide +kernel : ∀ y < 5, ∀ mk ∈ headerExample.mentionList, headerExample.typeInCheck y mk.2 = true → mk.2 = .message y)
    y (headerExample_settled y hy) (m, k) (mention_mem hm) (typeIn_check ht)

theorem headerExample_enclosing : headerExample.NotEnclosing := by
  intro m t hm hw
  have := (by decide +kernel : ∀ mk ∈ headerExample.mentionList, (match mk.2 with
    | .message t => !(headerExample.msg t).path.isPrefixOf (headerExample.msg mk.1).path || decide (t = mk.1)
    | _ => true) = true) _ (mention_mem hm)
  simpa [List.isPrefixOf_iff_prefix.mpr hw] using this

theorem headerExample_plain : headerExample.Plain := by
  intro i hi m t h1 h2 h3
  have one : ∀ i < 12, (headerExample.field i).oneof = .no := by decide +kernel
  refine ⟨fun _ => one i hi, ?_⟩
  intro x y hs hx hy hset
  have hy5 := headerExample_settled y hset
  have := (by decide +kernel : ∀ i < 12, ∀ x < 8, ∀ y < 5, (match (headerExample.field i).parent, (headerExample.field i).kind with
    | some m, .message t => (headerExample.field i).repeated || !(headerExample.msg x).path.isPrefixOf (headerExample.msg m).path ||
        !(headerExample.msg y).path.isPrefixOf (headerExample.msg t).path || decide (m = x ∧ t = y)
    | _, _ => true) = true) i hi x hs.1 y hy5
  rw [h1, h2] at this
  simp only [h3, List.isPrefixOf_iff_prefix.mpr hx, List.isPrefixOf_iff_prefix.mpr hy, Bool.not_true, Bool.false_or, decide_eq_true_eq] at this
  exact ⟨this.1, this.2, one i hi⟩

/-- The hypotheses of the theorems are met by a schema with two cycles, a map, a nested message and an enum. -/
example : ∃ es, headerExample.header 0 = .ok es ∧ headerExample.DeclaredFirst es :=
  C84_declared_partial _ headerExample_ok headerExample_extensions headerExample_lone headerExample_direct headerExample_enclosing 0

example : ∃ es, headerExample.header 0 = .ok es ∧ Finite es :=
  C85_finite_partial _ headerExample_ok headerExample_extensions headerExample_lone headerExample_plain 0

/-- Its header. -/
example : headerExample.header 0 = .ok
    [.enums 5, .define 6 [], .define 5 [⟨11, .message 6, true⟩],
      .fwd 4, .define 3 [⟨3, .message 4, false⟩, ⟨4, .message 5, true⟩, ⟨7, .message 5, false⟩],
      .define 4 [⟨8, .message 3, false⟩, ⟨9, .message 6, true⟩, ⟨10, .enum (some 5) [b!"p", b!"D", b!"Kind"], true⟩],
      .fwd 0, .define 2 [⟨2, .message 0, false⟩], .define 1 [⟨1, .message 2, false⟩], .define 0 [⟨0, .message 1, false⟩]] := by
  decide +kernel

/-! ## Where it goes wrong -/

/-- `A { B b } B { A a } extend … { A x }`, the extension outside of messages: the generator follows a null pointer. -/
def outsideExample : Schema := inPackage [topMessage b!"A", topMessage b!"B"]
  [oneField 0 1, oneField 1 0, ⟨none, true, .message 0, false, .no⟩]

/-- C83 does not hold for all schemas. -/
theorem C83_no_header : outsideExample.Ok ∧ outsideExample.header 0 = .ub := ⟨ok_of_check (by decide +kernel), by decide +kernel⟩

/-- `B { A a } A { repeated B b; C c } C { A a }`. -/
def repeatedExample : Schema := inPackage [topMessage b!"B", topMessage b!"A", topMessage b!"C"]
  [oneField 0 1, manyField 1 0, oneField 1 2, oneField 2 1]

/-- `Z { B.N n } B { message N {} Z z }`. -/
def nestedExample : Schema := inPackage [topMessage b!"Z", topMessage b!"B", ⟨[b!"p", b!"B", b!"N"], 0, some 1, false, false⟩]
  [oneField 0 2, oneField 1 0]

/-- `P { message N { P p } N n }`. -/
def enclosingExample : Schema := inPackage [topMessage b!"P", ⟨[b!"p", b!"P", b!"N"], 0, some 0, false, false⟩]
  [oneField 0 1, oneField 1 0]

/-- A header is written in which a type is not declared before it is used. -/
def Undeclared (P : Schema) : Prop := P.Ok ∧ P.ExtensionsSettled ∧ ∃ es, P.header 0 = .ok es ∧ ¬ P.DeclaredFirst es

theorem no_extensions {P : Schema} (h : ∀ i < P.fields.length, (P.field i).parent ≠ none) : P.ExtensionsSettled :=
  fun i hi e => absurd e (h i hi)

/-- `A`, with a repeated field of its cycle, is written first; `C` is not declared. -/
theorem C84_undeclared_repeated : Undeclared repeatedExample := by
  refine ⟨ok_of_check (by decide +kernel), no_extensions (by decide +kernel),
    [.fwd 0, .define 1 [⟨1, .message 0, false⟩, ⟨2, .message 2, true⟩], .define 2 [⟨3, .message 1, true⟩], .define 0 [⟨0, .message 1, true⟩]],
    by decide +kernel, ?_⟩
  intro h
  rcases h [.fwd 0] 1 _ _ rfl ⟨2, .message 2, true⟩ (by simp) with h | h | h | ⟨us, h⟩
  · exact absurd rfl h
  · cases h
  · simp at h
  · simp at h

/-- `B` is declared ahead of `Z`, which uses `B.N`. -/
theorem C84_undeclared_nested : Undeclared nestedExample := by
  refine ⟨ok_of_check (by decide +kernel), no_extensions (by decide +kernel),
    [.fwd 1, .define 0 [⟨0, .message 2, true⟩], .define 2 [], .define 1 [⟨1, .message 0, false⟩]], by decide +kernel, ?_⟩
  intro h
  rcases h [.fwd 1] 0 _ _ rfl ⟨0, .message 2, true⟩ (by simp) with h | h | h | ⟨us, h⟩
  · exact absurd rfl h
  · cases h
  · simp at h
  · simp at h

/-- Nothing declares `P` ahead of `P.N`. -/
theorem C84_undeclared_enclosing : Undeclared enclosingExample := by
  refine ⟨ok_of_check (by decide +kernel), no_extensions (by decide +kernel),
    [.define 1 [⟨1, .message 0, false⟩], .define 0 [⟨0, .message 1, true⟩]], by decide +kernel, ?_⟩
  intro h
  rcases h [] 1 _ _ rfl ⟨1, .message 0, false⟩ (by simp) with h | h | h | ⟨us, h⟩
  · exact absurd rfl h
  · cases h
  · simp at h
  · simp at h

/-- A header is written in which an object contains one of its own type. -/
def Infinite (P : Schema) : Prop := P.Ok ∧ P.ExtensionsSettled ∧ ∃ es, P.header 0 = .ok es ∧ ¬ Finite es

/-- `A { optional A a }` of proto3: the field is the only member of a oneof. -/
def optionalExample : Schema := inPackage [topMessage b!"A"] [{ oneField 0 0 with oneof := .alone }]

/-- `A { oneof o { A a; int32 n } }`. -/
def oneofExample : Schema := inPackage [topMessage b!"A"] [{ oneField 0 0 with oneof := .member }, ⟨some 0, false, .scalar, false, .member⟩]

/-- `A { B.N n } B { message N { A a } }`. -/
def nestedCycleExample : Schema := inPackage [topMessage b!"A", topMessage b!"B", ⟨[b!"p", b!"B", b!"N"], 0, some 1, false, false⟩]
  [oneField 0 2, oneField 2 0]

/-- `std::optional<A>` in `A`. -/
theorem C85_infinite_optional : Infinite optionalExample := by
  refine ⟨ok_of_check (by decide +kernel), no_extensions (by decide +kernel), [.define 0 [⟨0, .message 0, true⟩]], by decide +kernel, ?_⟩
  intro h
  exact h 0 (.one ⟨_, List.mem_cons_self, _, List.mem_cons_self, rfl, rfl⟩)

/-- `A` as an alternative of `std::variant` in `A`. -/
theorem C85_infinite_oneof : Infinite oneofExample := by
  refine ⟨ok_of_check (by decide +kernel), no_extensions (by decide +kernel), [.define 0 [⟨0, .message 0, true⟩]], by decide +kernel, ?_⟩
  intro h
  exact h 0 (.one ⟨_, List.mem_cons_self, _, List.mem_cons_self, rfl, rfl⟩)

/-- `C` in `A` and `A` in `C`. -/
theorem C85_infinite_repeated : Infinite repeatedExample := by
  refine ⟨ok_of_check (by decide +kernel), no_extensions (by decide +kernel),
    [.fwd 0, .define 1 [⟨1, .message 0, false⟩, ⟨2, .message 2, true⟩], .define 2 [⟨3, .message 1, true⟩], .define 0 [⟨0, .message 1, true⟩]],
    by decide +kernel, ?_⟩
  intro h
  exact h 1 (.more (k := 2)
    ⟨[⟨1, .message 0, false⟩, ⟨2, .message 2, true⟩], by decide +kernel, ⟨2, .message 2, true⟩, by decide +kernel, rfl, rfl⟩
    (.one ⟨[⟨3, .message 1, true⟩], by decide +kernel, _, List.mem_cons_self, rfl, rfl⟩))

/-- `A` in `B.N` and `B.N` in `A`. -/
theorem C85_infinite_nested : Infinite nestedCycleExample := by
  refine ⟨ok_of_check (by decide +kernel), no_extensions (by decide +kernel),
    [.fwd 0, .define 2 [⟨1, .message 0, true⟩], .define 1 [], .define 0 [⟨0, .message 2, true⟩]], by decide +kernel, ?_⟩
  intro h
  exact h 0 (.more (k := 2) ⟨[⟨0, .message 2, true⟩], by decide +kernel, _, List.mem_cons_self, rfl, rfl⟩
    (.one ⟨[⟨1, .message 0, true⟩], by decide +kernel, _, List.mem_cons_self, rfl, rfl⟩))

end HppProto.Props
