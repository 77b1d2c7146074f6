import Verif.Proofs.NamesLegal

/-!
# C89: names in generated headers

For schemas of any size. `accepted` is the code's decision to generate headers, `decls` what the headers then declare.
-/

namespace HppProto.Props
open HppProto Names

/-- C89: no two declarations in the headers of accepted schemas contradict each other.
Missing: two oneofs whose names differ only by an underscore at the end (`C89_oneofs`), a method called `_methods` (`C89_methods`), a
namespace that lies inside something another file declares (`C89_package_in_message`, `C89_package_is_class`,
`C89_package_is_function`): such schemas are accepted and their headers do not compile. -/
theorem C89_distinct_partial (fs : List FileDecl) (h : accepted fs = true) (ho : ∀ f ∈ fs, allOneofsApart f.messages = true)
    (hm : ∀ f ∈ fs, noMethods f = true) (hn : namespacesApart fs = true) : Compatible (decls fs) := by
  unfold accepted at h
  rw [Bool.and_eq_true] at h
  exact pool_pair h.2 ho hm hn

/-- C89: every name that headers of accepted schemas declare is an identifier, no keyword and not kept for the implementation. -/
theorem C89_legal (fs : List FileDecl) (h : accepted fs = true) : ∀ d ∈ decls fs, Legal d.name := legal_pool h

/-- C89: nothing in the global namespace has a name that begins with an underscore. -/
theorem C89_global (fs : List FileDecl) (h : accepted fs = true) : ∀ d ∈ decls fs, d.outermost.head? ≠ some 0x5f := by
  unfold accepted at h
  rw [Bool.and_eq_true] at h
  intro d hd
  have := outermost_pool h.2 d hd
  unfold startsLow at this
  simpa using this

/-! ## Examples -/

/-- A field outside of oneofs. -/
def plain (n : Name) : FieldDecl := ⟨n, none⟩

/-- A message with fields only. -/
def simpleMsg (n : Name) (fields : List FieldDecl) (oneofs : List Name := []) : MsgDecl := ⟨n, false, false, fields, oneofs, [], []⟩

/-- A file with messages only. -/
def simpleFile (package : List Name) (ms : Msgs) : FileDecl := ⟨[], package, ms, [], [], []⟩

/-- Messages that have nested messages, enums, oneofs, a map and extensions, and whose names need escaping. -/
def richMessages : Msgs :=
  .cons ⟨b!"Order", false, true, [plain b!"class", plain b!"items", ⟨b!"card", some 0⟩, ⟨b!"cash", some 0⟩, ⟨b!"note", some 1⟩],
      [b!"payment", b!"_note"], [b!"x"], [⟨b!"State", [b!"NEW", b!"new", b!"default"]⟩]⟩
    (.cons ⟨b!"ItemsEntry", true, false, [plain b!"key", plain b!"value"], [], [], []⟩ .nil
      (.cons (simpleMsg b!"Line" [plain b!"State"]) (.cons (simpleMsg b!"Order" [plain b!"pb_meta"]) .nil .nil) .nil))
    (.cons (simpleMsg b!"Line" []) .nil .nil)

/-- Two files in one namespace and one in a namespace inside it. -/
def richFiles : List FileDecl :=
  [⟨[], [b!"shop"], richMessages, [⟨b!"State", [b!"NEW", b!"OLD"]⟩], [b!"y"], [⟨b!"Orders", [b!"Get", b!"Put"]⟩, ⟨b!"None", []⟩]⟩,
    simpleFile [b!"shop"] (.cons (simpleMsg b!"Item" [plain b!"Line"]) .nil .nil),
    ⟨[b!"shop"], [b!"admin"], .cons (simpleMsg b!"Order" [plain b!"id"]) .nil .nil, [], [], []⟩]

example : accepted richFiles = true ∧ (∀ f ∈ richFiles, allOneofsApart f.messages = true) ∧ (∀ f ∈ richFiles, noMethods f = true) ∧
    namespacesApart richFiles = true ∧ (decls richFiles).length = 107 := by decide +kernel

/-- The checks are needed: a field called like its message is refused, its header would declare the name twice. -/
example : accepted [simpleFile [b!"p"] (.cons (simpleMsg b!"M" [plain b!"M"]) .nil .nil)] = false ∧
    ¬ Compatible (decls [simpleFile [b!"p"] (.cons (simpleMsg b!"M" [plain b!"M"]) .nil .nil)]) := by decide +kernel

/-! ## What is missing -/

/-- Two oneofs `a` and `a_`. -/
def twinOneofs : List FileDecl :=
  [simpleFile [b!"p"] (.cons (simpleMsg b!"M" [⟨b!"w", some 0⟩, ⟨b!"x", some 0⟩, ⟨b!"y", some 1⟩, ⟨b!"z", some 1⟩] [b!"a", b!"a_"]) .nil .nil)]

/-- The helpers of both oneofs are called `a_oneof_case` and `a_oneof_numbers`. -/
theorem C89_oneofs : accepted twinOneofs = true ∧ ¬ Compatible (decls twinOneofs) := by decide +kernel

/-- A method called `_methods`. -/
def methodMethods : List FileDecl := [⟨[], [b!"p"], .nil, [], [], [⟨b!"S", [b!"_methods"]⟩]⟩]

/-- The list of methods of the service has the same name. -/
theorem C89_methods : accepted methodMethods = true ∧ ¬ Compatible (decls methodMethods) := by decide +kernel

/-- Message `Y` in message `p.X`, and message `Y` in package `p.X_`. -/
def packageInMessage : List FileDecl :=
  [simpleFile [b!"p"] (.cons (simpleMsg b!"X" []) (.cons (simpleMsg b!"Y" []) .nil .nil) .nil),
    simpleFile [b!"p", b!"X_"] (.cons (simpleMsg b!"Y" []) .nil .nil)]

/-- Both are `p::X_::Y`. -/
theorem C89_package_in_message : accepted packageInMessage = true ∧ ¬ Compatible (decls packageInMessage) := by decide +kernel

/-- Message `class` in package `p`, and package `p.class_`. -/
def packageIsClass : List FileDecl :=
  [simpleFile [b!"p"] (.cons (simpleMsg b!"class" []) .nil .nil), simpleFile [b!"p", b!"class_"] (.cons (simpleMsg b!"Y" []) .nil .nil)]

/-- `p::class_` is a class and a namespace. -/
theorem C89_package_is_class : accepted packageIsClass = true ∧ ¬ Compatible (decls packageIsClass) := by decide +kernel

/-- Packages `p` and `p.pb_meta`. -/
def packageIsFunction : List FileDecl :=
  [simpleFile [b!"p"] (.cons (simpleMsg b!"X" []) .nil .nil), simpleFile [b!"p", b!"pb_meta"] (.cons (simpleMsg b!"Y" []) .nil .nil)]

/-- `p::pb_meta` is a function and a namespace. -/
theorem C89_package_is_function : accepted packageIsFunction = true ∧ ¬ Compatible (decls packageIsFunction) := by decide +kernel

/-- `optional string Name` in proto3: `protoc` adds a oneof `_Name`. -/
def optionalUpper : List FileDecl := [simpleFile [b!"p"] (.cons (simpleMsg b!"M" [⟨b!"Name", some 0⟩] [b!"_Name"]) .nil .nil)]

/-- Not every schema is accepted whose headers would be fine: the oneof of a proto3 `optional` field is never declared, but its name is
checked, so that an optional field whose name begins with an upper case letter is refused. -/
theorem C89_optional_refused : accepted optionalUpper = false ∧ Compatible (decls optionalUpper) ∧
    (∀ d ∈ decls optionalUpper, d.name ∈ [b!"p", b!"M", b!"message_type_url", b!"pb_meta", b!"Traits", b!"hpp_proto_traits_type",
      b!"unknown_fields_", b!"Name"]) := by decide +kernel

end HppProto.Props
