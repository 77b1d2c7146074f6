import Verif.Model.Pool

/-!
# What a set of `.proto` files declares

A description of a set of files that does not mention the pool: which messages and enums it
declares under which names and with which features, and when it is well formed.  Only the data types
of `Verif/Model/Pool.lean` are used, none of its functions.
-/

namespace HppProto.Spec

/-- The features of a declaration inside a scope with features `outer`, when the declaration sets
the features `own`: each feature is the one it sets, or else that of the scope. -/
def under (outer : Features) (own : Option Features) : Features :=
  let pick (f : Features → Int) : Int :=
    match own with
    | none => f outer
    | some o => if f o = 0 then f outer else f o
  { presence := pick (·.presence), enumType := pick (·.enumType),
    repeatedEncoding := pick (·.repeatedEncoding), utf8 := pick (·.utf8),
    messageEncoding := pick (·.messageEncoding), jsonFormat := pick (·.jsonFormat),
    naming := pick (·.naming), visibility := pick (·.visibility) }

/-- The language a file is written in. -/
inductive Language where
  | proto2 | proto3 | edition2023 | edition2024
deriving DecidableEq, Repr

/-- The language of a file: `syntax = "proto3"`, an edition that is known, or proto2, which a file
need not say.  Files that say `editions` may name proto2 and proto3 as editions too. -/
def language (f : FileProto) : Option Language :=
  if f.syntaxName = b!"proto3" then some .proto3
  else if f.syntaxName = b!"editions" then
    if f.edition = 900 then some .proto2
    else if f.edition = 999 then some .proto3
    else if f.edition = 1000 then some .edition2023
    else if f.edition = 1001 then some .edition2024
    else none
  else some .proto2

/-- The features that hold when nothing is said (the numbers are those of the enumerators in
`descriptor.proto`): presence is explicit except in proto3, enums are open except in proto2,
repeated numbers are packed and strings are checked to be UTF-8 except in proto2, messages are
length-prefixed. -/
def Language.features : Language → Features
  | .proto2 => { presence := 1, enumType := 2, repeatedEncoding := 2, utf8 := 3,
                 messageEncoding := 1, jsonFormat := 2, naming := 2, visibility := 1 }
  | .proto3 => { presence := 2, enumType := 1, repeatedEncoding := 1, utf8 := 2,
                 messageEncoding := 1, jsonFormat := 1, naming := 2, visibility := 1 }
  | .edition2023 => { presence := 1, enumType := 1, repeatedEncoding := 1, utf8 := 2,
                      messageEncoding := 1, jsonFormat := 1, naming := 2, visibility := 1 }
  | .edition2024 => { presence := 1, enumType := 1, repeatedEncoding := 1, utf8 := 2,
                      messageEncoding := 1, jsonFormat := 1, naming := 1, visibility := 2 }

/-- The features of a file. -/
def fileFeatures (f : FileProto) : Features :=
  under (((language f).map Language.features).getD {}) f.features

/-- A name inside a scope: `scope.name`, or just the name if the scope is empty. -/
def qualified (scope name : List Byte) : List Byte :=
  if scope = [] then name else scope ++ b!"." ++ name

/-- A name inside a message: `outer.name`. -/
def nestedName (outer name : List Byte) : List Byte := outer ++ b!"." ++ name

/-- A message that a set of files declares: its full name, its definition, its features. -/
structure Decl where
  name : List Byte
  msg : MsgProto
  features : Features

/-- An enum that a set of files declares. -/
structure EnumDecl where
  name : List Byte
  enum : EnumProto
  features : Features

mutual
/-- The message with full name `name` and features `F`, followed by the messages inside it. -/
def declsOf (name : List Byte) (F : Features) : MsgProto → List Decl
  | .mk n fields nested enums oneofs extensions mapEntry features =>
    ⟨name, .mk n fields nested enums oneofs extensions mapEntry features, F⟩
      :: nestedDecls name F nested

/-- The messages among `ms`, nested in the message `name` with features `F`, and all inside. -/
def nestedDecls (name : List Byte) (F : Features) : List MsgProto → List Decl
  | [] => []
  | m :: ms =>
    declsOf (nestedName name m.name) (under F m.features) m ++ nestedDecls name F ms
end

/-- The messages of a file. -/
def fileDecls (f : FileProto) : List Decl :=
  f.messages.flatMap fun m =>
    declsOf (qualified f.package m.name) (under (fileFeatures f) m.features) m

/-- The enums of a message. -/
def Decl.enums (d : Decl) : List EnumDecl :=
  d.msg.enums.map fun e => ⟨nestedName d.name e.name, e, under d.features e.features⟩

/-- The enums of a file: those inside its messages and those of the file itself. -/
def fileEnums (f : FileProto) : List EnumDecl :=
  (fileDecls f).flatMap Decl.enums ++
    f.enums.map fun e => ⟨qualified f.package e.name, e, under (fileFeatures f) e.features⟩

/-- The messages that a set of files declares. -/
def decls (fs : List FileProto) : List Decl := fs.flatMap fileDecls

/-- The enums that a set of files declares. -/
def enumDecls (fs : List FileProto) : List EnumDecl := fs.flatMap fileEnums

/-- The fields and extensions that a set of files declares. -/
def fieldDecls (fs : List FileProto) : List FieldProto :=
  (decls fs).flatMap (fun d => d.msg.fields ++ d.msg.extensions) ++ fs.flatMap (·.extensions)

/-! ## Well-formed sets -/

/-- Cuts a name at its underscores. -/
def words : List Byte → List (List Byte)
  | [] => [[]]
  | c :: cs =>
    if c = 95#8 then [] :: words cs
    else match words cs with
      | [] => [[c]]
      | w :: ws => (c :: w) :: ws

/-- A word with its first letter in upper case. -/
def capitalized : List Byte → List Byte
  | [] => []
  | c :: cs => (if 97 ≤ c.toNat ∧ c.toNat ≤ 122 then BitVec.ofNat 8 (c.toNat - 32) else c) :: cs

/-- `lowerCamelCase` of a name: the words between underscores, all but the first capitalized. -/
def lowerCamel (name : List Byte) : List Byte :=
  match words name with
  | [] => []
  | w :: ws => w ++ ws.flatMap capitalized

/-- A field whose JSON name is not the one that follows from its name. -/
def CustomJson (f : FieldProto) : Prop := f.jsonName ≠ [] ∧ f.jsonName ≠ lowerCamel f.name

/-- A field or extension taken by itself: a number that protobuf allows, a known type and label. -/
structure FieldOk (f : FieldProto) : Prop where
  number : 1 ≤ f.number ∧ f.number ≤ 536870911 ∧ ¬ (19000 ≤ f.number ∧ f.number ≤ 19999)
  type : 1 ≤ f.type ∧ f.type ≤ 18
  label : 1 ≤ f.label ∧ f.label ≤ 3

/-- The fields of a message taken together. -/
structure FieldsOk (m : MsgProto) : Prop where
  each : ∀ f ∈ m.fields, FieldOk f
  numbers : (m.fields.map (·.number)).Nodup
  names : (m.fields.map (·.name)).Nodup
  /-- A custom JSON name is neither the name nor the JSON name of another field. -/
  json : ∀ f ∈ m.fields, ∀ g ∈ m.fields, f.number ≠ g.number → CustomJson f →
    f.jsonName ≠ g.name ∧ f.jsonName ≠ g.jsonName
  /-- A member of a oneof is not repeated and names a oneof of the message. -/
  members : ∀ f ∈ m.fields, ∀ k, f.oneofIndex = some k →
    f.label ≠ 3 ∧ 0 ≤ k ∧ k < m.oneofs.length
  /-- Every oneof has a member. -/
  oneofs : ∀ k : Nat, k < m.oneofs.length → ∃ f ∈ m.fields, f.oneofIndex = some (k : Int)

/-- The file called `a` imports the file called `b`. -/
def Imports (fs : List FileProto) (a b : List Byte) : Prop :=
  ∃ f ∈ fs, f.name = a ∧ b ∈ f.deps

/-- The types that a field names are declared: `.name` with the full name of a message or enum. -/
structure TypesOk (fs : List FileProto) (f : FieldProto) : Prop where
  message : f.type = 10 ∨ f.type = 11 → ∃ d ∈ decls fs, f.typeName = b!"." ++ d.name
  enum : f.type = 14 → ∃ d ∈ enumDecls fs, f.typeName = b!"." ++ d.name
  extendee : f.extendee ≠ [] → ∃ d ∈ decls fs, f.extendee = b!"." ++ d.name

/-- The sets of files that make sense. -/
structure WellFormed (fs : List FileProto) : Prop where
  file_named : ∀ f ∈ fs, f.name ≠ []
  file_names : (fs.map (·.name)).Nodup
  languages : ∀ f ∈ fs, (language f).isSome
  imports : ∀ f ∈ fs, ∀ d ∈ f.deps, ∃ g ∈ fs, g.name = d
  acyclic : ¬ ∃ a, Relation.TransGen (Imports fs) a a
  message_named : ∀ d ∈ decls fs, d.msg.name ≠ []
  message_names : ((decls fs).map (·.name)).Nodup
  enum_named : ∀ d ∈ enumDecls fs, d.enum.name ≠ []
  enum_names : ((enumDecls fs).map (·.name)).Nodup
  fields : ∀ d ∈ decls fs, FieldsOk d.msg
  extensions : ∀ d ∈ decls fs, ∀ f ∈ d.msg.extensions, FieldOk f
  file_extensions : ∀ f ∈ fs, ∀ x ∈ f.extensions, FieldOk x
  types : ∀ f ∈ fieldDecls fs, TypesOk fs f

end HppProto.Spec
