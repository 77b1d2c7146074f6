import Verif.Spec.PoolSchema

/-!
# What a descriptor pool must show of the files it was made from

A pool is a set of tables of descriptors with links between them, a link being a position in a
table.  `Mirrors` says that whoever follows the links sees the declarations of the files: the same
things, in the same order, with the names, features, files and parents they should have.
-/

namespace HppProto.Spec

/-- What a descriptor of a message or an enum shows: the definition it stands for, its full name,
its features, the file it is in and the message it is nested in, if any. -/
structure Shown (α : Type) where
  proto : α
  name : List Byte
  features : Features
  file : Nat
  parent : Option Nat

/-- What the descriptor of a message shows. -/
def shownMessage (d : MsgDesc) : Shown MsgProto := ⟨d.proto, d.fullName, d.features, d.file, d.parent⟩

/-- What the descriptor of an enum shows. -/
def shownEnum (d : EnumDesc) : Shown EnumProto := ⟨d.proto, d.fullName, d.features, d.file, d.parent⟩

/-- What the descriptor of a field shows, apart from its type and flags: its definition, the message
it is declared in, if any, and its features. -/
def shownField (d : FieldDesc) : FieldProto × Option Nat × Features := (d.proto, d.parent, d.features)

/-- What the links `ids` into a table show. -/
def follow {α β : Type} (table : List α) (shown : α → β) (ids : List Nat) : List (Option β) :=
  ids.map fun j => table[j]?.map shown

/-- The pool `p` shows the declarations of `fs`. -/
structure Mirrors (p : Pool) (fs : List FileProto) : Prop where
  /-- The files, in the order given, with their features. -/
  files : p.files.map (fun d => (d.proto, d.features)) = fs.map fun f => (f, fileFeatures f)
  /-- The imports of a file. -/
  imports : ∀ d ∈ p.files,
    follow p.files (·.proto.name) d.deps = d.proto.deps.map some
  /-- The messages of a file. -/
  file_messages : ∀ (k : Nat) (d : FileDesc), p.files[k]? = some d →
    follow p.messages shownMessage d.messages = d.proto.messages.map fun m =>
      some ⟨m, qualified d.proto.package m.name, under d.features m.features, k, none⟩
  /-- The enums of a file. -/
  file_enums : ∀ (k : Nat) (d : FileDesc), p.files[k]? = some d →
    follow p.enums shownEnum d.enums = d.proto.enums.map fun e =>
      some ⟨e, qualified d.proto.package e.name, under d.features e.features, k, none⟩
  /-- The extensions of a file. -/
  file_extensions : ∀ (k : Nat) (d : FileDesc), p.files[k]? = some d →
    follow p.fields shownField d.extensions = d.proto.extensions.map fun f =>
      some (f, none, under d.features f.features)
  /-- The messages in a message. -/
  nested : ∀ (i : Nat) (d : MsgDesc), p.messages[i]? = some d →
    follow p.messages shownMessage d.messages = d.proto.nested.map fun m =>
      some ⟨m, nestedName d.fullName m.name, under d.features m.features, d.file, some i⟩
  /-- The enums in a message. -/
  enums : ∀ (i : Nat) (d : MsgDesc), p.messages[i]? = some d →
    follow p.enums shownEnum d.enums = d.proto.enums.map fun e =>
      some ⟨e, nestedName d.fullName e.name, under d.features e.features, d.file, some i⟩
  /-- The oneofs of a message. -/
  oneofs : ∀ (i : Nat) (d : MsgDesc), p.messages[i]? = some d →
    follow p.oneofs (fun o => (o.proto, o.features)) d.oneofs = d.proto.oneofs.map fun o =>
      some (o, under d.features o.features)
  /-- The fields of a message. -/
  fields : ∀ (i : Nat) (d : MsgDesc), p.messages[i]? = some d →
    follow p.fields shownField d.fields = d.proto.fields.map fun f =>
      some (f, some i, under d.features f.features)
  /-- The extensions in a message. -/
  extensions : ∀ (i : Nat) (d : MsgDesc), p.messages[i]? = some d →
    follow p.fields shownField d.extensions = d.proto.extensions.map fun f =>
      some (f, some i, under d.features f.features)
  /-- The members of the oneof number `k` of a message are the fields of the message that name it,
  in order. -/
  members : ∀ (i : Nat) (d : MsgDesc), p.messages[i]? = some d → ∀ k o : Nat, d.oneofs[k]? = some o →
    p.oneofs[o]?.map (·.fields) = some (d.fields.filter fun j =>
      p.fields[j]?.bind (·.proto.oneofIndex) = some (k : Int))
  /-- The table of messages holds every message of the files once and nothing else. -/
  all_messages : (p.messages.map fun d => (⟨d.fullName, d.proto, d.features⟩ : Decl)).Perm (decls fs)
  /-- The table of enums holds every enum of the files once and nothing else. -/
  all_enums : (p.enums.map fun d => (⟨d.fullName, d.proto, d.features⟩ : EnumDecl)).Perm
    (enumDecls fs)
  /-- The table of fields holds every field and extension of the files once and nothing else. -/
  all_fields : (p.fields.map (·.proto)).Perm (fieldDecls fs)

/-- What the type of a field must be: the message or enum that its definition names, and nothing for
other types; and the message that an extension extends. -/
structure Resolved (p : Pool) (f : FieldDesc) : Prop where
  message : f.proto.type = 10 ∨ f.proto.type = 11 → ∃ i d, f.type = some i ∧
    p.messages[i]? = some d ∧ f.proto.typeName = b!"." ++ d.fullName ∧
    f.bits.mapEntry = d.proto.mapEntry
  enum : f.proto.type = 14 → ∃ i d, f.type = some i ∧
    p.enums[i]? = some d ∧ f.proto.typeName = b!"." ++ d.fullName
  other : f.proto.type ≠ 10 → f.proto.type ≠ 11 → f.bits.mapEntry = false
  scalar : f.proto.type ≠ 10 → f.proto.type ≠ 11 → f.proto.type ≠ 14 → f.type = none
  extendee : f.proto.extendee ≠ [] → ∃ i d, f.extendee = some i ∧
    p.messages[i]? = some d ∧ f.proto.extendee = b!"." ++ d.fullName
  no_extendee : f.proto.extendee = [] → f.extendee = none

/-! ## The flags of a field

The rules of protobuf (`has_presence`, `is_packed`, `requires_utf8_validation` and the treatment of
`DELIMITED` in its `descriptor.cc`), on a definition `f` with resolved features `F`.  The numbers
are those of `descriptor.proto`. -/

/-- A field that must be set. -/
def required (f : FieldProto) (F : Features) : Prop := f.label = 2 ∨ F.presence = 3

/-- A field that knows whether it is set: it is not repeated, and it is a message, an extension,
the member of a oneof, `optional` in proto3, required, or its presence is not implicit. -/
def hasPresence (extension : Prop) (f : FieldProto) (F : Features) : Prop :=
  f.label ≠ 3 ∧ (f.type = 10 ∨ f.type = 11 ∨ extension ∨ f.oneofIndex.isSome ∨ f.proto3Optional ∨
    required f F ∨ F.presence ≠ 2)

/-- A type whose repeated fields can be packed: not strings, groups, messages or bytes. -/
def packable (f : FieldProto) : Prop := ¬ (f.type = 9 ∨ f.type = 10 ∨ f.type = 11 ∨ f.type = 12)

/-- A repeated field whose elements are written in one record: what the option `packed` says, or
else the feature. -/
def packed (f : FieldProto) (F : Features) : Prop :=
  f.label = 3 ∧ packable f ∧
    (match f.packed with
      | some b => b = true
      | none => F.repeatedEncoding = 1)

/-- A string that must be UTF-8. -/
def checksUtf8 (f : FieldProto) (F : Features) : Prop := f.type = 9 ∧ F.utf8 = 2

/-- A message field that is written between a start tag and an end tag: groups, and messages with
the feature `DELIMITED`, but never a map. -/
def delimited (isMap : Prop) (f : FieldProto) (F : Features) : Prop :=
  f.type = 10 ∨ (f.type = 11 ∧ F.messageEncoding = 2 ∧ ¬ isMap)

end HppProto.Spec
