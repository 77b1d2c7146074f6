import Verif.Model.Plugin

/-!
# What the answer of `protoc-gen-hpp` must be

Of the model, this uses the data types for files, headers and options only, and what C++ makes of
dotted names (C55).
-/

namespace HppProto.Spec.Plugin
open HppProto.Plugin

/-! ## Options -/

/-- The text `key=value`, or `key` alone. -/
structure Setting where
  key : List Byte
  value : Option (List Byte)

/-- The value that counts if there is none is empty. -/
def Setting.given (s : Setting) : List Byte := s.value.getD []

/-- Keys contain neither `,` nor `=`, values no `,`. -/
def Setting.ok (s : Setting) : Prop :=
  (∀ b ∈ s.key, b ≠ 0x2c ∧ b ≠ 0x3d) ∧ ∀ v, s.value = some v → ∀ b ∈ v, b ≠ 0x2c

/-- The text of one setting. -/
def Setting.text (s : Setting) : List Byte :=
  match s.value with
  | none => s.key
  | some v => s.key ++ b!"=" ++ v

/-- The texts of the settings, separated by commas. -/
def parameter : List Setting → List Byte
  | [] => []
  | [s] => s.text
  | s :: ss => s.text ++ b!"," ++ parameter ss

/-- The values given for a key, in order. -/
def valuesOf (key : List Byte) (ss : List Setting) : List (List Byte) :=
  (ss.filter fun s => decide (s.key = key)).map (·.given)

/-- The options that settings ask for: of a key given more than once the last value counts, except
that `proto2_explicit_presence` collects its values (`.` if there is none). -/
def Asked (ss : List Setting) (o : Options) : Prop :=
  o.directory = (valuesOf b!"directory_prefix" ss).getLast?.getD [] ∧
  o.nsPrefix = (valuesOf b!"namespace_prefix" ss).getLast?.bind Lex.fromDotted ∧
  o.explicit = (if valuesOf b!"proto2_explicit_presence" ss = [] then [b!"."] else valuesOf b!"proto2_explicit_presence" ss) ∧
  (o.preserve = true ↔ ∃ v, (valuesOf b!"preserve_proto_field_names" ss).getLast? = some v ∧ (v = b!"true" ∨ v = [])) ∧
  o.exported = (valuesOf b!"export_request" ss).getLast?

/-! ## Headers -/

/-- Which headers a file has. -/
def hasPart (f : File) : Part → Prop
  | .msg | .pb | .glz => True
  | .desc => f.messages ≠ []
  | .service => f.services ≠ []

instance (f : File) : DecidablePred (hasPart f) := fun part => by
  cases part <;> unfold hasPart <;> infer_instance

/-- The headers of a file in the order of the response. -/
def parts (f : File) : List Part := [Part.msg, .pb, .glz, .desc, .service].filter fun q => decide (hasPart f q)

/-- The word that stands in the name of a header. -/
def word : Part → List Byte
  | .msg => b!"msg"
  | .pb => b!"pb"
  | .glz => b!"glz"
  | .desc => b!"desc"
  | .service => b!"service"

/-- `dir/file.proto` has the headers `dir/file.msg.hpp` and so on. -/
def IsHeader (name : List Byte) (part : Part) (path : List Byte) : Prop :=
  ∃ stem, name = stem ++ b!".proto" ∧ path = stem ++ b!"." ++ word part ++ b!".hpp"

/-- The include directive for a path. -/
def directive (dir path : List Byte) : List Byte :=
  b!"\"" ++ (if dir = [] then path else dir ++ b!"/" ++ path) ++ b!"\""

/-! ## Imports -/

/-- One file imports another. -/
def Uses (files : List File) (f g : File) : Prop := f ∈ files ∧ g ∈ files ∧ g.name ∈ f.deps

/-- A file is used by another, directly or not, or is that file. -/
def Reaches (files : List File) (f g : File) : Prop := f = g ∨ Relation.TransGen (Uses files) f g

/-! ## Services -/

/-- The kinds of gRPC: unary, client streaming, server streaming, bidirectional. -/
def kindOf (client server : Bool) : Nat :=
  match client, server with
  | false, false => 0
  | true, false => 1
  | false, true => 2
  | true, true => 3

/-- The path by which gRPC calls a method: `/package.Service/Method`. -/
def callPath (f : File) (s : Service) (m : Method) : List Byte :=
  b!"/" ++ (if f.package = [] then [] else f.package ++ b!".") ++ s.name ++ b!"/" ++ m.name

end HppProto.Spec.Plugin
