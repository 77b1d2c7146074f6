import Verif.Model.Lexical

/-!
# Names in generated headers

Model of the name checks of `src/protoc-plugin/hpp_generator.cpp` (74-109, 850-1080) and of the declarations that the generator
writes (1344-1523, 1612-1634, 1735-1788, 2374-2430). Names are byte lists.

Simplifications: of the diagnostics it is modelled only whether there are any (`has_error`); a namespace is the list of its segments
(the code joins them with `::`); the order of the declarations is not modelled; a schema is a tree of declarations with their
names, the types of fields are left out.
-/

namespace HppProto.Names
open HppProto Lex

/-- A name. -/
abbrev Name := List Byte

/-- `EnumDescriptorProto`. -/
structure EnumDecl where
  name : Name
  values : List Name
  deriving DecidableEq, Repr

/-- `FieldDescriptorProto`: `oneof_index`. -/
structure FieldDecl where
  name : Name
  oneof : Option Nat
  deriving DecidableEq, Repr

/-- `DescriptorProto` without its nested messages: `entry` is the option `map_entry`, `extensible` if there are extension ranges. -/
structure MsgDecl where
  name : Name
  entry : Bool
  extensible : Bool
  fields : List FieldDecl
  oneofs : List Name
  extensions : List Name
  enums : List EnumDecl
  deriving DecidableEq, Repr

/-- Messages in a row, each with the messages nested in it. -/
inductive Msgs where
  | nil
  | cons (m : MsgDecl) (kids rest : Msgs)
  deriving DecidableEq, Repr

/-- `ServiceDescriptorProto`. -/
structure ServiceDecl where
  name : Name
  methods : List Name
  deriving DecidableEq, Repr

/-- `FileDescriptorProto`: `namespacePrefix` is the option `namespace_prefix` of the file or the generator, in segments, as is the
package. -/
structure FileDecl where
  namespacePrefix : List Name
  package : List Name
  messages : Msgs
  enums : List EnumDecl
  extensions : List Name
  services : List ServiceDecl
  deriving DecidableEq, Repr

/-- The messages of a row. -/
def Msgs.heads : Msgs → List MsgDecl
  | .nil => []
  | .cons m _ rest => m :: rest.heads

/-! ## Identifiers -/

/-- `cpp_identifier` (`hpp_generator.cpp` 74-81): the result. -/
def cppName (n : Name) : Name := (fromProto n).getD b!"invalid_cpp_identifier"

/-- `cpp_identifier` (`hpp_generator.cpp` 74-81): is nothing recorded? -/
def nameOk (n : Name) : Bool := (fromProto n).isSome

/-- `is_generator_namespace_helper` (`hpp_generator.cpp` 83-85). -/
def isHelper (n : Name) : Bool := n == b!"message_type_url" || n == b!"pb_meta" || n == b!"is_valid"

/-- `namespace_declaration_identifier` (`hpp_generator.cpp` 87-95): is nothing recorded? -/
def serviceNameOk (n : Name) : Bool := nameOk n && !isHelper (cppName n)

/-- The names refused by `service_method_identifier` (`hpp_generator.cpp` 100-101). -/
def isMethodMember (n : Name) : Bool :=
  n == b!"method_name" || n == b!"client_streaming" || n == b!"server_streaming" || n == b!"rpc_type" || n == b!"ordinal" ||
    n == b!"request_t" || n == b!"response_t"

/-- `service_method_identifier` (`hpp_generator.cpp` 97-107): is nothing recorded? -/
def methodNameOk (n : Name) : Bool := nameOk n && !isMethodMember (cppName n)

/-- `nested_scope_name` (`hpp_generator.cpp` 444, 975). -/
def nestedScope (n : Name) : Name := disambiguatedWith (cppName n) (cppName b!"nested")

/-- `case_name` (`hpp_generator.cpp` 424, 931). -/
def caseName (n : Name) : Name := appendWord (cppName n) (cppName b!"oneof_case")

/-- `number_table_name` (`hpp_generator.cpp` 425, 932). -/
def tableName (n : Name) : Name := appendWord (cppName n) (cppName b!"oneof_numbers")

/-- `cpp_namespace` (`hpp_generator.cpp` 464-470), in segments. -/
def FileDecl.ns (f : FileDecl) : List Name := (f.namespacePrefix ++ f.package).map cppName

/-- `well_known_codecs` (`hpp_generator.cpp` 499-502). -/
def wellKnown (full : Name) : Bool :=
  full == b!"google.protobuf.Duration" || full == b!"google.protobuf.Timestamp" || full == b!"google.protobuf.FieldMask"

/-- The full name of what is declared in a scope. -/
def fullName (scope n : Name) : Name := if scope = [] then n else scope ++ [0x2e] ++ n

/-- The package as a name. -/
def dotted : List Name → Name
  | [] => []
  | [s] => s
  | s :: ss => s ++ [0x2e] ++ dotted ss

/-! ## Checks -/

/-- `emplace` into a `std::map` for each key in turn: was every key new? -/
def allNew {α : Type} [DecidableEq α] (seen : List α) : List α → Bool
  | [] => true
  | a :: l => a ∉ seen && allNew (a :: seen) l

/-- `is_fixed_message_member` (`hpp_generator.cpp` 860-869). -/
def isFixedMember (full : Name) (extensible : Bool) (n : Name) : Bool :=
  if n == b!"Traits" || n == b!"hpp_proto_traits_type" || n == b!"unknown_fields_" then true
  else if n == b!"glaze_reflect" && wellKnown full then true
  else extensible && (n == b!"get_extension" || n == b!"set_extension" || n == b!"has_extension")

/-- `is_fixed_extension_member` (`hpp_generator.cpp` 871-873). -/
def isFixedExtMember (n : Name) : Bool := n == b!"Traits" || n == b!"value_type" || n == b!"value" || n == b!"pb_meta"

/-- `validate_enum_values` (`hpp_generator.cpp` 875-886): is nothing recorded? -/
def enumOk (e : EnumDecl) : Bool := e.values.all nameOk && allNew [] (e.values.map cppName)

/-- A declaration in a message, as `validate_range` sees it (`hpp_generator.cpp` 898-899). -/
structure Member where
  name : Name
  inNamespace : Bool
  isExtension : Bool
  deriving DecidableEq, Repr

/-- The five calls of `validate_range` (`hpp_generator.cpp` 922-926). -/
def members (m : MsgDecl) (kids : Msgs) : List Member :=
  m.fields.map (fun f => ⟨cppName f.name, false, false⟩) ++
  kids.heads.map (fun k => ⟨cppName k.name, true, false⟩) ++
  m.enums.map (fun e => ⟨cppName e.name, true, false⟩) ++
  m.oneofs.map (fun o => ⟨cppName o, false, false⟩) ++
  m.extensions.map (fun x => ⟨cppName x, false, true⟩)

/-- The checks of `validate_range` on one declaration (`hpp_generator.cpp` 901-912): is nothing recorded? -/
def memberOk (full : Name) (m : MsgDecl) (d : Member) : Bool :=
  !isFixedMember full m.extensible d.name && !(d.inNamespace && isHelper d.name) && !(d.isExtension && isFixedExtMember d.name) &&
    !(d.name == cppName m.name)

/-- `validate_message_members` (`hpp_generator.cpp` 896-927): is nothing recorded? -/
def membersOk (full : Name) (m : MsgDecl) (kids : Msgs) : Bool :=
  (members m kids).all (memberOk full m) && allNew [] ((members m kids).map Member.name)

/-- `message_schema_uses_name` (`hpp_generator.cpp` 854-858). -/
def usesName (m : MsgDecl) (kids : Msgs) (n : Name) : Bool :=
  m.fields.any (fun f => cppName f.name == n) || kids.heads.any (fun k => cppName k.name == n) ||
    m.enums.any (fun e => cppName e.name == n) || m.oneofs.any (fun o => cppName o == n) || m.extensions.any (fun x => cppName x == n)

/-- `validate_oneof_helpers` (`hpp_generator.cpp` 929-940): is nothing recorded? -/
def oneofsOk (m : MsgDecl) (kids : Msgs) : Bool :=
  m.oneofs.all fun o =>
    !(caseName o == cppName m.name || usesName m kids (caseName o)) && !(tableName o == cppName m.name || usesName m kids (tableName o))

/-- The names that messages add to a namespace (`hpp_generator.cpp` 956-959, 1028-1031). -/
def messageNames (ms : List MsgDecl) : List Name := ms.flatMap fun k => [cppName k.name, nestedScope k.name]

/-- `validate_namespace_declarations` (`hpp_generator.cpp` 942-966): is nothing recorded? -/
def namespaceOk (ms : List MsgDecl) (enums : List EnumDecl) (extensions : List Name) : Bool :=
  allNew [] (messageNames ms ++ enums.map (fun e => cppName e.name) ++ extensions.map cppName)

/-- `validate_generated_names` of messages (`hpp_generator.cpp` 969-985): is nothing recorded? -/
def messagesOk (scope : Name) : Msgs → Bool
  | .nil => true
  | .cons m kids rest =>
    let full := fullName scope m.name
    !(isFixedMember full m.extensible (cppName m.name) || isHelper (cppName m.name)) && membersOk full m kids && oneofsOk m kids &&
      namespaceOk kids.heads m.enums m.extensions && m.enums.all enumOk && messagesOk full kids && messagesOk scope rest

/-- `starts_with('_')`. -/
def startsLow (n : Name) : Bool := n.head? == some 0x5f

/-- The names a file adds to its namespace (`hpp_generator.cpp` 1028-1057). -/
def FileDecl.topNames (f : FileDecl) : List Name :=
  messageNames f.messages.heads ++ f.extensions.map cppName ++ f.enums.map (fun e => cppName e.name) ++
    (f.services.filter (·.methods ≠ [])).map (fun s => cppName s.name)

/-- The checks of `validate_generated_names` on a file alone (`hpp_generator.cpp` 992-997, 1015-1076): is nothing recorded? -/
def fileOk (f : FileDecl) : Bool :=
  !(f.ns.head?.any startsLow) && !(f.ns = [] && f.topNames.any startsLow) &&
    f.extensions.all (fun x => !(isFixedExtMember (cppName x) || isHelper (cppName x))) &&
    f.enums.all (fun e => enumOk e && !isHelper (cppName e.name)) &&
    (f.services.filter (·.methods ≠ [])).all (fun s => serviceNameOk s.name && s.methods.all methodNameOk &&
      allNew [] (s.methods.map cppName)) &&
    messagesOk (dotted f.package) f.messages

/-- `namespace_packages` (`hpp_generator.cpp` 1021-1027): no two files with different packages share a namespace. -/
def packagesOk (seen : List (List Name × List Name)) : List FileDecl → Bool
  | [] => true
  | f :: fs =>
    match seen.lookup f.ns with
    | none => packagesOk ((f.ns, f.package) :: seen) fs
    | some p => p = f.package && packagesOk seen fs

/-- `validate_generated_names` of the pool (`hpp_generator.cpp` 990-1079): is nothing recorded? -/
def poolOk (fs : List FileDecl) : Bool :=
  fs.all fileOk && packagesOk [] fs && allNew [] (fs.flatMap fun f => f.topNames.map fun n => (f.ns, n))

/-- The identifiers made for messages when the pool is built (`hpp_generator.cpp` 237, 398, 424, 443): is nothing recorded? -/
def namesOk : Msgs → Bool
  | .nil => true
  | .cons m kids rest =>
    nameOk m.name && m.fields.all (fun f => nameOk f.name) && m.oneofs.all nameOk && m.extensions.all nameOk &&
      m.enums.all (fun e => nameOk e.name) && namesOk kids && namesOk rest

/-- The identifiers made when the pool is built: is nothing recorded? -/
def buildOk (fs : List FileDecl) : Bool :=
  fs.all fun f => (f.namespacePrefix ++ f.package).all nameOk && namesOk f.messages && f.enums.all (fun e => nameOk e.name) &&
    f.extensions.all nameOk

/-- Are headers generated, as far as names are concerned (`generate`, `hpp_generator.cpp` 2556-2570)? -/
def accepted (fs : List FileDecl) : Bool := buildOk fs && poolOk fs

/-! ## What is declared -/

/-- A namespace, a function, or something else: a type, an alias, an enumerator or a variable. -/
inductive DeclKind where
  | space
  | function
  | entity
  deriving DecidableEq, Repr

/-- A declaration: its scope is in namespaces and then in classes (or scoped enums). -/
structure Decl where
  spaces : List Name
  classes : List Name
  name : Name
  kind : DeclKind
  deriving DecidableEq, Repr

/-- Entities of a class. -/
def inClass (spaces classes : List Name) (ns : List Name) : List Decl := ns.map fun n => ⟨spaces, classes, n, .entity⟩

/-- An enum (`hpp_generator.cpp` 1382-1412). -/
def enumDecls (p : List Name) (e : EnumDecl) : List Decl :=
  ⟨p, [], cppName e.name, .entity⟩ :: ⟨p, [], b!"is_valid", .function⟩ :: inClass p [cppName e.name] (e.values.map cppName)

/-- The names a oneof adds to its class (`hpp_generator.cpp` 1343-1380). -/
def oneofNames (m : MsgDecl) (i : Nat) (o : Name) : List Name :=
  match (m.fields.filter fun f => f.oneof = some i) with
  | [] => []
  | [f] => [cppName f.name]
  | fs => [caseName o, tableName o, cppName o] ++ fs.map fun f => cppName f.name

/-- The names in the class of a message (`hpp_generator.cpp` 1446-1502); the name of the class and of its template parameter
may not be declared again. -/
def classNames (full : Name) (m : MsgDecl) (kids : Msgs) : List Name :=
  [cppName m.name, b!"Traits", b!"hpp_proto_traits_type", b!"unknown_fields_"] ++
    (if wellKnown full then [b!"glaze_reflect"] else []) ++
    (if m.extensible then [b!"get_extension", b!"set_extension", b!"has_extension"] else []) ++
    m.enums.map (fun e => cppName e.name) ++ (kids.heads.filter (!·.entry)).map (fun k => cppName k.name) ++
    (m.fields.filter (·.oneof = none)).map (fun f => cppName f.name) ++
    (m.oneofs.zipIdx.flatMap fun (o, i) => oneofNames m i o) ++ m.extensions.map cppName

/-- The names in the struct of an extension (`hpp_generator.cpp` 1777-1787). -/
def extensionNames (x : Name) : List Name := [cppName x, b!"Traits", b!"value_type", b!"value", b!"pb_meta"]

/-- Messages: `msg_code_generator::process` (`hpp_generator.cpp` 1414-1523), with `pb_meta` (1612-1616) and the extensions
(1632-1634, 1735-1788). -/
def msgDecls (top : List Name) (p : List Name) (scope : Name) : Msgs → List Decl
  | .nil => []
  | .cons m kids rest =>
    let full := fullName scope m.name
    let c := cppName m.name
    let inner := p ++ [nestedScope m.name]
    (if m.entry then [] else
      (if m.enums ≠ [] || kids.heads.any (!·.entry) then
        ⟨p, [], nestedScope m.name, .space⟩ :: m.enums.flatMap (enumDecls inner) ++ msgDecls top inner full kids
      else []) ++
      [⟨p, [], c, .entity⟩, ⟨top, [], b!"message_type_url", .function⟩, ⟨p, [], b!"pb_meta", .function⟩] ++
      inClass p [c] (classNames full m kids) ++ m.extensions.flatMap fun x => inClass p [c, cppName x] (extensionNames x)) ++
    msgDecls top p scope rest

/-- A service (`hpp_generator.cpp` 2386-2424). -/
def serviceDecls (p : List Name) (s : ServiceDecl) : List Decl :=
  if s.methods = [] then []
  else
    let inner := p ++ [cppName s.name]
    ⟨p, [], cppName s.name, .space⟩ :: inClass inner [] (s.methods.map cppName ++ [b!"_methods"]) ++
      s.methods.flatMap fun n => inClass inner [cppName n]
        [cppName n, b!"method_name", b!"client_streaming", b!"server_streaming", b!"rpc_type", b!"ordinal", b!"request_t", b!"response_t"]

/-- `namespace a::b {` (`hpp_generator.cpp` 1203-1210). -/
def spaceDecls (done : List Name) : List Name → List Decl
  | [] => []
  | s :: ss => ⟨done, [], s, .space⟩ :: spaceDecls (done ++ [s]) ss

/-- The headers of a file: `.msg.hpp`, `.pb.hpp`, `.service.hpp`. -/
def fileDecls (f : FileDecl) : List Decl :=
  spaceDecls [] f.ns ++ f.enums.flatMap (enumDecls f.ns) ++ msgDecls f.ns f.ns (dotted f.package) f.messages ++
    f.extensions.flatMap (fun x => ⟨f.ns, [], cppName x, .entity⟩ :: inClass f.ns [cppName x] (extensionNames x)) ++
    f.services.flatMap (serviceDecls f.ns)

/-- The headers of all files. -/
def decls (fs : List FileDecl) : List Decl := fs.flatMap fileDecls

end HppProto.Names
