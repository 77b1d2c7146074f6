import Verif.Model.Lexical
import Verif.Model.FileGraph

/-!
# What `protoc-gen-hpp` answers

Options (`parse_plugin_options`), the headers of each requested file with the headers they include,
the descriptor set of a file, the methods of its services, and the response
(`src/protoc-plugin/hpp_generator.cpp` 476-491, 545-553, 712-717, 1186-1205, 1531-1553, 1818-1862,
2280-2573).  The text of the headers beside that is left out.
-/

namespace HppProto
namespace Plugin

/-! ## Options -/

/-- `generator_options` and `plugin_options` (`hpp_generator.hpp` 41-55), without the name of the
plugin and the raw text. -/
structure Options where
  directory : List Byte := []
  nsPrefix : Option (List Byte) := none
  explicit : List (List Byte) := []
  preserve : Bool := false
  exported : Option (List Byte) := none
  deriving DecidableEq, Repr

/-- `split` (`hpp_generator.cpp` 2483-2494): the arguments of the calls of `callback`.  A
piece that would begin at the end is not passed on. -/
def splitAt (delim : Byte) : List Byte → List (List Byte)
  | [] => []
  | s@(_ :: _) =>
    let piece := s.takeWhile (· != delim)
    match h : s.dropWhile (· != delim) with
    | [] => [piece]
    | _ :: rest =>
      have : rest.length < s.length := by
        have := (List.dropWhile_sublist (fun b => b != delim) (l := s)).length_le
        rw [h] at this
        simp only [List.length_cons] at this ⊢
        omega
      piece :: splitAt delim rest
termination_by s => s.length

/-- `key` and `value` of an option (`hpp_generator.cpp` 2507-2510). -/
def keyValue (option : List Byte) : List Byte × List Byte :=
  (option.takeWhile (· != 0x3d), (option.dropWhile (· != 0x3d)).drop 1)

/-- The function passed to `split` (`hpp_generator.cpp` 2506-2528); the second component tells
whether `error` is set. -/
def applyOption (s : Options × Bool) (option : List Byte) : Options × Bool :=
  let (key, value) := keyValue option
  if key = b!"directory_prefix" then ({ s.1 with directory := value }, s.2)
  else if key = b!"namespace_prefix" then
    match Lex.fromDotted value with
    | none => (s.1, true)
    | some ns => ({ s.1 with nsPrefix := some ns }, s.2)
  else if key = b!"proto2_explicit_presence" then ({ s.1 with explicit := s.1.explicit ++ [value] }, s.2)
  else if key = b!"preserve_proto_field_names" then ({ s.1 with preserve := value = b!"true" ∨ value = [] }, s.2)
  else if key = b!"export_request" then ({ s.1 with exported := some value }, s.2)
  else s

/-- `parse_plugin_options` (`hpp_generator.cpp` 2498-2537); `none` for an error. -/
def parseOptions (parameters : List Byte) : Option Options :=
  match (splitAt 0x2c parameters).foldl applyOption ({}, false) with
  | (_, true) => none
  | (o, false) => some (if o.explicit = [] then { o with explicit := [b!"."] } else o)

/-! ## Files -/

/-- What is read of a `MethodDescriptorProto`. -/
structure Method where
  name : List Byte
  input : List Byte
  output : List Byte
  clientStreaming : Bool := false
  serverStreaming : Bool := false
  deriving DecidableEq, Repr

/-- What is read of a `ServiceDescriptorProto`. -/
structure Service where
  name : List Byte
  methods : List Method
  deriving DecidableEq, Repr

/-- What is read of a `FileDescriptorProto`; `messages` are the names of its top-level messages, and
`override` is the option `file_descriptor_name`. -/
structure File where
  name : List Byte
  override : Option (List Byte) := none
  deps : List (List Byte) := []
  package : List Byte := []
  messages : List (List Byte) := []
  services : List Service := []
  deriving DecidableEq, Repr

/-- `get_file_descriptor` (`descriptor_pool.hpp` 644-652). -/
def find (files : List File) (name : List Byte) : Option File := files.find? fun f => f.name == name

/-- The headers that are generated for a file. -/
inductive Part where
  | msg | pb | glz | desc | service
  deriving DecidableEq, Repr

/-- What takes the place of `proto` in the name of the file. -/
def Part.suffix : Part → List Byte
  | .msg => b!"msg.hpp"
  | .pb => b!"pb.hpp"
  | .glz => b!"glz.hpp"
  | .desc => b!"desc.hpp"
  | .service => b!"service.hpp"

/-- `file.name` (`hpp_generator.cpp` 1190, 1534, 1821, 2287, 2363).  `substr(0, size - 5)` is
all of the name when it is shorter than five bytes, as the difference wraps. -/
def outName (name : List Byte) (part : Part) : List Byte :=
  (if name.length < 5 then name else name.take (name.length - 5)) ++ part.suffix

/-- `generated_include` (`hpp_generator.cpp` 545-553). -/
def generatedInclude (dir name : List Byte) (part : Part) : Option (List Byte) :=
  Lex.includePath name dir (0x2e :: part.suffix)

/-- The file that the generator treats apart. -/
def hppOptions : List Byte := b!"hpp_proto/hpp_options.proto"

/-- `sole_message_name != "google.protobuf.Any"` (`hpp_generator.cpp` 1823-1828), after the messages
have been given their full names (1420-1422). -/
def isAny (f : File) : Bool :=
  match f.messages with
  | [m] => (if f.package = [] then m else f.package ++ 0x2e :: m) == b!"google.protobuf.Any"
  | _ => false

/-- The generated headers that a header includes, in order (`hpp_generator.cpp` 1194-1200,
1537-1555, 1828-1862, 2292-2298, 2365-2377): the name of a file and the part. -/
def included (f : File) : Part → List (List Byte × Part)
  | .msg => (f.deps.filter (· ≠ hppOptions)).map fun d => (d, .msg)
  | .pb => (f.name, .msg) :: (f.deps.filter (· ≠ hppOptions)).map fun d => (d, .pb)
  | .glz => if isAny f then [(f.name, .msg)] else f.deps.map (fun d => (d, .glz)) ++ [(f.name, .msg)]
  | .desc => f.deps.map fun d => (d, .desc)
  | .service => f.deps.map (fun d => (d, .pb)) ++ [(f.name, .pb)]

/-! ## The descriptor set -/

/-- `descriptor_name`, `cpp_file_descriptor_name` (`hpp_generator.cpp` 129-145, 454). -/
def namespaceOf (f : File) : Option (List Byte) := Lex.fileNamespace f.name f.override

/-- `descriptor_name.qualified_descriptor_name()` (`cpp_lexical_emitter.cpp` 431-433): the variable
that holds the descriptor. -/
def descriptorName (f : File) : List Byte := Lex.appendName ((namespaceOf f).getD []) b!"file_descriptor_"

/-- Lexicographic order of bytes, as of `std::string`. -/
def bytesLe : List Byte → List Byte → Bool
  | [], _ => true
  | _ :: _, [] => false
  | a :: s, b :: t => if a.toNat < b.toNat then true else if b.toNat < a.toNat then false else bytesLe s t

/-- `std::ranges::sort` (`hpp_generator.cpp` 484), as an insertion sort. -/
def insertName (x : List Byte) : List (List Byte) → List (List Byte)
  | [] => [x]
  | y :: l => if bytesLe x y then x :: y :: l else y :: insertName x l

/-- `std::ranges::sort` (`hpp_generator.cpp` 484). -/
def sortNames (l : List (List Byte)) : List (List Byte) := l.foldr insertName []

/-- `std::ranges::unique` and `erase` (`hpp_generator.cpp` 485-486). -/
def uniqueNames : List (List Byte) → List (List Byte)
  | x :: y :: l => if x = y then uniqueNames (y :: l) else x :: uniqueNames (y :: l)
  | l => l

/-- `get_dependency_names` (`hpp_generator.cpp` 476-491): the qualified names of the variables that
hold the descriptors.  The result is cached, which has no effect on it.  `fuel` bounds the depth of the recursion; the proofs show that as many steps as there
are files are enough. -/
def dependencyNames (files : List File) : Nat → File → List (List Byte)
  | 0, _ => []
  | fuel + 1, f =>
    uniqueNames (sortNames ((f.deps.filterMap (find files)).flatMap (dependencyNames files fuel))) ++ [descriptorName f]

/-! ## Services -/

/-- The members of the struct that is generated for a method (`hpp_generator.cpp` 2399-2422), with
its name as in the schema (C46, C89); `path` is the text of the literal. -/
structure MethodStruct where
  name : List Byte
  path : List Byte
  clientStreaming : Bool
  serverStreaming : Bool
  rpcType : Nat
  ordinal : Nat
  request : List Byte
  response : List Byte
  deriving DecidableEq, Repr

/-- `resolved_message_type` (`hpp_generator.cpp` 2348-2358); `types` gives the qualified C++ name of
a message by its full name. -/
def resolvedType (types : List Byte → Option (List Byte)) (name : List Byte) : Option (List Byte) :=
  types (if name.head? = some 0x2e then name.drop 1 else name)

/-- `proto_service_name` (`hpp_generator.cpp` 2393). -/
def serviceName (f : File) (s : Service) : List Byte :=
  if f.package = [] then s.name else f.package ++ b!"." ++ s.name

/-- The body of the loop over the methods (`hpp_generator.cpp` 2397-2423). -/
def methodStruct (types : List Byte → Option (List Byte)) (service : List Byte) (ordinal : Nat) (m : Method) :
    Option MethodStruct := do
  let request ← resolvedType types m.input
  let response ← resolvedType types m.output
  some { name := m.name
         path := Lex.stringLiteral (b!"/" ++ service ++ b!"/" ++ m.name)
         clientStreaming := m.clientStreaming
         serverStreaming := m.serverStreaming
         rpcType := (if m.serverStreaming then 2 else 0) + (if m.clientStreaming then 1 else 0)
         ordinal := ordinal
         request := request
         response := response }

/-- The loop over the methods (`hpp_generator.cpp` 2397-2423), which is also `_methods` (2424). -/
def methodStructs (types : List Byte → Option (List Byte)) (service : List Byte) : Nat → List Method → Option (List MethodStruct)
  | _, [] => some []
  | k, m :: ms => do
    let x ← methodStruct types service k m
    let xs ← methodStructs types service (k + 1) ms
    some (x :: xs)

/-- The loop over the services (`hpp_generator.cpp` 2386-2428); a type that is not found is an
error. -/
def serviceStructs (types : List Byte → Option (List Byte)) (f : File) : List Service → Option (List (List Byte × List MethodStruct))
  | [] => some []
  | s :: ss =>
    if s.methods = [] then serviceStructs types f ss
    else do
      let ms ← methodStructs types (serviceName f s) 0 s.methods
      let rest ← serviceStructs types f ss
      some ((s.name, ms) :: rest)

/-! ## The response -/

/-- A `CodeGeneratorResponse.File`, as far as it is modelled. -/
structure Header where
  path : List Byte
  part : Part
  includes : List (List Byte)
  /-- the literal with the file descriptor -/
  literal : List Byte := []
  /-- the elements of `file_descriptor_set()` -/
  set : List (List Byte) := []
  services : List (List Byte × List MethodStruct) := []
  deriving DecidableEq, Repr

/-- What the generator works with beside the files: `directory_prefix`; the C++ names of
messages; the bytes of a file descriptor without source information
(2304-2307); and whether anything else is recorded as an error while a header is written. -/
structure Env where
  dir : List Byte
  types : List Byte → Option (List Byte)
  bytes : List Byte → List Byte
  refused : List Byte → Part → Bool

/-- One of the five generators on a file (`hpp_generator.cpp` 1186, 1531, 1818, 2283, 2360); `none`
if an error is recorded. -/
def header (E : Env) (files : List File) (f : File) (part : Part) : Option Header := do
  let incs ← (included f part).mapM fun x => generatedInclude E.dir x.1 x.2
  if E.refused f.name part then none
  else
    let h : Header := { path := outName f.name part, part := part, includes := incs }
    match part with
    | .desc => some { h with literal := Lex.stringLiteral (E.bytes f.name)
                             set := dependencyNames files files.length f }
    | .service => (serviceStructs E.types f f.services).map fun ss => { h with services := ss }
    | _ => some h

/-- The headers of a file, in order (`generate_outputs_for_file`, `hpp_generator.cpp` 2432-2464). -/
def partsOf (f : File) : List Part :=
  [.msg, .pb, .glz] ++ (if f.messages = [] then [] else [.desc]) ++ (if f.services = [] then [] else [.service])

/-- `generate_outputs_for_file` (`hpp_generator.cpp` 2432-2464). -/
def outputs (E : Env) (files : List File) (f : File) : Option (List Header) :=
  (partsOf f).mapM (header E files f)

/-- `generate_requested_files` (`hpp_generator.cpp` 2466-2481). -/
def requested (E : Env) (files : List File) : List (List Byte) → Option (List Header)
  | [] => some []
  | n :: ns => do
    let f ← find files n
    let hs ← outputs E files f
    let rest ← requested E files ns
    some (hs ++ rest)

/-- A `CodeGeneratorResponse`. -/
structure Response where
  failed : Bool
  files : List Header
  deriving DecidableEq, Repr

/-- `hpp_generator::generate` (`hpp_generator.cpp` 2539-2573).  The imports are checked when the pool is
initialized (C48); a file whose descriptor name is refused is an error (129-145), and so are
collisions (C57).  `other` tells whether everything else is accepted: the rest of the pool (C71), the
names (C89) and the order of messages (C83). -/
def generate (E : Env) (other : Bool) (files : List File) (want : List (List Byte)) : Response :=
  if linkFiles (files.map fun f => ⟨f.name, f.deps⟩) && other && files.all (fun f => (namespaceOf f).isSome) &&
      Lex.validateNames ((files.filter (·.messages ≠ [])).map fun f => (namespaceOf f).getD []) then
    match requested E files want with
    | none => ⟨true, []⟩
    | some hs => ⟨false, hs⟩
  else ⟨true, []⟩

end Plugin
end HppProto
