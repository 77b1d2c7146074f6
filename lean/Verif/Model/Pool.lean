import Verif.Model.FileGraph
import Verif.Model.Outcome

/-!
# Building a descriptor pool

Model of `descriptor_pool::init` (`include/hpp_proto/descriptor_pool.hpp` 719-1260): from a
set of files to the descriptors of files, messages, enums, oneofs and fields, with their names,
features and links.

Simplifications that hold for the whole file:

* A pointer or reference to a descriptor is the index of the descriptor in the vector of the pool
  that holds it (`files_`, `messages_`, `enums_`, `oneofs_`, `fields_`).  Such a pointer dangles when
  the vector grows beyond the capacity reserved for it, so growing beyond that capacity is
  undefined behaviour in the model (`push`).
* Only the parts of the descriptor messages that the pool reads are kept.  `options` and
  `options->features`, one `optional` inside another, are one `Option`.
* The AddOns of the pool (what the generator or the dynamic messages add to each descriptor) and
  the memory resources are left out.
* All failures of the pool are `validation_error`; the model has one error for it.
-/

namespace HppProto

/-- `FeatureSet` (`include/google/protobuf/descriptor.msg.hpp` 190-224): each feature is the number
of an enumerator, 0 when it is not set.  Not modelled: extensions of the message. -/
structure Features where
  presence : Int := 0
  enumType : Int := 0
  repeatedEncoding : Int := 0
  utf8 : Int := 0
  messageEncoding : Int := 0
  jsonFormat : Int := 0
  naming : Int := 0
  visibility : Int := 0
deriving Repr, DecidableEq

/-- `FieldDescriptorProto` (`descriptor.msg.hpp` 721-749), with `options.packed` and
`options.features`.  `type` and `label` are the numbers of their enumerators. -/
structure FieldProto where
  name : List Byte
  number : Int
  label : Int
  type : Int
  typeName : List Byte := []
  extendee : List Byte := []
  oneofIndex : Option Int := none
  jsonName : List Byte := []
  proto3Optional : Bool := false
  packed : Option Bool := none
  features : Option Features := none
  defaultValue : List Byte := []
deriving Repr, DecidableEq

/-- `OneofDescriptorProto`: only the features of its options are used. -/
structure OneofProto where
  name : List Byte
  features : Option Features := none
deriving Repr, DecidableEq

/-- `EnumDescriptorProto`: its name, the names and numbers of its values and the features of its
options. -/
structure EnumProto where
  name : List Byte
  values : List (List Byte × Int)
  features : Option Features := none
deriving Repr, DecidableEq

/-- The numbers of the values of an enum (`number` of `EnumValueDescriptorProto`,
`descriptor.msg.hpp`). -/
def EnumProto.numbers (e : EnumProto) : List Int := e.values.map (·.2)

/-- `DescriptorProto`, with `options.map_entry` and `options.features`. -/
inductive MsgProto where
  | mk (name : List Byte) (fields : List FieldProto) (nested : List MsgProto)
      (enums : List EnumProto) (oneofs : List OneofProto) (extensions : List FieldProto)
      (mapEntry : Bool) (features : Option Features)

namespace MsgProto
/-- `proto.name` (`descriptor_pool.hpp` 1084). -/
def name : MsgProto → List Byte | mk n _ _ _ _ _ _ _ => n
/-- `proto.field` (`descriptor_pool.hpp` 1203). -/
def fields : MsgProto → List FieldProto | mk _ f _ _ _ _ _ _ => f
/-- `proto.nested_type` (`descriptor_pool.hpp` 1131). -/
def nested : MsgProto → List MsgProto | mk _ _ n _ _ _ _ _ => n
/-- `proto.enum_type` (`descriptor_pool.hpp` 1144). -/
def enums : MsgProto → List EnumProto | mk _ _ _ e _ _ _ _ => e
/-- `proto.oneof_decl` (`descriptor_pool.hpp` 1122). -/
def oneofs : MsgProto → List OneofProto | mk _ _ _ _ o _ _ _ => o
/-- `proto.extension` (`descriptor_pool.hpp` 1248). -/
def extensions : MsgProto → List FieldProto | mk _ _ _ _ _ x _ _ => x
/-- `proto.options->map_entry`, false without options (`descriptor_pool.hpp` 498). -/
def mapEntry : MsgProto → Bool | mk _ _ _ _ _ _ b _ => b
/-- `proto.options->features` (`descriptor_pool.hpp` 921-930). -/
def features : MsgProto → Option Features | mk _ _ _ _ _ _ _ f => f
end MsgProto

/-- `FileDescriptorProto`. -/
structure FileProto where
  name : List Byte
  package : List Byte := []
  deps : List (List Byte) := []
  syntaxName : List Byte := []
  edition : Int := 0
  messages : List MsgProto := []
  enums : List EnumProto := []
  extensions : List FieldProto := []
  features : Option Features := none

/-! ## Features -/

/-- `hpp_proto::merge` of two `FeatureSet`s (`merge.hpp` 78-94, 114-121 with the metadata at
`descriptor.pb.hpp` 290-299): no feature has explicit presence, so a feature of the source
overwrites the destination unless it is 0. -/
def Features.mergedWith (d s : Features) : Features where
  presence := if s.presence = 0 then d.presence else s.presence
  enumType := if s.enumType = 0 then d.enumType else s.enumType
  repeatedEncoding := if s.repeatedEncoding = 0 then d.repeatedEncoding else s.repeatedEncoding
  utf8 := if s.utf8 = 0 then d.utf8 else s.utf8
  messageEncoding := if s.messageEncoding = 0 then d.messageEncoding else s.messageEncoding
  jsonFormat := if s.jsonFormat = 0 then d.jsonFormat else s.jsonFormat
  naming := if s.naming = 0 then d.naming else s.naming
  visibility := if s.visibility = 0 then d.visibility else s.visibility

/-- `copy_features` (`descriptor_pool.hpp` 932-937): a merge into an empty set. -/
def copyFeatures (s : Features) : Features := Features.mergedWith {} s

/-- `merge_features` (`descriptor_pool.hpp` 921-930). -/
def mergeFeatures (source : Features) (options : Option Features) : Features :=
  match options with
  | none => copyFeatures source
  | some o => (copyFeatures source).mergedWith o

/-- `get_cpp_edition_defaults` (`descriptor_pool.hpp` 954-1028): for each edition, by number, the
features that `select_features` takes from it: the fixed ones up to proto3 and the overridable ones
after it. -/
def cppEditionDefaults : List (Int × Features) :=
  [(900, { presence := 1, enumType := 2, repeatedEncoding := 2, utf8 := 3, messageEncoding := 1,
           jsonFormat := 2, naming := 2, visibility := 1 }),
   (999, { presence := 2, enumType := 1, repeatedEncoding := 1, utf8 := 2, messageEncoding := 1,
           jsonFormat := 1, naming := 2, visibility := 1 }),
   (1000, { presence := 1, enumType := 1, repeatedEncoding := 1, utf8 := 2, messageEncoding := 1,
            jsonFormat := 1, naming := 2, visibility := 1 }),
   (1001, { presence := 1, enumType := 1, repeatedEncoding := 1, utf8 := 2, messageEncoding := 1,
            jsonFormat := 1, naming := 1, visibility := 2 })]

/-- The edition of a file in `select_features` (`descriptor_pool.hpp` 1031-1037). -/
def currentEdition (f : FileProto) : Int :=
  if f.syntaxName = b!"proto3" then 999
  else if f.syntaxName = b!"editions" then f.edition
  else 900

/-- `select_features` (`descriptor_pool.hpp` 1030-1048). -/
def selectFeatures (f : FileProto) : Option Features :=
  (cppEditionDefaults.find? fun e => e.1 == currentEdition f).map fun e => copyFeatures e.2

/-! ## Descriptors -/

/-- The bits of `field_option_bitset_` (`descriptor_pool.hpp` 72-80, 348). -/
structure FieldBits where
  presence : Bool := false
  repeated : Bool := false
  packed : Bool := false
  utf8 : Bool := false
  delimited : Bool := false
  required : Bool := false
  mapEntry : Bool := false
deriving Repr, DecidableEq

/-- `field_descriptor_t` (`descriptor_pool.hpp` 222-364).  `type` is `type_descriptor_`, the index
of a message or of an enum depending on the type of the field. -/
structure FieldDesc where
  proto : FieldProto
  parent : Option Nat
  features : Features
  bits : FieldBits
  type : Option Nat := none
  extendee : Option Nat := none
deriving Repr, DecidableEq

/-- `oneof_descriptor_t` (`descriptor_pool.hpp` 366-414). -/
structure OneofDesc where
  proto : OneofProto
  features : Features
  fields : List Nat := []
deriving Repr, DecidableEq

/-- `enum_descriptor_t` (`descriptor_pool.hpp` 416-465). -/
structure EnumDesc where
  proto : EnumProto
  fullName : List Byte
  features : Features
  file : Nat
  parent : Option Nat
deriving Repr, DecidableEq

/-- `message_descriptor_t` (`descriptor_pool.hpp` 467-537). -/
structure MsgDesc where
  proto : MsgProto
  fullName : List Byte
  features : Features
  file : Nat
  parent : Option Nat
  fields : List Nat := []
  enums : List Nat := []
  oneofs : List Nat := []
  messages : List Nat := []
  extensions : List Nat := []

/-- `file_descriptor_t` (`descriptor_pool.hpp` 539-593). -/
structure FileDesc where
  proto : FileProto
  features : Features
  messages : List Nat := []
  enums : List Nat := []
  extensions : List Nat := []
  deps : List Nat := []

/-- `descriptor_counter` (`descriptor_pool.hpp` 719-761): the capacities reserved. -/
structure Counter where
  files : Nat := 0
  messages : Nat := 0
  fields : Nat := 0
  oneofs : Nat := 0
  enums : Nat := 0
deriving Repr, DecidableEq

/-- `descriptor_pool` (`descriptor_pool.hpp` 939-952), with the capacity of each vector.
Simplification: the maps are association lists in the order of insertion. -/
structure Pool where
  room : Counter
  files : List FileDesc := []
  messages : List MsgDesc := []
  enums : List EnumDesc := []
  oneofs : List OneofDesc := []
  fields : List FieldDesc := []
  fileMap : FileMap := []
  messageMap : FileMap := []
  enumMap : FileMap := []

/-! ## Counting -/

/-- The number of messages in a tree, a bound on the iterations of the loops over it (no
counterpart in the code). -/
def MsgProto.nodes : MsgProto → Nat
  | .mk _ _ nested _ _ _ _ _ => 1 + nodesAll nested
where nodesAll : List MsgProto → Nat
  | [] => 0
  | m :: ms => m.nodes + nodesAll ms

/-- The loop of `count_message` (`descriptor_pool.hpp` 743-757). -/
def countLoop : Nat → List MsgProto → Counter → Res Counter
  | 0, [], c => .ok c
  | 0, _ :: _, _ => .stuck
  | _ + 1, [], c => .ok c
  | fuel + 1, m :: pending, c =>
    countLoop fuel (m.nested.reverse ++ pending)
      { c with
        enums := c.enums + m.enums.length
        oneofs := c.oneofs + m.oneofs.length
        fields := c.fields + (m.fields.length + m.extensions.length)
        messages := c.messages + m.nested.length }

/-- `count_message` (`descriptor_pool.hpp` 742-758). -/
def countMessage (c : Counter) (m : MsgProto) : Res Counter :=
  countLoop m.nodes [m] { c with messages := c.messages + 1 }

/-- The loop over the messages of a file in `count_file` (`descriptor_pool.hpp` 735-737). -/
def countMessages : List MsgProto → Counter → Res Counter
  | [], c => .ok c
  | m :: ms, c => do countMessages ms (← countMessage c m)

/-- `count_file` (`descriptor_pool.hpp` 733-740). -/
def countFile (c : Counter) (f : FileProto) : Res Counter := do
  let c ← countMessages f.messages { c with files := c.files + 1 }
  .ok { c with enums := c.enums + f.enums.length, fields := c.fields + f.extensions.length }

/-- The constructor of `descriptor_counter` (`descriptor_pool.hpp` 726-731). -/
def countFiles : List FileProto → Counter → Res Counter
  | [], c => .ok c
  | f :: fs, c => do countFiles fs (← countFile c f)

/-! ## Files, messages and enums -/

/-- `emplace_back` on a vector with capacity `room`. -/
def push {α : Type} (room : Nat) (v : List α) (x : α) : Res (List α) :=
  if v.length < room then .ok (v ++ [x]) else .ub

/-- `find` in one of the maps (`descriptor_pool.hpp` 624-652, 1163). -/
def FileMap.get (m : FileMap) (name : List Byte) : Option Nat := fileIndex m name

/-- `join_by_dot` (`descriptor_pool.hpp` 1050-1057). -/
def joinByDot (x y : List Byte) : List Byte := x ++ b!"." ++ y

/-- The full name of a message or an enum of a file (`descriptor_pool.hpp` 1088, 1103). -/
def topName (package name : List Byte) : List Byte :=
  if package.isEmpty then name else joinByDot package name

/-- The loop over the enums of a file or of a message (`descriptor_pool.hpp` 1098-1109, 1144-1153);
`full` is the full name of an enum, `features` the features of the file or message. -/
def addEnums (full : List Byte → List Byte) (features : Features) (file : Nat)
    (parent : Option Nat) : List EnumProto → Pool → List Nat → Res (Pool × List Nat)
  | [], p, ids => .ok (p, ids)
  | e :: es, p, ids =>
    if e.name.isEmpty then .err .invalidArgument
    else do
      let enums ← push p.room.enums p.enums
        { proto := e, fullName := full e.name, features := mergeFeatures features e.features,
          file := file, parent := parent }
      if (p.enumMap.get (full e.name)).isSome then .err .invalidArgument
      else
        addEnums full features file parent es
          { p with enums := enums, enumMap := p.enumMap ++ [(full e.name, p.enums.length)] }
          (ids ++ [p.enums.length])

/-- The loop over the oneofs of a message (`descriptor_pool.hpp` 1120-1124). -/
def addOneofs (features : Features) :
    List OneofProto → Pool → List Nat → Res (Pool × List Nat)
  | [], p, ids => .ok (p, ids)
  | o :: os, p, ids => do
    let oneofs ← push p.room.oneofs p.oneofs
      { proto := o, features := mergeFeatures features o.features }
    addOneofs features os { p with oneofs := oneofs } (ids ++ [p.oneofs.length])

/-- The loop over the nested messages of a message (`descriptor_pool.hpp` 1130-1138). -/
def addNested (full : List Byte) (features : Features) (file : Nat) (parent : Nat) :
    List MsgProto → Pool → List Nat → Res (Pool × List Nat)
  | [], p, ids => .ok (p, ids)
  | m :: ms, p, ids =>
    if m.name.isEmpty then .err .invalidArgument
    else do
      let messages ← push p.room.messages p.messages
        { proto := m, fullName := joinByDot full m.name,
          features := mergeFeatures features m.features, file := file, parent := some parent }
      addNested full features file parent ms { p with messages := messages }
        (ids ++ [p.messages.length])

/-- One iteration of the loop of `build(message)` (`descriptor_pool.hpp` 1116-1154) for the message
at index `i`; the result includes the nested messages to be visited next, first one first. -/
def buildMessage (p : Pool) (i : Nat) : Res (Pool × List Nat) :=
  match p.messages[i]? with
  | none => .ub
  | some d => do
    let (p, oneofs) ← addOneofs d.features d.proto.oneofs p []
    if (p.messageMap.get d.fullName).isSome then .err .invalidArgument
    else do
      let p := { p with messageMap := p.messageMap ++ [(d.fullName, i)] }
      let (p, nested) ← addNested d.fullName d.features d.file i d.proto.nested p []
      let (p, enums) ← addEnums (joinByDot d.fullName) d.features d.file (some i) d.proto.enums p []
      .ok ({ p with
        messages := p.messages.modify i
          (fun d => { d with oneofs := oneofs, messages := nested, enums := enums }) }, nested)

/-- `build(message)` (`descriptor_pool.hpp` 1113-1156): the stack `pending` is a list with the top
first. -/
def buildTree : Nat → List Nat → Pool → Res Pool
  | _, [], p => .ok p
  | 0, _ :: _, _ => .stuck
  | fuel + 1, i :: pending, p => do
    let (p, nested) ← buildMessage p i
    buildTree fuel (nested ++ pending) p

/-- The loop over the messages of a file in `build(file)` (`descriptor_pool.hpp` 1082-1097). -/
def buildMessages (package : List Byte) (features : Features) (file : Nat) :
    List MsgProto → Pool → List Nat → Res (Pool × List Nat)
  | [], p, ids => .ok (p, ids)
  | m :: ms, p, ids =>
    if m.name.isEmpty then .err .invalidArgument
    else do
      let messages ← push p.room.messages p.messages
        { proto := m, fullName := topName package m.name,
          features := mergeFeatures features m.features, file := file, parent := none }
      let i := p.messages.length
      let p ← buildTree m.nodes [i] { p with messages := messages }
      buildMessages package features file ms p (ids ++ [i])

/-- `build(file)` (`descriptor_pool.hpp` 1076-1111) for the file just appended to `files_`. -/
def buildFile (p : Pool) (f : FileProto) (features : Features) : Res Pool := do
  let k := p.files.length
  let F := mergeFeatures features f.features
  let files ← push p.room.files p.files { proto := f, features := F }
  let p := { p with files := files, fileMap := p.fileMap ++ [(f.name, k)] }
  let (p, messages) ← buildMessages f.package F k f.messages p []
  let (p, enums) ← addEnums (topName f.package) F k none f.enums p []
  .ok { p with files := p.files.modify k (fun d => { d with messages := messages, enums := enums }) }

/-- `build_files_from_fileset` (`descriptor_pool.hpp` 801-817). -/
def buildFiles : List FileProto → Pool → Res Pool
  | [], p => .ok p
  | f :: fs, p =>
    if f.name.isEmpty || (p.fileMap.get f.name).isSome then .err .invalidArgument
    else match selectFeatures f with
      | none => .err .invalidArgument
      | some features => do buildFiles fs (← buildFile p f features)

/-- `link_file_dependencies` (`descriptor_pool.hpp` 819-830). -/
def linkPool (p : Pool) : Res Pool :=
  match linkDeps p.fileMap (p.files.map fun d => ⟨d.proto.name, d.proto.deps⟩) with
  | none => .err .invalidArgument
  | some deps =>
    if filesAcyclic deps then
      .ok { p with files := p.files.zipWith (fun d ds => { d with deps := ds }) deps }
    else .err .invalidArgument

/-! ## Fields -/

/-- `setup_presence`, `setup_repeated`, `setup_utf8_validation`, `setup_delimited` and
`setup_required` (`descriptor_pool.hpp` 289-342), on the features of the field. -/
def fieldBits (f : FieldProto) (F : Features) : FieldBits where
  presence := f.label == 1 &&
    (f.type == 10 || f.type == 11 || f.proto3Optional || f.oneofIndex.isSome ||
      F.presence == 1 || F.presence == 0)
  repeated := f.label == 3
  packed := f.label == 3 && !(f.type == 11 || f.type == 9 || f.type == 12 || f.type == 10) &&
    (f.packed == some true || F.repeatedEncoding == 1)
  utf8 := f.type == 9 && F.utf8 == 2
  delimited := f.type == 10 || (f.type == 11 && F.messageEncoding == 2)
  required := f.label == 2 || F.presence == 3

/-- The constructor of `field_descriptor_t` (`descriptor_pool.hpp` 224-234, 356-364); `inherited`
are the features of the message or file around the field. -/
def makeField (f : FieldProto) (parent : Option Nat) (inherited : Features) : FieldDesc :=
  let F := mergeFeatures inherited f.features
  { proto := f, parent := parent, features := F, bits := fieldBits f F }

/-- `is_valid_field_number` (`descriptor_pool.hpp` 1059-1068). -/
def validFieldNumber (n : Int) : Bool :=
  decide (1 ≤ n) && decide (n ≤ 536870911) && (decide (n < 19000) || decide (19999 < n))

/-- `has_valid_field_enums` (`descriptor_pool.hpp` 1070-1074) with the generated `is_valid`
functions (`descriptor.msg.hpp`, `FieldDescriptorProto_`): types 1 to 18, labels 1 to 3. -/
def validFieldEnums (f : FieldProto) : Bool :=
  decide (1 ≤ f.type) && decide (f.type ≤ 18) && decide (1 ≤ f.label) && decide (f.label ≤ 3)

/-- The loop of `to_default_json_name` (`descriptor_pool.hpp` 1174-1185); `up` is `upper_next`. -/
def jsonNameLoop : Bool → List Byte → List Byte
  | _, [] => []
  | up, c :: cs =>
    if c = 95#8 then jsonNameLoop true cs
    else if up && decide (97#8 ≤ c) && decide (c ≤ 122#8) then (c - 32#8) :: jsonNameLoop false cs
    else c :: jsonNameLoop false cs

/-- `to_default_json_name` (`descriptor_pool.hpp` 1170-1187). -/
def defaultJsonName (name : List Byte) : List Byte := jsonNameLoop false name

/-- `has_custom_json_name` (`descriptor_pool.hpp` 1188-1191). -/
def hasCustomJsonName (f : FieldProto) : Bool :=
  !f.jsonName.isEmpty && f.jsonName != defaultJsonName f.name

/-- The four sets of `build_fields` (`descriptor_pool.hpp` 1193-1201). -/
structure Seen where
  numbers : List Int := []
  names : List (List Byte) := []
  jsonNames : List (List Byte) := []
  customNames : List (List Byte) := []

/-- The checks of one field in `build_fields` (`descriptor_pool.hpp` 1204-1218). -/
def fieldRejected (s : Seen) (f : FieldProto) : Bool :=
  !validFieldEnums f || !validFieldNumber f.number || s.numbers.contains f.number ||
  s.names.contains f.name || s.customNames.contains f.name || s.customNames.contains f.jsonName ||
  (hasCustomJsonName f && (s.names.contains f.jsonName || s.jsonNames.contains f.jsonName))

/-- The updates of the sets (`descriptor_pool.hpp` 1206, 1219-1225). -/
def Seen.with (s : Seen) (f : FieldProto) : Seen where
  numbers := f.number :: s.numbers
  names := f.name :: s.names
  jsonNames := if f.jsonName.isEmpty then s.jsonNames else f.jsonName :: s.jsonNames
  customNames := if hasCustomJsonName f then f.jsonName :: s.customNames else s.customNames

/-- The cast of a `oneof_index` to `std::size_t` (`descriptor_pool.hpp` 1234).  Simplification: a
negative index becomes 2^63 or more, beyond the size of any vector; the model has `none` for it. -/
def oneofSlot (index : Int) : Option Nat := if index < 0 then none else some index.toNat

/-- The rest of the body of the loop in `build_fields` (`descriptor_pool.hpp` 1230-1239): a member
of a oneof is added to it. -/
def joinOneof (p : Pool) (oneofs : List Nat) (f : FieldProto) (j : Nat) : Res Pool :=
  match f.oneofIndex with
  | none => .ok p
  | some index =>
    if f.label == 3 then .err .invalidArgument
    else match (oneofSlot index).bind (oneofs[·]?) with
      | none => .err .invalidArgument
      | some o => .ok { p with
          oneofs := p.oneofs.modify o (fun d => { d with fields := d.fields ++ [j] }) }

/-- The loop of `build_fields` (`descriptor_pool.hpp` 1202-1240) for the message at index `i`. -/
def fieldLoop (i : Nat) (mapEntry : Bool) (inherited : Features) (oneofs : List Nat) :
    List FieldProto → Seen → Pool → List Nat → Res (Pool × List Nat)
  | [], _, p, ids => .ok (p, ids)
  | f :: fs, s, p, ids =>
    if fieldRejected s f then .err .invalidArgument
    else do
      let d := makeField f (some i) inherited
      let d := if mapEntry then { d with bits := { d.bits with presence := true } } else d
      let fields ← push p.room.fields p.fields d
      let j := p.fields.length
      let p ← joinOneof { p with fields := fields } oneofs f j
      fieldLoop i mapEntry inherited oneofs fs (s.with f) p (ids ++ [j])

/-- `build_fields` (`descriptor_pool.hpp` 1169-1245). -/
def buildFields (p : Pool) (i : Nat) : Res Pool :=
  match p.messages[i]? with
  | none => .ub
  | some d => do
    let (p, ids) ← fieldLoop i d.proto.mapEntry d.features d.oneofs d.proto.fields {} p []
    if d.oneofs.any (fun o => (p.oneofs[o]?.map (·.fields.isEmpty)).getD true) then
      .err .invalidArgument
    else .ok { p with messages := p.messages.modify i (fun d => { d with fields := ids }) }

/-- The loop of `build_extensions` (`descriptor_pool.hpp` 1247-1260). -/
def extensionLoop (parent : Option Nat) (inherited : Features) :
    List FieldProto → Pool → List Nat → Res (Pool × List Nat)
  | [], p, ids => .ok (p, ids)
  | f :: fs, p, ids =>
    if !validFieldEnums f || !validFieldNumber f.number then .err .invalidArgument
    else do
      let fields ← push p.room.fields p.fields (makeField f parent inherited)
      extensionLoop parent inherited fs { p with fields := fields } (ids ++ [p.fields.length])

/-- `build_extensions` (`descriptor_pool.hpp` 1247-1260) of a message. -/
def messageExtensions (p : Pool) (i : Nat) : Res Pool :=
  match p.messages[i]? with
  | none => .ub
  | some d => do
    let (p, ids) ← extensionLoop (some i) d.features d.proto.extensions p []
    .ok { p with messages := p.messages.modify i (fun d => { d with extensions := ids }) }

/-- `build_extensions` (`descriptor_pool.hpp` 1247-1260) of a file. -/
def fileExtensions (p : Pool) (k : Nat) : Res Pool :=
  match p.files[k]? with
  | none => .ub
  | some d => do
    let (p, ids) ← extensionLoop none d.features d.proto.extensions p []
    .ok { p with files := p.files.modify k (fun d => { d with extensions := ids }) }

/-- `build_message_fields_and_extensions` (`descriptor_pool.hpp` 864-876), over the entries of the
map in the order in which it yields them. -/
def buildAllFields : FileMap → Pool → Res Pool
  | [], p => .ok p
  | e :: es, p => do
    let p ← buildFields p e.2
    let p ← messageExtensions p e.2
    buildAllFields es p

/-- `build_file_extensions` (`descriptor_pool.hpp` 878-888). -/
def buildFileExtensions : FileMap → Pool → Res Pool
  | [], p => .ok p
  | e :: es, p => do buildFileExtensions es (← fileExtensions p e.2)

/-- `find_type` (`descriptor_pool.hpp` 1159-1166). -/
def findType (m : FileMap) (name : List Byte) : Option Nat :=
  match name with
  | [] => none
  | c :: rest => if c = 46#8 then m.get rest else none

/-- The first half of the body of the loop in `resolve_field_types`
(`descriptor_pool.hpp` 893-909): the type of a field. -/
def resolveType (p : Pool) (f : FieldDesc) : Res FieldDesc :=
  if f.proto.type == 11 || f.proto.type == 10 then
    match findType p.messageMap f.proto.typeName with
    | none => .err .invalidArgument
    | some i =>
      match p.messages[i]? with
      | none => .ub
      | some d =>
        .ok { f with type := some i,
                     bits := if d.proto.mapEntry then { f.bits with mapEntry := true } else f.bits }
  else if f.proto.type == 14 then
    match findType p.enumMap f.proto.typeName with
    | none => .err .invalidArgument
    | some i => .ok { f with type := some i }
  else .ok f

/-- The second half (`descriptor_pool.hpp` 911-917): the message an extension extends. -/
def resolveExtendee (p : Pool) (f : FieldDesc) : Res FieldDesc :=
  if f.proto.extendee.isEmpty then .ok f
  else match findType p.messageMap f.proto.extendee with
    | none => .err .invalidArgument
    | some i => .ok { f with extendee := some i }

/-- `resolve_field_types` (`descriptor_pool.hpp` 890-919). -/
def resolveFields (p : Pool) : List FieldDesc → Res (List FieldDesc)
  | [] => .ok []
  | f :: fs => do
    let f ← resolveType p f
    let f ← resolveExtendee p f
    let fs ← resolveFields p fs
    .ok (f :: fs)

/-- `init` (`descriptor_pool.hpp` 763-788).  The maps of the pool are hash maps
(`factory_addons.hpp` 63, `hpp_generator.cpp` 230): `order` is the order in which one of them yields
its entries. -/
def initPool (order : FileMap → FileMap) (fs : List FileProto) : Res Pool := do
  let room ← countFiles fs {}
  let p ← buildFiles fs { room := room }
  let p ← linkPool p
  let p ← buildAllFields (order p.messageMap) p
  let p ← buildFileExtensions (order p.fileMap) p
  let fields ← resolveFields p p.fields
  let p := { p with fields := fields }
  if p.messages.length ≠ room.messages then .err .invalidArgument else .ok p

/-! ## Looking descriptors up -/

/-- `get_message_descriptor` (`descriptor_pool.hpp` 624-632). -/
def Pool.findMessage (p : Pool) (name : List Byte) : Option Nat := p.messageMap.get name

/-- `get_enum_descriptor` (`descriptor_pool.hpp` 634-642). -/
def Pool.findEnum (p : Pool) (name : List Byte) : Option Nat := p.enumMap.get name

/-- `get_file_descriptor` (`descriptor_pool.hpp` 644-652). -/
def Pool.findFile (p : Pool) (name : List Byte) : Option Nat := p.fileMap.get name

/-- The search for the first field of a message (`message_fields.hpp` 81-88, 96-104, 113-121). -/
def Pool.findField (p : Pool) (d : MsgDesc) (test : FieldProto → Bool) : Option Nat :=
  d.fields.find? fun j => (p.fields[j]?.map fun f => test f.proto).getD false

/-- `field_descriptor_by_name` (`message_fields.hpp` 81-88). -/
def Pool.fieldByName (p : Pool) (d : MsgDesc) (name : List Byte) : Option Nat :=
  p.findField d fun f => f.name == name

/-- `field_descriptor_by_json_name` (`message_fields.hpp` 96-104). -/
def Pool.fieldByJsonName (p : Pool) (d : MsgDesc) (name : List Byte) : Option Nat :=
  p.findField d fun f => f.jsonName == name

/-- `field_descriptor_by_number` (`message_fields.hpp` 113-121). -/
def Pool.fieldByNumber (p : Pool) (d : MsgDesc) (number : Nat) : Option Nat :=
  p.findField d fun f => f.number == (number : Int)

/-- The key under which a field is written to JSON (`dynamic_message/json.hpp` 184-189);
`preserve` is the option `preserve_proto_field_names`. -/
def jsonKey (preserve : Bool) (f : FieldProto) : List Byte :=
  if preserve then f.name else f.jsonName

/-- The field that a key of a JSON object stands for (`dynamic_message/json.hpp` 250-253). -/
def Pool.fieldForKey (p : Pool) (d : MsgDesc) (key : List Byte) : Option Nat :=
  match p.fieldByJsonName d key with
  | some j => some j
  | none => p.fieldByName d key

end HppProto
