import Verif.Model.Outcome
import Verif.Model.Text

/-!
# The order of messages in a generated header

`src/protoc-plugin/hpp_generator.cpp`: which messages a message depends on (`resolve_message_dependencies`), in which order
the messages of a scope are written (`order_messages`), which fields are taken for recursive, and what is written
(`msg_code_generator::process`), reduced to declarations and the types they use.

Messages and fields are known by their position in the tables of the descriptor pool, which is the order of their addresses.
-/

namespace HppProto.Gen
open HppProto

/-- A name. -/
abbrev Name := List Byte

/-- The type of a field: `message` by position, `enum` by the message it is declared in and its full name in parts. -/
inductive Kind where
  | scalar
  | enum (owner : Option Nat) (path : List Name)
  | message (id : Nat)
  deriving DecidableEq, Repr

/-- `proto.type == TYPE_ENUM`. -/
def Kind.isEnum : Kind → Bool
  | .enum _ _ => true
  | _ => false

/-- Whether a field is in a oneof: `alone` is the only member. -/
inductive InOneof where
  | no | alone | member
  deriving DecidableEq, Repr

/-- What the generator reads of a message descriptor. `path` is the full name in parts. -/
structure Message where
  path : List Name
  file : Nat
  parent : Option Nat
  entry : Bool
  hasEnums : Bool
  deriving DecidableEq, Repr

/-- What the generator reads of a field descriptor. `extension`: in `extensions()` of the parent, not in `fields()`. -/
structure Field where
  parent : Option Nat
  extension : Bool
  kind : Kind
  repeated : Bool
  oneof : InOneof
  deriving DecidableEq, Repr

/-- The descriptor pool; `cpp` is `cpp_identifier` (74-81), `package` gives the package of a file in parts. -/
structure Schema where
  package : Nat → List Name
  messages : List Message
  fields : List Field
  cpp : Name → Name

/-- What the generator adds to the descriptors (`hpp_generator.cpp` 227-245, 428-439). `text` is `cpp_field_type` if this is a
single identifier. -/
structure State where
  deps : Nat → List Nat
  fwd : Nat → List Nat
  usedBy : Nat → List Nat
  recursive : Nat → Bool
  text : Nat → Option Name

/-- Before anything is resolved. -/
def State.initial : State where
  deps _ := []
  fwd _ := []
  usedBy _ := []
  recursive _ := false
  text _ := none

/-- A table with another entry. -/
def put {α : Type} (f : Nat → α) (i : Nat) (v : α) : Nat → α := fun j => if j = i then v else f j

/-- A full name. -/
def fullName (path : List Name) : List Byte := List.intercalate [0x2e] path

/-! ## Dependencies -/

/-- `std::ranges::mismatch`. -/
def commonLength : List Byte → List Byte → Nat
  | a :: s, b :: t => if a = b then commonLength s t + 1 else 0
  | _, _ => 0

/-- `find('.')`. -/
def firstDot : List Byte → Option Nat
  | [] => none
  | c :: s => if c = 0x2e then some 0 else (firstDot s).map (· + 1)

/-- `find_last_of('.')`. -/
def lastDot : List Byte → Option Nat
  | [] => none
  | c :: s =>
    match lastDot s with
    | some k => some (k + 1)
    | none => if c = 0x2e then some 0 else none

/-- `shared_scope_position` (`hpp_generator.cpp` 180-198). -/
def sharedScope (s1 s2 : List Byte) : Nat :=
  let pos := commonLength s1 s2
  if pos = s1.length ∧ pos = s2.length then pos
  else if 0 < pos then
    let (a, b) := if s2.length < s1.length then (s2, s1) else (s1, s2)
    if pos = a.length ∧ b[pos]? = some 0x2e then pos
    else match lastDot (a.take pos) with
      | some k => k
      | none => 0
  else 0

/-- `s.substr(0, s.find('.', from))`. -/
def upToDot (s : List Byte) (start : Nat) : List Byte :=
  match firstDot (s.drop start) with
  | some k => s.take (start + k)
  | none => s

/-- `s.substr(0, s.find_last_of('.'))`. -/
def upToLastDot (s : List Byte) : List Byte :=
  match lastDot s with
  | some k => s.take k
  | none => s

namespace Schema
variable (P : Schema)

/-- `get_message_descriptor`. -/
def find (name : List Byte) : Option Nat := P.messages.findIdx? fun m => fullName m.path == name

/-- A message. -/
def msg (m : Nat) : Message := P.messages.getD m ⟨[], 0, none, false, false⟩

/-- A field. -/
def field (i : Nat) : Field := P.fields.getD i ⟨none, false, .scalar, false, .no⟩

/-- `cpp_name` of a message (`hpp_generator.cpp` 443). -/
def cppName (m : Nat) : Name := P.cpp ((P.msg m).path.getLastD [])

/-- `fields()` of a message. -/
def fieldsOf (m : Nat) : List Nat :=
  (List.range P.fields.length).filter fun i => (P.field i).parent = some m && !(P.field i).extension

/-- `messages()` of a message; of a file with `none`. -/
def nested (file : Nat) (m : Option Nat) : List Nat :=
  (List.range P.messages.length).filter fun i => (P.msg i).parent = m && (P.msg i).file = file

/-- The full name of the type of a field, without the leading dot. -/
def typeName : Kind → List Byte
  | .scalar => []
  | .enum _ path => fullName path
  | .message t => fullName (P.msg t).path

/-- `set_field_cpp_type` (`hpp_generator.cpp` 720-754). Simplification: of the text only whether it is a single identifier, and
which. The text of a message type that is neither foreign, recursive nor nested ends in `<Traits>`. -/
def typeText (foreign isRecursive isNested : Bool) (kind : Kind) (relative : List Byte) : Option Name :=
  if foreign then none
  else if isRecursive then
    match kind with
    | .message t => some (P.cppName t)
    | _ => none
  else if relative.contains 0x2e then none
  else if isNested then some (P.cpp relative)
  else match kind with
    | .enum _ _ => some (P.cpp relative)
    | _ => none

/-- The end of `resolve_field_dependency` (`hpp_generator.cpp` 786-819), for a field that is no map, in a message with the full
name `name`. -/
def resolveType (st : State) (name : List Byte) (i : Nat) : State :=
  let kind := (P.field i).kind
  let fieldType := P.typeName kind
  let isEnum := kind.isEnum
  let dependee := if isEnum then upToLastDot fieldType else fieldType
  let common := name.take (sharedScope name dependee)
  let dependent := upToDot name (common.length + 1)
  let dependee := upToDot dependee (common.length + 1)
  let isRecursive := common.length = dependee.length && !isEnum
  let relative := fieldType.drop (common.length + if common.length < fieldType.length then 1 else 0)
  let text := P.typeText (P.find common).isNone isRecursive (common.length = name.length) kind relative
  let st := { st with recursive := put st.recursive i isRecursive, text := put st.text i text }
  if dependee.length = common.length ∨ dependent.length = common.length then st
  else match P.find dependent, P.find dependee with
    | some x, some y =>
      if (P.msg x).file = (P.msg y).file then
        { st with deps := put st.deps x (if y ∈ st.deps x then st.deps x else y :: st.deps x) }
      else st
    | _, _ => st

/-- `resolve_field_dependency` (`hpp_generator.cpp` 773-819). A map whose values are again map entries, which no compiler
produces, is not modelled. -/
def resolveDependency (st : State) (name : List Byte) (i : Nat) : Res State :=
  match (P.field i).kind with
  | .message t =>
    if (P.msg t).entry then
      match (P.fieldsOf t)[1]? with
      | none => .ub
      | some v =>
        match (P.field v).kind with
        | .scalar => .ok st
        | .enum _ _ => .ok (P.resolveType st name v)
        | .message u => if (P.msg u).entry then .stuck else .ok (P.resolveType st name v)
    else .ok (P.resolveType st name i)
  | _ => .ok (P.resolveType st name i)

/-- `qualified_parent_name` (`hpp_generator.cpp` 384-390). -/
def parentName (i : Nat) : List Byte :=
  match (P.field i).parent with
  | some m => fullName (P.msg m).path
  | none => []

/-- Is it a field of a map entry? -/
def inEntry (i : Nat) : Bool :=
  match (P.field i).parent with
  | some m => (P.msg m).entry
  | none => false

/-- `resolve_message_field` and `resolve_enum_field` (`hpp_generator.cpp` 821-843). -/
def resolveField (st : State) (i : Nat) : Res State :=
  match (P.field i).kind with
  | .scalar => .ok st
  | .enum _ _ => P.resolveDependency st (P.parentName i) i
  | .message t => do
    let st ← if P.inEntry i then .ok st else P.resolveDependency st (P.parentName i) i
    .ok { st with usedBy := put st.usedBy t (st.usedBy t ++ [i]) }

/-- The loop of `resolve_message_dependencies` (`hpp_generator.cpp` 1159-1173). -/
def resolveFrom (st : State) : List Nat → Res State
  | [] => .ok st
  | i :: is => do
    let st ← P.resolveField st i
    resolveFrom st is

/-- `resolve_message_dependencies` (`hpp_generator.cpp` 1148-1174). -/
def resolve : Res State := P.resolveFrom .initial (List.range P.fields.length)

/-! ## Order -/

/-- One turn of the loop of `order_messages` over the unresolved messages, from the last to the first
(`hpp_generator.cpp` 672-682): the messages still unresolved, and the resolved ones. -/
def pass (deps : Nat → List Nat) : List Nat → List Nat → List Nat × List Nat
  | [], done => ([], done)
  | m :: ms, done =>
    let (left, done) := pass deps ms done
    if (deps m).all (· ∈ done) then (left, done ++ [m]) else (m :: left, done)

/-- The parent of a field; there is none for an extension outside a message, whose null pointer is then followed
(`hpp_generator.cpp` 573-576, 597-600). -/
def owners : List Nat → Res (List (Nat × Nat))
  | [] => .ok []
  | i :: is => do
    let m ← match (P.field i).parent with
      | some m => .ok m
      | none => .ub
    let rest ← owners is
    .ok ((i, m) :: rest)

/-- Mark fields as recursive. -/
def mark (st : State) (is : List Nat) : State :=
  { st with recursive := fun i => st.recursive i || is.contains i }

/-- Take `d` out of the dependencies of `m` and declare it ahead of `m`. -/
def declareAhead (st : State) (m d : Nat) : State :=
  { st with
    deps := put st.deps m ((st.deps m).filter (· ≠ d))
    fwd := put st.fwd m (if d ∈ st.fwd m then st.fwd m else d :: st.fwd m) }

/-- The first message all of whose uses are repeated (`hpp_generator.cpp` 580-591). The keys of the `std::map` are in order of
address. -/
def repeatedFrom (us : List (Nat × Nat)) : Option Nat :=
  (List.range P.messages.length).find? fun m =>
    us.any (fun u => u.2 = m) && us.all (fun u => u.2 ≠ m || (P.field u.1).repeated) && !(P.msg m).entry

/-- `resolve_repeated_dependency_cycle` (`hpp_generator.cpp` 568-592). -/
def breakRepeated (st : State) (left : List Nat) (d : Nat) : Res (State × Option Nat) := do
  let us ← P.owners (st.usedBy d)
  let us := us.filter fun u => (P.msg u.2).file = (P.msg d).file && u.2 ∈ left
  let st := mark st (us.map Prod.fst)
  match P.repeatedFrom us with
  | some m => .ok (declareAhead st m d, some m)
  | none => .ok (st, none)

/-- The owner of the first map entry among the users (`hpp_generator.cpp` 610-632). -/
def mapFrom (left : List Nat) (us : List (Nat × Nat)) : Option Nat :=
  (List.range P.messages.length).findSome? fun m =>
    if us.any (fun u => u.2 = m) && (P.msg m).entry then
      match (P.msg m).parent with
      | some owner => if owner ∈ left then some owner else none
      | none => none
    else none

/-- `resolve_map_dependency_cycle` (`hpp_generator.cpp` 594-633). -/
def breakMap (st : State) (left : List Nat) (d : Nat) : Res (State × Option Nat) := do
  let us ← P.owners (st.usedBy d)
  let us := us.filter fun u => (P.msg u.2).file = (P.msg d).file && (u.2 ∈ left || (P.msg u.2).entry)
  let st := mark st (us.map Prod.fst)
  match P.mapFrom left us with
  | some owner => .ok (declareAhead st owner d, some owner)
  | none => .ok (st, none)

/-- The two loops of `resolve_container_dependency_cycle` (`hpp_generator.cpp` 635-649). -/
def breakAny (one : State → Nat → Res (State × Option Nat)) (st : State) : List Nat → Res (State × Option Nat)
  | [] => .ok (st, none)
  | d :: ds => do
    let (st, found) ← one st d
    match found with
    | some m => .ok (st, some m)
    | none => breakAny one st ds

/-- `resolve_container_dependency_cycle` (`hpp_generator.cpp` 635-649). -/
def breakContainer (st : State) (left : List Nat) : Res (State × Option Nat) := do
  let (st, found) ← breakAny (fun st d => P.breakRepeated st left d) st left
  match found with
  | some m => .ok (st, some m)
  | none => breakAny (fun st d => P.breakMap st left d) st left

/-- The fields of a message and of the messages nested in it (the recursion of `hpp_generator.cpp` 556-565), with the depth of
nesting as fuel. -/
def fieldsBelow : Nat → Nat → List Nat
  | 0, _ => []
  | n + 1, m => P.fieldsOf m ++ (P.nested (P.msg m).file (some m)).flatMap (fieldsBelow n)

/-- `mark_field_recursive` (`hpp_generator.cpp` 556-565). -/
def markNamed (st : State) (m d : Nat) : State :=
  mark st ((P.fieldsBelow P.messages.length m).filter fun i => st.text i == some (P.cppName d))

/-- `resolve_dependency_cycle` (`hpp_generator.cpp` 651-655): the first dependency is the one with the lowest address. -/
def breakCycle (st : State) (m : Nat) : Res State :=
  match (st.deps m).min? with
  | none => .ub
  | some d => .ok (P.markNamed (declareAhead st m d) m d)

/-- `operator<` of identifiers. -/
def nameLe : Name → Name → Bool
  | [], _ => true
  | _ :: _, [] => false
  | a :: s, b :: t => a.toNat < b.toNat || (a = b && nameLe s t)

/-- A message put in its place. -/
def insertByName (m : Nat) : List Nat → List Nat
  | [] => [m]
  | k :: t => if nameLe (P.cppName m) (P.cppName k) then m :: k :: t else k :: insertByName m t

/-- `std::ranges::sort` by `cpp_name`, of messages of one scope (`hpp_generator.cpp` 693). -/
def byName (l : List Nat) : List Nat := l.foldr P.insertByName []

/-- The `while` loop of `order_messages` (`hpp_generator.cpp` 671-698). -/
def orderLoop : (fuel : Nat) → State → (left done : List Nat) → Res (List Nat × State)
  | 0, _, _, _ => .stuck
  | fuel + 1, st, left, done =>
    if left = [] then .ok (done, st)
    else
      let (left', done') := pass st.deps left done
      if left'.length < left.length then orderLoop fuel st left' done'
      else do
        let (st, found) ← P.breakContainer st left
        match found with
        | some m => orderLoop fuel st (left.filter (· ≠ m)) (done ++ [m])
        | none =>
          let left := P.byName left
          match left.getLast? with
          | none => .ub
          | some x => do
            let st ← P.breakCycle st x
            orderLoop fuel st left done

/-- Enough turns for `orderLoop`. -/
def turns (st : State) (ms : List Nat) : Nat := ms.length + (ms.map fun m => (st.deps m).length).sum + 1

/-- `order_messages` (`hpp_generator.cpp` 657-700). -/
def order (st : State) (ms : List Nat) : Res (List Nat × State) :=
  P.orderLoop (turns st ms) st (ms.filter fun m => st.deps m ≠ []) (ms.filter fun m => st.deps m = [])

/-! ## What is written -/

/-- The use of a type by a member of a struct; `value`: the member contains an object of the type. -/
structure Use where
  field : Nat
  kind : Kind
  value : Bool
  deriving DecidableEq, Repr

/-- What is written: a declaration `template <typename Traits> struct m;`, the enums of a message, the struct of a message with
the types its members use. -/
inductive Event where
  | fwd (m : Nat)
  | enums (m : Nat)
  | define (m : Nat) (uses : List Use)
  deriving DecidableEq, Repr

/-- Is the member of a message type declared with the type itself, `std::optional`, or an alternative of `std::variant`?
(`field_type_wrapper`, `field_type`, `needs_indirect_oneof_alternative`, `oneof_field_type`, `process` of oneofs,
`hpp_generator.cpp` 1237-1256, 1268-1290, 1292-1312, 1343-1380; with the default traits) -/
def byValue (st : State) (f : Field) (i t : Nat) : Bool :=
  !f.repeated &&
    match f.oneof with
    | .no => !st.recursive i
    | .alone => true
    | .member =>
      match f.parent with
      | some m => m ∉ st.fwd t
      | none => true

/-- The types used by a field (`hpp_generator.cpp` 1268-1290, 1343-1380): a map uses the type of its values. -/
def usesOf (st : State) (i : Nat) : List Use :=
  match (P.field i).kind with
  | .scalar => []
  | .enum o p => [⟨i, .enum o p, true⟩]
  | .message t =>
    if (P.msg t).entry then
      match (P.fieldsOf t)[1]? with
      | some v =>
        match (P.field v).kind with
        | .scalar => []
        | k => [⟨v, k, false⟩]
      | none => []
    else [⟨i, .message t, byValue st (P.field i) i t⟩]

/-- The messages of a scope in order (`hpp_generator.cpp` 1218-1220, 1438-1440). -/
def emitList (one : State → Nat → Res (List Event × State)) (st : State) : List Nat → Res (List Event × State)
  | [] => .ok ([], st)
  | m :: ms => do
    let (a, st) ← one st m
    let (b, st) ← emitList one st ms
    .ok (a ++ b, st)

/-- `process` of a message (`hpp_generator.cpp` 1415-1470); the fuel is the depth of nesting. -/
def emit : (fuel : Nat) → State → Nat → Res (List Event × State)
  | 0, _, _ => .stuck
  | fuel + 1, st, m =>
    if (P.msg m).entry then .ok ([], st)
    else do
      let ahead := (st.fwd m).map .fwd
      let inner := P.nested (P.msg m).file (some m)
      let (body, st) ← (
        if (P.msg m).hasEnums || inner.any (fun n => !(P.msg n).entry) then do
          let (o, st) ← P.order st inner
          emitList (emit fuel) st o
        else .ok ([], st) : Res (List Event × State))
      let enums := if (P.msg m).hasEnums then [.enums m] else []
      .ok (ahead ++ enums ++ body ++ [.define m ((P.fieldsOf m).flatMap (P.usesOf st))], st)

/-- `process` of a file (`hpp_generator.cpp` 1186-1222). -/
def emitFile (st : State) (file : Nat) : Res (List Event × State) := do
  let (o, st) ← P.order st (P.nested file none)
  emitList (P.emit P.messages.length) st o

/-- The message header of a file (`hpp_generator.cpp` 2440-2450, 2551-2566): the dependencies of all files are resolved, then
the file is written. -/
def header (file : Nat) : Res (List Event) := do
  let st ← P.resolve
  let (es, _) ← P.emitFile st file
  .ok es

end Schema
end HppProto.Gen
