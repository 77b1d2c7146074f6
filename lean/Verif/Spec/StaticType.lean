import Verif.Model.Dynamic

/-!
# The generated type that corresponds to a dynamic one

Specification: which message type (`Verif/Model/Schema.lean`) a schema has as generated code, and when a
dynamic message and a generated message hold the same values. Dynamic messages keep no unknown fields, so
the generated type keeps none either. Maps are sequences of pairs, as in the non-owning traits of
generated code; required message fields are compared with optional ones.
-/

namespace HppProto

/-- The fields of a message, the members of a oneof (which stand next to each other) together. -/
def groupFields : List DynField → List (List DynField)
  | [] => []
  | f :: fs =>
    match groupFields fs with
    | (g :: gs) :: rest =>
      if f.oneof ≠ none ∧ f.oneof = g.oneof then (f :: g :: gs) :: rest else [f] :: (g :: gs) :: rest
    | rest => [f] :: rest

/-- The default of a number or string field. -/
def DynField.default (f : DynField) : Val :=
  if f.kind.isStr then .bytes f.dflt.str else .num f.dflt.bits

/-- Must the field always be there: a required field, or the key or value of a map entry? -/
def DynField.must (entry : Bool) (f : DynField) : Bool := f.required || entry

/-- How a generated message stores the field, when `blank` are the new messages. -/
def DynField.card (T : DynTypes) (blank : Nat → Msg) (entry : Bool) (f : DynField) : Card :=
  if f.repeated then
    match f.kind with
    | .msg id => if (T id).entry then .map false else .repeated f.packed
    | _ => .repeated f.packed
  else match f.kind.msgType with
    | some id => if entry then .always (.msg (blank id)) else .optional
    | none =>
      if f.must entry then .always f.default
      else if f.explicit then .optional
      else .implicit f.default

/-- A member of a generated message: a field, or a oneof. -/
def staticSlot (T : DynTypes) (blank : Nat → Msg) (entry : Bool) : List DynField → SlotD
  | [f] =>
    match f.oneof with
    | none => .field f.number f.kind (f.card T blank entry)
    | some _ => .oneof [(f.number, f.kind)]
  | fs => .oneof (fs.map fun f => (f.number, f.kind))

/-- A new generated message. The type of the value of a map is not itself a map entry. -/
def DynTypes.blank (T : DynTypes) (id : Nat) : Msg :=
  ⟨(groupFields (T id).fields).map fun fs =>
    (staticSlot T (fun _ => ⟨[], []⟩) false fs).initial, []⟩

/-- The generated types. -/
def DynTypes.cfg (T : DynTypes) (utf8 : List Byte → Bool) : Cfg where
  schema id :=
    { slots := (groupFields (T id).fields).map (staticSlot T T.blank (T id).entry)
      unk := .none
      isEntry := (T id).entry }
  utf8 := utf8

/-- The value `v` is what the singular field holds. `rel` relates messages. -/
def holdsValue (rel : Nat → DynMsg → Msg → Prop) (f : DynField) (m : DynMsg) (v : Val) : Prop :=
  match f.kind with
  | .scalar (.str _) => ∃ bs, f.value m = .str bs ∧ v = .bytes bs
  | .scalar _ => ∃ x, f.value m = .num x ∧ v = .num x
  | .msg id | .group id => ∃ s N, f.value m = .msg s ∧ v = .msg N ∧ rel id s N

/-- The values `vs` are the elements of the repeated field. -/
def holdsList (rel : Nat → DynMsg → Msg → Prop) (f : DynField) (m : DynMsg) (vs : List Val) : Prop :=
  match f.kind with
  | .scalar (.str _) => ∃ bs, f.value m = .strs bs ∧ vs = bs.map .bytes
  | .scalar _ => ∃ xs : List (BitVec 64), f.value m = .nums (xs.map some) ∧ vs = xs.map .num
  | .msg id | .group id => ∃ ss Ns, f.value m = .msgs ss ∧ vs = Ns.map .msg ∧ ss.length = Ns.length ∧
      ∀ p ∈ ss.zip Ns, rel id p.1 p.2

/-- A member of a generated message holds what the fields of the dynamic message hold: the value of the
field that is there, its initial value when none is there, or the elements. With `full`, fields that
must be there are there. -/
def holdsSlot (full : Prop) (rel : Nat → DynMsg → Msg → Prop) (initial : List (Nat × Val)) (entry : Bool)
    (fs : List DynField) (m : DynMsg) (es : List (Nat × Val)) : Prop :=
  (∃ j f v, fs[j]? = some f ∧ f.repeated = false ∧ f.hasValue m = true ∧ holdsValue rel f m v ∧
    es = [(j, v)]) ∨
  ((∀ f ∈ fs, f.repeated = false ∧ f.hasValue m = false ∧ (full → f.must entry = false)) ∧
    es = initial) ∨
  (∃ f vs, fs = [f] ∧ f.repeated = true ∧ holdsList rel f m vs ∧ es = vs.map fun v => (0, v))

/-- The generated message `M` of type `id` holds what the dynamic message `m` holds, both nested at most
`d` deep. -/
def HoldsAt (T : DynTypes) (full : Prop) : (d : Nat) → Nat → DynMsg → Msg → Prop
  | 0, _, _, _ => False
  | d + 1, id, m, M =>
    m.length = (T id).slots ∧ M.unk = [] ∧ M.slots.length = (groupFields (T id).fields).length ∧
    ∀ i fs, (groupFields (T id).fields)[i]? = some fs →
      holdsSlot full (HoldsAt T full d) (staticSlot T T.blank (T id).entry fs).initial (T id).entry fs m
        (M.get i)

/-- The generated message holds what the dynamic message holds. -/
def DynHolds (T : DynTypes) (full : Prop) (id : Nat) (m : DynMsg) (M : Msg) : Prop :=
  ∃ d, HoldsAt T full d id m M

end HppProto
