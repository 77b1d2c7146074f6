import Verif.Proofs.ReadPrim
/-!
# Record-by-record reading, as a relation

`(sem C d).msg id m bs m'`: reading the bytes `bs` on top of message `m` gives `m'`, with
`d` recursion scopes. One record at a time, no lookahead, no positions, no fuel.
`Verif/Proofs/ReadLevel.lean` proves that the model of the reader computes this relation.
-/
namespace HppProto
open Spec

/-- Value of a scalar field from a record (before enum narrowing). -/
def recScalar (C : Cfg) (sc : Scalar) : Rec → Option Val
  | .varint _ _ v =>
    match sc with
    | .varint ty => if v.length ≤ ty.mix.maxLen then some (.num (ty.parse (memOf v)).2) else none
    | .bool => some (.num (if (parseBool (memOf v)).2 then 1 else 0))
    | .enum _ => some (.num (VarTy.i64.parse (memOf v)).2)
    | _ => none
  | .fixed _ _ v =>
    match sc with
    | .fixed32 _ => if v.length = 4 then some (.num (leVal v)) else none
    | .fixed64 _ => if v.length = 8 then some (.num (leVal v)) else none
    | _ => none
  | .len _ _ _ v =>
    match sc with
    | .str u => if u && !C.utf8 v then none else some (.bytes v)
    | _ => none
  | .group _ _ _ _ => none

/-- Elements of a packed list. -/
def packedVals (sc : Scalar) (v : List Byte) : Option (List Val) :=
  match sc with
  | .fixed32 _ => if v.length % 4 = 0 then some ((chunksLe 4 (v.length / 4) v).map .num) else none
  | .fixed64 _ => if v.length % 8 = 0 then some ((chunksLe 8 (v.length / 8) v).map .num) else none
  | .bool => (rdPackedBools (countTerm v) v).bind (fun p =>
      if p.1 = v.length then some (p.2.map (fun b => .num (if b then 1 else 0))) else none)
  | .varint ty => (rdPacked ty (countTerm v) v).map (·.map .num)
  | .enum _ => (rdPacked .i64 (countTerm v) v).map (·.map (fun v => .num (VarTy.i32.cast v)))
  | .str _ => none

/-- Reading of embedded messages and groups, one level down. -/
structure Sem where
  msg : Nat → Msg → List Byte → Msg → Prop
  grp : Nat → Msg → List Rec → Msg → Prop
  depth : Nat

section
variable (C : Cfg) (S : Sem)

/-- A message- or group-valued record on top of `m`. -/
def recMsg (k : Kind) (r : Rec) (m m' : Msg) : Prop :=
  match k, r with
  | .msg id, .len _ _ _ v => ¬ (v = [] ∧ (C.schema id).isEntry = true) ∧ S.msg id m v m'
  | .group id, .group _ _ body _ => S.grp id m body m'
  | _, _ => False

/-- A value of any kind on top of `old`. -/
def recValue (k : Kind) (old : Val) (r : Rec) (v : Val) : Prop :=
  match k with
  | .scalar sc => ∃ w, recScalar C sc r = some w ∧ v = narrow sc w
  | .msg id => ∃ m, recMsg C S k r (old.asMsg (C.schema id).default) m ∧ v = .msg m
  | .group id => ∃ m, recMsg C S k r (old.asMsg (C.schema id).default) m ∧ v = .msg m

/-- One element of a repeated field. -/
def elemStep (mode : UnkMode) (k : Kind) (unique : Bool) (i : Nat) (r : Rec) (m m' : Msg) : Prop :=
  match k with
  | .scalar sc => ∃ w, recScalar C sc r = some w ∧
      m' = if sc.valid (narrow sc w) then appendVals m i [narrow sc w]
        else m.addUnk mode (tagNumber r.tag) (unkEnumRecord (tagNumber r.tag) (narrow sc w).bits)
  | .msg id => ∃ e, recMsg C S k r (C.schema id).default e ∧
      m' = if unique then m.put i (insertOrAssign (.msg e) (m.get i)) else appendVals m i [.msg e]
  | .group id => ∃ e, recMsg C S k r (C.schema id).default e ∧ m' = appendVals m i [.msg e]

/-- A packed list. -/
def packedStep (mode : UnkMode) (number : BitVec 32) (sc : Scalar) (i : Nat) (v : List Byte) (m m' : Msg) : Prop :=
  if v = [] then m' = m
  else ∃ vs, packedVals sc v = some vs ∧
    m' = divertInvalid sc mode number vs (appendVals m i (vs.filter sc.valid))

/-- A record of a repeated field or map. -/
def repStep (mode : UnkMode) (number : BitVec 32) (k : Kind) (unique : Bool) (i : Nat) (r : Rec) (m m' : Msg) : Prop :=
  match k, r with
  | .scalar sc, .len _ _ _ v =>
    if sc.packable then packedStep mode number sc i v m m' else elemStep C S mode k unique i r m m'
  | _, _ => elemStep C S mode k unique i r m m'

/-- A record of the member `sd`, which has index `i`. -/
def slotStep (mode : UnkMode) (i : Nat) (sd : SlotD) (r : Rec) (m m' : Msg) : Prop :=
  match sd with
  | .field number k card =>
    match card with
    | .implicit _ => ∃ v, recValue C S k (curVal C k m i) r v ∧ m' = m.put i [(0, v)]
    | .always _ =>
      match k with
      | .scalar sc => ∃ w, recScalar C sc r = some w ∧ sc.valid w = true ∧ m' = m.put i [(0, narrow sc w)]
      | _ => ∃ v, recValue C S k (curVal C k m i) r v ∧ m' = m.put i [(0, v)]
    | .optional =>
      match k with
      | .scalar sc => ∃ w, recScalar C sc r = some w ∧
          m' = if sc.valid w then m.put i [(0, narrow sc w)]
            else m.addUnk mode number (unkEnumRecord number w.bits)
      | _ => ∃ v, recValue C S k (curVal C k m i) r v ∧ m' = m.put i [(0, v)]
    | .repeated _ => repStep C S mode number k false i r m m'
    | .map unique => repStep C S mode number k unique i r m m'
  | .oneof alts => ∃ j k, findAlt (tagNumber r.tag) alts 0 = some (j, k) ∧
      match k with
      | .scalar sc => ∃ w, recScalar C sc r = some w ∧
          if sc.valid w then
            (k.closed = true → (m.get i).map Prod.fst = [j]) ∧ m' = m.put i [(j, narrow sc w)]
          else m' = m.addUnk mode (tagNumber r.tag) (unkEnumRecord (tagNumber r.tag) w.bits)
      | _ => ∃ v, recValue C S k
          (match m.get i with | (a, v) :: _ => if a = j then v else k.zero C | [] => k.zero C) r v ∧
          m' = m.put i [(j, v)]

/-- Bytes stored for an unknown record. The first of a run of records with one tag loses
superfluous leading bytes of its tag (deserialize.hpp 509-514, 679). -/
def captured (cont : Bool) (r : Rec) : List Byte :=
  (if cont then r.head else r.head.drop (r.head.length - varintSize 32 r.tag.toNat)) ++ r.payload

/-- A record of any kind in a message of type `D`. -/
def step (D : MsgD) (cont : Bool) (r : Rec) (m m' : Msg) : Prop :=
  tagNumber r.tag ≠ 0#32 ∧
  match D.find (tagNumber r.tag) with
  | some i => ∃ sd, D.slots[i]? = some sd ∧ slotStep C S D.unk i sd r m m'
  | none => r.depth ≤ S.depth ∧ m' = m.addUnk D.unk (tagNumber r.tag) (captured cont r)

/-- Does the record continue a run of unknown records with tag `last`? -/
def contd (last : Option (BitVec 32)) (r : Rec) : Bool := last == some r.tag && decide (r.head.length ≤ 4)

/-- Tag of the run that the record belongs to. -/
def nextRun (D : MsgD) (r : Rec) : Option (BitVec 32) :=
  if D.unk = .none then none
  else match D.find (tagNumber r.tag) with
  | some _ => none
  | none => some r.tag

/-- Records in sequence. -/
def fold (D : MsgD) : Option (BitVec 32) → List Rec → Msg → Msg → Prop
  | _, [], m, m' => m = m'
  | last, r :: rs, m, m' => ∃ m1, step C S D (contd last r) r m m1 ∧ fold D (nextRun D r) rs m1 m'

end

/-- First byte of a map entry must be a tag of field 1 (deserialize.hpp 1346-1352). -/
def entryHead (D : MsgD) (bs : List Byte) : Prop :=
  D.isEntry = true → ∀ b l, bs = b :: l → b >>> 3 = 1#8

/-- Reading with `d` recursion scopes. -/
def sem (C : Cfg) : Nat → Sem
  | 0 => ⟨fun _ _ _ _ => False, fun _ _ _ _ => False, 0⟩
  | d + 1 =>
    { msg := fun id m bs m' => ∃ rs, wfAll rs ∧ rawAll rs = bs ∧ entryHead (C.schema id) bs ∧
        fold C (sem C d) (C.schema id) none rs m m'
      grp := fun id m body m' => fold C (sem C d) (C.schema id) none body m m'
      depth := d + 1 }

theorem sem_depth (C : Cfg) (d : Nat) : (sem C d).depth = d := by cases d <;> rfl

end HppProto
