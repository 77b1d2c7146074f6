import Verif.Model.MessageMemory

/-!
# What nested messages mean

Messages are trees: a field that is not a message has a value, a message field has no or one message,
a repeated message field has a list of messages.  A program has some messages; calls change the tree
at a path and nothing else, and copying makes the destination equal to the source.
-/

namespace HppProto.MsgSpec

open HppProto.MsgMem (MTypes MField MPath MOp MState getSlot)

/-- The content of a field; a message is the list of the contents of its fields. -/
inductive MTree (V : Type) where
  | val (v : V) | kids (rows : List (List (MTree V)))

variable {V : Type} [Inhabited V]

/-- A field that was not set. -/
def blankField : MField → MTree V
  | .val => .val default
  | _ => .kids []

/-- A message without any field set. -/
def blank (T : MTypes) (t : Nat) : List (MTree V) := (T t).map blankField

/-- The type of the messages in a field. -/
def MField.kid : MField → Option Nat
  | .val => none
  | .one t => some t
  | .many t => some t

/-- The message at the end of some steps, with its type. -/
def get (T : MTypes) : Nat → List (MTree V) → List (Nat × Nat) → Option (Nat × List (MTree V))
  | t, row, [] => some (t, row)
  | t, row, (k, i) :: steps => do
    let u ← (T t)[k]? >>= MField.kid
    match row[k]? with
    | some (.kids rows) => do
      let c ← rows[i]?
      get T u c steps
    | _ => none

/-- Change the message at the end of some steps. -/
def upd (T : MTypes) (f : Nat → List (MTree V) → Option (List (MTree V))) :
    Nat → List (MTree V) → List (Nat × Nat) → Option (List (MTree V))
  | t, row, [] => f t row
  | t, row, (k, i) :: steps => do
    let u ← (T t)[k]? >>= MField.kid
    match row[k]? with
    | some (.kids rows) => do
      let c ← rows[i]?
      let c ← upd T f u c steps
      some (row.set k (.kids (rows.set i c)))
    | _ => none

/-- The messages of a program, with their types. -/
abbrev Trees (V : Type) := List (Nat × List (MTree V))

def Trees.get (T : MTypes) (s : Trees V) (a : MPath) : Option (Nat × List (MTree V)) := do
  let (t, row) ← s[a.root]?
  MsgSpec.get T t row a.steps

def Trees.upd (T : MTypes) (s : Trees V) (a : MPath)
    (f : Nat → List (MTree V) → Option (List (MTree V))) : Option (Trees V) := do
  let (t, row) ← s[a.root]?
  let row ← MsgSpec.upd T f t row a.steps
  some (s.set a.root (t, row))

/-- Change a list of messages. -/
def onList (row : List (MTree V)) (k : Nat)
    (f : List (List (MTree V)) → List (List (MTree V))) : Option (List (MTree V)) :=
  match row[k]? with
  | some (.kids rows) => some (row.set k (.kids (f rows)))
  | _ => none

/-- `n` elements: the first ones, and blank ones where there are not enough. -/
def sized (T : MTypes) (u n : Nat) (rows : List (List (MTree V))) : List (List (MTree V)) :=
  rows.take n ++ List.replicate (n - rows.length) (blank T u)

/-- What each call does to the trees; `none` where there is no such message or field. -/
def step (T : MTypes) (s : Trees V) : MOp V → Option (Trees V)
  | .new t => some (s ++ [(t, blank T t)])
  | .setVal a k v => s.upd T a fun t row =>
    match (T t)[k]? with
    | some .val => some (row.set k (.val v))
    | _ => none
  | .emplace a k => s.upd T a fun t row =>
    match (T t)[k]? with
    | some (.one u) => some (row.set k (.kids [blank T u]))
    | _ => none
  | .clear a k => s.upd T a fun t row =>
    match (T t)[k]? with
    | some (.one _) => some (row.set k (.kids []))
    | some (.many _) => some (row.set k (.kids []))
    | _ => none
  | .reserve a k _ => s.upd T a fun t row =>
    match (T t)[k]? with
    | some (.many _) => some row
    | _ => none
  | .resize a k n => s.upd T a fun t row =>
    match (T t)[k]? with
    | some (.many u) => onList row k (sized T u n)
    | _ => none
  | .add a k => s.upd T a fun t row =>
    match (T t)[k]? with
    | some (.many u) => onList row k (· ++ [blank T u])
    | _ => none
  | .reset a => s.upd T a fun t _ => some (blank T t)
  | .copy a src => do
    let (u, c) ← s.get T src
    s.upd T a fun t _ => if u = t then some c else none
  | .copyField a k src => do
    let (u, c) ← s.get T src
    s.upd T a fun t row => if u = t then (c[k]?).map (row.set k) else none
  | .set a k src => do
    let (u, c) ← s.get T src
    s.upd T a fun t row => if (T t)[k]? = some (.one u) then some (row.set k (.kids [c])) else none
  | .alias a src => do
    let (u, c) ← s.get T src
    s.upd T a fun t _ => if u = t then some c else none
  | .aliasField a k src => do
    let (u, c) ← s.get T src
    s.upd T a fun t row => if u = t then (c[k]?).map (row.set k) else none

/-- A history. -/
def run (T : MTypes) : List (MOp V) → Trees V → Option (Trees V)
  | [], s => some s
  | o :: os, s => do
    let s ← step T s o
    run T os s

/-- Neither message is the other one or a part of it. -/
def Apart (a b : MPath) : Prop :=
  a.root = b.root → ¬ a.steps <+: b.steps ∧ ¬ b.steps <+: a.steps

/-- The message in the field `k` of the message at a path. -/
def child (a : MPath) (k : Nat) : MPath := ⟨a.root, a.steps ++ [(k, 0)]⟩

/-- Calls that share nothing: `alias_from` is not used, and when copying, source and destination are
apart. -/
def Separate : MOp V → Prop
  | .copy a src => Apart a src
  | .copyField a _ src => Apart a src
  | .set a k src => Apart (child a k) src
  | .alias _ _ => False
  | .aliasField _ _ _ => False
  | _ => True

/-- The message that a call changes. -/
def target : MOp V → Option MPath
  | .new _ => none
  | .setVal a _ _ => some a
  | .emplace a _ => some a
  | .clear a _ => some a
  | .reserve a _ _ => some a
  | .resize a _ _ => some a
  | .add a _ => some a
  | .reset a => some a
  | .copy a _ => some a
  | .copyField a _ _ => some a
  | .set a _ _ => some a
  | .alias a _ => some a
  | .aliasField a _ _ => some a

/-- What a program reads is what the trees say: the same messages can be reached, and in each of them
every field reads the same: its value, or how many messages it has. -/
def Shows (T : MTypes) (s : MState V) (w : Trees V) : Prop :=
  ∀ a, match w.get T a with
    | none => s.find T a = none
    | some (t, row) => ∃ b r, s.find T a = some (t, b, r) ∧ ∀ k : Nat, match row[k]? with
      | none => k ≥ (T t).length
      | some (.val v) => getSlot s.mem b r k = .ok (.val v)
      | some (.kids rows) => ∃ p c, getSlot s.mem b r k = .ok (.kids p c rows.length)

end HppProto.MsgSpec
