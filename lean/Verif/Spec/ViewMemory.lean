import Verif.Model.ViewMemory

/-!
# What non-owning messages mean

Each message of a program is a value: a tree.  Reading changes one tree as the bytes ask for, assigning
makes one tree equal to another one or to a part of it, and nothing else changes any tree: not what is
done to other messages, and not what is done to the buffers of inputs.
-/

namespace HppProto.ViewSpec

open HppProto.ViewMem (VTypes VKind VUpd VOp VPath VLook VState)

/-- The content of a member; a message is the list of the contents of its members. -/
inductive VTree (V : Type) where
  | val (v : V) | vals (vs : List V) | ptr (c : Option (List (VTree V))) | many (rows : List (List (VTree V)))

variable {V : Type} [Inhabited V] [DecidableEq V]

/-- A member that was not set. -/
def VKind.blank : VKind → VTree V
  | .val => .val default
  | .vals => .vals []
  | .ptr _ => .ptr none
  | .many _ => .many []
  | .exts => .many []

/-- A message without any member set. -/
def blank (T : VTypes) (t : Nat) : List (VTree V) := (T t).map VKind.blank

/-- More bytes for an extension or unknown field by number: appended to those with the same number, or
a new entry at the end. -/
def addExt (num : V) (vs : List V) : List (List (VTree V)) → List (List (VTree V))
  | [] => [[.val num, .vals vs]]
  | [.val n, .vals old] :: rest =>
    if n = num then [.val n, .vals (old ++ vs)] :: rest else [.val n, .vals old] :: addExt num vs rest
  | row :: rest => row :: addExt num vs rest

mutual
/-- What one change does to a message, and whether reading goes on: numbers and strings are replaced,
elements are appended, messages are merged.  A new message in which there is an error is not kept.
There is no result for a change of a member of another kind.  `inp` is the input. -/
def updU (T : VTypes) (inp : List V) : VUpd V → (t : Nat) → List (VTree V) → Option (List (VTree V) × Bool)
  | .val k v, _, c =>
    match c[k]? with
    | some (.val _) => some (c.set k (.val v), true)
    | _ => none
  | .str k vs, _, c =>
    match c[k]? with
    | some (.vals _) => some (c.set k (.vals vs), true)
    | _ => none
  | .app k vs, _, c =>
    match c[k]? with
    | some (.vals old) => some (c.set k (.vals (old ++ vs)), true)
    | _ => none
  | .sub k us, t, c =>
    match (T t)[k]?, c[k]? with
    | some (.ptr u), some (.ptr (some d)) =>
      match updAll T inp us u d with
      | some (d, ok) => some (c.set k (.ptr (some d)), ok)
      | none => none
    | some (.ptr u), some (.ptr none) =>
      match updAll T inp us u (blank T u) with
      | some (d, true) => some (c.set k (.ptr (some d)), true)
      | some (_, false) => some (c, false)
      | none => none
    | _, _ => none
  | .many k uss, t, c =>
    match (T t)[k]?, c[k]? with
    | some (.many u), some (.many old) =>
      match updElems T inp uss u with
      | some (new, ok) => some (c.set k (.many (old ++ new)), ok)
      | none => none
    | _, _ => none
  | .fail, _, c => some (c, false)
  | .view k off n, _, c =>
    match c[k]? with
    | some (.vals _) =>
      if off + n ≤ inp.length then some (c.set k (.vals ((inp.drop off).take n)), true) else none
    | _ => none
  | .ext k num vs, _, c =>
    match c[k]? with
    | some (.many rows) => some (c.set k (.many (addExt num vs rows)), true)
    | _ => none
  | .unkEnum k num vs, _, c =>
    match c[k]? with
    | some (.many rows) => some (c.set k (.many (addExt num vs rows)), true)
    | _ => none

/-- Changes in order, up to the first error. -/
def updAll (T : VTypes) (inp : List V) : List (VUpd V) → (t : Nat) → List (VTree V) → Option (List (VTree V) × Bool)
  | [], _, c => some (c, true)
  | u :: us, t, c =>
    match updU T inp u t c with
    | some (c, true) => updAll T inp us t c
    | some (c, false) => some (c, false)
    | none => none

/-- New elements; those after an error are blank. -/
def updElems (T : VTypes) (inp : List V) : List (List (VUpd V)) → (t : Nat) → Option (List (List (VTree V)) × Bool)
  | [], _ => some ([], true)
  | us :: uss, t =>
    match updAll T inp us t (blank T t) with
    | some (d, true) =>
      match updElems T inp uss t with
      | some (ds, ok) => some (d :: ds, ok)
      | none => none
    | some (d, false) => some (d :: List.replicate uss.length (blank T t), false)
    | none => none
end

mutual
/-- Changes without views of the input and without extensions. -/
def plainU : VUpd V → Bool
  | .view _ _ _ => false
  | .ext _ _ _ => false
  | .unkEnum _ _ _ => false
  | .sub _ us => plainAll us
  | .many _ uss => plainElems uss
  | _ => true
def plainAll : List (VUpd V) → Bool
  | [] => true
  | u :: us => plainU u && plainAll us
def plainElems : List (List (VUpd V)) → Bool
  | [] => true
  | us :: uss => plainAll us && plainElems uss
end

/-- The messages of a program with their types, and its inputs. -/
structure Values (V : Type) where
  (vars : List (Nat × List (VTree V))) (inputs : List (List V))

/-- The part of a message at the end of some steps. -/
def get (T : VTypes) : Nat → List (VTree V) → List (Nat × Nat) → Option (Nat × List (VTree V))
  | t, c, [] => some (t, c)
  | t, c, (k, i) :: steps =>
    match (T t)[k]?, c[k]? with
    | some (.ptr u), some (.ptr (some d)) => if i = 0 then get T u d steps else none
    | some (.many u), some (.many rows) =>
      match rows[i]? with
      | some d => get T u d steps
      | none => none
    | _, _ => none

def Values.get (T : VTypes) (w : Values V) (a : VPath) : Option (Nat × List (VTree V)) :=
  match w.vars[a.root]? with
  | none => none
  | some (t, c) => ViewSpec.get T t c a.steps

/-- What there is to see of a member. -/
def VTree.look : VTree V → VLook V
  | .val v => .val v
  | .vals vs => .vals vs
  | .ptr c => .has c.isSome
  | .many rows => .size rows.length

def Values.look (T : VTypes) (w : Values V) (a : VPath) (k : Nat) : Option (VLook V) :=
  match w.get T a with
  | none => none
  | some (_, c) => (c[k]?).map VTree.look

/-- Reading into a message; `start` is what it holds when reading starts. -/
def readInto (T : VTypes) (w : Values V) (i j : Nat) (us : List (VUpd V))
    (start : Nat → List (VTree V) → List (VTree V)) : Option (Values V) :=
  match w.inputs[j]?, w.vars[i]? with
  | some inp, some (t, c) =>
    match updAll T inp us t (start t c) with
    | some (c, _) => some { w with vars := w.vars.set i (t, c) }
    | none => none
  | _, _ => none

/-- What each call does. -/
def step (T : VTypes) (w : Values V) : VOp V → Option (Values V)
  | .new t => some { w with vars := w.vars ++ [(t, blank T t)] }
  | .input vs => some { w with inputs := w.inputs ++ [vs] }
  | .reuse j vs => if j < w.inputs.length then some { w with inputs := w.inputs.set j vs } else none
  | .read i j us => readInto T w i j us fun t _ => blank T t
  | .merge i j us => readInto T w i j us fun _ c => c
  | .assign i a =>
    match w.vars[i]?, w.get T a with
    | some (t, _), some (u, c) => if t = u then some { w with vars := w.vars.set i (t, c) } else none
    | _, _ => none

/-- Calls of the public API, without padded input and without extendable messages. -/
def Plain : VOp V → Prop
  | .read _ _ us => plainAll us = true
  | .merge _ _ _ => False
  | _ => True

/-- A history. -/
def run (T : VTypes) : List (VOp V) → Values V → Option (Values V)
  | [], w => some w
  | o :: os, w =>
    match step T w o with
    | some w => run T os w
    | none => none

/-- The memory shows the values: everything a program can see, at every path. -/
def Shows (T : VTypes) (s : VState V) (w : Values V) : Prop :=
  ∀ a k, s.look T a k = .ok (w.look T a k)

end HppProto.ViewSpec
