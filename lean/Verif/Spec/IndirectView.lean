import Verif.Model.IndirectView

/-!
# What views refer to, by the history of a program

Specification for claim C149. Histories are listed with the latest step first.
-/

namespace HppProto.IView
variable {T : Type}

/-- The object a view refers to: what the latest step that named the view gave it. -/
def refersTo : List (Op T) → Nat → Option Nat
  | [], _ => none
  | .point j p :: h, i => if i = j then p else refersTo h i
  | .assign j k :: h, i => refersTo h (if i = j then k else i)
  | .swap j k :: h, i => refersTo h (if i = j then k else if i = k then j else i)
  | _ :: h, i => refersTo h i

/-- The value of an object: what was written last, directly or through a view that referred to it; `none` if it does not live. -/
def contents : List (Op T) → Nat → Option T
  | [], _ => none
  | .make a v :: h, b => if b = a then some v else contents h b
  | .write a v :: h, b => if b = a then some v else contents h b
  | .destroy a :: h, b => if b = a then none else contents h b
  | .through i v :: h, b => if refersTo h i = some b then some v else contents h b
  | _ :: h, b => contents h b

/-- Assignments are to objects that live. -/
def stepOk (h : List (Op T)) : Op T → Prop
  | .write a _ => contents h a ≠ none
  | .through i _ => ∃ a, refersTo h i = some a ∧ contents h a ≠ none
  | _ => True

/-- Every step of a history is within its precondition. -/
def historyOk : List (Op T) → Prop
  | [] => True
  | op :: h => stepOk h op ∧ historyOk h

/-- The view refers to an object that lives, or to none. -/
def safe (h : List (Op T)) (i : Nat) : Prop := ∀ a, refersTo h i = some a → contents h a ≠ none

/-- What a view shows, if anything. -/
def seen (h : List (Op T)) (i : Nat) : Option T := (refersTo h i).bind (contents h)

end HppProto.IView
