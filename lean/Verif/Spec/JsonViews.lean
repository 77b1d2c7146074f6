import Verif.Model.JsonViews

/-!
# What a non-owning message shows

Specification for claim C150.
-/

namespace HppProto.JsonViews

/-- The value at the end of a path of pointers from the struct at `a`, if there is one. -/
def look (h : Heap) : (a : Nat) → (path : List Nat) → (s : Nat) → Option Nat
  | a, [], s => (h.objs a).vals s
  | a, t :: path, s => ((h.objs a).ptrs t).bind fun b => look h b path s

/-- The struct at the end of a path. -/
def goTo (h : Heap) : (a : Nat) → (path : List Nat) → Option Nat
  | a, [] => some a
  | a, t :: path => ((h.objs a).ptrs t).bind fun b => goTo h b path

/-- All that a message consists of is in use. -/
def Live (h : Heap) (a : Nat) : Prop := ∀ path b, goTo h a path = some b → b < h.next

/-- `b` is a part of the message at `a`, or the message. -/
def Part (h : Heap) (a b : Nat) : Prop := ∃ path, goTo h a path = some b

end HppProto.JsonViews
