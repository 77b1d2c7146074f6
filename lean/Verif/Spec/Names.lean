import Verif.Model.Names
import Verif.Spec.Cpp

/-!
# Specification: declarations that may stand together

In C++ two declarations of the same name in the same scope are an error, unless both open a namespace or both are functions
(here: overloads for different parameter types).
-/

namespace HppProto.Names
open HppProto Lex

/-- Do two declarations of different things contradict each other? -/
def Clash (a b : Decl) : Prop :=
  a.spaces = b.spaces ∧ a.classes = b.classes ∧ a.name = b.name ∧ ¬ (a.kind = .space ∧ b.kind = .space) ∧
    ¬ (a.kind = .function ∧ b.kind = .function)

instance (a b : Decl) : Decidable (Clash a b) := by unfold Clash; infer_instance

/-- No two declarations of a program contradict each other. -/
def Compatible (ds : List Decl) : Prop := ds.Pairwise fun a b => ¬ Clash a b

instance (ds : List Decl) : Decidable (Compatible ds) := by unfold Compatible; infer_instance

/-- May this be declared in C++? It is an identifier, no keyword, and not kept for the implementation. -/
def Legal (n : Name) : Prop := Spec.Cpp.IsName n ∧ n ∉ Spec.Cpp.reservedWords ∧ ¬ Spec.Cpp.IsReservedName n

/-- The name that a declaration or the outermost scope around it has in the global namespace. -/
def Decl.outermost (d : Decl) : Name := (d.spaces ++ d.classes ++ [d.name]).headD []

/-- Has the `i`th oneof of the message several members? -/
def several (m : MsgDecl) (i : Nat) : Bool := 2 ≤ (m.fields.filter fun f => f.oneof = some i).length

/-- The C++ names of the oneofs with several members. -/
def severalNames (m : MsgDecl) : List Name := (m.oneofs.zipIdx.filter fun (_, i) => several m i).map fun (o, _) => cppName o

/-- No two oneofs with several members have names that differ only by an underscore at the end. -/
def oneofsApart (m : MsgDecl) : Bool := (severalNames m).all fun o => (severalNames m).all fun o' => o' != o ++ [0x5f]

/-- The same in all messages. -/
def allOneofsApart : Msgs → Bool
  | .nil => true
  | .cons m kids rest => oneofsApart m && allOneofsApart kids && allOneofsApart rest

/-- No method is called `_methods`. -/
def noMethods (f : FileDecl) : Bool := f.services.all fun s => s.methods.all (cppName · != b!"_methods")

/-- If the namespace of `g` is inside the namespace of `f`, then `f` does not declare the name by which it goes on. -/
def apart (f g : FileDecl) : Bool :=
  if f.ns.isPrefixOf g.ns then
    match g.ns.drop f.ns.length with
    | [] => true
    | s :: _ => s ∉ f.topNames && !isHelper s
  else true

/-- No namespace lies inside something that another file declares. -/
def namespacesApart (fs : List FileDecl) : Bool := fs.all fun f => fs.all fun g => apart f g

end HppProto.Names
