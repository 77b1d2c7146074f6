import Verif.Model.PrintFlag

/-!
# The option in force

Specification: the option of the innermost `write_json` that a thread is in; `false` outside of all.
-/

namespace HppProto

/-- The options of the calls of `write_json` that thread `i` is in after a history, innermost first, if `open_` are those before. -/
def openCalls (i : Nat) : List (Nat × FlagStep) → (open_ : List Bool) → List Bool
  | [], opened => opened
  | (k, s) :: hs, opened =>
    if k = i then
      match s with
      | .enter o => openCalls i hs (o :: opened)
      | .leave => openCalls i hs opened.tail
      | .look => openCalls i hs opened
    else openCalls i hs opened

/-- The option in force in thread `i` after the history. -/
def inForce (i : Nat) (hs : List (Nat × FlagStep)) : Bool := (openCalls i hs []).headD false

/-- What each `look` of the second history is to see, after the first. -/
def dueLooks : (before : List (Nat × FlagStep)) → List (Nat × FlagStep) → List Bool
  | _, [] => []
  | before, (i, s) :: hs =>
    if s = .look then inForce i before :: dueLooks (before ++ [(i, s)]) hs else dueLooks (before ++ [(i, s)]) hs

/-- The steps of a thread in which every call that began has ended, and none that had begun before. -/
inductive Balanced : List FlagStep → Prop where
  | nil : Balanced []
  | look {s : List FlagStep} : Balanced s → Balanced (.look :: s)
  | call {s r : List FlagStep} (o : Bool) : Balanced s → Balanced r → Balanced (.enter o :: s ++ .leave :: r)

/-- The steps of thread `i`. -/
def stepsOf (i : Nat) (hs : List (Nat × FlagStep)) : List FlagStep := (hs.filter (·.1 = i)).map (·.2)

end HppProto
