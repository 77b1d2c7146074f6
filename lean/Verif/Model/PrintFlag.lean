/-!
# The option `always_print_fields_with_no_presence` while generated messages are written

Model of `detail::always_print_fields_with_no_presence()` (`include/hpp_proto/json/field_wrappers.hpp` 40-43), a `thread_local`
flag, and of `always_print_guard` (`include/hpp_proto/json.hpp` 408-418), through which `write_json` passes its option to
`optional_ref::operator bool` (`field_wrappers.hpp` 102-112). A history is a list of steps of any threads, in any order. Steps on
different threads that run at once are taken in either order; this is what `thread_local` gives, as no step touches the flag of another thread.
-/

namespace HppProto

/-- A step of a thread. -/
inductive FlagStep where
  /-- A guard is constructed: `write_json` with the option begins (`json.hpp` 597, 612). -/
  | enter (option : Bool)
  /-- The guard constructed last is destroyed: the call returns, or an exception leaves it. -/
  | leave
  /-- A member is asked whether it is to be written (`field_wrappers.hpp` 106). -/
  | look
  deriving Repr, DecidableEq

/-- A thread: its flag, and `old_value` of the guards on its stack, innermost first. -/
structure FlagThread where
  flag : Bool := false
  guards : List Bool := []
  deriving Repr, DecidableEq

/-- One step of a thread (`json.hpp` 410-413). A guard that is not there cannot be destroyed. -/
def FlagThread.step (t : FlagThread) : FlagStep → FlagThread
  | .enter o => ⟨o, t.flag :: t.guards⟩
  | .leave =>
    match t.guards with
    | old :: gs => ⟨old, gs⟩
    | [] => t
  | .look => t

/-- All threads, by number. -/
abbrev FlagWorld := Nat → FlagThread

/-- A step of thread `i`. -/
def FlagWorld.step (w : FlagWorld) (i : Nat) (s : FlagStep) : FlagWorld := fun k => if k = i then (w i).step s else w k

/-- The threads after a history, and what each `look` of the history saw. -/
def FlagWorld.run : FlagWorld → List (Nat × FlagStep) → FlagWorld × List Bool
  | w, [] => (w, [])
  | w, (i, s) :: hs =>
    let r := FlagWorld.run (w.step i s) hs
    (r.1, if s = .look then (w i).flag :: r.2 else r.2)

/-- At the start of the program. -/
def FlagWorld.start : FlagWorld := fun _ => {}

end HppProto
