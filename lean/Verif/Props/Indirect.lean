import Verif.Proofs.IndirectRun

/-!
# C86-C88: `optional_indirect`

Values (C86), memory (C87) and exceptions (C88), for every program of the operations of `Op`, also one that goes on after
exceptions, with every allocator and every choice of the allocations that throw.
-/

namespace HppProto.Props
open HppProto Ind

variable {D : Type}

/-- C86: wherever a program has got to, an operation is defined and has its effect on values, or throws.
Missing: operations that are not `Allowed`, see `C86_move_from_below`, `C86_copy_from_below`; allocators that are
propagated by `swap` and may differ, see `C87_swap`. -/
theorem C86_values_partial (E : Env D) (hE : E.propagateSwap = true → E.alwaysEqual = true) {s : Heap D} (h : Reachable E s) (op : Op D)
    (ho : Allowed E s.vars.vals op) :
    (∃ s', step E s op = .ok s' ∧ Effect E s.vars.vals s'.vars.vals op) ∨ ∃ s', step E s op = .threw s' := by
  rcases step_spec hE (reachable_inv hE h) op ho with ⟨s', e, _, f⟩ | ⟨s', e, _⟩
  · exact .inl ⟨s', e, f⟩
  · exact .inr ⟨s', e⟩

/-- C86: optionals are equal if their values are, and only then. -/
theorem C86_equal [DecidableEq D] (x y : Links D) : sameLinks x y = true ↔ x.vals = y.vals := sameLinks_iff x y

/-- C87: wherever a program has got to, what is allocated are the objects that its variables own, each owned once and by
an allocator equal to the one it came from.
Missing: as for `C86_values_partial`. -/
theorem C87_memory_partial (E : Env D) (hE : E.propagateSwap = true → E.alwaysEqual = true) {s : Heap D} (h : Reachable E s) : Sound E s :=
  have i := reachable_inv hE h
  ⟨i.good.perm, (i.good.perm.map Prod.fst).nodup_iff.mp i.good.once⟩

/-- C87: after a copy assignment the target has the allocator of the source if allocators are propagated when copying, and its own
otherwise. -/
theorem C87_copy_allocator (E : Env D) {s s' : Heap D} {l k : Place} {h t : Handle D} (hl : s.vars.look l.root l.path = some h)
    (hk : s.vars.look k.root k.path = some t) (hne : l ≠ k) (e : step E s (.copy l k) = .ok s') :
    ∃ h', s'.vars.look l.root l.path = some h' ∧ h'.alloc = if E.propagateCopy then t.alloc else h.alloc := copy_alloc hl hk hne e

/-- C87: when the last variable is gone nothing is allocated. -/
theorem C87_no_leak_partial (E : Env D) (hE : E.propagateSwap = true → E.alwaysEqual = true) {s : Heap D} (h : Reachable E s)
    (hv : s.vars = .nil) : s.mem.live = [] := by
  have := (C87_memory_partial E hE h).exact
  rw [hv] at this
  exact this.eq_nil

/-- C88: an operation that throws leaves values as `Aborted` says.
Missing: as for `C86_values_partial`. -/
theorem C88_exceptions_partial (E : Env D) (hE : E.propagateSwap = true → E.alwaysEqual = true) {s s' : Heap D} (h : Reachable E s) (op : Op D)
    (ho : Allowed E s.vars.vals op) (ht : step E s op = .threw s') : Aborted E s.vars.vals s'.vars.vals op := by
  rcases step_spec hE (reachable_inv hE h) op ho with ⟨_, e, _⟩ | ⟨_, e, _, f⟩
  · rw [ht] at e; cases e
  · rw [ht] at e; cases e; exact f

/-- C88: operations throw only if an allocation does. -/
theorem C88_calm_partial (E : Env D) (hE : E.propagateSwap = true → E.alwaysEqual = true) (hf : ∀ n, E.fails n = false) {s : Heap D}
    (h : Reachable E s) (op : Op D) (ho : Allowed E s.vars.vals op) :
    ∃ s', step E s op = .ok s' ∧ Effect E s.vars.vals s'.vars.vals op := by
  have i := reachable_inv hE h
  rcases step_spec hE i op ho with ⟨s', e, _, f⟩ | ⟨s', e, _⟩
  · exact ⟨s', e, f⟩
  · exact absurd e (step_calm hf hE i op ho s')

/-! ## An example -/

/-- Several operations, going on after exceptions. -/
def runOps (E : Env D) : List (Op D) → Heap D → Option (Heap D)
  | [], s => some s
  | op :: ops, s =>
    match step E s op with
    | .ok s => runOps E ops s
    | .threw s => runOps E ops s
    | .bad => none

/-- Allocators that may differ; the objects have two members; the fourth allocation throws. -/
def twoAllocators : Env Nat := ⟨false, false, false, false, id, 0, 0, fun _ => 0, 2, fun n => n = 3⟩

/-- All operations, the places existing. -/
def allowedB (v : Vals Nat) : Op Nat → Bool
  | .declare _ => true
  | .declareCopy k => (v.get k).isSome
  | .declareMove k => (v.get k).isSome
  | .drop => decide (v ≠ .nil)
  | .reset l => (v.get l).isSome
  | .emplace l => (v.get l).isSome
  | .write l _ => (v.get l).any Option.isSome
  | .copy l k => (v.get l).isSome && (v.get k).isSome
  | .move l k => (v.get l).isSome && (v.get k).isSome && (decide (l = k) || (!l.covers k && !k.covers l))
  | .swap l k => (v.get l).isSome && (v.get k).isSome && (decide (l = k) || (!l.covers k && !k.covers l))

theorem allowedB_allowed {E : Env Nat} (hE : E.Stays) {v : Vals Nat} {op : Op Nat} (h : allowedB v op = true) : Allowed E v op := by
  cases op with
  | declare a => trivial
  | drop => simpa [allowedB, Allowed] using h
  | write l d =>
    simp only [allowedB] at h
    simp only [Allowed]
    cases hv : v.get l with
    | none => rw [hv] at h; cases h
    | some x =>
      rw [hv] at h
      cases x with
      | none => cases h
      | some x => exact ⟨x, rfl⟩
  | copy l k =>
    simp only [allowedB, Bool.and_eq_true] at h
    exact ⟨h.1, h.2, .inl hE⟩
  | move l k =>
    simp only [allowedB, Bool.and_eq_true, Bool.or_eq_true, Bool.not_eq_true', decide_eq_true_eq] at h
    exact ⟨h.1.1, h.1.2, h.2⟩
  | swap l k =>
    simp only [allowedB, Bool.and_eq_true, Bool.or_eq_true, Bool.not_eq_true', decide_eq_true_eq] at h
    exact ⟨h.1.1, h.1.2, h.2⟩
  | _ => exact h

/-- Only allowed operations are run. -/
def allowedRun (E : Env Nat) : List (Op Nat) → Heap Nat → Bool
  | [], _ => true
  | op :: ops, s => allowedB s.vars.vals op &&
    match step E s op with
    | .ok s => allowedRun E ops s
    | .threw s => allowedRun E ops s
    | .bad => false

theorem runOps_reachable {E : Env Nat} (hE : E.Stays) : ∀ {ops : List (Op Nat)} {s s' : Heap Nat}, Reachable E s →
    allowedRun E ops s = true → runOps E ops s = some s' → Reachable E s'
  | [], s, s', h, _, e => by
    rw [runOps] at e; injection e with e; rw [← e]; exact h
  | op :: ops, s, s', h, ha, e => by
    rw [allowedRun, Bool.and_eq_true] at ha
    have hb := allowedB_allowed hE ha.1
    have ha := ha.2
    rw [runOps] at e
    cases hs : step E s op with
    | ok t => rw [hs] at e ha; exact runOps_reachable hE (.ok h hb hs) ha e
    | threw t => rw [hs] at e ha; exact runOps_reachable hE (.threw h hb hs) ha e
    | bad => rw [hs] at e; cases e

/-- A program: a list of two, then a copy that fails while it copies the second object, a move and a `swap` between allocators,
and a copy of a tail over its list. -/
def sampleProgram : List (Op Nat) :=
  [.declare 1, .emplace ⟨0, []⟩, .write ⟨0, []⟩ 7, .emplace ⟨0, [0]⟩, .write ⟨0, [0]⟩ 8, .declareCopy ⟨0, []⟩, .declare 2,
    .move ⟨0, []⟩ ⟨1, []⟩, .emplace ⟨1, []⟩, .swap ⟨1, []⟩ ⟨0, []⟩, .copy ⟨1, []⟩ ⟨1, [0]⟩, .declareMove ⟨1, []⟩]

/-- Where it gets to. -/
def sampleHeap : Heap Nat := (runOps twoAllocators sampleProgram start).getD start

example : Reachable twoAllocators sampleHeap ∧
    sampleHeap.vars.vals = .some 8 (.none (.none .nil)) (.some 0 (.none (.none .nil)) (.none .nil)) ∧ sampleHeap.mem.live.length = 2 := by
  refine ⟨?_, by decide +kernel, by decide +kernel⟩
  refine runOps_reachable (ops := sampleProgram) (.inl rfl) .start (by decide +kernel) ?_
  decide +kernel

/-- An operation that throws is among them. -/
example : (match step twoAllocators ((runOps twoAllocators (sampleProgram.take 5) start).getD start) (.declareCopy ⟨0, []⟩) with
    | .threw _ => true
    | _ => false) = true := by decide +kernel

/-! ## Where it goes wrong -/

/-- `std::allocator`. -/
def standardAllocator : Env Nat := ⟨true, true, false, false, id, 0, 0, fun _ => 0, 1, fun _ => false⟩

/-- `n = std::move(n->next)` with a list of two. -/
def shortened : List (Op Nat) := [.declare 0, .emplace ⟨0, []⟩, .emplace ⟨0, [0]⟩]

/-- A list of two, whose head is to be taken off. -/
def listOfTwo : Heap Nat := (runOps standardAllocator shortened start).getD start

theorem listOfTwo_reachable : Reachable standardAllocator listOfTwo :=
  runOps_reachable (ops := shortened) (.inl rfl) .start (by decide +kernel) (by decide +kernel)

/-- C86 does not hold for a move of a value to a place above it, `n = std::move(n->next)`: `n->next` is read after the object it
is in has been destroyed (`optional_indirect.hpp` 105-107). `std::unique_ptr` allows this. Both places exist. -/
theorem C86_move_from_below : Reachable standardAllocator listOfTwo ∧ (listOfTwo.vars.vals.get ⟨0, []⟩).isSome ∧
    (listOfTwo.vars.vals.get ⟨0, [0]⟩).isSome ∧ step standardAllocator listOfTwo (.move ⟨0, []⟩ ⟨0, [0]⟩) = .bad :=
  ⟨listOfTwo_reachable, by decide +kernel, by decide +kernel, by decide +kernel⟩

/-- Allocators that may differ and that are propagated. Members of objects have allocator 0. -/
def propagated : Env Nat := ⟨false, true, true, true, id, 0, 0, fun _ => 0, 1, fun _ => false⟩

/-- A list of two: the first object is from allocator 1, the second from 0. -/
def mixedList : Heap Nat := (runOps propagated [.declare 1, .emplace ⟨0, []⟩, .emplace ⟨0, [0]⟩] start).getD start

theorem mixedList_reachable : Reachable propagated mixedList := by
  refine .ok (s := ((runOps propagated [.declare 1, .emplace ⟨0, []⟩] start).getD start)) (op := .emplace ⟨0, [0]⟩) ?_ ?_ (by decide +kernel)
  · refine .ok (s := ((runOps propagated [.declare 1] start).getD start)) (op := .emplace ⟨0, []⟩) ?_ ?_ (by decide +kernel)
    · exact .ok (op := .declare 1) .start trivial (by decide +kernel)
    · show (Vals.get _ _).isSome = true
      decide +kernel
  · show (Vals.get _ _).isSome = true
    decide +kernel

/-- C86 does not hold for a copy of a value to a place above it either, if this changes the allocator: the target is reset before the
source is read (`optional_indirect.hpp` 145-150). -/
theorem C86_copy_from_below : Reachable propagated mixedList ∧ (mixedList.vars.vals.get ⟨0, []⟩).isSome ∧
    (mixedList.vars.vals.get ⟨0, [0]⟩).isSome ∧ step propagated mixedList (.copy ⟨0, []⟩ ⟨0, [0]⟩) = .bad :=
  ⟨mixedList_reachable, by decide +kernel, by decide +kernel, by decide +kernel⟩

/-- Two variables with objects from different allocators. -/
def beforeSwap : Heap Nat := (runOps propagated [.declare 1, .emplace ⟨0, []⟩, .declare 2, .emplace ⟨0, []⟩] start).getD start

/-- C87 does not hold if allocators are propagated by `swap` and differ: the allocators are exchanged, but not the pointers
(`optional_indirect.hpp` 210-219), and objects are freed with the allocator they did not come from. -/
theorem C87_swap : Reachable propagated beforeSwap ∧ Allowed propagated beforeSwap.vars.vals (.swap ⟨0, []⟩ ⟨1, []⟩) ∧
    ∃ s, step propagated beforeSwap (.swap ⟨0, []⟩ ⟨1, []⟩) = .ok s ∧ ¬ Sound propagated s ∧ step propagated s .drop = .bad := by
  refine ⟨?_, ⟨by decide +kernel, by decide +kernel, .inr ⟨by decide, by decide⟩⟩, ?_⟩
  · refine .ok (s := ((runOps propagated [.declare 1, .emplace ⟨0, []⟩, .declare 2] start).getD start)) (op := .emplace ⟨0, []⟩) ?_ ?_ (by decide +kernel)
    · refine .ok (s := ((runOps propagated [.declare 1, .emplace ⟨0, []⟩] start).getD start)) (op := .declare 2) ?_ trivial (by decide +kernel)
      refine .ok (s := ((runOps propagated [.declare 1] start).getD start)) (op := .emplace ⟨0, []⟩) ?_ ?_ (by decide +kernel)
      · exact .ok (op := .declare 1) .start trivial (by decide +kernel)
      · show (Vals.get _ _).isSome = true
        decide +kernel
    · show (Vals.get _ _).isSome = true
      decide +kernel
  · refine ⟨((runOps propagated [.swap ⟨0, []⟩ ⟨1, []⟩] beforeSwap).getD start), by decide +kernel, ?_, by decide +kernel⟩
    intro h
    have := h.exact
    revert this
    decide +kernel

/-- `C87_copy_allocator` is about this: the target had allocator 1 and has allocator 2 afterwards. -/
example : (match step propagated ((runOps propagated [.declare 2, .emplace ⟨0, []⟩, .declare 1] start).getD start) (.copy ⟨0, []⟩ ⟨1, []⟩) with
    | .ok s => s.vars.look 0 [] |>.map Handle.alloc
    | _ => none) = some 2 := by decide +kernel

end HppProto.Props
