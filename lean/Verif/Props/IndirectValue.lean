import Verif.Proofs.IndirectValue
/-!
# Claims C132–C134: `indirect`

`run E ops St.start` (`Verif/Model/IndirectValue.lean`) is a program on variables of type `indirect<T, Allocator>`; `E` is the allocator and says
which allocations and operations on values throw. The second part of the result says which operations threw. `Ref.run`
(`Verif/Spec/IndirectValue.lean`) is the same program on plain values; it rejects a program that reads or copies a variable that
was moved from, or uses one that is not alive.
-/
namespace HppProto.Props
open HppProto.Box HppProto.Box.Spec

/-! ## Concrete allocators -/

/-- `std::allocator`, nothing throws. -/
def boxStd : Env Nat :=
  { alwaysEqual := true, propagateCopy := false, propagateMove := true, propagateSwap := false, select := id, initial := 0,
    moved := fun _ => 0, torn := fun _ _ => 99, fails := fun _ => false }

/-- `std::pmr::polymorphic_allocator`. -/
def boxPmr (fails : Nat → Bool) : Env Nat :=
  { boxStd with alwaysEqual := false, propagateMove := false, select := fun _ => 0, fails := fails }

/-- An allocator with state that propagates always. -/
def boxProp (fails : Nat → Bool) : Env Nat :=
  { boxPmr fails with propagateCopy := true, propagateMove := true, propagateSwap := true }

/-- Copies, moves, assignments and swaps between two allocators, with and without exceptions. -/
def boxProgram : List (Op Nat) :=
  [.make 0 0 (some 5), .make 1 1 none, .copy 2 0 none, .move 3 0, .set 0 7, .assign 1 2, .poke 2 8, .get 1, .get 2, .moveAssign 3 1, .get 3,
   .moveTo 4 3 1, .assign 3 3, .swap 0 4, .get 0, .get 4, .drop 3, .drop 2]

instance (r : Ref Nat) (op : Op Nat) : Decidable (r.movesUnspecified op) := by
  cases op <;> simp only [Ref.movesUnspecified] <;> infer_instance

instance boxMovesDec : ∀ (ops : List (Op Nat)) (ts : List Bool) (r : Ref Nat), Decidable (Ref.runMoves 0 ops ts r)
  | o :: os, t :: ts, r => by
    simp only [Ref.runMoves]
    cases h : r.step 0 t o with
    | none => exact decidable_of_iff (r.movesUnspecified o) (by simp)
    | some r' =>
      have := boxMovesDec os ts r'
      exact decidable_of_iff (r.movesUnspecified o ∨ Ref.runMoves 0 os ts r') (by simp)
  | [], _, _ => .isFalse (by simp [Ref.runMoves])
  | _ :: _, [], _ => .isFalse (by simp [Ref.runMoves])

/-! ## C132 -/

/-- C132. Whatever a program does, and whatever throws: as long as it does not use variables that are not alive and does not read or copy
variables without a specified value, nothing undefined happens, it reads the same values as the same program on plain values, and the
same variables are alive. For allocators that are always equal (`std::allocator`) this is the whole claim for programs that the reference
accepts; with others the program must not move-assign from, or swap, a variable that was moved from (`C132_moved_from_unequal`), and swaps must
not propagate (`C133_swap_propagates`). Missing from the full claim: copying and comparing variables that were moved from (`C132_moved_from`). -/
theorem C132_value_partial {V : Type} (E : Env V) (hs : E.propagateSwap = true → E.alwaysEqual = true) (ops : List (Op V)) (s : St V) (ts : List Bool)
    (r : Ref V) (h1 : run E ops St.start = some (s, ts)) (h2 : Ref.run E.initial ops ts Ref.start = some r)
    (hm : E.alwaysEqual = true ∨ ¬ Ref.runMoves E.initial ops ts Ref.start) :
    s.seen = r.seen ∧ (∀ i, s.vars i = none ↔ r.vars i = none) ∧
    (∀ i v, r.vars i = some (some v) → ∃ x, s.vars i = some x ∧ s.read x = some v) ∧
    ∀ op t, (r.step E.initial t op).isSome → (E.alwaysEqual = true ∨ ¬ r.movesUnspecified op) → step E s op ≠ .ub := by
  have h := holds_run hs ops holds_start h1 h2 hm
  refine ⟨h.seen, h.dead, fun i v hv => ?_, fun op t ht hm' hub => ?_⟩
  · obtain ⟨x, p, k, hx, hp, hk⟩ := h.val i v hv
    exact ⟨x, hx, read_of hp hk⟩
  · have := good_step h op ht hs hm'
    rw [hub] at this
    exact this

/-- The hypotheses hold of the program above, with `std::allocator` and with unequal allocators; and what it reads. -/
example : (run boxStd boxProgram St.start).map (fun x => (x.1.seen, x.2.any id)) = some ([5, 8, 5, 5, 7], false) ∧
    (run (boxPmr fun _ => false) boxProgram St.start).map (fun x => (x.1.seen, x.2.any id)) = some ([5, 8, 5, 5, 7], false) ∧
    (Ref.run 0 boxProgram (List.replicate 18 false) Ref.start).map (·.seen) = some [5, 8, 5, 5, 7] ∧
    ¬ Ref.runMoves 0 boxProgram (List.replicate 18 false) Ref.start := by
  refine ⟨?_, ?_, ?_, ?_⟩ <;> decide +kernel

/-- An assignment that throws (step 4 is the assignment of a value). -/
example : (run (boxPmr (· == 4)) [.make 0 0 (some 5), .make 1 1 none, .assign 1 0, .set 1 3, .get 1] St.start).map
    (fun x => (x.1.seen, x.2)) = some ([3], [false, false, true, false, false]) := by decide +kernel

/-- C132 fails for variables that were moved from: they have no value, and reading, comparing, copying or assigning one is undefined,
with every allocator. -/
theorem C132_moved_from {V : Type} (E : Env V) (hf : ∀ n, E.fails n = false) (v : V) :
    ∃ s, run E [.make 0 0 (some v), .move 1 0] St.start = some (s, [false, false]) ∧
      step E s (.get 0) = .ub ∧ step E s (.copy 2 0 none) = .ub ∧ step E s (.poke 0 v) = .ub ∧ step E s (.assign 1 0) = .ub := by
  refine ⟨_, by simp only [run, step, St.start, fill, create, hf]; rfl, ?_, ?_, ?_, ?_⟩
  · rfl
  · rfl
  · rfl
  · simp only [step, copyAssign, St.set, upd, id_eq, Option.getD_some]
    by_cases hc : (E.propagateCopy && !E.same 0 0) = true
    · simp [Env.same] at hc
    · simp [hc, Env.same, St.read]

/-- C132 fails for unequal allocators that do not propagate: move-assigning from, and swapping with, a variable that was moved from
is undefined, although moving it into a new variable with another allocator is fine. -/
theorem C132_moved_from_unequal : ∃ s, run (boxPmr fun _ => false) [.make 0 0 (some 5), .make 1 1 (some 6), .move 2 0] St.start
      = some (s, [false, false, false]) ∧
    step (boxPmr fun _ => false) s (.moveAssign 1 0) = .ub ∧ step (boxPmr fun _ => false) s (.swap 1 0) = .ub ∧
    ∃ s', step (boxPmr fun _ => false) s (.moveTo 3 0 1) = .done s' := by
  refine ⟨_, rfl, rfl, rfl, _, rfl⟩

/-! ## C133 -/

/-- C133. After any program that the reference accepts, and whatever threw, everything allocated belongs to exactly one variable that
is alive, whose allocator equals the one it came from; so once no variable is alive, nothing is allocated. (That nothing is
freed twice or with another allocator is part of C132: it would be undefined.) Missing: allocators that propagate on swap and are not always equal
(`C133_swap_propagates`). -/
theorem C133_owned_partial {V : Type} (E : Env V) (hs : E.propagateSwap = true → E.alwaysEqual = true) (ops : List (Op V)) (s : St V) (ts : List Bool)
    (r : Ref V) (h1 : run E ops St.start = some (s, ts)) (h2 : Ref.run E.initial ops ts Ref.start = some r)
    (hm : E.alwaysEqual = true ∨ ¬ Ref.runMoves E.initial ops ts Ref.start) :
    ownedOnce E s ∧ ((∀ i, s.vars i = none) → ∀ p, s.heap p = none) := by
  have h := holds_run hs ops holds_start h1 h2 hm
  refine ⟨⟨h.back, h.inj, h.owned⟩, fun hd p => ?_⟩
  cases hp : s.heap p with
  | none => rfl
  | some b =>
    obtain ⟨i, x, hx, _⟩ := h.owned p b hp
    rw [hd i] at hx; cases hx

example : (run (boxPmr fun _ => false) boxProgram St.start).map
    (fun x => ((List.range 5).map x.1.vars, (List.range 20).filterMap fun p => (x.1.heap p).map (p, ·))) =
    some ([some ⟨0, some 6⟩, some ⟨1, some 2⟩, none, none, some ⟨1, some 11⟩], [(2, 1, 0), (6, 0, 5), (11, 1, 7)]) := by
  decide +kernel

/-- C133, the part on `get_allocator()`, in every state: after an operation that returns each variable has the allocator that was given to it,
or that of the source where `select_on_container_copy_construction` and the propagation traits say so, and no other variable's changes. -/
theorem C133_allocator {V : Type} (E : Env V) (s s' : St V) (o : Op V) (h : step E s o = .done s') (n : Nat) :
    (s'.vars n).map Var.alloc = allocAfter E (fun k => (s.vars k).map Var.alloc) o n :=
  step_allocs E s s' o h n

example : ∃ s s', run (boxProp fun _ => false) [.make 0 7 (some 5), .make 1 8 (some 6)] St.start = some (s, [false, false]) ∧
    step (boxProp fun _ => false) s (.assign 1 0) = .done s' ∧ (s'.vars 1).map Var.alloc = some 7 ∧ (s'.vars 0).map Var.alloc = some 7 :=
  ⟨_, _, rfl, rfl, rfl, rfl⟩

/-- C133 fails for an allocator that propagates on swap and is not always equal: the allocators are exchanged, and then the values, but not
the memory, so each variable frees what the other's allocator allocated. -/
theorem C133_swap_propagates : ∃ s, run (boxProp fun _ => false) [.make 0 0 (some 5), .make 1 1 (some 6), .swap 0 1] St.start
      = some (s, [false, false, false]) ∧ ¬ ownedOnce (boxProp fun _ => false) s ∧
    step (boxProp fun _ => false) s (.drop 0) = .ub := by
  refine ⟨_, rfl, fun h => ?_, rfl⟩
  obtain ⟨v, hv⟩ := h.1 0 ⟨1, some 0⟩ 0 rfl rfl
  cases hv

/-! ## C134 -/

/-- C134. An operation that throws leaves every variable that it does not assign to or swap as it was, and a constructor that throws leaves
all of them; and unless the allocator propagates on copy assignment and is not always equal, every variable that had an object still has
one, which can be read. Missing: copy assignment that changes the allocator (`C134_assign_loses`). -/
theorem C134_exception_partial {V : Type} (E : Env V) (hs : E.propagateSwap = true → E.alwaysEqual = true) (ops : List (Op V)) (s : St V)
    (ts : List Bool) (r : Ref V) (h1 : run E ops St.start = some (s, ts)) (h2 : Ref.run E.initial ops ts Ref.start = some r)
    (hm : E.alwaysEqual = true ∨ ¬ Ref.runMoves E.initial ops ts Ref.start) (op : Op V) (s' : St V) (ho : step E s op = .threw s')
    (hr : (r.step E.initial true op).isSome) (hm' : E.alwaysEqual = true ∨ ¬ r.movesUnspecified op) :
    (∀ i, i ∉ targets op → s'.vars i = s.vars i ∧ ∀ x, s.vars i = some x → s'.read x = s.read x) ∧
    ((E.propagateCopy = true → E.alwaysEqual = true) → ∀ i x, s.vars i = some x → (s.read x).isSome →
      ∃ x', s'.vars i = some x' ∧ (s'.read x').isSome) := by
  have h := holds_run hs ops holds_start h1 h2 hm
  obtain ⟨k1, k2⟩ := kept_step h op ho
  refine ⟨k1, fun hE i x hx hrd => ?_⟩
  have hg := good_step h op hr hs hm'
  rw [ho] at hg
  obtain ⟨r', _, h'⟩ := hg
  cases hp : x.obj with
  | none => simp [St.read, hp] at hrd
  | some p =>
    obtain ⟨x', hx', ho'⟩ := k2 hE i x hx (by simp [hp])
    obtain ⟨v, hv⟩ := h'.back i x' p hx' (ho'.trans hp)
    exact ⟨x', hx', by rw [read_of (ho'.trans hp) hv]; rfl⟩

/-- C134. A function that is declared `noexcept` does not throw, in any state; unless the allocator propagates on swap and is not always
equal (`C134_swap_noexcept`). -/
theorem C134_noexcept_partial {V : Type} (E : Env V) (hs : E.propagateSwap = true → E.alwaysEqual = true) (s s' : St V) (op : Op V)
    (hn : declaredNoexcept E op = true) : step E s op ≠ .threw s' := noexcept_step op hs hn

/-- An assignment that throws and keeps an object: the target can still be read. -/
example : ∃ s s', run (boxPmr (· == 4)) [.make 0 0 (some 5), .make 1 1 (some 6)] St.start = some (s, [false, false]) ∧
    step (boxPmr (· == 4)) s (.assign 1 0) = .threw s' ∧ (s'.vars 1).bind s'.read = some 99 ∧ (s'.vars 0).bind s'.read = some 5 :=
  ⟨_, _, rfl, rfl, rfl, rfl⟩

/-- C134 fails for an allocator that propagates on copy assignment and is not always equal: the old value is destroyed before the new
one is allocated, so if that throws the target has lost its value, and reading it is undefined. -/
theorem C134_assign_loses : ∃ s s', run (boxProp (· == 4)) [.make 0 0 (some 5), .make 1 1 (some 6)] St.start = some (s, [false, false]) ∧
    (s.vars 1).bind s.read = some 6 ∧ step (boxProp (· == 4)) s (.assign 1 0) = .threw s' ∧
    step (boxProp (· == 4)) s' (.get 1) = .ub := ⟨_, _, rfl, rfl, rfl, rfl⟩

/-- C134 fails for an allocator that propagates on swap and is not always equal: `swap` is declared `noexcept`, but swaps values, which may
throw; the program is then terminated. -/
theorem C134_swap_noexcept : declaredNoexcept (boxProp (· == 4)) (.swap 0 1) = true ∧
    ∃ s s', run (boxProp (· == 4)) [.make 0 0 (some 5), .make 1 1 (some 6)] St.start = some (s, [false, false]) ∧
      step (boxProp (· == 4)) s (.swap 0 1) = .threw s' := ⟨rfl, _, _, rfl, rfl⟩

end HppProto.Props
