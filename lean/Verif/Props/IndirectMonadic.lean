import Verif.Model.IndirectMonadic
import Verif.Props.Indirect

/-!
# C153: `and_then`, `transform`, `or_else` and comparisons with values

The specification is that of C86: optional values, in `Verif/Spec/Indirect.lean`.
-/

namespace HppProto.Props
open HppProto Ind

variable {D : Type}

private theorem look_some {s : Heap D} {k : Place} {x : D × Vals D} (h : s.vars.vals.get k = some (some x)) :
    ∃ t, s.vars.look k.root k.path = some t ∧ t.hasValue = true := by
  rw [get_vals] at h
  cases ht : s.vars.look k.root k.path with
  | none => simp [ht] at h
  | some t =>
    refine ⟨t, rfl, ?_⟩
    cases t with
    | empty a => simp [ht, Handle.val] at h
    | full a p d kids => rfl

private theorem look_none {s : Heap D} {k : Place} (h : s.vars.vals.get k = some none) :
    ∃ t, s.vars.look k.root k.path = some t ∧ t.hasValue = false := by
  rw [get_vals] at h
  cases ht : s.vars.look k.root k.path with
  | none => simp [ht] at h
  | some t =>
    refine ⟨t, rfl, ?_⟩
    cases t with
    | empty a => rfl
    | full a p d kids => simp [ht, Handle.val] at h

/-- `and_then` calls the function once, with the object, if there is one, and gives its result;
otherwise it calls nothing, changes nothing and gives an empty result.  `transform` does the same, and
its result is there exactly if the object is. -/
theorem C153_calls {R : Type} (s : Heap D) (k : Place) (f : Place → Heap D → R × Did D) (empty : R) :
    (∀ x, s.vars.vals.get k = some (some x) →
      andThen k f empty s = ⟨[k], (f k s).1, (f k s).2⟩ ∧ transform k f s = ⟨[k], some (f k s).1, (f k s).2⟩) ∧
    (s.vars.vals.get k = some none →
      andThen k f empty s = ⟨[], empty, .ok s⟩ ∧ transform k f s = ⟨[], none, .ok s⟩) := by
  constructor
  · intro x h
    obtain ⟨t, ht, hv⟩ := look_some h
    simp [andThen, transform, ht, hv]
  · intro h
    obtain ⟨t, ht, hv⟩ := look_none h
    simp [andThen, transform, ht, hv]

/-- `or_else` of an optional with a value does not call the function.  For an lvalue it gives an equal
optional with an object of its own and changes nothing, or throws and changes nothing; for an rvalue it
gives the value, leaves the optional without one, and neither allocates nor throws. -/
theorem C153_or_else_value (E : Env D) (hE : E.propagateSwap = true → E.alwaysEqual = true) {s : Heap D} (h : Reachable E s)
    (taken : Bool) (k : Place) (f : Heap D → Did D) (x : D × Vals D) (hx : s.vars.vals.get k = some (some x)) :
    (orElse E taken k f s).1 = 0 ∧
    ((∃ s', (orElse E taken k f s).2 = .ok s' ∧ Sound E s' ∧
        s'.vars.vals = .cons (some x) (if taken then s.vars.vals.set k none else s.vars.vals) ∧
        (taken = true → s'.mem = s.mem)) ∨
      (taken = false ∧ ∃ s', (orElse E taken k f s).2 = .threw s' ∧ Sound E s' ∧ s'.vars.vals = s.vars.vals)) := by
  obtain ⟨t, ht, hv⟩ := look_some hx
  have hr : orElse E taken k f s = (0, step E s (if taken then .declareMove k else .declareCopy k)) := by
    simp [orElse, ht, hv]
  rw [hr]
  refine ⟨rfl, ?_⟩
  cases taken with
  | true =>
    have ha : Allowed E s.vars.vals (.declareMove k) := by simp [Allowed, hx]
    rcases C86_values_partial E hE h _ ha with ⟨s', e, y, hy, hs'⟩ | ⟨s', e⟩
    · rw [hx] at hy
      injection hy with hy
      subst hy
      refine .inl ⟨s', e, C87_memory_partial E hE (.ok h ha e), hs', fun _ => ?_⟩
      simp only [step, ht] at e
      injection e with e
      rw [← e]
    · simp only [step, ht] at e
      cases e
  | false =>
    have ha : Allowed E s.vars.vals (.declareCopy k) := by simp [Allowed, hx]
    rcases C86_values_partial E hE h _ ha with ⟨s', e, y, hy, hs'⟩ | ⟨s', e⟩
    · rw [hx] at hy
      injection hy with hy
      subst hy
      exact .inl ⟨s', e, C87_memory_partial E hE (.ok h ha e), hs', nofun⟩
    · exact .inr ⟨rfl, s', e, C87_memory_partial E hE (.threw h ha e), C88_exceptions_partial E hE h _ ha e⟩

/-- `or_else` of an optional without a value calls the function once, in the state it finds, and gives what
it gives. -/
theorem C153_or_else_none (E : Env D) (s : Heap D) (taken : Bool) (k : Place) (f : Heap D → Did D)
    (hx : s.vars.vals.get k = some none) : orElse E taken k f s = (1, f s) := by
  obtain ⟨t, ht, hv⟩ := look_none hx
  simp [orElse, ht, hv]

/-- An optional equals a value if it has that value, and `nullopt` if it has none. -/
theorem C153_compare [DecidableEq D] {s : Heap D} {k : Place} {h : Handle D} (hk : s.vars.look k.root k.path = some h)
    (d : D) (kids : Links D) :
    (sameAsValue h d kids = true ↔ s.vars.vals.get k = some (some (d, kids.vals))) ∧
    (sameAsNull h = true ↔ s.vars.vals.get k = some none) := by
  rw [get_vals, hk]
  cases h with
  | empty a => simp [sameAsValue, sameAsNull, Handle.hasValue, Handle.val]
  | full a p e l => simp [sameAsValue, sameAsNull, Handle.hasValue, Handle.val, C86_equal]

/-! ## A list of two, and its empty tail -/

example : Reachable standardAllocator listOfTwo := listOfTwo_reachable
example : listOfTwo.vars.vals.get ⟨0, []⟩ = some (some (0, .some 0 (.none .nil) .nil)) := by decide +kernel
example : listOfTwo.vars.vals.get ⟨0, [0, 0]⟩ = some none := by decide +kernel

/-- The copy has two objects of its own; taking the value needs none. -/
example : (match (orElse standardAllocator false ⟨0, []⟩ (fun _ => .bad) listOfTwo).2,
      (orElse standardAllocator true ⟨0, []⟩ (fun _ => .bad) listOfTwo).2 with
    | .ok s, .ok t => some (s.mem.live.length, t.mem.live.length)
    | _, _ => none) = some (4, 2) := by decide +kernel

end HppProto.Props
