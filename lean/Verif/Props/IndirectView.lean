import Verif.Proofs.IndirectView

/-!
# Claim C149: `indirect_view` and `optional_indirect_view`
-/

namespace HppProto.Props
open HppProto.IView

variable {T : Type}

/-- A program has undefined behaviour exactly if some step assigns through a view of nothing, or to an object that does not live. Otherwise,
each view that is safe reads as the last value of the object it refers to, an `indirect_view` of nothing as the default value, and
`value()` of an `optional_indirect_view` of nothing throws; a view that is not safe must not be read. -/
theorem C149_reads (ops : List (Op T)) (dflt : T) (i : Nat) :
    (¬historyOk ops.reverse → Mem.start.run ops = .ub) ∧
    (historyOk ops.reverse → ∃ m : Mem T, Mem.start.run ops = .ok m ∧
      m.hasValue i = (refersTo ops.reverse i).isSome ∧
      (refersTo ops.reverse i = none → m.value dflt i = .ok dflt ∧ m.optValue i = .throw) ∧
      (∀ a v, refersTo ops.reverse i = some a → contents ops.reverse a = some v →
        m.value dflt i = .ok v ∧ m.optValue i = .ok v ∧ m.optDeref i = .ok v) ∧
      (¬safe ops.reverse i → m.value dflt i = .ub ∧ m.optValue i = .ub ∧ m.optDeref i = .ub)) := by
  have h := run_after ops [] trivial
  rw [List.append_nil] at h
  refine ⟨h.2, fun hh => ⟨_, h.1 hh, rfl, fun hr => ?_, fun a v hr hc => ?_, fun hs => ?_⟩⟩
  · simp [Mem.value, Mem.optValue, after, hr]
  · simp [Mem.value, Mem.optValue, Mem.optDeref, Mem.load, after, hr, hc]
  · cases hr : refersTo ops.reverse i with
    | none => exact absurd (fun a e => by rw [hr] at e; cases e) hs
    | some a =>
      cases hc : contents ops.reverse a with
      | some v => exact absurd (fun b e => by rw [hr] at e; cases e; rw [hc]; simp) hs
      | none => simp [Mem.value, Mem.optValue, Mem.optDeref, Mem.load, after, hr, hc]

/-- An assignment through one view is seen through all views of the same object and through no other view. -/
theorem C149_aliases (ops : List (Op T)) (i j a : Nat) (v dflt : T) (hh : historyOk ops.reverse)
    (hi : refersTo ops.reverse i = some a) (ha : contents ops.reverse a ≠ none) :
    ∃ m m' : Mem T, Mem.start.run ops = .ok m ∧ m.step (.through i v) = .ok m' ∧
      (refersTo ops.reverse j = some a → m'.value dflt j = .ok v) ∧
      (refersTo ops.reverse j ≠ some a → m'.value dflt j = m.value dflt j) := by
  have h := (run_after ops [] trivial).1 (by simpa using hh)
  rw [List.append_nil] at h
  refine ⟨_, _, h, step_after _ (.through i v) ⟨a, hi, ha⟩, fun hj => ?_, fun hj => ?_⟩
  · simp [Mem.value, Mem.load, after, refersTo, contents, hj, hi]
  · simp only [Mem.value, after, refersTo]
    cases hr : refersTo ops.reverse j with
    | none => rfl
    | some b =>
      have : a ≠ b := fun e => hj (by rw [hr, e])
      simp [Mem.load, contents, hi, this]

/-- Comparisons compare what is shown, not where it is: for `indirect_view` nothing is the default value; for
`optional_indirect_view` nothing equals only nothing. -/
theorem C149_compare {γ : Type} (ops : List (Op T)) (hh : historyOk ops.reverse) (dflt : T) (eq : T → T → Bool) (cmp : T → T → γ)
    (i j : Nat) (hi : safe ops.reverse i) (hj : safe ops.reverse j) :
    ∃ m : Mem T, Mem.start.run ops = .ok m ∧
      m.viewEq dflt eq i j = .ok (eq ((seen ops.reverse i).getD dflt) ((seen ops.reverse j).getD dflt)) ∧
      m.viewCmp dflt cmp i j = .ok (cmp ((seen ops.reverse i).getD dflt) ((seen ops.reverse j).getD dflt)) ∧
      m.optEq eq i j = .ok (match seen ops.reverse i, seen ops.reverse j with
        | some x, some y => eq x y
        | none, none => true
        | _, _ => false) := by
  have h := (run_after ops [] trivial).1 (by simpa using hh)
  rw [List.append_nil] at h
  refine ⟨_, h, ?_⟩
  generalize ops.reverse = p at *
  have cases_of : ∀ k, safe p k → refersTo p k = none ∨ ∃ a v, refersTo p k = some a ∧ contents p a = some v := by
    intro k hk
    cases hr : refersTo p k with
    | none => exact .inl rfl
    | some a =>
      cases hc : contents p a with
      | none => exact absurd hc (hk a hr)
      | some v => exact .inr ⟨a, v, rfl, hc⟩
  rcases cases_of i hi with h1 | ⟨a, v, h1, h2⟩ <;> rcases cases_of j hj with h3 | ⟨b, u, h3, h4⟩ <;>
    simp_all [Mem.viewEq, Mem.viewCmp, Mem.optEq, Mem.value, Mem.hasValue, Mem.optDeref, Mem.load, after, seen, Res.bind]

/-- Comparisons with a value compare what is shown, nothing as the default value. Comparing with `nullptr` says whether the view
is of nothing; it does not look at the object, so the view need not be safe. -/
theorem C149_compare_value {γ : Type} (ops : List (Op T)) (hh : historyOk ops.reverse) (dflt rhs : T) (eq : T → T → Bool)
    (cmp : T → T → γ) (i : Nat) :
    ∃ m : Mem T, Mem.start.run ops = .ok m ∧
      (safe ops.reverse i → m.viewEqVal dflt eq i rhs = .ok (eq ((seen ops.reverse i).getD dflt) rhs) ∧
        m.viewCmpVal dflt cmp i rhs = .ok (cmp ((seen ops.reverse i).getD dflt) rhs)) ∧
      (m.optEqNull i = true ↔ refersTo ops.reverse i = none) := by
  have h := (run_after ops [] trivial).1 (by simpa using hh)
  rw [List.append_nil] at h
  refine ⟨_, h, ?_⟩
  generalize ops.reverse = p at *
  cases hr : refersTo p i with
  | none => simp [Mem.viewEqVal, Mem.viewCmpVal, Mem.value, Mem.optEqNull, Mem.hasValue, after, seen, hr, Res.bind]
  | some a =>
    refine ⟨fun hi => ?_, by simp [Mem.optEqNull, Mem.hasValue, after, hr]⟩
    cases hc : contents p a with
    | none => exact absurd hc (hi a hr)
    | some v => simp [Mem.viewEqVal, Mem.viewCmpVal, Mem.value, Mem.load, after, seen, hr, hc, Res.bind]

/-- `and_then`, `transform` and `or_else` are those of `std::optional` on what is shown. -/
theorem C149_monadic {γ : Type} (ops : List (Op T)) (hh : historyOk ops.reverse) (f : T → Option γ) (g : T → γ) (other : Option Nat)
    (i : Nat) (hi : safe ops.reverse i) :
    ∃ m : Mem T, Mem.start.run ops = .ok m ∧ m.andThen f i = .ok ((seen ops.reverse i).bind f) ∧
      m.transform g i = .ok ((seen ops.reverse i).map g) ∧ m.orElse other i = (refersTo ops.reverse i).or other := by
  have h := (run_after ops [] trivial).1 (by simpa using hh)
  rw [List.append_nil] at h
  refine ⟨_, h, ?_⟩
  generalize ops.reverse = p at *
  cases hr : refersTo p i with
  | none => simp [Mem.andThen, Mem.transform, Mem.orElse, Mem.hasValue, after, seen, hr]
  | some a =>
    cases hc : contents p a with
    | none => exact absurd hc (hi a hr)
    | some v => simp [Mem.andThen, Mem.transform, Mem.orElse, Mem.hasValue, Mem.optDeref, Mem.load, after, seen, hr, hc, Res.bind]

/-! ## Concrete cases -/

def viewDemo : List (Op Nat) :=
  [.make 0 10, .make 1 20, .point 0 (some 0), .assign 1 0, .point 2 (some 1), .swap 1 2, .through 0 11, .write 1 21]

example : historyOk viewDemo.reverse := by
  refine ⟨show contents _ 1 ≠ none by decide +kernel, ⟨0, rfl, by decide +kernel⟩, ?_⟩
  simp [historyOk, stepOk]

example : (List.range 4).map (seen viewDemo.reverse) = [some 11, some 21, some 11, none] := by decide +kernel

example : safe viewDemo.reverse 0 ∧ safe viewDemo.reverse 3 := by
  constructor <;> intro a h
  · cases (show some 0 = some a from h); decide +kernel
  · cases (show none = some a from h)

/-- A view is not safe once its object is gone. -/
example : ¬safe (.destroy 0 :: viewDemo.reverse) 0 := fun h => h 0 rfl rfl

end HppProto.Props
