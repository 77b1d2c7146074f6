import Verif.Model.Optional
import Verif.Model.Serialize
import Verif.Model.Text
/-!
# Claim C119: an optional member has a value or it has not

Specification: every object is an `Option`, or it was moved from and nothing is known about it.
-/
namespace HppProto.Props
open HppProto

/-- Objects: `none` after a move from them. -/
abbrev OptTSpec (V : Type) := Nat → Option (Option V)

/-- Effect of an operation on objects of type `Option V`. -/
def optTSpec {V : Type} (zero : V) (s : OptTSpec V) (op : OptTOp V) : OptTSpec V :=
  let set (s : OptTSpec V) (i : Nat) (x : Option (Option V)) : OptTSpec V := fun k => if k = i then x else s k
  match op with
  | .fresh i | .null i | .reset i => set s i (some none)
  | .assign i v | .emplaceV i v => set s i (some (some v))
  | .emplace i => set s i (some (some zero))
  | .copy i j => set s i (s j)
  | .move i j => if i = j then set s i none else set (set s j none) i (s j)
  | .fromStd i o => set s i (some o)
  | .fromOther i u p => set s i (some (if p then some u else none))
  | .write i v => set s i ((s i).map fun o => o.map fun _ => v)
  | .swap i j => set (set s i (s j)) j (s i)

def optTSpecRun {V : Type} (zero : V) (ops : List (OptTOp V)) : OptTSpec V := ops.foldl (optTSpec zero) fun _ => some none

/-- Operations that keep the default value of objects without value: nothing is written through a reference to such an object, and no
absent `optional<U>` with another default value is assigned. -/
def keepsDefault {V : Type} (T : OptTy V) (s : OptTSpec V) : OptTOp V → Prop
  | .write i _ => s i ≠ some none
  | .fromOther _ u p => p = false → u = T.dflt
  | _ => True

/-- All operations of a history do. -/
def allKeep {V : Type} (T : OptTy V) : OptTSpec V → List (OptTOp V) → Prop
  | _, [] => True
  | s, op :: ops => keepsDefault T s op ∧ allKeep T (optTSpec T.zero s op) ops

/-- The object is what the specification says, as far as presence goes. -/
def presentAs {V : Type} (x : V × Bool) (o : Option (Option V)) : Prop := ∀ o', o = some o' → x.2 = o'.isSome ∧ ∀ v, o' = some v → x.1 = v

theorem presence_step {V : Type} (T : OptTy V) {s : OptTState V} {t : OptTSpec V} (h : ∀ k, presentAs (s k) (t k)) (op : OptTOp V) :
    ∀ k, presentAs (optTStep T s op k) (optTSpec T.zero t op k) := by
  intro k
  cases op <;> simp only [optTStep, optTSpec, optPut]
  case copy i j => split <;> exact h _
  case swap i j =>
    split
    · exact h _
    · split <;> exact h _
  case move i j =>
    by_cases e : i = j
    · simp only [e, if_true, optPut]
      split
      · intro o' ho; cases ho
      · exact h k
    · simp only [e, if_false, optPut]
      split
      · exact h _
      · split
        · intro o' ho; cases ho
        · exact h k
  case write i v =>
    split
    · intro o' ho
      obtain ⟨o, h1, rfl⟩ := Option.map_eq_some_iff.1 ho
      obtain ⟨h2, -⟩ := h i o h1
      refine ⟨by simpa using h2, fun w hw => ?_⟩
      obtain ⟨x, -, rfl⟩ := Option.map_eq_some_iff.1 hw
      rfl
    · exact h k
  case fromStd i o =>
    split
    · intro o' ho
      obtain rfl := Option.some.inj ho
      exact ⟨rfl, fun v hv => by simp [hv]⟩
    · exact h k
  case fromOther i u p =>
    split
    · intro o' ho
      obtain rfl := Option.some.inj ho
      cases p <;> simp
    · exact h k
  all_goals
    split
    · intro o' ho
      obtain rfl := Option.some.inj ho
      simp
    · exact h k

/-- C119. After every history, `has_value` of an object tells whether it has a value, the value is the one last given to it, and
`value_or` chooses between the two. -/
theorem C119_presence {V : Type} (T : OptTy V) (ops : List (OptTOp V)) (i : Nat) (o : Option V)
    (known : optTSpecRun T.zero ops i = some o) :
    optTHas (optTRun T ops) i = o.isSome ∧ (∀ v, o = some v → optTValue (optTRun T ops) i = v) ∧
    ∀ x, optTValueOr (optTRun T ops) i x = o.getD x := by
  have main : ∀ (ops : List (OptTOp V)) (s : OptTState V) (t : OptTSpec V), (∀ k, presentAs (s k) (t k)) →
      ∀ k, presentAs (ops.foldl (optTStep T) s k) (ops.foldl (optTSpec T.zero) t k) := by
    intro ops
    induction ops with
    | nil => exact fun s t h => h
    | cons op ops ih => exact fun s t h => ih _ _ (presence_step T h op)
  have h0 : ∀ k : Nat, presentAs (V := V) (T.dflt, false) (some none) := fun _ o' ho => by
    obtain rfl := Option.some.inj ho; simp
  obtain ⟨h1, h2⟩ := main ops _ _ h0 i o known
  refine ⟨h1, h2, fun x => ?_⟩
  unfold optTValueOr optTHas
  change (optTRun T ops i).2 = _ at h1
  rw [h1]
  cases o with
  | none => rfl
  | some v => exact h2 v rfl

/-- The object is what the specification says, and holds the default value if it has none. -/
def holdsAs {V : Type} (T : OptTy V) (x : V × Bool) (o : Option (Option V)) : Prop := ∀ o', o = some o' → x = (o'.getD T.dflt, o'.isSome)

theorem default_step {V : Type} (T : OptTy V) {s : OptTState V} {t : OptTSpec V} (h : ∀ k, holdsAs T (s k) (t k)) {op : OptTOp V}
    (ok : keepsDefault T t op) : ∀ k, holdsAs T (optTStep T s op k) (optTSpec T.zero t op k) := by
  intro k
  cases op <;> simp only [optTStep, optTSpec, optPut]
  case copy i j => split <;> exact h _
  case swap i j =>
    split
    · exact h _
    · split <;> exact h _
  case move i j =>
    by_cases e : i = j
    · simp only [e, if_true, optPut]
      split
      · intro o' ho; cases ho
      · exact h k
    · simp only [e, if_false, optPut]
      split
      · exact h _
      · split
        · intro o' ho; cases ho
        · exact h k
  case write i v =>
    split
    · intro o' ho
      obtain ⟨o, h1, rfl⟩ := Option.map_eq_some_iff.1 ho
      have h2 := h i o h1
      cases o with
      | none => exact absurd h1 ok
      | some w => rw [h2]; rfl
    · exact h k
  case fromOther i u p =>
    split
    · intro o' ho
      obtain rfl := Option.some.inj ho
      cases p with
      | true => rfl
      | false => rw [ok rfl]; rfl
    · exact h k
  all_goals
    split
    · intro o' ho
      obtain rfl := Option.some.inj ho
      rfl
    · exact h k

/-- C119. After every history in which no default value is overwritten, `*x` is the default value if `x` has no value, and `==` compares
presence and values. Two objects without value are equal if the default value equals itself. Missing: other histories and default values,
see `C119_write_absent`, `C119_other_default` and `C119_nan_unequal`. -/
theorem C119_default_partial {V : Type} (T : OptTy V) (ops : List (OptTOp V)) (ok : allKeep T (fun _ => some none) ops) (i j : Nat)
    (a b : Option V) (ha : optTSpecRun T.zero ops i = some a) (hb : optTSpecRun T.zero ops j = some b) :
    optTValue (optTRun T ops) i = a.getD T.dflt ∧
    (T.eq T.dflt T.dflt = true → (optTEq T (optTRun T ops) i j = true ↔
      (a = none ∧ b = none) ∨ ∃ v w, a = some v ∧ b = some w ∧ T.eq v w = true)) := by
  have main : ∀ (ops : List (OptTOp V)) (s : OptTState V) (t : OptTSpec V), (∀ k, holdsAs T (s k) (t k)) → allKeep T t ops →
      ∀ k, holdsAs T (ops.foldl (optTStep T) s k) (ops.foldl (optTSpec T.zero) t k) := by
    intro ops
    induction ops with
    | nil => exact fun s t h _ => h
    | cons op ops ih => exact fun s t h hk => ih _ _ (default_step T h hk.1) hk.2
  have h0 : ∀ k : Nat, holdsAs T (T.dflt, false) (some none) := fun _ o' ho => by obtain rfl := Option.some.inj ho; rfl
  have hi : optTRun T ops i = _ := main ops _ _ h0 ok i a ha
  have hj : optTRun T ops j = _ := main ops _ _ h0 ok j b hb
  refine ⟨by unfold optTValue; rw [hi], fun hd => ?_⟩
  unfold optTEq
  rw [hi, hj]
  cases a <;> cases b <;> simp [hd]

/-- Texts with default value "x". A move leaves an empty text. -/
def textOpt : OptTy (List Byte) := ⟨b!"x", [], fun _ => [], fun a b => a == b⟩

/-- C119, example: a history that keeps the default value; the objects are then without value, "b", moved from, and "c". -/
example : let ops := [OptTOp.assign 0 b!"a", .write 0 b!"b", .copy 1 0, .reset 0, .assign 2 b!"c", .move 3 2, .fromOther 5 b!"x" false, .swap 0 5]
    allKeep textOpt (fun _ => some none) ops ∧ optTSpecRun textOpt.zero ops 0 = some none ∧
    optTSpecRun textOpt.zero ops 1 = some (some b!"b") ∧ optTSpecRun textOpt.zero ops 2 = none ∧
    optTSpecRun textOpt.zero ops 3 = some (some b!"c") := by
  refine ⟨?_, rfl, rfl, rfl, rfl⟩
  simp [allKeep, keepsDefault, optTSpec, textOpt]

/-- C119, refuted: after a write through a reference to an object without value, it still has none, but `*x` is no longer the default
value, and it differs from a new object. -/
theorem C119_write_absent : let s := optTRun textOpt [.write 0 b!"y"]
    optTHas s 0 = false ∧ optTValue s 0 = b!"y" ∧ optTEq textOpt s 0 1 = false := by decide

/-- C119, refuted: assigning an `optional<T>` without value (its default value is empty) leaves an empty text instead of the default
value "x", and an object that differs from a new one. -/
theorem C119_other_default : let s := optTRun textOpt [.fromOther 0 [] false]
    optTHas s 0 = false ∧ optTValue s 0 = [] ∧ optTEq textOpt s 0 1 = false := by decide

/-- `optional double d = 1 [default = nan];` -/
def nanOpt : OptTy (BitVec 64) := ⟨0x7ff8000000000000#64, 0, id, f64Eq⟩

/-- C119, refuted: with the default value NaN, two new objects differ, and so does every object without value from itself. -/
theorem C119_nan_unequal : optTEq nanOpt (optTRun nanOpt []) 0 1 = false ∧ optTEq nanOpt (optTRun nanOpt []) 0 0 = false := by decide

/-- C119: `emplace()` gives `T{}`, not the default value (unlike `optional<bool>`, C38); and an object that was moved from still has a
value. -/
theorem C119_emplace_moved : optTValue (optTRun textOpt [.emplace 0]) 0 = [] ∧
    (let s := optTRun textOpt [.assign 0 b!"a", .move 1 0]
     optTHas s 0 = true ∧ optTValue s 0 = []) := by decide

end HppProto.Props
