import Verif.Model.OptionalBool
/-!
# Claim C38: `optional<bool>` keeps three states apart

Specification: every object is an `Option Bool`; a proxy is a reference to an object, and
assigning to a reference assigns to the object.
-/
namespace HppProto.Props
open HppProto

/-- What the objects and references should be. -/
structure OptSpec where
  val : Nat → Option Bool
  ref : Nat → Nat

/-- Effect of an operation on `Option Bool` objects. Assigning one reference to another
assigns the value referred to (a boolean), as for references in C++. -/
def optSpec (dflt : Bool) (s : OptSpec) (op : OptOp) : OptSpec :=
  let set (i : Nat) (v : Option Bool) := { s with val := fun k => if k = i then v else s.val k }
  match op with
  | .fresh i | .reset i => set i none
  | .assign i v => set i (some v)
  | .copy i j => set i (s.val j)
  | .emplace p i => ⟨fun k => if k = i then some dflt else s.val k, fun k => if k = p then i else s.ref k⟩
  | .emplaceV p i v => ⟨fun k => if k = i then some v else s.val k, fun k => if k = p then i else s.ref k⟩
  | .swap i j => { s with val := fun k => if k = j then s.val i else if k = i then s.val j else s.val k }
  | .proxyAssign p v => set (s.ref p) (some v)
  | .proxyCopy p q => set (s.ref p) (s.val (s.ref q))

/-- What the object's interface shows. -/
def optShows (impl : BitVec 8) : Option Bool := if optHas impl then some (optValue impl) else none

/-- The byte is one of the three states. -/
def optStates (dflt : Bool) (b : BitVec 8) : Prop := b = optDefaultState dflt ∨ b = optByte true ∨ b = optByte false

theorem optShows_byte (v : Bool) : optShows (optByte v) = some v := by cases v <;> decide
theorem optShows_default (d : Bool) : optShows (optDefaultState d) = none := by cases d <;> decide

def isProxyCopy : OptOp → Bool
  | .proxyCopy _ _ => true
  | _ => false

structure OptRel (dflt : Bool) (s : OptState) (t : OptSpec) : Prop where
  shows : ∀ i, optShows (s.impl i) = t.val i
  states : ∀ i, optStates dflt (s.impl i)
  refs : s.ptr = t.ref

theorem optStep_rel {dflt s t} (h : OptRel dflt s t) (op : OptOp) (hp : isProxyCopy op = false) :
    OptRel dflt (optStep dflt s op) (optSpec dflt t op) := by
  obtain ⟨h1, h2, h3⟩ := h
  have st : ∀ v, optStates dflt (optByte v) := fun v => by cases v <;> simp [optStates]
  have sd : optStates dflt (optDefaultState dflt) := .inl rfl
  cases op with
  | proxyCopy p q => cases hp
  | fresh i =>
    refine ⟨fun k => ?_, fun k => ?_, h3⟩ <;> simp only [optStep, optSpec, OptState.put] <;> split
    · exact optShows_default dflt
    · exact h1 k
    · exact sd
    · exact h2 k
  | reset i =>
    refine ⟨fun k => ?_, fun k => ?_, h3⟩ <;> simp only [optStep, optSpec, OptState.put] <;> split
    · exact optShows_default dflt
    · exact h1 k
    · exact sd
    · exact h2 k
  | assign i v =>
    refine ⟨fun k => ?_, fun k => ?_, h3⟩ <;> simp only [optStep, optSpec, OptState.put] <;> split
    · exact optShows_byte v
    · exact h1 k
    · exact st v
    · exact h2 k
  | copy i j =>
    refine ⟨fun k => ?_, fun k => ?_, h3⟩ <;> simp only [optStep, optSpec, OptState.put] <;> split
    · exact h1 j
    · exact h1 k
    · exact h2 j
    · exact h2 k
  | emplace p i =>
    refine ⟨fun k => ?_, fun k => ?_, by simp only [optStep, optSpec, OptState.put, OptState.point, h3]⟩ <;>
      simp only [optStep, optSpec, OptState.put, OptState.point] <;> split
    · exact optShows_byte dflt
    · exact h1 k
    · exact st dflt
    · exact h2 k
  | emplaceV p i v =>
    refine ⟨fun k => ?_, fun k => ?_, by simp only [optStep, optSpec, OptState.put, OptState.point, h3]⟩ <;>
      simp only [optStep, optSpec, OptState.put, OptState.point] <;> split
    · exact optShows_byte v
    · exact h1 k
    · exact st v
    · exact h2 k
  | swap i j =>
    refine ⟨fun k => ?_, fun k => ?_, h3⟩ <;> simp only [optStep, optSpec, OptState.put] <;> split
    · exact h1 i
    · split
      · exact h1 j
      · exact h1 k
    · exact h2 i
    · split
      · exact h2 j
      · exact h2 k
  | proxyAssign p v =>
    refine ⟨fun k => ?_, fun k => ?_, h3⟩ <;> simp only [optStep, optSpec, OptState.put, h3] <;> split
    · exact optShows_byte v
    · exact h1 k
    · exact st v
    · exact h2 k

/-- C38. After every sequence of operations on any number of objects and proxies, without
assignments between proxies, each object shows the state it should have, has one of exactly
three bytes, and two objects compare equal (`==` on the bytes, 324) exactly if their states
are equal. Missing from the full claim: assigning one proxy to another, where it is false
(`C38_proxy_copy`). -/
theorem C38_optional_bool_partial (dflt : Bool) (ops : List OptOp) (h : ∀ op ∈ ops, isProxyCopy op = false) (i j : Nat) :
    let s := ops.foldl (optStep dflt) (optInit dflt)
    let t := ops.foldl (optSpec dflt) ⟨fun _ => none, fun p => p⟩
    optShows (s.impl i) = t.val i ∧ optStates dflt (s.impl i) ∧ ((s.impl i == s.impl j) = true ↔ t.val i = t.val j) := by
  have key : ∀ (ops : List OptOp) s t, OptRel dflt s t → (∀ op ∈ ops, isProxyCopy op = false) →
      OptRel dflt (ops.foldl (optStep dflt) s) (ops.foldl (optSpec dflt) t) := by
    intro ops
    induction ops with
    | nil => intro s t r _; exact r
    | cons op ops ih =>
      intro s t r h
      exact ih _ _ (optStep_rel r op (h op (by simp))) (fun o ho => h o (by simp [ho]))
  have r := key ops (optInit dflt) ⟨fun _ => none, fun p => p⟩
    ⟨fun _ => optShows_default dflt, fun _ => .inl rfl, rfl⟩ h
  refine ⟨r.shows i, r.states i, ?_⟩
  have hi := r.states i
  have hj := r.states j
  rw [← r.shows i, ← r.shows j]
  unfold optStates at hi hj
  generalize ((ops.foldl (optStep dflt) (optInit dflt)).impl i) = x at *
  generalize ((ops.foldl (optStep dflt) (optInit dflt)).impl j) = y at *
  cases dflt <;> rcases hi with rfl | rfl | rfl <;> rcases hj with rfl | rfl | rfl <;> decide

/-- Three objects, one set through a proxy, one reset, one copied. -/
example :
    let s := [OptOp.emplace 0 0, .proxyAssign 0 true, .assign 1 false, .copy 2 0, .reset 0].foldl (optStep false) (optInit false)
    optShows (s.impl 0) = none ∧ optShows (s.impl 1) = some false ∧ optShows (s.impl 2) = some true := by decide

/-- C38 fails for assignment between proxies: `p = x0.emplace(false); q = x1.emplace(true);
p = q;` leaves `x0` false, because the proxy is bound to `x1` instead. -/
theorem C38_proxy_copy :
    let ops := [OptOp.emplaceV 0 0 false, .emplaceV 1 1 true, .proxyCopy 0 1]
    optShows ((ops.foldl (optStep false) (optInit false)).impl 0) = some false ∧
    (ops.foldl (optSpec false) ⟨fun _ => none, fun p => p⟩).val 0 = some true := by decide

/-- A proxy that outlives `reset` reads `true` although the object is empty and its default
is false; `value()` of the object is `false`. -/
theorem C38_proxy_after_reset :
    let s := [OptOp.emplaceV 0 0 false, .reset 0].foldl (optStep false) (optInit false)
    proxyRead (s.impl (s.ptr 0)) = true ∧ optValue (s.impl 0) = false ∧ optHas (s.impl 0) = false := by decide

end HppProto.Props
