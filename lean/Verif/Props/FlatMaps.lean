import Verif.Props.FlatMap
import Verif.Proofs.FlatMaps
/-!
# Claims C147 and C148: comparisons of `flat_map`s, and programs with several of them
-/
namespace HppProto.Props
open HppProto Spec

theorem holds_run {α β : Type} {lt : α → α → Bool} (w : StrictWeak lt) (dflt : β) (ops : List (MapOp α β))
    (hl : mapLegal lt dflt FlatMap.clear ops) :
    Holds lt (FlatMap.run lt dflt FlatMap.clear ops) (finRun lt dflt FlatMap.clear (fun _ => none) ops) := by
  have h0 : Holds lt (FlatMap.clear : FlatMap α β) (fun _ => none) := holds_empty
  generalize (FlatMap.clear : FlatMap α β) = m at *
  generalize (fun _ => none : FinMap α β) = f at *
  induction ops generalizing m f with
  | nil => exact h0
  | cons op ops ih => exact ih _ hl.2 _ (step_holds w dflt h0 op hl.1)

/-- Two maps are equal exactly if for every key both have no value, or both have values that are equal, whatever the calls were that
made them. `==` of keys is that neither is less than the other. -/
theorem C147_equal {α β : Type} {lt : α → α → Bool} (w : StrictWeak lt) (dflt : β) {keq : α → α → Bool}
    (hk : ∀ a b, keq a b = true ↔ lt a b = false ∧ lt b a = false) (veq : β → β → Bool) (ops₁ ops₂ : List (MapOp α β))
    (h₁ : mapLegal lt dflt FlatMap.clear ops₁) (h₂ : mapLegal lt dflt FlatMap.clear ops₂) :
    let x := FlatMap.run lt dflt FlatMap.clear ops₁
    let y := FlatMap.run lt dflt FlatMap.clear ops₂
    let f := finRun lt dflt FlatMap.clear (fun _ => none) ops₁
    let g := finRun lt dflt FlatMap.clear (fun _ => none) ops₂
    (x.equal keq veq y = true ↔ ∀ k, agree veq (f k) (g k)) ∧ (x.notEqual keq veq y = true ↔ ¬∀ k, agree veq (f k) (g k)) := by
  have h := equal_holds w (fun a b => (hk a b).trans same_iff.symm) (veq := veq) (holds_run w dflt ops₁ h₁) (holds_run w dflt ops₂ h₂)
  refine ⟨h, ?_⟩
  rw [← h]
  simp [FlatMap.notEqual]

/-- With total orders of keys and values, of any two maps exactly one is less, or they are equal; being less is transitive; and
the other operators say what they are read as. -/
theorem C147_order {α β : Type} {klt keq : α → α → Bool} {vlt veq : β → β → Bool} (hk : StrictTotal klt) (hv : StrictTotal vlt)
    (hke : ∀ a b, keq a b = true ↔ a = b) (hve : ∀ a b, veq a b = true ↔ a = b) (x y z : FlatMap α β) :
    (x.less klt vlt y = true ∨ x.equal keq veq y = true ∨ y.less klt vlt x = true) ∧
    ¬(x.less klt vlt y = true ∧ x.equal keq veq y = true) ∧ ¬(x.less klt vlt y = true ∧ y.less klt vlt x = true) ∧
    (x.less klt vlt y = true → y.less klt vlt z = true → x.less klt vlt z = true) ∧
    (x.greater klt vlt y = true ↔ y.less klt vlt x = true) ∧
    (x.atMost klt vlt y = true ↔ x.less klt vlt y = true ∨ x.equal keq veq y = true) ∧
    (x.atLeast klt vlt y = true ↔ y.less klt vlt x = true ∨ x.equal keq veq y = true) := by
  have t := lexLess_total (pairLess_total hk hv)
  have e : x.equal keq veq y = true ↔ x.entries = y.entries := pairsEqual_iff hke hve _ _
  have tot := t.total x.entries y.entries
  have no : ∀ {a b : FlatMap α β}, a.less klt vlt b = true → b.less klt vlt a = false := fun h => strictTotal_flip t h
  have ne : x.entries = y.entries → x.less klt vlt y = false ∧ y.less klt vlt x = false := fun h => by
    unfold FlatMap.less; rw [h]; exact ⟨t.irrefl _, t.irrefl _⟩
  rw [e]
  refine ⟨tot, fun h => ?_, fun h => ?_, t.trans _ _ _, Iff.rfl, ?_, ?_⟩
  · rw [(ne h.2).1] at h; cases h.1
  · rw [no h.1] at h; cases h.2
  · simp only [FlatMap.atMost, Bool.not_eq_true']
    refine ⟨fun h => ?_, fun h => h.elim no fun h => (ne h).2⟩
    rcases tot with h' | h' | h'
    · exact .inl h'
    · exact .inr h'
    · exact absurd (show y.less klt vlt x = true from h') (by simp [h])
  · simp only [FlatMap.atLeast, Bool.not_eq_true']
    refine ⟨fun h => ?_, fun h => h.elim no fun h => (ne h).1⟩
    rcases tot with h' | h' | h'
    · exact absurd (show x.less klt vlt y = true from h') (by simp [h])
    · exact .inr h'
    · exact .inl h'

/-- The order looks at entries in order of keys: first at the first key, then at its value, then at the rest. -/
theorem C147_first {α β : Type} {klt : α → α → Bool} {vlt : β → β → Bool} (hk : StrictTotal klt) (hv : StrictTotal vlt)
    (k l : α) (v u : β) (ks ls : List α) (vs us : List β) :
    (klt k l = true → (FlatMap.mk (k :: ks) (v :: vs)).less klt vlt ⟨l :: ls, u :: us⟩ = true) ∧
    (vlt v u = true → (FlatMap.mk (k :: ks) (v :: vs)).less klt vlt ⟨k :: ls, u :: us⟩ = true) ∧
    (FlatMap.mk (k :: ks) (v :: vs)).less klt vlt ⟨k :: ls, v :: us⟩ = (FlatMap.mk ks vs).less klt vlt ⟨ls, us⟩ ∧
    (FlatMap.mk [] []).less klt vlt ⟨l :: ls, u :: us⟩ = true := by
  refine ⟨fun h => ?_, fun h => ?_, ?_, rfl⟩ <;>
    simp_all [FlatMap.less, FlatMap.entries, lexLess, pairLess, hk.irrefl, hv.irrefl]

section
variable {α β : Type} (lt : α → α → Bool) (dflt : β)

/-- Steps within their preconditions. -/
def worldLegal (w : MapWorld α β) : List (WorldOp α β) → Prop
  | [] => True
  | op :: ops => worldOpOk lt w op ∧ worldLegal (w.step lt dflt op) ops

/-- The finite maps after a program. -/
def finWorldRun (w : MapWorld α β) (f : FinWorld α β) : List (WorldOp α β) → FinWorld α β
  | [] => f
  | op :: ops => finWorldRun (w.step lt dflt op) (finWorldStep lt w f op) ops

end

theorem worldHolds_run {α β : Type} {lt : α → α → Bool} (sw : StrictWeak lt) (dflt : β) (ops : List (WorldOp α β)) {w : MapWorld α β}
    {f : FinWorld α β} (h : WorldHolds lt w f) (hl : worldLegal lt dflt w ops) :
    WorldHolds lt (w.run lt dflt ops) (finWorldRun lt dflt w f ops) := by
  induction ops generalizing w f with
  | nil => exact h
  | cons op ops ih => exact ih (worldHolds_step sw dflt h op hl.1) hl.2

theorem worldHolds_start {α β : Type} {lt : α → α → Bool} :
    WorldHolds lt (MapWorld.start : MapWorld α β) ⟨fun _ _ => none, fun _ _ => none⟩ := ⟨fun _ => holds_empty, fun _ => rfl⟩

/-- After every program over several maps, each map shows its finite map: copies are independent, a map that was moved from or extracted
is empty, `swap` exchanges two maps and nothing else, and `replace` takes what the containers hold. -/
theorem C148_programs {α β : Type} {lt : α → α → Bool} (sw : StrictWeak lt) (dflt : β) (ops : List (WorldOp α β))
    (hl : worldLegal lt dflt MapWorld.start ops) (i : Nat) :
    MapShows lt ((MapWorld.start.run lt dflt ops).maps i)
      ((finWorldRun lt dflt MapWorld.start ⟨fun _ _ => none, fun _ _ => none⟩ ops).maps i) :=
  shows_of_holds sw ((worldHolds_run sw dflt ops worldHolds_start hl).1 i)

/-- What `extract` yields may be given to `replace`, and gives the map back. -/
theorem C148_extract_replace {α β : Type} {lt : α → α → Bool} (sw : StrictWeak lt) (dflt : β) (ops : List (WorldOp α β))
    (hl : worldLegal lt dflt MapWorld.start ops) (i j c : Nat) :
    let w := MapWorld.start.run lt dflt ops
    let w' := w.step lt dflt (.extract i c)
    worldOpOk lt w' (.replace j c) ∧ (w'.step lt dflt (.replace j c)).maps j = w.maps i ∧
      (i ≠ j → ((w'.step lt dflt (.replace j c)).maps i).keys = [] ∧ ((w'.step lt dflt (.replace j c)).maps i).vals = []) := by
  have h := C148_programs sw dflt ops hl i
  refine ⟨?_, ?_, fun hij => ?_⟩
  · simp only [worldOpOk, MapWorld.step, setAt, if_true]
    exact ⟨h.sorted, h.paired⟩
  · simp [MapWorld.step, setAt]
  · simp [MapWorld.step, setAt, hij, FlatMap.clear]

/-! ## Concrete cases -/

theorem nat_strictTotal : StrictTotal (fun a b : Nat => decide (a < b)) :=
  ⟨fun a => by simp, fun a b c => by simp only [decide_eq_true_eq]; omega, fun a b => by simp only [decide_eq_true_eq]; omega⟩

example : ∀ a b : Nat, (a == b) = true ↔ decide (a < b) = false ∧ decide (b < a) = false := by
  intro a b; simp only [beq_iff_eq, decide_eq_false_iff_not]; omega

/-- Different histories of equal maps. -/
example : (FlatMap.run (fun a b : Nat => decide (a < b)) 0 FlatMap.clear mapDemo).equal (· == ·) (· == ·)
    (FlatMap.run (fun a b : Nat => decide (a < b)) 0 FlatMap.clear
      [.insertRange [(9, 90), (7, 70), (2, 20), (6, 60)]]) = true := by decide +kernel

example : (FlatMap.mk [1, 2] [5, 6]).less (fun a b : Nat => decide (a < b)) (fun a b : Nat => decide (a < b)) ⟨[1, 3], [5, 0]⟩ = true := by
  decide +kernel

def worldDemo : List (WorldOp Nat Nat) :=
  [.on 0 (.emplace 5 50), .on 0 (.emplace 3 30), .copy 1 0, .on 1 (.eraseKey 3), .move 2 0, .on 0 (.emplace 8 80), .swap 0 1,
   .extract 2 0, .replace 3 0, .fill 1 [1, 4] [10, 40], .replace 2 1]

example : worldLegal (fun a b : Nat => decide (a < b)) 0 MapWorld.start worldDemo := by
  simp only [worldLegal, worldDemo, worldOpOk, opOk, StrictlySorted]; decide +kernel

example : (List.range 4).map (fun i => ((MapWorld.start.run (fun a b : Nat => decide (a < b)) 0 worldDemo).maps i).keys) =
    [[5], [8], [1, 4], [3, 5]] := by decide +kernel

end HppProto.Props
