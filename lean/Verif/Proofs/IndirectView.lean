import Verif.Spec.IndirectView

namespace HppProto.IView
variable {T : Type}

/-- The memory after a history. -/
def after (h : List (Op T)) : Mem T := ⟨contents h, refersTo h⟩

theorem step_after (h : List (Op T)) (op : Op T) (ok : stepOk h op) : (after h).step op = .ok (after (op :: h)) := by
  have store : ∀ a v, contents h a ≠ none →
      (after h).store a v = .ok { after h with objs := fun b => if b = a then some v else contents h b } := by
    intro a v ha
    unfold Mem.store
    split
    · rename_i e; exact absurd e ha
    · rfl
  cases op with
  | make a v => rfl
  | destroy a => rfl
  | write a v => exact store a v ok
  | point i p => rfl
  | assign i j =>
    simp only [Mem.step, after, Res.ok.injEq, Mem.mk.injEq]
    refine ⟨rfl, funext fun k => ?_⟩
    simp only [refersTo]
    split <;> rfl
  | swap i j =>
    simp only [Mem.step, after, Res.ok.injEq, Mem.mk.injEq]
    refine ⟨rfl, funext fun k => ?_⟩
    simp only [refersTo]
    by_cases h1 : k = i
    · subst h1
      by_cases h2 : k = j
      · subst h2; simp
      · simp [h2]
    · by_cases h2 : k = j
      · subst h2; simp [h1]
      · simp [h1, h2]
  | through i v =>
    obtain ⟨a, h1, h2⟩ := ok
    have : (after h).ptrs i = some a := h1
    simp only [Mem.step, this]
    rw [store a v h2]
    simp only [after, Res.ok.injEq, Mem.mk.injEq]
    refine ⟨funext fun b => ?_, rfl⟩
    simp only [contents, h1, Option.some.injEq]
    by_cases hb : b = a
    · rw [if_pos hb, if_pos hb.symm]
    · rw [if_neg hb, if_neg fun e => hb e.symm]

theorem step_bad (h : List (Op T)) (op : Op T) (bad : ¬stepOk h op) : (after h).step op = .ub := by
  have store : ∀ a v, ¬contents h a ≠ none → (after h).store a v = .ub := by
    intro a v ha
    unfold Mem.store
    split
    · rfl
    · rename_i e
      exact absurd (show contents h a ≠ none by rw [show contents h a = some _ from e]; simp) ha
  cases op with
  | write a v => exact store a v bad
  | through i v =>
    simp only [Mem.step]
    split
    · rfl
    · rename_i a e
      exact store a v fun h2 => bad ⟨a, e, h2⟩
  | make | destroy | point | assign | swap => exact absurd trivial bad

theorem run_after (ops h : List (Op T)) (hh : historyOk h) :
    (historyOk (ops.reverse ++ h) → (after h).run ops = .ok (after (ops.reverse ++ h))) ∧
    (¬historyOk (ops.reverse ++ h) → (after h).run ops = .ub) := by
  induction ops generalizing h with
  | nil => exact ⟨fun _ => rfl, fun n => absurd hh n⟩
  | cons op ops ih =>
    have suffix : ∀ (p q : List (Op T)), historyOk (p ++ q) → historyOk q := by
      intro p q
      induction p with
      | nil => exact id
      | cons _ _ ih' => exact fun x => ih' x.2
    simp only [List.reverse_cons, List.append_assoc, List.singleton_append, Mem.run]
    by_cases ok : stepOk h op
    · rw [step_after h op ok]
      exact ih (op :: h) ⟨ok, hh⟩
    · rw [step_bad h op ok]
      exact ⟨fun x => absurd (suffix _ _ x).1 ok, fun _ => rfl⟩

end HppProto.IView
