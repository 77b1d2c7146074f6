import Verif.Spec.PrintFlag

namespace HppProto

/-- The flag and the saved values are the options of the open calls, and the initial value below. -/
def FlagInv (t : FlagThread) (opened : List Bool) : Prop := t.flag :: t.guards = opened ++ [false]

theorem flagInv_step {t : FlagThread} {opened : List Bool} (h : FlagInv t opened) (s : FlagStep) :
    FlagInv (t.step s) (match s with | .enter o => o :: opened | .leave => opened.tail | .look => opened) := by
  unfold FlagInv at *
  cases s with
  | enter o => simp [FlagThread.step, h]
  | look => exact h
  | leave =>
    cases opened with
    | nil =>
      simp only [List.nil_append, List.cons.injEq] at h
      simp [FlagThread.step, h.1, h.2]
    | cons o os =>
      simp only [List.cons_append, List.cons.injEq] at h
      cases os with
      | nil => simp [FlagThread.step, h.2]
      | cons p ps => simp [FlagThread.step, h.2]

theorem openCalls_append (i : Nat) (a b : List (Nat × FlagStep)) (opened : List Bool) :
    openCalls i (a ++ b) opened = openCalls i b (openCalls i a opened) := by
  induction a generalizing opened with
  | nil => rfl
  | cons p a ih =>
    obtain ⟨k, s⟩ := p
    simp only [List.cons_append, openCalls]
    split
    · cases s <;> exact ih _
    · exact ih _

theorem openCalls_eq (i : Nat) (hs : List (Nat × FlagStep)) (opened : List Bool) :
    openCalls i hs opened = openCalls i ((stepsOf i hs).map fun s => (i, s)) opened := by
  induction hs generalizing opened with
  | nil => rfl
  | cons p hs ih =>
    obtain ⟨k, s⟩ := p
    by_cases e : k = i
    · subst e
      simp only [openCalls, stepsOf, List.filter_cons, decide_true, if_true, List.map_cons]
      cases s <;> exact ih _
    · simp only [openCalls, stepsOf, List.filter_cons, e, decide_false, if_false, Bool.false_eq_true]
      exact ih _

theorem openCalls_balanced {i : Nat} {s : List FlagStep} (h : Balanced s) (opened : List Bool) :
    openCalls i (s.map fun x => (i, x)) opened = opened := by
  induction h generalizing opened with
  | nil => rfl
  | look _ ih => simpa [openCalls] using ih opened
  | call o _ _ ih1 ih2 =>
    simp only [List.cons_append, List.map_cons, List.map_append, openCalls, if_true, openCalls_append, ih1, List.tail_cons, ih2]

theorem flagWorld_run (before hs : List (Nat × FlagStep)) (w : FlagWorld) (inv : ∀ i, FlagInv (w i) (openCalls i before [])) :
    (∀ i, FlagInv ((w.run hs).1 i) (openCalls i (before ++ hs) [])) ∧ (w.run hs).2 = dueLooks before hs := by
  induction hs generalizing before w with
  | nil => exact ⟨by simpa [FlagWorld.run] using inv, rfl⟩
  | cons p hs ih =>
    obtain ⟨k, s⟩ := p
    have next : ∀ i, FlagInv (w.step k s i) (openCalls i (before ++ [(k, s)]) []) := by
      intro i
      rw [openCalls_append]
      unfold FlagWorld.step
      by_cases e : i = k
      · subst e
        have := flagInv_step (inv i) s
        simp only [if_true, openCalls]
        cases s <;> exact this
      · have e' : ¬ k = i := fun h => e h.symm
        simp only [if_neg e, openCalls, if_neg e']
        exact inv i
    obtain ⟨h1, h2⟩ := ih _ _ next
    refine ⟨by simpa [FlagWorld.run] using h1, ?_⟩
    simp only [FlagWorld.run, dueLooks, h2]
    have head : (w k).flag = inForce k before := by
      have := inv k
      unfold FlagInv at this
      unfold inForce
      cases h : openCalls k before [] with
      | nil => rw [h] at this; simp_all
      | cons o os => rw [h] at this; simp_all
    rw [head]

theorem flagWorld_start (i : Nat) : FlagInv (FlagWorld.start i) (openCalls i [] []) := rfl

end HppProto
