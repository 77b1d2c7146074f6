import Verif.Model.Meta

/-! # The generated `is_valid` -/

namespace HppProto
namespace Meta

theorem mem_insertInt (x v : Int) : ∀ l, v ∈ insertInt x l ↔ v = x ∨ v ∈ l
  | [] => by simp [insertInt]
  | y :: l => by
    unfold insertInt
    split
    · simp
    · simp only [List.mem_cons, mem_insertInt x v l]
      constructor
      · rintro (h | h | h)
        · exact .inr (.inl h)
        · exact .inl h
        · exact .inr (.inr h)
      · rintro (h | h | h)
        · exact .inr (.inl h)
        · exact .inl h
        · exact .inr (.inr h)

theorem mem_sortInts (v : Int) : ∀ l, v ∈ sortInts l ↔ v ∈ l
  | [] => by simp [sortInts]
  | x :: l => by simp [sortInts, mem_insertInt, mem_sortInts v l]

theorem insertInt_sorted (x : Int) : ∀ {l : List Int}, l.Pairwise (· ≤ ·) → (insertInt x l).Pairwise (· ≤ ·)
  | [], _ => by simp [insertInt]
  | y :: l, h => by
    have h' := List.pairwise_cons.1 h
    unfold insertInt
    split
    · next hxy =>
      refine List.pairwise_cons.2 ⟨?_, h⟩
      intro z hz
      rcases List.mem_cons.1 hz with rfl | hz
      · exact hxy
      · exact Int.le_trans hxy (h'.1 z hz)
    · next hxy =>
      refine List.pairwise_cons.2 ⟨?_, insertInt_sorted x h'.2⟩
      intro z hz
      rcases (mem_insertInt x z l).1 hz with rfl | hz
      · omega
      · exact h'.1 z hz

theorem sortInts_sorted : ∀ l : List Int, (sortInts l).Pairwise (· ≤ ·)
  | [] => List.Pairwise.nil
  | x :: l => insertInt_sorted x (sortInts_sorted l)

/-- Between the ends of a sorted list without gaps, there is every number. -/
theorem continuous_mem : ∀ {lo : Int} {l : List Int}, (lo :: l).Pairwise (· ≤ ·) → continuousLoop (lo :: l) = .ok true →
    ∀ v, v ∈ lo :: l ↔ lo ≤ v ∧ v ≤ (lo :: l).getLast (by simp)
  | lo, [], _, _, v => by simp; omega
  | lo, b :: l, hs, hc, v => by
    unfold continuousLoop at hc
    split at hc
    · cases hc
    · split at hc
      · cases hc
      · next h1 h2 =>
        have hs' := List.pairwise_cons.1 hs
        have ih := continuous_mem hs'.2 hc v
        have hb := hs'.1 b (.head _)
        have hlast : b ≤ (b :: l).getLast (by simp) :=
          ((continuous_mem hs'.2 hc b).1 (.head _)).2
        have e : (lo :: b :: l).getLast (by simp) = (b :: l).getLast (by simp) := List.getLast_cons (by simp)
        rw [List.mem_cons, ih, e]
        omega

theorem continuous_defined : ∀ {l : List Int}, (∀ a ∈ l, ∀ b ∈ l, b - a ≤ 2147483647) → ∃ c, continuousLoop l = .ok c
  | [], _ => ⟨true, rfl⟩
  | [_], _ => ⟨true, rfl⟩
  | a :: b :: l, h => by
    unfold continuousLoop
    have := h a (.head _) b (.tail _ (.head _))
    rw [if_neg (by omega)]
    split
    · exact ⟨_, rfl⟩
    · exact continuous_defined fun x hx y hy => h x (.tail _ hx) y (.tail _ hy)

theorem isValidFn_ok {numbers : List Int} {fn : ValidFn} (h : isValidFn numbers = .ok fn) (v : Int) :
    fn.accepts v = true ↔ v ∈ numbers := by
  unfold isValidFn at h
  rw [← mem_sortInts v numbers]
  have hs := sortInts_sorted numbers
  revert h hs
  cases hl : sortInts numbers with
  | nil =>
    intro h _
    simp only [continuousLoop] at h
    cases h
    simp [ValidFn.accepts]
  | cons lo rest =>
    intro h hs
    cases hc : continuousLoop (lo :: rest) with
    | ok c =>
      simp only [hc] at h
      cases c with
      | true =>
        cases h
        rw [continuous_mem hs hc]
        simp [ValidFn.accepts]
      | false =>
        cases h
        rw [ValidFn.accepts, List.any_eq_true]
        constructor
        · rintro ⟨u, hu, h⟩
          rw [← eq_of_beq h]
          exact hu
        · exact fun h => ⟨v, h, by simp⟩
    | err e => simp only [hc] at h; cases h
    | ub => simp only [hc] at h; cases h
    | throw => simp only [hc] at h; cases h
    | stuck => simp only [hc] at h; cases h

theorem isValidFn_defined {numbers : List Int} (h : ∀ a ∈ numbers, ∀ b ∈ numbers, b - a ≤ 2147483647) :
    ∃ fn, isValidFn numbers = .ok fn := by
  obtain ⟨c, hc⟩ := continuous_defined (l := sortInts numbers)
    fun a ha b hb => h a ((mem_sortInts a _).1 ha) b ((mem_sortInts b _).1 hb)
  unfold isValidFn
  simp only [hc]
  cases hl : sortInts numbers with
  | nil => exact ⟨_, rfl⟩
  | cons lo rest =>
    cases c with
    | true => exact ⟨_, rfl⟩
    | false => exact ⟨_, rfl⟩

end Meta
end HppProto
