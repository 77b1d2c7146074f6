import Verif.Model.Recursion
/-!
# Claim C28: recursion scopes

`runBlock max active b` runs a tree of nested scopes `b` from the counter value `active`
with limit `max`: counter afterwards, whether the outermost scope was granted, and every
value the counter had on the way.
-/
namespace HppProto.Props
open HppProto

theorem scope_granted {active max : BitVec 32} (hm : max ≠ 0xffffffff#32) :
    (scopeEnter active max).2 = true ↔ active.toNat < max.toNat + 1 := by
  unfold scopeEnter
  have h2 : max.toNat ≠ 4294967295 := fun h => hm (BitVec.eq_of_toNat_eq (by simpa using h))
  have h3 := max.isLt
  split
  · rename_i h
    simp only [Bool.and_eq_true, decide_eq_true_eq, BitVec.le_def] at h
    simp; omega
  · rename_i h
    simp only [Bool.and_eq_true, decide_eq_true_eq, BitVec.le_def, bne_iff_ne, ne_eq, not_and, Classical.not_not] at h
    simp only [Bool.false_eq_true, false_iff]
    intro h4
    have := congrArg BitVec.toNat (h (by omega))
    simp at this
    omega

theorem enter_leave (active max : BitVec 32) : scopeLeave (scopeEnter active max).1 (scopeEnter active max).2 = active := by
  unfold scopeEnter scopeLeave
  split
  · simp only [if_true]
    apply BitVec.eq_of_toNat_eq
    simp only [BitVec.toNat_sub, BitVec.toNat_add, BitVec.toNat_ofNat]
    have := active.isLt
    omega
  · rfl

theorem enter_bound {active max : BitVec 32} (hm : max ≠ 0xffffffff#32) :
    (scopeEnter active max).2 = true → (scopeEnter active max).1.toNat = active.toNat + 1 ∧ active.toNat + 1 ≤ max.toNat + 1 := by
  intro h
  have h1 := (scope_granted hm).1 h
  have h2 : max.toNat ≠ 4294967295 := fun h => hm (BitVec.eq_of_toNat_eq (by simpa using h))
  have h3 := max.isLt
  have h4 : (scopeEnter active max).1 = active + 1 := by
    unfold scopeEnter at h ⊢
    split
    · rfl
    · rename_i hn; rw [if_neg hn] at h; cases h
  rw [h4, BitVec.toNat_add]
  have : (1 : BitVec 32).toNat = 1 := rfl
  omega

/-- Values along a run lie between the start and limit + 1. -/
def within (lo max : BitVec 32) (l : List (BitVec 32)) : Prop :=
  ∀ c ∈ l, lo.toNat ≤ c.toNat ∧ (c.toNat ≤ max.toNat + 1 ∨ c = lo)

mutual
theorem run_block (max : BitVec 32) (hm : max ≠ 0xffffffff#32) : ∀ (b : Block) (active : BitVec 32),
    (runBlock max active b).1 = active ∧ ((runBlock max active b).2.1 = true ↔ active.toNat < max.toNat + 1) ∧
    within active max (runBlock max active b).2.2
  | .scope stop body, active => by
    have g := scope_granted (active := active) hm
    have el := enter_leave active max
    simp only [runBlock]
    cases hh : (scopeEnter active max).2 with
    | false =>
      have hc : (scopeEnter active max).1 = active := by
        unfold scopeEnter at hh ⊢
        split
        · rename_i hn; rw [if_pos hn] at hh; cases hh
        · rfl
      rw [hh] at g
      refine ⟨?_, g, ?_⟩
      · simp [scopeLeave, hc]
      · intro c hcm
        simp [scopeLeave, hc] at hcm
        subst hcm
        exact ⟨Nat.le_refl _, .inr rfl⟩
    | true =>
      have hb := enter_bound hm hh
      have r := run_blocks max hm body stop (scopeEnter active max).1
      rw [hh] at g el
      simp only [if_true]
      rw [r.1, el]
      refine ⟨rfl, by simpa using g, ?_⟩
      intro c hcm
      simp only [List.cons_append, List.mem_cons, List.mem_append, List.not_mem_nil, or_false] at hcm
      rcases hcm with rfl | h | rfl
      · exact ⟨by omega, .inl (by omega)⟩
      · have := r.2 c h
        refine ⟨by omega, .inl ?_⟩
        rcases this.2 with h2 | h2
        · exact h2
        · subst h2; omega
      · exact ⟨Nat.le_refl _, .inr rfl⟩
theorem run_blocks (max : BitVec 32) (hm : max ≠ 0xffffffff#32) : ∀ (bs : List Block) (stop : Bool) (active : BitVec 32),
    (runBlocks max stop active bs).1 = active ∧ within active max (runBlocks max stop active bs).2
  | [], _, active => by simp [runBlocks, within]
  | b :: bs, stop, active => by
    have h1 := run_block max hm b active
    simp only [runBlocks]
    split
    · exact ⟨h1.1, h1.2.2⟩
    · rw [h1.1]
      have h2 := run_blocks max hm bs stop active
      refine ⟨h2.1, ?_⟩
      intro c hc
      rcases List.mem_append.1 hc with h | h
      · exact h1.2.2 c h
      · exact h2.2 c h
end

/-- C28. For every tree of scopes, whichever way its blocks are left: the counter is
afterwards what it was before; the outermost scope (hence, by the same statement for its
sub-blocks, every scope) is granted exactly if fewer than limit + 1 are active; and starting
from at most limit + 1 active scopes, the counter never exceeds limit + 1 on the way. Limits are
below 2^32 − 1, as recursion.hpp 39 requires. -/
theorem C28_scopes (max : BitVec 32) (hm : max ≠ 0xffffffff#32) (active : BitVec 32) (b : Block) :
    (runBlock max active b).1 = active ∧
    ((runBlock max active b).2.1 = true ↔ active.toNat < max.toNat + 1) ∧
    (active.toNat ≤ max.toNat + 1 → ∀ c ∈ (runBlock max active b).2.2, c.toNat ≤ max.toNat + 1) := by
  obtain ⟨h1, h2, h3⟩ := run_block max hm b active
  refine ⟨h1, h2, fun ha c hc => ?_⟩
  rcases (h3 c hc).2 with h | rfl
  · exact h
  · exact ha

/-- The budget used in the models of reading and writing (`limit + 1` at the root, one less
in each scope, none left means refused) is this counter counted down. -/
theorem C28_budget (max active : BitVec 32) (hm : max ≠ 0xffffffff#32) :
    let budget (c : BitVec 32) := max.toNat + 1 - c.toNat
    budget 0 = max.toNat + 1 ∧
    ((scopeEnter active max).2 = true ↔ budget active ≠ 0) ∧
    ((scopeEnter active max).2 = true → budget active = budget (scopeEnter active max).1 + 1) := by
  refine ⟨by simp, ?_, ?_⟩
  · rw [scope_granted hm]
    show _ ↔ max.toNat + 1 - active.toNat ≠ 0
    omega
  · intro h
    have := enter_bound hm h
    show max.toNat + 1 - active.toNat = max.toNat + 1 - (scopeEnter active max).1.toNat + 1
    omega

/-- A run with limit 1: the third level is refused, and the code returns. -/
example :
    runBlock 1 0 (.scope true [.scope true [.scope false []], .scope false []]) = (0, true, [1, 2, 2, 2, 1, 2, 1, 0]) ∧
    (1#32 : BitVec 32) ≠ 0xffffffff#32 := by decide

end HppProto.Props
