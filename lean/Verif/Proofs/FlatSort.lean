import Verif.Proofs.FlatMap
/-! # Proofs about building a `flat_map` from a range -/
namespace HppProto
open Spec

theorem swapAt_perm {δ : Type} (l : List δ) (i j : Nat) : (swapAt l i j).Perm l := by
  unfold swapAt
  split
  · next a b h1 h2 =>
    obtain ⟨hi, rfl⟩ := List.getElem?_eq_some_iff.1 h1
    obtain ⟨hj, rfl⟩ := List.getElem?_eq_some_iff.1 h2
    exact List.set_set_perm hi hj
  · exact .refl _

theorem swapAt_length {δ : Type} (l : List δ) (i j : Nat) : (swapAt l i j).length = l.length := (swapAt_perm l i j).length_eq

theorem swapAt_map {δ ε : Type} (f : δ → ε) (l : List δ) (i j : Nat) : swapAt (l.map f) i j = (swapAt l i j).map f := by
  unfold swapAt
  simp only [List.getElem?_map]
  cases h1 : l[i]? <;> cases h2 : l[j]? <;> simp [List.map_set]

theorem swapAt_segment {δ : Type} (a b c : List δ) (i j : Nat) (hi : i < b.length) (hj : j < b.length) :
    swapAt (a ++ b ++ c) (a.length + i) (a.length + j) = a ++ swapAt b i j ++ c := by
  have g : ∀ k, k < b.length → (a ++ b ++ c)[a.length + k]? = b[k]? := by
    intro k hk
    rw [List.append_assoc, List.getElem?_append_right (by omega), Nat.add_sub_cancel_left, List.getElem?_append_left hk]
  unfold swapAt
  rw [g i hi, g j hj, List.getElem?_eq_getElem hi, List.getElem?_eq_getElem hj]
  simp only
  have st : ∀ (b : List δ) k x, k < b.length → (a ++ b ++ c).set (a.length + k) x = a ++ b.set k x ++ c := by
    intro b k x hk
    rw [List.append_assoc, List.set_append_right _ _ (by omega), Nat.add_sub_cancel_left, List.set_append_left _ _ hk,
      List.append_assoc]
  rw [st b i _ hi, st _ j _ (by simpa using hj)]

/-- Swapping the first and the last of a stretch. -/
theorem swapAt_ends {δ : Type} (x y : δ) (m : List δ) : swapAt (x :: m ++ [y]) 0 (m.length + 1) = y :: m ++ [x] := by
  have h : (x :: m ++ [y])[m.length + 1]? = some y := by simp
  unfold swapAt
  rw [h]
  simp

section
variable {α β : Type} {lt : α → α → Bool}

theorem swapTogether_entries (e : List (α × β)) (i j : Nat) : (ofEntries e).swapTogether i j = ofEntries (swapAt e i j) := by
  simp [FlatMap.swapTogether, ofEntries, swapAt_map]

theorem key_at (a : List (α × β)) (p : α × β) (c : List (α × β)) : (ofEntries (a ++ p :: c)).keys[a.length]? = some p.1 := by
  simp [ofEntries]

theorem partAdvance_spec (p : α → Bool) (b a c : List (α × β)) :
    ∃ t u, b = t ++ u ∧ (∀ x ∈ t, p x.1 = true) ∧ (∀ x u', u = x :: u' → p x.1 = false) ∧
      partAdvance p (ofEntries (a ++ b ++ c)).keys b.length a.length = a.length + t.length := by
  induction b generalizing a with
  | nil => exact ⟨[], [], rfl, fun _ h => (by cases h), fun _ _ h => (by cases h), rfl⟩
  | cons x b ih =>
    have hk : (ofEntries (a ++ x :: b ++ c)).keys[a.length]? = some x.1 := by
      rw [List.append_assoc, List.cons_append]; exact key_at a x (b ++ c)
    rw [List.length_cons, partAdvance, hk]
    cases hp : p x.1
    · exact ⟨[], x :: b, rfl, fun _ h => (by cases h), fun y u' h => (by injection h with h _; rw [← h]; exact hp),
        by simp only [hp, Bool.false_eq_true, if_false]; rfl⟩
    · obtain ⟨t, u, h1, h2, h3, h4⟩ := ih (a ++ [x])
      refine ⟨x :: t, u, by rw [h1]; rfl, fun y hy => ?_, h3, ?_⟩
      · rcases List.mem_cons.1 hy with rfl | hy
        · exact hp
        · exact h2 y hy
      · simp only [hp, if_true]
        rw [show a ++ x :: b ++ c = a ++ [x] ++ b ++ c by simp, show a.length + 1 = (a ++ [x]).length by simp, h4]
        simp; omega

theorem partRetreat_spec (p : α → Bool) (n : Nat) (b a c : List (α × β)) (hn : b.length = n) :
    ∃ u s, b = u ++ s ∧ (∀ x ∈ s, p x.1 = false) ∧ (∀ x u', u = u' ++ [x] → p x.1 = true) ∧
      partRetreat p (ofEntries (a ++ b ++ c)).keys n (a.length + b.length) = a.length + u.length := by
  induction n generalizing b c with
  | zero =>
    have : b = [] := List.length_eq_zero_iff.1 hn
    subst this
    exact ⟨[], [], rfl, fun _ h => (by cases h), fun x u' h => (by cases u' <;> cases h), rfl⟩
  | succ n ih =>
    have hne : b ≠ [] := by intro h; subst h; cases hn
    obtain ⟨b0, y, hb⟩ : ∃ b0 y, b = b0 ++ [y] := ⟨_, _, (List.dropLast_concat_getLast hne).symm⟩
    subst hb
    have hn' : b0.length = n := by simpa using hn
    have hk : (ofEntries (a ++ (b0 ++ [y]) ++ c)).keys[a.length + (b0 ++ [y]).length - 1]? = some y.1 := by
      rw [show a ++ (b0 ++ [y]) ++ c = (a ++ b0) ++ y :: c by simp,
        show a.length + (b0 ++ [y]).length - 1 = (a ++ b0).length by simp]
      exact key_at (a ++ b0) y c
    rw [partRetreat, hk]
    cases hp : p y.1
    · obtain ⟨u, s, h1, h2, h3, h4⟩ := ih b0 (y :: c) hn'
      refine ⟨u, s ++ [y], by rw [h1]; simp, fun x hx => ?_, h3, ?_⟩
      · rcases List.mem_append.1 hx with hx | hx
        · exact h2 x hx
        · rw [List.mem_singleton.1 hx]; exact hp
      · simp only [hp, Bool.not_false, if_true]
        rw [show a ++ (b0 ++ [y]) ++ c = a ++ b0 ++ y :: c by simp,
          show a.length + (b0 ++ [y]).length - 1 = a.length + b0.length by simp]
        exact h4
    · refine ⟨b0 ++ [y], [], by simp, fun _ h => (by cases h), fun x u' h => ?_, ?_⟩
      · have := (List.append_inj' h rfl).2
        injection this with this; rw [← this]; exact hp
      · simp only [hp, Bool.not_true, Bool.false_eq_true, if_false]

/-- `partition_together` rearranges a stretch so that the elements with `p` come first. -/
theorem partitionTogether_spec (p : α → Bool) (fuel : Nat) (b a c : List (α × β)) (hf : b.length ≤ fuel) :
    ∃ b1 b2, partitionTogether p fuel (ofEntries (a ++ b ++ c)) a.length (a.length + b.length) =
        (ofEntries (a ++ (b1 ++ b2) ++ c), a.length + b1.length) ∧
      (b1 ++ b2).Perm b ∧ (∀ x ∈ b1, p x.1 = true) ∧ (∀ x ∈ b2, p x.1 = false) := by
  induction fuel generalizing b a c with
  | zero =>
    have : b = [] := List.length_eq_zero_iff.1 (by omega)
    subst this
    exact ⟨[], [], rfl, .refl _, fun _ h => (by cases h), fun _ h => (by cases h)⟩
  | succ fuel ih =>
    by_cases hb : b = []
    · subst hb
      refine ⟨[], [], ?_, .refl _, fun _ h => (by cases h), fun _ h => (by cases h)⟩
      rw [partitionTogether, if_neg (by simp)]; rfl
    · have hbl : 0 < b.length := List.length_pos_iff.2 hb
      rw [partitionTogether, if_pos (by omega), Nat.add_sub_cancel_left]
      obtain ⟨t, u, h1, h2, h3, h4⟩ := partAdvance_spec p b a c
      simp only [h4]
      obtain ⟨u1, s, g1, g2, g3, g4⟩ := partRetreat_spec p u.length u (a ++ t) c rfl
      have e1 : a.length + b.length - (a.length + t.length) = u.length := by rw [h1]; simp; omega
      have e2 : a ++ b ++ c = a ++ t ++ u ++ c := by rw [h1]; simp
      have e3 : a.length + b.length = (a ++ t).length + u.length := by rw [h1]; simp; omega
      rw [e1, e2, e3, g4]
      -- the rest is empty or has two ends to swap
      cases u1 with
      | nil =>
        rw [if_neg (by simp)]
        have hs : u = s := by simpa using g1
        cases u with
        | nil =>
          have hbt : b = t := by simpa using h1
          obtain ⟨b1, b2, k1, k2, _, _⟩ := ih ([] : List (α × β)) (a ++ t) c (Nat.zero_le _)
          have hz : b1 = [] ∧ b2 = [] := by
            have := k2.length_eq; simp at this; exact this
          obtain ⟨rfl, rfl⟩ := hz
          refine ⟨t, [], ?_, by rw [hbt]; simp, h2, fun _ h => (by cases h)⟩
          simpa using k1
        | cons x u' =>
          obtain ⟨b1, b2, k1, k2, _, _⟩ := ih ([] : List (α × β)) (a ++ t) (x :: u' ++ c) (Nat.zero_le _)
          have hz : b1 = [] ∧ b2 = [] := by
            have := k2.length_eq; simp at this; exact this
          obtain ⟨rfl, rfl⟩ := hz
          refine ⟨t, x :: u', ?_, by rw [h1], h2, by rw [hs]; exact g2⟩
          simpa using k1
      | cons x u' =>
        have hu : u = x :: (u' ++ s) := by rw [g1]; rfl
        have hpx : p x.1 = false := h3 x _ hu
        have hne : u' ≠ [] := by
          intro h
          have := g3 x [] (by rw [h]; rfl)
          rw [this] at hpx; cases hpx
        obtain ⟨m, y, hm⟩ : ∃ m y, u' = m ++ [y] := ⟨_, _, (List.dropLast_concat_getLast hne).symm⟩
        have hpy : p y.1 = true := g3 y (x :: m) (by rw [hm]; rfl)
        subst hm
        rw [if_pos (by simp)]
        have hsw : (ofEntries (a ++ t ++ u ++ c)).swapTogether (a.length + t.length)
            ((a ++ t).length + (x :: (m ++ [y])).length - 1) = ofEntries ((a ++ t ++ [y]) ++ m ++ (x :: (s ++ c))) := by
          rw [swapTogether_entries, hu]
          have := swapAt_segment (a ++ t) (x :: m ++ [y]) (s ++ c) 0 (m.length + 1) (by simp) (by simp)
          rw [swapAt_ends] at this
          rw [show a ++ t ++ x :: (m ++ [y] ++ s) ++ c = a ++ t ++ (x :: m ++ [y]) ++ (s ++ c) by simp,
            show a.length + t.length = (a ++ t).length + 0 by simp,
            show (a ++ t).length + (x :: (m ++ [y])).length - 1 = (a ++ t).length + (m.length + 1) by simp, this]
          simp
        rw [hsw]
        obtain ⟨b1, b2, k1, k2, k3, k4⟩ := ih m (a ++ t ++ [y]) (x :: (s ++ c)) (by rw [h1, hu] at hf; simp at hf; omega)
        refine ⟨t ++ y :: b1, b2 ++ x :: s, ?_, ?_, ?_, ?_⟩
        · rw [show a.length + t.length + 1 = (a ++ t ++ [y]).length by simp; omega,
            show (a ++ t).length + (x :: (m ++ [y])).length - 1 = (a ++ t ++ [y]).length + m.length by simp; omega, k1]
          simp only [List.append_assoc, List.cons_append, List.length_append, List.length_cons, List.length_nil, List.nil_append]
          refine Prod.ext rfl ?_
          simp; omega
        · rw [h1, hu]
          have : (t ++ y :: b1 ++ (b2 ++ x :: s)).Perm (t ++ (y :: (b1 ++ b2) ++ x :: s)) := by simp
          refine this.trans (List.Perm.append_left t ?_)
          refine ((k2.cons y).append_right (x :: s)).trans ?_
          have p1 : (y :: m ++ x :: s).Perm (x :: (y :: m ++ s)) := List.perm_middle
          refine p1.trans (List.Perm.cons x ?_)
          rw [List.append_assoc]
          exact (List.perm_middle (l₁ := m) (a := y) (l₂ := s)).symm
        · intro z hz
          rcases List.mem_append.1 hz with hz | hz
          · exact h2 z hz
          · rcases List.mem_cons.1 hz with rfl | hz
            · exact hpy
            · exact k3 z hz
        · intro z hz
          rcases List.mem_append.1 hz with hz | hz
          · exact k4 z hz
          · rcases List.mem_cons.1 hz with rfl | hz
            · exact hpx
            · exact g2 z hz

/-- No element is smaller than one before it. -/
def WeaklySorted (lt : α → α → Bool) (e : List (α × β)) : Prop := e.Pairwise fun a b => lt b.1 a.1 = false

/-- `sort_together` sorts a stretch. -/
theorem sortTogether_spec (w : StrictWeak lt) (fuel : Nat) (b a c : List (α × β)) (hf : b.length ≤ fuel) :
    ∃ b', sortTogether lt fuel (ofEntries (a ++ b ++ c)) a.length (a.length + b.length) = ofEntries (a ++ b' ++ c) ∧
      b'.Perm b ∧ WeaklySorted lt b' := by
  induction fuel generalizing b a c with
  | zero =>
    have : b = [] := List.length_eq_zero_iff.1 (by omega)
    subst this
    exact ⟨[], rfl, .refl _, List.Pairwise.nil⟩
  | succ fuel ih =>
    rw [sortTogether, Nat.add_sub_cancel_left]
    by_cases h3 : b.length ≥ 3
    · rw [if_pos h3]
      -- the pivot goes to the end
      obtain ⟨b0, pv, hm1, hp1⟩ : ∃ b0 pv,
          (if a.length + b.length / 2 ≠ a.length + b.length - 1 then
            (ofEntries (a ++ b ++ c)).swapTogether (a.length + b.length / 2) (a.length + b.length - 1)
           else ofEntries (a ++ b ++ c)) = ofEntries (a ++ (b0 ++ [pv]) ++ c) ∧ (b0 ++ [pv]).Perm b := by
        rw [if_pos (by omega), swapTogether_entries, show a.length + b.length - 1 = a.length + (b.length - 1) by omega,
          swapAt_segment a b c _ _ (by omega) (by omega)]
        have hne : swapAt b (b.length / 2) (b.length - 1) ≠ [] := by
          intro h
          have := swapAt_length b (b.length / 2) (b.length - 1)
          rw [h] at this; simp at this; omega
        refine ⟨_, _, by rw [List.dropLast_concat_getLast hne], ?_⟩
        rw [List.dropLast_concat_getLast hne]; exact swapAt_perm _ _ _
      simp only
      rw [hm1]
      have hlen : b0.length + 1 = b.length := by have := hp1.length_eq; simpa using this
      have hr : a.length + b.length - 1 = a.length + b0.length := by omega
      rw [hr]
      have hpk : (ofEntries (a ++ (b0 ++ [pv]) ++ c)).keys[a.length + b0.length]? = some pv.1 := by
        rw [show a ++ (b0 ++ [pv]) ++ c = (a ++ b0) ++ pv :: c by simp, show a.length + b0.length = (a ++ b0).length by simp]
        exact key_at (a ++ b0) pv c
      simp only [hpk]
      obtain ⟨b1, b2, k1, k2, k3, k4⟩ := partitionTogether_spec (fun x => lt x pv.1) b0.length b0 a (pv :: c) (Nat.le_refl _)
      rw [Nat.add_sub_cancel_left, show a ++ (b0 ++ [pv]) ++ c = a ++ b0 ++ pv :: c by simp, k1]
      simp only
      -- the pivot goes between
      obtain ⟨b3, hm3, hp3⟩ : ∃ b3,
          (if a.length + b1.length ≠ a.length + b0.length then
            (ofEntries (a ++ (b1 ++ b2) ++ pv :: c)).swapTogether (a.length + b1.length) (a.length + b0.length)
           else ofEntries (a ++ (b1 ++ b2) ++ pv :: c)) = ofEntries (a ++ b1 ++ pv :: (b3 ++ c)) ∧ b3.Perm b2 := by
        have hl2 : b1.length + b2.length = b0.length := by have := k2.length_eq; simpa using this
        cases b2 with
        | nil =>
          rw [if_neg (by simp at hl2; omega)]
          exact ⟨[], by simp, .refl _⟩
        | cons x b2 =>
          rw [if_pos (by simp at hl2; omega), swapTogether_entries]
          refine ⟨b2 ++ [x], ?_, by simpa using (List.perm_append_comm (l₁ := b2) (l₂ := [x]))⟩
          have := swapAt_segment (a ++ b1) (x :: b2 ++ [pv]) c 0 (b2.length + 1) (by simp) (by simp)
          rw [swapAt_ends] at this
          rw [show a ++ (b1 ++ x :: b2) ++ pv :: c = a ++ b1 ++ (x :: b2 ++ [pv]) ++ c by simp,
            show a.length + b1.length = (a ++ b1).length + 0 by simp,
            show a.length + b0.length = (a ++ b1).length + (b2.length + 1) by simp at hl2 ⊢; omega, this]
          simp
      rw [hm3]
      have hl2 : b1.length + b2.length = b0.length := by have := k2.length_eq; simpa using this
      have hl3 : b3.length = b2.length := hp3.length_eq
      obtain ⟨s1, q1, q2, q3⟩ := ih b1 a (pv :: (b3 ++ c)) (by omega)
      rw [q1]
      have ls1 : s1.length = b1.length := q2.length_eq
      obtain ⟨s3, r1, r2, r3⟩ := ih b3 (a ++ s1 ++ [pv]) c (by omega)
      refine ⟨s1 ++ pv :: s3, ?_, ?_, ?_⟩
      · rw [show a ++ s1 ++ pv :: (b3 ++ c) = a ++ s1 ++ [pv] ++ b3 ++ c by simp,
          show a.length + b1.length + 1 = (a ++ s1 ++ [pv]).length by simp; omega,
          show a.length + b.length = (a ++ s1 ++ [pv]).length + b3.length by simp; omega, r1]
        simp
      · refine List.Perm.trans ?_ hp1
        have t1 : (s1 ++ pv :: s3).Perm (b1 ++ pv :: b2) := q2.append ((r2.trans hp3).cons pv)
        refine t1.trans ?_
        refine List.perm_middle.trans ?_
        refine (k2.cons pv).trans ?_
        simpa using (List.perm_append_comm (l₁ := [pv]) (l₂ := b0))
      · have hs1 : ∀ x ∈ s1, lt x.1 pv.1 = true := fun x hx => k3 x (q2.mem_iff.1 hx)
        have hs3 : ∀ x ∈ s3, lt x.1 pv.1 = false := fun x hx => k4 x (hp3.mem_iff.1 (r2.mem_iff.1 hx))
        refine List.pairwise_append.2 ⟨q3, List.pairwise_cons.2 ⟨hs3, r3⟩, fun x hx y hy => ?_⟩
        rcases List.mem_cons.1 hy with rfl | hy
        · exact StrictWeak.asymm w (hs1 x hx)
        · exact w.incomp _ _ _ (hs3 y hy) (StrictWeak.asymm w (hs1 x hx))
    · rw [if_neg h3]
      by_cases h2 : b.length = 2
      · rw [if_pos h2]
        match b, h2 with
        | [x, y], _ =>
          have hx : (ofEntries (a ++ [x, y] ++ c)).keys[a.length]? = some x.1 := by
            rw [List.append_assoc]; exact key_at a x (y :: c)
          have hy : (ofEntries (a ++ [x, y] ++ c)).keys[a.length + 1]? = some y.1 := by
            rw [show a ++ [x, y] ++ c = (a ++ [x]) ++ y :: c by simp, show a.length + 1 = (a ++ [x]).length by simp]
            exact key_at (a ++ [x]) y c
          simp only [hx, hy]
          by_cases hlt : lt x.1 y.1 = true
          · rw [if_pos hlt]
            refine ⟨[x, y], rfl, .refl _, ?_⟩
            refine List.pairwise_cons.2 ⟨fun z hz => ?_, by simp⟩
            rw [List.mem_singleton.1 hz]; exact StrictWeak.asymm w hlt
          · rw [if_neg hlt, swapTogether_entries]
            have := swapAt_segment a [x, y] c 0 1 (by simp) (by simp)
            have he := swapAt_ends x y []
            simp only [List.cons_append, List.nil_append, List.length_nil, Nat.zero_add] at he
            rw [he] at this
            rw [Nat.add_zero] at this
            rw [this]
            refine ⟨[y, x], rfl, .swap _ _ _, ?_⟩
            refine List.pairwise_cons.2 ⟨fun z hz => ?_, by simp⟩
            rw [List.mem_singleton.1 hz]; simpa using hlt
      · rw [if_neg h2]
        refine ⟨b, rfl, .refl _, ?_⟩
        match b with
        | [] => exact List.Pairwise.nil
        | [x] => simp [WeaklySorted]
        | [_, _] => exact absurd rfl h2
        | _ :: _ :: _ :: _ => exact absurd (by simp) h3

/-- Removing duplicates from sorted entries. -/
theorem uniqueTogether_spec (w : StrictWeak lt) (e : List (α × β)) (hs : WeaklySorted lt e) :
    ∃ e', uniqueTogether lt (e.map (·.1)) (e.map (·.2)) = ofEntries e' ∧ SortedE lt e' ∧
      (∀ p ∈ e', p ∈ e) ∧ (∀ p ∈ e, ∃ q ∈ e', same lt p.1 q.1 = true) := by
  induction e with
  | nil => exact ⟨[], rfl, List.Pairwise.nil, fun _ h => h, fun _ h => (by cases h)⟩
  | cons p e ih =>
    have hs' := List.pairwise_cons.1 hs
    obtain ⟨e', h1, h2, h3, h4⟩ := ih hs'.2
    cases e with
    | nil => exact ⟨[p], rfl, by simp [SortedE, StrictlySorted], fun _ h => h, fun q hq => ⟨q, hq, same_refl w _⟩⟩
    | cons q e =>
      simp only [List.map_cons, uniqueTogether] at h1 ⊢
      rw [h1]
      by_cases hlt : lt p.1 q.1 = true
      · simp only [hlt, Bool.not_true, Bool.false_eq_true, if_false]
        refine ⟨p :: e', rfl, ?_, ?_, ?_⟩
        · rw [SortedE_iff] at *
          refine List.pairwise_cons.2 ⟨fun r hr => ?_, h2⟩
          rcases List.mem_cons.1 (h3 r hr) with rfl | hr'
          · exact hlt
          · exact lt_of_lt_of_le w hlt ((List.pairwise_cons.1 hs'.2).1 r hr')
        · intro r hr
          rcases List.mem_cons.1 hr with rfl | hr
          · simp
          · exact List.mem_cons_of_mem _ (h3 r hr)
        · intro r hr
          rcases List.mem_cons.1 hr with rfl | hr
          · exact ⟨r, by simp, same_refl w _⟩
          · obtain ⟨q', a, b⟩ := h4 r hr; exact ⟨q', List.mem_cons_of_mem _ a, b⟩
      · have hlt' : lt p.1 q.1 = false := by simpa using hlt
        simp only [hlt', Bool.not_false, if_true]
        refine ⟨e', rfl, h2, fun r hr => List.mem_cons_of_mem _ (h3 r hr), ?_⟩
        intro r hr
        rcases List.mem_cons.1 hr with rfl | hr
        · have hsm : same lt r.1 q.1 = true := same_iff.2 ⟨hlt', hs'.1 q (by simp)⟩
          obtain ⟨q', a, b⟩ := h4 q (by simp)
          exact ⟨q', a, by rw [same_congr w hsm]; exact b⟩
        · exact h4 r hr

theorem ofRange_spec (w : StrictWeak lt) (l : List (α × β)) :
    ∃ e, FlatMap.ofRange lt l = ofEntries e ∧ SortedE lt e ∧ (∀ p ∈ e, p ∈ l) ∧ (∀ p ∈ l, ∃ q ∈ e, same lt p.1 q.1 = true) := by
  obtain ⟨b', h1, h2, h3⟩ := sortTogether_spec w l.length l [] [] (Nat.le_refl _)
  simp only [List.nil_append, List.append_nil, List.length_nil, Nat.zero_add] at h1
  obtain ⟨e, g1, g2, g3, g4⟩ := uniqueTogether_spec w b' h3
  refine ⟨e, ?_, g2, fun p hp => h2.mem_iff.1 (g3 p hp), fun p hp => g4 p (h2.mem_iff.2 hp)⟩
  unfold FlatMap.ofRange
  simp only
  rw [show (⟨l.map (·.1), l.map (·.2)⟩ : FlatMap α β) = ofEntries l from rfl, h1]
  exact g1

end
end HppProto
