import Verif.Proofs.DynamicSim
import Verif.Proofs.DynamicReads
import Verif.Proofs.ReadMembers
import Verif.Proofs.ReadFacts

/-! The element loops of the two readers. Helper lemmas for `Verif/Props/DynamicRead.lean`. -/

namespace HppProto
open Spec

theorem put_put (M : Msg) (k : Nat) (a b : List (Nat × Val)) : (M.put k a).put k b = M.put k b := by
  simp [MsgOf.put]

theorem append_nil_vals (M : Msg) (k : Nat) : appendVals M k [] = M := by
  unfold appendVals
  simp [put_get]

theorem append_append_vals {M : Msg} {k : Nat} (hk : k < M.slots.length) (a b : List Val) :
    appendVals (appendVals M k a) k b = appendVals M k (a ++ b) := by
  unfold appendVals
  rw [get_put_self hk, put_put]
  simp

theorem append_slots (M : Msg) (k : Nat) (a : List Val) : (appendVals M k a).slots.length = M.slots.length := by
  simp [appendVals, MsgOf.put]

/-- Related elements, in order. -/
inductive Pairs {α β : Type} (R : α → β → Prop) : List α → List β → Prop
  | nil : Pairs R [] []
  | cons {a b as bs} : R a b → Pairs R as bs → Pairs R (a :: as) (b :: bs)

theorem Pairs.append {α β : Type} {R : α → β → Prop} {as bs as' bs'} (h : Pairs R as bs) (h' : Pairs R as' bs') :
    Pairs R (as ++ as') (bs ++ bs') := by
  induction h with
  | nil => exact h'
  | cons h _ ih => exact .cons h ih

theorem Pairs.length {α β : Type} {R : α → β → Prop} {as bs} (h : Pairs R as bs) : as.length = bs.length := by
  induction h with
  | nil => rfl
  | cons _ _ ih => simp [ih]

theorem set_replicate {α : Type} (acc : List α) (b : Nat) (x y : α) :
    (acc ++ List.replicate (b + 1) x).set acc.length y = (acc ++ [y]) ++ List.replicate b x := by
  rw [List.set_append_right _ _ (Nat.le_refl _)]
  simp [List.replicate_succ]

theorem get_replicate {α : Type} (acc : List α) (b : Nat) (x : α) (hb : 0 < b) :
    (acc ++ List.replicate b x)[acc.length]? = some x := by
  rw [List.getElem?_append_right (Nat.le_refl _)]
  simp [hb]

theorem resize_blanks {α : Type} (x : α) (l : List α) (c : Nat) :
    resizeWith x (l.length + c) l = l ++ List.replicate c x := by
  unfold resizeWith
  rw [List.take_of_length_le (by omega)]
  congr 2
  omega

/-- One element: the generated reader appends, the dynamic reader overwrites an element. -/
def ElemSim {α : Type} (R : α → Val → Prop) (strict : Prop) (k : Nat) (blank : α)
    (elem : Msg → Flat → Res (Flat × Msg)) (one : α → Flat → Res (Flat × Option α)) : Prop :=
  ∀ M s, DynSim (fun p q => p.1 = q.1 ∧ NotBefore s p.1 ∧
    ((∃ y v, q.2 = some y ∧ R y v ∧ p.2 = appendVals M k [v]) ∨ (q.2 = none ∧ p.2 = M ∧ ¬ strict)))
    (elem M s) (one blank s)

theorem elems_sim {α : Type} {R : α → Val → Prop} {strict : Prop} {k : Nat} {blank : α}
    {elem : Msg → Flat → Res (Flat × Msg)} {one : α → Flat → Res (Flat × Option α)}
    (h : ElemSim R strict k blank elem one) : ∀ (count : Nat) (acc : List α) (b : Nat) (M : Msg) (s : Flat),
    count ≤ b → k < M.slots.length →
    DynSim (fun p q => p.1 = q.1 ∧ NotBefore s p.1 ∧ ∃ ys vals b', q.2.1 = acc.length + ys.length ∧
      q.2.2 = acc ++ ys ++ List.replicate b' blank ∧ ys.length + b' = b ∧ Pairs R ys vals ∧
      p.2 = appendVals M k vals ∧ (strict → ys.length = count))
    (elemLoop flatOps elem count M s)
    (fillLoop flatOps one count acc.length (acc ++ List.replicate b blank) s) := by
  intro count
  induction count with
  | zero =>
    intro acc b M s hb hk
    simp only [elemLoop, fillLoop]
    exact dsim_ok ⟨rfl, NotBefore.refl _, [], [], b, by simp, by simp, by simp, .nil, by rw [append_nil_vals], by simp⟩
  | succ n ih =>
    intro acc b M s hb hk
    obtain ⟨b, rfl⟩ : ∃ b', b = b' + 1 := ⟨b - 1, by omega⟩
    simp only [fillLoop, get_replicate acc (b + 1) blank (by omega)]
    -- after one element
    have next : ∀ (M' : Msg) (s' : Flat) (r : Option α), NotBefore s s' →
        ((∃ y v, r = some y ∧ R y v ∧ M' = appendVals M k [v]) ∨ (r = none ∧ M' = M ∧ ¬ strict)) →
        ∃ (ys : List α) (vals : List Val) (b' : Nat), Pairs R ys vals ∧ M' = appendVals M k vals ∧
          fillStep acc.length (acc ++ List.replicate (b + 1) blank) r = ((acc ++ ys).length, (acc ++ ys) ++ List.replicate b' blank) ∧ ys.length + b' = b + 1 ∧ n ≤ b' ∧
          (strict → ys.length = 1) := by
      rintro M' s' r - (⟨y, v, rfl, hR, rfl⟩ | ⟨rfl, rfl, hs⟩)
      · exact ⟨[y], [v], b, .cons hR .nil, rfl, by simp only [fillStep, set_replicate]; simp, by simp; omega, by omega, by simp⟩
      · exact ⟨[], [], b + 1, .nil, (append_nil_vals ..).symm, by simp [fillStep], by simp, by omega, fun h => absurd h hs⟩
    cases n with
    | zero =>
      show DynSim _ (elem M s) _
      have hM := h M s
      have : elem M s = (elem M s >>= fun p => .ok p) := by
        show _ = Res.bind _ _
        cases elem M s <;> rfl
      rw [this]
      refine dsim_bind hM ?_
      rintro ⟨s1, M1⟩ ⟨s1', r⟩ ⟨e1, e2, e3⟩
      simp only at e1 e2 e3
      subst e1
      obtain ⟨ys, vals, b', hp, rfl, hr, hb', -, hst⟩ := next M1 s1 r e2 e3
      simp only [if_true]
      rw [hr]
      exact dsim_ok ⟨rfl, e2, ys, vals, b', by simp, rfl, hb', hp, rfl, hst⟩
    | succ n =>
      simp only [elemLoop]
      refine dsim_bind (h M s) ?_
      rintro ⟨s1, M1⟩ ⟨s1', r⟩ ⟨e1, e2, e3⟩
      simp only at e1 e2 e3
      subst e1
      obtain ⟨ys, vals, b', hp, rfl, hr, hb', hn, hst⟩ := next M1 s1 r e2 e3
      rw [hr]
      simp only [Nat.succ_ne_zero, if_false]
      refine dsim_op (fine_readTag _) ?_
      rintro ⟨s2, t⟩ ht
      simp only
      refine (ih (acc ++ ys) b' (appendVals M k vals) s2 hn (by rw [append_slots]; exact hk)).imp ?_
      rintro ⟨s3, M3⟩ ⟨s3', i3, vs3⟩ - ⟨e1, e4, ys', vals', b'', g1, g2, g3, g4, g5, g6⟩
      simp only at e1 e4 g1 g2 g5
      refine ⟨e1, (e2.trans (later_readTag ht)).trans e4, ys ++ ys', vals ++ vals', b'', ?_, ?_, ?_, hp.append g4, ?_, ?_⟩
      · simp only [g1, List.length_append]; omega
      · simp only [g2, List.append_assoc]
      · simp only [List.length_append]; omega
      · simp only [g5]
        exact append_append_vals hk _ _
      · intro hs
        have := hst hs
        have := g6 hs
        simp only [List.length_append]
        omega

end HppProto
