import Verif.Spec.JsonViews

namespace HppProto.JsonViews

/-- Structs that the reading may change: the message itself, and what was allocated since `n`. -/
def Own (n r a : Nat) : Prop := a = r ∨ n ≤ a

/-- Own structs that are in use point only to structs allocated since `n`. -/
def Inv (n r : Nat) (h : Heap) : Prop :=
  n ≤ h.next ∧ ∀ a, Own n r a → a < h.next → ∀ s p, (h.objs a).ptrs s = some p → n ≤ p ∧ p < h.next

/-- Nothing that was in use before changes, except the message. -/
def Kept (n r : Nat) (h h' : Heap) : Prop := h.next ≤ h'.next ∧ ∀ b, b < n → b ≠ r → h'.objs b = h.objs b

theorem Kept.trans {n r : Nat} {h h' h'' : Heap} (x : Kept n r h h') (y : Kept n r h' h'') : Kept n r h h'' :=
  ⟨Nat.le_trans x.1 y.1, fun b hb hr => (y.2 b hb hr).trans (x.2 b hb hr)⟩

theorem put_kept {n r a : Nat} {h : Heap} {o : Obj} (ha : Own n r a) : Kept n r h (h.put a o) := by
  refine ⟨Nat.le_refl _, fun b hb hr => ?_⟩
  simp only [Heap.put]
  rw [if_neg]
  rintro rfl
  rcases ha with ha | ha
  · exact hr ha
  · omega

theorem setVal_inv {n r a s v : Nat} {h : Heap} (hi : Inv n r h) : Inv n r (h.setVal a s v) := by
  refine ⟨hi.1, fun b hb hl t p hp => ?_⟩
  simp only [Heap.setVal, Heap.put] at hp
  split at hp
  · rename_i e; subst e; exact hi.2 b hb hl t p hp
  · exact hi.2 b hb hl t p hp

theorem setPtr_inv {n r a s : Nat} {q : Option Nat} {h : Heap} (hi : Inv n r h) (hq : ∀ p, q = some p → n ≤ p ∧ p < h.next) :
    Inv n r (h.setPtr a s q) := by
  refine ⟨hi.1, fun b hb hl t p hp => ?_⟩
  simp only [Heap.setPtr, Heap.put] at hp
  split at hp
  · rename_i e
    subst e
    dsimp only at hp
    split at hp
    · exact hq p hp
    · exact hi.2 b hb hl t p hp
  · exact hi.2 b hb hl t p hp

theorem alloc_inv {n r : Nat} {h : Heap} (hi : Inv n r h) : Inv n r h.alloc := by
  refine ⟨Nat.le_succ_of_le hi.1, fun b hb hl t p hp => ?_⟩
  simp only [Heap.alloc] at hp hl ⊢
  split at hp
  · cases hp
  · have := hi.2 b hb (by omega) t p hp
    omega

theorem alloc_kept {n r : Nat} {h : Heap} (hi : Inv n r h) : Kept n r h h.alloc := by
  refine ⟨Nat.le_succ _, fun b hb _ => ?_⟩
  simp only [Heap.alloc]
  rw [if_neg (by have := hi.1; omega)]

theorem readInto_inv {n r : Nat} (doc : Doc) (a : Nat) (h : Heap) (ha : Own n r a) (hl : a < h.next) (hi : Inv n r h) :
    Inv n r (readInto doc a h).1 ∧ Kept n r h (readInto doc a h).1 := by
  induction doc generalizing a h with
  | done => exact ⟨hi, Nat.le_refl _, fun _ _ _ => rfl⟩
  | fail => exact ⟨hi, Nat.le_refl _, fun _ _ _ => rfl⟩
  | value s v rest ih =>
    have := ih a (h.setVal a s v) ha hl (setVal_inv hi)
    exact ⟨this.1, (put_kept ha).trans this.2⟩
  | null s rest ih =>
    have := ih a (h.setPtr a s none) ha hl (setPtr_inv hi fun p e => by cases e)
    exact ⟨this.1, (put_kept ha).trans this.2⟩
  | opt s inner rest ih1 ih2 =>
    obtain ⟨i1, k1⟩ := ih1 h.next h.alloc (.inr hi.1) (Nat.lt_succ_self _) (alloc_inv hi)
    have hn : h.next < (readInto inner h.next h.alloc).1.next := Nat.lt_of_lt_of_le (Nat.lt_succ_self _) k1.1
    have i2 : Inv n r ((readInto inner h.next h.alloc).1.setPtr a s (some h.next)) :=
      setPtr_inv i1 fun p e => by cases e; exact ⟨hi.1, hn⟩
    have k2 : Kept n r h ((readInto inner h.next h.alloc).1.setPtr a s (some h.next)) :=
      ((alloc_kept hi).trans k1).trans (put_kept ha)
    simp only [readInto]
    split
    · have := ih2 a _ ha (Nat.lt_of_lt_of_le hl k2.1) i2
      exact ⟨this.1, k2.trans this.2⟩
    · exact ⟨i2, k2⟩
  | view s inner rest ih1 ih2 =>
    simp only [readInto]
    split
    · rename_i p hp
      obtain ⟨hp1, hp2⟩ := hi.2 a ha hl s p hp
      obtain ⟨i1, k1⟩ := ih1 p h (.inr hp1) hp2 hi
      split
      · have := ih2 a _ ha (Nat.lt_of_lt_of_le hl k1.1) i1
        exact ⟨this.1, k1.trans this.2⟩
      · exact ⟨i1, k1⟩
    · have i0 : Inv n r (h.alloc.setPtr a s (some h.next)) :=
        setPtr_inv (alloc_inv hi) fun p e => by cases e; exact ⟨hi.1, Nat.lt_succ_self _⟩
      have k0 : Kept n r h (h.alloc.setPtr a s (some h.next)) := (alloc_kept hi).trans (put_kept ha)
      obtain ⟨i1, k1⟩ := ih1 h.next _ (.inr hi.1) (Nat.lt_succ_self _) i0
      split
      · have := ih2 a _ ha (Nat.lt_of_lt_of_le hl (k0.trans k1).1) i1
        exact ⟨this.1, (k0.trans k1).trans this.2⟩
      · exact ⟨i1, k0.trans k1⟩

theorem readJson_inv (doc : Doc) (r : Nat) (h : Heap) (hr : r < h.next) :
    Inv h.next r (readJson doc r h).1 ∧ Kept h.next r h (readJson doc r h).1 := by
  have i : Inv h.next r (h.put r Obj.fresh) := by
    refine ⟨Nat.le_refl _, fun a ha hl s p hp => ?_⟩
    rcases ha with rfl | ha
    · simp [Heap.put, Obj.fresh] at hp
    · exact absurd hl (by simp only [Heap.put]; omega)
  have := readInto_inv doc r (h.put r Obj.fresh) (.inl rfl) hr i
  exact ⟨this.1, (put_kept (.inl rfl)).trans this.2⟩

theorem look_congr {h h' : Heap} (path : List Nat) (a s : Nat) (e : ∀ b, Part h a b → h'.objs b = h.objs b) :
    look h' a path s = look h a path s := by
  induction path generalizing a with
  | nil => simp only [look, e a ⟨[], rfl⟩]
  | cons t path ih =>
    simp only [look, e a ⟨[], rfl⟩]
    cases hp : (h.objs a).ptrs t with
    | none => rfl
    | some b =>
      refine ih b fun c ⟨q, hq⟩ => e c ⟨t :: q, ?_⟩
      simp only [goTo, hp]; exact hq

theorem part_new {n r : Nat} {h : Heap} (hi : Inv n r h) (path : List Nat) (a b : Nat) (ha : Own n r a) (hl : a < h.next)
    (hb : goTo h a path = some b) : (b = a ∨ n ≤ b) ∧ b < h.next := by
  induction path generalizing a with
  | nil => cases hb; exact ⟨.inl rfl, hl⟩
  | cons t path ih =>
    simp only [goTo] at hb
    cases hp : (h.objs a).ptrs t with
    | none => rw [hp] at hb; cases hb
    | some c =>
      rw [hp] at hb
      obtain ⟨h1, h2⟩ := hi.2 a ha hl t c hp
      obtain ⟨h3, h4⟩ := ih c (.inr h1) h2 hb
      exact ⟨.inr (h3.elim (fun e => e ▸ h1) id), h4⟩

end HppProto.JsonViews
