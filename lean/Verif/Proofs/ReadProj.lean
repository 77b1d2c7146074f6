import Verif.Proofs.ReadFacts
import Verif.Spec.Fields
/-! Effect of a record list on one member, on the unknown fields, and on success. -/
namespace HppProto
open Spec

theorem addUnk_slots (m : Msg) (mode n bs) : (m.addUnk mode n bs).slots = m.slots := by cases mode <;> rfl

theorem divert_slots (mode) : ∀ (u : List (BitVec 32 × BitVec 64)) (m : Msg), (divert mode u m).slots = m.slots
  | [], m => rfl
  | p :: u, m => by
    show (divert mode u (m.addUnk mode p.1 _)).slots = _
    rw [divert_slots mode u, addUnk_slots]

theorem get_slots {m m' : Msg} (h : m.slots = m'.slots) (i) : m.get i = m'.get i := by
  unfold MsgOf.get; rw [h]

theorem get_put_self {m : Msg} {i es} (h : i < m.slots.length) : (m.put i es).get i = es := by
  unfold MsgOf.get MsgOf.put
  simp [h]

theorem get_put_ne {m : Msg} {i j es} (h : i ≠ j) : (m.put i es).get j = m.get j := by
  unfold MsgOf.get MsgOf.put
  simp [h]

theorem put_length (m : Msg) (i es) : (m.put i es).slots.length = m.slots.length := by
  simp [MsgOf.put]

section
variable {C : Cfg} {S S' : Sem} {D : MsgD}

/-- Kind that the member reads the record with. -/
def usesKind (sd : SlotD) (r : Rec) (k : Kind) : Prop :=
  match sd with
  | .field _ k' _ => k' = k
  | .oneof alts => ∃ j, findAlt (tagNumber r.tag) alts 0 = some (j, k)

theorem recValue_congr {k old r v} (h : ∀ m m', recMsg C S k r m m' → recMsg C S' k r m m')
    (hv : recValue C S k old r v) : recValue C S' k old r v := by
  cases k with
  | scalar sc => exact hv
  | msg id => obtain ⟨m, h1, rfl⟩ := hv; exact ⟨m, h _ _ h1, rfl⟩
  | group id => obtain ⟨m, h1, rfl⟩ := hv; exact ⟨m, h _ _ h1, rfl⟩

theorem repEff_congr {number k unique r es es' u} (h : ∀ m m', recMsg C S k r m m' → recMsg C S' k r m m')
    (hv : repEff C S number k unique r es es' u) : repEff C S' number k unique r es es' u := by
  have el : elemEff C S k unique r es es' u → elemEff C S' k unique r es es' u := by
    intro hv
    cases k with
    | scalar sc => exact hv
    | msg id => obtain ⟨e, h1, h2⟩ := hv; exact ⟨e, h _ _ h1, h2⟩
    | group id => obtain ⟨e, h1, h2⟩ := hv; exact ⟨e, h _ _ h1, h2⟩
  cases k with
  | scalar sc => cases r <;> exact hv
  | msg id => cases r <;> simp only [repEff] at hv ⊢ <;> exact el hv
  | group id => cases r <;> simp only [repEff] at hv ⊢ <;> exact el hv

/-- The reading of a record depends on deeper levels only through its own message or group. -/
theorem slotEff_congr {sd r es es' u} (h : ∀ k, usesKind sd r k → ∀ m m', recMsg C S k r m m' → recMsg C S' k r m m')
    (hv : slotEff C S sd r es es' u) : slotEff C S' sd r es es' u := by
  cases sd with
  | field number k card =>
    have hk := h k rfl
    cases card with
    | implicit d => obtain ⟨v, h1, h2⟩ := hv; exact ⟨v, recValue_congr hk h1, h2⟩
    | always d =>
      cases k with
      | scalar sc => exact hv
      | msg id => obtain ⟨v, h1, h2⟩ := hv; exact ⟨v, recValue_congr hk h1, h2⟩
      | group id => obtain ⟨v, h1, h2⟩ := hv; exact ⟨v, recValue_congr hk h1, h2⟩
    | optional =>
      cases k with
      | scalar sc => exact hv
      | msg id => obtain ⟨v, h1, h2⟩ := hv; exact ⟨v, recValue_congr hk h1, h2⟩
      | group id => obtain ⟨v, h1, h2⟩ := hv; exact ⟨v, recValue_congr hk h1, h2⟩
    | repeated p => exact repEff_congr hk hv
    | map p => exact repEff_congr hk hv
  | oneof alts =>
    obtain ⟨j, k, hf, hv⟩ := hv
    have hk := h k ⟨j, hf⟩
    refine ⟨j, k, hf, ?_⟩
    cases k with
    | scalar sc => exact hv
    | msg id => obtain ⟨v, h1, h2⟩ := hv; exact ⟨v, recValue_congr hk h1, h2⟩
    | group id => obtain ⟨v, h1, h2⟩ := hv; exact ⟨v, recValue_congr hk h1, h2⟩

/-- A record that a message or group member accepts is accepted one level down. -/
theorem slotEff_inner {sd r es es' u k} (hk : usesKind sd r k) (hs : ∀ sc, k ≠ .scalar sc)
    (hv : slotEff C S sd r es es' u) : ∃ m m', recMsg C S k r m m' := by
  have val : ∀ {k old v}, (∀ sc, k ≠ .scalar sc) → recValue C S k old r v → ∃ m m', recMsg C S k r m m' := by
    intro k old v hs h
    cases k with
    | scalar sc => exact absurd rfl (hs sc)
    | msg id => obtain ⟨m, h, -⟩ := h; exact ⟨_, _, h⟩
    | group id => obtain ⟨m, h, -⟩ := h; exact ⟨_, _, h⟩
  have rep : ∀ {number unique k}, (∀ sc, k ≠ .scalar sc) → repEff C S number k unique r es es' u →
      ∃ m m', recMsg C S k r m m' := by
    intro number unique k hs h
    cases k with
    | scalar sc => exact absurd rfl (hs sc)
    | msg id => cases r <;> simp only [repEff] at h <;> obtain ⟨e, h1, -⟩ := h <;> exact ⟨_, _, h1⟩
    | group id => cases r <;> simp only [repEff] at h <;> obtain ⟨e, h1, -⟩ := h <;> exact ⟨_, _, h1⟩
  cases sd with
  | field number k' card =>
    cases hk
    cases card with
    | implicit d => obtain ⟨v, h1, h2⟩ := hv; exact val hs h1
    | always d =>
      cases k with
      | scalar sc => exact absurd rfl (hs sc)
      | msg id => obtain ⟨v, h1, h2⟩ := hv; exact val hs h1
      | group id => obtain ⟨v, h1, h2⟩ := hv; exact val hs h1
    | optional =>
      cases k with
      | scalar sc => exact absurd rfl (hs sc)
      | msg id => obtain ⟨v, h1, h2⟩ := hv; exact val hs h1
      | group id => obtain ⟨v, h1, h2⟩ := hv; exact val hs h1
    | repeated p => exact rep hs hv
    | map p => exact rep hs hv
  | oneof alts =>
    obtain ⟨j, k', hf, hv⟩ := hv
    obtain ⟨j', hf'⟩ := hk
    rw [hf] at hf'
    cases hf'
    cases k with
    | scalar sc => exact absurd rfl (hs sc)
    | msg id => obtain ⟨v, h1, h2⟩ := hv; exact val hs h1
    | group id => obtain ⟨v, h1, h2⟩ := hv; exact val hs h1

/-- Whether a record is accepted does not depend on the contents of the member, unless a
closed enum is a member of a oneof. The diverted numbers do not depend on it either. -/
theorem slotEff_any {sd r es es' u} (hc : ∀ alts, sd = .oneof alts → ∀ a ∈ alts, a.2.closed = false)
    (h : ∀ k, usesKind sd r k → ∀ m m' m2, recMsg C S k r m m' → ∃ m2', recMsg C S k r m2 m2')
    (hv : slotEff C S sd r es es' u) (es2) : ∃ es2', slotEff C S sd r es2 es2' u := by
  have val : ∀ {k old v}, (∀ m m' m2, recMsg C S k r m m' → ∃ m2', recMsg C S k r m2 m2') → recValue C S k old r v →
      ∀ old2, ∃ v2, recValue C S k old2 r v2 := by
    intro k old v h hv old2
    cases k with
    | scalar sc => exact ⟨v, hv⟩
    | msg id => obtain ⟨m, h1, -⟩ := hv; obtain ⟨m2, h2⟩ := h _ _ (old2.asMsg (C.schema id).default) h1; exact ⟨_, m2, h2, rfl⟩
    | group id => obtain ⟨m, h1, -⟩ := hv; obtain ⟨m2, h2⟩ := h _ _ (old2.asMsg (C.schema id).default) h1; exact ⟨_, m2, h2, rfl⟩
  have el : ∀ {unique k}, elemEff C S k unique r es es' u → ∃ es2', elemEff C S k unique r es2 es2' u := by
    intro unique k hv
    cases k with
    | scalar sc =>
      obtain ⟨w, h1, h2⟩ := hv
      by_cases hval : sc.valid (narrow sc w) = true
      · rw [if_pos hval] at h2; exact ⟨_, w, h1, by rw [if_pos hval]; exact ⟨rfl, h2.2⟩⟩
      · rw [if_neg hval] at h2; exact ⟨_, w, h1, by rw [if_neg hval]; exact ⟨rfl, h2.2⟩⟩
    | msg id => obtain ⟨e, h1, h2, -⟩ := hv; exact ⟨_, e, h1, h2, rfl⟩
    | group id => obtain ⟨e, h1, h2, -⟩ := hv; exact ⟨_, e, h1, h2, rfl⟩
  have rep : ∀ {number unique k}, repEff C S number k unique r es es' u → ∃ es2', repEff C S number k unique r es2 es2' u := by
    intro number unique k hv
    cases k with
    | scalar sc =>
      cases r with
      | len t h p v =>
        simp only [repEff] at hv ⊢
        split at hv
        · rename_i hp
          simp only [hp, if_true]
          unfold packedEff at hv ⊢
          split at hv
          · rename_i hv0; simp only [if_pos hv0]; exact ⟨es2, rfl, hv.2⟩
          · rename_i hv0; simp only [if_neg hv0]
            obtain ⟨vs, k1, -, k3⟩ := hv
            exact ⟨_, vs, k1, rfl, k3⟩
        · rename_i hp; simp only [hp]; exact el hv
      | _ => simp only [repEff] at hv ⊢; exact el hv
    | msg id => cases r <;> simp only [repEff] at hv ⊢ <;> exact el hv
    | group id => cases r <;> simp only [repEff] at hv ⊢ <;> exact el hv
  cases sd with
  | field number k card =>
    have hk := h k rfl
    cases card with
    | implicit d => obtain ⟨v, h1, -, h2⟩ := hv; obtain ⟨v2, h3⟩ := val hk h1 (headVal C k es2); exact ⟨_, v2, h3, rfl, h2⟩
    | always d =>
      cases k with
      | scalar sc => obtain ⟨w, h1, h2, -, h3⟩ := hv; exact ⟨_, w, h1, h2, rfl, h3⟩
      | msg id => obtain ⟨v, h1, -, h2⟩ := hv; obtain ⟨v2, h3⟩ := val hk h1 (headVal C (.msg id) es2); exact ⟨_, v2, h3, rfl, h2⟩
      | group id => obtain ⟨v, h1, -, h2⟩ := hv; obtain ⟨v2, h3⟩ := val hk h1 (headVal C (.group id) es2); exact ⟨_, v2, h3, rfl, h2⟩
    | optional =>
      cases k with
      | scalar sc =>
        obtain ⟨w, h1, h2⟩ := hv
        by_cases hval : sc.valid w = true
        · rw [if_pos hval] at h2; exact ⟨_, w, h1, by rw [if_pos hval]; exact ⟨rfl, h2.2⟩⟩
        · rw [if_neg hval] at h2; exact ⟨_, w, h1, by rw [if_neg hval]; exact ⟨rfl, h2.2⟩⟩
      | msg id => obtain ⟨v, h1, -, h2⟩ := hv; obtain ⟨v2, h3⟩ := val hk h1 (headVal C (.msg id) es2); exact ⟨_, v2, h3, rfl, h2⟩
      | group id => obtain ⟨v, h1, -, h2⟩ := hv; obtain ⟨v2, h3⟩ := val hk h1 (headVal C (.group id) es2); exact ⟨_, v2, h3, rfl, h2⟩
    | repeated p => exact rep hv
    | map p => exact rep hv
  | oneof alts =>
    obtain ⟨j, k, hf, hv⟩ := hv
    have hk := h k ⟨j, hf⟩
    have hcl : k.closed = false := by
      have : ∀ (l : List (BitVec 32 × Kind)) j0, findAlt (tagNumber r.tag) l j0 = some (j, k) → ∃ a ∈ l, a.2 = k := by
        intro l
        induction l with
        | nil => intro j0 h; cases h
        | cons a as ih =>
          intro j0 h
          simp only [findAlt] at h
          split at h
          · cases h; exact ⟨a, List.mem_cons_self, rfl⟩
          · obtain ⟨b, hb, e⟩ := ih _ h; exact ⟨b, List.mem_cons_of_mem _ hb, e⟩
      obtain ⟨a, ha, rfl⟩ := this alts 0 hf
      exact hc alts rfl a ha
    cases k with
    | scalar sc =>
      obtain ⟨w, h1, h2⟩ := hv
      by_cases hval : sc.valid w = true
      · rw [if_pos hval] at h2
        exact ⟨_, j, _, hf, w, h1, by rw [if_pos hval]; exact ⟨by simp [hcl], rfl, h2.2.2⟩⟩
      · rw [if_neg hval] at h2; exact ⟨_, j, _, hf, w, h1, by rw [if_neg hval]; exact ⟨rfl, h2.2⟩⟩
    | msg id => obtain ⟨v, h1, -, h2⟩ := hv; obtain ⟨v2, h3⟩ := val hk h1 (altVal C (.msg id) j es2); exact ⟨_, j, _, hf, v2, h3, rfl, h2⟩
    | group id => obtain ⟨v, h1, -, h2⟩ := hv; obtain ⟨v2, h3⟩ := val hk h1 (altVal C (.group id) j es2); exact ⟨_, j, _, hf, v2, h3, rfl, h2⟩

/-! ### Lists of records -/

/-- The records of one member, applied to its entries. -/
def slotFold (C : Cfg) (S : Sem) (sd : SlotD) : List Rec → List (Nat × Val) → List (Nat × Val) → Prop
  | [], es, es' => es = es'
  | r :: rs, es, es' => ∃ es1 u, slotEff C S sd r es es1 u ∧ slotFold C S sd rs es1 es'

theorem step_length {cont r m m'} (h : step C S D cont r m m') : m'.slots.length = m.slots.length := by
  obtain ⟨-, h⟩ := h
  split at h
  · obtain ⟨sd, -, h⟩ := h
    obtain ⟨es', u, -, rfl⟩ := slotStep_eff.1 h
    rw [divert_slots, put_length]
  · obtain ⟨-, rfl⟩ := h
    rw [addUnk_slots]

theorem fold_length : ∀ {rs last m m'}, fold C S D last rs m m' → m'.slots.length = m.slots.length
  | [], _, _, _, h => by cases h; rfl
  | r :: rs, _, _, _, h => by
    obtain ⟨m1, h1, h2⟩ := h
    rw [fold_length h2, step_length h1]

/-- Records that go to member `i`. -/
def ofMember (D : MsgD) (i : Nat) (r : Rec) : Bool := D.find (tagNumber r.tag) == some i

/-- Each member sees only its own records, in order. -/
theorem fold_proj {i sd} (hs : D.slots[i]? = some sd) : ∀ {rs last m m'}, m.slots.length = D.slots.length →
    fold C S D last rs m m' → slotFold C S sd (rs.filter (ofMember D i)) (m.get i) (m'.get i)
  | [], _, m, m', _, h => by cases h; rfl
  | r :: rs, last, m, m', hl, h => by
    obtain ⟨m1, h1, h2⟩ := h
    have ih := fold_proj hs (by rw [step_length h1, hl]) h2
    have hi : i < m.slots.length := by rw [hl]; exact (List.getElem?_eq_some_iff.1 hs).1
    obtain ⟨-, h1⟩ := h1
    split at h1
    · rename_i j hj
      obtain ⟨sd', hs', h1⟩ := h1
      obtain ⟨es', u, k1, rfl⟩ := slotStep_eff.1 h1
      rw [get_slots (divert_slots _ _ _)] at ih
      by_cases hij : j = i
      · subst hij
        rw [hs] at hs'
        cases hs'
        rw [List.filter_cons_of_pos (by simp [ofMember, hj])]
        rw [get_put_self hi] at ih
        exact ⟨es', u, k1, ih⟩
      · rw [List.filter_cons_of_neg (by simp [ofMember, hj, hij])]
        rw [get_put_ne hij] at ih
        exact ih
    · rename_i hj
      obtain ⟨-, rfl⟩ := h1
      rw [List.filter_cons_of_neg (by simp [ofMember, hj])]
      rw [get_slots (addUnk_slots _ _ _ _)] at ih
      exact ih

end

end HppProto
