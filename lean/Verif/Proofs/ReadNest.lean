import Verif.Proofs.ReadProj
import Verif.Proofs.ReadSafe
/-! Nesting of the input against the recursion limit, and independence of success from the
message read onto. -/
namespace HppProto
open Spec

/-! ### Field lookup -/

theorem toNat_beq (a n : BitVec 32) : (decide (a.toNat = n.toNat)) = (a == n) := by
  by_cases h : a = n
  · simp [h]
  · have : a.toNat ≠ n.toNat := fun e => h (BitVec.eq_of_toNat_eq e)
    simp [h, this]

theorem findAlt_eq (n : BitVec 32) : ∀ (alts : List (BitVec 32 × Kind)) j,
    (findAlt n alts j).map Prod.snd = (alts.find? (fun a => a.1.toNat = n.toNat)).map Prod.snd
  | [], j => rfl
  | (m, k) :: alts, j => by
    simp only [findAlt, List.find?, toNat_beq]
    by_cases h : m = n
    · simp [h]
    · simp only [if_neg h, beq_eq_false_iff_ne.2 h]
      have := findAlt_eq n alts (j + 1)
      simp only [toNat_beq] at this
      exact this

theorem slotKind_has (n : BitVec 32) (sd : SlotD) : (slotKind n.toNat sd).isSome = sd.hasNumber n := by
  cases sd with
  | field m k c =>
    simp only [slotKind, SlotD.hasNumber]
    rw [← toNat_beq]
    by_cases h : m.toNat = n.toNat <;> simp [h]
  | oneof alts =>
    simp only [slotKind, SlotD.hasNumber, Option.isSome_map, List.find?_isSome, toNat_beq]
    rw [Bool.eq_iff_iff]
    simp

theorem fieldKind_none {D : MsgD} {n : BitVec 32} : fieldKind D n.toNat = none ↔ D.find n = none := by
  unfold fieldKind MsgD.find
  rw [List.findSome?_eq_none_iff, List.findIdx?_eq_none_iff]
  refine forall_congr' fun sd => imp_congr_right fun _ => ?_
  have := slotKind_has n sd
  cases h : slotKind n.toNat sd <;> simp [h] at this <;> simp [this]

theorem fieldKind_some {D : MsgD} {n : BitVec 32} {i sd} (hf : D.find n = some i) (hs : D.slots[i]? = some sd) :
    fieldKind D n.toNat = slotKind n.toNat sd := by
  unfold fieldKind
  unfold MsgD.find at hf
  generalize D.slots = l at *
  induction l generalizing i with
  | nil => simp at hs
  | cons a l ih =>
    have ha := slotKind_has n a
    rw [List.findIdx?_cons] at hf
    rw [List.findSome?_cons]
    split at hf
    · rename_i h
      cases hf
      simp at hs
      subst hs
      rw [h] at ha
      obtain ⟨k, hk⟩ := Option.isSome_iff_exists.1 ha
      rw [hk]
    · rename_i h
      obtain ⟨i', hi', rfl⟩ := Option.map_eq_some_iff.1 hf
      have : slotKind n.toNat a = none := by
        rw [Bool.not_eq_true] at h
        rw [h] at ha
        simpa using ha
      rw [this]
      exact ih hi' (by simpa using hs)

theorem slotKind_uses {sd : SlotD} {r : Rec} {k} (hh : sd.hasNumber (tagNumber r.tag) = true) :
    slotKind (tagNumber r.tag).toNat sd = some k ↔ usesKind sd r k := by
  cases sd with
  | field m k' c =>
    simp only [SlotD.hasNumber, beq_iff_eq] at hh
    simp [slotKind, usesKind, hh]
  | oneof alts =>
    simp only [slotKind, usesKind]
    rw [← findAlt_eq _ alts 0]
    cases findAlt (tagNumber r.tag) alts 0 with
    | none => simp
    | some p => obtain ⟨j, k'⟩ := p; simp

theorem find_has {D : MsgD} {n i sd} (hf : D.find n = some i) (hs : D.slots[i]? = some sd) : sd.hasNumber n = true := by
  obtain ⟨hi, hp, -⟩ := List.findIdx?_eq_some_iff_getElem.1 hf
  rw [List.getElem?_eq_getElem hi] at hs
  cases hs
  exact hp

theorem fieldKind_uses {D : MsgD} {r : Rec} {i sd k} (hf : D.find (tagNumber r.tag) = some i) (hs : D.slots[i]? = some sd) :
    fieldKind D (tagNum r.tag) = some k ↔ usesKind sd r k := by
  rw [← tagNumber_toNat, fieldKind_some hf hs, slotKind_uses (find_has hf hs)]

/-! ### Nesting -/

theorem fold_fits (C : Cfg) : ∀ (d : Nat) {id : Nat} {rs : List Rec} {last} {m m' : Msg},
    fold C (sem C d) (C.schema id) last rs m m' → fits C (d + 1) id rs := by
  intro d
  induction d with
  | zero =>
    intro id rs
    induction rs with
    | nil => intro _ _ _ _ r hr; cases hr
    | cons r rs ih =>
      intro last m m' h
      obtain ⟨m1, h1, h2⟩ := h
      intro x hx
      rcases List.mem_cons.1 hx with rfl | hx
      · obtain ⟨-, h1⟩ := h1
        split at h1
        · rename_i i hi
          obtain ⟨sd, hs, h1⟩ := h1
          obtain ⟨es', u, k1, -⟩ := slotStep_eff.1 h1
          cases hk : fieldKind (C.schema id) (tagNum x.tag) with
          | none => rw [← tagNumber_toNat, fieldKind_none, hi] at hk; cases hk
          | some k =>
            have hu := (fieldKind_uses hi hs).1 hk
            cases k with
            | scalar sc => cases x <;> trivial
            | msg sub =>
              obtain ⟨a, b, hr⟩ := slotEff_inner hu (by simp) k1
              cases x <;> simp only [recMsg] at hr
              exact hr.2.elim
            | group sub =>
              obtain ⟨a, b, hr⟩ := slotEff_inner hu (by simp) k1
              cases x <;> simp only [recMsg] at hr
              exact hr.elim
        · rename_i hi
          rw [show fieldKind (C.schema id) (tagNum x.tag) = none by rw [← tagNumber_toNat, fieldKind_none, hi]]
          have := h1.1
          rw [sem_depth] at this
          cases x <;> exact this
      · exact ih h2 x hx
  | succ d ihd =>
    intro id rs
    induction rs with
    | nil => intro _ _ _ _ r hr; cases hr
    | cons r rs ih =>
      intro last m m' h
      obtain ⟨m1, h1, h2⟩ := h
      intro x hx
      rcases List.mem_cons.1 hx with rfl | hx
      · obtain ⟨-, h1⟩ := h1
        split at h1
        · rename_i i hi
          obtain ⟨sd, hs, h1⟩ := h1
          obtain ⟨es', u, k1, -⟩ := slotStep_eff.1 h1
          cases hk : fieldKind (C.schema id) (tagNum x.tag) with
          | none => rw [← tagNumber_toNat, fieldKind_none, hi] at hk; cases hk
          | some k =>
            have hu := (fieldKind_uses hi hs).1 hk
            cases k with
            | scalar sc => cases x <;> trivial
            | msg sub =>
              obtain ⟨a, b, hr⟩ := slotEff_inner hu (by simp) k1
              cases x <;> simp only [recMsg] at hr
              obtain ⟨-, inner, w, e, -, hf⟩ := hr
              exact ⟨inner, w, e, ihd hf⟩
            | group sub =>
              obtain ⟨a, b, hr⟩ := slotEff_inner hu (by simp) k1
              cases x <;> simp only [recMsg] at hr
              exact ihd hr
        · rename_i hi
          rw [show fieldKind (C.schema id) (tagNum x.tag) = none by rw [← tagNumber_toNat, fieldKind_none, hi]]
          have := h1.1
          rw [sem_depth] at this
          cases x <;> exact this
      · exact ih h2 x hx

theorem fold_of_fits (C : Cfg) : ∀ (d : Nat) {e id : Nat} {rs : List Rec} {last} {m m' : Msg},
    fold C (sem C e) (C.schema id) last rs m m' → fits C (d + 1) id rs → fold C (sem C d) (C.schema id) last rs m m' := by
  intro d
  induction d with
  | zero =>
    intro e id rs
    induction rs with
    | nil => intro _ _ _ h _; exact h
    | cons r rs ih =>
      intro last m m' h hf
      obtain ⟨m1, ⟨h0, h1⟩, h2⟩ := h
      refine ⟨m1, ⟨h0, ?_⟩, ih h2 (fun x hx => hf x (List.mem_cons_of_mem _ hx))⟩
      have hr := hf r List.mem_cons_self
      split at h1
      · rename_i i hi
        obtain ⟨sd, hs, h1⟩ := h1
        obtain ⟨es', u, k1, k2⟩ := slotStep_eff.1 h1
        refine ⟨sd, hs, slotStep_eff.2 ⟨es', u, slotEff_congr (fun k hu a b hm => ?_) k1, k2⟩⟩
        rw [(fieldKind_uses hi hs).2 hu] at hr
        cases k <;> cases r <;> simp only [recMsg] at hm hr ⊢
        · obtain ⟨inner, -, -, f⟩ := hr; exact f.elim
        · exact hr.elim
      · rename_i hi
        rw [show fieldKind (C.schema id) (tagNum r.tag) = none by rw [← tagNumber_toNat, fieldKind_none, hi]] at hr
        refine ⟨?_, h1.2⟩
        rw [sem_depth]
        cases r <;> exact hr
  | succ d ihd =>
    intro e id rs
    induction rs with
    | nil => intro _ _ _ h _; exact h
    | cons r rs ih =>
      intro last m m' h hf
      obtain ⟨m1, ⟨h0, h1⟩, h2⟩ := h
      refine ⟨m1, ⟨h0, ?_⟩, ih h2 (fun x hx => hf x (List.mem_cons_of_mem _ hx))⟩
      have hr := hf r List.mem_cons_self
      split at h1
      · rename_i i hi
        obtain ⟨sd, hs, h1⟩ := h1
        obtain ⟨es', u, k1, k2⟩ := slotStep_eff.1 h1
        refine ⟨sd, hs, slotStep_eff.2 ⟨es', u, slotEff_congr (fun k hu a b hm => ?_) k1, k2⟩⟩
        rw [(fieldKind_uses hi hs).2 hu] at hr
        cases e with
        | zero =>
          cases k <;> cases r <;> simp only [recMsg] at hm
          · exact hm.2.elim
          · exact hm.elim
        | succ e =>
          cases k <;> cases r <;> simp only [recMsg] at hm hr ⊢
          · obtain ⟨hm1, rs', w, eq, eh, fo⟩ := hm
            obtain ⟨inner, w', eq', f⟩ := hr
            rw [recs_unique w' w (eq'.trans eq.symm)] at f
            exact ⟨hm1, rs', w, eq, eh, ihd fo f⟩
          · exact ihd hm hr
      · rename_i hi
        rw [show fieldKind (C.schema id) (tagNum r.tag) = none by rw [← tagNumber_toNat, fieldKind_none, hi]] at hr
        refine ⟨?_, h1.2⟩
        rw [sem_depth]
        cases r <;> exact hr

/-! ### Success does not depend on the message read onto -/

theorem fold_any (C : Cfg) {S : Sem} {D : MsgD} (hc : ∀ alts, SlotD.oneof alts ∈ D.slots → ∀ a ∈ alts, a.2.closed = false)
    (h : ∀ k r m m' m2, recMsg C S k r m m' → ∃ m2', recMsg C S k r m2 m2') :
    ∀ {rs last m m'}, fold C S D last rs m m' → ∀ last2 m2, ∃ m2', fold C S D last2 rs m2 m2'
  | [], _, _, _, _, _, m2 => ⟨m2, rfl⟩
  | r :: rs, last, m, m', hf, last2, m2 => by
    obtain ⟨m1, ⟨h0, h1⟩, h2⟩ := hf
    have : ∃ m3, step C S D (contd last2 r) r m2 m3 := by
      unfold step
      split at h1
      · rename_i i hi
        obtain ⟨sd, hs, h1⟩ := h1
        obtain ⟨es', u, k1, k2⟩ := slotStep_eff.1 h1
        have hmem : sd ∈ D.slots := List.mem_of_getElem? hs
        obtain ⟨es2, k3⟩ := slotEff_any (fun alts e => hc alts (e ▸ hmem)) (fun k _ a b c => h k r a b c) k1 (m2.get i)
        exact ⟨_, h0, sd, hs, slotStep_eff.2 ⟨_, _, k3, rfl⟩⟩
      · rename_i hi
        exact ⟨_, h0, h1.1, rfl⟩
    obtain ⟨m3, h3⟩ := this
    obtain ⟨m4, h4⟩ := fold_any C hc h h2 (nextRun D r) m3
    exact ⟨m4, m3, h3, h4⟩

theorem closed_false {C : Cfg} (hC : ¬ ClosedInOneof C) (id alts) (h : SlotD.oneof alts ∈ (C.schema id).slots) :
    ∀ a ∈ alts, a.2.closed = false := by
  intro a ha
  cases hb : a.2.closed
  · rfl
  · exact absurd ⟨id, alts, a, h, ha, hb⟩ hC

theorem sem_any (C : Cfg) (hC : ¬ ClosedInOneof C) : ∀ d, (∀ id m bs m', (sem C d).msg id m bs m' → ∀ m2, ∃ m2', (sem C d).msg id m2 bs m2') ∧
    (∀ id m body m', (sem C d).grp id m body m' → ∀ m2, ∃ m2', (sem C d).grp id m2 body m2')
  | 0 => ⟨fun _ _ _ _ h => h.elim, fun _ _ _ _ h => h.elim⟩
  | d + 1 => by
    have ih := sem_any C hC d
    have hm : ∀ k r m m' m2, recMsg C (sem C d) k r m m' → ∃ m2', recMsg C (sem C d) k r m2 m2' := by
      intro k r m m' m2 h
      cases k <;> cases r <;> simp only [recMsg] at h ⊢
      · obtain ⟨h1, h2⟩ := h
        obtain ⟨m2', h3⟩ := ih.1 _ _ _ _ h2 m2
        exact ⟨m2', h1, h3⟩
      · exact ih.2 _ _ _ _ h m2
    refine ⟨?_, ?_⟩
    · rintro id m bs m' ⟨rs, w, e, eh, f⟩ m2
      obtain ⟨m2', f2⟩ := fold_any C (closed_false hC id) hm f none m2
      exact ⟨m2', rs, w, e, eh, f2⟩
    · rintro id m body m' f m2
      exact fold_any C (closed_false hC id) hm f none m2

end HppProto
