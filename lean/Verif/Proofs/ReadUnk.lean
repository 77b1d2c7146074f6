import Verif.Proofs.ReadNest
import Verif.Proofs.WireItems
/-! What reading leaves in the storage for unknown fields. -/
namespace HppProto
open Spec

theorem unkAppend_keys (key bs) : ∀ l : List (Nat × List Byte), (l.map Prod.fst).Nodup →
    ((unkAppend key bs l).map Prod.fst).Nodup ∧ ∀ x, x ∈ (unkAppend key bs l).map Prod.fst ↔ x = key ∨ x ∈ l.map Prod.fst
  | [], _ => by simp [unkAppend]
  | (k, b) :: l, h => by
    simp only [unkAppend]
    simp only [List.map_cons, List.nodup_cons] at h
    by_cases e : k = key
    · subst e; simp only [if_true, List.map_cons, List.nodup_cons, List.mem_cons]
      refine ⟨h, fun x => ?_⟩
      constructor
      · rintro (h | h)
        · exact .inl h
        · exact .inr (.inr h)
      · rintro (h | h | h)
        · exact .inl h
        · exact .inl h
        · exact .inr h
    · simp only [if_neg e, List.map_cons, List.nodup_cons, List.mem_cons]
      obtain ⟨i1, i2⟩ := unkAppend_keys key bs l h.2
      refine ⟨⟨fun hm => ?_, i1⟩, fun x => ?_⟩
      · rcases (i2 k).1 hm with h' | h'
        · exact e h'
        · exact h.1 h'
      · rw [i2]
        constructor
        · rintro (h | h | h)
          · exact .inr (.inl h)
          · exact .inl h
          · exact .inr (.inr h)
        · rintro (h | h | h)
          · exact .inr (.inl h)
          · exact .inl h
          · exact .inr (.inr h)

theorem unkAppend_kept (key bs n) : ∀ l : List (Nat × List Byte), (l.map Prod.fst).Nodup →
    ((unkAppend key bs l).filter (fun p => p.1 = n)).flatMap Prod.snd =
      (l.filter (fun p => p.1 = n)).flatMap Prod.snd ++ if n = key then bs else []
  | [], _ => by
    by_cases h : key = n
    · simp [unkAppend, h]
    · simp [unkAppend, h, Ne.symm h]
  | (k, b) :: l, h => by
    simp only [List.map_cons, List.nodup_cons] at h
    simp only [unkAppend]
    by_cases e : k = key
    · subst e
      simp only [if_true]
      by_cases en : k = n
      · subst en
        have : l.filter (fun p => decide (p.1 = k)) = [] := by
          rw [List.filter_eq_nil_iff]
          intro p hp he
          exact h.1 (List.mem_map.2 ⟨p, hp, by simpa using he⟩)
        simp [this]
      · simp [en, Ne.symm en]
    · simp only [if_neg e]
      have ih := unkAppend_kept key bs n l h.2
      by_cases en : k = n
      · subst en
        simp only [List.filter_cons, decide_true, if_true, List.flatMap_cons, ih, List.append_assoc]
      · simp only [List.filter_cons, en, decide_false, Bool.false_eq_true, if_false, ih]

/-- Key that the mode files a field number under. -/
def keyOf (mode : UnkMode) (n : Nat) : Nat := match mode with | .ext => n | _ => 0

theorem addUnk_kept {m : Msg} {mode : UnkMode} (hm : mode ≠ .none) (hn : (m.unk.map Prod.fst).Nodup) (num bs) :
    ((m.addUnk mode num bs).unk.map Prod.fst).Nodup ∧
    ∀ n, keptUnder (m.addUnk mode num bs) n = keptUnder m n ++ if n = keyOf mode num.toNat then bs else [] := by
  cases mode with
  | none => exact absurd rfl hm
  | bytes => exact ⟨(unkAppend_keys _ _ _ hn).1, fun n => unkAppend_kept _ _ n _ hn⟩
  | ext => exact ⟨(unkAppend_keys _ _ _ hn).1, fun n => unkAppend_kept _ _ n _ hn⟩

theorem divert_kept {mode : UnkMode} (hm : mode ≠ .none) (num : BitVec 32) : ∀ (u : List (BitVec 32 × BitVec 64)) (m : Msg),
    (∀ p ∈ u, p.1 = num) → (m.unk.map Prod.fst).Nodup →
    ((divert mode u m).unk.map Prod.fst).Nodup ∧
    ∀ n, keptUnder (divert mode u m) n = keptUnder m n ++
      if n = keyOf mode num.toNat then u.flatMap (fun p => unkEnumRecord num p.2) else []
  | [], m, _, hn => ⟨hn, fun n => by simp [divert]⟩
  | p :: u, m, hu, hn => by
    obtain ⟨a1, a2⟩ := addUnk_kept hm hn p.1 (unkEnumRecord p.1 p.2)
    obtain ⟨b1, b2⟩ := divert_kept hm num u (m.addUnk mode p.1 (unkEnumRecord p.1 p.2)) (fun q hq => hu q (List.mem_cons_of_mem _ hq)) a1
    refine ⟨b1, fun n => ?_⟩
    have e := hu p List.mem_cons_self
    show keptUnder (divert mode u (m.addUnk mode p.1 _)) n = _
    rw [b2, a2, e]
    split <;> simp

theorem divert_none (u : List (BitVec 32 × BitVec 64)) (m : Msg) : divert .none u m = m := by
  induction u with
  | nil => rfl
  | cons p u ih => exact ih

section
variable {C : Cfg} {S : Sem} {D : MsgD}

/-- Diverted numbers carry the number of the field, which is a closed enum. -/
theorem slotEff_divert {sd r es es' u} (hh : sd.hasNumber (tagNumber r.tag) = true) (h : slotEff C S sd r es es' u) :
    (∀ p ∈ u, p.1 = tagNumber r.tag) ∧ (u ≠ [] → ∃ vs, usesKind sd r (.scalar (.enum (some vs)))) := by
  have cl : ∀ (sc : Scalar) (w : Val), ¬ sc.valid w = true → ∃ vs, sc = .enum (some vs) := by
    intro sc w h
    cases sc with
    | enum c => cases c with
      | none => exact absurd rfl h
      | some vs => exact ⟨vs, rfl⟩
    | _ => exact absurd rfl h
  have none : u = [] → (∀ p ∈ u, p.1 = tagNumber r.tag) ∧ (u ≠ [] → ∃ vs, usesKind sd r (.scalar (.enum (some vs)))) := by
    rintro rfl; exact ⟨by simp, by simp⟩
  have el : ∀ {k unique}, usesKind sd r k → elemEff C S k unique r es es' u →
      (∀ p ∈ u, p.1 = tagNumber r.tag) ∧ (u ≠ [] → ∃ vs, usesKind sd r (.scalar (.enum (some vs)))) := by
    intro k unique hu h
    cases k with
    | scalar sc =>
      obtain ⟨w, -, h⟩ := h
      split at h
      · exact none h.2
      · rename_i hv
        obtain ⟨-, rfl⟩ := h
        obtain ⟨vs, rfl⟩ := cl _ _ hv
        exact ⟨by simp, fun _ => ⟨vs, hu⟩⟩
    | msg id => obtain ⟨e, -, h, -⟩ := h; exact none h
    | group id => obtain ⟨e, -, h, -⟩ := h; exact none h
  have rep : ∀ {number k unique}, number = tagNumber r.tag → usesKind sd r k → repEff C S number k unique r es es' u →
      (∀ p ∈ u, p.1 = tagNumber r.tag) ∧ (u ≠ [] → ∃ vs, usesKind sd r (.scalar (.enum (some vs)))) := by
    intro number k unique hnum hu h
    cases k with
    | scalar sc =>
      cases r with
      | len t hd p v =>
        simp only [repEff] at h
        split at h
        · unfold packedEff at h
          split at h
          · exact none h.2
          · obtain ⟨vs, -, -, rfl⟩ := h
            refine ⟨fun p hp => ?_, fun hne => ?_⟩
            · obtain ⟨v, -, rfl⟩ := List.mem_map.1 hp; exact hnum
            · obtain ⟨x, hx⟩ := List.exists_mem_of_ne_nil _ hne
              obtain ⟨v, hv, rfl⟩ := List.mem_map.1 hx
              have := (List.mem_filter.1 hv).2
              obtain ⟨l, rfl⟩ := cl sc v (by simpa using this)
              exact ⟨l, hu⟩
        · exact el hu h
      | _ => simp only [repEff] at h; exact el hu h
    | msg id => cases r <;> simp only [repEff] at h <;> exact el hu h
    | group id => cases r <;> simp only [repEff] at h <;> exact el hu h
  cases sd with
  | field number k card =>
    have hnum : number = tagNumber r.tag := by simpa [SlotD.hasNumber] using hh
    cases card with
    | implicit d => obtain ⟨v, -, -, h⟩ := h; exact none h
    | always d =>
      cases k with
      | scalar sc => obtain ⟨w, -, -, -, h⟩ := h; exact none h
      | msg id => obtain ⟨v, -, -, h⟩ := h; exact none h
      | group id => obtain ⟨v, -, -, h⟩ := h; exact none h
    | optional =>
      cases k with
      | scalar sc =>
        obtain ⟨w, -, h⟩ := h
        split at h
        · exact none h.2
        · rename_i hv
          obtain ⟨-, rfl⟩ := h
          obtain ⟨vs, rfl⟩ := cl _ _ hv
          exact ⟨by simp [hnum], fun _ => ⟨vs, rfl⟩⟩
      | msg id => obtain ⟨v, -, -, h⟩ := h; exact none h
      | group id => obtain ⟨v, -, -, h⟩ := h; exact none h
    | repeated p => exact rep hnum rfl h
    | map p => exact rep hnum rfl h
  | oneof alts =>
    obtain ⟨j, k, hf, h⟩ := h
    cases k with
    | scalar sc =>
      obtain ⟨w, -, h⟩ := h
      split at h
      · exact none h.2.2
      · rename_i hv
        obtain ⟨-, rfl⟩ := h
        obtain ⟨vs, rfl⟩ := cl _ _ hv
        exact ⟨by simp, fun _ => ⟨vs, j, hf⟩⟩
    | msg id => obtain ⟨v, -, -, h⟩ := h; exact none h
    | group id => obtain ⟨v, -, -, h⟩ := h; exact none h

/-- Unknown records do not influence the members. -/
theorem fold_filter : ∀ {rs last m m' last2 m2}, fold C S D last rs m m' → m2.slots = m.slots →
    ∃ m2', fold C S D last2 (rs.filter (fun r => (fieldKind D (tagNum r.tag)).isSome)) m2 m2' ∧ m2'.slots = m'.slots
  | [], _, m, m', _, m2, h, e => by cases h; exact ⟨m2, rfl, e⟩
  | r :: rs, last, m, m', last2, m2, h, e => by
    obtain ⟨m1, ⟨h0, h1⟩, h2⟩ := h
    split at h1
    · rename_i i hi
      obtain ⟨sd, hs, h1⟩ := h1
      obtain ⟨es', u, k1, rfl⟩ := slotStep_eff.1 h1
      have hk : (fieldKind D (tagNum r.tag)).isSome = true := by
        cases hk : fieldKind D (tagNum r.tag) with
        | none => rw [← tagNumber_toNat, fieldKind_none, hi] at hk; cases hk
        | some k => rfl
      rw [List.filter_cons_of_pos (by exact hk)]
      have e2 : (divert D.unk u (m2.put i es')).slots = (divert D.unk u (m.put i es')).slots := by
        rw [divert_slots, divert_slots]; simp only [MsgOf.put, e]
      obtain ⟨m2', f, es⟩ := fold_filter (last2 := nextRun D r) h2 e2
      refine ⟨m2', ⟨_, (step_known hi hs).2 ⟨h0, slotStep_eff.2 ⟨es', u, ?_, rfl⟩⟩, f⟩, es⟩
      rw [get_slots e]
      exact k1
    · rename_i hi
      obtain ⟨-, rfl⟩ := h1
      have hk : fieldKind D (tagNum r.tag) = none := by rw [← tagNumber_toNat, fieldKind_none, hi]
      rw [List.filter_cons_of_neg (by simp [hk])]
      exact fold_filter h2 (by rw [addUnk_slots, e])

/-- Without storage, unknown records leave no trace at all. -/
theorem fold_unk_none (hm : D.unk = .none) : ∀ {rs last m m'}, fold C S D last rs m m' → m'.unk = m.unk
  | [], _, _, _, h => by cases h; rfl
  | r :: rs, last, m, m', h => by
    obtain ⟨m1, ⟨-, h1⟩, h2⟩ := h
    rw [fold_unk_none hm h2]
    split at h1
    · obtain ⟨sd, hs, h1⟩ := h1
      obtain ⟨es', u, k1, rfl⟩ := slotStep_eff.1 h1
      rw [hm, divert_none]
      rfl
    · obtain ⟨-, rfl⟩ := h1
      rw [hm]
      rfl

end

theorem varintSize_leb (t : BitVec 32) : varintSize 32 t.toNat = (leb t.toNat).length := by
  rw [varintSize_eq t.isLt (by omega), leb_eq]

theorem captured_minimal {r : Rec} (h : minimalTag r) (cont) : captured cont r = r.raw := by
  unfold captured Rec.raw
  unfold minimalTag at h
  rw [varintSize_leb, ← h]
  simp

theorem tagNumber_lt (t : BitVec 32) : (tagNumber t).toNat < 2 ^ 29 := by
  rw [tagNumber_toNat, tagNum]
  have := t.isLt
  omega

theorem unkEnumRecord_eq (n : BitVec 32) (hn : n.toNat < 2 ^ 29) (v : BitVec 64) :
    unkEnumRecord n v = tag n 0 ++ leb v.toNat := by
  unfold unkEnumRecord
  rw [tag_bytes (w := 0) hn (wt := wtVarint) rfl (by omega), leb_eq]
  rfl

end HppProto
