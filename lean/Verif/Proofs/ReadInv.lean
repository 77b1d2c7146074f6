import Verif.Proofs.ReadUnk
import Verif.Proofs.MapList
/-! A property of scalar values that every value read has is kept by reading. -/
namespace HppProto
open Spec

/-- Members whose closed enums are not checked. -/
def SlotD.isImplicit : SlotD → Bool
  | .field _ _ (.implicit _) => true
  | _ => false

section
variable (C : Cfg) (P : SlotD → Scalar → Val → Prop)

/-- Entries of one member. -/
def goodEntries (d : Nat) (sd : SlotD) (es : List (Nat × Val)) : Prop :=
  ∀ e ∈ es, ∀ k, kindOf sd e.1 = some k →
    match k with
    | .scalar sc => P sd sc e.2
    | .msg sub | .group sub => everyScalar C P d sub (e.2.asMsg (C.schema sub).default)

theorem everyScalar_succ (d id : Nat) (m : Msg) : everyScalar C P (d + 1) id m ↔
    ∀ i sd, (C.schema id).slots[i]? = some sd → goodEntries C P d sd (m.get i) := by
  simp only [everyScalar]
  constructor
  · intro h i sd hs
    by_cases hi : i < m.slots.length
    · have hg : m.get i = m.slots[i] := by simp [MsgOf.get, hi]
      refine h (sd, m.get i) ?_
      rw [List.mem_iff_getElem?]
      refine ⟨i, ?_⟩
      rw [List.getElem?_zip_eq_some]
      exact ⟨hs, by rw [hg]; simp [hi]⟩
    · have : m.get i = [] := by simp [MsgOf.get, hi]
      rw [this]; intro e he; cases he
  · intro h p hp
    obtain ⟨i, hi⟩ := List.mem_iff_getElem?.1 hp
    obtain ⟨h1, h2⟩ := List.getElem?_zip_eq_some.1 hi
    have := h i p.1 h1
    have hg : m.get i = p.2 := by simp [MsgOf.get, h2]
    rw [hg] at this
    exact this

/-- What a value read off the wire satisfies. -/
structure ReadsGood : Prop where
  one : ∀ sd sc r w, recScalar C sc r = some w → (sc.valid w = true ∨ sd.isImplicit = true) → P sd sc (narrow sc w)
  elem : ∀ sd sc r w, recScalar C sc r = some w → sc.valid (narrow sc w) = true → P sd sc (narrow sc w)
  packed : ∀ sd sc v vs, packedVals sc v = some vs → ∀ x ∈ vs, sc.valid x = true → P sd sc x
  dflt : ∀ d id, everyScalar C P d id (C.schema id).default

variable {C P} (G : ReadsGood C P)

/-- Entries of a member after a record. -/
theorem good_slotEff {S : Sem} {sd r es es' u} (G : ReadsGood C P)
    (hS : ∀ k m m', recMsg C S k r m m' → ∀ id, (k = .msg id ∨ k = .group id) → ∀ d, (∀ d, everyScalar C P d id m) → everyScalar C P d id m')
    (hes : ∀ d, goodEntries C P d sd es) (h : slotEff C S sd r es es' u) : ∀ d, goodEntries C P d sd es' := by
  intro d
  -- a message value
  have msgOk : ∀ {k id} {old : Val} {m'}, (k = .msg id ∨ k = .group id) → recMsg C S k r (old.asMsg (C.schema id).default) m' →
      (∀ d, everyScalar C P d id (old.asMsg (C.schema id).default)) → ∀ d, everyScalar C P d id m' :=
    fun hk h ho d => hS _ _ _ h _ hk d ho
  have headOk : ∀ {k id}, (k = .msg id ∨ k = .group id) → (∀ n, kindOf sd n = some k) → ∀ d,
      everyScalar C P d id ((headVal C k es).asMsg (C.schema id).default) := by
    intro k id hk hn d
    cases es with
    | nil => rcases hk with rfl | rfl <;> exact G.dflt d id
    | cons e es =>
      have := hes d e List.mem_cons_self k (hn e.1)
      rcases hk with rfl | rfl <;> exact this
  have single : ∀ {k j} {v : Val}, kindOf sd j = some k →
      (match k with | .scalar sc => P sd sc v | .msg sub | .group sub => everyScalar C P d sub (v.asMsg (C.schema sub).default)) →
      goodEntries C P d sd [(j, v)] := by
    intro k j v hk hv e he k' hk'
    cases List.mem_singleton.1 he
    rw [hk] at hk'
    cases hk'
    exact hv
  have app : ∀ {es1 : List (Nat × Val)}, goodEntries C P d sd es1 → goodEntries C P d sd (es ++ es1) := by
    intro es1 h1 e he
    rcases List.mem_append.1 he with he | he
    · exact hes d e he
    · exact h1 e he
  have value : ∀ {k j} {old v : Val}, kindOf sd j = some k → (∀ sc, k ≠ .scalar sc) →
      (∀ id, (k = .msg id ∨ k = .group id) → ∀ d, everyScalar C P d id (old.asMsg (C.schema id).default)) →
      recValue C S k old r v → goodEntries C P d sd [(j, v)] := by
    intro k j old v hk hns ho hv
    refine single hk ?_
    cases k with
    | scalar sc => exact absurd rfl (hns sc)
    | msg id => obtain ⟨m, h1, rfl⟩ := hv; exact msgOk (.inl rfl) h1 (ho id (.inl rfl)) d
    | group id => obtain ⟨m, h1, rfl⟩ := hv; exact msgOk (.inr rfl) h1 (ho id (.inr rfl)) d
  have el : ∀ {k unique}, (∀ n, kindOf sd n = some k) → elemEff C S k unique r es es' u → goodEntries C P d sd es' := by
    intro k unique hk h
    cases k with
    | scalar sc =>
      obtain ⟨w, h1, h2⟩ := h
      split at h2
      · rename_i hv
        obtain ⟨rfl, -⟩ := h2
        exact app (single (hk 0) (G.elem sd sc r w h1 hv))
      · obtain ⟨rfl, -⟩ := h2
        exact hes d
    | msg id =>
      obtain ⟨e, h1, -, rfl⟩ := h
      have he : everyScalar C P d id e := hS _ _ _ h1 _ (.inl rfl) d (fun d => G.dflt d id)
      have hs : goodEntries C P d sd [(0, .msg e)] := single (hk 0) he
      split
      · intro x hx k' hk'
        rcases mem_insertOrAssign hx with hx | hx
        · exact hes d x hx k' hk'
        · rw [hk] at hk'; cases hk'; rw [hx]; exact he
      · exact app hs
    | group id =>
      obtain ⟨e, h1, -, rfl⟩ := h
      exact app (single (hk 0) (hS _ _ _ h1 _ (.inr rfl) d (fun d => G.dflt d id)))
  have rep : ∀ {number k unique}, (∀ n, kindOf sd n = some k) → repEff C S number k unique r es es' u →
      goodEntries C P d sd es' := by
    intro number k unique hk h
    cases k with
    | scalar sc =>
      cases r with
      | len t hd p v =>
        simp only [repEff] at h
        split at h
        · unfold packedEff at h
          split at h
          · rw [h.1]; exact hes d
          · obtain ⟨vs, h1, rfl, -⟩ := h
            refine app ?_
            intro e he k' hk'
            obtain ⟨x, hx, rfl⟩ := List.mem_map.1 he
            rw [hk] at hk'
            cases hk'
            exact G.packed sd sc v vs h1 x (List.mem_filter.1 hx).1 (List.mem_filter.1 hx).2
        · exact el hk h
      | _ => simp only [repEff] at h; exact el hk h
    | msg id => cases r <;> simp only [repEff] at h <;> exact el hk h
    | group id => cases r <;> simp only [repEff] at h <;> exact el hk h
  cases sd with
  | field number k card =>
    have hk : ∀ n, kindOf (.field number k card) n = some k := fun n => rfl
    cases card with
    | implicit df =>
      obtain ⟨v, h1, rfl, -⟩ := h
      cases k with
      | scalar sc => obtain ⟨w, h1, rfl⟩ := h1; exact single (hk 0) (G.one _ sc r w h1 (.inr rfl))
      | msg id => exact value (hk 0) (by simp) (fun _ hh => headOk hh hk) h1
      | group id => exact value (hk 0) (by simp) (fun _ hh => headOk hh hk) h1
    | always df =>
      cases k with
      | scalar sc => obtain ⟨w, h1, h2, rfl, -⟩ := h; exact single (hk 0) (G.one _ sc r w h1 (.inl h2))
      | msg id => obtain ⟨v, h1, rfl, -⟩ := h; exact value (hk 0) (by simp) (fun _ hh => headOk hh hk) h1
      | group id => obtain ⟨v, h1, rfl, -⟩ := h; exact value (hk 0) (by simp) (fun _ hh => headOk hh hk) h1
    | optional =>
      cases k with
      | scalar sc =>
        obtain ⟨w, h1, h2⟩ := h
        split at h2
        · rename_i hv
          obtain ⟨rfl, -⟩ := h2
          exact single (hk 0) (G.one _ sc r w h1 (.inl hv))
        · rw [h2.1]; exact hes d
      | msg id => obtain ⟨v, h1, rfl, -⟩ := h; exact value (hk 0) (by simp) (fun _ hh => headOk hh hk) h1
      | group id => obtain ⟨v, h1, rfl, -⟩ := h; exact value (hk 0) (by simp) (fun _ hh => headOk hh hk) h1
    | repeated p => exact rep hk h
    | map p => exact rep hk h
  | oneof alts =>
    obtain ⟨j, k, hf, h⟩ := h
    have hk : kindOf (.oneof alts) j = some k := by
      have : ∀ (l : List (BitVec 32 × Kind)) j0, findAlt (tagNumber r.tag) l j0 = some (j, k) →
          j0 ≤ j ∧ (l[j - j0]?).map Prod.snd = some k := by
        intro l
        induction l with
        | nil => intro j0 h; cases h
        | cons a as ih =>
          intro j0 h
          simp only [findAlt] at h
          split at h
          · cases h; simp
          · obtain ⟨i1, i2⟩ := ih _ h
            refine ⟨by omega, ?_⟩
            rw [show j - j0 = (j - (j0 + 1)) + 1 by omega]
            simpa using i2
      exact (this alts 0 hf).2
    have altOk : ∀ id, (k = .msg id ∨ k = .group id) → ∀ d, everyScalar C P d id ((altVal C k j es).asMsg (C.schema id).default) := by
      intro id hkk d
      cases es with
      | nil => rcases hkk with rfl | rfl <;> exact G.dflt d id
      | cons e es =>
        obtain ⟨a, v⟩ := e
        simp only [altVal]
        by_cases ha : a = j
        · subst ha
          rw [if_pos rfl]
          have := hes d (a, v) List.mem_cons_self k hk
          rcases hkk with rfl | rfl <;> exact this
        · rw [if_neg ha]
          rcases hkk with rfl | rfl <;> exact G.dflt d id
    cases k with
    | scalar sc =>
      obtain ⟨w, h1, h2⟩ := h
      split at h2
      · rename_i hv
        obtain ⟨-, rfl, -⟩ := h2
        exact single hk (G.one _ sc r w h1 (.inl hv))
      · rw [h2.1]; exact hes d
    | msg id => obtain ⟨v, h1, rfl, -⟩ := h; exact value hk (by simp) altOk h1
    | group id => obtain ⟨v, h1, rfl, -⟩ := h; exact value hk (by simp) altOk h1

theorem good_fold {S : Sem} (G : ReadsGood C P) {id}
    (hS : ∀ r k m m', recMsg C S k r m m' → ∀ id, (k = .msg id ∨ k = .group id) → ∀ d, (∀ d, everyScalar C P d id m) → everyScalar C P d id m') :
    ∀ {rs last m m'}, fold C S (C.schema id) last rs m m' → (∀ d, everyScalar C P d id m) → ∀ d, everyScalar C P d id m'
  | [], _, _, _, h, hm => by cases h; exact hm
  | r :: rs, last, m, m', h, hm => by
    obtain ⟨m1, ⟨h0, h1⟩, h2⟩ := h
    refine good_fold G hS h2 ?_
    split at h1
    · rename_i i hi
      obtain ⟨sd, hs, h1⟩ := h1
      obtain ⟨es', u, k1, rfl⟩ := slotStep_eff.1 h1
      have good := good_slotEff G (hS r) (fun d => (everyScalar_succ C P d id m).1 (hm (d + 1)) i sd hs) k1
      intro d
      cases d with
      | zero => trivial
      | succ d =>
        rw [everyScalar_succ]
        intro i' sd' hs'
        have old := (everyScalar_succ C P d id m).1 (hm (d + 1)) i' sd' hs'
        rw [get_slots (divert_slots _ _ _)]
        by_cases e : i = i'
        · subst e
          rw [hs] at hs'
          cases hs'
          by_cases hl : i < m.slots.length
          · rw [get_put_self hl]; exact good d
          · have : (m.put i es').get i = m.get i := by simp [MsgOf.get, MsgOf.put, hl]
            rw [this]; exact old
        · rw [get_put_ne e]; exact old
    · obtain ⟨-, rfl⟩ := h1
      intro d
      cases d with
      | zero => trivial
      | succ d =>
        rw [everyScalar_succ]
        intro i' sd' hs'
        rw [get_slots (addUnk_slots _ _ _ _)]
        exact (everyScalar_succ C P d id m).1 (hm (d + 1)) i' sd' hs'

theorem good_sem (G : ReadsGood C P) : ∀ e,
    (∀ id m bs m', (sem C e).msg id m bs m' → (∀ d, everyScalar C P d id m) → ∀ d, everyScalar C P d id m') ∧
    (∀ id m body m', (sem C e).grp id m body m' → (∀ d, everyScalar C P d id m) → ∀ d, everyScalar C P d id m')
  | 0 => ⟨fun _ _ _ _ h => h.elim, fun _ _ _ _ h => h.elim⟩
  | e + 1 => by
    have ih := good_sem G e
    have hS : ∀ r k m m', recMsg C (sem C e) k r m m' → ∀ id, (k = .msg id ∨ k = .group id) → ∀ d,
        (∀ d, everyScalar C P d id m) → everyScalar C P d id m' := by
      intro r k m m' h id hk d hm
      rcases hk with rfl | rfl <;> cases r <;> simp only [recMsg] at h
      · exact ih.1 _ _ _ _ h.2 hm d
      · exact ih.2 _ _ _ _ h hm d
    refine ⟨?_, fun id m body m' h => good_fold G hS h⟩
    rintro id m bs m' ⟨rs, -, -, -, f⟩
    exact good_fold G hS f

end

theorem parseOnto_good {C : Cfg} {P} (G : ReadsGood C P) {limit id m buf m'} (h : parseOnto C limit id m buf = .ok m')
    (hm : ∀ d, everyScalar C P d id m) (d : Nat) : everyScalar C P d id m' :=
  (good_sem G (limit + 1)).1 _ _ _ _ ((parseOnto_iff _ _ _ _ _ _).1 h) hm d

end HppProto
