import Verif.Proofs.MessageMemoryClone

/-!
# The memory of nested messages: paths
-/

namespace HppProto.MsgMem

open MsgSpec (MTree blank blankField)
open MsgSpec.MField (kid)

variable {V : Type} [Inhabited V]

/-! ## More fuel for copying -/

/-- `b` is a result whenever `a` is. -/
def LeR {α} (a b : Res α) : Prop := ∀ x, a = .ok x → b = .ok x

theorem LeR.refl {α} (a : Res α) : LeR a a := fun _ h => h

theorem LeR.bind {α β} {a b : Res α} {f g : α → Res β} (h : LeR a b) (hf : ∀ x, LeR (f x) (g x)) :
    LeR (a >>= f) (b >>= g) := by
  intro y hy
  cases a with
  | ok x => rw [h x rfl]; exact hf x y hy
  | err _ => exact absurd hy (by intro h; cases h)
  | ub => exact absurd hy (by intro h; cases h)
  | throw => exact absurd hy (by intro h; cases h)
  | stuck => exact absurd hy (by intro h; cases h)

theorem LeR.ite {α} {c : Prop} [Decidable c] {a b a' b' : Res α} (h : LeR a a') (h' : LeR b b') :
    LeR (if c then a else b) (if c then a' else b') := by
  by_cases hc : c <;> simp only [hc, if_true, if_false] <;> assumption

theorem elems_mono {sub sub' : Nat → Nat → Nat → Nat → MMem V → Res (MMem V)}
    (h : ∀ a b c d m, LeR (sub a b c d m) (sub' a b c d m)) (b r sb sr k : Nat) :
    ∀ (left i : Nat) (m : MMem V), LeR (cloneElems sub b r sb sr k left i m)
      (cloneElems sub' b r sb sr k left i m)
  | 0, _, m => LeR.refl _
  | left + 1, i, m => by
    unfold cloneElems
    refine LeR.bind (LeR.refl _) fun x => LeR.bind (LeR.refl _) fun y => ?_
    refine LeR.ite (LeR.bind (LeR.refl _) fun z => LeR.bind (LeR.refl _) fun w =>
      LeR.bind (h _ _ _ _ _) fun m => elems_mono h b r sb sr k left (i + 1) m) (LeR.refl _)

theorem field_mono {T : MTypes} {sub sub' : Nat → Nat → Nat → Nat → Nat → MMem V → Res (MMem V)}
    (h : ∀ t a b c d m, LeR (sub t a b c d m) (sub' t a b c d m)) (b r sb sr k : Nat) (f : MField)
    (m : MMem V) : LeR (cloneField T sub b r sb sr k f m) (cloneField T sub' b r sb sr k f m) := by
  cases f with
  | val => exact LeR.refl _
  | one t =>
    unfold cloneField
    refine LeR.bind (LeR.refl _) fun x => LeR.bind (LeR.refl _) fun y => ?_
    refine LeR.ite (LeR.refl _) ?_
    refine LeR.bind (LeR.refl _) fun x => LeR.bind (LeR.refl _) fun y => LeR.bind (LeR.refl _) fun z =>
      LeR.bind (LeR.refl _) fun w => LeR.bind (LeR.refl _) fun q => h _ _ _ _ _ _
  | many t =>
    unfold cloneField
    refine LeR.bind (LeR.refl _) fun x => LeR.bind (LeR.refl _) fun y => LeR.bind (LeR.refl _) fun z => ?_
    exact elems_mono (h t) _ _ _ _ _ _ _ _

theorem fields_mono {T : MTypes} {sub sub' : Nat → Nat → Nat → Nat → Nat → MMem V → Res (MMem V)}
    (h : ∀ t a b c d m, LeR (sub t a b c d m) (sub' t a b c d m)) (b r sb sr : Nat) :
    ∀ (fs : List MField) (k : Nat) (m : MMem V), LeR (cloneFields T sub b r sb sr fs k m)
      (cloneFields T sub' b r sb sr fs k m)
  | [], _, _ => LeR.refl _
  | f :: fs, k, m => LeR.bind (field_mono h b r sb sr k f m) fun m =>
    fields_mono h b r sb sr fs (k + 1) m

theorem clone_mono1 (T : MTypes) : ∀ (d t b r sb sr : Nat) (m : MMem V),
    LeR (cloneMsg T d t b r sb sr m) (cloneMsg T (d + 1) t b r sb sr m)
  | 0, _, _, _, _, _, _ => by intro x h; cases h
  | d + 1, t, b, r, sb, sr, m => fields_mono (fun t a b c e m => clone_mono1 T d t a b c e m) b r sb sr _ _ m

theorem clone_mono {T : MTypes} {d e : Nat} (h : d ≤ e) (t b r sb sr : Nat) (m : MMem V) :
    LeR (cloneMsg T d t b r sb sr m) (cloneMsg T e t b r sb sr m) := by
  induction h with
  | refl => exact LeR.refl _
  | step _ ih => exact fun x hx => clone_mono1 T _ t b r sb sr m x (ih x hx)

theorem at_mono {T : MTypes} {s : MState V} {a : MPath} {f g : Nat → Nat → Nat → MMem V → Res (MMem V)}
    (h : ∀ t b r m, LeR (f t b r m) (g t b r m)) : LeR (s.at T a f) (s.at T a g) := by
  unfold MState.at
  split
  · exact LeR.refl _
  · exact LeR.bind (h _ _ _ _) fun _ => LeR.refl _

theorem step_mono {T : MTypes} {d e : Nat} (h : d ≤ e) (s : MState V) (o : MOp V) :
    LeR (s.step T d o) (s.step T e o) := by
  cases o with
  | copy a src =>
    simp only [MState.step]
    split
    · exact LeR.refl _
    · exact at_mono fun t b r m => LeR.ite (clone_mono h _ _ _ _ _ _) (LeR.refl _)
  | copyField a k src =>
    simp only [MState.step]
    split
    · exact LeR.refl _
    · refine at_mono fun t b r m => LeR.ite ?_ (LeR.refl _)
      split
      · exact field_mono (fun t a b c e m => clone_mono h t a b c e m) _ _ _ _ _ _ _
      · exact LeR.refl _
  | set a k src =>
    simp only [MState.step]
    split
    · exact LeR.refl _
    · refine at_mono fun t b r m => ?_
      split
      · refine LeR.ite ?_ (LeR.refl _)
        unfold setMsg
        refine LeR.bind (LeR.refl _) fun x => LeR.bind (LeR.refl _) fun y => ?_
        refine LeR.ite ?_ (clone_mono h _ _ _ _ _ _)
        exact LeR.bind (LeR.refl _) fun x => LeR.bind (LeR.refl _) fun y => LeR.bind (LeR.refl _) fun z =>
          clone_mono h _ _ _ _ _ _
      · exact LeR.refl _
  | _ => exact LeR.refl _

theorem run_mono {T : MTypes} {d e : Nat} (h : d ≤ e) : ∀ (os : List (MOp V)) (s : MState V),
    LeR (s.run T d os) (s.run T e os)
  | [], _ => LeR.refl _
  | o :: os, s => LeR.bind (step_mono h s o) fun s => run_mono h os s

/-! ## Steps -/

theorem kids_slot {T : MTypes} {ts : List MField} {m : MMem V} {d k u : Nat} {R : MRow V} {f : MField}
    (h : Good T ts m d R) (hf : ts[k]? = some f) (hu : kid f = some u) :
    ∃ p c n, R[k]? = some (.kids p c n) ∧ wf T d m f (.kids p c n) := by
  obtain ⟨s, hs, hw⟩ := rowAll_get h.wf hf
  obtain ⟨_, p, c, n, _, rfl⟩ := kids_of hw hu
  exact ⟨p, c, n, hs, hw⟩

/-- One step of a path. -/
theorem nav_cons {T : MTypes} {t b r d k i p c n u : Nat} {m : MMem V} {R : MRow V} {f : MField}
    {steps : List (Nat × Nat)}
    (h : At T t m b r d R) (hk : R[k]? = some (.kids p c n)) (hf : (T t)[k]? = some f)
    (hu : kid f = some u) :
    nav T m t b r ((k, i) :: steps) = if i < n then nav T m u p i steps else none := by
  cases f with
  | val => simp [kid] at hu
  | one v =>
    simp [kid] at hu; subst hu
    simp [nav, h.getSlot hk, hf]
  | many v =>
    simp [kid] at hu; subst hu
    simp [nav, h.getSlot hk, hf]

theorem nav_val {T : MTypes} {t b r k i : Nat} {m : MMem V} {steps : List (Nat × Nat)}
    (hf : (T t)[k]? >>= kid = none) : nav T m t b r ((k, i) :: steps) = none := by
  unfold nav
  split
  · next h => rw [h] at hf; simp [kid] at hf
  · next h => rw [h] at hf; simp [kid] at hf
  · rfl

theorem get_cons {T : MTypes} {t u k i : Nat} {f : MField} {row c : List (MTree V)} {rows}
    {steps : List (Nat × Nat)} (hf : (T t)[k]? = some f) (hu : kid f = some u)
    (h1 : row[k]? = some (.kids rows)) (h2 : rows[i]? = some c) :
    MsgSpec.get T t row ((k, i) :: steps) = MsgSpec.get T u c steps := by
  simp [MsgSpec.get, hf, hu, h1, h2]

theorem get_cons_none {T : MTypes} {t u k i : Nat} {f : MField} {row : List (MTree V)} {rows}
    {steps : List (Nat × Nat)} (hf : (T t)[k]? = some f) (hu : kid f = some u)
    (h1 : row[k]? = some (.kids rows)) (h2 : rows[i]? = none) :
    MsgSpec.get T t row ((k, i) :: steps) = none := by
  simp [MsgSpec.get, hf, hu, h1, h2]

theorem get_val {T : MTypes} {t k i : Nat} {row : List (MTree V)} {steps : List (Nat × Nat)}
    (hu : (T t)[k]? >>= kid = none) : MsgSpec.get T t row ((k, i) :: steps) = none := by
  rw [MsgSpec.get, hu]; rfl

theorem upd_cons {T : MTypes} {F} {t u k i : Nat} {f : MField} {row c : List (MTree V)} {rows}
    {steps : List (Nat × Nat)} (hf : (T t)[k]? = some f) (hu : kid f = some u)
    (h1 : row[k]? = some (.kids rows)) (h2 : rows[i]? = some c) :
    MsgSpec.upd T F t row ((k, i) :: steps) =
      (MsgSpec.upd T F u c steps).map fun c => row.set k (.kids (rows.set i c)) := by
  simp only [MsgSpec.upd, hf, bind, Option.bind, hu, h1, h2]
  cases MsgSpec.upd T F u c steps <;> rfl

theorem upd_cons_none {T : MTypes} {F} {t u k i : Nat} {f : MField} {row : List (MTree V)} {rows}
    {steps : List (Nat × Nat)} (hf : (T t)[k]? = some f) (hu : kid f = some u)
    (h1 : row[k]? = some (.kids rows)) (h2 : rows[i]? = none) :
    MsgSpec.upd T F t row ((k, i) :: steps) = none := by
  simp [MsgSpec.upd, hf, hu, h1, h2]

theorem upd_val {T : MTypes} {F} {t k i : Nat} {row : List (MTree V)} {steps : List (Nat × Nat)}
    (hu : (T t)[k]? >>= kid = none) : MsgSpec.upd T F t row ((k, i) :: steps) = none := by
  rw [MsgSpec.upd, hu]; rfl

theorem nav_get {T : MTypes} {m : MMem V} : ∀ (steps : List (Nat × Nat)) (t b r d : Nat) (R : MRow V),
    At T t m b r d R → match MsgSpec.get T t (seeRow d m R) steps with
    | none => nav T m t b r steps = none
    | some (u, row) => ∃ b' r' d' R', nav T m t b r steps = some (u, b', r') ∧ At T u m b' r' d' R' ∧
      seeRow d' m R' = row ∧ (∀ x ∈ footRow d' m R', x ∈ footRow d m R) ∧
      (steps ≠ [] → b' ∈ footRow d m R)
  | [], t, b, r, d, R, h => ⟨b, r, d, R, rfl, h, rfl, fun _ h => h, fun h => absurd rfl h⟩
  | (k, i) :: steps, t, b, r, d, R, h => by
    cases hu : (T t)[k]? >>= kid with
    | none => rw [get_val hu]; exact nav_val hu
    | some u =>
      cases hf : (T t)[k]? with
      | none => simp [hf] at hu
      | some f =>
        have hu' : kid f = some u := by simpa [hf] using hu
        obtain ⟨p, c, n, hk, hw⟩ := kids_slot h.good hf hu'
        rw [nav_cons h hk hf hu']
        by_cases hi : i < n
        · obtain ⟨d0, C, rows, ed, hC, g1, g2, g3, g4, g5, lift⟩ := ac_child h hk hf hu' hi
          have ih := nav_get steps u p i d0 C hC
          rw [if_pos hi]
          rw [get_cons hf hu' g1 g2]
          split at ih
          · exact ih
          · obtain ⟨b', r', d', R', h1, h2, h3, h4, h5⟩ := ih
            refine ⟨b', r', d', R', h1, h2, h3, fun x hx => mem_foot_row hk (g5 x (h4 x hx)), fun _ => ?_⟩
            cases hst : steps with
            | nil =>
              subst hst
              simp [nav] at h1
              rw [← h1.2.1]
              exact mem_foot_row hk g4
            | cons _ _ => exact mem_foot_row hk (g5 _ (h5 (by simp [hst])))
        · rw [if_neg hi]
          obtain _ | d := d
          · exact hw.elim
          have : (((m[p]?.getD []).take n).map (seeRow d m))[i]? = none := by
            rw [List.getElem?_eq_none_iff]; simp; omega
          have g1 := seeRow_get (d := d + 1) (m := m) hk
          rw [see_kids] at g1
          rw [get_cons_none hf hu' g1 this]

/-- Changing the message at the end of a path changes the whole accordingly. -/
theorem nav_upd {T : MTypes} {m : MMem V} {f : Nat → List (MTree V) → Option (List (MTree V))} :
    ∀ (steps : List (Nat × Nat)) (t b r d : Nat) (R : MRow V) (tree' : List (MTree V)),
    At T t m b r d R → MsgSpec.upd T f t (seeRow d m R) steps = some tree' →
    ∃ u b' r' d' R' new, nav T m t b r steps = some (u, b', r') ∧ At T u m b' r' d' R' ∧
      f u (seeRow d' m R') = some new ∧
      ∀ m' d2 R2, AC T u m b' r' (footRow d' m R') m' d2 R2 new →
        ∃ D RR, AC T t m b r (footRow d m R) m' D RR tree'
  | [], t, b, r, d, R, tree', h, hu => ⟨t, b, r, d, R, tree', rfl, h, hu, fun _ d2 R2 c => ⟨d2, R2, c⟩⟩
  | (k, i) :: steps, t, b, r, d, R, tree', h, hup => by
    cases hu : (T t)[k]? >>= kid with
    | none => rw [upd_val hu] at hup; cases hup
    | some u =>
      cases hf : (T t)[k]? with
      | none => simp [hf] at hu
      | some g =>
        have hu' : kid g = some u := by simpa [hf] using hu
        obtain ⟨p, c, n, hk, hw⟩ := kids_slot h.good hf hu'
        rw [nav_cons h hk hf hu']
        by_cases hi : i < n
        · obtain ⟨d0, C, rows, ed, hC, g1, g2, g3, g4, g5, lift⟩ := ac_child h hk hf hu' hi
          rw [upd_cons hf hu' g1 g2] at hup
          cases hsub : MsgSpec.upd T f u (seeRow d0 m C) steps with
          | none => simp [hsub] at hup
          | some c' =>
            simp only [hsub, Option.map_some, Option.some.injEq] at hup
            obtain ⟨v, b', r', d', R', new, h1, h2, h3, h4⟩ := nav_upd steps u p i d0 C c' hC hsub
            rw [if_pos hi]
            refine ⟨v, b', r', d', R', new, h1, h2, h3, fun m' d2 R2 ac => ?_⟩
            obtain ⟨D, RR, ac'⟩ := h4 m' d2 R2 ac
            obtain ⟨D', ac''⟩ := lift m' D RR c' ac'
            exact ⟨D', R, hup ▸ ac''⟩
        · obtain _ | d := d
          · exact hw.elim
          have : (((m[p]?.getD []).take n).map (seeRow d m))[i]? = none := by
            rw [List.getElem?_eq_none_iff]; simp; omega
          have g1 := seeRow_get (d := d + 1) (m := m) hk
          rw [see_kids] at g1
          rw [upd_cons_none hf hu' g1 this] at hup
          cases hup

/-! ## Separate paths -/

theorem slots_disj {T : MTypes} {ts : List MField} {m : MMem V} {d k k' : Nat} {R : MRow V}
    {s s' : MSlot V} (h : Good T ts m d R) (hk : R[k]? = some s) (hk' : R[k']? = some s') (hne : k < k')
    {x : Nat} (hx : x ∈ foot d m s) : x ∉ foot d m s' := by
  obtain ⟨A, B, e, rfl⟩ := split_at hk
  have hB : B[k' - A.length - 1]? = some s' := by
    rw [e, List.getElem?_append_right (by omega)] at hk'
    rwa [show k' - A.length = (k' - A.length - 1) + 1 by omega, List.getElem?_cons_succ] at hk'
  have := h.nodup
  rw [e, footRow_append] at this
  simp only [List.nodup_append, List.mem_append] at this
  exact fun hx' => this.2.2 x (.inr hx) x (mem_footRow.mpr ⟨s', List.mem_of_getElem? hB, hx'⟩) rfl

theorem slots_disj' {T : MTypes} {ts : List MField} {m : MMem V} {d k k' : Nat} {R : MRow V}
    {s s' : MSlot V} (h : Good T ts m d R) (hk : R[k]? = some s) (hk' : R[k']? = some s') (hne : k ≠ k')
    {x : Nat} (hx : x ∈ foot d m s) : x ∉ foot d m s' := by
  rcases Nat.lt_or_gt_of_ne hne with h1 | h1
  · exact slots_disj h hk hk' h1 hx
  · exact fun hx' => slots_disj h hk' hk h1 hx' hx

theorem rows_disj {d : Nat} {m : MMem V} : ∀ {L : List (MRow V)} {i j : Nat} {C D : MRow V},
    (L.flatMap (footRow d m)).Nodup → L[i]? = some C → L[j]? = some D → i < j →
    ∀ x ∈ footRow d m C, x ∉ footRow d m D := by
  intro L i j C D hn hi hj hne x hx hx'
  obtain ⟨A, B, rfl, rfl⟩ := split_at hi
  have hB : B[j - A.length - 1]? = some D := by
    rw [List.getElem?_append_right (by omega)] at hj
    rwa [show j - A.length = (j - A.length - 1) + 1 by omega, List.getElem?_cons_succ] at hj
  rw [List.flatMap_append, List.flatMap_cons, List.nodup_append, List.nodup_append] at hn
  exact hn.2.1.2.2 x hx x (List.mem_flatMap.mpr ⟨D, List.mem_of_getElem? hB, hx'⟩) rfl

/-- Where a path ends. -/
theorem nav_reach {T : MTypes} {m : MMem V} {steps : List (Nat × Nat)} {t b r d u b' r' : Nat}
    {R : MRow V} (h : At T t m b r d R) (hn : nav T m t b r steps = some (u, b', r')) :
    ∃ d' R', At T u m b' r' d' R' ∧
      MsgSpec.get T t (seeRow d m R) steps = some (u, seeRow d' m R') ∧
      (∀ x ∈ footRow d' m R', x ∈ footRow d m R) ∧
      ((steps = [] ∧ b' = b ∧ r' = r) ∨ b' ∈ footRow d m R) := by
  have := nav_get steps t b r d R h
  split at this
  · rw [hn] at this; cases this
  · next v row e =>
    obtain ⟨b1, r1, d1, R1, h1, h2, h3, h4, h5⟩ := this
    rw [hn] at h1
    obtain ⟨rfl, rfl, rfl⟩ : u = v ∧ b' = b1 ∧ r' = r1 := by simpa using h1
    refine ⟨d1, R1, h2, by rw [e, h3], h4, ?_⟩
    by_cases hs : steps = []
    · subst hs
      simp [nav] at hn
      exact .inl ⟨rfl, hn.2.1.symm, hn.2.2.symm⟩
    · exact .inr (h5 hs)

/-- Two rows at the same address are the same row. -/
theorem At.unique {T : MTypes} {m : MMem V} {t b r d d' : Nat} {R R' : MRow V}
    (h : At T t m b r d R) (h' : At T t m b r d' R') :
    R = R' ∧ footRow d m R = footRow d' m R' ∧ seeRow d m R = seeRow d' m R' := by
  obtain rfl : R = R' := by
    have := h.getRow; rw [h'.getRow] at this
    exact (Res.ok.inj this).symm
  obtain ⟨_, a2, a3⟩ := row_mono h.good.wf (Nat.le_max_left d d')
  obtain ⟨_, b2, b3⟩ := row_mono h'.good.wf (Nat.le_max_right d d')
  exact ⟨rfl, a3.symm.trans b3, a2.symm.trans b2⟩

/-- Messages at separate paths are separate in memory. -/
theorem nav_sep {T : MTypes} {m : MMem V} : ∀ (P Q : List (Nat × Nat)) (t b r d : Nat) (R : MRow V)
    (u v b1 r1 b2 r2 d1 d2 : Nat) (R1 R2 : MRow V), At T t m b r d R →
    ¬ P <+: Q → ¬ Q <+: P →
    nav T m t b r P = some (u, b1, r1) → nav T m t b r Q = some (v, b2, r2) →
    At T u m b1 r1 d1 R1 → At T v m b2 r2 d2 R2 →
    Sep b1 r1 (footRow d1 m R1) b2 r2 (footRow d2 m R2)
  | [], Q, _, _, _, _, _, _, _, _, _, _, _, _, _, _, _, _, hP, _, _, _, _, _ =>
    absurd (List.nil_prefix) hP
  | _ :: _, [], _, _, _, _, _, _, _, _, _, _, _, _, _, _, _, _, _, hQ, _, _, _, _ =>
    absurd (List.nil_prefix) hQ
  | (k, i) :: P, (k', i') :: Q, t, b, r, d, R, u, v, b1, r1, b2, r2, d1, d2, R1, R2, h, hP, hQ, n1, n2,
      a1, a2 => by
    -- the first steps
    have first : ∀ (k i : Nat) (P : List (Nat × Nat)) (u b1 r1 d1 : Nat) (R1 : MRow V),
        nav T m t b r ((k, i) :: P) = some (u, b1, r1) → At T u m b1 r1 d1 R1 →
        ∃ f w p c n d0 C, (T t)[k]? = some f ∧ kid f = some w ∧ R[k]? = some (.kids p c n) ∧ i < n ∧
          d = d0 + 1 ∧ At T w m p i d0 C ∧ nav T m w p i P = some (u, b1, r1) ∧
          (∀ x ∈ footRow d0 m C, x ∈ foot d m (.kids p c n)) ∧ p ∈ foot d m (.kids p c n) ∧
          (∀ x ∈ footRow d1 m R1, x ∈ footRow d0 m C) ∧
          ((b1 = p ∧ r1 = i) ∨ b1 ∈ footRow d0 m C) := by
      intro k i P u b1 r1 d1 R1 hn ha
      cases hu : (T t)[k]? >>= kid with
      | none => rw [nav_val hu] at hn; cases hn
      | some w =>
        cases hf : (T t)[k]? with
        | none => simp [hf] at hu
        | some f =>
          have hu' : kid f = some w := by simpa [hf] using hu
          obtain ⟨p, c, n, hk, hw⟩ := kids_slot h.good hf hu'
          rw [nav_cons h hk hf hu'] at hn
          by_cases hi : i < n
          · rw [if_pos hi] at hn
            obtain ⟨d0, C, rows, ed, hC, g1, g2, g3, g4, g5, _⟩ := ac_child h hk hf hu' hi
            obtain ⟨d', R', h1, _, h3, h4⟩ := nav_reach hC hn
            obtain ⟨rfl, e2, _⟩ := ha.unique h1
            refine ⟨f, w, p, c, n, d0, C, rfl, hu', hk, hi, ed, hC, hn, g5, g4, ?_, ?_⟩
            · rw [e2]; exact h3
            · rcases h4 with ⟨_, h⟩ | h
              · exact .inl h
              · exact .inr h
          · rw [if_neg hi] at hn; cases hn
    obtain ⟨f1, w1, p1, c1, m1, e1, C1, hf1, hw1, hk1, hi1, ed1, hC1, hn1, s1, q1, t1, o1⟩ :=
      first k i P u b1 r1 d1 R1 n1 a1
    obtain ⟨f2, w2, p2, c2, m2, e2, C2, hf2, hw2, hk2, hi2, ed2, hC2, hn2, s2, q2, t2, o2⟩ :=
      first k' i' Q v b2 r2 d2 R2 n2 a2
    obtain rfl : e1 = e2 := by omega
    by_cases hkk : k = k'
    · subst hkk
      rw [hk1] at hk2
      obtain ⟨rfl, rfl, rfl⟩ : p1 = p2 ∧ c1 = c2 ∧ m1 = m2 := by simpa using hk2
      rw [hf1] at hf2
      obtain rfl : f1 = f2 := Option.some.inj hf2
      obtain rfl : w1 = w2 := by rw [hw1] at hw2; exact Option.some.inj hw2
      by_cases hii : i = i'
      · subst hii
        exact nav_sep P Q w1 p1 i e1 C1 u v b1 r1 b2 r2 d1 d2 R1 R2 hC1
          (fun hp => hP (List.cons_prefix_cons.mpr ⟨rfl, hp⟩))
          (fun hp => hQ (List.cons_prefix_cons.mpr ⟨rfl, hp⟩)) hn1 hn2 a1 a2
      · -- different elements of one list
        have hdis : ∀ x ∈ footRow e1 m C1, x ∉ footRow e1 m C2 := by
          have hok := h.good.slot hk1 hf1
          rw [ed1] at hok
          obtain ⟨t', h1, h2, h3, h4⟩ := hok.wf
          have hc : c1 ≠ 0 := by omega
          obtain ⟨blk, g1, g2, g3⟩ := h4 hc
          have hnd := hok.nodup
          have hF : foot (e1 + 1) m (.kids p1 c1 m1) = p1 :: (blk.take m1).flatMap (footRow e1 m) := by
            rw [foot, if_neg hc, g1, Option.getD_some]; rfl
          rw [hF, List.nodup_cons] at hnd
          have row : ∀ i C, i < m1 → At T w1 m p1 i e1 C → (blk.take m1)[i]? = some C := by
            intro i C hi hC
            obtain ⟨blk', b1, b2⟩ := hC.blk
            obtain rfl : blk = blk' := by rw [g1] at b1; exact Option.some.inj b1
            rw [List.getElem?_take, if_pos hi, b2]
          have r1 := row i C1 hi1 hC1
          have r2 := row i' C2 hi2 hC2
          rcases Nat.lt_or_gt_of_ne hii with hlt | hlt
          · exact rows_disj hnd.2 r1 r2 hlt
          · exact fun x hx hx' => rows_disj hnd.2 r2 r1 hlt x hx' hx
        refine ⟨?_, fun hx => ?_, fun hx => ?_, fun x hx hx' => hdis x (t1 x hx) (t2 x hx')⟩
        · rintro ⟨rfl, rfl⟩
          rcases o1 with ⟨o1, o1'⟩ | o1 <;> rcases o2 with ⟨o2, o2'⟩ | o2
          · exact hii (o1'.symm.trans o2')
          · exact hC2.out (o1 ▸ o2)
          · exact hC1.out (o2 ▸ o1)
          · exact hdis _ o1 o2
        · rcases o1 with ⟨o1, _⟩ | o1
          · exact hC2.out (o1 ▸ t2 _ hx)
          · exact hdis _ o1 (t2 _ hx)
        · rcases o2 with ⟨o2, _⟩ | o2
          · exact hC1.out (o2 ▸ t1 _ hx)
          · exact hdis _ (t1 _ hx) o2
    · have hdis : ∀ x ∈ foot d m (.kids p1 c1 m1), x ∉ foot d m (.kids p2 c2 m2) := fun x hx =>
        slots_disj' h.good hk1 hk2 hkk hx
      have i1 : b1 ∈ foot d m (.kids p1 c1 m1) := by
        rcases o1 with ⟨o1, _⟩ | o1
        · rw [o1]; exact q1
        · exact s1 _ o1
      have i2 : b2 ∈ foot d m (.kids p2 c2 m2) := by
        rcases o2 with ⟨o2, _⟩ | o2
        · rw [o2]; exact q2
        · exact s2 _ o2
      refine ⟨fun e => hdis _ i1 (e.1 ▸ i2), fun hx => hdis _ i1 (s2 _ (t2 _ hx)), fun hx =>
        hdis _ (s1 _ (t1 _ hx)) i2, fun x hx hx' => hdis x (s1 _ (t1 _ hx)) (s2 _ (t2 _ hx'))⟩

theorem nav_append {T : MTypes} {m : MMem V} : ∀ (P Q : List (Nat × Nat)) (t b r : Nat),
    nav T m t b r (P ++ Q) = (nav T m t b r P).bind fun x => nav T m x.1 x.2.1 x.2.2 Q
  | [], Q, t, b, r => rfl
  | (k, i) :: P, Q, t, b, r => by
    rw [List.cons_append, nav, nav]
    split
    · split
      · exact nav_append P Q _ _ _
      · rfl
    · split
      · exact nav_append P Q _ _ _
      · rfl
    · rfl

end HppProto.MsgMem
