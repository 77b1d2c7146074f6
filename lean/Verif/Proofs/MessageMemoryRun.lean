import Verif.Proofs.MessageMemoryPaths

/-!
# The memory of nested messages: histories
-/

namespace HppProto.MsgMem

open MsgSpec (MTree Trees blank blankField)
open MsgSpec.MField (kid)

variable {V : Type} [Inhabited V]

/-- The program's own messages, as one row of message fields. -/
def rootRow (roots : List (Nat × Nat)) : MRow V := roots.map fun x => .kids x.2 1 1
def rootFields (roots : List (Nat × Nat)) : List MField := roots.map fun x => .one x.1

/-- Memory shows the trees. -/
structure Inv (T : MTypes) (s : MState V) (w : Trees V) (d : Nat) : Prop where
  good : Good T (rootFields s.roots) s.mem d (rootRow s.roots)
  see : seeRow d s.mem (rootRow s.roots) = w.map fun x => .kids [x.2]
  types : s.roots.map Prod.fst = w.map Prod.fst

theorem root_at {T : MTypes} {s : MState V} {w : Trees V} {d x t b : Nat} (h : Inv T s w d)
    (hx : s.roots[x]? = some (t, b)) :
    ∃ d0 C, At T t s.mem b 0 d0 C ∧ w[x]? = some (t, seeRow d0 s.mem C) ∧
      b ∈ foot d s.mem (.kids b 1 1) ∧ (∀ y ∈ footRow d0 s.mem C, y ∈ foot d s.mem (.kids b 1 1)) ∧
      ∀ m' d' C' new, AC T t s.mem b 0 (footRow d0 s.mem C) m' d' C' new →
        ∃ D, Inv T { s with mem := m' } (w.set x (t, new)) D := by
  have hk : (rootRow (V := V) s.roots)[x]? = some (.kids b 1 1) := by simp [rootRow, hx]
  have hf : (rootFields s.roots)[x]? = some (.one t) := by simp [rootFields, hx]
  obtain ⟨d0, C, rows, ed, hC, g1, g2, g3, g4, g5, lift⟩ :=
    good_child h.good hk hf rfl (Nat.lt_succ_self 0)
  rw [h.see] at g1
  have ht : (w.map Prod.fst)[x]? = some t := by rw [← h.types]; simp [hx]
  obtain ⟨row, hw, e⟩ : ∃ row, w[x]? = some (t, row) ∧ rows = [row] := by
    rw [List.getElem?_map] at g1 ht
    cases hwx : w[x]? with
    | none => simp [hwx] at ht
    | some y =>
      obtain ⟨t', row⟩ := y
      simp [hwx] at g1 ht
      exact ⟨row, by rw [ht], g1.symm⟩
  subst e
  have g2' : row = seeRow d0 s.mem C := by simpa using g2
  refine ⟨d0, C, hC, by rw [hw, g2'], g4, g5, fun m' d' C' new ac => ?_⟩
  obtain ⟨D, vc⟩ := lift m' d' C' new ac
  refine ⟨D, ⟨vc.good, ?_, ?_⟩⟩
  · show seeRow D m' (rootRow s.roots) = _
    rw [vc.see, h.see, List.map_set]; rfl
  · show s.roots.map Prod.fst = _
    rw [List.map_set, ← h.types]
    exact (set_get_self (by simp [hx])).symm

theorem roots_none {T : MTypes} {s : MState V} {w : Trees V} {d x : Nat} (h : Inv T s w d) :
    s.roots[x]? = none ↔ w[x]? = none := by
  have := congrArg List.length h.types
  simp at this
  simp [this]

/-- What is found at a path. -/
theorem find_get {T : MTypes} {s : MState V} {w : Trees V} {d : Nat} (h : Inv T s w d) (a : MPath) :
    match w.get T a with
    | none => s.find T a = none
    | some (u, row) => ∃ b r d' R', s.find T a = some (u, b, r) ∧ At T u s.mem b r d' R' ∧
      seeRow d' s.mem R' = row := by
  cases hx : s.roots[a.root]? with
  | none =>
    have := (roots_none h).mp hx
    simp [Trees.get, MState.find, hx, this]
  | some y =>
    obtain ⟨t, b⟩ := y
    obtain ⟨d0, C, hC, hw, _⟩ := root_at h hx
    have := nav_get a.steps t b 0 d0 C hC
    simp only [Trees.get, hw, bind, Option.bind, MState.find, hx]
    split at this
    · next e => rw [e]; exact this
    · next u row e =>
      rw [e]
      obtain ⟨b', r', d', R', h1, h2, h3, _⟩ := this
      exact ⟨b', r', d', R', h1, h2, h3⟩

theorem find_some {T : MTypes} {s : MState V} {w : Trees V} {d u : Nat} {row} (h : Inv T s w d)
    {a : MPath} (hg : w.get T a = some (u, row)) : ∃ b r d' R', s.find T a = some (u, b, r) ∧
      At T u s.mem b r d' R' ∧ seeRow d' s.mem R' = row := by
  have := find_get h a
  rw [hg] at this
  exact this

/-- A call on the message at a path. -/
theorem at_ok {T : MTypes} {s : MState V} {w w' : Trees V} {d : Nat} (h : Inv T s w d) {a : MPath}
    {f : Nat → List (MTree V) → Option (List (MTree V))} (hu : w.upd T a f = some w')
    {g : Nat → Nat → Nat → MMem V → Res (MMem V)}
    (hg : ∀ u b r d' R' new, s.find T a = some (u, b, r) → At T u s.mem b r d' R' →
      f u (seeRow d' s.mem R') = some new →
      ∃ m' d2 R2, g u b r s.mem = .ok m' ∧ AC T u s.mem b r (footRow d' s.mem R') m' d2 R2 new) :
    ∃ s' d', s.at T a g = .ok s' ∧ Inv T s' w' d' := by
  cases hx : s.roots[a.root]? with
  | none =>
    have := (roots_none h).mp hx
    simp [Trees.upd, this] at hu
  | some y =>
    obtain ⟨t, b⟩ := y
    obtain ⟨d0, C, hC, hw, _, _, lift⟩ := root_at h hx
    simp only [Trees.upd, hw, bind, Option.bind] at hu
    cases hup : MsgSpec.upd T f t (seeRow d0 s.mem C) a.steps with
    | none => simp [hup] at hu
    | some tree' =>
      simp only [hup, Option.some.injEq] at hu
      obtain ⟨u, b', r', d', R', new, h1, h2, h3, h4⟩ := nav_upd a.steps t b 0 d0 C tree' hC hup
      have hfind : s.find T a = some (u, b', r') := by simp [MState.find, hx, h1]
      obtain ⟨m', d2, R2, g1, g2⟩ := hg u b' r' d' R' new hfind h2 h3
      obtain ⟨D, RR, ac⟩ := h4 m' d2 R2 g2
      obtain ⟨D', inv⟩ := lift m' D RR tree' ac
      refine ⟨{ s with mem := m' }, D', ?_, hu ▸ inv⟩
      simp [MState.at, hfind, g1, bind, Res.bind]

/-- Messages at separate paths are separate in memory. -/
theorem find_sep {T : MTypes} {s : MState V} {w : Trees V} {d : Nat} (h : Inv T s w d) {a a' : MPath}
    {u v b r b' r' d1 d2 : Nat} {R1 R2 : MRow V} (hap : MsgSpec.Apart a a')
    (h1 : s.find T a = some (u, b, r)) (h2 : s.find T a' = some (v, b', r'))
    (a1 : At T u s.mem b r d1 R1) (a2 : At T v s.mem b' r' d2 R2) :
    Sep b r (footRow d1 s.mem R1) b' r' (footRow d2 s.mem R2) := by
  have root : ∀ {a : MPath} {u b r d1 : Nat} {R1 : MRow V}, s.find T a = some (u, b, r) →
      At T u s.mem b r d1 R1 → ∃ t b0 d0 C, s.roots[a.root]? = some (t, b0) ∧ At T t s.mem b0 0 d0 C ∧
        nav T s.mem t b0 0 a.steps = some (u, b, r) ∧ b ∈ foot d s.mem (.kids b0 1 1) ∧
        ∀ x ∈ footRow d1 s.mem R1, x ∈ foot d s.mem (.kids b0 1 1) := by
    intro a u b r d1 R1 hf ha
    cases hx : s.roots[a.root]? with
    | none => simp [MState.find, hx] at hf
    | some y =>
      obtain ⟨t, b0⟩ := y
      have hf' : nav T s.mem t b0 0 a.steps = some (u, b, r) := by simpa [MState.find, hx] using hf
      obtain ⟨d0, C, hC, hw, g4, g5, _⟩ := root_at h hx
      obtain ⟨d', R', k1, _, k3, k4⟩ := nav_reach hC hf'
      obtain ⟨_, e2, _⟩ := ha.unique k1
      refine ⟨t, b0, d0, C, rfl, hC, hf', ?_, fun x hx => g5 x (k3 x (e2 ▸ hx))⟩
      rcases k4 with ⟨_, k4, _⟩ | k4
      · rw [k4]; exact g4
      · exact g5 _ k4
  obtain ⟨t1, c1, e1, C1, x1, hC1, n1, m1, s1⟩ := root h1 a1
  obtain ⟨t2, c2, e2, C2, x2, hC2, n2, m2, s2⟩ := root h2 a2
  by_cases hr : a.root = a'.root
  · rw [hr, x2] at x1
    obtain ⟨rfl, rfl⟩ : t2 = t1 ∧ c2 = c1 := by simpa using x1
    obtain ⟨p1, p2⟩ := hap hr
    exact nav_sep a.steps a'.steps t2 c2 0 e1 C1 u v b r b' r' d1 d2 R1 R2 hC1 p1 p2 n1 n2 a1 a2
  · have k1 : (rootRow (V := V) s.roots)[a.root]? = some (.kids c1 1 1) := by simp [rootRow, x1]
    have k2 : (rootRow (V := V) s.roots)[a'.root]? = some (.kids c2 1 1) := by simp [rootRow, x2]
    have hdis : ∀ x ∈ foot d s.mem (.kids c1 1 1), x ∉ foot d s.mem (.kids c2 1 1) := fun x hx =>
      slots_disj' h.good k1 k2 hr hx
    exact ⟨fun e => hdis b m1 (e.1 ▸ m2), fun hx => hdis b m1 (s2 b hx), fun hx => hdis b' (s1 b' hx) m2,
      fun x hx hx' => hdis x (s1 x hx) (s2 x hx')⟩

/-- A message that is neither around a message nor in its field `k` has nothing in common with that
field. -/
theorem find_sep_slot {T : MTypes} {s : MState V} {w : Trees V} {d : Nat} (h : Inv T s w d)
    {a a' : MPath} {t u v b r b' r' d1 d2 k : Nat} {R1 R2 : MRow V} {x : MSlot V}
    (hap : MsgSpec.Apart (MsgSpec.child a k) a')
    (h1 : s.find T a = some (t, b, r)) (h2 : s.find T a' = some (v, b', r'))
    (a1 : At T t s.mem b r d1 R1) (a2 : At T v s.mem b' r' d2 R2)
    (hf : (T t)[k]? = some (.one u)) (hk : R1[k]? = some x) :
    Sep b r (foot d1 s.mem x) b' r' (footRow d2 s.mem R2) := by
  by_cases hr : a.root = a'.root
  · obtain ⟨q1, q2⟩ := hap hr
    simp only [MsgSpec.child] at q1 q2
    have hnp : ¬ a'.steps <+: a.steps := fun hp => q2 (hp.trans (List.prefix_append _ _))
    by_cases hp : a.steps <+: a'.steps
    · obtain ⟨τ, hτ⟩ := hp
      cases hx : s.roots[a.root]? with
      | none => simp [MState.find, hx] at h1
      | some y =>
        obtain ⟨t0, b0⟩ := y
        have n1 : nav T s.mem t0 b0 0 a.steps = some (t, b, r) := by simpa [MState.find, hx] using h1
        have n2 : nav T s.mem t0 b0 0 a'.steps = some (v, b', r') := by
          simpa [MState.find, ← hr, hx] using h2
        rw [← hτ, nav_append, n1] at n2
        cases τ with
        | nil =>
          rw [List.append_nil] at hτ
          exact absurd (hτ ▸ List.prefix_refl _) hnp
        | cons st τ =>
          obtain ⟨j, i⟩ := st
          simp only [Option.bind_some] at n2
          cases hu : (T t)[j]? >>= kid with
          | none => rw [nav_val hu] at n2; cases n2
          | some w' =>
            cases hfj : (T t)[j]? with
            | none => simp [hfj] at hu
            | some g =>
              have hu' : kid g = some w' := by simpa [hfj] using hu
              obtain ⟨p, c, n, hkj, hw⟩ := kids_slot a1.good hfj hu'
              rw [nav_cons a1 hkj hfj hu'] at n2
              by_cases hi : i < n
              · rw [if_pos hi] at n2
                have hjk : j ≠ k := by
                  rintro rfl
                  have hi0 : i = 0 := by
                    obtain _ | d1 := d1
                    · exact hw.elim
                    obtain ⟨_, y1, y2, _⟩ := hw
                    rw [hf] at hfj
                    obtain rfl := Option.some.inj hfj
                    simp [kid] at y1
                    subst y1
                    have := y2 rfl
                    omega
                  subst hi0
                  exact q1 ⟨τ, by rw [← hτ]; simp⟩
                obtain ⟨d0, C, rows, ed, hC, g1, g2, g3, g4, g5, _⟩ := ac_child a1 hkj hfj hu' hi
                obtain ⟨d', R', k1, _, k3, k4⟩ := nav_reach hC n2
                obtain ⟨_, e2, _⟩ := a2.unique k1
                have hdis : ∀ y ∈ foot d1 s.mem x, y ∉ foot d1 s.mem (.kids p c n) := fun y hy =>
                  slots_disj' a1.good hk hkj (Ne.symm hjk) hy
                have hb' : b' ∈ foot d1 s.mem (.kids p c n) := by
                  rcases k4 with ⟨_, k4, _⟩ | k4
                  · rw [k4]; exact g4
                  · exact g5 _ k4
                have hF : ∀ y ∈ footRow d2 s.mem R2, y ∈ foot d1 s.mem (.kids p c n) := fun y hy =>
                  g5 y (k3 y (e2 ▸ hy))
                refine ⟨?_, fun hy => a1.out (mem_foot_row hkj (hF b hy)), fun hy => hdis b' hy hb', fun y hy
                  hy' => hdis y hy (hF y hy')⟩
                rintro ⟨rfl, _⟩
                exact a1.out (mem_foot_row hkj hb')
              · rw [if_neg hi] at n2; cases n2
    · have sp := find_sep h (fun _ => ⟨hp, hnp⟩) h1 h2 a1 a2
      exact ⟨sp.ne, sp.dst, fun hy => sp.src (mem_foot_row hk hy), fun y hy => sp.disj y (mem_foot_row hk hy)⟩
  · have sp := find_sep h (fun e => absurd e hr) h1 h2 a1 a2
    exact ⟨sp.ne, sp.dst, fun hy => sp.src (mem_foot_row hk hy), fun y hy => sp.disj y (mem_foot_row hk hy)⟩

/-- A function of a field that changes the slot locally. -/
theorem atSlot_ac {T : MTypes} {t b r d d' k : Nat} {m m1 : MMem V} {R : MRow V} {s s' : MSlot V}
    {f : MField} {tr : MTree V} {F} (h : At T t m b r d R) (hk : R[k]? = some s)
    (hf : (T t)[k]? = some f) (hF : F m s = .ok (m1, s'))
    (c : VC T [f] [] m (foot d m s) m1 d' [s'] [tr]) :
    ∃ m' d2 R2, atSlot b r k F m = .ok m' ∧
      AC T t m b r (footRow d m R) m' d2 R2 ((seeRow d m R).set k tr) := by
  obtain ⟨m2, h3, ac, _⟩ := ac_slot h hk hf c
  exact ⟨m2, _, _, atSlot_run (h.getSlot hk) hF h3, ac⟩

/-- One call. -/
theorem step_ok {T : MTypes} {s : MState V} {w w' : Trees V} {d : Nat} (h : Inv T s w d) (o : MOp V)
    (ho : MsgSpec.Separate o) (hw : MsgSpec.step T w o = some w') :
    ∃ fuel s' d', s.step T fuel o = .ok s' ∧ Inv T s' w' d' := by
  cases o with
  | new t =>
    simp only [MsgSpec.step, Option.some.injEq] at hw
    refine ⟨0, _, max d 2, rfl, ?_⟩
    have hfr : ∀ p ∈ footRow d s.mem (rootRow s.roots), (s.mem ++ [[zeroRow T t]])[p]? = s.mem[p]? :=
      fun p hp => by
        have := h.good.lt p hp
        simp [List.getElem?_append, this]
    obtain ⟨w1, w2, w3⟩ := row_frame h.good.wf hfr
    obtain ⟨v1, v2, v3⟩ := row_mono w1 (Nat.le_max_left d 2)
    have hz : wf T 2 (s.mem ++ [[zeroRow T t]]) (.one t) (.kids s.mem.length 1 1) :=
      ⟨t, rfl, fun _ => by omega, by omega, fun _ => ⟨[zeroRow T t], by simp, rfl, by
        simpa using zeroRow_wf T 0 t _⟩⟩
    obtain ⟨z1, z2, z3⟩ := wf_mono hz (Nat.le_max_right d 2)
    have hzf : foot 2 (s.mem ++ [[zeroRow T t]]) (.kids s.mem.length 1 1) = [s.mem.length] := by
      have := zeroRow_foot T 1 t (s.mem ++ [[zeroRow T t]])
      rw [footRow] at this
      rw [foot]; simp [this]
    have hzs : MsgMem.see 2 (s.mem ++ [[zeroRow T t]]) (.kids s.mem.length 1 1) = .kids [blank T t] := by
      rw [see_kids]
      simp [zeroRow_see]
    have hF : footRow (max d 2) (s.mem ++ [[zeroRow T t]])
        (rootRow (s.roots ++ [(t, s.mem.length)])) =
        footRow d s.mem (rootRow s.roots) ++ [s.mem.length] := by
      have : rootRow (V := V) (s.roots ++ [(t, s.mem.length)]) =
        rootRow s.roots ++ .kids s.mem.length 1 1 :: [] := by simp [rootRow]
      rw [this, footRow_append, v3, w3, z3, hzf]; simp [footRow]
    have hfields : rootFields (s.roots ++ [(t, s.mem.length)]) = rootFields s.roots ++ .one t :: [] := by
      simp [rootFields]
    have hrow : rootRow (V := V) (s.roots ++ [(t, s.mem.length)]) =
        rootRow s.roots ++ .kids s.mem.length 1 1 :: [] := by simp [rootRow]
    refine ⟨⟨?_, ?_, ?_⟩, ?_, ?_⟩
    · show RowAll _ (rootFields (s.roots ++ [(t, s.mem.length)])) (rootRow _)
      rw [hfields, hrow]
      exact rowAll_append v1 z1 trivial
    · show (footRow _ _ (rootRow _)).Nodup
      rw [hF, List.nodup_append]
      refine ⟨h.good.nodup, by simp, ?_⟩
      intro a ha b hb e
      have := h.good.lt a ha
      simp at hb
      omega
    · show ∀ x ∈ footRow _ _ (rootRow _), _
      rw [hF]
      intro x hx
      simp only [List.mem_append, List.mem_singleton] at hx
      simp only [List.length_append, List.length_singleton]
      rcases hx with hx | hx
      · have := h.good.lt x hx; omega
      · omega
    · show seeRow _ _ (rootRow (s.roots ++ [(t, s.mem.length)])) = _
      rw [hrow]
      have e1 : (rootRow (V := V) s.roots).map (MsgMem.see (max d 2) (s.mem ++ [[zeroRow T t]])) =
          w.map fun x => .kids [x.2] := (v2.trans w2).trans h.see
      rw [seeRow, List.map_append, e1, List.map_cons, z2, hzs, ← hw]
      simp
    · show (s.roots ++ [(t, s.mem.length)]).map Prod.fst = _
      rw [← hw]
      simp [h.types]
  | setVal a k v =>
    obtain ⟨s', d', h1, h2⟩ := at_ok h hw (g := fun t b r m =>
      match (T t)[k]? with
      | some .val => setSlot m b r k (.val v)
      | _ => .throw) fun u b r d' R' new _ ha hn => by
        split at hn
        · next hf =>
          obtain ⟨x, hk, _⟩ := rowAll_get ha.good.wf hf
          obtain ⟨m2, h3, ac, _⟩ := ac_slot ha hk hf (setVal_vc (d := 0) (foot d' s.mem x) v)
          simp only [hf]
          exact ⟨m2, _, _, h3, Option.some.inj hn ▸ ac⟩
        · cases hn
    exact ⟨0, s', d', h1, h2⟩
  | emplace a k =>
    obtain ⟨s', d', h1, h2⟩ := at_ok h hw (g := fun t b r m =>
      match (T t)[k]? with
      | some (.one u) => atSlot b r k (emplace T u) m
      | _ => .throw) fun u b r d' R' new _ ha hn => by
        split at hn
        · next x hf =>
          obtain ⟨x, hk, _⟩ := rowAll_get ha.good.wf hf
          obtain ⟨m1, s1, d1, q, c, g1, g2, g3⟩ := emplace_vc (ha.good.slot hk hf)
          simp only [hf]
          exact Option.some.inj hn ▸ atSlot_ac ha hk hf g1 g3
        · cases hn
    exact ⟨0, s', d', h1, h2⟩
  | clear a k =>
    obtain ⟨s', d', h1, h2⟩ := at_ok h hw (g := fun t b r m =>
      match (T t)[k]? with
      | some (.one _) => atSlot b r k clear m
      | some (.many _) => atSlot b r k clear m
      | _ => .throw) fun u b r d' R' new _ ha hn => by
        split at hn
        · next x hf =>
          obtain ⟨y, hk, _⟩ := rowAll_get ha.good.wf hf
          obtain ⟨m1, s1, d1, g1, g3⟩ := clear_vc (ha.good.slot hk hf) (u := x) rfl
          simp only [hf]
          exact Option.some.inj hn ▸ atSlot_ac ha hk hf g1 g3
        · next x hf =>
          obtain ⟨y, hk, _⟩ := rowAll_get ha.good.wf hf
          obtain ⟨m1, s1, d1, g1, g3⟩ := clear_vc (ha.good.slot hk hf) (u := x) rfl
          simp only [hf]
          exact Option.some.inj hn ▸ atSlot_ac ha hk hf g1 g3
        · cases hn
    exact ⟨0, s', d', h1, h2⟩
  | reserve a k n =>
    obtain ⟨s', d', h1, h2⟩ := at_ok h hw (g := fun t b r m =>
      match (T t)[k]? with
      | some (.many u) => atSlot b r k (reserve T u n) m
      | _ => .throw) fun u b r d' R' new _ ha hn => by
        split at hn
        · next x hf =>
          obtain ⟨y, hk, _⟩ := rowAll_get ha.good.wf hf
          obtain ⟨m1, s1, d1, g1, g3⟩ := reserve_vc (n := n) (ha.good.slot hk hf)
          simp only [hf]
          have := atSlot_ac ha hk hf g1 g3
          rw [set_get_self (seeRow_get hk)] at this
          exact Option.some.inj hn ▸ this
        · cases hn
    exact ⟨0, s', d', h1, h2⟩
  | resize a k n =>
    obtain ⟨s', d', h1, h2⟩ := at_ok h hw (g := fun t b r m =>
      match (T t)[k]? with
      | some (.many u) => atSlot b r k (resize T u n) m
      | _ => .throw) fun u b r d' R' new _ ha hn => by
        split at hn
        · next x hf =>
          obtain ⟨y, hk, hy⟩ := rowAll_get ha.good.wf hf
          obtain ⟨d0, q0, c0, n0, ed, rfl⟩ := kids_of hy (u := x) rfl
          obtain ⟨rows0, er0⟩ : ∃ rows0, see d' s.mem (.kids q0 c0 n0) = .kids rows0 := by
            subst ed; exact ⟨_, see_kids⟩
          obtain ⟨m1, s1, d1, q, c, g1, g2, g3⟩ := resize_vc (n := n) (ha.good.slot hk hf) er0
          simp only [hf]
          simp only [MsgSpec.onList, seeRow_get hk, er0, Option.some.injEq] at hn
          exact hn ▸ atSlot_ac ha hk hf g1 g3
        · cases hn
    exact ⟨0, s', d', h1, h2⟩
  | add a k =>
    obtain ⟨s', d', h1, h2⟩ := at_ok h hw (g := fun t b r m =>
      match (T t)[k]? with
      | some (.many u) => atSlot b r k (fun m s => do
          let (_, _, n) ← s.get
          resize T u (n + 1) m s) m
      | _ => .throw) fun u b r d' R' new _ ha hn => by
        split at hn
        · next x hf =>
          obtain ⟨y, hk, hy⟩ := rowAll_get ha.good.wf hf
          obtain ⟨d0, q0, c0, n0, ed, rfl⟩ := kids_of hy (u := x) rfl
          obtain ⟨rows0, er0, hl0⟩ : ∃ rows0, see d' s.mem (.kids q0 c0 n0) = .kids rows0 ∧
              rows0.length = n0 := by
            subst ed
            refine ⟨_, see_kids, ?_⟩
            obtain ⟨_, _, _, h3, h4⟩ := hy
            by_cases hz : n0 = 0
            · simp [hz]
            · obtain ⟨blk, g1, g2, _⟩ := h4 (by omega)
              simp [g1]; omega
          obtain ⟨m1, s1, d1, q, c, g1, g2, g3⟩ := resize_vc (n := n0 + 1) (ha.good.slot hk hf) er0
          simp only [hf]
          simp only [MsgSpec.onList, seeRow_get hk, er0, Option.some.injEq] at hn
          have hsz : MsgSpec.sized T x (n0 + 1) rows0 = rows0 ++ [blank T x] := by
            rw [MsgSpec.sized, List.take_of_length_le (by omega), hl0, show n0 + 1 - n0 = 1 by omega]; rfl
          rw [hsz] at g3
          exact hn ▸ atSlot_ac ha hk hf (by simpa [MSlot.get, bind, Res.bind] using g1) g3
        · cases hn
    exact ⟨0, s', d', h1, h2⟩
  | reset a =>
    obtain ⟨s', d', h1, h2⟩ := at_ok h hw (g := fun t b r m => setRow m b r (zeroRow T t))
      fun u b r d' R' new _ ha hn => by
        obtain ⟨blk, b1, b2⟩ := ha.blk
        have hr := (List.getElem?_eq_some_iff.mp b2).1
        have hbl := ha.lt
        refine ⟨s.mem.set b (blk.set r (zeroRow T u)), 1, zeroRow T u, by simp [setRow, b1, hr], ?_, ?_⟩
        · refine ⟨by simp, ?_, zeroRow_wf T 0 u _, ?_, ?_, ?_, ?_⟩
          · intro p hp hF hX
            rw [List.getElem?_set, if_neg (by simp at hX; omega)]
          · rw [zeroRow_foot]; simp
          · rw [zeroRow_foot]; simp
          · rw [zeroRow_foot]; simp
          · rw [zeroRow_see]; exact Option.some.inj hn
        · intro blk' hb
          obtain rfl : blk = blk' := by rw [b1] at hb; exact Option.some.inj hb
          simp [hbl]
    exact ⟨0, s', d', h1, h2⟩
  | copy a src =>
    simp only [MsgSpec.step] at hw
    cases hg : w.get T src with
    | none => simp [hg] at hw
    | some y =>
      obtain ⟨st, c⟩ := y
      simp only [hg, bind, Option.bind] at hw
      obtain ⟨sb, sr, e, S, f1, f2, f3⟩ := find_some h hg
      obtain ⟨s', d', h1, h2⟩ := at_ok h hw (g := fun t b r m =>
        if st = t then cloneMsg T (e + 1) t b r sb sr m else .throw)
        fun u b r d' R' new hf ha hn => by
          split at hn
          · next hu =>
            subst hu
            simp only [if_true]
            obtain ⟨m', d2, R2, g1, g2⟩ := clone_ok T e (e + 1) (by omega) st s.mem b r d' R' sb sr S ha f2
              (find_sep h ho hf f1 ha f2)
            rw [f3, Option.some.inj hn] at g2
            exact ⟨m', d2, R2, g1, g2⟩
          · cases hn
      exact ⟨e + 1, s', d', by simp only [MState.step, f1]; exact h1, h2⟩
  | copyField a k src =>
    simp only [MsgSpec.step] at hw
    cases hg : w.get T src with
    | none => simp [hg] at hw
    | some y =>
      obtain ⟨st, c⟩ := y
      simp only [hg, bind, Option.bind] at hw
      obtain ⟨sb, sr, e, S, f1, f2, f3⟩ := find_some h hg
      obtain ⟨s', d', h1, h2⟩ := at_ok h hw (g := fun t b r m =>
        if st = t then
          match (T t)[k]? with
          | some f => cloneField T (cloneMsg T (e + 1)) b r sb sr k f m
          | none => .throw
        else .throw)
        fun u b r d' R' new hf ha hn => by
          split at hn
          · next hu =>
            subst hu
            simp only [if_true]
            rw [← f3] at hn
            cases hSk : S[k]? with
            | none => simp [seeRow, hSk] at hn
            | some x =>
              have hkt : k < (T st).length := by
                rw [← rowAll_length f2.good.wf]
                exact (List.getElem?_eq_some_iff.mp hSk).1
              have hfk : (T st)[k]? = some ((T st)[k]) := by simp [hkt]
              rw [hfk]
              rw [seeRow_get hSk, Option.map_some] at hn
              rw [← Option.some.inj hn]
              exact field_ac ha f2 (find_sep h ho hf f1 ha f2) hfk hSk fun e' he =>
                clone_ok T e' (e + 1) (by omega)
          · cases hn
      exact ⟨e + 1, s', d', by simp only [MState.step, f1]; exact h1, h2⟩
  | set a k src =>
    simp only [MsgSpec.step] at hw
    cases hg : w.get T src with
    | none => simp [hg] at hw
    | some y =>
      obtain ⟨st, c⟩ := y
      simp only [hg, bind, Option.bind] at hw
      obtain ⟨sb, sr, e, S, f1, f2, f3⟩ := find_some h hg
      obtain ⟨s', d', h1, h2⟩ := at_ok h hw (g := fun t b r m =>
        match (T t)[k]? with
        | some (.one u) => if st = u then setMsg T (e + 1) u b r k sb sr m else .throw
        | _ => .throw)
        fun u b r d' R' new hf ha hn => by
          split at hn
          · next hfk =>
            simp only [hfk, if_true]
            obtain ⟨x, hk, _⟩ := rowAll_get ha.good.wf hfk
            rw [← Option.some.inj hn, ← f3]
            exact setMsg_ac ha f2 hfk hk (find_sep_slot h ho hf f1 ha f2 hfk hk) (by omega)
          · cases hn
      exact ⟨e + 1, s', d', by simp only [MState.step, f1]; exact h1, h2⟩
  | alias a src => exact ho.elim
  | aliasField a k src => exact ho.elim

theorem run_ok {T : MTypes} : ∀ (os : List (MOp V)) {s : MState V} {w w' : Trees V} {d : Nat},
    Inv T s w d → (∀ o ∈ os, MsgSpec.Separate o) → MsgSpec.run T os w = some w' →
    ∃ fuel s' d', (∀ f ≥ fuel, s.run T f os = .ok s') ∧ Inv T s' w' d'
  | [], s, w, w', d, h, _, hw => ⟨0, s, d, fun _ _ => rfl, Option.some.inj hw ▸ h⟩
  | o :: os, s, w, w', d, h, ho, hw => by
    simp only [MsgSpec.run] at hw
    cases h1 : MsgSpec.step T w o with
    | none => simp [h1] at hw
    | some w1 =>
      simp only [h1, bind, Option.bind] at hw
      obtain ⟨f1, s1, d1, g1, g2⟩ := step_ok h o (ho o (by simp)) h1
      obtain ⟨f2, s2, d2, g3, g4⟩ := run_ok os g2 (fun o h => ho o (by simp [h])) hw
      refine ⟨max f1 f2, s2, d2, fun f hf => ?_, g4⟩
      simp only [MState.run, bind, Res.bind, step_mono (show f1 ≤ f by omega) s o _ g1]
      exact g3 f (by omega)

theorem inv_init (T : MTypes) : Inv T (MState.init (V := V)) [] 0 :=
  ⟨⟨trivial, by simp [footRow, rootRow, MState.init], by simp [footRow, rootRow, MState.init]⟩, rfl, rfl⟩

theorem inv_shows {T : MTypes} {s : MState V} {w : Trees V} {d : Nat} (h : Inv T s w d) :
    MsgSpec.Shows T s w := by
  intro a
  have := find_get h a
  split at this
  · next e => rw [e]; exact this
  · next u row e =>
    rw [e]
    obtain ⟨b, r, d', R', h1, h2, h3⟩ := this
    refine ⟨b, r, h1, fun k => ?_⟩
    have hl := rowAll_length h2.good.wf
    cases hk : R'[k]? with
    | none =>
      have : row[k]? = none := by rw [← h3]; simp [seeRow, hk]
      rw [this]
      show k ≥ (T u).length
      rw [List.getElem?_eq_none_iff] at hk
      omega
    | some x =>
      have hr : row[k]? = some (see d' s.mem x) := by rw [← h3]; exact seeRow_get hk
      rw [hr]
      have hkt : k < (T u).length := by
        rw [← hl]; exact (List.getElem?_eq_some_iff.mp hk).1
      have hw := (h2.good.slot hk (f := (T u)[k]) (by simp [hkt])).wf
      obtain _ | d' := d'
      · exact hw.elim
      cases x with
      | val v => exact h2.getSlot hk
      | kids p c n =>
        rw [see_kids]
        refine ⟨p, c, ?_⟩
        have : (((s.mem[p]?.getD []).take n).map (seeRow d' s.mem)).length = n := by
          obtain ⟨_, _, _, h3, h4⟩ := hw
          by_cases hz : n = 0
          · simp [hz]
          · obtain ⟨blk, g1, g2, _⟩ := h4 (by omega)
            simp [g1]; omega
        rw [this]
        exact h2.getSlot hk

/-! ## Trees -/

theorem upd_get_self {T : MTypes} {f : Nat → List (MTree V) → Option (List (MTree V))} :
    ∀ (P : List (Nat × Nat)) (t : Nat) (row row' : List (MTree V)), MsgSpec.upd T f t row P = some row' →
    ∃ u c c', MsgSpec.get T t row P = some (u, c) ∧ f u c = some c' ∧
      MsgSpec.get T t row' P = some (u, c')
  | [], t, row, row', h => ⟨t, row, row', rfl, h, rfl⟩
  | (k, i) :: P, t, row, row', h => by
    cases hu : (T t)[k]? >>= kid with
    | none => rw [upd_val hu] at h; cases h
    | some u =>
      cases hf : (T t)[k]? with
      | none => simp [hf] at hu
      | some g =>
        have hu' : kid g = some u := by simpa [hf] using hu
        cases hk : row[k]? with
        | none => simp [MsgSpec.upd, hu, hk] at h
        | some x =>
          cases x with
          | val v => simp [MsgSpec.upd, hu, hk] at h
          | kids rows =>
            cases hi : rows[i]? with
            | none => rw [upd_cons_none hf hu' hk hi] at h; cases h
            | some c =>
              rw [upd_cons hf hu' hk hi] at h
              cases hs : MsgSpec.upd T f u c P with
              | none => simp [hs] at h
              | some c1 =>
                simp only [hs, Option.map_some, Option.some.injEq] at h
                obtain ⟨v, c2, c3, h1, h2, h3⟩ := upd_get_self P u c c1 hs
                refine ⟨v, c2, c3, by rw [get_cons hf hu' hk hi, h1], h2, ?_⟩
                have hkl := (List.getElem?_eq_some_iff.mp hk).1
                have hil := (List.getElem?_eq_some_iff.mp hi).1
                rw [← h, get_cons hf hu' (rows := rows.set i c1) (c := c1) (by simp [hkl]) (by simp [hil]), h3]

theorem upd_get_apart {T : MTypes} {f : Nat → List (MTree V) → Option (List (MTree V))} :
    ∀ (P Q : List (Nat × Nat)) (t : Nat) (row row' : List (MTree V)),
    MsgSpec.upd T f t row P = some row' → ¬ P <+: Q → ¬ Q <+: P →
    MsgSpec.get T t row' Q = MsgSpec.get T t row Q
  | [], Q, _, _, _, _, hP, _ => absurd List.nil_prefix hP
  | _ :: _, [], _, _, _, _, _, hQ => absurd List.nil_prefix hQ
  | (k, i) :: P, (k', i') :: Q, t, row, row', h, hP, hQ => by
    cases hu : (T t)[k]? >>= kid with
    | none => rw [upd_val hu] at h; cases h
    | some u =>
      cases hf : (T t)[k]? with
      | none => simp [hf] at hu
      | some g =>
        have hu' : kid g = some u := by simpa [hf] using hu
        cases hk : row[k]? with
        | none => simp [MsgSpec.upd, hu, hk] at h
        | some x =>
          cases x with
          | val v => simp [MsgSpec.upd, hu, hk] at h
          | kids rows =>
            cases hi : rows[i]? with
            | none => rw [upd_cons_none hf hu' hk hi] at h; cases h
            | some c =>
              rw [upd_cons hf hu' hk hi] at h
              cases hs : MsgSpec.upd T f u c P with
              | none => simp [hs] at h
              | some c1 =>
                simp only [hs, Option.map_some, Option.some.injEq] at h
                have hkl := (List.getElem?_eq_some_iff.mp hk).1
                have hil := (List.getElem?_eq_some_iff.mp hi).1
                by_cases hkk : k = k'
                · subst hkk
                  have hk1 : row'[k]? = some (.kids (rows.set i c1)) := by rw [← h]; simp [hkl]
                  by_cases hii : i = i'
                  · subst hii
                    rw [get_cons hf hu' hk1 (c := c1) (by simp [hil]), get_cons hf hu' hk hi]
                    exact upd_get_apart P Q u c c1 hs
                      (fun hp => hP (List.cons_prefix_cons.mpr ⟨rfl, hp⟩))
                      (fun hp => hQ (List.cons_prefix_cons.mpr ⟨rfl, hp⟩))
                  · have he : (rows.set i c1)[i']? = rows[i']? := by
                      rw [List.getElem?_set, if_neg hii]
                    cases hi' : rows[i']? with
                    | none => rw [get_cons_none hf hu' hk1 (he.trans hi'), get_cons_none hf hu' hk hi']
                    | some e => rw [get_cons hf hu' hk1 (he.trans hi'), get_cons hf hu' hk hi']
                · have he : row'[k']? = row[k']? := by
                    rw [← h, List.getElem?_set, if_neg hkk]
                  rw [MsgSpec.get, MsgSpec.get, he]

theorem trees_upd_self {T : MTypes} {f : Nat → List (MTree V) → Option (List (MTree V))} {w w' : Trees V}
    {a : MPath} (h : w.upd T a f = some w') : ∃ u c c', w.get T a = some (u, c) ∧ f u c = some c' ∧
      w'.get T a = some (u, c') := by
  cases hx : w[a.root]? with
  | none => simp [Trees.upd, hx] at h
  | some y =>
    obtain ⟨t, row⟩ := y
    simp only [Trees.upd, hx, bind, Option.bind] at h
    cases hu : MsgSpec.upd T f t row a.steps with
    | none => simp [hu] at h
    | some row' =>
      simp only [hu, Option.some.injEq] at h
      obtain ⟨u, c, c', h1, h2, h3⟩ := upd_get_self a.steps t row row' hu
      have hl := (List.getElem?_eq_some_iff.mp hx).1
      refine ⟨u, c, c', by simp [Trees.get, hx, h1], h2, ?_⟩
      rw [← h]
      simp [Trees.get, hl, h3]

theorem trees_upd_apart {T : MTypes} {f : Nat → List (MTree V) → Option (List (MTree V))} {w w' : Trees V}
    {a b : MPath} (h : w.upd T a f = some w') (hap : MsgSpec.Apart a b) : w'.get T b = w.get T b := by
  cases hx : w[a.root]? with
  | none => simp [Trees.upd, hx] at h
  | some y =>
    obtain ⟨t, row⟩ := y
    simp only [Trees.upd, hx, bind, Option.bind] at h
    cases hu : MsgSpec.upd T f t row a.steps with
    | none => simp [hu] at h
    | some row' =>
      simp only [hu, Option.some.injEq] at h
      have hl := (List.getElem?_eq_some_iff.mp hx).1
      by_cases hr : a.root = b.root
      · obtain ⟨h1, h2⟩ := hap hr
        have hx' : w[b.root]? = some (t, row) := hr ▸ hx
        have hl' : b.root < w.length := hr ▸ hl
        rw [← h]
        have hg : (w.set a.root (t, row'))[b.root]? = some (t, row') := by simp [hr, hl']
        simp only [Trees.get, hx', hg, bind, Option.bind]
        exact upd_get_apart a.steps b.steps t row row' hu h1 h2
      · rw [← h]
        simp [Trees.get, List.getElem?_set, hr]

end HppProto.MsgMem
