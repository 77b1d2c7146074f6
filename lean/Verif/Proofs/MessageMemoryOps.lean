import Verif.Proofs.MessageMemory

/-!
# The memory of nested messages: each call is a local change
-/

namespace HppProto.MsgMem

open MsgSpec (MTree blank blankField)
open MsgSpec.MField (kid)

variable {V : Type} [Inhabited V]

theorem take_self {α} (l : List α) (n : Nat) : (l.take n).take n = l.take n := by
  rw [List.take_take, Nat.min_self]

/-- A good row at an address. -/
structure At (T : MTypes) (t : Nat) (m : MMem V) (b r d : Nat) (R : MRow V) : Prop where
  blk : ∃ blk, m[b]? = some blk ∧ blk[r]? = some R
  good : Good T (T t) m d R
  out : b ∉ footRow d m R

/-- A local change of the row at an address. -/
structure AC (T : MTypes) (t : Nat) (m : MMem V) (b r : Nat) (F : List Nat) (m' : MMem V) (d' : Nat)
    (R' : MRow V) (new : List (MTree V)) : Prop where
  vc : VC T (T t) [b] m F m' d' R' new
  blk : ∀ blk, m[b]? = some blk → m'[b]? = some (blk.set r R')

theorem At.lt {T : MTypes} {t b r d : Nat} {m : MMem V} {R : MRow V} (h : At T t m b r d R) :
    b < m.length := by
  obtain ⟨blk, h, _⟩ := h.blk
  exact (List.getElem?_eq_some_iff.mp h).1

theorem At.getRow {T : MTypes} {t b r d : Nat} {m : MMem V} {R : MRow V} (h : At T t m b r d R) :
    getRow m b r = .ok R := by
  obtain ⟨blk, h1, h2⟩ := h.blk
  simp [MsgMem.getRow, h1, h2]

theorem At.getSlot {T : MTypes} {t b r d k : Nat} {m : MMem V} {R : MRow V} {s : MSlot V}
    (h : At T t m b r d R) (hk : R[k]? = some s) : getSlot m b r k = .ok s := by
  simp [MsgMem.getSlot, h.getRow, bind, Res.bind, hk]

theorem AC.at {T : MTypes} {t b r d d' : Nat} {m m' : MMem V} {R R' : MRow V} {new}
    (h : At T t m b r d R) (c : AC T t m b r (footRow d m R) m' d' R' new) :
    At T t m' b r d' R' := by
  obtain ⟨blk, h1, h2⟩ := h.blk
  refine ⟨⟨_, c.blk blk h1, ?_⟩, c.vc.good, ?_⟩
  · have := (List.getElem?_eq_some_iff.mp h2).1
    simp [this]
  · intro hb
    rcases c.vc.sub b hb with hb | hb
    · exact h.out hb
    · have := h.lt; omega

theorem VC.trans {T : MTypes} {ts X F d1 d2} {m m1 m2 : MMem V} {R1 R2 n1 n2}
    (h : VC T ts X m F m1 d1 R1 n1) (h' : VC T ts X m1 (footRow d1 m1 R1) m2 d2 R2 n2) :
    VC T ts X m F m2 d2 R2 n2 := by
  refine ⟨Nat.le_trans h.grow h'.grow, ?_, h'.wf, h'.nodup, h'.lt, ?_, h'.see⟩
  · intro p hp hF hX
    have := h.grow
    rw [h'.frame p (by omega) ?_ hX, h.frame p hp hF hX]
    intro hp'
    rcases h.sub p hp' with h | h
    · exact hF h
    · omega
  · intro x hx
    have := h.grow
    rcases h'.sub x hx with h1 | h1
    · exact h.sub x h1
    · exact .inr (by omega)

theorem AC.trans {T : MTypes} {t b r F d1 d2} {m m1 m2 : MMem V} {R1 R2 n1 n2}
    (h : AC T t m b r F m1 d1 R1 n1) (h' : AC T t m1 b r (footRow d1 m1 R1) m2 d2 R2 n2) :
    AC T t m b r F m2 d2 R2 n2 := by
  refine ⟨h.vc.trans h'.vc, fun blk hb => ?_⟩
  rw [h'.blk _ (h.blk blk hb), List.set_set]

theorem AC.refl {T : MTypes} {t b r d : Nat} {m : MMem V} {R : MRow V} (h : At T t m b r d R) :
    AC T t m b r (footRow d m R) m d R (seeRow d m R) := by
  refine ⟨⟨Nat.le_refl _, fun _ _ _ _ => rfl, h.good.wf, h.good.nodup, h.good.lt, fun x hx => .inl hx,
    rfl⟩, ?_⟩
  obtain ⟨blk, h1, h2⟩ := h.blk
  intro blk' hb
  obtain rfl : blk = blk' := by rw [h1] at hb; exact Option.some.inj hb
  rw [h1]
  congr 1
  obtain ⟨A, B, rfl, rfl⟩ := split_at h2
  simp

/-- Storing a row. -/
theorem vc_store {T : MTypes} {ts : List MField} {F : List Nat} {m m1 : MMem V} {R' : MRow V}
    {d' b : Nat} {new} (h : VC T ts [] m F m1 d' R' new) (hb : b ∉ F) (hl : b < m.length)
    (blk' : List (MRow V)) : VC T ts [b] m F (m1.set b blk') d' R' new := by
  have hout : b ∉ footRow d' m1 R' := fun hx => by
    rcases h.sub b hx with h | h
    · exact hb h
    · omega
  obtain ⟨w1, w2, w3⟩ := row_frame (m' := m1.set b blk') h.wf fun p hp => by
    rw [List.getElem?_set, if_neg]
    rintro rfl
    exact hout hp
  refine ⟨by simpa using h.grow, ?_, w1, ?_, ?_, ?_, w2.trans h.see⟩
  · intro p hp hF hX
    rw [List.getElem?_set, if_neg (by simp at hX; omega)]
    exact h.frame p hp hF (by simp)
  · rw [w3]; exact h.nodup
  · rw [w3]; simpa using h.lt
  · rw [w3]; exact h.sub

/-- Change a slot, and store it. -/
theorem ac_slot {T : MTypes} {t b r d d' k : Nat} {m m1 : MMem V} {R : MRow V} {s s' : MSlot V}
    {f : MField} {tr : MTree V} (h : At T t m b r d R) (hk : R[k]? = some s)
    (hf : (T t)[k]? = some f) (c : VC T [f] [] m (foot d m s) m1 d' [s'] [tr]) :
    ∃ m2, setSlot m1 b r k s' = .ok m2 ∧
      AC T t m b r (footRow d m R) m2 (max d d') (R.set k s') ((seeRow d m R).set k tr) ∧
      (∀ x < m.length, x ∉ foot d m s → x ≠ b → m2[x]? = m[x]?) ∧
      (∀ x ∈ foot (max d d') m2 s', x ∈ foot d m s ∨ m.length ≤ x) := by
  have c' := row_vc h.good hk hf (by simp) c
  obtain ⟨blk, h1, h2⟩ := h.blk
  have hb1 : m1[b]? = some blk := by
    rw [c'.frame b h.lt h.out (by simp), h1]
  have hrl := (List.getElem?_eq_some_iff.mp h2).1
  have hkl := (List.getElem?_eq_some_iff.mp hk).1
  refine ⟨m1.set b (blk.set r (R.set k s')), ?_, ⟨vc_store c' h.out h.lt _, ?_⟩, ?_, ?_⟩
  · have hg : getRow m1 b r = .ok R := by simp [getRow, hb1, h2]
    simp only [setSlot, hg, bind, Res.bind, hkl, if_true, setRow, hb1, hrl]
  · intro blk' hb
    obtain rfl : blk = blk' := by rw [h1] at hb; exact Option.some.inj hb
    have := (List.getElem?_eq_some_iff.mp hb1).1
    simp [this]
  · intro x hx hxs hxb
    rw [List.getElem?_set, if_neg (by omega)]
    exact c.frame x hx hxs (by simp)
  · have hout : b ∉ foot d m s := fun hb => h.out (mem_footRow.mpr ⟨s, List.mem_of_getElem? hk, hb⟩)
    have cs := vc_store c hout h.lt (blk.set r (R.set k s'))
    obtain ⟨_, _, e⟩ := row_mono cs.wf (Nat.le_max_right d d')
    rw [footRow_one, footRow_one] at e
    rw [e]
    intro x hx
    exact cs.sub x (by rw [footRow_one]; exact hx)

/-- A message in a field: its row, and what a change of it means for the whole. -/
theorem good_child {T : MTypes} {ts : List MField} {d k i p c n u : Nat} {m : MMem V} {R : MRow V}
    {f : MField} (h : Good T ts m d R) (hk : R[k]? = some (.kids p c n)) (hf : ts[k]? = some f)
    (hu : kid f = some u) (hi : i < n) :
    ∃ d0 C rows, d = d0 + 1 ∧ At T u m p i d0 C ∧ (seeRow d m R)[k]? = some (.kids rows) ∧
      rows[i]? = some (seeRow d0 m C) ∧ rows.length = n ∧
      p ∈ foot d m (.kids p c n) ∧ (∀ x ∈ footRow d0 m C, x ∈ foot d m (.kids p c n)) ∧
      ∀ m' d' C' new, AC T u m p i (footRow d0 m C) m' d' C' new →
        ∃ D, VC T ts [] m (footRow d m R) m' D R
          ((seeRow d m R).set k (.kids (rows.set i new))) := by
  obtain ⟨TA, A, TB, B, e1, e2, e3, hA, hs, hB⟩ := rowAll_split h.wf hf hk
  obtain _ | d := d
  · exact hs.elim
  obtain ⟨t', h1, h2, h3, h4⟩ := id hs
  obtain rfl : u = t' := by rw [hu] at h1; exact Option.some.inj h1
  have hc : c ≠ 0 := by omega
  obtain ⟨blk, g1, g2, g3⟩ := h4 hc
  have hC : blk[i]? = some (blk[i]'(by omega)) := by simp
  generalize blk[i]'(by omega) = C at hC
  have hCt : (blk.take n)[i]? = some C := by rw [List.getElem?_take, if_pos hi, hC]
  have hCm : C ∈ blk.take n := List.mem_of_getElem? hCt
  have hF : foot (d + 1) m (.kids p c n) = p :: (blk.take n).flatMap (footRow d m) := by
    rw [foot, if_neg hc, g1, Option.getD_some]; rfl
  have hsub : ∀ x ∈ footRow d m C, x ∈ foot (d + 1) m (.kids p c n) := fun x hx => by
    rw [hF]; exact List.mem_cons_of_mem _ (List.mem_flatMap.mpr ⟨C, hCm, hx⟩)
  have hsubR : ∀ x ∈ foot (d + 1) m (.kids p c n), x ∈ footRow (d + 1) m R := fun x hx => by
    rw [mem_footRow]; exact ⟨_, List.mem_of_getElem? hk, hx⟩
  have hnS : (foot (d + 1) m (.kids p c n)).Nodup := by
    have := h.nodup
    rw [e2, footRow_append] at this
    simp only [List.nodup_append] at this
    exact this.1.2.1
  have hlS : ∀ x ∈ foot (d + 1) m (.kids p c n), x < m.length := fun x hx =>
    h.lt x (hsubR x hx)
  obtain ⟨A', B', hAB, hA'⟩ := split_at hCt
  have hnC : (footRow d m C).Nodup ∧ p ∉ footRow d m C := by
    have := hnS
    rw [hF, hAB, List.flatMap_append, List.flatMap_cons, List.nodup_cons] at this
    simp only [List.nodup_append, List.mem_append, not_or] at this
    exact ⟨this.2.2.1.1, this.1.2.1⟩
  refine ⟨d, C, (blk.take n).map (seeRow d m), rfl, ⟨⟨blk, g1, hC⟩, ⟨g3 C hCm, hnC.1, fun x hx =>
    hlS x (hsub x hx)⟩, hnC.2⟩, ?_, ?_, ?_, ?_, hsub, ?_⟩
  · show (R.map (see (d + 1) m))[k]? = _
    rw [List.getElem?_map, hk, Option.map_some, see, g1]; rfl
  · rw [List.getElem?_map, hCt]; rfl
  · simp; omega
  · rw [hF]; simp
  · intro m' d' C' new ch
    have c1 := slot_vc hs hu hnS hlS g1 hi hC (ch.blk blk g1) ch.vc
    have c2 := row_vc h hk hf (by simp) c1
    have hset : R.set k (.kids p c n) = R := by
      rw [e2, ← e3]; simp
    rw [hset] at c2
    exact ⟨_, c2⟩

/-- The same for a row at an address. -/
theorem ac_child {T : MTypes} {t b r d k i p c n u : Nat} {m : MMem V} {R : MRow V} {f : MField}
    (h : At T t m b r d R) (hk : R[k]? = some (.kids p c n)) (hf : (T t)[k]? = some f)
    (hu : kid f = some u) (hi : i < n) :
    ∃ d0 C rows, d = d0 + 1 ∧ At T u m p i d0 C ∧ (seeRow d m R)[k]? = some (.kids rows) ∧
      rows[i]? = some (seeRow d0 m C) ∧ rows.length = n ∧
      p ∈ foot d m (.kids p c n) ∧ (∀ x ∈ footRow d0 m C, x ∈ foot d m (.kids p c n)) ∧
      ∀ m' d' C' new, AC T u m p i (footRow d0 m C) m' d' C' new →
        ∃ D, AC T t m b r (footRow d m R) m' D R
          ((seeRow d m R).set k (.kids (rows.set i new))) := by
  obtain ⟨d0, C, rows, h1, h2, h3, h4, h5, h6, h7, lift⟩ := good_child h.good hk hf hu hi
  refine ⟨d0, C, rows, h1, h2, h3, h4, h5, h6, h7, fun m' d' C' new ch => ?_⟩
  obtain ⟨D, c2⟩ := lift m' d' C' new ch
  refine ⟨D, ⟨c2.grow, fun p hp hF hX => c2.frame p hp hF (by simp), c2.wf, c2.nodup, c2.lt, c2.sub,
    c2.see⟩, ?_⟩
  intro blkb hb
  obtain ⟨blk1, b1, b2⟩ := h.blk
  obtain rfl : blk1 = blkb := by rw [b1] at hb; exact Option.some.inj hb
  rw [c2.frame b h.lt h.out (by simp), b1]
  congr 1
  obtain ⟨A, B, rfl, rfl⟩ := split_at b2
  simp

/-! ## Blank rows -/

theorem zero_foot (d : Nat) (m : MMem V) (f : MField) : foot d m f.zero = [] := by
  cases d <;> cases f <;> simp [foot, MField.zero]

theorem zero_see (d : Nat) (m : MMem V) (f : MField) : see (d + 1) m f.zero = blankField f := by
  cases f <;> simp [see, MField.zero, blankField]

theorem zero_wf (T : MTypes) (d : Nat) (m : MMem V) (f : MField) : wf T (d + 1) m f f.zero := by
  cases f <;> simp [wf, MField.zero, kid]

theorem zeroRow_foot (T : MTypes) (d t : Nat) (m : MMem V) : footRow d m (zeroRow T t) = [] := by
  simp [footRow, zeroRow, List.flatMap_map, zero_foot]

theorem zeroRow_see (T : MTypes) (d t : Nat) (m : MMem V) :
    seeRow (d + 1) m (zeroRow T t) = blank T t := by
  simp [seeRow, zeroRow, blank, zero_see]

theorem rowAll_zero (T : MTypes) (d : Nat) (m : MMem V) : ∀ ts : List MField,
    RowAll (wf T (d + 1) m) ts (ts.map MField.zero)
  | [] => trivial
  | f :: ts => ⟨zero_wf T d m f, rowAll_zero T d m ts⟩

theorem zeroRow_wf (T : MTypes) (d t : Nat) (m : MMem V) :
    RowAll (wf T (d + 1) m) (T t) (zeroRow T t) := rowAll_zero T d m _

/-! ## Slots -/

/-- A slot whose block is the old one or a new one, with some of the old messages and blank ones. -/
theorem slot_new {T : MTypes} {m m' : MMem V} {d p c n p' c' n' j z u : Nat} {f : MField}
    {blk' : List (MRow V)} (hw : wf T (d + 1) m f (.kids p c n)) (hu : kid f = some u)
    (hn : (foot (d + 1) m (.kids p c n)).Nodup)
    (hl : ∀ x ∈ foot (d + 1) m (.kids p c n), x < m.length)
    (hg : m.length ≤ m'.length)
    (hfr : ∀ x < m.length, (c ≠ 0 → x ≠ p) → m'[x]? = m[x]?)
    (hp : (p' = p ∧ c ≠ 0) ∨ m.length ≤ p')
    (hb' : m'[p']? = some blk') (hc' : blk'.length = c') (h0 : c' ≠ 0) (hn' : n' ≤ c')
    (h1 : ∀ t, f = .one t → n' ≤ 1)
    (hrows : blk'.take n' = ((m[p]?.getD []).take n).take j ++ List.replicate z (zeroRow T u)) :
    VC T [f] [] m (foot (d + 1) m (.kids p c n)) m' (d + 2) [.kids p' c' n']
      [.kids ((((m[p]?.getD []).take n).take j).map (seeRow d m) ++
        List.replicate z (blank T u))] := by
  obtain ⟨t, k1, k2, k3, k4⟩ := hw
  obtain rfl : u = t := by rw [hu] at k1; exact Option.some.inj k1
  generalize hL : ((m[p]?.getD []).take n).take j = L at hrows ⊢
  -- the old rows
  have hLmem : ∀ R ∈ L, c ≠ 0 ∧ R ∈ (m[p]?.getD []).take n := by
    intro R hR
    rw [← hL] at hR
    have h := List.mem_of_mem_take hR
    refine ⟨fun h0 => ?_, h⟩
    obtain rfl : n = 0 := by omega
    simp at h
  have hLwf : ∀ R ∈ L, RowAll (wf T d m) (T u) R ∧ ∀ x ∈ footRow d m R,
      x ∈ foot (d + 1) m (.kids p c n) ∧ x ≠ p := by
    intro R hR
    obtain ⟨hc, hm⟩ := hLmem R hR
    obtain ⟨blk, g1, g2, g3⟩ := k4 hc
    have hF : foot (d + 1) m (.kids p c n) = p :: (blk.take n).flatMap (footRow d m) := by
      rw [foot, if_neg hc, g1, Option.getD_some]; rfl
    rw [g1, Option.getD_some] at hm
    refine ⟨g3 R hm, fun x hx => ?_⟩
    have hx' : x ∈ (blk.take n).flatMap (footRow d m) := List.mem_flatMap.mpr ⟨R, hm, hx⟩
    refine ⟨by rw [hF]; exact List.mem_cons_of_mem _ hx', ?_⟩
    rw [hF, List.nodup_cons] at hn
    rintro rfl
    exact hn.1 hx'
  have hLn : (L.flatMap (footRow d m)).Nodup := by
    by_cases hc : c = 0
    · have : L = [] := by
        cases hLe : L with
        | nil => rfl
        | cons R _ => exact absurd hc (hLmem R (by simp [hLe])).1
      simp [this]
    · have hF : foot (d + 1) m (.kids p c n) =
          p :: ((m[p]?.getD []).take n).flatMap (footRow d m) := by
        rw [foot, if_neg hc]; rfl
      rw [hF, List.nodup_cons] at hn
      refine List.Nodup.sublist ?_ hn.2
      rw [← hL]
      conv => rhs; rw [← List.take_append_drop j ((m[p]?.getD []).take n), List.flatMap_append]
      exact List.sublist_append_left _ _
  have hrow : ∀ R ∈ L, RowAll (wf T (d + 1) m') (T u) R ∧ seeRow (d + 1) m' R = seeRow d m R ∧
      footRow (d + 1) m' R = footRow d m R := by
    intro R hR
    obtain ⟨w, hx⟩ := hLwf R hR
    obtain ⟨w1, w2, w3⟩ := row_frame (m' := m') w fun x hxm =>
      hfr x (hl x (hx x hxm).1) fun _ => (hx x hxm).2
    obtain ⟨v1, v2, v3⟩ := row_mono w1 (Nat.le_succ d)
    exact ⟨v1, v2.trans w2, v3.trans w3⟩
  have hfz : ∀ z, (List.replicate z (zeroRow T u)).flatMap (footRow (d + 1) m') = [] := by
    intro z
    rw [List.flatMap_eq_nil_iff]
    intro R hR
    rw [List.eq_of_mem_replicate hR, zeroRow_foot]
  have hF' : footRow (d + 2) m' [.kids p' c' n'] = p' :: L.flatMap (footRow d m) := by
    rw [footRow_one, foot, if_neg h0, hb', Option.getD_some, hrows]
    have : (L ++ List.replicate z (zeroRow T u)).flatMap (footRow (d + 1) m') =
        L.flatMap (footRow d m) := by
      rw [List.flatMap_append, hfz, List.append_nil]
      exact flatMap_cong fun R hR => (hrow R hR).2.2
    exact congrArg (p' :: ·) this
  have hpF : p' ∉ L.flatMap (footRow d m) := by
    intro hx
    obtain ⟨R, hR, hx⟩ := List.mem_flatMap.mp hx
    obtain ⟨w, hxm⟩ := hLwf R hR
    rcases hp with ⟨rfl, _⟩ | hp
    · exact (hxm p' hx).2 rfl
    · have := hl p' (hxm p' hx).1; omega
  refine ⟨hg, ?_, ⟨⟨u, k1, fun h => h1 u h, hn', fun _ => ⟨blk', hb', hc', ?_⟩⟩, trivial⟩, ?_, ?_, ?_, ?_⟩
  · intro x hx hxF _
    refine hfr x hx fun hc hxp => hxF ?_
    rw [foot, if_neg hc, hxp]; simp
  · intro R hR
    rw [hrows] at hR
    rcases List.mem_append.mp hR with hR | hR
    · exact (hrow R hR).1
    · rw [List.eq_of_mem_replicate hR]; exact zeroRow_wf T d u m'
  · rw [hF', List.nodup_cons]
    exact ⟨hpF, hLn⟩
  · rw [hF']
    intro x hx
    rcases List.mem_cons.mp hx with rfl | hx
    · exact (List.getElem?_eq_some_iff.mp hb').1
    · obtain ⟨R, hR, hx⟩ := List.mem_flatMap.mp hx
      have := hl x ((hLwf R hR).2 x hx).1
      omega
  · rw [hF']
    intro x hx
    rcases List.mem_cons.mp hx with rfl | hx
    · rcases hp with ⟨rfl, hc⟩ | hp
      · left; rw [foot, if_neg hc]; simp
      · exact .inr hp
    · obtain ⟨R, hR, hx⟩ := List.mem_flatMap.mp hx
      exact .inl ((hLwf R hR).2 x hx).1
  · show [MTree.kids (((m'[p']?.getD []).take n').map (seeRow (d + 1) m'))] = _
    rw [hb', Option.getD_some, hrows, List.map_append]
    congr 3
    · exact map_cong fun R hR => (hrow R hR).2.1
    · rw [List.map_replicate, zeroRow_see]

/-- A slot whose memory is as it should be. -/
structure SlotOk (T : MTypes) (m : MMem V) (d : Nat) (f : MField) (s : MSlot V) : Prop where
  wf : MsgMem.wf T d m f s
  nodup : (foot d m s).Nodup
  lt : ∀ x ∈ foot d m s, x < m.length

theorem Good.slot {T : MTypes} {ts : List MField} {m : MMem V} {d k : Nat} {R : MRow V}
    {s : MSlot V} {f : MField} (g : Good T ts m d R) (hk : R[k]? = some s) (hf : ts[k]? = some f) :
    SlotOk T m d f s := by
  obtain ⟨TA, A, TB, B, e1, e2, e3, hA, hs, hB⟩ := rowAll_split g.wf hf hk
  refine ⟨hs, ?_, fun x hx => g.lt x ?_⟩
  · have := g.nodup
    rw [e2, footRow_append] at this
    simp only [List.nodup_append] at this
    exact this.1.2.1
  · rw [e2, footRow_append]; simp [hx]

/-- Nothing changes. -/
theorem slot_refl {T : MTypes} {m : MMem V} {d : Nat} {f : MField} {s : MSlot V}
    (h : SlotOk T m d f s) : VC T [f] [] m (foot d m s) m d [s] [see d m s] := by
  refine ⟨Nat.le_refl _, fun _ _ _ _ => rfl, ⟨h.wf, trivial⟩, ?_, ?_, ?_, rfl⟩ <;> rw [footRow_one]
  · exact h.nodup
  · exact h.lt
  · exact fun x hx => .inl hx

theorem kids_of {T : MTypes} {m : MMem V} {d u : Nat} {f : MField} {s : MSlot V}
    (h : wf T d m f s) (hu : kid f = some u) :
    ∃ d0 p c n, d = d0 + 1 ∧ s = .kids p c n := by
  obtain _ | d := d
  · exact h.elim
  cases s with
  | val v => rw [show f = .val from h] at hu; simp [kid] at hu
  | kids p c n => exact ⟨d, p, c, n, rfl, rfl⟩

theorem see_kids {m : MMem V} {d p c n : Nat} :
    see (d + 1) m (.kids p c n) = .kids (((m[p]?.getD []).take n).map (seeRow d m)) := rfl

theorem clear_vc {T : MTypes} {m : MMem V} {d u : Nat} {f : MField} {s : MSlot V}
    (h : SlotOk T m d f s) (hu : kid f = some u) :
    ∃ m' s' d', clear m s = .ok (m', s') ∧
      VC T [f] [] m (foot d m s) m' d' [s'] [.kids []] := by
  obtain ⟨d, p, c, n, rfl, rfl⟩ := kids_of h.wf hu
  refine ⟨m, .kids p c 0, ?_⟩
  by_cases hc : c = 0
  · subst hc
    refine ⟨d + 1, rfl, ?_⟩
    refine ⟨Nat.le_refl _, fun _ _ _ _ => rfl, ⟨⟨u, hu, fun _ => by omega, by omega, fun h =>
      absurd rfl h⟩, trivial⟩, ?_, ?_, ?_, ?_⟩
    · simp [footRow_one, foot]
    · simp [footRow_one, foot]
    · simp [footRow_one, foot]
    · simp [seeRow, see]
  · obtain ⟨t, h1, h2, h3, h4⟩ := id h.wf
    obtain ⟨blk, g1, g2, g3⟩ := h4 hc
    refine ⟨d + 2, rfl, ?_⟩
    have := slot_new (j := 0) (z := 0) (m' := m) (p' := p) (n' := 0) (c' := c) (blk' := blk) h.wf hu
      h.nodup h.lt (Nat.le_refl _) (fun _ _ _ => rfl) (.inl ⟨rfl, hc⟩) g1 g2 hc (by omega)
      (fun _ _ => by omega) (by simp)
    simpa using this

theorem emplace_vc {T : MTypes} {m : MMem V} {d u : Nat} {s : MSlot V}
    (h : SlotOk T m d (.one u) s) :
    ∃ m' s' d' q c, emplace T u m s = .ok (m', s') ∧ s' = .kids q c 1 ∧
      VC T [.one u] [] m (foot d m s) m' d' [s'] [.kids [blank T u]] := by
  obtain ⟨d, p, c, n, rfl, rfl⟩ := kids_of h.wf (u := u) rfl
  by_cases hn : n = 0
  · subst hn
    refine ⟨m ++ [[zeroRow T u]], .kids m.length 1 1, d + 2, m.length, 1,
      by simp [emplace, MSlot.get, bind, Res.bind], rfl, ?_⟩
    have := slot_new (j := 0) (z := 1) (m' := m ++ [[zeroRow T u]]) (p' := m.length) (n' := 1)
      (c' := 1) (u := u) (blk' := [zeroRow T u]) h.wf rfl h.nodup h.lt (by simp)
      (fun x hx _ => by simp [List.getElem?_append, hx]) (.inr (Nat.le_refl _)) (by simp) rfl
      (by omega) (by omega) (fun _ _ => by omega) (by simp)
    simpa using this
  · obtain ⟨t, h1, h2, h3, h4⟩ := id h.wf
    obtain rfl : u = t := by simpa [kid] using h1
    have hn1 : n = 1 := by have := h2 rfl; omega
    subst hn1
    have hc : c ≠ 0 := by omega
    obtain ⟨blk, g1, g2, g3⟩ := h4 hc
    have hpl := (List.getElem?_eq_some_iff.mp g1).1
    refine ⟨m.set p (blk.set 0 (zeroRow T u)), .kids p c 1, d + 2, p, c, ?_, rfl, ?_⟩
    · have : 0 < blk.length := by omega
      simp [emplace, MSlot.get, bind, Res.bind, setRow, g1, this]
    · have := slot_new (j := 0) (z := 1) (m' := m.set p (blk.set 0 (zeroRow T u))) (p' := p)
        (n' := 1) (c' := c) (u := u) (blk' := blk.set 0 (zeroRow T u)) h.wf rfl h.nodup h.lt (by simp)
        (fun x hx hne => by
          have := hne hc
          rw [List.getElem?_set, if_neg (by omega)]) (.inl ⟨rfl, hc⟩) (by simp [hpl])
        (by simpa using g2) hc h3 (fun _ _ => by omega)
        (by
          cases blk with
          | nil => simp at g2; omega
          | cons x l => simp)
      simpa using this

theorem reserve_run {T : MTypes} {m : MMem V} {d u n : Nat} {f : MField} {p c sz : Nat}
    (h : SlotOk T m (d + 1) f (.kids p c sz)) (hu : kid f = some u) (hlt : c < n) :
    reserve T u n m (.kids p c sz) =
      .ok (m ++ [(m[p]?.getD []).take sz ++ List.replicate (n - sz) (zeroRow T u)],
        .kids m.length n sz) ∧ ((m[p]?.getD []).take sz).length = sz := by
  obtain ⟨t, h1, h2, h3, h4⟩ := h.wf
  by_cases hz : sz = 0
  · subst hz
    simp [reserve, MSlot.get, bind, Res.bind, hlt]
  · obtain ⟨blk, g1, g2, g3⟩ := h4 (by omega)
    have : sz ≤ blk.length := by omega
    simp [reserve, MSlot.get, bind, Res.bind, hlt, hz, g1, this]

theorem reserve_vc {T : MTypes} {m : MMem V} {d u n : Nat} {s : MSlot V}
    (h : SlotOk T m d (.many u) s) :
    ∃ m' s' d', reserve T u n m s = .ok (m', s') ∧
      VC T [.many u] [] m (foot d m s) m' d' [s'] [see d m s] := by
  obtain ⟨d, p, c, sz, rfl, rfl⟩ := kids_of h.wf (u := u) rfl
  by_cases hlt : c < n
  · obtain ⟨e1, e2⟩ := reserve_run h rfl hlt
    obtain ⟨t, h1, h2, h3, h4⟩ := id h.wf
    refine ⟨_, _, d + 2, e1, ?_⟩
    have := slot_new (j := sz) (z := 0)
      (m' := m ++ [(m[p]?.getD []).take sz ++ List.replicate (n - sz) (zeroRow T u)])
      (p' := m.length) (n' := sz) (c' := n) (u := u)
      (blk' := (m[p]?.getD []).take sz ++ List.replicate (n - sz) (zeroRow T u)) h.wf rfl h.nodup h.lt
      (by simp) (fun x hx _ => by simp [List.getElem?_append, hx]) (.inr (Nat.le_refl _)) (by simp)
      (by rw [List.length_append, e2, List.length_replicate]; omega) (by omega) (by omega) (fun _ h => by simp at h)
      (by rw [List.take_append_of_le_length (by omega)]; simp [take_self])
    simpa [see_kids, take_self] using this
  · refine ⟨m, _, d + 1, ?_, slot_refl h⟩
    simp [reserve, MSlot.get, bind, Res.bind, hlt]

theorem resize_vc {T : MTypes} {m : MMem V} {d u n : Nat} {s : MSlot V} {rows}
    (h : SlotOk T m d (.many u) s) (hr : see d m s = .kids rows) :
    ∃ m' s' d' q c, resize T u n m s = .ok (m', s') ∧ s' = .kids q c n ∧
      VC T [.many u] [] m (foot d m s) m' d' [s'] [.kids (MsgSpec.sized T u n rows)] := by
  obtain ⟨d, p, c, sz, rfl, rfl⟩ := kids_of h.wf (u := u) rfl
  obtain ⟨t, h1, h2, h3, h4⟩ := id h.wf
  obtain rfl : ((m[p]?.getD []).take sz).map (seeRow d m) = rows := by
    rw [see_kids] at hr; exact MTree.kids.inj hr
  have hlen : ((m[p]?.getD []).take sz).length = sz := by
    by_cases hz : sz = 0
    · simp [hz]
    · obtain ⟨blk, g1, g2, g3⟩ := h4 (by omega)
      simp [g1]; omega
  by_cases hlt : c < n
  · obtain ⟨e1, e2⟩ := reserve_run h rfl hlt
    let new := (m[p]?.getD []).take sz ++ List.replicate (n - sz) (zeroRow T u)
    have hnl : new.length = n := by simp only [new, List.length_append, e2, List.length_replicate]; omega
    have ht : new.take sz ++ List.replicate (n - sz) (zeroRow T u) ++ new.drop n = new := by
      rw [List.drop_eq_nil_of_le (by omega), List.append_nil]
      simp only [new]
      rw [List.take_append_of_le_length (by omega), take_self]
    have hset : (m ++ [new]).set m.length new = m ++ [new] := by simp
    refine ⟨m ++ [new], .kids m.length n n, d + 2, m.length, n, ?_, rfl, ?_⟩
    · have hsz : sz < n := by omega
      simp only [resize, bind, Res.bind, MSlot.get, e1, hsz, if_true]
      rw [show (m ++ [new])[m.length]? = some new by simp]
      simp only [hnl, Nat.le_refl, if_true, ht]
      exact congrArg (fun x => Res.ok (x, MSlot.kids m.length n n)) hset
    · have := slot_new (j := sz) (z := n - sz) (m' := m ++ [new])
        (p' := m.length) (n' := n) (c' := n) (u := u) (blk' := new) h.wf rfl h.nodup h.lt
        (by simp) (fun x hx _ => by simp [List.getElem?_append, hx]) (.inr (Nat.le_refl _)) (by simp)
        hnl (by omega) (by omega) (fun _ h => by simp at h)
        (by rw [List.take_of_length_le (by omega)]; simp only [new, take_self])
      have hs : MsgSpec.sized T u n (((m[p]?.getD []).take sz).map (seeRow d m)) =
          ((m[p]?.getD []).take sz).map (seeRow d m) ++ List.replicate (n - sz) (blank T u) := by
        rw [MsgSpec.sized, List.length_map, hlen, List.take_of_length_le (by rw [List.length_map]; omega)]
      rw [hs]
      simpa [take_self] using this
  · have hres : reserve T u n m (.kids p c sz) = .ok (m, .kids p c sz) := by
      simp [reserve, MSlot.get, bind, Res.bind, hlt]
    by_cases hsz : sz < n
    · obtain ⟨blk, g1, g2, g3⟩ := h4 (by omega)
      have hnl : n ≤ blk.length := by omega
      have hpl := (List.getElem?_eq_some_iff.mp g1).1
      refine ⟨m.set p (blk.take sz ++ List.replicate (n - sz) (zeroRow T u) ++ blk.drop n),
        .kids p c n, d + 2, p, c, ?_, rfl, ?_⟩
      · simp only [resize, bind, Res.bind, MSlot.get, hres, hsz, if_true, g1, hnl]
      · have := slot_new (j := sz) (z := n - sz)
          (m' := m.set p (blk.take sz ++ List.replicate (n - sz) (zeroRow T u) ++ blk.drop n))
          (p' := p) (n' := n) (c' := c) (u := u)
          (blk' := blk.take sz ++ List.replicate (n - sz) (zeroRow T u) ++ blk.drop n) h.wf rfl h.nodup
          h.lt (by simp) (fun x hx hne => by
            have := hne (by omega)
            rw [List.getElem?_set, if_neg (by omega)]) (.inl ⟨rfl, by omega⟩) (by simp [hpl])
          (by simp; omega) (by omega) (by omega) (fun _ h => by simp at h)
          (by
            rw [g1, Option.getD_some] at hlen
            rw [List.take_append_of_le_length (by simp; omega),
              List.take_of_length_le (by simp; omega), g1, Option.getD_some, take_self])
        have hs : MsgSpec.sized T u n (((m[p]?.getD []).take sz).map (seeRow d m)) =
            ((m[p]?.getD []).take sz).map (seeRow d m) ++ List.replicate (n - sz) (blank T u) := by
          rw [MsgSpec.sized, List.length_map, hlen, List.take_of_length_le (by rw [List.length_map]; omega)]
        rw [hs]
        simpa [take_self] using this
    · refine ⟨m, .kids p c n, ?_⟩
      have hs : MsgSpec.sized T u n (((m[p]?.getD []).take sz).map (seeRow d m)) =
          (((m[p]?.getD []).take sz).take n).map (seeRow d m) := by
        rw [MsgSpec.sized, List.length_map, hlen, show n - sz = 0 by omega, ← List.map_take]; simp
      have hrun : resize T u n m (.kids p c sz) = .ok (m, .kids p c n) := by
        simp only [resize, bind, Res.bind, MSlot.get, hres, hsz, if_false]
      by_cases hc : c = 0
      · obtain rfl : n = 0 := by omega
        obtain ⟨m', s', d', hr1, hr2⟩ := clear_vc h (u := u) rfl
        obtain ⟨rfl, rfl⟩ : m = m' ∧ MSlot.kids p c 0 = s' := by
          have : clear m (MSlot.kids (V := V) p c sz) = .ok (m, .kids p c 0) := rfl
          rw [this] at hr1
          simpa using hr1
        refine ⟨d', p, c, hrun, rfl, ?_⟩
        rw [hs]; simpa using hr2
      · obtain ⟨blk, g1, g2, g3⟩ := h4 hc
        refine ⟨d + 2, p, c, hrun, rfl, ?_⟩
        have := slot_new (j := n) (z := 0) (m' := m) (p' := p) (n' := n) (c' := c) (u := u)
          (blk' := blk) h.wf rfl h.nodup
          h.lt (by simp) (fun x hx hne => rfl) (.inl ⟨rfl, by omega⟩) g1 g2 (by omega) (by omega)
          (fun _ h => by simp at h)
          (by rw [g1, Option.getD_some, List.take_take, Nat.min_eq_left (by omega)]; simp)
        rw [hs]
        simpa using this

theorem setVal_vc {T : MTypes} {m : MMem V} {d : Nat} (F : List Nat) (v : V) :
    VC T [.val] [] m F m (d + 1) [.val v] [.val v] := by
  refine ⟨Nat.le_refl _, fun _ _ _ _ => rfl, ⟨rfl, trivial⟩, ?_, ?_, ?_, rfl⟩ <;>
    simp [footRow_one, foot]

end HppProto.MsgMem
