import Verif.Proofs.MessageMemoryOps

/-!
# The memory of nested messages: copying between separate messages
-/

namespace HppProto.MsgMem

open MsgSpec (MTree blank blankField)
open MsgSpec.MField (kid)

variable {V : Type} [Inhabited V]

/-- The row at `(b, r)` with footprint `F` and the row at `(sb, sr)` with footprint `G` have nothing in
common. -/
structure Sep (b r : Nat) (F : List Nat) (sb sr : Nat) (G : List Nat) : Prop where
  ne : ¬ (b = sb ∧ r = sr)
  dst : b ∉ G
  src : sb ∉ F
  disj : ∀ x ∈ F, x ∉ G

/-- A change of the destination does not change the source. -/
theorem src_keep {T : MTypes} {t u b r sb sr e d' : Nat} {m m' : MMem V} {F : List Nat}
    {S R' : MRow V} {new} (hb : ∃ blk, m[b]? = some blk) (hs : At T u m sb sr e S)
    (sp : Sep b r F sb sr (footRow e m S))
    (c : AC T t m b r F m' d' R' new) :
    At T u m' sb sr e S ∧ footRow e m' S = footRow e m S ∧ seeRow e m' S = seeRow e m S ∧
      Sep b r (footRow d' m' R') sb sr (footRow e m' S) := by
  obtain ⟨blk, h1⟩ := hb
  have hbl := (List.getElem?_eq_some_iff.mp h1).1
  obtain ⟨sblk, g1, g2⟩ := hs.blk
  obtain ⟨w1, w2, w3⟩ := row_frame (m' := m') hs.good.wf fun p hp =>
    c.vc.frame p (hs.good.lt p hp) (fun h => sp.disj p h hp) (by
      simp only [List.mem_singleton]; rintro rfl; exact sp.dst hp)
  have hblk : ∃ blk', m'[sb]? = some blk' ∧ blk'[sr]? = some S := by
    by_cases he : sb = b
    · subst he
      obtain rfl : sblk = blk := by rw [g1] at h1; exact Option.some.inj h1
      refine ⟨_, c.blk sblk g1, ?_⟩
      rw [List.getElem?_set, if_neg fun h => sp.ne ⟨rfl, h⟩, g2]
    · refine ⟨sblk, ?_, g2⟩
      rw [c.vc.frame sb hs.lt sp.src (by simp [he]), g1]
  refine ⟨⟨hblk, ⟨w1, by rw [w3]; exact hs.good.nodup, fun x hx => ?_⟩, by rw [w3]; exact hs.out⟩, w3, w2, ?_⟩
  · rw [w3] at hx
    have := hs.good.lt x hx
    have := c.vc.grow
    omega
  · rw [w3]
    refine ⟨sp.ne, sp.dst, fun hx => ?_, fun x hx hxG => ?_⟩
    · rcases c.vc.sub sb hx with h | h
      · exact sp.src h
      · have := hs.lt; omega
    · rcases c.vc.sub x hx with h | h
      · exact sp.disj x h hxG
      · have := hs.good.lt x hxG; omega

/-- What copying messages is expected to do. -/
def SubOk (T : MTypes) (sub : Nat → Nat → Nat → Nat → Nat → MMem V → Res (MMem V)) (e : Nat) : Prop :=
  ∀ t (m : MMem V) b r d R sb sr S, At T t m b r d R → At T t m sb sr e S →
    Sep b r (footRow d m R) sb sr (footRow e m S) →
    ∃ m' d' R', sub t b r sb sr m = .ok m' ∧
      AC T t m b r (footRow d m R) m' d' R' (seeRow e m S)

theorem atSlot_run {b r k : Nat} {f} {m m1 m2 : MMem V} {s s1 : MSlot V}
    (h : getSlot m b r k = .ok s) (hf : f m s = .ok (m1, s1)) (h2 : setSlot m1 b r k s1 = .ok m2) :
    atSlot b r k f m = .ok m2 := by
  simp [atSlot, h, bind, Res.bind, hf, h2]

theorem set_get_self {α} {l : List α} {k : Nat} {x : α} (h : l[k]? = some x) : l.set k x = l := by
  obtain ⟨A, B, rfl, rfl⟩ := split_at h
  simp

theorem take_set_drop {α} {A B : List α} {i : Nat} {x : α} (hx : B[i]? = some x) (hi : i < A.length) :
    (A.set i x).take (i + 1) ++ B.drop (i + 1) = A.take i ++ B.drop i := by
  have hB : i < B.length := (List.getElem?_eq_some_iff.mp hx).1
  have e2 : B.drop i = x :: B.drop (i + 1) := by
    rw [List.drop_eq_getElem_cons hB]
    rw [List.getElem?_eq_getElem hB] at hx
    rw [Option.some.inj hx]
  rw [e2]
  obtain ⟨y, hy⟩ : ∃ y, A[i]? = some y := ⟨_, List.getElem?_eq_getElem hi⟩
  obtain ⟨P, Q, rfl, rfl⟩ := split_at hy
  simp [List.take_append, List.take_of_length_le (Nat.le_succ P.length)]

theorem seeRow_get {d k : Nat} {m : MMem V} {R : MRow V} {s : MSlot V} (h : R[k]? = some s) :
    (seeRow d m R)[k]? = some (see d m s) := by
  rw [seeRow, List.getElem?_map, h]; rfl

theorem mem_foot_row {d k : Nat} {m : MMem V} {R : MRow V} {s : MSlot V} (h : R[k]? = some s) {x : Nat}
    (hx : x ∈ foot d m s) : x ∈ footRow d m R :=
  mem_footRow.mpr ⟨s, List.mem_of_getElem? h, hx⟩

/-- One message of a field into one message of a field. -/
theorem clone_child {T : MTypes} {sub} {t u v b r d sb sr e k ks i is p c n q cq nq : Nat} {m : MMem V}
    {R S : MRow V} {fs fd : MField}
    (hd : At T t m b r d R) (hs : At T v m sb sr (e + 1) S)
    (sp : Sep b r (footRow d m R) sb sr (footRow (e + 1) m S))
    (hk : R[k]? = some (.kids q cq nq)) (hf : (T t)[k]? = some fd) (hu : kid fd = some u)
    (hks : S[ks]? = some (.kids p c n)) (hfs : (T v)[ks]? = some fs) (hus : kid fs = some u)
    (hi : i < nq) (his : is < n) (ih : SubOk T sub e) :
    ∃ m' D rowsD rowsS new, sub u q i p is m = .ok m' ∧
      (seeRow d m R)[k]? = some (.kids rowsD) ∧ rowsD.length = nq ∧
      (seeRow (e + 1) m S)[ks]? = some (.kids rowsS) ∧ rowsS.length = n ∧ rowsS[is]? = some new ∧
      AC T t m b r (footRow d m R) m' D R ((seeRow d m R).set k (.kids (rowsD.set i new))) := by
  obtain ⟨d0, C, rowsD, ed, hC, g1, g2, g3, g4, g5, lift⟩ := ac_child hd hk hf hu hi
  obtain ⟨e0, Cs, rowsS, ee, hCs, k1, k2, k3, k4, k5, _⟩ := ac_child hs hks hfs hus his
  obtain rfl : e = e0 := by omega
  have sp' : Sep q i (footRow d0 m C) p is (footRow e m Cs) := by
    refine ⟨fun h => ?_, fun h => ?_, fun h => ?_, fun x h1 h2 => ?_⟩
    · exact sp.disj q (mem_foot_row hk g4) (h.1 ▸ mem_foot_row hks k4)
    · exact sp.disj q (mem_foot_row hk g4) (mem_foot_row hks (k5 q h))
    · exact sp.disj p (mem_foot_row hk (g5 p h)) (mem_foot_row hks k4)
    · exact sp.disj x (mem_foot_row hk (g5 x h1)) (mem_foot_row hks (k5 x h2))
  obtain ⟨m', d', C', hrun, hac⟩ := ih u m q i d0 C p is Cs hC hCs sp'
  obtain ⟨D, hD⟩ := lift m' d' C' _ hac
  exact ⟨m', D, rowsD, rowsS, _, hrun, g1, g3, k1, k3, k2, hD⟩

theorem elems_ac {T : MTypes} {sub} {t u b r sb sr e k p c q cq n : Nat} {S R : MRow V}
    {rowsS : List (List (MTree V))} (hf : (T t)[k]? = some (.many u))
    (hks : S[k]? = some (.kids p c n)) (hk : R[k]? = some (.kids q cq n))
    (ih : SubOk T sub e) : ∀ (left i : Nat) (m : MMem V) (d : Nat) (rowsD : List (List (MTree V))),
    At T t m b r d R → At T t m sb sr (e + 1) S →
    Sep b r (footRow d m R) sb sr (footRow (e + 1) m S) →
    (seeRow (e + 1) m S)[k]? = some (.kids rowsS) → rowsS.length = n →
    (seeRow d m R)[k]? = some (.kids rowsD) → rowsD.length = n →
    i + left = n →
    ∃ m' d', cloneElems (sub u) b r sb sr k left i m = .ok m' ∧
      AC T t m b r (footRow d m R) m' d' R
        ((seeRow d m R).set k (.kids (rowsD.take i ++ rowsS.drop i)))
  | 0, i, m, d, rowsD, hd, hs, sp, hS, hSl, hD, hDl, hi => by
    refine ⟨m, d, rfl, ?_⟩
    have : rowsD.take i ++ rowsS.drop i = rowsD := by
      rw [List.take_of_length_le (by omega), List.drop_eq_nil_of_le (by omega), List.append_nil]
    rw [this, set_get_self hD]
    exact AC.refl hd
  | left + 1, i, m, d, rowsD, hd, hs, sp, hS, hSl, hD, hDl, hi => by
    have hin : i < n := by omega
    obtain ⟨m1, D, rD, rS, new, h1, h2, h3, h4, h5, h6, ac⟩ :=
      clone_child hd hs sp hk hf (u := u) rfl hks hf rfl hin hin ih
    obtain rfl : rowsD = rD := by rw [hD] at h2; exact MTree.kids.inj (Option.some.inj h2)
    obtain rfl : rowsS = rS := by rw [hS] at h4; exact MTree.kids.inj (Option.some.inj h4)
    have hd1 := ac.at hd
    obtain ⟨hs1, f1, s1, sp1⟩ := src_keep ⟨_, hd.blk.choose_spec.1⟩ hs sp ac
    have hkl : k < (seeRow d m R).length := (List.getElem?_eq_some_iff.mp hD).1
    obtain ⟨m2, d2, hr2, ac2⟩ := elems_ac hf hks hk ih left (i + 1) m1 D (rowsD.set i new) hd1 hs1
      sp1 (by rw [s1]; exact hS) hSl (by rw [ac.vc.see]; simp [hkl]) (by simp [hDl]) (by omega)
    refine ⟨m2, d2, ?_, ?_⟩
    · simp [cloneElems, hd.getSlot hk, hs.getSlot hks, bind, Res.bind, MSlot.get, hin, h1, hr2]
    · have := ac.trans ac2
      rw [ac.vc.see, List.set_set, take_set_drop h6 (by omega)] at this
      exact this

theorem field_ac {T : MTypes} {sub} {t b r d sb sr e k : Nat} {m : MMem V} {R S : MRow V}
    {f : MField} {s : MSlot V} (hd : At T t m b r d R) (hs : At T t m sb sr e S)
    (sp : Sep b r (footRow d m R) sb sr (footRow e m S)) (hf : (T t)[k]? = some f)
    (hks : S[k]? = some s) (ih : ∀ e', e = e' + 1 → SubOk T sub e') :
    ∃ m' d' R', cloneField T sub b r sb sr k f m = .ok m' ∧
      AC T t m b r (footRow d m R) m' d' R' ((seeRow d m R).set k (see e m s)) := by
  obtain ⟨x, hk, hx⟩ := rowAll_get hd.good.wf hf
  have hsw := (hs.good.slot hks hf).wf
  obtain _ | e := e
  · exact hsw.elim
  have ih := ih e rfl
  have hbl : ∃ blk, m[b]? = some blk := ⟨_, hd.blk.choose_spec.1⟩
  cases f with
  | val =>
    cases s with
    | kids p c n => obtain ⟨t, h, _⟩ := hsw; simp [kid] at h
    | val v =>
      obtain ⟨m2, h1, h2, _⟩ := ac_slot hd hk hf (setVal_vc (d := 0) (foot d m x) v)
      refine ⟨m2, _, _, ?_, h2⟩
      simp [cloneField, hs.getSlot hks, bind, Res.bind, h1]
  | one u =>
    obtain ⟨_, p, c, n, _, rfl⟩ := kids_of hsw (u := u) rfl
    by_cases hn : n = 0
    · subst hn
      obtain ⟨m1, s1, d1, h1, h2⟩ := clear_vc (hd.good.slot hk hf) (u := u) rfl
      obtain ⟨m2, h3, h4, _⟩ := ac_slot hd hk hf h2
      refine ⟨m2, _, _, ?_, by simpa [see] using h4⟩
      simp only [cloneField, hs.getSlot hks, bind, Res.bind, MSlot.get, if_true]
      exact atSlot_run (hd.getSlot hk) h1 h3
    · obtain ⟨_, h1, hn1, _, _⟩ := id hsw
      have hn1 : n = 1 := by
        simp [kid] at h1; subst h1
        have := hn1 rfl; omega
      subst hn1
      obtain ⟨m1, s1, d1, q, cq, h1, rfl, h2⟩ := emplace_vc (hd.good.slot hk hf)
      obtain ⟨m2, h3, ac, _⟩ := ac_slot hd hk hf h2
      have hd2 := ac.at hd
      obtain ⟨hs2, f2, s2, sp2⟩ := src_keep hbl hs sp ac
      have hkl := (List.getElem?_eq_some_iff.mp hk).1
      have hk2 : (R.set k (.kids q cq 1))[k]? = some (.kids q cq 1) := by simp [hkl]
      obtain ⟨m3, D, rD, rS, new, g1, g2, g3, g4, g5, g6, ac3⟩ :=
        clone_child hd2 hs2 sp2 hk2 hf (u := u) rfl hks hf rfl (Nat.lt_succ_self 0)
          (Nat.lt_succ_self 0) ih
      refine ⟨m3, D, R.set k (.kids q cq 1), ?_, ?_⟩
      · simp only [cloneField, hs.getSlot hks, bind, Res.bind, MSlot.get, Nat.succ_ne_zero, if_false,
          atSlot_run (hd.getSlot hk) h1 h3, hd2.getSlot hk2, hs2.getSlot hks]
        exact g1
      · have := ac.trans ac3
        rw [ac.vc.see, List.set_set] at this
        have e1 : rD.set 0 new = [new] := by
          match rD, g3 with
          | [x], _ => rfl
        have e2 : rS = [new] := by
          match rS, g5, g6 with
          | [x], _, h => simpa using h
        rw [s2, seeRow_get hks] at g4
        rw [Option.some.inj g4, e2, ← e1]
        exact this
  | many u =>
    obtain ⟨_, p, c, n, _, rfl⟩ := kids_of hsw (u := u) rfl
    obtain ⟨d0, q0, c0, n0, ed, rfl⟩ := kids_of hx (u := u) rfl
    obtain ⟨rows0, er0⟩ : ∃ rows0, see d m (.kids q0 c0 n0) = .kids rows0 := by
      subst ed; exact ⟨_, see_kids⟩
    obtain ⟨m1, s1, d1, q, cq, h1, rfl, h2⟩ := resize_vc (n := n) (hd.good.slot hk hf) er0
    obtain ⟨m2, h3, ac, _⟩ := ac_slot hd hk hf h2
    have hd2 := ac.at hd
    obtain ⟨hs2, f2, s2, sp2⟩ := src_keep hbl hs sp ac
    have hkl := (List.getElem?_eq_some_iff.mp hk).1
    have hk2 : (R.set k (.kids q cq n))[k]? = some (.kids q cq n) := by simp [hkl]
    have hS := seeRow_get (d := e + 1) (m := m2) hks
    rw [see_kids] at hS
    have hlen : ∀ (d : Nat) (m : MMem V) (f : MField) (p c n : Nat), wf T (d + 1) m f (.kids p c n) →
        (((m[p]?.getD []).take n).map (seeRow d m)).length = n := by
      intro d m f p c n hw
      obtain ⟨_, _, _, h3, h4⟩ := hw
      by_cases hz : n = 0
      · simp [hz]
      · obtain ⟨blk, g1, g2, _⟩ := h4 (by omega)
        simp [g1]; omega
    have hD := seeRow_get (d := max d d1) (m := m2) hk2
    have hsz : ∃ d', max d d1 = d' + 1 := ⟨max d d1 - 1, by omega⟩
    obtain ⟨d', ed'⟩ := hsz
    have hw2 := (hd2.good.slot hk2 hf).wf
    rw [ed'] at hw2
    have hD' := hD
    rw [ed', see_kids] at hD'
    obtain ⟨m3, d3, g1, ac3⟩ := elems_ac (sub := sub) hf hks hk2 ih n 0 m2 (max d d1) _ hd2 hs2 sp2 hS
      (hlen _ _ _ _ _ _ (hs2.good.slot hks hf).wf) (by rw [ed']; exact hD')
      (hlen _ _ _ _ _ _ hw2) (by omega)
    refine ⟨m3, d3, R.set k (.kids q cq n), ?_, ?_⟩
    · simp only [cloneField, hs.getSlot hks, bind, Res.bind, MSlot.get,
        atSlot_run (hd.getSlot hk) h1 h3, g1]
    · have := ac.trans ac3
      rw [ac.vc.see, List.set_set, List.take_zero, List.drop_zero, List.nil_append] at this
      rw [s2, seeRow_get hks] at hS
      rw [Option.some.inj hS]
      exact this

theorem fields_ac {T : MTypes} {sub} {t b r sb sr e : Nat} {S : MRow V}
    (ih : ∀ e', e = e' + 1 → SubOk T sub e') : ∀ (fs : List MField) (k : Nat) (m : MMem V) (d : Nat)
    (R : MRow V), (T t).drop k = fs → At T t m b r d R → At T t m sb sr e S →
    Sep b r (footRow d m R) sb sr (footRow e m S) →
    ∃ m' d' R', cloneFields T sub b r sb sr fs k m = .ok m' ∧
      AC T t m b r (footRow d m R) m' d' R' ((seeRow d m R).take k ++ (seeRow e m S).drop k)
  | [], k, m, d, R, hfs, hd, hs, sp => by
    have hl : (T t).length ≤ k := by simpa using hfs
    have l1 := rowAll_length hd.good.wf
    have l2 := rowAll_length hs.good.wf
    refine ⟨m, d, R, rfl, ?_⟩
    rw [List.take_of_length_le (by simp [seeRow]; omega),
      List.drop_eq_nil_of_le (by simp [seeRow]; omega), List.append_nil]
    exact AC.refl hd
  | f :: fs, k, m, d, R, hfs, hd, hs, sp => by
    have hf : (T t)[k]? = some f := by
      have : ((T t).drop k)[0]? = some f := by rw [hfs]; rfl
      simpa using this
    have hfs' : (T t).drop (k + 1) = fs := by
      rw [← List.drop_drop, hfs]; rfl
    obtain ⟨s, hks, _⟩ := rowAll_get hs.good.wf hf
    obtain ⟨x, hk, _⟩ := rowAll_get hd.good.wf hf
    obtain ⟨m1, d1, R1, h1, ac⟩ := field_ac hd hs sp hf hks ih
    have hd1 := ac.at hd
    obtain ⟨hs1, f1, s1, sp1⟩ := src_keep ⟨_, hd.blk.choose_spec.1⟩ hs sp ac
    obtain ⟨m2, d2, R2, h2, ac2⟩ := fields_ac ih fs (k + 1) m1 d1 R1 hfs' hd1 hs1 sp1
    refine ⟨m2, d2, R2, by simp [cloneFields, h1, bind, Res.bind, h2], ?_⟩
    have := ac.trans ac2
    rw [ac.vc.see, s1, take_set_drop (seeRow_get hks)
      (List.getElem?_eq_some_iff.mp (seeRow_get hk)).1] at this
    exact this

/-- Copying a separate message makes the destination equal to it. -/
theorem clone_ok (T : MTypes) : ∀ (e fuel : Nat), e < fuel → SubOk (V := V) T (cloneMsg T fuel) e
  | e, 0, h => absurd h (by omega)
  | e, fuel + 1, h => by
    intro t m b r d R sb sr S hd hs sp
    obtain ⟨m', d', R', h1, h2⟩ := fields_ac (sub := cloneMsg T fuel)
      (fun e' he => clone_ok T e' fuel (by omega)) (T t) 0 m d R rfl hd hs sp
    exact ⟨m', d', R', h1, by simpa using h2⟩

/-- `set` of a message field. -/
theorem setMsg_ac {T : MTypes} {t u b r d sb sr e k fuel : Nat} {m : MMem V} {R S : MRow V}
    {x : MSlot V} (hd : At T t m b r d R) (hs : At T u m sb sr e S) (hf : (T t)[k]? = some (.one u))
    (hk : R[k]? = some x) (sp : Sep b r (foot d m x) sb sr (footRow e m S)) (hfu : e < fuel) :
    ∃ m' d' R', setMsg T fuel u b r k sb sr m = .ok m' ∧
      AC T t m b r (footRow d m R) m' d' R' ((seeRow d m R).set k (.kids [seeRow e m S])) := by
  have hxo := hd.good.slot hk hf
  obtain ⟨d0, p, c, n, ed, rfl⟩ := kids_of hxo.wf (u := u) rfl
  have finish : ∀ (m1 : MMem V) (d1 : Nat) (R1 : MRow V) (q cq : Nat), At T t m1 b r d1 R1 →
      At T u m1 sb sr e S → R1[k]? = some (.kids q cq 1) →
      Sep b r (foot d1 m1 (.kids q cq 1)) sb sr (footRow e m1 S) →
      ∃ m' d', cloneMsg T fuel u q 0 sb sr m1 = .ok m' ∧
        AC T t m1 b r (footRow d1 m1 R1) m' d' R1 ((seeRow d1 m1 R1).set k (.kids [seeRow e m1 S])) := by
    intro m1 d1 R1 q cq hd hs hk sp
    obtain ⟨d0, C, rowsD, ed, hC, g1, g2, g3, g4, g5, lift⟩ := ac_child hd hk hf rfl (Nat.lt_succ_self 0)
    have sp' : Sep q 0 (footRow d0 m1 C) sb sr (footRow e m1 S) :=
      ⟨fun h => sp.src (h.1 ▸ g4), sp.disj q g4, fun h => sp.src (g5 _ h), fun x hx => sp.disj x (g5 x hx)⟩
    obtain ⟨m', d', C', hrun, hac⟩ := clone_ok T e fuel hfu u m1 q 0 d0 C sb sr S hC hs sp'
    obtain ⟨D, hD⟩ := lift m' d' C' _ hac
    refine ⟨m', D, hrun, ?_⟩
    have : rowsD.set 0 (seeRow e m1 S) = [seeRow e m1 S] := by
      match rowsD, g3 with
      | [x], _ => rfl
    rwa [this] at hD
  by_cases hn : n = 0
  · obtain ⟨m1, s1, d1, q, cq, h1, rfl, h2⟩ := emplace_vc hxo
    obtain ⟨m2, h3, ac, fr, sb'⟩ := ac_slot hd hk hf h2
    have hd2 := ac.at hd
    have hkl := (List.getElem?_eq_some_iff.mp hk).1
    have hk2 : (R.set k (.kids q cq 1))[k]? = some (.kids q cq 1) := by simp [hkl]
    -- the source is still there
    obtain ⟨blk, b1, b2⟩ := hd.blk
    obtain ⟨sblk, g1, g2⟩ := hs.blk
    obtain ⟨w1, w2, w3⟩ := row_frame (m' := m2) hs.good.wf fun p hp =>
      fr p (hs.good.lt p hp) (fun h => sp.disj p h hp) (by rintro rfl; exact sp.dst hp)
    have hblk : ∃ blk', m2[sb]? = some blk' ∧ blk'[sr]? = some S := by
      by_cases he : sb = b
      · subst he
        obtain rfl : sblk = blk := by rw [g1] at b1; exact Option.some.inj b1
        refine ⟨_, ac.blk sblk g1, ?_⟩
        rw [List.getElem?_set, if_neg fun h => sp.ne ⟨rfl, h⟩, g2]
      · refine ⟨sblk, ?_, g2⟩
        rw [fr sb hs.lt sp.src he, g1]
    have hs2 : At T u m2 sb sr e S :=
      ⟨hblk, ⟨w1, by rw [w3]; exact hs.good.nodup, fun x hx => by
        rw [w3] at hx
        have := hs.good.lt x hx
        have := ac.vc.grow
        omega⟩, by rw [w3]; exact hs.out⟩
    obtain ⟨m3, d3, h4, ac3⟩ := finish m2 _ _ q cq hd2 hs2 hk2 (by
      rw [w3]
      refine ⟨sp.ne, sp.dst, fun hx => ?_, fun x hx hxG => ?_⟩
      · rcases sb' sb hx with h | h
        · exact sp.src h
        · have := hs.lt; omega
      · rcases sb' x hx with h | h
        · exact sp.disj x h hxG
        · have := hs.good.lt x hxG; omega)
    refine ⟨m3, d3, R.set k (.kids q cq 1), ?_, ?_⟩
    · simp only [setMsg, hd.getSlot hk, bind, Res.bind, MSlot.get, hn, if_true]
      subst hn
      simp only [atSlot_run (hd.getSlot hk) h1 h3, hd2.getSlot hk2]
      exact h4
    · have := ac.trans ac3
      rw [ac.vc.see, List.set_set, w2] at this
      exact this
  · obtain ⟨_, h1, hn1, _, _⟩ : wf T (d0 + 1) m (.one u) (.kids p c n) := ed ▸ hxo.wf
    have hn1 : n = 1 := by
      simp [kid] at h1; subst h1
      have := hn1 rfl; omega
    subst hn1
    obtain ⟨m', d', h2, h3⟩ := finish m d R p c hd hs hk sp
    refine ⟨m', d', R, ?_, h3⟩
    simp only [setMsg, hd.getSlot hk, bind, Res.bind, MSlot.get, Nat.succ_ne_zero, if_false]
    exact h2

end HppProto.MsgMem
