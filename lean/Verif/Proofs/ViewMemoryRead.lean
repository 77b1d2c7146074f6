import Verif.Proofs.ViewMemory

/-!
# Memory of non-owning messages: reading
-/

namespace HppProto.ViewMem

open ViewSpec (VTree blank updU updAll updElems plainU plainAll plainElems)

variable {V : Type} [Inhabited V] [DecidableEq V]

theorem get_new {h : VHeap V} {x : VBlock V} : (h ++ [x])[h.length]? = some x := by simp

theorem rows_of_same {A B : List (VRow V)} {z R : VRow V} {rs : List (VRow V)}
    (hl : rs.length = (A ++ z :: B).length) (hs : ∀ i, i ≠ A.length → rs[i]? = (A ++ z :: B)[i]?)
    (hr : rs[A.length]? = some R) : rs = A ++ R :: B := by
  apply List.ext_getElem?
  intro i
  by_cases hi : i = A.length
  · subst hi
    rw [hr, List.getElem?_append_right (Nat.le_refl _)]; simp
  · rw [hs i hi]
    by_cases h1 : i < A.length
    · rw [List.getElem?_append_left h1, List.getElem?_append_left h1]
    · rw [List.getElem?_append_right (by omega), List.getElem?_append_right (by omega)]
      obtain ⟨j, hj⟩ : ∃ j, i - A.length = j + 1 := ⟨i - A.length - 1, by omega⟩
      rw [hj]; simp

theorem updElems_length (T : VTypes) (inp : List V) : ∀ (uss : List (List (VUpd V))) (t : Nat)
    {new : List (List (VTree V))} {ok : Bool}, updElems T inp uss t = some (new, ok) →
    new.length = uss.length
  | [], t, new, ok, hu => by
    obtain ⟨rfl, _⟩ : [] = new ∧ true = ok := by simpa [updElems] using hu
    rfl
  | us :: uss, t, new, ok, hu => by
    simp only [updElems] at hu
    split at hu
    · split at hu
      · next ds ok' hds =>
        obtain ⟨rfl, _⟩ := Prod.mk.inj (Option.some.inj hu)
        simp [updElems_length T inp uss t hds]
      · cases hu
    · obtain ⟨rfl, _⟩ := Prod.mk.inj (Option.some.inj hu)
      simp
    · cases hu

mutual
theorem applyU_ok (T : VTypes) (inp : Nat) (inp' : List V) : ∀ (u : VUpd V) (t b r : Nat) (mat : Bool)
    {h : VHeap V} {rs : List (VRow V)} {R : VRow V} {c : List (VTree V)} {F : List Nat}
    {c' : List (VTree V)} {ok : Bool}, plainU u = true → Own h b r rs R c F →
    updU T inp' u t c = some (c', ok) →
    ∃ h' rs' R' F', applyU T inp u t b r mat h = .ok (h', ok) ∧ Own h' b r rs' R' c' F' ∧
      Chg h b r rs F h' rs' F'
  | .val k v, t, b, r, mat, h, rs, R, c, F, c', ok, _, o, hu => by
    simp only [updU] at hu
    split at hu
    · next v0 hk =>
      obtain ⟨rfl, rfl⟩ : c.set k (.val v) = c' ∧ true = ok := by simpa using hu
      obtain ⟨s, FA, Fs, FB, e1, e2, _, _⟩ := o.is.zip hk
      cases e2
      obtain ⟨h', rs', R', F', p1, p2, p3⟩ := o.put (X := []) hk (s' := .val v) (Fs' := []) (by simp)
        (by simp) (.val v)
      refine ⟨h', rs', R', F', ?_, p2, p3⟩
      rw [List.append_nil] at p1
      simp only [applyU, bind, Res.bind, getSlot_eq o.blk o.row e1, p1]
    · cases hu
  | .str k vs, t, b, r, mat, h, rs, R, c, F, c', ok, _, o, hu => by
    simp only [updU] at hu
    split at hu
    · next v0 hk =>
      obtain ⟨rfl, rfl⟩ : c.set k (.vals vs) = c' ∧ true = ok := by simpa using hu
      obtain ⟨s, FA, Fs, FB, e1, e2, _, _⟩ := o.is.zip hk
      obtain ⟨b0, off, n, rfl, _, _⟩ := vals_read e2
      by_cases hv : vs = []
      · subst hv
        obtain ⟨h', rs', R', F', p1, p2, p3⟩ := o.put (X := []) hk (s' := .vals 0 0 0) (Fs' := [])
          (by simp) (by simp) (.vals0 0 0)
        refine ⟨h', rs', R', F', ?_, p2, p3⟩
        rw [List.append_nil] at p1
        simp only [applyU, bind, Res.bind, getSlot_eq o.blk o.row e1, p1, if_true]
      · have hs : SlotIs (h ++ [.vals vs]) (.vals h.length 0 vs.length) (.vals vs) [h.length] := by
          have := SlotIs.vals (h := h ++ [.vals vs]) (b := h.length) (off := 0) (n := vs.length) get_new
            (by omega)
          simpa using this
        obtain ⟨h', rs', R', F', p1, p2, p3⟩ := o.put hk (by simp) (by simp) hs
        refine ⟨h', rs', R', F', ?_, p2, p3⟩
        simp only [applyU, bind, Res.bind, getSlot_eq o.blk o.row e1, hv, if_false, p1]
    · cases hu
  | .app k vs, t, b, r, mat, h, rs, R, c, F, c', ok, _, o, hu => by
    simp only [updU] at hu
    split at hu
    · next old hk =>
      obtain ⟨rfl, rfl⟩ : c.set k (.vals (old ++ vs)) = c' ∧ true = ok := by simpa using hu
      obtain ⟨s, FA, Fs, FB, e1, e2, _, _⟩ := o.is.zip hk
      obtain ⟨b0, off, n, rfl, e5, e6⟩ := vals_read e2
      by_cases hv : vs = []
      · subst hv
        refine ⟨h, rs, R, F, ?_, ?_, Chg.refl h b r rs F⟩
        · simp only [applyU, bind, Res.bind, getSlot_eq o.blk o.row e1, if_true]
        · rw [List.append_nil, set_self hk]; exact o
      · have hs : SlotIs (h ++ [.vals (old ++ vs)]) (.vals h.length 0 (n + vs.length)) (.vals (old ++ vs))
            [h.length] := by
          have := SlotIs.vals (h := h ++ [.vals (old ++ vs)]) (b := h.length) (off := 0)
            (n := (old ++ vs).length) get_new (by omega)
          rw [List.drop_zero, List.take_of_length_le (Nat.le_refl _), List.length_append, e6] at this
          exact this
        obtain ⟨h', rs', R', F', p1, p2, p3⟩ := o.put hk (by simp) (by simp) hs
        refine ⟨h', rs', R', F', ?_, p2, p3⟩
        simp only [applyU, bind, Res.bind, getSlot_eq o.blk o.row e1, hv, if_false, e5, p1]
    · cases hu
  | .sub k us, t, b, r, mat, h, rs, R, c, F, c', ok, hp, o, hu => by
    have hp' : plainAll us = true := by simpa [plainU] using hp
    simp only [updU] at hu
    split at hu
    · next u d hT hk =>
      split at hu
      · next d' ok' hd =>
        obtain ⟨rfl, rfl⟩ : c.set k (.ptr (some d')) = c' ∧ ok' = ok := by simpa using hu
        obtain ⟨s, FA, Fs, FB, e1, e2, e3, e4⟩ := o.is.zip hk
        cases e2 with
        | @ptr p R2 _ G q1 q2 =>
          have hnd : (p :: G).Nodup := by
            have := o.nodup
            rw [e3] at this
            simp only [List.nodup_append] at this
            exact this.1.2.1
          obtain ⟨n1, n2⟩ := List.nodup_cons.mp hnd
          have o2 : Own h p 0 [R2] R2 d G := ⟨q1, rfl, q2, n2, n1⟩
          obtain ⟨h', rs', R', G', p1, p2, p3⟩ := applyAll_ok T inp inp' us u p 0 false hp' o2 hd
          have hbp : b ≠ p := by
            rintro rfl
            exact o.out (by rw [e3]; simp)
          have hbG : b ∉ G := fun hx => o.out (by rw [e3]; simp [hx])
          have hRs : rs' = [R'] := by
            have h1 := p3.rlen
            have h2 := p2.row
            match rs', h1, h2 with
            | [x], _, h2 => simpa using h2
          have hset : R.set k (.ptr (some p)) = R := set_self e1
          have hsetr : rs.set r R = rs := set_self o.row
          obtain ⟨r1, r2⟩ := o.close (h' := h') (s' := .ptr (some p)) (t' := .ptr (some d')) e3 (e4 h' _ _ _)
            p3.len (fun x hx _ hF => p3.same x hx (by rintro rfl; simp at hF) (by
              intro hg; simp [hg] at hF))
            (by rw [hset, hsetr, p3.same b (lt_of_some o.blk) hbp hbG, o.blk])
            (.ptr (by rw [← hRs]; exact p2.blk) p2.is)
            (List.nodup_cons.mpr ⟨p2.out, p2.nodup⟩)
            (by
              intro x hx
              rcases List.mem_cons.mp hx with rfl | hx
              · exact .inl (by simp)
              · rcases p3.foot x hx with h1 | h1
                · exact .inl (by simp [h1])
                · exact .inr h1)
          refine ⟨h', _, _, _, ?_, r1, r2⟩
          simp only [applyU, bind, Res.bind, getSlot_eq o.blk o.row e1, hT, p1]
      · cases hu
    · next u hT hk =>
      obtain ⟨s, FA, Fs, FB, e1, e2, e3, e4⟩ := o.is.zip hk
      cases e2
      have o2 : Own (h ++ [.rows [zeroRow T u]]) h.length 0 [zeroRow T u] (zeroRow T u) (blank T u) [] :=
        ⟨get_new, rfl, zero_row T _ u, by simp, by simp⟩
      have hbl := lt_of_some o.blk
      split at hu
      · next d' hd =>
        obtain ⟨rfl, rfl⟩ : c.set k (.ptr (some d')) = c' ∧ true = ok := by simpa using hu
        obtain ⟨h1, rs', R', G', p1, p2, p3⟩ := applyAll_ok T inp inp' us u h.length 0 false hp' o2 hd
        have hRs : rs' = [R'] := by
          have h1 := p3.rlen
          have h2 := p2.row
          match rs', h1, h2 with
          | [x], _, h2 => simpa using h2
        have hlen : h.length + 1 ≤ h1.length := by simpa using p3.len
        have hold : ∀ x < h.length, h1[x]? = h[x]? := by
          intro x hx
          rw [p3.same x (by simp; omega) (by omega) (by simp), get_append hx]
        have hblk : h1[b]? = some (.rows rs) := by rw [hold b hbl, o.blk]
        let h2 := h1.set b (.rows (rs.set r (R.set k (.ptr (some h.length)))))
        have hset : ∀ x, x ≠ b → h2[x]? = h1[x]? := by
          intro x hx
          simp only [h2]
          rw [List.getElem?_set, if_neg (Ne.symm hx)]
        have hG' : ∀ x ∈ G', h.length ≤ x := by
          intro x hx
          rcases p3.foot x hx with h | h
          · simp at h
          · simp at h; omega
        obtain ⟨r1, r2⟩ := o.close (h' := h2) (s' := .ptr (some h.length)) (t' := .ptr (some d'))
          (Fs' := h.length :: G') e3 (e4 h2 _ _ _)
          (by simp [h2]; omega) (fun x hx hb _ => by rw [hset x hb, hold x hx])
          (by simp only [h2]; rw [List.getElem?_set, if_pos rfl, if_pos (by omega)])
          (.ptr (by rw [hset _ (by omega), ← hRs]; exact p2.blk)
            (p2.is.frame fun x hx => hset x (by have := hG' x hx; omega)))
          (List.nodup_cons.mpr ⟨p2.out, p2.nodup⟩)
          (by
            intro x hx
            rcases List.mem_cons.mp hx with rfl | hx
            · exact .inr (Nat.le_refl _)
            · exact .inr (hG' x hx))
        refine ⟨h2, _, _, _, ?_, r1, r2⟩
        simp only [applyU, bind, Res.bind, getSlot_eq o.blk o.row e1, hT, p1, if_true,
          putSlot_eq hblk o.row e1]
        rfl
      · next d' hd =>
        obtain ⟨rfl, rfl⟩ : c = c' ∧ false = ok := by simpa using hu
        obtain ⟨h1, rs', R', G', p1, p2, p3⟩ := applyAll_ok T inp inp' us u h.length 0 false hp' o2 hd
        have hlen : h.length + 1 ≤ h1.length := by simpa using p3.len
        have hold : ∀ x < h.length, h1[x]? = h[x]? := by
          intro x hx
          rw [p3.same x (by simp; omega) (by omega) (by simp), get_append hx]
        refine ⟨h1, rs, R, F, ?_, ⟨by rw [hold b hbl, o.blk], o.row,
          o.is.frame fun x hx => hold x (o.is.lt x hx), o.nodup, o.out⟩,
          ⟨by omega, fun x hx _ _ => hold x hx, rfl, fun _ _ => rfl, fun x hx => .inl hx⟩⟩
        simp only [applyU, bind, Res.bind, getSlot_eq o.blk o.row e1, hT, p1]
        rfl
      · cases hu
    · cases hu
  | .many k uss, t, b, r, mat, h, rs, R, c, F, c', ok, hp, o, hu => by
    have hp' : plainElems uss = true := by simpa [plainU] using hp
    simp only [updU] at hu
    split at hu
    · next u old hT hk =>
      split at hu
      · next new ok' hd =>
        obtain ⟨rfl, rfl⟩ : c.set k (.many (old ++ new)) = c' ∧ ok' = ok := by simpa using hu
        obtain ⟨s, FA, Fs, FB, e1, e2, e3, e4⟩ := o.is.zip hk
        obtain ⟨p, off, n, A, G, rfl, q1, q2, q3, q4, q5⟩ := many_read e2
        have hnd : G.Nodup := by
          apply q5
          have := o.nodup
          rw [e3] at this
          simp only [List.nodup_append] at this
          exact this.1.2.1
        have hbl := lt_of_some o.blk
        have hGlt := q2.lt
        let blk : VBlock V := .rows (A ++ List.replicate uss.length (zeroRow T u))
        have hblk : (h ++ [blk])[b]? = some (.rows rs) := by rw [get_append hbl, o.blk]
        let R' := R.set k (.many h.length 0 (n + uss.length))
        let h2 := (h ++ [blk]).set b (.rows (rs.set r R'))
        have hl2 : h2.length = h.length + 1 := by simp [h2]
        have hset : ∀ x, x ≠ b → h2[x]? = (h ++ [blk])[x]? := by
          intro x hx
          simp only [h2]
          rw [List.getElem?_set, if_neg (Ne.symm hx)]
        have hbG : b ∉ G := fun hx => o.out (by rw [e3]; simp [q4 b hx])
        have g1 : h2[h.length]? = some blk := by rw [hset _ (by omega)]; exact get_new
        have g2 : RowsIs h2 A old G := q2.frame fun x hx => by
          rw [hset x (by rintro rfl; exact hbG hx), get_append (hGlt x hx)]
        obtain ⟨h', rs', G', p1, p2, p3, p4, p5, p6, p7, p8⟩ := applyElems_ok T inp inp' uss u h.length hp'
          g1 g2 hnd (fun hx => by have := hGlt _ hx; omega) hd
        have hb' : h'[b]? = some (.rows (rs.set r R')) := by
          rw [p7 b (by omega) (by omega)]
          simp only [h2]
          rw [List.getElem?_set, if_pos rfl, if_pos (by simp; omega)]
        have hlen' : rs'.length = n + uss.length := by
          have h1 := p3.length
          have h2 := q2.length
          have h3 := updElems_length T inp' uss u hd
          simp only [List.length_append] at h1
          omega
        obtain ⟨r1, r2⟩ := o.close (h' := h') (s' := .many h.length 0 (n + uss.length))
          (t' := .many (old ++ new)) (Fs' := h.length :: G') e3 (e4 h' _ _ _)
          (by omega) (fun x hx hb _ => by
            rw [p7 x (by omega) (by omega), hset x hb, get_append hx]) hb'
          (.many p2 (by omega) (by
            rw [List.drop_zero, List.take_of_length_le (by omega)]; exact p3))
          (List.nodup_cons.mpr ⟨p5, p4⟩)
          (by
            intro x hx
            rcases List.mem_cons.mp hx with rfl | hx
            · exact .inr (Nat.le_refl _)
            · rcases p8 x hx with h1 | h1
              · exact .inl (q4 x h1)
              · exact .inr (by omega))
        refine ⟨h', _, _, _, ?_, r1, r2⟩
        have hput : putSlot (h ++ [blk]) b r k (.many h.length 0 (n + uss.length)) = .ok h2 :=
          putSlot_eq hblk o.row e1
        subst q3
        simp only [applyU, bind, Res.bind, getSlot_eq o.blk o.row e1, hT, q1]
        rw [show putSlot (h ++ [VBlock.rows (A ++ List.replicate uss.length (zeroRow T u))]) b r k
          (.many h.length 0 (A.length + uss.length)) = .ok h2 from hput]
        exact p1
      · cases hu
    · cases hu
  | .fail, t, b, r, mat, h, rs, R, c, F, c', ok, _, o, hu => by
    obtain ⟨rfl, rfl⟩ : c = c' ∧ false = ok := by simpa [updU] using hu
    exact ⟨h, rs, R, F, by simp [applyU], o, Chg.refl h b r rs F⟩
  | .view k off n, _, _, _, _, _, _, _, _, _, _, _, hp, _, _ => by simp [plainU] at hp
  | .ext k num vs, _, _, _, _, _, _, _, _, _, _, _, hp, _, _ => by simp [plainU] at hp
  | .unkEnum k num vs, _, _, _, _, _, _, _, _, _, _, _, hp, _, _ => by simp [plainU] at hp

theorem applyAll_ok (T : VTypes) (inp : Nat) (inp' : List V) : ∀ (us : List (VUpd V)) (t b r : Nat)
    (mat : Bool) {h : VHeap V} {rs : List (VRow V)} {R : VRow V} {c : List (VTree V)} {F : List Nat}
    {c' : List (VTree V)} {ok : Bool}, plainAll us = true → Own h b r rs R c F →
    updAll T inp' us t c = some (c', ok) →
    ∃ h' rs' R' F', applyAll T inp us t b r mat h = .ok (h', ok) ∧ Own h' b r rs' R' c' F' ∧
      Chg h b r rs F h' rs' F'
  | [], t, b, r, mat, h, rs, R, c, F, c', ok, _, o, hu => by
    obtain ⟨rfl, rfl⟩ : c = c' ∧ true = ok := by simpa [updAll] using hu
    exact ⟨h, rs, R, F, by simp [applyAll], o, Chg.refl h b r rs F⟩
  | u :: us, t, b, r, mat, h, rs, R, c, F, c', ok, hp, o, hu => by
    obtain ⟨hp1, hp2⟩ : plainU u = true ∧ plainAll us = true := by simpa [plainAll] using hp
    simp only [updAll] at hu
    split at hu
    · next c1 h1 =>
      obtain ⟨h', rs', R', F', p1, p2, p3⟩ := applyU_ok T inp inp' u t b r mat hp1 o h1
      obtain ⟨h2, rs2, R2, F2, q1, q2, q3⟩ := applyAll_ok T inp inp' us t b r _ hp2 p2 hu
      refine ⟨h2, rs2, R2, F2, ?_, q2, p3.trans q3⟩
      simp only [applyAll, bind, Res.bind, p1, if_true]
      exact q1
    · next c1 h1 =>
      obtain ⟨rfl, rfl⟩ : c1 = c' ∧ false = ok := by simpa using hu
      obtain ⟨h', rs', R', F', p1, p2, p3⟩ := applyU_ok T inp inp' u t b r mat hp1 o h1
      refine ⟨h', rs', R', F', ?_, p2, p3⟩
      simp only [applyAll, bind, Res.bind, p1]
      rfl
    · cases hu

theorem applyElems_ok (T : VTypes) (inp : Nat) (inp' : List V) : ∀ (uss : List (List (VUpd V))) (t q : Nat)
    {h : VHeap V} {A : List (VRow V)} {cs : List (List (VTree V))} {G : List Nat}
    {new : List (List (VTree V))} {ok : Bool}, plainElems uss = true →
    h[q]? = some (.rows (A ++ List.replicate uss.length (zeroRow T t))) → RowsIs h A cs G → G.Nodup →
    q ∉ G → updElems T inp' uss t = some (new, ok) →
    ∃ h' rs' G', applyElems T inp uss t q A.length h = .ok (h', ok) ∧ h'[q]? = some (.rows rs') ∧
      RowsIs h' rs' (cs ++ new) G' ∧ G'.Nodup ∧ q ∉ G' ∧ h.length ≤ h'.length ∧
      (∀ x < h.length, x ≠ q → h'[x]? = h[x]?) ∧ ∀ x ∈ G', x ∈ G ∨ h.length ≤ x
  | [], t, q, h, A, cs, G, new, ok, _, hq, hA, hn, hG, hu => by
    obtain ⟨rfl, rfl⟩ : [] = new ∧ true = ok := by simpa [updElems] using hu
    exact ⟨h, A, G, by simp [applyElems], by simpa using hq, by simpa using hA, hn, hG, Nat.le_refl _,
      fun _ _ _ => rfl, fun x hx => .inl hx⟩
  | us :: uss, t, q, h, A, cs, G, new, ok, hp, hq, hA, hn, hG, hu => by
    obtain ⟨hp1, hp2⟩ : plainAll us = true ∧ plainElems uss = true := by simpa [plainElems] using hp
    have hq' : h[q]? = some (.rows (A ++ zeroRow T t :: List.replicate uss.length (zeroRow T t))) := by
      simpa [List.replicate_succ] using hq
    have hql := lt_of_some hq
    have o : Own h q A.length (A ++ zeroRow T t :: List.replicate uss.length (zeroRow T t)) (zeroRow T t)
        (blank T t) [] :=
      ⟨hq', by simp, zero_row T h t, by simp, by simp⟩
    have step : ∀ {d ok'}, updAll T inp' us t (blank T t) = some (d, ok') →
        ∃ h1 R1 G1, applyAll T inp us t q A.length false h = .ok (h1, ok') ∧
          h1[q]? = some (.rows ((A ++ [R1]) ++ List.replicate uss.length (zeroRow T t))) ∧
          RowsIs h1 (A ++ [R1]) (cs ++ [d]) (G ++ G1) ∧ (G ++ G1).Nodup ∧ q ∉ G ++ G1 ∧
          h.length ≤ h1.length ∧ (∀ x < h.length, x ≠ q → h1[x]? = h[x]?) ∧
          ∀ x ∈ G ++ G1, x ∈ G ∨ h.length ≤ x := by
      intro d ok' hd
      obtain ⟨h1, rs1, R1, G1, p1, p2, p3⟩ := applyAll_ok T inp inp' us t q A.length false hp1 o hd
      have hrs := rows_of_same p3.rlen p3.rsame p2.row
      have hG1 : ∀ x ∈ G1, h.length ≤ x := by
        intro x hx
        rcases p3.foot x hx with h | h
        · simp at h
        · exact h
      have hsame : ∀ x < h.length, x ≠ q → h1[x]? = h[x]? := fun x hx hxq => p3.same x hx hxq (by simp)
      have hGlt := hA.lt
      refine ⟨h1, R1, G1, p1, by rw [p2.blk, hrs]; simp, ?_, ?_, ?_, p3.len, hsame, ?_⟩
      · have h1 := (hA.frame (h' := h1) fun x hx => hsame x (hGlt x hx) (by rintro rfl; exact hG hx)).append
          (RowsIs.cons p2.is .nil)
        simpa using h1
      · rw [List.nodup_append]
        exact ⟨hn, p2.nodup, by
          rintro x hx y hy rfl
          have := hGlt x hx; have := hG1 x hy; omega⟩
      · intro hx
        rcases List.mem_append.mp hx with hx | hx
        · exact hG hx
        · exact p2.out hx
      · intro x hx
        rcases List.mem_append.mp hx with hx | hx
        · exact .inl hx
        · exact .inr (hG1 x hx)
    simp only [updElems] at hu
    split at hu
    · next d hd =>
      obtain ⟨h1, R1, G1, p1, p2, p3, p4, p5, p6, p7, p8⟩ := step hd
      split at hu
      · next ds ok' hds =>
        obtain ⟨rfl, rfl⟩ : d :: ds = new ∧ ok' = ok := by simpa using hu
        obtain ⟨h2, rs2, G2, q1, q2, q3, q4, q5, q6, q7, q8⟩ := applyElems_ok T inp inp' uss t q hp2 p2 p3 p4
          p5 hds
        refine ⟨h2, rs2, G2, ?_, q2, by simpa using q3, q4, q5, by omega, ?_, ?_⟩
        · simp only [applyElems, bind, Res.bind, p1, if_true]
          simpa using q1
        · intro x hx hxq
          rw [q7 x (by omega) hxq, p7 x hx hxq]
        · intro x hx
          rcases q8 x hx with h | h
          · exact p8 x h
          · exact .inr (by omega)
      · cases hu
    · next d hd =>
      obtain ⟨rfl, rfl⟩ : d :: List.replicate uss.length (blank T t) = new ∧ false = ok := by
        simpa using hu
      obtain ⟨h1, R1, G1, p1, p2, p3, p4, p5, p6, p7, p8⟩ := step hd
      refine ⟨h1, _, G ++ G1, ?_, p2, ?_, p4, p5, p6, p7, p8⟩
      · simp only [applyElems, bind, Res.bind, p1]
        rfl
      · have := p3.append (zero_rows T h1 t uss.length)
        simpa using this
    · cases hu
end

end HppProto.ViewMem
