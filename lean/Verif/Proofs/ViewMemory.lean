import Verif.Spec.ViewMemory
import Verif.Proofs.MessageMemory

/-!
# Memory of non-owning messages: what a struct shows, and what one change does
-/

namespace HppProto.ViewMem

open ViewSpec (VTree blank updU updAll updElems plainU plainAll plainElems)

variable {V : Type} [Inhabited V] [DecidableEq V]

mutual
/-- The member `s` shows the tree `t` and reads the blocks in the list. -/
inductive SlotIs (h : VHeap V) : VSlot V → VTree V → List Nat → Prop
  | val (v : V) : SlotIs h (.val v) (.val v) []
  | vals0 (b off : Nat) : SlotIs h (.vals b off 0) (.vals []) []
  | vals {b off n : Nat} {vs : List V} : h[b]? = some (.vals vs) → off + n ≤ vs.length →
      SlotIs h (.vals b off n) (.vals ((vs.drop off).take n)) [b]
  | nul : SlotIs h (.ptr none) (.ptr none) []
  | ptr {p : Nat} {R : VRow V} {c : List (VTree V)} {F : List Nat} : h[p]? = some (.rows [R]) →
      RowIs h R c F → SlotIs h (.ptr (some p)) (.ptr (some c)) (p :: F)
  | many0 (b off : Nat) : SlotIs h (.many b off 0) (.many []) []
  | many {b off n : Nat} {rs : List (VRow V)} {cs : List (List (VTree V))} {F : List Nat} :
      h[b]? = some (.rows rs) → off + n ≤ rs.length → RowsIs h ((rs.drop off).take n) cs F →
      SlotIs h (.many b off n) (.many cs) (b :: F)
inductive RowIs (h : VHeap V) : VRow V → List (VTree V) → List Nat → Prop
  | nil : RowIs h [] [] []
  | cons {s : VSlot V} {t : VTree V} {F : List Nat} {R : VRow V} {c : List (VTree V)} {G : List Nat} :
      SlotIs h s t F → RowIs h R c G → RowIs h (s :: R) (t :: c) (F ++ G)
inductive RowsIs (h : VHeap V) : List (VRow V) → List (List (VTree V)) → List Nat → Prop
  | nil : RowsIs h [] [] []
  | cons {R : VRow V} {c : List (VTree V)} {F : List Nat} {rs : List (VRow V)}
      {cs : List (List (VTree V))} {G : List Nat} :
      RowIs h R c F → RowsIs h rs cs G → RowsIs h (R :: rs) (c :: cs) (F ++ G)
end

mutual
theorem SlotIs.frame {h h' : VHeap V} : ∀ {s : VSlot V} {t : VTree V} {F : List Nat}, SlotIs h s t F →
    (∀ x ∈ F, h'[x]? = h[x]?) → SlotIs h' s t F
  | _, _, _, .val v, _ => .val v
  | _, _, _, .vals0 b off, _ => .vals0 b off
  | _, _, _, .vals h1 h2, hf => .vals (by rw [hf _ (by simp)]; exact h1) h2
  | _, _, _, .nul, _ => .nul
  | _, _, _, .ptr h1 h2, hf =>
    .ptr (by rw [hf _ (by simp)]; exact h1) (h2.frame fun x hx => hf x (by simp [hx]))
  | _, _, _, .many0 b off, _ => .many0 b off
  | _, _, _, .many h1 h2 h3, hf =>
    .many (by rw [hf _ (by simp)]; exact h1) h2 (h3.frame fun x hx => hf x (by simp [hx]))
theorem RowIs.frame {h h' : VHeap V} : ∀ {R : VRow V} {c : List (VTree V)} {F : List Nat}, RowIs h R c F →
    (∀ x ∈ F, h'[x]? = h[x]?) → RowIs h' R c F
  | _, _, _, .nil, _ => .nil
  | _, _, _, .cons h1 h2, hf =>
    .cons (h1.frame fun x hx => hf x (by simp [hx])) (h2.frame fun x hx => hf x (by simp [hx]))
theorem RowsIs.frame {h h' : VHeap V} : ∀ {rs : List (VRow V)} {cs : List (List (VTree V))} {F : List Nat},
    RowsIs h rs cs F → (∀ x ∈ F, h'[x]? = h[x]?) → RowsIs h' rs cs F
  | _, _, _, .nil, _ => .nil
  | _, _, _, .cons h1 h2, hf =>
    .cons (h1.frame fun x hx => hf x (by simp [hx])) (h2.frame fun x hx => hf x (by simp [hx]))
end

theorem lt_of_some {α} {l : List α} {i : Nat} {x : α} (h : l[i]? = some x) : i < l.length :=
  (List.getElem?_eq_some_iff.mp h).1

mutual
theorem SlotIs.lt {h : VHeap V} : ∀ {s : VSlot V} {t : VTree V} {F : List Nat}, SlotIs h s t F →
    ∀ x ∈ F, x < h.length
  | _, _, _, .val v, _, hx => by simp at hx
  | _, _, _, .vals0 b off, _, hx => by simp at hx
  | _, _, _, .vals h1 h2, x, hx => by
    rw [List.mem_singleton.mp hx]; exact lt_of_some h1
  | _, _, _, .nul, _, hx => by simp at hx
  | _, _, _, .ptr h1 h2, x, hx => by
    rcases List.mem_cons.mp hx with rfl | hx
    · exact lt_of_some h1
    · exact h2.lt x hx
  | _, _, _, .many0 b off, _, hx => by simp at hx
  | _, _, _, .many h1 h2 h3, x, hx => by
    rcases List.mem_cons.mp hx with rfl | hx
    · exact lt_of_some h1
    · exact h3.lt x hx
theorem RowIs.lt {h : VHeap V} : ∀ {R : VRow V} {c : List (VTree V)} {F : List Nat}, RowIs h R c F →
    ∀ x ∈ F, x < h.length
  | _, _, _, .nil, _, hx => by simp at hx
  | _, _, _, .cons h1 h2, x, hx => by
    rcases List.mem_append.mp hx with hx | hx
    · exact h1.lt x hx
    · exact h2.lt x hx
theorem RowsIs.lt {h : VHeap V} : ∀ {rs : List (VRow V)} {cs : List (List (VTree V))} {F : List Nat},
    RowsIs h rs cs F → ∀ x ∈ F, x < h.length
  | _, _, _, .nil, _, hx => by simp at hx
  | _, _, _, .cons h1 h2, x, hx => by
    rcases List.mem_append.mp hx with hx | hx
    · exact h1.lt x hx
    · exact h2.lt x hx
end

theorem RowIs.length {h : VHeap V} : ∀ {R : VRow V} {c : List (VTree V)} {F : List Nat}, RowIs h R c F →
    R.length = c.length
  | _, _, _, .nil => rfl
  | _, _, _, .cons _ h2 => by simp [h2.length]

theorem RowsIs.length {h : VHeap V} : ∀ {rs : List (VRow V)} {cs : List (List (VTree V))} {F : List Nat},
    RowsIs h rs cs F → rs.length = cs.length
  | _, _, _, .nil => rfl
  | _, _, _, .cons _ h2 => by simp [h2.length]

/-- The member with the number `k`, and what takes its place. -/
theorem RowIs.zip {h : VHeap V} : ∀ {R : VRow V} {c : List (VTree V)} {F : List Nat}, RowIs h R c F →
    ∀ {k : Nat} {t : VTree V}, c[k]? = some t → ∃ s FA Fs FB, R[k]? = some s ∧ SlotIs h s t Fs ∧
      F = FA ++ Fs ++ FB ∧
      ∀ (h' : VHeap V) (s' : VSlot V) (t' : VTree V) (Fs' : List Nat),
        (∀ x, x ∈ FA ∨ x ∈ FB → h'[x]? = h[x]?) → SlotIs h' s' t' Fs' →
        RowIs h' (R.set k s') (c.set k t') (FA ++ Fs' ++ FB)
  | _, _, _, .nil, k, t, hk => by simp at hk
  | _, _, _, .cons (s := s) (t := t0) (F := F) (G := G) h1 h2, 0, t, hk => by
    obtain rfl : t0 = t := by simpa using hk
    exact ⟨s, [], F, G, by simp, h1, by simp, fun h' s' t' Fs' hf hs => by
      simpa using RowIs.cons hs (h2.frame fun x hx => hf x (.inr hx))⟩
  | _, _, _, .cons (s := s0) (F := F) (G := G) h1 h2, k + 1, t, hk => by
    obtain ⟨s, FA, Fs, FB, e1, e2, e3, e4⟩ := h2.zip (show _ = some t by simpa using hk)
    refine ⟨s, F ++ FA, Fs, FB, by simpa using e1, e2, by simp [e3], fun h' s' t' Fs' hf hs => ?_⟩
    have := RowIs.cons (h1.frame fun x hx => hf x (.inl (by simp [hx])))
      (e4 h' s' t' Fs' (fun x hx => hf x (by rcases hx with h | h <;> simp [h])) hs)
    simpa using this

theorem RowsIs.get {h : VHeap V} : ∀ {rs : List (VRow V)} {cs : List (List (VTree V))} {F : List Nat},
    RowsIs h rs cs F → ∀ {i : Nat} {c : List (VTree V)}, cs[i]? = some c →
    ∃ R G, rs[i]? = some R ∧ RowIs h R c G ∧ ∀ x ∈ G, x ∈ F
  | _, _, _, .nil, i, c, hi => by simp at hi
  | _, _, _, .cons (R := R) (c := c0) (F := F) h1 h2, 0, c, hi => by
    obtain rfl : c0 = c := by simpa using hi
    exact ⟨R, F, by simp, h1, fun x hx => by simp [hx]⟩
  | _, _, _, .cons h1 h2, i + 1, c, hi => by
    obtain ⟨R, G, e1, e2, e3⟩ := h2.get (show _ = some c by simpa using hi)
    exact ⟨R, G, by simpa using e1, e2, fun x hx => by simp [e3 x hx]⟩

theorem RowsIs.append {h : VHeap V} : ∀ {rs : List (VRow V)} {cs : List (List (VTree V))} {F : List Nat},
    RowsIs h rs cs F → ∀ {rs' : List (VRow V)} {cs' : List (List (VTree V))} {F' : List Nat},
    RowsIs h rs' cs' F' → RowsIs h (rs ++ rs') (cs ++ cs') (F ++ F')
  | _, _, _, .nil, _, _, _, h' => h'
  | _, _, _, .cons h1 h2, _, _, _, h' => by
    have := RowsIs.cons h1 (h2.append h')
    simpa using this

theorem zero_slot (h : VHeap V) (k : VKind) : SlotIs h (k.zero : VSlot V) (ViewSpec.VKind.blank k) [] := by
  cases k with
  | val => exact .val _
  | vals => exact .vals0 0 0
  | ptr t => exact .nul
  | many t => exact .many0 0 0
  | exts => exact .many0 0 0

theorem zero_row (T : VTypes) (h : VHeap V) (t : Nat) : RowIs h (zeroRow T t : VRow V) (blank T t) [] := by
  unfold zeroRow blank
  induction T t with
  | nil => exact .nil
  | cons k ks ih => exact RowIs.cons (zero_slot h k) ih

theorem zero_rows (T : VTypes) (h : VHeap V) (t : Nat) : ∀ m : Nat,
    RowsIs h (List.replicate m (zeroRow T t : VRow V)) (List.replicate m (blank T t)) []
  | 0 => .nil
  | m + 1 => RowsIs.cons (zero_row T h t) (zero_rows T h t m)

/-! ## Owned structs -/

/-- The struct in row `r` of block `b` shows `c`; the blocks it reads are used once each, and its own
block is not among them. -/
structure Own (h : VHeap V) (b r : Nat) (rs : List (VRow V)) (R : VRow V) (c : List (VTree V))
    (F : List Nat) : Prop where
  blk : h[b]? = some (.rows rs)
  row : rs[r]? = some R
  is : RowIs h R c F
  nodup : F.Nodup
  out : b ∉ F

/-- What changes: the struct, the blocks it reads, and new blocks. -/
structure Chg (h : VHeap V) (b r : Nat) (rs : List (VRow V)) (F : List Nat) (h' : VHeap V)
    (rs' : List (VRow V)) (F' : List Nat) : Prop where
  len : h.length ≤ h'.length
  same : ∀ x < h.length, x ≠ b → x ∉ F → h'[x]? = h[x]?
  rlen : rs'.length = rs.length
  rsame : ∀ i, i ≠ r → rs'[i]? = rs[i]?
  foot : ∀ x ∈ F', x ∈ F ∨ h.length ≤ x

theorem Chg.refl (h : VHeap V) (b r : Nat) (rs : List (VRow V)) (F : List Nat) : Chg h b r rs F h rs F :=
  ⟨Nat.le_refl _, fun _ _ _ _ => rfl, rfl, fun _ _ => rfl, fun _ hx => .inl hx⟩

theorem Chg.trans {h h1 h2 : VHeap V} {b r : Nat} {rs rs1 rs2 : List (VRow V)} {F F1 F2 : List Nat}
    (a : Chg h b r rs F h1 rs1 F1) (c : Chg h1 b r rs1 F1 h2 rs2 F2) : Chg h b r rs F h2 rs2 F2 where
  len := Nat.le_trans a.len c.len
  same x hx hb hF := by
    rw [c.same x (Nat.lt_of_lt_of_le hx a.len) hb, a.same x hx hb hF]
    intro h1
    rcases a.foot x h1 with h | h
    · exact hF h
    · omega
  rlen := c.rlen.trans a.rlen
  rsame i hi := (c.rsame i hi).trans (a.rsame i hi)
  foot x hx := by
    rcases c.foot x hx with h | h
    · exact a.foot x h
    · exact .inr (Nat.le_trans a.len h)

theorem set_self {α} {l : List α} {k : Nat} {x : α} (h : l[k]? = some x) : l.set k x = l := by
  obtain ⟨hk, rfl⟩ := List.getElem?_eq_some_iff.mp h
  simp

/-- A new content of one member. -/
theorem Own.close {h h' : VHeap V} {b r k : Nat} {rs : List (VRow V)} {R : VRow V} {c : List (VTree V)}
    {F FA Fs FB Fs' : List Nat} {s' : VSlot V} {t' : VTree V} (o : Own h b r rs R c F)
    (hF : F = FA ++ Fs ++ FB)
    (hz : (∀ x, x ∈ FA ∨ x ∈ FB → h'[x]? = h[x]?) → SlotIs h' s' t' Fs' →
        RowIs h' (R.set k s') (c.set k t') (FA ++ Fs' ++ FB))
    (hlen : h.length ≤ h'.length) (hsame : ∀ x < h.length, x ≠ b → x ∉ Fs → h'[x]? = h[x]?)
    (hb : h'[b]? = some (.rows (rs.set r (R.set k s')))) (hs : SlotIs h' s' t' Fs') (hn : Fs'.Nodup)
    (hnew : ∀ x ∈ Fs', x ∈ Fs ∨ h.length ≤ x) :
    Own h' b r (rs.set r (R.set k s')) (R.set k s') (c.set k t') (FA ++ Fs' ++ FB) ∧
      Chg h b r rs F h' (rs.set r (R.set k s')) (FA ++ Fs' ++ FB) := by
  have hlt := o.is.lt
  have hout := o.out
  have hnd := o.nodup
  subst hF
  have hdisj : ∀ x, x ∈ FA ∨ x ∈ FB → x ∉ Fs := by
    intro x hx hxs
    simp only [List.nodup_append, List.mem_append] at hnd
    obtain ⟨⟨_, _, h1⟩, _, h2⟩ := hnd
    rcases hx with hx | hx
    · exact h1 x hx x hxs rfl
    · exact h2 x (.inr hxs) x hx rfl
  refine ⟨⟨hb, ?_, hz ?_ hs, MsgMem.nodup_replace hnd hlt hn hnew, ?_⟩, ⟨hlen, ?_, by simp, ?_, ?_⟩⟩
  · rw [List.getElem?_set, if_pos rfl, if_pos (lt_of_some o.row)]
  · intro x hx
    refine hsame x (hlt x ?_) ?_ (hdisj x hx)
    · rcases hx with h | h <;> simp [h]
    · rintro rfl
      exact hout (by rcases hx with h | h <;> simp [h])
  · intro hx
    simp only [List.mem_append] at hx hout
    rcases hx with (hx | hx) | hx
    · exact hout (.inl (.inl hx))
    · rcases hnew b hx with h | h
      · exact hout (.inl (.inr h))
      · exact absurd (lt_of_some o.blk) (by omega)
    · exact hout (.inr hx)
  · intro x hx hxb hxF
    exact hsame x hx hxb fun h => hxF (by simp [h])
  · intro i hi
    rw [List.getElem?_set, if_neg (Ne.symm hi)]
  · intro x hx
    simp only [List.mem_append] at hx ⊢
    rcases hx with (hx | hx) | hx
    · exact .inl (.inl (.inl hx))
    · rcases hnew x hx with h | h
      · exact .inl (.inl (.inr h))
      · exact .inr h
    · exact .inl (.inr hx)

theorem getRow_eq {h : VHeap V} {b r : Nat} {rs : List (VRow V)} {R : VRow V} (h1 : h[b]? = some (.rows rs))
    (h2 : rs[r]? = some R) : getRow h b r = .ok R := by
  simp only [getRow, h1, h2]

theorem putRow_eq {h : VHeap V} {b r : Nat} {rs : List (VRow V)} {R R' : VRow V}
    (h1 : h[b]? = some (.rows rs)) (h2 : rs[r]? = some R) :
    putRow h b r R' = .ok (h.set b (.rows (rs.set r R'))) := by
  simp only [putRow, h1, lt_of_some h2, if_true]

theorem getSlot_eq {h : VHeap V} {b r k : Nat} {rs : List (VRow V)} {R : VRow V} {s : VSlot V}
    (h1 : h[b]? = some (.rows rs)) (h2 : rs[r]? = some R) (h3 : R[k]? = some s) :
    getSlot h b r k = .ok s := by
  simp only [getSlot, bind, Res.bind, getRow_eq h1 h2, h3]

theorem putSlot_eq {h : VHeap V} {b r k : Nat} {rs : List (VRow V)} {R : VRow V} {s s' : VSlot V}
    (h1 : h[b]? = some (.rows rs)) (h2 : rs[r]? = some R) (h3 : R[k]? = some s) :
    putSlot h b r k s' = .ok (h.set b (.rows (rs.set r (R.set k s')))) := by
  simp only [putSlot, bind, Res.bind, getRow_eq h1 h2, lt_of_some h3, if_true, putRow_eq h1 h2]

theorem get_append {h : VHeap V} {X : List (VBlock V)} {x : Nat} (hx : x < h.length) :
    (h ++ X)[x]? = h[x]? := List.getElem?_append_left hx

/-- A member is replaced by a member that reads only new blocks, which are given. -/
theorem Own.put {h : VHeap V} {X : List (VBlock V)} {b r k : Nat} {rs : List (VRow V)} {R : VRow V}
    {c : List (VTree V)} {F : List Nat} (o : Own h b r rs R c F) {t : VTree V} (hk : c[k]? = some t)
    {s' : VSlot V} {t' : VTree V} {Fs' : List Nat} (hn : Fs'.Nodup) (hnew : ∀ x ∈ Fs', h.length ≤ x)
    (hs : SlotIs (h ++ X) s' t' Fs') :
    ∃ h' rs' R' F', putSlot (h ++ X) b r k s' = .ok h' ∧ Own h' b r rs' R' (c.set k t') F' ∧
      Chg h b r rs F h' rs' F' := by
  obtain ⟨s, FA, Fs, FB, e1, e2, e3, e4⟩ := o.is.zip hk
  have hbl := lt_of_some o.blk
  have hblk : (h ++ X)[b]? = some (.rows rs) := by rw [get_append hbl, o.blk]
  let h' := (h ++ X).set b (.rows (rs.set r (R.set k s')))
  have hset : ∀ x, x ≠ b → h'[x]? = (h ++ X)[x]? := by
    intro x hx
    simp only [h']
    rw [List.getElem?_set, if_neg (Ne.symm hx)]
  obtain ⟨r1, r2⟩ := o.close (h' := h') e3 (e4 h' s' t' Fs') (by simp [h'])
    (fun x hx hb _ => by rw [hset x hb, get_append hx])
    (by simp only [h']; rw [List.getElem?_set, if_pos rfl, if_pos (by simp; omega)])
    (hs.frame fun x hx => hset x (by have := hnew x hx; omega)) hn (fun x hx => .inr (hnew x hx))
  exact ⟨h', _, _, _, putSlot_eq hblk o.row e1, r1, r2⟩

theorem vals_read {h : VHeap V} {s : VSlot V} {vs : List V} {F : List Nat} (hs : SlotIs h s (.vals vs) F) :
    ∃ b off n, s = .vals b off n ∧ readVals h b off n = .ok vs ∧ vs.length = n := by
  cases hs with
  | vals0 b off => exact ⟨b, off, 0, rfl, by simp [readVals], rfl⟩
  | @vals b off n vs0 h1 h2 =>
    refine ⟨b, off, n, rfl, ?_, by simp; omega⟩
    unfold readVals
    split
    · next h0 => simp [h0]
    · simp only [h1, h2, if_true]

theorem many_read {h : VHeap V} {s : VSlot V} {cs : List (List (VTree V))} {F : List Nat}
    (hs : SlotIs h s (.many cs) F) :
    ∃ b off n rs G, s = .many b off n ∧ readRows h b off n = .ok rs ∧ RowsIs h rs cs G ∧ rs.length = n ∧
      (∀ x ∈ G, x ∈ F) ∧ (F.Nodup → G.Nodup) := by
  cases hs with
  | many0 b off => exact ⟨b, off, 0, [], [], rfl, by simp [readRows], .nil, rfl, by simp, by simp⟩
  | @many b off n rs0 _ F0 h1 h2 h3 =>
    by_cases h0 : n = 0
    · subst h0
      have h4 : RowsIs h [] cs F0 := by simpa using h3
      exact ⟨b, off, 0, [], F0, rfl, by simp [readRows], h4, rfl, fun x hx => by simp [hx],
        fun hn => (List.nodup_cons.mp hn).2⟩
    · refine ⟨b, off, n, _, F0, rfl, ?_, h3, by simp; omega, fun x hx => by simp [hx],
        fun hn => (List.nodup_cons.mp hn).2⟩
      simp only [readRows, h0, if_false, h1, h2, if_true]

end HppProto.ViewMem
