import Verif.Proofs.ViewMemoryRead

/-!
# Memory of non-owning messages: histories
-/

namespace HppProto.ViewMem

open ViewSpec (VTree VTree.look blank updU updAll updElems plainU plainAll plainElems Values Plain Shows)

variable {V : Type} [Inhabited V] [DecidableEq V]

theorem nav_ok (T : VTypes) {h : VHeap V} : ∀ (steps : List (Nat × Nat)) {t : Nat} {R : VRow V}
    {c : List (VTree V)} {F : List Nat}, RowIs h R c F →
    (∀ u d, ViewSpec.get T t c steps = some (u, d) →
      ∃ R' G, nav T h t R steps = some (u, R') ∧ RowIs h R' d G ∧ ∀ x ∈ G, x ∈ F) ∧
    (ViewSpec.get T t c steps = none → nav T h t R steps = none)
  | [], t, R, c, F, hr => by
    refine ⟨fun u d hg => ?_, fun hg => by simp [ViewSpec.get] at hg⟩
    obtain ⟨rfl, rfl⟩ : t = u ∧ c = d := by simpa [ViewSpec.get] using hg
    exact ⟨R, F, rfl, hr, fun x hx => hx⟩
  | (k, i) :: steps, t, R, c, F, hr => by
    cases hT : (T t)[k]? with
    | none =>
      refine ⟨fun u d hg => ?_, fun _ => by simp [nav, hT]⟩
      simp [ViewSpec.get, hT] at hg
    | some K =>
      cases hk : c[k]? with
      | none =>
        have hR : R[k]? = none := by
          rw [List.getElem?_eq_none_iff] at hk ⊢
          rw [hr.length]; exact hk
        refine ⟨fun u d hg => ?_, fun _ => by simp [nav, hT, hR]⟩
        simp [ViewSpec.get, hT, hk] at hg
      | some x =>
        obtain ⟨s, FA, Fs, FB, e1, e2, e3, _⟩ := hr.zip hk
        have hsub : ∀ y ∈ Fs, y ∈ F := fun y hy => by rw [e3]; simp [hy]
        cases K with
        | ptr u =>
          cases e2 with
          | @ptr p R2 d G q1 q2 =>
            have ih := nav_ok T steps (t := u) q2
            simp only [ViewSpec.get, nav, hT, hk, e1, getRow_eq q1 (r := 0) rfl]
            by_cases hi : i = 0
            · simp only [hi, if_true]
              refine ⟨fun u d hg => ?_, ih.2⟩
              obtain ⟨R', G', r1, r2, r3⟩ := ih.1 u d hg
              exact ⟨R', G', r1, r2, fun x hx => hsub x (by simp [r3 x hx])⟩
            · simp only [hi, if_false]
              simp
          | _ =>
            simp only [ViewSpec.get, nav, hT, hk, e1]
            simp
        | many u =>
          cases e2 with
          | @many p off n rs cs G q1 q2 q3 =>
            simp only [ViewSpec.get, nav, hT, hk, e1]
            have hl := q3.length
            rw [List.length_take, List.length_drop, Nat.min_eq_left (by omega)] at hl
            cases hc : cs[i]? with
            | none =>
              have hi : ¬ i < n := by rw [List.getElem?_eq_none_iff] at hc; omega
              refine ⟨fun u d hg => by simp at hg, fun _ => ?_⟩
              split <;> simp [hi]
            | some d =>
              have hi : i < n := by have := lt_of_some hc; omega
              obtain ⟨R', G', r1, r2, r3⟩ := q3.get hc
              have hrow : rs[off + i]? = some R' := by
                rw [List.getElem?_take, if_pos hi, List.getElem?_drop] at r1
                exact r1
              have ih := nav_ok T steps (t := u) r2
              simp only [getRow_eq q1 hrow, hi, if_true]
              refine ⟨fun u d hg => ?_, ih.2⟩
              obtain ⟨R', G', s1, s2, s3⟩ := ih.1 u d hg
              exact ⟨R', G', s1, s2, fun x hx => hsub x (by simp [r3 x (s3 x hx)])⟩
          | many0 b off =>
            simp only [ViewSpec.get, nav, hT, hk, e1]
            refine ⟨fun u d hg => by simp at hg, fun _ => ?_⟩
            split <;> simp
          | _ =>
            simp only [ViewSpec.get, nav, hT, hk, e1]
            simp
        | _ =>
          simp only [ViewSpec.get, nav, hT]
          simp

/-- The blocks that can be written again: those of the messages themselves and the inputs. -/
def muts (s : VState V) : List Nat := s.vars.map (·.2) ++ s.inputs

/-- Each message shows its value, and reads no block that can be written again. -/
structure VInv (s : VState V) (w : Values V) : Prop where
  vlen : s.vars.length = w.vars.length
  ilen : s.inputs.length = w.inputs.length
  var : ∀ (i t b : Nat), s.vars[i]? = some (t, b) → ∃ (c : List (VTree V)) (R : VRow V) (F : List Nat), w.vars[i]? = some (t, c) ∧
    s.heap[b]? = some (.rows [R]) ∧ RowIs s.heap R c F ∧ ∀ x ∈ F, x ∉ muts s
  nodup : (muts s).Nodup
  lt : ∀ x ∈ muts s, x < s.heap.length

theorem VInv.init : VInv (VState.init : VState V) ⟨[], []⟩ :=
  ⟨rfl, rfl, by intro i t b h; simp [VState.init] at h, by simp [muts, VState.init],
    by simp [muts, VState.init]⟩

theorem mem_muts_var {s : VState V} {i t b : Nat} (h : s.vars[i]? = some (t, b)) : b ∈ muts s := by
  have := List.mem_of_getElem? h
  simp only [muts, List.mem_append, List.mem_map]
  exact .inl ⟨_, this, rfl⟩

theorem mem_muts_input {s : VState V} {j b : Nat} (h : s.inputs[j]? = some b) : b ∈ muts s := by
  have := List.mem_of_getElem? h
  simp [muts, this]

theorem VInv.find_some {T : VTypes} {s : VState V} {w : Values V} (v : VInv s w) {a : VPath} {u : Nat}
    {d : List (VTree V)} (h : w.get T a = some (u, d)) :
    ∃ R G, s.find T a = some (u, R) ∧ RowIs s.heap R d G ∧ ∀ x ∈ G, x ∉ muts s := by
  simp only [Values.get] at h
  cases hv : s.vars[a.root]? with
  | none =>
    have : w.vars[a.root]? = none := by
      rw [List.getElem?_eq_none_iff] at hv ⊢; rw [← v.vlen]; exact hv
    rw [this] at h; cases h
  | some tb =>
    obtain ⟨t, b⟩ := tb
    obtain ⟨c, R, F, e1, e2, e3, e4⟩ := v.var _ _ _ hv
    rw [e1] at h
    obtain ⟨R', G, r1, r2, r3⟩ := (nav_ok T a.steps e3).1 u d h
    refine ⟨R', G, ?_, r2, fun x hx => e4 x (r3 x hx)⟩
    simp only [VState.find, hv, getRow_eq e2 (r := 0) rfl]
    exact r1

theorem VInv.find_none {T : VTypes} {s : VState V} {w : Values V} (v : VInv s w) {a : VPath}
    (h : w.get T a = none) : s.find T a = none := by
  simp only [Values.get] at h
  cases hv : s.vars[a.root]? with
  | none => simp [VState.find, hv]
  | some tb =>
    obtain ⟨t, b⟩ := tb
    obtain ⟨c, R, F, e1, e2, e3, e4⟩ := v.var _ _ _ hv
    rw [e1] at h
    simp only [VState.find, hv, getRow_eq e2 (r := 0) rfl]
    exact (nav_ok T a.steps e3).2 h

theorem VInv.shows (T : VTypes) {s : VState V} {w : Values V} (v : VInv s w) : Shows T s w := by
  intro a k
  cases hg : w.get T a with
  | none =>
    simp only [VState.look, Values.look, hg, v.find_none hg]
  | some ud =>
    obtain ⟨u, d⟩ := ud
    obtain ⟨R, G, e1, e2, _⟩ := v.find_some hg
    simp only [VState.look, Values.look, hg, e1]
    cases hk : d[k]? with
    | none =>
      have hR : R[k]? = none := by
        rw [List.getElem?_eq_none_iff] at hk ⊢; rw [e2.length]; exact hk
      rw [hR]; rfl
    | some x =>
      obtain ⟨y, FA, Fs, FB, f1, f2, _, _⟩ := e2.zip hk
      rw [f1]
      cases x with
      | val w => cases f2; rfl
      | vals vs =>
        obtain ⟨b0, off, n, rfl, g1, g2⟩ := vals_read f2
        simp only [g1, bind, Res.bind]
        rfl
      | ptr c => cases f2 <;> rfl
      | many cs =>
        obtain ⟨b0, off, n, rs, G0, rfl, g1, g2, g3, _⟩ := many_read f2
        simp only [Option.map, VTree.look, ← g2.length, g3]

theorem muts_inj {s : VState V} {w : Values V} (v : VInv s w) {i j t u b : Nat}
    (hi : s.vars[i]? = some (t, b)) (hj : s.vars[j]? = some (u, b)) : i = j := by
  have h1 : (s.vars.map (·.2)).Nodup := (List.nodup_append.mp v.nodup).1
  have hi' : (s.vars.map (·.2))[i]? = some b := by simp [hi]
  have hj' : (s.vars.map (·.2))[j]? = some b := by simp [hj]
  exact (List.getElem?_inj (lt_of_some hi') h1).mp (hi'.trans hj'.symm)

/-- The contents of one message change. -/
theorem VInv.upd {s : VState V} {w : Values V} (v : VInv s w) {i t b : Nat} (hi : s.vars[i]? = some (t, b))
    {h' : VHeap V} {R' : VRow V} {c' : List (VTree V)} {F' : List Nat}
    (hl : s.heap.length ≤ h'.length) (hs : ∀ x < s.heap.length, x ≠ b → h'[x]? = s.heap[x]?)
    (hb : h'[b]? = some (.rows [R'])) (hr : RowIs h' R' c' F') (hF : ∀ x ∈ F', x ∉ muts s) :
    VInv { s with heap := h' } { w with vars := w.vars.set i (t, c') } := by
  refine ⟨by simp [v.vlen], v.ilen, ?_, v.nodup, fun x hx => Nat.lt_of_lt_of_le (v.lt x hx) hl⟩
  intro j u b' hj
  by_cases hij : j = i
  · subst hij
    obtain ⟨rfl, rfl⟩ : t = u ∧ b = b' := by
      have : some (t, b) = some (u, b') := hi.symm.trans hj
      simpa using this
    refine ⟨c', R', F', ?_, hb, hr, hF⟩
    have hlt : j < w.vars.length := by rw [← v.vlen]; exact lt_of_some hi
    show (w.vars.set j (t, c'))[j]? = _
    rw [List.getElem?_set, if_pos rfl, if_pos hlt]
  · obtain ⟨c, R, F, e1, e2, e3, e4⟩ := v.var j u b' hj
    have hne : b' ≠ b := by
      rintro rfl
      exact hij (muts_inj v hj hi)
    refine ⟨c, R, F, ?_, ?_, e3.frame fun x hx => ?_, e4⟩
    · show (w.vars.set i (t, c'))[j]? = _
      rw [List.getElem?_set, if_neg (Ne.symm hij)]; exact e1
    · show h'[b']? = _
      rw [hs b' (v.lt b' (mem_muts_var hj)) hne]; exact e2
    · refine hs x (e3.lt x hx) ?_
      rintro rfl
      exact e4 x hx (mem_muts_var hi)

/-- Nothing that a message reads changes. -/
theorem VInv.same {s : VState V} {w : Values V} (v : VInv s w) {h' : VHeap V} {j t b : Nat}
    (hj : s.vars[j]? = some (t, b))
    (hs : ∀ x < s.heap.length, x ∉ s.inputs → h'[x]? = s.heap[x]?) :
    ∃ (c : List (VTree V)) (R : VRow V) (F : List Nat), w.vars[j]? = some (t, c) ∧ h'[b]? = some (.rows [R]) ∧ RowIs h' R c F ∧
      (∀ x ∈ F, x ∉ muts s) ∧ ∀ x ∈ F, x < s.heap.length := by
  obtain ⟨c, R, F, e1, e2, e3, e4⟩ := v.var j t b hj
  have hb : b ∉ s.inputs := by
    intro hx
    have := (List.nodup_append.mp v.nodup).2.2 b (by
      have := List.mem_of_getElem? hj
      exact List.mem_map.mpr ⟨_, this, rfl⟩) b hx
    exact this rfl
  refine ⟨c, R, F, e1, ?_, e3.frame fun x hx => ?_, e4, e3.lt⟩
  · rw [hs b (v.lt b (mem_muts_var hj)) hb]; exact e2
  · refine hs x (e3.lt x hx) fun hin => e4 x hx ?_
    simp [muts, hin]

theorem step_ok (T : VTypes) {s : VState V} {w w' : Values V} (v : VInv s w) : ∀ (o : VOp V), Plain o →
    ViewSpec.step T w o = some w' → ∃ s', s.step T o = .ok s' ∧ VInv s' w'
  | .new t, _, hw => by
    obtain rfl : { w with vars := w.vars ++ [(t, blank T t)] } = w' := by
      simpa [ViewSpec.step] using hw
    refine ⟨_, rfl, by simp [v.vlen], v.ilen, ?_, ?_, ?_⟩
    · intro j u b hj
      have hj : (s.vars ++ [(t, s.heap.length)])[j]? = some (u, b) := hj
      by_cases hjl : j < s.vars.length
      · rw [List.getElem?_append_left hjl] at hj
        obtain ⟨c, R, F, e1, e2, e3, e4, e5⟩ := v.same hj
          (h' := s.heap ++ [.rows [zeroRow T t]]) fun x hx _ => get_append hx
        refine ⟨c, R, F, ?_, e2, e3, fun x hx => ?_⟩
        · show (w.vars ++ _)[j]? = _
          rw [List.getElem?_append_left (by rw [← v.vlen]; exact hjl)]; exact e1
        · have h1 := e4 x hx
          have h2 := e5 x hx
          simp only [muts, List.map_append, List.mem_append, not_or] at h1 ⊢
          refine ⟨⟨h1.1, ?_⟩, h1.2⟩
          simp; omega
      · rw [List.getElem?_append_right (by omega)] at hj
        have h0 : j - s.vars.length = 0 := by
          have := lt_of_some hj; simp at this; omega
        rw [h0] at hj
        obtain ⟨rfl, rfl⟩ : t = u ∧ s.heap.length = b := by simpa using hj
        refine ⟨blank T t, zeroRow T t, [], ?_, get_new, zero_row T _ t, by simp⟩
        show (w.vars ++ _)[j]? = _
        rw [List.getElem?_append_right (by rw [← v.vlen]; omega), ← v.vlen, h0]; rfl
    · have hx : s.heap.length ∉ muts s := fun hx => Nat.lt_irrefl _ (v.lt _ hx)
      have := v.nodup
      simp only [muts, List.mem_append, not_or] at hx
      simp only [muts, List.map_append, List.nodup_append] at this ⊢
      refine ⟨⟨this.1, by simp, ?_⟩, this.2.1, ?_⟩
      · intro y hy z hz
        simp only [List.map, List.mem_singleton] at hz
        subst hz; rintro rfl; exact hx.1 hy
      · intro y hy z hz
        rcases List.mem_append.mp hy with hy | hy
        · exact this.2.2 y hy z hz
        · simp only [List.map, List.mem_singleton] at hy
          subst hy; rintro rfl; exact hx.2 hz
    · intro x hx
      show x < (s.heap ++ _).length
      simp only [muts, List.map_append, List.mem_append] at hx
      simp only [List.length_append, List.length_singleton]
      rcases hx with (hx | hx) | hx
      · have := v.lt x (by simp only [muts, List.mem_append]; exact .inl hx); omega
      · simp at hx; omega
      · have := v.lt x (by simp only [muts, List.mem_append]; exact .inr hx); omega
  | .input vs, _, hw => by
    obtain rfl : { w with inputs := w.inputs ++ [vs] } = w' := by
      simpa [ViewSpec.step] using hw
    refine ⟨_, rfl, v.vlen, by simp [v.ilen], ?_, ?_, ?_⟩
    · intro j u b hj
      have hj : s.vars[j]? = some (u, b) := hj
      obtain ⟨c, R, F, e1, e2, e3, e4, e5⟩ := v.same hj (h' := s.heap ++ [.vals vs])
        fun x hx _ => get_append hx
      refine ⟨c, R, F, e1, e2, e3, fun x hx => ?_⟩
      have h1 := e4 x hx
      have h2 := e5 x hx
      simp only [muts, List.mem_append, not_or, List.mem_singleton] at h1 ⊢
      exact ⟨h1.1, h1.2, by omega⟩
    · have hx : s.heap.length ∉ muts s := fun hx => Nat.lt_irrefl _ (v.lt _ hx)
      have hn : (muts s ++ [s.heap.length]).Nodup := by
        rw [List.nodup_append]
        refine ⟨v.nodup, by simp, ?_⟩
        intro y hy z hz
        rw [List.mem_singleton.mp hz]
        rintro rfl; exact hx hy
      simpa [muts] using hn
    · intro x hx
      show x < (s.heap ++ _).length
      simp only [muts, List.mem_append, List.mem_singleton] at hx
      simp only [List.length_append, List.length_singleton]
      rcases hx with hx | hx | hx
      · have := v.lt x (by simp only [muts, List.mem_append]; exact .inl hx); omega
      · have := v.lt x (by simp only [muts, List.mem_append]; exact .inr hx); omega
      · omega
  | .reuse j vs, _, hw => by
    simp only [ViewSpec.step] at hw
    split at hw
    · next hj =>
      obtain rfl : { w with inputs := w.inputs.set j vs } = w' := by simpa using hw
      obtain ⟨b, hb⟩ : ∃ b, s.inputs[j]? = some b :=
        ⟨_, List.getElem?_eq_getElem (by rw [v.ilen]; exact hj)⟩
      refine ⟨{ s with heap := s.heap.set b (.vals vs) }, by simp only [VState.step, hb], v.vlen,
        by simp [v.ilen], ?_, v.nodup, fun x hx => by simpa using v.lt x hx⟩
      intro i u b' hi
      obtain ⟨c, R, F, e1, e2, e3, e4, e5⟩ := v.same hi (h' := s.heap.set b (.vals vs))
        (fun x hx hin => by
          rw [List.getElem?_set, if_neg]
          rintro rfl; exact hin (List.mem_of_getElem? hb))
      exact ⟨c, R, F, e1, e2, e3, e4⟩
    · cases hw
  | .read i j us, hp, hw => by
    simp only [ViewSpec.step, ViewSpec.readInto] at hw
    split at hw
    · next inp t c0 hin hvar =>
      split at hw
      · next c' ok hu =>
        obtain rfl : { w with vars := w.vars.set i (t, c') } = w' := by simpa using hw
        obtain ⟨ib, hib⟩ : ∃ b, s.inputs[j]? = some b :=
          ⟨_, List.getElem?_eq_getElem (by rw [v.ilen]; exact lt_of_some hin)⟩
        obtain ⟨⟨t', b⟩, hb⟩ : ∃ p, s.vars[i]? = some p :=
          ⟨_, List.getElem?_eq_getElem (by rw [v.vlen]; exact lt_of_some hvar)⟩
        obtain ⟨c, R, F, e1, e2, e3, e4⟩ := v.var i t' b hb
        obtain ⟨rfl, rfl⟩ : t' = t ∧ c = c0 := by
          have := e1.symm.trans hvar
          simpa using this
        have hbl := lt_of_some e2
        have hput : putRow s.heap b 0 (zeroRow T t') = .ok (s.heap.set b (.rows [zeroRow T t'])) :=
          putRow_eq e2 (r := 0) rfl
        have o : Own (s.heap.set b (.rows [zeroRow T t'])) b 0 [zeroRow T t'] (zeroRow T t') (blank T t') [] :=
          ⟨by rw [List.getElem?_set, if_pos rfl, if_pos hbl], rfl, zero_row T _ t', by simp, by simp⟩
        obtain ⟨h', rs', R', F', p1, p2, p3⟩ := applyAll_ok T ib inp us t' b 0 false hp o hu
        have hRs : rs' = [R'] := by
          have h1 := p3.rlen
          have h2 := p2.row
          match rs', h1, h2 with
          | [x], _, h2 => simpa using h2
        refine ⟨{ s with heap := h' }, ?_, v.upd hb (by simpa using p3.len) ?_ (by rw [← hRs]; exact p2.blk)
          p2.is ?_⟩
        · simp only [VState.step, VState.readInto, hb, hib, bind, Res.bind, if_true, hput, p1]
        · intro x hx hxb
          rw [p3.same x (by simpa using hx) hxb (by simp), List.getElem?_set, if_neg (Ne.symm hxb)]
        · intro x hx hm
          rcases p3.foot x hx with h | h
          · simp at h
          · have := v.lt x hm; simp at h; omega
      · cases hw
    · cases hw
  | .merge _ _ _, hp, _ => hp.elim
  | .assign i a, _, hw => by
    simp only [ViewSpec.step] at hw
    split at hw
    · next t c0 u c hvar hg =>
      split at hw
      · next htu =>
        subst htu
        obtain rfl : { w with vars := w.vars.set i (t, c) } = w' := by simpa using hw
        obtain ⟨⟨t', b⟩, hb⟩ : ∃ p, s.vars[i]? = some p :=
          ⟨_, List.getElem?_eq_getElem (by rw [v.vlen]; exact lt_of_some hvar)⟩
        obtain ⟨c1, R, F, e1, e2, e3, e4⟩ := v.var i t' b hb
        obtain ⟨rfl, rfl⟩ : t' = t ∧ c1 = c0 := by
          have := e1.symm.trans hvar
          simpa using this
        have hbl := lt_of_some e2
        obtain ⟨R', G, f1, f2, f3⟩ := v.find_some hg
        have hput : putRow s.heap b 0 R' = .ok (s.heap.set b (.rows [R'])) :=
          putRow_eq e2 (r := 0) rfl
        refine ⟨{ s with heap := s.heap.set b (.rows [R']) }, ?_, v.upd hb (by simp) ?_
          (by rw [List.getElem?_set, if_pos rfl, if_pos hbl]) (f2.frame fun x hx => ?_) f3⟩
        · simp only [VState.step, hb, f1, if_true, bind, Res.bind, hput]
        · intro x hx hxb
          rw [List.getElem?_set, if_neg (Ne.symm hxb)]
        · rw [List.getElem?_set, if_neg]
          rintro rfl; exact f3 _ hx (mem_muts_var hb)
      · cases hw
    · cases hw

theorem run_ok (T : VTypes) : ∀ (ops : List (VOp V)) {s : VState V} {w w' : Values V}, VInv s w →
    (∀ o ∈ ops, Plain o) → ViewSpec.run T ops w = some w' → ∃ s', s.run T ops = .ok s' ∧ VInv s' w'
  | [], s, w, w', v, _, hw => by
    obtain rfl : w = w' := by simpa [ViewSpec.run] using hw
    exact ⟨s, rfl, v⟩
  | o :: os, s, w, w', v, hp, hw => by
    simp only [ViewSpec.run] at hw
    split at hw
    · next w1 h1 =>
      obtain ⟨s1, p1, p2⟩ := step_ok T v o (hp o (by simp)) h1
      obtain ⟨s2, q1, q2⟩ := run_ok T os p2 (fun o ho => hp o (by simp [ho])) hw
      refine ⟨s2, ?_, q2⟩
      simp only [VState.run, p1, bind, Res.bind]
      exact q1
    · cases hw

end HppProto.ViewMem
