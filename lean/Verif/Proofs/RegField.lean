import Verif.Proofs.RegRead
/-! # Simulation of the contiguous archive by the region machine: repeated fields, members, messages -/
namespace HppProto
open Spec

variable {H : Mems} {tot : List Byte} {contig : Bool} {G : Ghost} {s : Arch} {f : Flat} {T : Prop} {C : Cfg} {w : Nat}

theorem Sim.late {β γ} {Q : β → γ → Prop} {D : β → Prop} {E : γ → Prop} {x : Res β} {y : Res γ} (h : Out T D x)
    (hy : ∀ c, y = .ok c → E c) : Sim T Q D E x y :=
  ⟨h.1, fun c e => .inr ⟨hy c e, h.2⟩, fun b e => .inr (h.2 b e)⟩

theorem fine_of_bind {α β} {x : Res α} {k : α → Res β} (h : (x >>= k).Fine T) : x.Fine T := by
  cases x with
  | ok a => exact fine_ok _
  | err e => exact fine_err _
  | ub => exact absurd rfl h.1
  | stuck => exact absurd rfl h.2.1
  | throw => exact fine_throw (h.2.2 rfl)

theorem neg_pos (h : s.avail contig < 0) : ¬ 0 < (regOps H contig).avail s := by
  show ¬ 0 < s.avail contig
  omega

theorem neg_zero (h : s.avail contig < 0) : ¬ (regOps H contig).avail s = 0 := by
  show ¬ s.avail contig = 0
  omega

theorem neg_le (h : s.avail contig < 0) : (regOps H contig).avail s ≤ 0 := by
  show s.avail contig ≤ 0
  omega

/-! ## Counting and reading a run -/

section
variable {σ : Type} {O : Ops σ} {l : Level σ} {tag : BitVec 32}

theorem count_ge' : ∀ fuel c (s : σ) n, countUnpackedLoop O l tag fuel c s = .ok n → c + 1 ≤ n
  | 0, c, s, n, h => by simp [countUnpackedLoop] at h
  | fuel + 1, c, s, n, h => by
    simp only [countUnpackedLoop] at h
    rw [res_bind_ok] at h
    obtain ⟨t, -, h⟩ := h
    split at h
    · cases h; omega
    · rw [res_bind_ok] at h
      obtain ⟨⟨t', tg⟩, -, h⟩ := h
      simp only at h
      split at h
      · have := count_ge' _ _ _ _ h; omega
      · cases h; omega

theorem countGroups_eq' (hw : tagType tag = wtSGroup) (h0 : tag ≠ 0#32) : ∀ fuel c (s : σ),
    countGroupsLoop O l tag fuel c s = countUnpackedLoop O l tag fuel c s
  | 0, c, s => rfl
  | fuel + 1, c, s => by
    have e : doSkipField O l tag s = l.skipGrp (tagNumber tag) s := by
      unfold doSkipField
      rw [if_neg h0, hw]; rfl
    simp only [countGroupsLoop, countUnpackedLoop, countGroups_eq' hw h0 fuel, e]

/-- Count the elements of a run, then read them. -/
def countRead (O : Ops σ) (l : Level σ) (tag : BitVec 32) (elem : Msg → σ → Res (σ × Msg)) (fuel cnt : Nat) (m : Msg) (s : σ) :
    Res (σ × Msg) :=
  countUnpackedLoop O l tag fuel cnt s >>= fun c => elemLoop O elem (c - cnt) m s

/-- The rest of `countRead` after the first element turned out to be followed by its tag. -/
def countMore (O : Ops σ) (l : Level σ) (tag : BitVec 32) (elem : Msg → σ → Res (σ × Msg)) (fuel cnt : Nat) (m : Msg) (s s2 : σ) :
    Res (σ × Msg) :=
  countUnpackedLoop O l tag fuel (cnt + 1) s2 >>= fun c => elemLoop O elem (c - cnt) m s

variable {elem : Msg → σ → Res (σ × Msg)}

theorem countRead_succ {fuel cnt : Nat} {m : Msg} {s : σ} : countRead O l tag elem (fuel + 1) cnt m s =
    (doSkipField O l tag s >>= fun s1 => if O.avail s1 = 0 then elem m s else
      O.readTag s1 >>= fun x => if x.2 = tag then countMore O l tag elem fuel cnt m s x.1 else elem m s) := by
  unfold countRead
  simp only [countUnpackedLoop]
  show Res.bind (Res.bind _ _) _ = Res.bind _ _
  cases doSkipField O l tag s with
  | ok s1 =>
    simp only [Res.bind]
    by_cases h : O.avail s1 = 0
    · rw [if_pos h, if_pos h]
      simp only [Nat.add_sub_cancel_left]
      rfl
    · rw [if_neg h, if_neg h]
      show Res.bind (Res.bind _ _) _ = Res.bind _ _
      cases O.readTag s1 with
      | ok x =>
        obtain ⟨s2, t⟩ := x
        simp only [Res.bind]
        by_cases ht : t = tag
        · rw [if_pos ht, if_pos ht]; rfl
        · rw [if_neg ht, if_neg ht]
          simp only [Nat.add_sub_cancel_left]
          rfl
      | _ => rfl
  | _ => rfl

theorem elemLoop_two {n : Nat} {m : Msg} {s : σ} (hn : 2 ≤ n) : elemLoop O elem n m s =
    (elem m s >>= fun x => O.readTag x.1 >>= fun y => elemLoop O elem (n - 1) x.2 y.1) := by
  obtain ⟨n, rfl⟩ : ∃ k, n = k + 2 := ⟨n - 2, by omega⟩
  rfl

theorem res_congr {α β} {x : Res α} {k k' : α → Res β} (h : ∀ a, x = .ok a → k a = k' a) : (x >>= k) = (x >>= k') := by
  cases x with
  | ok a => exact h a rfl
  | _ => rfl

theorem countMore_step {fuel cnt : Nat} {m m' : Msg} {s s' s2 s3 : σ} {t} (h1 : elem m s = .ok (s', m'))
    (h2 : O.readTag s' = .ok (s3, t)) :
    countMore O l tag elem fuel cnt m s s2 =
    (countUnpackedLoop O l tag fuel (cnt + 1) s2 >>= fun c => elemLoop O elem (c - (cnt + 1)) m' s3) := by
  refine res_congr fun c hc => ?_
  have := count_ge' _ _ _ _ hc
  rw [elemLoop_two (by omega), h1]
  show Res.bind (O.readTag s') _ = _
  rw [h2]
  show elemLoop O elem (c - cnt - 1) m' s3 = _
  congr 1

theorem countMore_fail {fuel cnt : Nat} {m : Msg} {s s2 : σ} (h1 : ∀ c, elem m s ≠ .ok c) :
    ∀ c, countMore O l tag elem fuel cnt m s s2 ≠ .ok c := by
  intro c h
  unfold countMore at h
  rw [res_bind_ok] at h
  obtain ⟨n, hc, h⟩ := h
  have := count_ge' _ _ _ _ hc
  rw [elemLoop_two (by omega), res_bind_ok] at h
  obtain ⟨x, h, -⟩ := h
  exact h1 _ h

end

section
variable {l : Level Arch} {lf : Level Flat} (LS : LSim T H tot contig l lf) {S : Sem} (A : Agrees lf S)

theorem R.advance_eq {s s' : Arch} (h : R H tot contig G s f) (h' : R H tot contig G s' f) : s.advance = s'.advance := by
  obtain ⟨r, L, p, n, h, rfl⟩ := h
  obtain ⟨r', L', p', n', h', e⟩ := h'
  have : p = p' := by
    rw [← flatAt_prev h.bound, ← flatAt_prev h'.bound, e]
  subst this
  rw [h.lin, h'.lin]

theorem R.readTag_eq {s s' : Arch} (h : R H tot contig G s f) (h' : R H tot contig G s' f) :
    (regOps H contig).readTag s = (regOps H contig).readTag s' := by
  rw [reg_readTag, reg_readTag, h.advance_eq h']

include A in
theorem elem_skip {mode k unique tag i m c} {hd : List Byte} (ht : isTag hd tag) (h0 : tag ≠ 0#32) (hw : tagType tag = k.wireType)
    (h : readElem C flatOps lf mode k unique tag i m f = .ok c) : doSkipField flatOps lf tag f = .ok c.1 := by
  obtain ⟨r, h1, h2, h3, h4, h5⟩ := (readElem_iff A ht h0 hw).1 h
  exact (A.skip ht _ _).2 ⟨r, h1, h2, h3, depth_of_elem A h5, h4⟩

theorem fixed_skip {mode unique tag i m f1} {k : Kind} (h0 : tag ≠ 0#32) (hw : tagType tag = k.wireType) (hk : k.far ≠ 0)
    (h : doSkipField flatOps lf tag f = .ok f1) : ∃ c, readElem C flatOps lf mode k unique tag i m f = .ok c := by
  have key : ∀ n, flatOps.skip n f = .ok f1 → ∃ v, flatOps.fixed n f = .ok (f1, v) := by
    intro n h
    have h' : (if n ≤ f.rest.length then Res.ok (f.consume n) else .err .badMessage) = .ok f1 := h
    split at h'
    · rename_i hn
      cases h'
      exact ⟨_, if_pos hn⟩
    · cases h'
  cases k with
  | scalar sc =>
    cases sc with
    | fixed32 b =>
      have e : doSkipField flatOps lf tag f = flatOps.skip 4 f := by
        unfold doSkipField
        rw [if_neg h0, hw]; rfl
      rw [e] at h
      obtain ⟨v, hv⟩ := key 4 h
      refine ⟨(f1, appendVals m i [.num v]), ?_⟩
      have e2 : readScalar C flatOps (.fixed32 b) tag f = .ok (f1, .num v) := by
        unfold readScalar
        rw [if_neg (fun h => h hw)]
        simp only
        rw [hv]; rfl
      simp only [readElem]
      rw [e2]; rfl
    | fixed64 b =>
      have e : doSkipField flatOps lf tag f = flatOps.skip 8 f := by
        unfold doSkipField
        rw [if_neg h0, hw]; rfl
      rw [e] at h
      obtain ⟨v, hv⟩ := key 8 h
      refine ⟨(f1, appendVals m i [.num v]), ?_⟩
      have e2 : readScalar C flatOps (.fixed64 b) tag f = .ok (f1, .num v) := by
        unfold readScalar
        rw [if_neg (fun h => h hw)]
        simp only
        rw [hv]; rfl
      simp only [readElem]
      rw [e2]; rfl
    | _ => exact absurd rfl hk
  | _ => exact absurd rfl hk

include LS

theorem elem_dead {mode unique tag i m f1} {k : Kind} (h0 : tag ≠ 0#32) (hw : tagType tag = k.wireType)
    (h : RV H tot contig G w 5 s f) (hs : doSkipField flatOps lf tag f = .ok f1)
    (hn : ∀ c, readElem C flatOps lf mode k unique tag i m f ≠ .ok c) {n : Nat} (h2 : 2 ≤ n) :
    Out T (fun _ => False) (elemLoop (regOps H contig) (readElem C (regOps H contig) l mode k unique tag i) n m s) := by
  have hk : k.far = 0 := by
    by_cases hk : k.far = 0
    · exact hk
    · obtain ⟨c, hc⟩ := fixed_skip (C := C) (mode := mode) (unique := unique) (i := i) (m := m) h0 hw hk hs
      exact absurd hc (hn c)
  rw [elemLoop_two h2]
  have SE := sim_readElem (C := C) (mode := mode) (k := k) (unique := unique) (tag := tag) (i := i) (m := m) LS h
  have OE : Out T (fun b => DE H tot contig 0 b.1) (readElem C (regOps H contig) l mode k unique tag i m s) := by
    refine ⟨SE.1, fun b e => ?_⟩
    rcases SE.2.2 b e with ⟨c, hc, -⟩ | hd
    · exact absurd hc (hn c)
    · rw [hk] at hd; exact hd
  refine OE.bind (fun b _ hd => ?_)
  rw [de_readTag hd (by omega)]
  show Out _ _ (elemLoop _ _ (n - 1) b.2 b.1.advance)
  have hdl := hd.advance.1
  by_cases h3 : 2 ≤ n - 1
  · rw [elemLoop_two h3]
    exact (dl_readElem LS hk hdl).bind (fun _ _ h => h.elim)
  · rw [show n - 1 = 1 by omega]
    exact dl_readElem LS hk hdl

include A in
theorem sim_countRead {mode unique tag i} {k : Kind} {hd : List Byte} (ht : isTag hd tag) (h0 : tag ≠ 0#32)
    (hw : tagType tag = k.wireType) : ∀ fuel cnt m s f, f.rest.length < fuel → RV H tot contig G 0 5 s f →
    Sim T (QM H tot contig G) (fun b => b.1.avail contig < 0) (fun c => Doomed c.1)
      (countRead (regOps H contig) l tag (readElem C (regOps H contig) l mode k unique tag i) fuel cnt m s)
      (countRead flatOps lf tag (readElem C flatOps lf mode k unique tag i) fuel cnt m f)
  | 0, _, _, _, _, hf, _ => by omega
  | fuel + 1, cnt, m, s, f, hf, h => by
    have SE := sim_readElem (C := C) (mode := mode) (k := k) (unique := unique) (tag := tag) (i := i) (m := m) LS h
    have SE' : Sim T (QM H tot contig G) (fun b => b.1.avail contig < 0) (fun c => Doomed c.1)
      (readElem C (regOps H contig) l mode k unique tag i m s) (readElem C flatOps lf mode k unique tag i m f) :=
      SE.mono (fun _ _ _ _ h => h) (fun _ _ h => h.avail) (fun _ _ h => h.elim)
    have SK := sim_doSkip (tag := tag) LS h
    rw [countRead_succ, countRead_succ]
    by_cases hF : ∃ f1, doSkipField flatOps lf tag f = .ok f1
    · obtain ⟨f1, hF⟩ := hF
      have hprog : f1.rest.length + 1 ≤ f.rest.length := by
        obtain ⟨r, k1, -, -, -, k5⟩ := (A.skip ht _ _).1 hF
        have := k5.length
        have := payload_pos k1
        omega
      obtain ⟨s1, hS, hR⟩ : ∃ s1, doSkipField (regOps H contig) l tag s = .ok s1 ∧ R H tot contig G s1 f1 := by
        rcases SK.2.1 f1 hF with h | h
        · exact h
        · exact h.1.elim
      rw [hF, hS]
      show Sim _ _ _ _ (if (regOps H contig).avail s1 = 0 then _ else _) (if flatOps.avail f1 = 0 then _ else _)
      rw [show (regOps H contig).avail s1 = flatOps.avail f1 from hR.avail]
      refine Sim.ite (fun _ => SE') fun hav => ?_
      obtain ⟨f2, t, hT⟩ := ops_readTag_total f1
      have ST := sim_readTag (T := T) hR
      rcases ST.2.1 _ hT with ⟨⟨s2, t'⟩, e1, q1, q2, q3⟩ | ⟨⟨e0, hdoom, ef⟩, hall⟩
      · simp only at q1 q2 q3
        subst q1
        rw [hT, e1]
        show Sim _ _ _ _ (if t' = tag then _ else _) (if t' = tag then _ else _)
        refine Sim.ite (fun et => ?_) fun _ => SE'
        subst et
        have hrv := (q3 h0).mono (Nat.zero_le _) (Nat.le_refl 5)
        have hlt : f2.rest.length < fuel := by
          obtain ⟨h', a, -⟩ := (ops_readTag h0).1 hT
          have := a.length
          omega
        by_cases hE : ∃ c, readElem C flatOps lf mode k unique t' i m f = .ok c
        · obtain ⟨⟨f', m'⟩, hE⟩ := hE
          have e2 := elem_skip A ht h0 hw hE
          rw [hF] at e2
          cases e2
          obtain ⟨⟨s', m''⟩, hE', qq1, qq2⟩ : ∃ b, readElem C (regOps H contig) l mode k unique t' i m s = .ok b ∧
              QM H tot contig G b (f', m') := by
            rcases SE.2.1 _ hE with h | h
            · exact h
            · exact h.1.elim
          simp only at qq1 qq2
          subst qq1
          have e3 : (regOps H contig).readTag s' = .ok (s2, t') := by rw [qq2.readTag_eq hR, e1]
          simp only
          rw [countMore_step hE' e3, countMore_step hE hT]
          exact sim_countRead ht h0 hw fuel (cnt + 1) m'' s2 f2 hlt hrv
        · have hE' : ∀ c, readElem C flatOps lf mode k unique t' i m f ≠ .ok c := fun c hc => hE ⟨c, hc⟩
          refine Sim.dead ?_ (countMore_fail hE')
          have hfc := fine_of_bind (sim_countRead (mode := mode) (unique := unique) (i := i) ht h0 hw fuel (cnt + 1) m s2 f2 hlt hrv).1
          refine Out.bind (D := fun c => cnt + 2 ≤ c) ⟨hfc, fun c hc => ?_⟩ (fun c hc hge => ?_)
          · have := count_ge' _ _ _ _ hc; omega
          · exact (elem_dead LS h0 hw h hF hE' (by omega)).none
      · simp only at e0 hdoom ef
        subst e0 ef
        rw [hT]
        show Sim _ _ _ _ _ (if (0 : BitVec 32) = tag then _ else _)
        rw [if_neg (fun e => h0 e.symm)]
        have hlate : ∀ c, readElem C flatOps lf mode k unique tag i m f = .ok c → Doomed c.1 := by
          intro c hc
          have e2 := elem_skip A ht h0 hw hc
          rw [hF] at e2
          cases e2
          exact hdoom
        cases e1 : (regOps H contig).readTag s1 with
        | ok b =>
          obtain ⟨s2, t'⟩ := b
          have hdv : DV H tot contig G s2 := hall _ e1
          show Sim _ _ _ _ (if t' = tag then _ else _) _
          by_cases et : t' = tag
          · rw [if_pos et]
            refine Sim.late ?_ hlate
            subst et
            have hne := List.length_pos_iff.2 hdoom.1
            obtain ⟨fuel, rfl⟩ : ∃ k, fuel = k + 1 := ⟨fuel - 1, by omega⟩
            have OC : Out T (fun c => c = cnt + 2) (countUnpackedLoop (regOps H contig) l t' (fuel + 1) (cnt + 1) s2) := by
              simp only [countUnpackedLoop]
              refine (dv_doSkip LS hdv).bind (fun b _ hds => ?_)
              rw [if_neg (show ¬ (regOps H contig).avail b = 0 by
                have := hds.avail
                show ¬ b.avail contig = 0
                omega), de_readTag hds.1 (by omega)]
              show Out _ _ (if (0 : BitVec 32) = t' then _ else _)
              rw [if_neg (fun e => h0 e.symm)]
              exact Out.ok rfl
            refine OC.bind (fun c _ ec => ?_)
            subst ec
            rw [show cnt + 2 - cnt = 2 by omega]
            by_cases hE : ∃ c, readElem C flatOps lf mode k unique t' i m f = .ok c
            · obtain ⟨⟨f', m'⟩, hE⟩ := hE
              have e2 := elem_skip A ht h0 hw hE
              rw [hF] at e2
              cases e2
              obtain ⟨⟨s', m''⟩, hE', qq1, qq2⟩ : ∃ b, readElem C (regOps H contig) l mode k unique t' i m s = .ok b ∧
                  QM H tot contig G b (f', m') := by
                rcases SE.2.1 _ hE with h | h
                · exact h
                · exact h.1.elim
              have e3 : (regOps H contig).readTag s' = .ok (s2, t') := by rw [R.readTag_eq qq2 hR, e1]
              rw [elemLoop_two (by omega), hE']
              show Out _ _ (Res.bind ((regOps H contig).readTag s') _)
              rw [e3]
              exact dv_readElem LS hdv
            · exact (elem_dead LS h0 hw h hF (fun c hc => hE ⟨c, hc⟩) (by omega)).none
          · rw [if_neg et]
            exact SE'
        | err e => exact Sim.late Out.err hlate
        | throw => exact Sim.late (x := (Res.throw : Res (Arch × Msg))) ⟨fine_throw (ST.1.2.2 e1), fun _ h => by cases h⟩ hlate
        | ub => exact absurd e1 ST.1.1
        | stuck => exact absurd e1 ST.1.2.1
    · refine Sim.dead ?_ (fun c hc => ?_)
      · have OK : Out T (DS H tot contig G) (doSkipField (regOps H contig) l tag s) := by
          refine ⟨SK.1, fun b hb => ?_⟩
          rcases SK.2.2 b hb with ⟨c, hc, -⟩ | hd
          · exact absurd ⟨c, hc⟩ hF
          · exact hd
        refine OK.bind (fun b _ hds => ?_)
        rw [if_neg (show ¬ (regOps H contig).avail b = 0 by
          have := hds.avail
          show ¬ b.avail contig = 0
          omega), de_readTag hds.1 (by omega)]
        show Out _ _ (if (0 : BitVec 32) = tag then _ else _)
        rw [if_neg (fun e => h0 e.symm)]
        refine ⟨SE.1, fun b hb => ?_⟩
        rcases SE.2.2 b hb with ⟨c, hc, -⟩ | hd
        · exact absurd ⟨_, elem_skip A ht h0 hw hc⟩ hF
        · exact hd.avail
      · rw [res_bind_ok] at hc
        obtain ⟨f1, h1, -⟩ := hc
        exact hF ⟨f1, h1⟩

/-! ## Repeated fields -/

include A in
theorem sim_readRepeated {mode number k unique tag i m} {hd : List Byte} (ht : isTag hd tag) (h0 : tag ≠ 0#32)
    (h : RV H tot contig G w 5 s f) :
    Sim T (QM H tot contig G) (fun b => b.1.avail contig < 0) (fun c => Doomed c.1)
      (readRepeated C (regOps H contig) l mode number k unique tag i m s) (readRepeated C flatOps lf mode number k unique tag i m f) := by
  have hlen : f.rest.length < fuelOf flatOps f := by
    have := ops_avail f; unfold fuelOf; omega
  have key : tagType tag = k.wireType → Sim T (QM H tot contig G) (fun b => b.1.avail contig < 0) (fun c => Doomed c.1)
      (countUnpackedLoop (regOps H contig) l tag (fuelOf (regOps H contig) s) 0 s >>= fun c =>
        elemLoop (regOps H contig) (readElem C (regOps H contig) l mode k unique tag i) c m s)
      (countUnpackedLoop flatOps lf tag (fuelOf flatOps f) 0 f >>= fun c =>
        elemLoop flatOps (readElem C flatOps lf mode k unique tag i) c m f) := by
    intro hw
    rw [h.toR.fuel]
    exact sim_countRead LS A ht h0 hw _ 0 m s f hlen (h.mono (Nat.zero_le _) (Nat.le_refl 5))
  cases k with
  | scalar sc =>
    refine Sim.ite (fun _ => ?_) fun _ => Sim.ite (fun _ => Sim.err) fun hw => key (Decidable.not_not.1 hw)
    exact (sim_readPacked h).mono (fun _ _ _ _ h => h) (fun _ _ h => h) (fun _ _ h => h.elim)
  | msg id => exact Sim.ite (fun _ => Sim.err) fun hw => key (Decidable.not_not.1 hw)
  | group id =>
    refine Sim.ite (fun _ => Sim.err) fun hw => ?_
    rw [countGroups_eq' (Decidable.not_not.1 hw) h0, countGroups_eq' (Decidable.not_not.1 hw) h0]
    exact key (Decidable.not_not.1 hw)

theorem dv_readRepeated {mode number k unique tag i m} (h0 : tag ≠ 0#32) (h : DV H tot contig G s) :
    Out T (fun b => b.1.avail contig < 0) (readRepeated C (regOps H contig) l mode number k unique tag i m s) := by
  have key : Out T (fun b => b.1.avail contig < 0)
      (countUnpackedLoop (regOps H contig) l tag (fuelOf (regOps H contig) s) 0 s >>= fun c =>
        elemLoop (regOps H contig) (readElem C (regOps H contig) l mode k unique tag i) c m s) := by
    have OC : Out T (fun c => c = 1) (countUnpackedLoop (regOps H contig) l tag (fuelOf (regOps H contig) s) 0 s) := by
      show Out T (fun c => c = 1) (countUnpackedLoop (regOps H contig) l tag ((s.avail contig).toNat + 1) 0 s)
      simp only [countUnpackedLoop]
      refine (dv_doSkip LS h).bind (fun b _ hds => ?_)
      rw [if_neg (show ¬ (regOps H contig).avail b = 0 by
        have := hds.avail
        show ¬ b.avail contig = 0
        omega), de_readTag hds.1 (by omega)]
      show Out _ _ (if (0 : BitVec 32) = tag then _ else _)
      rw [if_neg (fun e => h0 e.symm)]
      exact Out.ok rfl
    refine OC.bind (fun c _ ec => ?_)
    subst ec
    exact dv_readElem LS h
  cases k with
  | scalar sc =>
    exact Out.ite (fun _ => dv_readPacked h) fun _ => Out.ite (fun _ => Out.err) fun hw => key
  | msg id => exact Out.ite (fun _ => Out.err) fun hw => key
  | group id =>
    refine Out.ite (fun _ => Out.err) fun hw => ?_
    rw [countGroups_eq' (Decidable.not_not.1 hw) h0]
    exact key

/-! ## Members -/

omit LS in
theorem findAlt_isSome {n : BitVec 32} : ∀ (alts : List (BitVec 32 × Kind)) j, alts.any (fun a => a.1 == n) = true →
    findAlt n alts j ≠ none := by
  intro alts
  induction alts with
  | nil => simp
  | cons a as ih =>
    intro j h
    simp only [findAlt]
    by_cases e : a.1 = n
    · simp [e]
    · rw [if_neg e]
      rw [List.any_cons] at h
      exact ih _ (by simpa [e] using h)

include A in
theorem sim_readSlot {mode tag i sd m} {hd : List Byte} (ht : isTag hd tag) (h0 : tag ≠ 0#32)
    (hsd : sd.hasNumber (tagNumber tag) = true) (hT : ∀ alts, sd = .oneof alts → ∀ a ∈ alts, a.2.closed = true → T)
    (h : RV H tot contig G w 5 s f) :
    Sim T (QM H tot contig G) (fun b => b.1.avail contig < 0) (fun c => Doomed c.1)
      (readSlot C (regOps H contig) l mode tag i sd m s) (readSlot C flatOps lf mode tag i sd m f) := by
  have val : ∀ k old (g : Val → Msg), Sim T (QM H tot contig G) (fun b => b.1.avail contig < 0) (fun c => Doomed c.1)
      (readValue C (regOps H contig) l k tag old s >>= fun p => .ok (p.1, g p.2))
      (readValue C flatOps lf k tag old f >>= fun p => .ok (p.1, g p.2)) := fun k old g =>
    (sim_readValue LS h).bind (fun b c _ _ hq => Sim.ok ⟨by rw [hq.1], hq.2⟩) (fun b _ hd => Out.ok hd) (fun _ _ h => h.elim)
  have cls : ∀ sc (g : Val ⊕ Val → Res Msg), (∀ x, (g x).Fine T) →
      Sim T (QM H tot contig G) (fun b => b.1.avail contig < 0) (fun c => Doomed c.1)
      (readClosed C (regOps H contig) sc tag s >>= fun p => g p.2 >>= fun m => .ok (p.1, m))
      (readClosed C flatOps sc tag f >>= fun p => g p.2 >>= fun m => .ok (p.1, m)) := by
    intro sc g hg
    refine (sim_readClosed h).bind (fun b c _ _ hq => ?_) (fun b _ hd => ?_) (fun _ _ h => h.elim)
    · rw [← hq.1]
      have := hg b.2
      cases hx : g b.2 with
      | ok m => exact Sim.ok ⟨rfl, hq.2⟩
      | err e => exact Sim.err
      | throw => rw [hx] at this; exact Sim.throw (this.2.2 rfl) (fun _ h => by cases h)
      | ub => rw [hx] at this; exact absurd rfl this.1
      | stuck => rw [hx] at this; exact absurd rfl this.2.1
    · exact ⟨fine_bind (hg _) (fun _ _ => fine_ok _), fun d hd' => by
        rw [res_bind_ok] at hd'
        obtain ⟨_, -, e⟩ := hd'
        cases e
        exact hd⟩
  have clsE : ∀ sc (g : Val ⊕ Val → Res Msg) (kr : Arch × (Val ⊕ Val) → Res (Arch × Msg)) (kf : Flat × (Val ⊕ Val) → Res (Flat × Msg)),
      (∀ x, (g x).Fine T) → (∀ s x, kr (s, x) = (g x >>= fun m => .ok (s, m))) → (∀ s x, kf (s, x) = (g x >>= fun m => .ok (s, m))) →
      Sim T (QM H tot contig G) (fun b => b.1.avail contig < 0) (fun c => Doomed c.1)
      (readClosed C (regOps H contig) sc tag s >>= kr) (readClosed C flatOps sc tag f >>= kf) := by
    intro sc g kr kf hg h1 h2
    have := cls sc g hg
    rwa [show (fun p : Arch × (Val ⊕ Val) => g p.2 >>= fun m => Res.ok (p.1, m)) = kr from funext fun p => (h1 p.1 p.2).symm,
      show (fun p : Flat × (Val ⊕ Val) => g p.2 >>= fun m => Res.ok (p.1, m)) = kf from funext fun p => (h2 p.1 p.2).symm] at this
  cases sd with
  | field number k card =>
    cases card with
    | implicit d => exact val k _ (fun v => m.put i [(0, v)])
    | always d =>
      cases k with
      | scalar sc =>
        exact clsE sc (fun x => match x with
          | .inl v => .ok (m.put i [(0, v)])
          | .inr _ => .err .valueTooLarge) _ _ (fun x => by
            cases x
            · exact fine_ok _
            · exact fine_err _)
          (fun s x => by cases x <;> rfl) (fun s x => by cases x <;> rfl)
      | msg id => exact val (.msg id) _ (fun v => m.put i [(0, v)])
      | group id => exact val (.group id) _ (fun v => m.put i [(0, v)])
    | optional =>
      cases k with
      | scalar sc =>
        exact clsE sc (fun x => match x with
          | .inl v => .ok (m.put i [(0, v)])
          | .inr v => .ok (m.addUnk mode number (unkEnumRecord number v.bits))) _ _ (fun x => by cases x <;> exact fine_ok _)
          (fun s x => by cases x <;> rfl) (fun s x => by cases x <;> rfl)
      | msg id => exact val (.msg id) _ (fun v => m.put i [(0, v)])
      | group id => exact val (.group id) _ (fun v => m.put i [(0, v)])
    | repeated p => exact sim_readRepeated LS A ht h0 h
    | map u => exact sim_readRepeated LS A ht h0 h
  | oneof alts =>
    simp only [readSlot]
    cases hf : findAlt (tagNumber tag) alts 0 with
    | none => exact absurd hf (findAlt_isSome alts 0 hsd)
    | some p =>
      obtain ⟨j, k⟩ := p
      cases k with
      | scalar sc =>
        refine clsE sc (fun x => match x with
          | .inl v => if (Kind.scalar sc).closed && !((m.get i).map Prod.fst == [j]) then .throw else .ok (m.put i [(j, v)])
          | .inr v => .ok (m.addUnk mode (tagNumber tag) (unkEnumRecord (tagNumber tag) v.bits))) _ _ (fun x => ?_)
          (fun s x => ?_) (fun s x => ?_)
        · cases x
          · refine fine_ite (fun hc => fine_throw ?_) (fun _ => fine_ok _)
            obtain ⟨a, ha, he⟩ := findAlt_mem hf
            exact hT alts rfl a ha (by rw [he]; simp only [Bool.and_eq_true] at hc; exact hc.1)
          · exact fine_ok _
        · cases x
          · simp only; split <;> rfl
          · rfl
        · cases x
          · simp only; split <;> rfl
          · rfl
      | msg id => exact val (.msg id) _ (fun v => m.put i [(j, v)])
      | group id => exact val (.group id) _ (fun v => m.put i [(j, v)])

theorem dv_readSlot {mode tag i sd m} (h0 : tag ≠ 0#32)
    (hsd : sd.hasNumber (tagNumber tag) = true) (hT : ∀ alts, sd = .oneof alts → ∀ a ∈ alts, a.2.closed = true → T)
    (h : DV H tot contig G s) :
    Out T (fun b => b.1.avail contig < 0) (readSlot C (regOps H contig) l mode tag i sd m s) := by
  have val : ∀ k old (g : Val → Msg), Out T (fun b => b.1.avail contig < 0)
      (readValue C (regOps H contig) l k tag old s >>= fun p => .ok (p.1, g p.2)) := fun k old g =>
    (dv_readValue LS h).bind (fun b _ hd => Out.ok hd)
  cases sd with
  | field number k card =>
    cases card with
    | implicit d => exact val k _ (fun v => m.put i [(0, v)])
    | always d =>
      cases k with
      | scalar sc =>
        refine (dv_readClosed h).bind (fun b _ hd => ?_)
        obtain ⟨b1, b2⟩ := b
        cases b2
        · exact Out.ok hd
        · exact Out.err
      | msg id => exact val (.msg id) _ (fun v => m.put i [(0, v)])
      | group id => exact val (.group id) _ (fun v => m.put i [(0, v)])
    | optional =>
      cases k with
      | scalar sc =>
        refine (dv_readClosed h).bind (fun b _ hd => ?_)
        obtain ⟨b1, b2⟩ := b
        cases b2 <;> exact Out.ok hd
      | msg id => exact val (.msg id) _ (fun v => m.put i [(0, v)])
      | group id => exact val (.group id) _ (fun v => m.put i [(0, v)])
    | repeated p => exact dv_readRepeated LS h0 h
    | map u => exact dv_readRepeated LS h0 h
  | oneof alts =>
    simp only [readSlot]
    cases hf : findAlt (tagNumber tag) alts 0 with
    | none => exact absurd hf (findAlt_isSome alts 0 hsd)
    | some p =>
      obtain ⟨j, k⟩ := p
      cases k with
      | scalar sc =>
        refine (dv_readClosed h).bind (fun b _ hd => ?_)
        obtain ⟨b1, b2⟩ := b
        cases b2
        · refine Out.ite (fun hc => ⟨fine_throw ?_, fun _ h => by cases h⟩) (fun _ => Out.ok hd)
          obtain ⟨a, ha, he⟩ := findAlt_mem hf
          exact hT alts rfl a ha (by rw [he]; simp only [Bool.and_eq_true] at hc; exact hc.1)
        · exact Out.ok hd
      | msg id => exact val (.msg id) _ (fun v => m.put i [(j, v)])
      | group id => exact val (.group id) _ (fun v => m.put i [(j, v)])

include A in
theorem sim_readField {D : MsgD} (hT : ∀ alts, SlotD.oneof alts ∈ D.slots → ∀ a ∈ alts, a.2.closed = true → T) {tag m}
    {hd : List Byte} (ht : isTag hd tag) (h : RV H tot contig G (varintSize 32 tag.toNat) 5 s f) :
    Sim T (QM H tot contig G) (fun b => b.1.avail contig < 0) (fun c => Doomed c.1)
      (readField C (regOps H contig) l D tag m s) (readField C flatOps lf D tag m f) := by
  unfold readField
  refine Sim.ite (fun _ => Sim.err) fun hn => ?_
  have h0 : tag ≠ 0#32 := by rintro rfl; exact hn rfl
  cases hf : D.find (tagNumber tag) with
  | some i =>
    simp only
    obtain ⟨hi, hp, -⟩ := List.findIdx?_eq_some_iff_getElem.1 hf
    rw [List.getElem?_eq_getElem hi]
    exact sim_readSlot LS A ht h0 hp (fun alts e => hT alts (e ▸ List.getElem_mem hi)) h
  | none =>
    simp only
    rw [show (regOps H contig).avail s = flatOps.avail f from h.toR.avail]
    exact Sim.ite (fun _ => sim_skipField LS A ht h) fun _ => Sim.err

theorem dv_readField {D : MsgD} (hT : ∀ alts, SlotD.oneof alts ∈ D.slots → ∀ a ∈ alts, a.2.closed = true → T) {tag m}
    (h : DV H tot contig G s) :
    Out T (fun b => b.1.avail contig < 0) (readField C (regOps H contig) l D tag m s) := by
  unfold readField
  refine Out.ite (fun _ => Out.err) fun hn => ?_
  have h0 : tag ≠ 0#32 := by rintro rfl; exact hn rfl
  cases hf : D.find (tagNumber tag) with
  | some i =>
    simp only
    obtain ⟨hi, hp, -⟩ := List.findIdx?_eq_some_iff_getElem.1 hf
    rw [List.getElem?_eq_getElem hi]
    exact dv_readSlot LS h0 hp (fun alts e => hT alts (e ▸ List.getElem_mem hi)) h
  | none =>
    simp only
    rw [if_neg (show ¬ 0 < (regOps H contig).avail s by
      have := h.avail
      show ¬ 0 < s.avail contig
      omega)]
    exact Out.err

/-! ## Loops -/

omit LS in
theorem doomed_readTag (h : Doomed f) : flatOps.readTag f = .ok (f, 0#32) := by
  show (match rdTag f.rest with
    | some (n, t) => Res.ok (f.consume n, t)
    | none => .ok (f, 0)) = _
  rw [h.2]; rfl

omit LS in
theorem readField_zero {σ} {O : Ops σ} {l : Level σ} {D : MsgD} {m : Msg} {s : σ} : readField C O l D 0#32 m s = .err .badMessage :=
  if_pos rfl

omit LS in
theorem readField_shorter (A : Agrees lf S) {D : MsgD} {tag m s0} {s : Flat} {c} {hd : List Byte} (a : Adv s0 hd s) (ht : isTag hd tag)
    (h : readField C flatOps lf D tag m s = .ok c) : c.1.rest.length < s0.rest.length := by
  obtain ⟨r, rs, k1, k2, -⟩ := readField_sound A a ht h
  have := k2.length
  have : 0 < (rawAll (r :: rs)).length := by
    rw [rawAll_cons]; simp only [List.length_append]
    unfold wfAll at k1
    have := isTag_pos (wf_tag k1.1).1
    omega
  omega

omit LS in
theorem doomed_msgLoop {D : MsgD} {fuel m} (h : Doomed f) : ∀ c, msgLoop C flatOps lf D fuel m f ≠ .ok c := by
  intro c hc
  cases fuel with
  | zero => cases hc
  | succ fuel =>
    have hp := List.length_pos_iff.2 h.1
    simp only [msgLoop] at hc
    rw [if_pos (by rw [ops_avail]; omega), doomed_readTag h] at hc
    simp only [show ∀ k : Flat × BitVec 32 → Res (Flat × Msg), (Res.ok (f, 0#32) >>= k) = k (f, 0#32) from fun _ => rfl,
      readField_zero] at hc
    cases hc

omit LS in
theorem doomed_grpLoop {D : MsgD} {number fuel m} (h : Doomed f) : ∀ c, grpLoop C flatOps lf D number fuel m f ≠ .ok c := by
  intro c hc
  cases fuel with
  | zero => cases hc
  | succ fuel =>
    have hp := List.length_pos_iff.2 h.1
    simp only [grpLoop] at hc
    rw [if_pos (by rw [ops_avail]; omega), doomed_readTag h] at hc
    simp only [show ∀ k : Flat × BitVec 32 → Res (Flat × Msg), (Res.ok (f, 0#32) >>= k) = k (f, 0#32) from fun _ => rfl,
      readField_zero] at hc
    rw [if_neg (by rintro ⟨h, -⟩; revert h; decide)] at hc
    cases hc

include A in
theorem sim_msgLoop {D : MsgD} (hT : ∀ alts, SlotD.oneof alts ∈ D.slots → ∀ a ∈ alts, a.2.closed = true → T) :
    ∀ fuel m s f, f.rest.length < fuel → R H tot contig G s f →
    Sim T (QM H tot contig G) (fun _ => False) (fun _ => False)
      (msgLoop C (regOps H contig) l D fuel m s) (msgLoop C flatOps lf D fuel m f)
  | 0, _, _, _, hf, _ => by omega
  | fuel + 1, m, s, f, hf, h => by
    have neg : ∀ {m s}, 0 < fuel → s.avail contig < 0 → Out T (fun _ => False) (msgLoop C (regOps H contig) l D fuel m s) := by
      intro m s h0 hn
      obtain ⟨fuel, rfl⟩ : ∃ k, fuel = k + 1 := ⟨fuel - 1, by omega⟩
      simp only [msgLoop]
      rw [if_neg (neg_pos hn), if_neg (neg_zero hn)]
      exact Out.err
    simp only [msgLoop]
    rw [show (regOps H contig).avail s = flatOps.avail f from h.avail]
    refine Sim.ite (fun hav => ?_) fun _ => Sim.ite (fun _ => Sim.ok ⟨rfl, h⟩) fun _ => Sim.err
    rw [ops_avail] at hav
    refine (sim_readTag h).bind (fun b c e1 e2 hq => ?_) (fun b _ hdv => ?_) (fun c _ he d hd => ?_)
    · obtain ⟨b1, t⟩ := b
      obtain ⟨c1, c2⟩ := c
      obtain ⟨q1, q2, q3⟩ := hq
      simp only at q1 q2 q3
      subst q1
      by_cases h0 : t = 0#32
      · subst h0
        simp only [readField_zero]
        exact Sim.err
      · obtain ⟨hd, a, ht⟩ := (ops_readTag h0).1 e2
        refine (sim_readField LS A hT ht (q3 h0)).bind (fun b c _ e3 hq => ?_) (fun b _ hd => neg (by omega) hd)
          (fun c _ he d hd => absurd hd (doomed_msgLoop he d))
        obtain ⟨b1, b2⟩ := b
        obtain ⟨d1, d2⟩ := c
        obtain ⟨q1, q2⟩ := hq
        simp only at q1 q2
        subst q1
        have := readField_shorter A a ht e3
        exact sim_msgLoop hT fuel _ _ _ (by simp only at this ⊢; omega) q2
    · exact (dv_readField LS hT hdv).bind (fun b _ hd => neg (by omega) hd)
    · obtain ⟨c1, c2⟩ := c
      obtain ⟨e0, -⟩ := he
      simp only at e0 hd
      subst e0
      rw [readField_zero] at hd
      cases hd

include A in
theorem sim_grpLoop {D : MsgD} (hT : ∀ alts, SlotD.oneof alts ∈ D.slots → ∀ a ∈ alts, a.2.closed = true → T) {number} :
    ∀ fuel m s f, f.rest.length < fuel → R H tot contig G s f →
    Sim T (QM H tot contig G) (fun b => DE H tot contig 0 b.1) (fun _ => False)
      (grpLoop C (regOps H contig) l D number fuel m s) (grpLoop C flatOps lf D number fuel m f)
  | 0, _, _, _, hf, _ => by omega
  | fuel + 1, m, s, f, hf, h => by
    have neg : ∀ {m s}, 0 < fuel → s.avail contig < 0 →
        Out T (fun b => DE H tot contig 0 b.1) (grpLoop C (regOps H contig) l D number fuel m s) := by
      intro m s h0 hn
      obtain ⟨fuel, rfl⟩ : ∃ k, fuel = k + 1 := ⟨fuel - 1, by omega⟩
      simp only [grpLoop]
      rw [if_neg (neg_pos hn)]
      exact Out.err
    simp only [grpLoop]
    rw [show (regOps H contig).avail s = flatOps.avail f from h.avail]
    refine Sim.ite (fun hav => ?_) fun _ => Sim.err
    rw [ops_avail] at hav
    refine (sim_readTag h).bind (fun b c e1 e2 hq => ?_) (fun b _ hdv => ?_) (fun c _ he d hd => ?_)
    · obtain ⟨b1, t⟩ := b
      obtain ⟨c1, c2⟩ := c
      obtain ⟨q1, q2, q3⟩ := hq
      simp only at q1 q2 q3
      subst q1
      refine Sim.ite (fun _ => Sim.ok ⟨rfl, q2⟩) fun _ => ?_
      by_cases h0 : t = 0#32
      · subst h0
        simp only [readField_zero]
        exact Sim.err
      · obtain ⟨hd, a, ht⟩ := (ops_readTag h0).1 e2
        refine (sim_readField LS A hT ht (q3 h0)).bind (fun b c _ e3 hq => ?_) (fun b _ hd => neg (by omega) hd)
          (fun c _ he d hd => absurd hd (doomed_grpLoop he d))
        obtain ⟨b1, b2⟩ := b
        obtain ⟨d1, d2⟩ := c
        obtain ⟨q1, q2⟩ := hq
        simp only at q1 q2
        subst q1
        have := readField_shorter A a ht e3
        exact sim_grpLoop hT fuel _ _ _ (by simp only at this ⊢; omega) q2
    · exact Out.ite (fun _ => Out.ok hdv.toDS.1) fun _ => (dv_readField LS hT hdv).bind (fun b _ hd => neg (by omega) hd)
    · obtain ⟨c1, c2⟩ := c
      obtain ⟨e0, -⟩ := he
      simp only at e0 hd
      subst e0
      rw [if_neg (by rintro ⟨h, -⟩; revert h; decide), readField_zero] at hd
      cases hd

include A in
theorem sim_skipGroupLoop {number} : ∀ fuel s f, f.rest.length < fuel → R H tot contig G s f →
    Sim T (R H tot contig G) (DS H tot contig G) (fun _ => False)
      (skipGroupLoop (regOps H contig) l number fuel s) (skipGroupLoop flatOps lf number fuel f)
  | 0, _, _, hf, _ => by omega
  | fuel + 1, s, f, hf, h => by
    simp only [skipGroupLoop]
    rw [show (regOps H contig).avail s = flatOps.avail f from h.avail]
    refine Sim.ite (fun hav => ?_) fun _ => Sim.err
    rw [ops_avail] at hav
    refine (sim_readTag h).bind (fun b c e1 e2 hq => ?_) (fun b _ hdv => ?_) (fun c _ he d hd => ?_)
    · obtain ⟨b1, t⟩ := b
      obtain ⟨c1, c2⟩ := c
      obtain ⟨q1, q2, q3⟩ := hq
      simp only at q1 q2 q3
      subst q1
      simp only
      rw [show (regOps H contig).avail b1 = flatOps.avail c1 from q2.avail]
      refine Sim.ite (fun _ => Sim.ok q2) fun _ => Sim.ite (fun _ => Sim.err) fun _ => ?_
      by_cases h0 : t = 0#32
      · subst h0
        simp only [doSkipField, if_true]
        exact Sim.err
      · obtain ⟨hd, a, ht⟩ := (ops_readTag h0).1 e2
        refine (sim_doSkip LS (q3 h0)).bind (fun b c _ e3 hq => ?_) (fun b _ hd => ?_) (fun _ _ h => h.elim)
        · have := a.length
          obtain ⟨r, k1, -, -, -, k5⟩ := (A.skip ht _ _).1 e3
          have : c1.rest.length = _ := k5.length
          have := payload_pos k1
          exact sim_skipGroupLoop fuel _ _ (by omega) hq
        · obtain ⟨fuel, rfl⟩ : ∃ k, fuel = k + 1 := ⟨fuel - 1, by omega⟩
          simp only [skipGroupLoop]
          rw [if_neg (neg_pos hd.avail)]
          exact Out.err
    · refine Out.ite (fun _ => Out.ok hdv.toDS) fun _ => ?_
      rw [if_pos (neg_le hdv.avail)]
      exact Out.err
    · obtain ⟨c1, c2⟩ := c
      obtain ⟨e0, -⟩ := he
      simp only at e0 hd
      subst e0
      rw [if_neg (by rintro ⟨h, -⟩; revert h; decide)] at hd
      split at hd
      · cases hd
      · cases hd

end

/-! ## The reader -/

theorem sim_level (C : Cfg) (H : Mems) (tot : List Byte) (contig : Bool) :
    ∀ d, LSim (ClosedInOneof C) H tot contig (level C (regOps H contig) d) (level C flatOps d)
  | 0 => ⟨fun _ _ _ _ _ _ => Sim.err, fun _ _ _ _ _ _ _ => Sim.err, fun _ _ _ _ _ => Sim.err,
      fun _ _ _ _ _ => ⟨_, rfl⟩, fun _ _ _ => ⟨_, rfl⟩⟩
  | d + 1 => by
    have LS := sim_level C H tot contig d
    have A := level_agrees C d
    have hl : ∀ s : Flat, s.rest.length < fuelOf flatOps s := fun s => by
      have := ops_avail s; unfold fuelOf; omega
    have hT : ∀ id alts, SlotD.oneof alts ∈ (C.schema id).slots → ∀ a ∈ alts, a.2.closed = true → ClosedInOneof C :=
      fun id alts h a ha hc => ⟨id, alts, a, h, ha, hc⟩
    refine ⟨fun G id m s f h => ?_, fun G id num m s f h => ?_, fun G num s f h => ?_, fun id num m s h => ?_, fun num s h => ?_⟩
    · show Sim _ _ _ _ (msgBody C (regOps H contig) _ id m s) (msgBody C flatOps _ id m f)
      unfold msgBody
      simp only
      rw [show (regOps H contig).avail s = flatOps.avail f from h.toR.avail, h.toR.fuel]
      refine Sim.ite (fun hc => ?_) fun _ => sim_msgLoop LS A (hT id) _ _ _ _ (hl _) h.toR
      have h0 := hc.2
      rw [ops_avail] at h0
      refine (sim_peek (D := fun _ => False) (E := fun _ => False) h (by omega)).bind (fun b c _ _ hq => ?_) (fun _ _ h => h.elim) (fun _ _ h => h.elim)
      subst hq
      exact Sim.ite (fun _ => Sim.err) fun _ => sim_msgLoop LS A (hT id) _ _ _ _ (hl _) h.toR
    · show Sim _ _ _ _ (grpLoop C (regOps H contig) _ _ num _ m s) (grpLoop C flatOps _ _ num _ m f)
      rw [h.fuel]
      exact sim_grpLoop LS A (hT id) _ _ _ _ (hl _) h
    · show Sim _ _ _ _ (skipGroupLoop (regOps H contig) _ num _ s) (skipGroupLoop flatOps _ num _ f)
      rw [h.fuel]
      exact sim_skipGroupLoop LS A _ _ _ (hl _) h
    · refine ⟨.badMessage, ?_⟩
      show grpLoop C (regOps H contig) _ _ num ((s.avail contig).toNat + 1) m s = _
      simp only [grpLoop]
      rw [if_neg (neg_pos h)]
    · refine ⟨.badMessage, ?_⟩
      show skipGroupLoop (regOps H contig) _ num ((s.avail contig).toNat + 1) s = _
      simp only [skipGroupLoop]
      rw [if_neg (neg_pos h)]

end HppProto
