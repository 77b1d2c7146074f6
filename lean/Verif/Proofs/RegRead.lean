import Verif.Proofs.RegData
/-! # Simulation of the contiguous archive by the region machine: values, fields, messages -/
namespace HppProto
open Spec

variable {H : Mems} {tot : List Byte} {contig : Bool} {G : Ghost} {s : Arch} {f : Flat} {T : Prop} {C : Cfg}
  {r : Region} {L p n w : Nat}

theorem Sim.ite {β γ} {Q : β → γ → Prop} {D : β → Prop} {E : γ → Prop} {c : Prop} [Decidable c] {x x' : Res β} {y y' : Res γ}
    (h1 : c → Sim T Q D E x y) (h2 : ¬ c → Sim T Q D E x' y') :
    Sim T Q D E (if c then x else x') (if c then y else y') := by
  split
  · exact h1 ‹_›
  · exact h2 ‹_›

theorem Out.ite {β} {D : β → Prop} {c : Prop} [Decidable c] {x x' : Res β} (h1 : c → Out T D x) (h2 : ¬ c → Out T D x') :
    Out T D (if c then x else x') := by
  split
  · exact h1 ‹_›
  · exact h2 ‹_›

theorem Out.none {β} {D : β → Prop} {x : Res β} (h : Out T (fun _ => False) x) : Out T D x := h.mono (fun _ _ h => h.elim)

theorem DV.toDS (h : DV H tot contig G s) : DS H tot contig G s := by
  have h' := h
  obtain ⟨r, L, -, -, -, h2, -⟩ := h'
  have := h.consume (k := 0) (by omega)
  rwa [show ((0 : Nat) : Int) = 0 from rfl, consume_zero] at this

theorem DS.avail (h : DS H tot contig G s) : s.avail contig < 0 := h.1.avail

/-- Results of the readers of messages on the two archives. -/
def QM (H : Mems) (tot : List Byte) (contig : Bool) (G : Ghost) {α} (b : Arch × α) (c : Flat × α) : Prop :=
  b.2 = c.2 ∧ R H tot contig G b.1 c.1

/-- The readers one level down simulate each other. -/
structure LSim (T : Prop) (H : Mems) (tot : List Byte) (contig : Bool) (l : Level Arch) (lf : Level Flat) : Prop where
  msg : ∀ G id m s f, RV H tot contig G 0 11 s f →
    Sim T (QM H tot contig G) (fun _ => False) (fun _ => False) (l.msg id m s) (lf.msg id m f)
  grp : ∀ G id num m s f, R H tot contig G s f →
    Sim T (QM H tot contig G) (fun b => DE H tot contig 0 b.1) (fun _ => False) (l.grp id num m s) (lf.grp id num m f)
  skipGrp : ∀ G num s f, R H tot contig G s f →
    Sim T (R H tot contig G) (DS H tot contig G) (fun _ => False) (l.skipGrp num s) (lf.skipGrp num f)
  negGrp : ∀ id num m s, s.avail contig < 0 → ∃ e, l.grp id num m s = .err e
  negSkip : ∀ num s, s.avail contig < 0 → ∃ e, l.skipGrp num s = .err e

section
variable {l : Level Arch} {lf : Level Flat} (LS : LSim T H tot contig l lf)
include LS

/-! ## Skipping -/

theorem sim_doSkip {tag : BitVec 32} (h : RV H tot contig G w 5 s f) :
    Sim T (R H tot contig G) (DS H tot contig G) (fun _ => False) (doSkipField (regOps H contig) l tag s) (doSkipField flatOps lf tag f) := by
  unfold doSkipField
  refine Sim.ite (fun _ => Sim.err) fun _ => Sim.ite (fun _ => sim_skipVarint h) fun _ => Sim.ite (fun _ => ?_) fun _ =>
    Sim.ite (fun _ => sim_skip h.toR) fun _ => Sim.ite (fun _ => LS.skipGrp _ _ _ _ h.toR) fun _ =>
    Sim.ite (fun _ => sim_skip h.toR) fun _ => Sim.err
  unfold skipLen
  refine (sim_varint .u32 h).bind (fun b c _ _ hq => ?_) (fun b _ hd => ?_) (fun _ _ h => h.elim)
  · obtain ⟨b1, b2⟩ := b
    obtain ⟨c1, c2⟩ := c
    obtain ⟨q1, q2⟩ := hq
    simp only at q1 q2 ⊢
    subst q1
    exact sim_skip q2.toR
  · show Out T _ ((regOps H contig).skip b.2.toNat b.1)
    rw [neg_skip hd.avail]; exact Out.err

theorem dv_doSkip {tag : BitVec 32} (h : DV H tot contig G s) :
    Out T (DS H tot contig G) (doSkipField (regOps H contig) l tag s) := by
  have hn : ∀ k, Out T (DS H tot contig G) ((regOps H contig).skip k s) := fun k => by rw [neg_skip h.avail]; exact Out.err
  unfold doSkipField
  refine Out.ite (fun _ => Out.err) fun _ => Out.ite (fun _ => dv_skipVarint h) fun _ => Out.ite (fun _ => ?_) fun _ =>
    Out.ite (fun _ => hn 8) fun _ => Out.ite (fun _ => ?_) fun _ => Out.ite (fun _ => hn 4) fun _ => Out.err
  · unfold skipLen
    refine (dv_varint .u32 h).bind (fun b _ hd => ?_)
    show Out T _ ((regOps H contig).skip b.2.toNat b.1)
    rw [neg_skip hd.1.avail]; exact Out.err
  · obtain ⟨e, he⟩ := LS.negSkip (tagNumber tag) s h.avail
    rw [he]; exact Out.err

omit LS in
theorem ds_skipMatch {tag : BitVec 32} {fuel : Nat} (hf : 0 < fuel) (h : DS H tot contig G s) :
    Out T (DS H tot contig G) (skipMatchLoop (regOps H contig) l tag fuel s) := by
  obtain ⟨fuel, rfl⟩ : ∃ k, fuel = k + 1 := ⟨fuel - 1, by omega⟩
  obtain ⟨h1, h2, h3, h4⟩ := h
  simp only [skipMatchLoop]
  rw [de_matchTag h1 (by omega)]
  have ha := h1.advance
  exact Out.ok ⟨ha.1.toDE, h2, by rw [ha.2]; exact h3, h4⟩

theorem sim_skipMatch {S : Sem} (A : Agrees lf S) {hd : List Byte} {tag : BitVec 32} (ht : isTag hd tag) : ∀ fuel s f,
    f.rest.length < fuel → R H tot contig G s f →
    Sim T (R H tot contig G) (DS H tot contig G) Doomed (skipMatchLoop (regOps H contig) l tag fuel s)
      (skipMatchLoop flatOps lf tag fuel f)
  | 0, s, f, hf, _ => by omega
  | fuel + 1, s, f, hf, h => by
    have S1 := sim_matchTag (T := T) tag h
    simp only [skipMatchLoop]
    by_cases h0 : f.rest = []
    · have e : flatOps.matchTag f tag = .ok (f, false) := ops_matchTag_false.2 ⟨by rw [h0]; exact rdMatch_nil tag, rfl⟩
      rcases S1.2.1 _ e with ⟨⟨b1, b2⟩, e1, q1, q2, -⟩ | ⟨⟨-, he⟩, -⟩
      · simp only at q1; subst q1
        rw [e, e1]
        exact Sim.ok q2
      · exact absurd h0 he.1
    · have hp := List.length_pos_iff.2 h0
      refine S1.bind (fun b c e1 e2 hq => ?_) (fun b _ hdd => ?_) (fun c _ he d hd => ?_)
      · obtain ⟨b1, b2⟩ := b
        obtain ⟨c1, c2⟩ := c
        obtain ⟨q1, q2, q3⟩ := hq
        simp only at q1 q2 q3
        subst q1
        cases b2 with
        | false => exact Sim.ok q2
        | true =>
          refine (sim_doSkip LS (q3 rfl)).bind (fun b d _ e3 hq => ?_) (fun b _ hdd => ?_) (fun _ _ h => h.elim)
          · refine sim_skipMatch A ht fuel b d ?_ hq
            obtain ⟨h', a, -⟩ := ops_matchTag.1 e2
            obtain ⟨r, k1, -, -, -, k5⟩ := (A.skip ht _ _).1 e3
            have := k5.length
            have := a.length
            have := payload_pos k1
            omega
          · exact ds_skipMatch (by omega) hdd
      · obtain ⟨b1, b2⟩ := b
        obtain ⟨e1, hdv⟩ := hdd
        simp only at e1 hdv
        subst e1
        exact (dv_doSkip LS hdv).bind (fun b _ hdd => ds_skipMatch (by omega) hdd)
      · obtain ⟨c1, c2⟩ := c
        obtain ⟨e1, hdo⟩ := he
        simp only at e1 hdo
        subst e1
        cases hd
        exact hdo

theorem sim_skipFields {S : Sem} (A : Agrees lf S) {hd : List Byte} {tag : BitVec 32} (ht : isTag hd tag)
    (h : RV H tot contig G w 5 s f) :
    Sim T (R H tot contig G) (DS H tot contig G) Doomed (skipFieldsMatchTag (regOps H contig) l tag s)
      (skipFieldsMatchTag flatOps lf tag f) := by
  unfold skipFieldsMatchTag
  refine (sim_doSkip LS h).bind (fun b c _ _ hq => ?_) (fun b _ hdd => ?_) (fun _ _ h => h.elim)
  · rw [hq.fuel]
    refine sim_skipMatch LS A ht _ _ _ ?_ hq
    have := ops_avail c
    unfold fuelOf
    omega
  · exact ds_skipMatch (by unfold fuelOf; omega) hdd

omit LS in
theorem On.lift (h : On H tot contig G s r L p n) {s' r' L' p' n'}
    (h' : On H tot contig ⟨s, p, p + n, s.sec⟩ s' r' L' p' n') : On H tot contig G s' r' L' p' n' := by
  have hp : p ≤ p' := h'.p0
  have h0 := h.p0
  have hs : s'.sec ≤ s.sec := h'.sec
  have hl : p' + n' = p + n := h'.lim
  refine ⟨h'.at_, h'.pos, h'.left, by rw [hl]; exact h.lim, Int.le_trans hs h.sec, by omega, ?_⟩
  have e1 := h'.lin
  simp only at e1
  have e2 := h.lin
  rw [e1, ← advance_consume, e2, advance_consume, consume_consume]
  congr 2
  omega

omit LS in
theorem advance_fin {a : Arch} (hb : a.cur.slope < a.cur.beg) (hr : a.rest ≠ []) (x : Int) :
    Arch.advance ⟨⟨a.cur.buf, a.cur.beg, x, a.cur.slope⟩, a.rest, a.sec⟩ = a.advance := by
  obtain ⟨⟨buf, beg, fin, slope⟩, rest, sec⟩ := a
  cases rest with
  | nil => exact absurd rfl hr
  | cons r rs =>
    simp only at hb
    simp only [Arch.advance, advanceLoop]
    rw [if_pos (by simp only [Region.slopeDist]; omega), if_pos (by simp only [Region.slopeDist]; omega)]
    simp only [Region.slopeDist]

omit LS in
theorem rawLoop_advance {fuel N : Nat} {a b : Arch} (h : a.advance = b.advance) (h0 : N ≠ 0) :
    rawLoop H fuel N a = rawLoop H fuel N b := by
  cases fuel with
  | zero => rfl
  | succ fuel => simp only [rawLoop, if_neg h0, h]

omit LS in
/-- Copying skipped bytes that run past the limit is safe when they are inside the input. -/
theorem raw_dead {u : Arch} {pu N : Nat} (hu : Win H tot false u r L) (hub : u.cur.beg ≤ u.cur.fin)
    (hp : (pu : Int) = L + (u.cur.beg - r.beg)) (hs : 0 < u.sec) (hN : pu + N ≤ tot.length) :
    Out T (fun _ => True) (regRaw H false N (regSplit N u).1) := by
  have live : ∀ {a r L} {p : Nat}, Win H tot false a r L → (p : Int) = L + (a.cur.beg - r.beg) → (N : Int) = a.left →
      Out T (fun _ => True) (regRaw H false N a) := by
    intro a r L p h1 h2 h3
    exact ⟨(sim_raw (T := T) (N := N) (D := fun _ => True) ⟨r, L, p, N, On.self h1 h2 h3, rfl⟩).1, fun _ _ => trivial⟩
  have hsl := hu.slope
  have hfl := hu.finLe
  have hbeg := hu.beg
  have hlay := (lay_facts hu.lay).bs
  have hne : u.rest ≠ [] := by
    intro e
    have := (hu.last e).2.2
    omega
  have hwide := hu.wide hne
  unfold regSplit
  simp only
  by_cases hc : u.cur.fin < u.cur.beg ∨ (N : Int) ≤ u.cur.fin - u.cur.beg
  · rw [if_pos hc]
    refine live (r := r) (L := L) (p := pu) ⟨hu.lay, hu.buf, ?_, ?_, ?_, hbeg, ?_, ?_, ?_, ?_⟩ hp ?_ <;>
      (try simp only [Arch.left]) <;> (try omega)
    intro hcc; cases hcc
  · rw [if_neg hc]
    have hslope : u.cur.slope = r.slope := by
      rcases hu.form with f | f <;> omega
    have hWin : Win H tot false ⟨⟨u.cur.buf, u.cur.beg, r.fin, u.cur.slope⟩, u.rest, N + u.cur.slopeDist⟩ r L := by
      refine ⟨hu.lay, hu.buf, ?_, ?_, ?_, hbeg, ?_, ?_, ?_, ?_⟩ <;> (try simp only [Region.slopeDist]) <;> (try omega)
      · exact .inr ⟨trivial, by omega, hne⟩
      · intro hcc; cases hcc
    have hOn := On.self (p := pu) (n := N) hWin hp (by simp only [Arch.left, Region.slopeDist]; omega)
    unfold regRaw
    by_cases hav : Arch.avail false ⟨u.cur, u.rest, N + u.cur.slopeDist⟩ < (N : Int)
    · rw [if_pos hav]; exact Out.err
    · rw [if_neg hav, if_neg (by simp)]
      by_cases hb : u.cur.slope < u.cur.beg
      · rw [← rawLoop_advance (advance_fin (a := ⟨u.cur, u.rest, N + u.cur.slopeDist⟩) hb hne r.fin) (by omega)]
        obtain ⟨s', e, -⟩ := raw_live (N + 1) N (by omega) hOn (Nat.le_refl _)
        simp only at e ⊢
        rw [e]
        exact Out.ok trivial
      · have hform : u.cur.fin = u.cur.slope + u.sec ∨ u.cur.fin = r.fin := by
          rcases hu.form with f | f
          · exact .inl f
          · exact .inr f.1
        obtain ⟨k, hk⟩ : ∃ k : Nat, u.cur.fin = u.cur.beg + k := ⟨(u.cur.fin - u.cur.beg).toNat, by omega⟩
        have hk1 : 1 ≤ k := by omega
        have e1 : Arch.advance ⟨u.cur, u.rest, N + u.cur.slopeDist⟩ = ⟨u.cur, u.rest, N + u.cur.slopeDist⟩ :=
          advance_stop (by simp only [Region.slopeDist]; omega)
        have e2 : Arch.size ⟨u.cur, u.rest, N + u.cur.slopeDist⟩ = k := by simp only [Arch.size]; omega
        have e3 : H.bytes u.cur k = .ok ((tot.drop pu).take k) :=
          (hOn.bytes (k := k) (by simp only; omega)).1
        rw [rawLoop, if_neg (by omega), e1]
        simp only
        rw [e2, if_neg (by omega), show min N (k : Int).toNat = k by omega, e3]
        show Out _ _ (Res.bind _ _)
        simp only [Res.bind]
        rw [← rawLoop_advance (advance_fin (a := Arch.consume ⟨u.cur, u.rest, N + u.cur.slopeDist⟩ k) (by
          simp only [Arch.consume, Region.consume]; omega) hne r.fin) (by omega)]
        obtain ⟨s', e, -⟩ := raw_live N (N - k) (by omega) (hOn.consume (k := k) (by omega)) (Nat.le_refl _)
        simp only [Arch.consume, Region.consume] at e ⊢
        show Out _ _ (Res.bind _ _)
        rw [e]
        exact Out.ok trivial

theorem sim_skipField {S : Sem} (A : Agrees lf S) {hd : List Byte} {tag : BitVec 32} (ht : isTag hd tag) {mode m}
    (h : RV H tot contig G (varintSize 32 tag.toNat) 5 s f) :
    Sim T (QM H tot contig G) (fun b => b.1.avail contig < 0) (fun c => Doomed c.1)
      (skipField (regOps H contig) l mode tag m s) (skipField flatOps lf mode tag m f) := by
  unfold skipField
  refine Sim.ite (fun _ => ?_) fun _ => ?_
  · refine (sim_doSkip LS h).bind (fun b c _ _ hq => Sim.ok ⟨rfl, hq⟩) (fun b _ hdd => Out.ok hdd.avail) (fun _ _ h => h.elim)
  · obtain ⟨w, hw⟩ : ∃ w, w = varintSize 32 tag.toNat := ⟨_, rfl⟩
    rw [← hw] at h ⊢
    obtain ⟨r, L, p, n, h, rfl, hb, hk, hf⟩ := h
    have hbd := h.bound
    have hpos := h.pos
    have hleft := h.left
    have hwp : w ≤ p := by omega
    have eu : flatOps.unwind w (flatAt tot p n) = .ok (flatAt tot (p - w) (n + w)) := by
      show (if w ≤ (flatAt tot p n).prev.length then Res.ok _ else .ub) = _
      rw [if_pos (by rw [flatAt_prev hbd]; exact hwp), flatAt_unwind hwp hbd]
    have hu : Win H tot contig (s.consume (-w)) r L := h.at_.consume (by omega)
    have hul : (s.consume (-w)).left = n + w := by rw [consume_left]; omega
    have hup : ((p - w : Nat) : Int) = L + ((s.consume (-w)).cur.beg - r.beg) := by
      simp only [Arch.consume, Region.consume]; omega
    have huf : (s.consume (-w)).cur.beg ≤ (s.consume (-w)).cur.fin := by
      simp only [Arch.consume, Region.consume]; omega
    have hOn : On H tot contig _ (s.consume (-w)) r L (p - w) (n + w) := On.self hu hup (by rw [hul]; omega)
    rw [eu]
    show Sim _ _ _ _ (Res.bind (Res.ok (s.consume (-w))) _) (Res.bind (Res.ok _) _)
    simp only [Res.bind]
    have hRV : RV H tot contig ⟨s, p, p + n, s.sec⟩ w 5 s (flatAt tot p n) := ⟨r, L, p, n, h.reghost, rfl, hb, hk, hf⟩
    refine (sim_skipFields LS A ht hRV).bind (fun b c _ _ hq => ?_) (fun b _ hdd => ?_) (fun c _ he d hdd => ?_)
    · obtain ⟨r', L', p', n', h', rfl⟩ := hq
      have hl : p' + n' = p + n := h'.lim
      have hp' : p ≤ p' := h'.p0
      have e1 : ((regOps H contig).avail (s.consume (-w)) - (regOps H contig).avail b).toNat = w + (p' - p) := by
        show (Arch.avail contig _ - Arch.avail contig _).toNat = _
        rw [hOn.avail, h'.avail]; omega
      have e2 : (flatOps.avail (flatAt tot (p - w) (n + w)) - flatOps.avail (flatAt tot p' n')).toNat = w + (p' - p) := by
        rw [ops_avail, ops_avail, flatAt_length (by omega), flatAt_length h'.bound]; omega
      simp only [e1, e2]
      have e3 : flatOps.split (w + (p' - p)) (flatAt tot (p - w) (n + w)) =
          .ok (flatAt tot (p - w) (w + (p' - p)), (flatAt tot (p - w) (n + w)).consume (w + (p' - p))) := by
        show (if _ ≤ _ then Res.ok (_, _) else .ub) = _
        rw [if_pos (by rw [flatAt_length (by omega)]; omega), flatAt_take (by omega)]
      rw [e3]
      show Sim _ _ _ _ (Res.bind (Res.ok (regSplit _ _)) _) (Res.bind (Res.ok _) _)
      simp only [Res.bind]
      obtain ⟨G', h3, -, -⟩ := split_live hOn huf (N := w + (p' - p)) (by omega)
      refine (sim_raw (D := fun _ => False) (N := w + (p' - p)) ⟨r, L, p - w, w + (p' - p), h3, rfl⟩).bind (fun b2 c2 _ _ hq => ?_)
        (fun _ _ h => h.elim) (fun _ _ h => h.elim)
      exact Sim.ok ⟨by rw [hq.1], r', L', p', n', h.lift h', rfl⟩
    · obtain ⟨d1, d2, d3, d4⟩ := hdd
      subst d4
      have hav := d1.avail
      obtain ⟨rb, Lb, hbw, hbl, -⟩ := d1
      have d2' : 0 < s.sec := d2
      have d3' : ((p + n : Nat) : Int) - b.left ≤ tot.length := d3
      obtain ⟨N, hN⟩ : ∃ N, N = ((regOps H false).avail (s.consume (-w)) - (regOps H false).avail b).toNat := ⟨_, rfl⟩
      have hN2 : (N : Int) = n + w - b.left := by
        rw [hN]
        show ((Arch.avail false _ - Arch.avail false _).toNat : Int) = _
        rw [hOn.avail, hbw.avail]; omega
      simp only [← hN]
      have := raw_dead (T := T) (N := N) hu huf hup d2' (by omega)
      exact this.bind (fun b2 _ _ => Out.ok hav)
    · rw [res_bind_ok] at hdd
      obtain ⟨x, -, hdd⟩ := hdd
      rw [res_bind_ok] at hdd
      obtain ⟨y, -, hdd⟩ := hdd
      cases hdd
      exact he

/-! ## Sized messages -/

omit LS in
theorem neg_not {len : Nat} (h : s.avail contig < 0) : ¬ (len : Int) < (regOps H contig).avail s ∧ ¬ (len : Int) = (regOps H contig).avail s := by
  have : (regOps H contig).avail s = s.avail contig := rfl
  omega

theorem sim_sized {id m} (h : RV H tot contig G w 5 s f) :
    Sim T (QM H tot contig G) (fun _ => False) (fun _ => False) (sized C (regOps H contig) l id m s) (sized C flatOps lf id m f) := by
  unfold sized
  refine (sim_varint .u32 h).bind (fun b c _ _ hq => ?_) (fun b _ hd => ?_) (fun _ _ h => h.elim)
  · obtain ⟨b1, b2⟩ := b
    obtain ⟨c1, c2⟩ := c
    obtain ⟨q1, q2⟩ := hq
    simp only at q1 q2 ⊢
    subst q1
    have ea : (regOps H contig).avail b1 = flatOps.avail c1 := q2.toR.avail
    rw [ea]
    refine Sim.ite (fun _ => Sim.err) fun _ => Sim.ite (fun hlt => ?_) fun _ => Sim.ite (fun _ => LS.msg _ _ _ _ _ q2) fun _ => Sim.err
    rw [ops_avail] at hlt
    have es : flatOps.split b2.toNat c1 = .ok (⟨c1.prev, c1.rest.take b2.toNat⟩, c1.consume b2.toNat) := if_pos (by omega)
    rw [es]
    show Sim _ _ _ _ (Res.bind (Res.ok (regSplit _ _)) _) (Res.bind (Res.ok _) _)
    simp only [Res.bind]
    obtain ⟨r, L, p, n, h, rfl, k1, k2, k3⟩ := q2
    have hbd := h.bound
    rw [flatAt_length hbd] at hlt
    have hm : VarTy.u32.mix.maxLen ≤ 6 := by decide
    obtain ⟨G', h3, h4, h5⟩ := split_live h k3 (N := b2.toNat) (by omega)
    rw [flatAt_take (by omega), flatAt_consume (by omega) hbd]
    refine (LS.msg G' id m _ _ ⟨r, L, p, _, h3, rfl, by omega, by rw [h4]; omega, by rw [h4]; exact h5⟩).bind
      (fun b c _ _ hq => ?_) (fun _ _ h => h.elim) (fun _ _ h => h.elim)
    exact Sim.ok ⟨hq.1, r, L, _, _, h.consume (by omega), rfl⟩
  · have hn := neg_not (H := H) (len := b.2.toNat) hd.avail
    exact Out.ite (fun _ => Out.err) fun _ => by rw [if_neg hn.1, if_neg hn.2]; exact Out.err

theorem dv_sized {id m} (h : DV H tot contig G s) : Out T (fun _ => False) (sized C (regOps H contig) l id m s) := by
  unfold sized
  refine (dv_varint .u32 h).bind (fun b _ hd => ?_)
  have hn := neg_not (H := H) (len := b.2.toNat) hd.1.avail
  exact Out.ite (fun _ => Out.err) fun _ => by rw [if_neg hn.1, if_neg hn.2]; exact Out.err

omit LS in
theorem dl_sized {id m} (h : DL H tot contig 0 s) : Out T (fun _ => False) (sized C (regOps H contig) l id m s) := by
  unfold sized
  rw [dl_varint .u32 h]
  exact Out.err

/-! ## Scalars -/

/-- How far past the slope a read of a scalar can leave a state that is past its limit. -/
def Scalar.far : Scalar → Nat
  | .fixed32 _ | .fixed64 _ => 8
  | _ => 0

omit LS in
theorem sim_readScalar {sc tag} (h : RV H tot contig G w 5 s f) :
    Sim T (QM H tot contig G) (fun b => DE H tot contig sc.far b.1) (fun _ => False)
      (readScalar C (regOps H contig) sc tag s) (readScalar C flatOps sc tag f) := by
  unfold readScalar
  refine Sim.ite (fun _ => Sim.err) fun _ => ?_
  have vint : ∀ ty, Sim T (QM H tot contig G) (fun b => DE H tot contig 0 b.1) (fun _ => False)
      ((regOps H contig).varint ty s >>= fun x => .ok (x.1, Val.num x.2))
      (flatOps.varint ty f >>= fun x => .ok (x.1, Val.num x.2)) := fun ty =>
    (sim_varint ty h).bind (fun b c _ _ hq => Sim.ok ⟨by rw [hq.1], hq.2.toR⟩) (fun b _ hd => Out.ok hd.1) (fun _ _ h => h.elim)
  cases sc with
  | varint ty => exact vint ty
  | bool =>
    exact (sim_bool h).bind (fun b c _ _ hq => Sim.ok ⟨by rw [hq.1], hq.2⟩) (fun b _ hd => Out.ok hd.1) (fun _ _ h => h.elim)
  | enum vs => exact vint .i64
  | fixed32 k =>
    exact (sim_fixed (.inl rfl) h).bind (fun b c _ _ hq => Sim.ok ⟨by rw [hq.1], hq.2⟩) (fun b _ hd => Out.ok hd) (fun _ _ h => h.elim)
  | fixed64 k =>
    exact (sim_fixed (.inr rfl) h).bind (fun b c _ _ hq => Sim.ok ⟨by rw [hq.1], hq.2⟩) (fun b _ hd => Out.ok hd) (fun _ _ h => h.elim)
  | str u =>
    have S : Sim T (QM H tot contig G) (fun b => DE H tot contig 0 b.1) (fun _ => False)
        (readBytes C (regOps H contig) u s) (readBytes C flatOps u f) := by
      unfold readBytes
      refine (sim_varint .u32 h).bind (fun b c _ _ hq => ?_) (fun b _ hd => ?_) (fun _ _ h => h.elim)
      · obtain ⟨b1, b2⟩ := b
        obtain ⟨c1, c2⟩ := c
        obtain ⟨q1, q2⟩ := hq
        simp only at q1 q2 ⊢
        subst q1
        refine Sim.ite (fun _ => Sim.ite (fun _ => Sim.err) fun _ => Sim.ok ⟨rfl, q2.toR⟩) fun _ => ?_
        refine (sim_raw (D := fun _ => False) q2.toR).bind (fun b c _ _ hq => ?_) (fun _ _ h => h.elim) (fun _ _ h => h.elim)
        obtain ⟨b1, b2⟩ := b
        obtain ⟨c1, c2⟩ := c
        obtain ⟨q1, q2⟩ := hq
        simp only at q1 q2 ⊢
        subst q1
        exact Sim.ite (fun _ => Sim.err) fun _ => Sim.ok ⟨rfl, q2⟩
      · refine Out.ite (fun _ => Out.ite (fun _ => Out.err) fun _ => Out.ok hd.1) fun _ => ?_
        rw [neg_raw hd.avail]
        exact Out.err
    exact S.bind (fun b c _ _ hq => Sim.ok ⟨by rw [hq.1], hq.2⟩) (fun b _ hd => Out.ok hd) (fun _ _ h => h.elim)

omit LS in
theorem dv_readScalar {sc tag} (h : DV H tot contig G s) :
    Out T (fun b => DE H tot contig 0 b.1) (readScalar C (regOps H contig) sc tag s) := by
  unfold readScalar
  refine Out.ite (fun _ => Out.err) fun _ => ?_
  cases sc with
  | varint ty => exact (dv_varint ty h).bind (fun b _ hd => Out.ok hd.1.1)
  | bool => exact (dv_bool h).bind (fun b _ hd => Out.ok hd.1.1)
  | enum vs => exact (dv_varint .i64 h).bind (fun b _ hd => Out.ok hd.1.1)
  | fixed32 k => exact (dv_fixed (.inl rfl) h).bind (fun b _ hd => Out.ok hd)
  | fixed64 k => exact (dv_fixed (.inr rfl) h).bind (fun b _ hd => Out.ok hd)
  | str u =>
    have S : Out T (fun b => DE H tot contig 0 b.1) (readBytes C (regOps H contig) u s) := by
      unfold readBytes
      refine (dv_varint .u32 h).bind (fun b _ hd => ?_)
      refine Out.ite (fun _ => Out.ite (fun _ => Out.err) fun _ => Out.ok hd.1.1) fun _ => ?_
      rw [neg_raw hd.1.avail]
      exact Out.err
    exact S.bind (fun b _ hd => Out.ok hd)

omit LS in
theorem dl_readScalar {sc : Scalar} {tag} (hs : sc.far = 0) (h : DL H tot contig 0 s) :
    Out T (fun _ => False) (readScalar C (regOps H contig) sc tag s) := by
  unfold readScalar
  refine Out.ite (fun _ => Out.err) fun _ => ?_
  cases sc with
  | varint ty => simp only; rw [dl_varint ty h]; exact Out.err
  | bool => simp only; rw [dl_bool h]; exact Out.err
  | enum vs => simp only; rw [dl_varint .i64 h]; exact Out.err
  | fixed32 k => simp [Scalar.far] at hs
  | fixed64 k => simp [Scalar.far] at hs
  | str u => simp only [readBytes]; rw [dl_varint .u32 h]; exact Out.err

/-! ## Values -/

theorem sim_readMsg {k tag m} (h : RV H tot contig G w 5 s f) :
    Sim T (QM H tot contig G) (fun b => DE H tot contig 0 b.1) (fun _ => False)
      (readMsg C (regOps H contig) l k tag m s) (readMsg C flatOps lf k tag m f) := by
  cases k with
  | scalar sc => exact Sim.err
  | msg id =>
    exact Sim.ite (fun _ => (sim_sized LS h).mono (fun _ _ _ _ h => h) (fun _ _ h => h.elim) (fun _ _ h => h)) fun _ => Sim.err
  | group id => exact Sim.ite (fun _ => LS.grp _ _ _ _ _ _ h.toR) fun _ => Sim.err

theorem dv_readMsg {k tag m} (h : DV H tot contig G s) :
    Out T (fun _ => False) (readMsg C (regOps H contig) l k tag m s) := by
  cases k with
  | scalar sc => exact Out.err
  | msg id => exact Out.ite (fun _ => dv_sized LS h) fun _ => Out.err
  | group id =>
    refine Out.ite (fun _ => ?_) fun _ => Out.err
    obtain ⟨e, he⟩ := LS.negGrp id (tagNumber tag) m s h.avail
    rw [he]; exact Out.err

theorem sim_readValue {k tag old} (h : RV H tot contig G w 5 s f) :
    Sim T (QM H tot contig G) (fun b => b.1.avail contig < 0) (fun _ => False)
      (readValue C (regOps H contig) l k tag old s) (readValue C flatOps lf k tag old f) := by
  cases k with
  | scalar sc =>
    exact (sim_readScalar h).bind (fun b c _ _ hq => Sim.ok ⟨by rw [hq.1], hq.2⟩) (fun b _ hd => Out.ok hd.avail) (fun _ _ h => h.elim)
  | msg id =>
    exact (sim_readMsg LS h).bind (fun b c _ _ hq => Sim.ok ⟨by rw [hq.1], hq.2⟩) (fun b _ hd => Out.ok hd.avail) (fun _ _ h => h.elim)
  | group id =>
    exact (sim_readMsg LS h).bind (fun b c _ _ hq => Sim.ok ⟨by rw [hq.1], hq.2⟩) (fun b _ hd => Out.ok hd.avail) (fun _ _ h => h.elim)

theorem dv_readValue {k tag old} (h : DV H tot contig G s) :
    Out T (fun b => b.1.avail contig < 0) (readValue C (regOps H contig) l k tag old s) := by
  cases k with
  | scalar sc => exact (dv_readScalar h).bind (fun b _ hd => Out.ok hd.avail)
  | msg id => exact (dv_readMsg LS h).bind (fun _ _ h => h.elim)
  | group id => exact (dv_readMsg LS h).bind (fun _ _ h => h.elim)

omit LS in
theorem sim_readClosed {sc tag} (h : RV H tot contig G w 5 s f) :
    Sim T (QM H tot contig G) (fun b => b.1.avail contig < 0) (fun _ => False)
      (readClosed C (regOps H contig) sc tag s) (readClosed C flatOps sc tag f) := by
  refine (sim_readScalar h).bind (fun b c _ _ hq => ?_) (fun b _ hd => ?_) (fun _ _ h => h.elim)
  · obtain ⟨b1, b2⟩ := b
    obtain ⟨c1, c2⟩ := c
    obtain ⟨q1, q2⟩ := hq
    simp only at q1 q2 ⊢
    subst q1
    exact Sim.ite (fun _ => Sim.ok ⟨rfl, q2⟩) fun _ => Sim.ok ⟨rfl, q2⟩
  · exact Out.ite (fun _ => Out.ok hd.avail) fun _ => Out.ok hd.avail

omit LS in
theorem dv_readClosed {sc tag} (h : DV H tot contig G s) :
    Out T (fun b => b.1.avail contig < 0) (readClosed C (regOps H contig) sc tag s) := by
  refine (dv_readScalar h).bind (fun b _ hd => ?_)
  exact Out.ite (fun _ => Out.ok hd.avail) fun _ => Out.ok hd.avail

/-! ## Packed fields -/

omit LS in
theorem sim_packedElems {sc : Scalar} {N : Nat} (h0 : N ≠ 0) (h : R H tot contig G s f) :
    Sim T (QM H tot contig G) (fun b => DE H tot contig 0 b.1) (fun _ => False)
      (readPackedElems (regOps H contig) sc N s) (readPackedElems flatOps sc N f) := by
  have vs : ∀ ty (g : BitVec 64 → Val), Sim T (QM H tot contig G) (fun b => DE H tot contig 0 b.1) (fun _ => False)
      (packedVs (regOps H contig) ty N s >>= fun x => .ok (x.1, x.2.map g))
      (packedVs flatOps ty N f >>= fun x => .ok (x.1, x.2.map g)) := fun ty g =>
    (sim_packed ty h0 h).bind (fun b c _ _ hq => Sim.ok ⟨by rw [hq.1], hq.2⟩) (fun b _ hd => Out.ok hd) (fun _ _ h => h.elim)
  have assoc : ∀ {σ} (O : Ops σ) (s : σ) ty (g : BitVec 64 → Val), (packedVs O ty N s >>= fun x => .ok (x.1, x.2.map g)) =
      (O.numVarints N s >>= fun o => match o with
        | some c => O.packedVarints ty N c s >>= fun x => .ok (x.1, x.2.map g)
        | none => .err .badMessage) := by
    intro σ O s ty g
    unfold packedVs
    show Res.bind (Res.bind _ _) _ = Res.bind _ _
    cases O.numVarints N s with
    | ok o => cases o <;> rfl
    | _ => rfl
  have assocB : ∀ {σ} (O : Ops σ) (s : σ) (g : Bool → Val), (packedBs O N s >>= fun x => .ok (x.1, x.2.map g)) =
      (O.numVarints N s >>= fun o => match o with
        | some c => O.packedBools c s >>= fun x => .ok (x.1, x.2.map g)
        | none => .err .badMessage) := by
    intro σ O s g
    unfold packedBs
    show Res.bind (Res.bind _ _) _ = Res.bind _ _
    cases O.numVarints N s with
    | ok o => cases o <;> rfl
    | _ => rfl
  have fx : ∀ k, Sim T (QM H tot contig G) (fun b => DE H tot contig 0 b.1) (fun _ => False)
      ((regOps H contig).raw N s >>= fun x => .ok (x.1, (chunksLe k (N / k) x.2).map Val.num))
      (flatOps.raw N f >>= fun x => .ok (x.1, (chunksLe k (N / k) x.2).map Val.num)) := fun k =>
    (sim_raw (D := fun _ => False) h).bind (fun b c _ _ hq => Sim.ok ⟨by rw [hq.1], hq.2⟩) (fun _ _ h => h.elim) (fun _ _ h => h.elim)
  cases sc with
  | varint ty =>
    have := vs ty .num
    rw [assoc, assoc] at this
    exact this
  | bool =>
    have : Sim T (QM H tot contig G) (fun b => DE H tot contig 0 b.1) (fun _ => False)
        (packedBs (regOps H contig) N s >>= fun x => .ok (x.1, x.2.map fun b => Val.num (if b then 1 else 0)))
        (packedBs flatOps N f >>= fun x => .ok (x.1, x.2.map fun b => Val.num (if b then 1 else 0))) :=
      (sim_packedBools h0 h).bind (fun b c _ _ hq => Sim.ok ⟨by rw [hq.1], hq.2⟩) (fun b _ hd => Out.ok hd) (fun _ _ h => h.elim)
    rw [assocB, assocB] at this
    exact this
  | enum es =>
    have := vs .i64 (fun v => .num (VarTy.i32.cast v))
    rw [assoc, assoc] at this
    exact this
  | fixed32 k => exact Sim.ite (fun _ => fx 4) fun _ => Sim.err
  | fixed64 k => exact Sim.ite (fun _ => fx 8) fun _ => Sim.err
  | str u => exact Sim.err

omit LS in
theorem ds_packedElems {sc : Scalar} {N : Nat} (h0 : N ≠ 0) (h : DS H tot contig G s) (hf : s.cur.beg ≤ s.cur.fin) :
    Out T (fun b => b.1.avail contig < 0) (readPackedElems (regOps H contig) sc N s) := by
  have vs : ∀ ty (g : BitVec 64 → Val), Out T (fun b => b.1.avail contig < 0)
      ((regOps H contig).numVarints N s >>= fun o => match o with
        | some c => (regOps H contig).packedVarints ty N c s >>= fun x => .ok (x.1, x.2.map g)
        | none => .err .badMessage) := by
    intro ty g
    have : Out T (fun b => b.1.avail contig < 0) (packedVs (regOps H contig) ty N s >>= fun x => .ok (x.1, x.2.map g)) :=
      (ds_packed ty h0 h hf).bind (fun b _ hd => Out.ok hd.avail)
    have e : (packedVs (regOps H contig) ty N s >>= fun x => Res.ok (x.1, x.2.map g)) =
      ((regOps H contig).numVarints N s >>= fun o => match o with
        | some c => (regOps H contig).packedVarints ty N c s >>= fun x => .ok (x.1, x.2.map g)
        | none => .err .badMessage) := by
      unfold packedVs
      show Res.bind (Res.bind _ _) _ = Res.bind _ _
      cases (regOps H contig).numVarints N s with
      | ok o => cases o <;> rfl
      | _ => rfl
    rw [e] at this
    exact this
  cases sc with
  | varint ty => exact vs ty .num
  | bool =>
    have : Out T (fun b => b.1.avail contig < 0) (packedBs (regOps H contig) N s >>= fun x =>
        .ok (x.1, x.2.map fun b => Val.num (if b then 1 else 0))) :=
      (ds_packedBools h0 h hf).bind (fun b _ hd => Out.ok hd.avail)
    have e : (packedBs (regOps H contig) N s >>= fun x => Res.ok (x.1, x.2.map fun b => Val.num (if b then 1 else 0))) =
      ((regOps H contig).numVarints N s >>= fun o => match o with
        | some c => (regOps H contig).packedBools c s >>= fun x => .ok (x.1, x.2.map fun b => Val.num (if b then 1 else 0))
        | none => .err .badMessage) := by
      unfold packedBs
      show Res.bind (Res.bind _ _) _ = Res.bind _ _
      cases (regOps H contig).numVarints N s with
      | ok o => cases o <;> rfl
      | _ => rfl
    rw [e] at this
    exact this
  | enum es => exact vs .i64 (fun v => .num (VarTy.i32.cast v))
  | fixed32 k =>
    refine Out.ite (fun _ => ?_) fun _ => Out.err
    rw [neg_raw h.avail]; exact Out.err
  | fixed64 k =>
    refine Out.ite (fun _ => ?_) fun _ => Out.err
    rw [neg_raw h.avail]; exact Out.err
  | str u => exact Out.err

omit LS in
theorem toNat_ne {v : BitVec 64} (h : ¬ v = 0) : v.toNat ≠ 0 := fun e => h (BitVec.eq_of_toNat_eq (by simpa using e))

omit LS in
theorem sim_readPacked {mode number sc i m} (h : RV H tot contig G w 5 s f) :
    Sim T (QM H tot contig G) (fun b => b.1.avail contig < 0) (fun _ => False)
      (readPacked (regOps H contig) mode number sc i m s) (readPacked flatOps mode number sc i m f) := by
  unfold readPacked
  have S := sim_varint (T := T) .u32 h
  refine S.bind (fun b c _ _ hq => ?_) (fun b eb hd => ?_) (fun _ _ h => h.elim)
  · obtain ⟨b1, b2⟩ := b
    obtain ⟨c1, c2⟩ := c
    obtain ⟨q1, q2⟩ := hq
    simp only at q1 q2 ⊢
    subst q1
    refine Sim.ite (fun _ => Sim.ok ⟨rfl, q2.toR⟩) fun h0 => ?_
    exact (sim_packedElems (toNat_ne h0) q2.toR).bind (fun b c _ _ hq => Sim.ok ⟨by rw [hq.1], hq.2⟩)
      (fun b _ hd => Out.ok hd.avail) (fun _ _ h => h.elim)
  · refine Out.ite (fun _ => Out.ok hd.avail) fun h0 => ?_
    have hf : b.1.cur.beg ≤ b.1.cur.fin := by
      have e := eb
      rw [reg_varint] at e
      rw [checkedErr, res_bind_ok] at e
      obtain ⟨o, e1, e2⟩ := e
      unfold checked at e1
      split at e1
      · split at e1
        · split at e1
          · rename_i hle
            cases e1
            cases e2
            simp only [Arch.consume, Region.consume]
            omega
          · cases e1; cases e2
        · cases e1
      · split at e1
        · cases e1; cases e2
        · cases e1
    exact (ds_packedElems (toNat_ne h0) hd hf).bind (fun b _ hd => Out.ok hd)

omit LS in
theorem dv_readPacked {mode number sc i m} (h : DV H tot contig G s) :
    Out T (fun b => b.1.avail contig < 0) (readPacked (regOps H contig) mode number sc i m s) := by
  unfold readPacked
  refine (dv_varint .u32 h).bind (fun b _ hd => ?_)
  refine Out.ite (fun _ => Out.ok hd.1.avail) fun h0 => ?_
  exact (ds_packedElems (toNat_ne h0) hd.1 hd.2).bind (fun b _ hd => Out.ok hd)

/-! ## Elements -/

/-- The same for an element of a repeated field. -/
def Kind.far : Kind → Nat
  | .scalar sc => sc.far
  | _ => 0

theorem sim_readElem {mode k unique tag i m} (h : RV H tot contig G w 5 s f) :
    Sim T (QM H tot contig G) (fun b => DE H tot contig k.far b.1) (fun _ => False)
      (readElem C (regOps H contig) l mode k unique tag i m s) (readElem C flatOps lf mode k unique tag i m f) := by
  cases k with
  | scalar sc =>
    refine (sim_readScalar h).bind (fun b c _ _ hq => ?_) (fun b _ hd => ?_) (fun _ _ h => h.elim)
    · simp only [← hq.1]
      exact Sim.ite (fun _ => Sim.ok ⟨rfl, hq.2⟩) fun _ => Sim.ok ⟨rfl, hq.2⟩
    · exact Out.ite (fun _ => Out.ok hd) fun _ => Out.ok hd
  | msg id =>
    refine (sim_sized LS h).bind (fun b c _ _ hq => ?_) (fun _ _ h => h.elim) (fun _ _ h => h.elim)
    obtain ⟨b1, b2⟩ := b
    obtain ⟨c1, c2⟩ := c
    obtain ⟨q1, q2⟩ := hq
    simp only at q1 q2 ⊢
    subst q1
    exact Sim.ite (fun _ => Sim.ok ⟨rfl, q2⟩) fun _ => Sim.ok ⟨rfl, q2⟩
  | group id =>
    refine (LS.grp _ _ _ _ _ _ h.toR).bind (fun b c _ _ hq => ?_) (fun b _ hd => Out.ok hd) (fun _ _ h => h.elim)
    exact Sim.ok ⟨by rw [hq.1], hq.2⟩

theorem dv_readElem {mode k unique tag i m} (h : DV H tot contig G s) :
    Out T (fun b => b.1.avail contig < 0) (readElem C (regOps H contig) l mode k unique tag i m s) := by
  cases k with
  | scalar sc =>
    refine (dv_readScalar h).bind (fun b _ hd => ?_)
    exact Out.ite (fun _ => Out.ok hd.avail) fun _ => Out.ok hd.avail
  | msg id => exact (dv_sized LS h).bind (fun _ _ h => h.elim)
  | group id =>
    obtain ⟨e, he⟩ := LS.negGrp id (tagNumber tag) (C.schema id).default s h.avail
    simp only [readElem]
    rw [he]; exact Out.err

theorem dl_readElem {mode unique tag i m} {k : Kind} (hk : k.far = 0) (h : DL H tot contig 0 s) :
    Out T (fun _ => False) (readElem C (regOps H contig) l mode k unique tag i m s) := by
  cases k with
  | scalar sc => exact (dl_readScalar hk h).bind (fun _ _ h => h.elim)
  | msg id => exact (dl_sized h).bind (fun _ _ h => h.elim)
  | group id =>
    obtain ⟨e, he⟩ := LS.negGrp id (tagNumber tag) (C.schema id).default s h.toDE.avail
    simp only [readElem]
    rw [he]; exact Out.err

end

end HppProto
