import Verif.Model.Regions
/-! # Regions laid over the input, and moving between them -/
namespace HppProto

/-- The bytes of the region are the input from offset `L` on. -/
def Covers (H : Mems) (tot : List Byte) (L : Nat) (r : Region) : Prop :=
  ∀ i : Nat, r.beg + i < r.fin → H.cell r.buf (r.beg + i) = tot[L + i]?

/-- A region starting at offset `L` of the input, followed by others: each next region
starts where the slope of the previous one does, and the last one ends with the input and is
followed by sixteen readable bytes. -/
def Lay (H : Mems) (tot : List Byte) : Nat → Region → List Region → Prop
  | L, r, [] => r.beg ≤ r.fin ∧ r.slope = r.fin ∧ (L : Int) + (r.fin - r.beg) = tot.length ∧ Covers H tot L r ∧
      ∀ i : Nat, i < 16 → (H.cell r.buf (r.fin + i)).isSome
  | L, r, r' :: rs => r.beg ≤ r.slope ∧ r.fin = r.slope + 16 ∧ (L : Int) + (r.fin - r.beg) ≤ tot.length ∧
      Covers H tot L r ∧ r'.beg < r'.slope ∧ (rs = [] → r'.beg + 16 ≤ r'.slope) ∧
      Lay H tot (L + (r.slope - r.beg).toNat) r' rs

structure LayFacts (H : Mems) (tot : List Byte) (L : Nat) (r : Region) : Prop where
  bs : r.beg ≤ r.slope
  sf : r.slope ≤ r.fin
  fs : r.fin ≤ r.slope + 16
  len : (L : Int) + (r.fin - r.beg) ≤ tot.length
  cov : Covers H tot L r
  ok : ∀ x : Int, r.beg ≤ x → x < r.slope + 16 → (H.cell r.buf x).isSome

theorem covers_some {H tot L r} (hc : Covers H tot L r) (ht : (L : Int) + (r.fin - r.beg) ≤ tot.length) {x : Int}
    (h1 : r.beg ≤ x) (h2 : x < r.fin) : (H.cell r.buf x).isSome := by
  have h := hc (x - r.beg).toNat (by omega)
  rw [show r.beg + ((x - r.beg).toNat : Int) = x by omega] at h
  rw [h, List.getElem?_eq_getElem (by omega)]
  rfl

theorem lay_facts {H tot} : ∀ {L r rs}, Lay H tot L r rs → LayFacts H tot L r
  | L, r, [], h => by
    obtain ⟨h1, h2, h3, h4, h5⟩ := h
    refine ⟨by omega, by omega, by omega, by omega, h4, fun x hx hx' => ?_⟩
    by_cases hf : x < r.fin
    · exact covers_some h4 (by omega) hx hf
    · have := h5 (x - r.fin).toNat (by omega)
      rwa [show r.fin + ((x - r.fin).toNat : Int) = x by omega] at this
  | L, r, r' :: rs, h => by
    obtain ⟨h1, h2, h3, h4, h5, h6, h7⟩ := h
    exact ⟨h1, by omega, by omega, h3, h4, fun x hx hx' => covers_some h4 h3 hx (by omega)⟩

/-- Bytes up to the limit of the archive. -/
def Arch.left (s : Arch) : Int := s.cur.slope + s.sec - s.cur.beg

/-- The current region is a window on region `r`, which starts at offset `L` of the input. -/
structure Win (H : Mems) (tot : List Byte) (contig : Bool) (s : Arch) (r : Region) (L : Nat) : Prop where
  lay : Lay H tot L r s.rest
  buf : s.cur.buf = r.buf
  slope : s.cur.slope = min s.cur.fin r.slope
  finLe : s.cur.fin ≤ r.fin
  finGe : r.beg ≤ s.cur.fin
  beg : r.beg ≤ s.cur.beg
  sec : 0 ≤ s.sec
  form : s.cur.fin = s.cur.slope + s.sec ∨ (s.cur.fin = r.fin ∧ 0 < s.sec ∧ s.rest ≠ [])
  lim : (L : Int) + (s.cur.slope - r.beg) + s.sec ≤ tot.length
  ctg : contig = true → s.cur.fin = s.cur.slope + s.sec ∧ s.rest.length ≤ 1

variable {H : Mems} {tot : List Byte} {contig : Bool}

theorem Win.avail {s r L} (h : Win H tot contig s r L) : s.avail contig = s.left := by
  unfold Arch.avail Arch.left Arch.size Region.slopeDist
  split
  · have := (h.ctg ‹_›).1; omega
  · omega

/-- One turn of the loop of `maybe_advance_region`. -/
def Arch.next (s : Arch) (r' : Region) (rs : List Region) : Arch :=
  ⟨(setRegion s.sec r').1.consume s.cur.slopeDist, rs, (setRegion s.sec r').2⟩

theorem advance_nil {s : Arch} (e : s.rest = []) : s.advance = s := by
  cases s; simp only at e; subst e; rfl

theorem advance_stop {s : Arch} (h : s.cur.slopeDist ≤ 0) : s.advance = s := by
  obtain ⟨cur, rest, sec⟩ := s
  cases rest with
  | nil => rfl
  | cons r rs =>
    simp only [Arch.advance, advanceLoop]
    rw [if_neg (by simpa using h)]

theorem advance_next {s : Arch} {r' rs} (e : s.rest = r' :: rs) (h : 0 < s.cur.slopeDist) :
    s.advance = (s.next r' rs).advance := by
  obtain ⟨cur, rest, sec⟩ := s
  simp only at e h; subst e
  simp only [Arch.advance, advanceLoop, Arch.next]
  rw [if_pos h]

structure Stepped (H : Mems) (tot : List Byte) (contig : Bool) (s s' : Arch) (r r' : Region) (L : Nat) : Prop where
  at_ : Win H tot contig s' r' (L + (r.slope - r.beg).toNat)
  left : s'.left = s.left
  sec : s'.sec ≤ s.sec
  pos : s'.cur.beg = r'.beg + (s.cur.beg - s.cur.slope)
  dist : s'.cur.beg - s'.cur.slope ≤ s.cur.beg - s.cur.slope
  cont : (L : Int) + (r.slope - r.beg) ≤ tot.length

theorem Win.next {s r L r' rs} (h : Win H tot contig s r L) (e : s.rest = r' :: rs) (hd : s.cur.slope < s.cur.beg) :
    Stepped H tot contig s (s.next r' rs) r r' L := by
  obtain ⟨lay, buf, slope, finLe, finGe, beg, sec, form, lim, ctg⟩ := h
  rw [e] at lay ctg form
  obtain ⟨l1, l2, l3, l4, l5, l6, l7⟩ := lay
  have F := lay_facts l7
  have hs : s.sec = 0 ∨ s.cur.slope = r.slope := by
    rcases form with f | f <;> omega
  have hm : min r'.slope r'.fin = r'.slope := by have := F.sf; omega
  have hmin : s.cur.slope ≤ r.slope := by omega
  unfold Arch.next Region.slopeDist setRegion
  by_cases hA : s.sec + r'.slopeDist > 0
  · rw [if_pos hA]
    unfold Region.slopeDist at hA ⊢
    have hrs : rs ≠ [] := by
      rintro rfl
      obtain ⟨k1, k2, k3, -, -⟩ := l7
      omega
    have hc : contig ≠ true := by
      intro hc
      have := (ctg hc).2
      cases rs with
      | nil => exact hrs rfl
      | cons => simp at this
    simp only [Region.consume, hm]
    have := F.sf
    have := F.bs
    refine ⟨⟨l7, rfl, ?_, ?_, ?_, ?_, ?_, ?_, ?_, ?_⟩, ?_, ?_, ?_, ?_, ?_⟩ <;>
      (try simp only [Arch.left, Region.slopeDist]) <;> try omega
    · right; exact ⟨trivial, by omega, hrs⟩
    · intro hcc; exact absurd hcc hc
  · rw [if_neg hA]
    unfold Region.slopeDist at hA
    have hm2 : min r'.slope (r'.beg + s.sec) = r'.beg + s.sec := by omega
    simp only [Region.consume, hm2]
    have := F.sf
    refine ⟨⟨l7, rfl, ?_, ?_, ?_, ?_, ?_, ?_, ?_, ?_⟩, ?_, ?_, ?_, ?_, ?_⟩ <;>
      (try simp only [Arch.left, Region.slopeDist]) <;> try omega
    intro hcc
    have := (ctg hcc).2
    simp at this
    subst this
    exact ⟨by omega, by simp⟩

/-- A state inside the archive's limit: after advancing, the position is at most the start
of the slope. -/
theorem Win.advance : ∀ {rest : List Region} {s r L}, s.rest = rest → Win H tot contig s r L → 0 ≤ s.left →
    ∃ r' L', Win H tot contig s.advance r' L' ∧ s.advance.left = s.left ∧ s.advance.sec ≤ s.sec ∧
      s.advance.cur.beg ≤ s.advance.cur.slope ∧
      (L' : Int) + (s.advance.cur.beg - r'.beg) = L + (s.cur.beg - r.beg)
  | [], s, r, L, e, h, hl => by
    rw [advance_nil e]
    refine ⟨r, L, h, rfl, Int.le_refl _, ?_, rfl⟩
    have := h.form
    have := h.slope
    have lay := h.lay
    rw [e] at lay
    obtain ⟨k1, k2, k3, -, -⟩ := lay
    have := h.finLe
    unfold Arch.left at hl
    rcases h.form with f | ⟨-, -, f⟩
    · omega
    · exact absurd e f
  | r' :: rs, s, r, L, e, h, hl => by
    by_cases hd : s.cur.slope < s.cur.beg
    · have N := h.next e hd
      rw [advance_next e (by unfold Region.slopeDist; omega)]
      obtain ⟨r2, L2, a, b, c, d, p⟩ := Win.advance (rest := rs) rfl N.at_ (by rw [N.left]; exact hl)
      refine ⟨r2, L2, a, by rw [b, N.left], Int.le_trans c N.sec, d, ?_⟩
      rw [p, N.pos]
      have hs : s.cur.slope = r.slope := by
        have := h.slope
        have := h.sec
        have := h.finLe
        unfold Arch.left at hl
        have l := h.lay
        rw [e] at l
        obtain ⟨l1, l2, -⟩ := l
        rcases h.form with f | f <;> omega
      have := (lay_facts h.lay).bs
      omega
    · rw [advance_stop (by unfold Region.slopeDist; omega)]
      exact ⟨r, L, h, rfl, Int.le_refl _, by omega, rfl⟩

/-- A state past the archive's limit by at most the length of a slope: advancing goes to
the last region, where the position is past the end but inside the region. -/
theorem Win.advance_dead : ∀ {rest : List Region} {s r L}, s.rest = rest → rest ≠ [] → Win H tot contig s r L → s.left < 0 →
    s.cur.beg ≤ s.cur.slope + 16 →
    ∃ r' L', Win H tot contig s.advance r' L' ∧ s.advance.left = s.left ∧ s.advance.sec ≤ s.sec ∧ s.advance.rest = [] ∧
      s.advance.cur.beg ≤ r'.beg + (s.cur.beg - s.cur.slope) ∧ r'.beg + 16 ≤ r'.slope
  | [], s, r, L, e, h, _, _, _ => absurd rfl h
  | r' :: rs, s, r, L, e, _, h, hl, hb => by
    have hd : s.cur.slope < s.cur.beg := by have := h.sec; unfold Arch.left at hl; omega
    have N := h.next e hd
    rw [advance_next e (by unfold Region.slopeDist; omega)]
    cases rs with
    | nil =>
      rw [advance_nil rfl]
      have l := h.lay
      rw [e] at l
      obtain ⟨-, -, -, -, -, l6, -⟩ := l
      exact ⟨r', _, N.at_, N.left, N.sec, rfl, by rw [N.pos]; omega, l6 rfl⟩
    | cons r2 rs2 =>
      obtain ⟨r3, L3, a, b, c, d, p, q⟩ := Win.advance_dead (rest := r2 :: rs2) rfl (by simp) N.at_ (by rw [N.left]; exact hl)
        (by have := N.dist; omega)
      refine ⟨r3, L3, a, by rw [b, N.left], Int.le_trans c N.sec, d, ?_, q⟩
      have := N.dist
      omega

theorem advance_idem_loop : ∀ (rest : List Region) (cur sec), (advanceLoop rest cur sec).advance = advanceLoop rest cur sec
  | [], _, _ => rfl
  | r :: rs, cur, sec => by
    simp only [advanceLoop]
    split
    · exact advance_idem_loop rs _ _
    · rename_i h
      exact advance_stop (by simpa using h)

theorem advance_idem (s : Arch) : s.advance.advance = s.advance := advance_idem_loop _ _ _

/-- Advancing before or after consuming makes no difference to where a later advance ends. -/
theorem advance_consume_loop : ∀ (rest : List Region) (cur : Region) (sec : Int) (n : Nat),
    ((advanceLoop rest cur sec).consume n).advance = advanceLoop rest (cur.consume n) sec
  | [], _, _, _ => rfl
  | r :: rs, cur, sec, n => by
    by_cases h : cur.slopeDist > 0
    · have h2 : (cur.consume n).slopeDist > 0 := by
        simp only [Region.consume, Region.slopeDist] at h ⊢; omega
      rw [advanceLoop, if_pos h, advance_consume_loop rs, advanceLoop, if_pos h2]
      congr 1
      simp only [Region.consume, Region.slopeDist]
      congr 1
      omega
    · rw [advanceLoop, if_neg h]
      rfl

theorem advance_consume (s : Arch) (n : Nat) : (s.advance.consume n).advance = (s.consume n).advance :=
  advance_consume_loop s.rest s.cur s.sec n

end HppProto
