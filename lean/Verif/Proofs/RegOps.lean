import Verif.Proofs.RegLayout
import Verif.Proofs.ReadSafe
/-! # Operations of the region machine against the contiguous archive -/
namespace HppProto
open Spec

variable {H : Mems} {tot : List Byte} {contig : Bool}

/-- The contiguous archive at offset `p` of the input with `n` bytes left. -/
def flatAt (tot : List Byte) (p n : Nat) : Flat := ⟨(tot.take p).reverse, (tot.drop p).take n⟩

theorem flatAt_length {tot p n} (h : p + n ≤ tot.length) : (flatAt tot p n).rest.length = n := by
  simp [flatAt]; omega

theorem flatAt_prev {tot p n} (h : p + n ≤ tot.length) : (flatAt tot p n).prev.length = p := by
  simp [flatAt]; omega

theorem flatAt_consume {tot p n k} (hk : k ≤ n) (h : p + n ≤ tot.length) :
    (flatAt tot p n).consume k = flatAt tot (p + k) (n - k) := by
  simp only [flatAt, Flat.consume, List.take_take, List.drop_take, List.drop_drop, Nat.min_eq_left hk]
  congr 1
  rw [← List.reverse_append, ← List.take_add]

theorem flatAt_take {tot p n k} (hk : k ≤ n) :
    (⟨(flatAt tot p n).prev, (flatAt tot p n).rest.take k⟩ : Flat) = flatAt tot p k := by
  simp only [flatAt, List.take_take, Nat.min_eq_left hk]

theorem flatAt_unwind {tot p n w} (hw : w ≤ p) (h : p + n ≤ tot.length) :
    (⟨(flatAt tot p n).prev.drop w, ((flatAt tot p n).prev.take w).reverse ++ (flatAt tot p n).rest⟩ : Flat)
      = flatAt tot (p - w) (n + w) := by
  simp only [flatAt]
  have hl : (tot.take p).length = p := by simp; omega
  congr 1
  · rw [List.drop_reverse, List.take_take, hl, Nat.min_eq_left (by omega)]
  · rw [List.take_reverse, List.reverse_reverse, hl, List.drop_take, show p - (p - w) = w by omega,
      Nat.add_comm n w, List.take_add, List.drop_drop, show p - w + w = p by omega]

theorem flatAt_mem {tot p n i} (hi : i < n) : memOf (flatAt tot p n).rest i = (tot[p + i]?).getD 0#8 := by
  simp only [memOf, flatAt, List.getD_eq_getElem?_getD]
  rw [List.getElem?_take_of_lt hi, List.getElem?_drop]

/-- What later steps remember of a state: an earlier archive and its offset, the limit, and
a bound on `size_exclude_current`. -/
structure Ghost where
  a0 : Arch
  p0 : Nat
  lim : Nat
  q : Int

/-- A state inside its limit: offset `p` of the input, `n` bytes left. -/
structure On (H : Mems) (tot : List Byte) (contig : Bool) (G : Ghost) (s : Arch) (r : Region) (L p n : Nat) : Prop where
  at_ : Win H tot contig s r L
  pos : (p : Int) = L + (s.cur.beg - r.beg)
  left : (n : Int) = s.left
  lim : p + n = G.lim
  sec : s.sec ≤ G.q
  p0 : G.p0 ≤ p
  lin : s.advance = (G.a0.consume ((p - G.p0 : Nat) : Int)).advance

section
variable {G : Ghost} {s : Arch} {r : Region} {L p n : Nat}

theorem On.bound (h : On H tot contig G s r L p n) : p + n ≤ tot.length := by
  have := h.at_.lim
  have h1 := h.pos
  have h2 := h.left
  unfold Arch.left at h2
  omega

theorem On.avail (h : On H tot contig G s r L p n) : s.avail contig = n := by rw [h.at_.avail, h.left]

theorem Win.consume {s r L} (h : Win H tot contig s r L) {k : Int} (hk : r.beg ≤ s.cur.beg + k) :
    Win H tot contig (s.consume k) r L := by
  obtain ⟨lay, buf, slope, finLe, finGe, beg, sec, form, lim, ctg⟩ := h
  exact ⟨lay, buf, slope, finLe, finGe, hk, sec, form, lim, ctg⟩

theorem consume_left (s : Arch) (k : Int) : (s.consume k).left = s.left - k := by
  simp only [Arch.consume, Arch.left, Region.consume]; omega

theorem consume_consume (s : Arch) (a b : Int) : (s.consume a).consume b = s.consume (a + b) := by
  simp only [Arch.consume, Region.consume]; congr 2; omega

theorem On.consume (h : On H tot contig G s r L p n) {k : Nat} (hk : k ≤ n) :
    On H tot contig G (s.consume k) r L (p + k) (n - k) := by
  have := h.at_.beg
  have h1 := h.pos
  have h2 := h.left
  refine ⟨h.at_.consume (by omega), ?_, ?_, ?_, h.sec, ?_, ?_⟩
  · simp only [Arch.consume, Region.consume]; omega
  · rw [consume_left]; omega
  · have := h.lim; omega
  · have := h.p0; omega
  · rw [← advance_consume, h.lin, advance_consume, consume_consume]
    congr 2
    have := h.p0
    omega

theorem On.advance (h : On H tot contig G s r L p n) :
    ∃ r' L', On H tot contig G s.advance r' L' p n ∧ s.advance.cur.beg ≤ s.advance.cur.slope := by
  obtain ⟨r', L', a, b, c, d, e⟩ := Win.advance rfl h.at_ (by rw [← h.left]; omega)
  refine ⟨r', L', ⟨a, ?_, ?_, h.lim, ?_, h.p0, ?_⟩, d⟩
  · rw [h.pos, e]
  · rw [h.left, b]
  · exact Int.le_trans c h.sec
  · rw [advance_idem, h.lin]

/-- Bytes before the end of the region are the input's. -/
theorem On.view (h : On H tot contig G s r L p n) {i : Nat} (hi : s.cur.beg + i < r.fin) :
    H.view s.cur i = (tot[p + i]?).getD 0#8 := by
  have hb := h.at_.beg
  have hc := (lay_facts h.at_.lay).cov ((s.cur.beg - r.beg).toNat + i) (by omega)
  have e : r.beg + (((s.cur.beg - r.beg).toNat + i : Nat) : Int) = s.cur.beg + i := by omega
  have e2 : L + ((s.cur.beg - r.beg).toNat + i) = p + i := by have := h.pos; omega
  rw [e, e2, ← h.at_.buf] at hc
  unfold Mems.view
  rw [hc]

theorem good_iff {H : Mems} {r : Region} {n : Nat} : H.good r n = true ↔ ∀ i : Nat, i < n → (H.cell r.buf (r.beg + i)).isSome := by
  simp [Mems.good]

/-- Bytes up to sixteen after the start of the slope can be read. -/
theorem Win.good {s r L} (h : Win H tot contig s r L) {k : Nat} (hk : s.cur.beg + k ≤ r.slope + 16) : H.good s.cur k = true := by
  rw [good_iff]
  intro i hi
  rw [h.buf]
  have := h.beg
  exact (lay_facts h.lay).ok _ (by omega) (by omega)

/-- A region that is not the last one has sixteen bytes of slope. -/
theorem Win.wide {s r L} (h : Win H tot contig s r L) (e : s.rest ≠ []) : r.fin = r.slope + 16 := by
  have := h.lay
  cases hr : s.rest with
  | nil => exact absurd hr e
  | cons a b => rw [hr] at this; exact this.2.1

theorem Win.last {s r L} (h : Win H tot contig s r L) (e : s.rest = []) :
    r.slope = r.fin ∧ s.cur.slope = s.cur.fin ∧ s.sec = 0 := by
  have l := h.lay
  rw [e] at l
  have h1 := h.slope
  have h2 := h.finLe
  have h3 := l.2.1
  rcases h.form with f | f
  · omega
  · exact absurd e f.2.2

/-- The two shapes of a state inside its limit. -/
theorem On.shape (h : On H tot contig G s r L p n) :
    (s.cur.fin = s.cur.beg + n ∧ s.cur.beg + n ≤ r.fin) ∨
    (contig = false ∧ s.rest ≠ [] ∧ 0 < s.sec ∧ s.cur.fin = r.fin ∧ r.fin = r.slope + 16 ∧ s.cur.slope = r.slope) := by
  have h1 := h.left
  unfold Arch.left at h1
  rcases h.at_.form with f | ⟨f1, f2, f3⟩
  · left
    have := h.at_.finLe
    omega
  · by_cases hc : contig = true
    · left
      have := (h.at_.ctg hc).1
      have := h.at_.finLe
      omega
    · right
      have w := h.at_.wide f3
      have := h.at_.slope
      exact ⟨by simpa using hc, f3, f2, f1, w, by omega⟩

/-- An unchecked parse near the slope: it gives what the contiguous archive gives, or both
fail, or it crosses the limit inside the region. -/
theorem checked_live {α} {P : Mem → Option Nat × α} {m : Nat} (hP : ∀ g, (P g).1 = varintLen g m)
    (hC : ∀ g g' k, (∀ i, i < k → g i = g' i) → varintLen g m = some k → P g' = P g)
    (h : On H tot contig G s r L p n) (hk : s.cur.beg + m ≤ r.slope + 15) (hf : s.cur.beg ≤ s.cur.fin) :
    (∃ (k : Nat) (v : α), P (memOf (flatAt tot p n).rest) = (some k, v) ∧ 1 ≤ k ∧ k ≤ n ∧ k ≤ m ∧
      checked H s m (P (H.view s.cur)) = .ok (some (s.consume k, v)) ∧ s.cur.beg + k ≤ s.cur.fin) ∨
    ((∀ k v, P (memOf (flatAt tot p n).rest) = (some k, v) → n < k) ∧
      (checked H s m (P (H.view s.cur)) = .ok none ∨
        ∃ (k : Nat) (v : α), checked H s m (P (H.view s.cur)) = .ok (some (s.consume k, v)) ∧ n < k ∧ k ≤ m ∧
          P (H.view s.cur) = (some k, v) ∧
          s.cur.beg + k ≤ s.cur.fin ∧ s.rest ≠ [] ∧ s.cur.fin = r.fin ∧ 0 < s.sec ∧ contig = false)) := by
  have agree : ∀ i, i < n → i < m → H.view s.cur i = memOf (flatAt tot p n).rest i := by
    intro i hi hm
    rw [flatAt_mem hi]
    apply h.view
    rcases h.shape with f | f <;> omega
  have gm : H.good s.cur m = true := h.at_.good (by omega)
  rcases hx : P (H.view s.cur) with ⟨o, v⟩
  have ho : o = varintLen (H.view s.cur) m := by rw [← hP, hx]
  cases o with
  | none =>
    right
    constructor
    · intro k v' e
      have e1 : varintLen (memOf (flatAt tot p n).rest) m = some k := by rw [← hP, e]
      have := (varintLen_some.1 e1).2
      apply Nat.lt_of_not_le
      intro hkn
      rw [varintLen_congr (fun i hi => (agree i (by omega) (by omega)).symm) e1] at ho
      cases ho
    · left; simp [checked, gm]
  | some k =>
    have hkm := (varintLen_some.1 ho.symm).2
    have hk1 := (varintLen_some.1 ho.symm).1.1
    have gk : H.good s.cur k = true := h.at_.good (by omega)
    by_cases hkn : k ≤ n
    · left
      refine ⟨k, v, ?_, hk1, hkn, hkm, ?_, ?_⟩
      · rw [hC _ _ k (fun i hi => agree i (by omega) (by omega)) ho.symm, hx]
      · have : s.cur.beg + k ≤ s.cur.fin := by rcases h.shape with f | f <;> omega
        simp [checked, gk, this]
      · rcases h.shape with f | f <;> omega
    · right
      constructor
      · intro k' v' e
        have e1 : varintLen (memOf (flatAt tot p n).rest) m = some k' := by rw [← hP, e]
        have := (varintLen_some.1 e1).2
        apply Nat.lt_of_not_le
        intro hkn'
        have e2 := varintLen_congr (fun i hi => (agree i (by omega) (by omega)).symm) e1
        rw [e2] at ho
        cases ho
        omega
      · by_cases hle : s.cur.beg + k ≤ s.cur.fin
        · right
          refine ⟨k, v, by simp [checked, gk, hle], by omega, hkm, rfl, hle, ?_⟩
          rcases h.shape with f | f
          · omega
          · exact ⟨f.2.1, f.2.2.2.1, f.2.2.1, f.1⟩
        · left
          simp [checked, gk, hle]

end

end HppProto
