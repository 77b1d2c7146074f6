import Verif.Proofs.RegData
/-! # The append path for packed elements of fixed width -/
namespace HppProto
open Spec

variable {H : Mems} {tot : List Byte} {contig : Bool} {G : Ghost} {s : Arch} {f : Flat} {T : Prop}
  {r : Region} {L p n : Nat}

theorem append_live {size : Nat} (z1 : 0 < size) (z2 : size ≤ 16) :
    ∀ (fuel N : Nat) {s r L p n}, N < fuel → On H tot false G s r L p n → N * size ≤ n →
    ∃ s', appendLoop H size fuel N s = .ok (s', (tot.drop p).take (N * size)) ∧
      ∃ r' L', On H tot false G s' r' L' (p + N * size) (n - N * size)
  | 0, N, s, r, L, p, n, h0, _, _ => by omega
  | fuel + 1, N, s, r, L, p, n, hf, h, hN => by
    unfold appendLoop
    by_cases h0 : N = 0
    · subst h0
      rw [if_pos rfl]
      exact ⟨s, by simp, r, L, by simpa using h⟩
    · rw [if_neg h0]
      obtain ⟨r1, L1, h1, hb⟩ := h.advance
      obtain ⟨b1, b2⟩ := h1.win_slope hb
      have hfl := h1.at_.finLe
      simp only
      obtain ⟨m, hm⟩ : ∃ m : Nat, s.advance.size = m := by
        refine ⟨s.advance.size.toNat, ?_⟩
        unfold Arch.size
        rcases h1.shape with f | f <;> omega
      have hdiv : s.advance.size.tdiv size = ((m / size : Nat) : Int) := by rw [hm]; rfl
      have hq : 1 ≤ m / size ∧ (m / size < N → m / size * size ≤ n) ∧ m / size * size ≤ m := by
        refine ⟨?_, fun hlt => ?_, Nat.div_mul_le_self _ _⟩
        · rw [Nat.le_div_iff_mul_le z1]
          unfold Arch.size at hm
          rcases h1.shape with f | f
          · have : N * size ≥ 1 * size := Nat.mul_le_mul_right _ (by omega)
            omega
          · omega
        · exact Nat.le_trans (Nat.mul_le_mul_right _ (Nat.le_of_lt hlt)) hN
      obtain ⟨k, hk, hk0, hkN⟩ : ∃ k : Nat, min (N : Int) (s.advance.size.tdiv size) = k ∧ 1 ≤ k ∧ k ≤ N :=
        ⟨min N (m / size), by rw [hdiv]; omega, by omega, by omega⟩
      have hkm : k * size ≤ m := by
        have : k ≤ m / size := by rw [hdiv] at hk; omega
        exact Nat.le_trans (Nat.mul_le_mul_right _ this) hq.2.2
      rw [hk, if_neg (by omega), Int.toNat_natCast]
      have hk1 : s.advance.cur.beg + (k * size : Nat) ≤ r1.fin := by unfold Arch.size at hm; omega
      rw [(h1.bytes hk1).1]
      have hsub : (N - k) * size = N * size - k * size := Nat.sub_mul _ _ _
      have hle : k * size ≤ N * size := Nat.mul_le_mul_right _ hkN
      obtain ⟨s', e, r', L', h2⟩ := append_live z1 z2 fuel (N - k) (by omega) (h1.consume (k := k * size) (by omega)) (by omega)
      refine ⟨s', ?_, r', L', ?_⟩
      · show Res.bind _ _ = _
        simp only [Res.bind]
        show Res.bind _ _ = _
        rw [e]
        simp only [Res.bind]
        rw [show N * size = k * size + (N - k) * size by omega, slice_append]
      · rw [show p + N * size = p + k * size + (N - k) * size by omega, show n - N * size = n - k * size - (N - k) * size by omega]
        exact h2

theorem sim_append {N size : Nat} {D} (z1 : 0 < size) (z2 : size ≤ 16) (h : R H tot contig G s f) :
    Sim T (fun b c => b.2 = c.2 ∧ R H tot contig G b.1 c.1) D (fun _ => False)
      (regAppend H contig size N s) (flatOps.raw (N * size) f) := by
  obtain ⟨r, L, p, n, h, rfl⟩ := h
  have hlen := flatAt_length h.bound
  show Sim _ _ _ _ (regAppend H contig size N s)
    (if N * size ≤ (flatAt tot p n).rest.length then Res.ok ((flatAt tot p n).consume (N * size), (flatAt tot p n).rest.take (N * size)) else .err .badMessage)
  unfold regAppend
  rw [hlen, h.avail]
  by_cases hn : N * size ≤ n
  · rw [if_pos hn, if_neg (by omega), flatAt_consume hn h.bound]
    have e : (flatAt tot p n).rest.take (N * size) = (tot.drop p).take (N * size) := by
      simp only [flatAt, List.take_take, Nat.min_eq_left hn]
    rw [e]
    cases contig with
    | true =>
      rw [if_pos rfl, (h.bytes (k := N * size) (by have h5 := h.shape; simp only [Bool.true_eq_false, false_and, or_false] at h5; omega)).1]
      exact Sim.ok ⟨rfl, r, L, _, _, h.consume hn, rfl⟩
    | false =>
      obtain ⟨s', e, r', L', h2⟩ := append_live z1 z2 (N + 1) N (by omega) h hn
      rw [if_neg (by simp), e]
      exact Sim.ok ⟨rfl, r', L', _, _, h2, rfl⟩
  · rw [if_neg hn, if_pos (by omega)]
    exact Sim.err

end HppProto
