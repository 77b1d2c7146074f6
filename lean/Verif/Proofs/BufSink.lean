import Verif.Proofs.Sink
/-! Lemmas about the gRPC sink. -/
namespace HppProto
open Spec

theorem bufNext_chunk (s : BufSink) : (BufSink.next s).2.chunk = s.chunk := by
  rw [BufSink.next]; split <;> rfl

theorem bufNext_len (s : BufSink) : (BufSink.next s).1.length = min s.chunk s.remaining := by
  rw [BufSink.next]; split
  · next h => rw [h]; simp
  · simp

theorem bufNext_rem (s : BufSink) : (BufSink.next s).2.remaining = s.remaining - min s.chunk s.remaining := by
  rw [BufSink.next]; split
  · next h => rw [h]; simp
  · simp

/-- Chunks are at most `chunk` long and together at most `remaining`. -/
theorem bufHanded (k : Nat) : ∀ s : BufSink, (∀ c ∈ handed bufSink s k, c.length ≤ s.chunk) ∧
    (handed bufSink s k).flatten.length ≤ s.remaining := by
  induction k with
  | zero => intro s; exact ⟨(fun c h => by cases h), Nat.zero_le _⟩
  | succ k ih =>
    intro s
    have h1 := bufNext_len s
    have h2 := bufNext_rem s
    obtain ⟨i1, i2⟩ := ih (BufSink.next s).2
    rw [bufNext_chunk] at i1
    rw [h2] at i2
    constructor
    · intro c hc
      rcases List.mem_cons.1 hc with rfl | hc
      · show (BufSink.next s).1.length ≤ _
        omega
      · exact i1 c hc
    · show ((BufSink.next s).1 :: handed bufSink (BufSink.next s).2 k).flatten.length ≤ _
      rw [List.flatten_cons, List.length_append]; omega

/-- Enough non-empty chunks for the announced size. -/
theorem bufEnough (n : Nat) : ∀ s : BufSink, s.remaining = n → 0 < s.chunk → ∃ k,
    (∀ c ∈ handed bufSink s k, c ≠ []) ∧ s.remaining ≤ (handed bufSink s k).flatten.length := by
  induction n using Nat.strongRecOn with
  | _ n ih =>
    intro s hn hc
    by_cases h0 : n = 0
    · exact ⟨0, (fun c h => by cases h), by omega⟩
    · have h1 := bufNext_len s
      have h2 := bufNext_rem s
      obtain ⟨k, a1, a2⟩ := ih (n - min s.chunk n) (by omega) (BufSink.next s).2 (by rw [h2, hn]) (by rw [bufNext_chunk]; exact hc)
      refine ⟨k + 1, ?_, ?_⟩
      · intro c hc'
        rcases List.mem_cons.1 hc' with rfl | hc'
        · intro he
          have he : (BufSink.next s).1 = [] := he
          rw [he] at h1; simp at h1; omega
        · exact a1 c hc'
      · show _ ≤ ((BufSink.next s).1 :: handed bufSink (BufSink.next s).2 k).flatten.length
        rw [List.flatten_cons, List.length_append]; omega

/-- The sizes of the slices that the sink keeps are those of the non-empty chunks. -/
theorem bufSlices (k : Nat) : ∀ s : BufSink, 0 < s.chunk →
    (after bufSink s k).slices = s.slices ++ ((handed bufSink s k).map List.length).filter (fun n => n != 0) := by
  induction k with
  | zero => intro s _; simp [after, handed]
  | succ k ih =>
    intro s hc
    show (after bufSink (BufSink.next s).2 k).slices = _
    rw [ih _ (by rw [bufNext_chunk]; exact hc)]
    have h1 := bufNext_len s
    have : (BufSink.next s).2.slices = s.slices ++ [(BufSink.next s).1.length].filter (fun n => n != 0) := by
      rw [BufSink.next]; split
      · simp
      · next h => 
        have : min s.chunk s.remaining ≠ 0 := by omega
        simp [this]
    rw [this, List.append_assoc, ← List.filter_append]
    rfl

end HppProto
