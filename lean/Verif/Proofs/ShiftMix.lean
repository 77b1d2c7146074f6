import Verif.Proofs.Varint
/-! `shift_mix_parse_varint` computes the base-128 value. -/
namespace HppProto
open Spec

theorem and_perm3 (a b c d : BitVec 64) : a &&& ((b &&& d) &&& c) = (a &&& (b &&& c)) &&& d := by
  ext i; simp; cases a[i] <;> cases b[i] <;> cases c[i] <;> cases d[i] <;> rfl
theorem and_perm4 (a b c d : BitVec 64) : a &&& (b &&& (c &&& d)) = (a &&& (b &&& c)) &&& d := by
  ext i; simp; cases a[i] <;> cases b[i] <;> cases c[i] <;> cases d[i] <;> rfl

section
variable {g : Mem}

/-- abbreviation: the term contributed by byte `k` -/
def term (g : Mem) (k : Nat) : BitVec 64 := shlByte k (g k) ((g 0).signExtend 64)

/-- AND of the terms of the first `k` bytes -/
def accum (g : Mem) : Nat → BitVec 64
  | 0 => (g 0).signExtend 64
  | 1 => (g 0).signExtend 64
  | k + 1 => accum g k &&& term g k

theorem accum_open (k : Nat) (hk : 1 ≤ k) (hk9 : k ≤ 9) (h : ∀ i, i < k → (g i).msb = true) :
    Open g k (accum g k) := by
  induction k with
  | zero => omega
  | succ k ih =>
    cases k with
    | zero => exact open_one (h 0 (by omega))
    | succ k =>
      exact open_step (h 0 (by omega)) (by omega) (by omega)
        (ih (by omega) (by omega) (fun i hi => h i (by omega))) (h _ (by omega))

theorem accum_closed (k : Nat) (hk9 : k ≤ 9) (h : EndsAt g k) :
    Closed g k (accum g k) := by
  obtain ⟨h1, h2, h3⟩ := h
  match k, h1 with
  | 1, _ => exact closed_one h3
  | k + 2, _ =>
    exact closed_step (h2 0 (by omega)) (by omega) (by omega)
        (accum_open (k + 1) (by omega) (by omega) (fun i hi => h2 i (by omega))) h3

theorem term_msb (h0 : (g 0).msb = true) (k : Nat) (hk : 1 ≤ k) (hk8 : k ≤ 8) : (term g k).msb = (g k).msb :=
  msb_shlByte h0 k hk hk8 _

end

/-- All the exits of the mixer, in terms of `accum`. -/
theorem shiftMix_cases (ty : MixTy) (g : Mem) :
    shiftMix ty g =
      if !(g 0).msb then (some 1, accum g 1) else
      if !(g 1).msb then (some 2, accum g 2) else
      if !(g 2).msb then (some 3, accum g 3) else
      if !(g 3).msb then (some 4, accum g 4) else
      if ty = .tag then
        if (g 4).msb then (none, (g 0).signExtend 64) else (some 5, accum g 4)
      else
      if !(g 4).msb then (some 5, accum g 5) else
      if ty = .w64 then
        if !(g 5).msb then (some 6, accum g 6) else
        if !(g 6).msb then (some 7, accum g 7) else
        if !(g 7).msb then (some 8, accum g 8) else
        if !(g 8).msb then (some 9, accum g 9) else
        if (g 9).msb then (none, (g 0).signExtend 64) else
        if (g 9).getLsbD 0 then (some 10, accum g 9)
        else (some 10, accum g 9 ^^^ (1#64 <<< 63))
      else if ty = .i32 then
        if !(g 5).msb then (some 6, accum g 5) else
        if !(g 6).msb then (some 7, accum g 5) else
        if !(g 7).msb then (some 8, accum g 5) else
        if !(g 8).msb then (some 9, accum g 5) else
        if (g 9).msb then (none, (g 0).signExtend 64) else (some 10, accum g 5)
      else
        if (g 5).msb then (none, (g 0).signExtend 64) else (some 6, accum g 5) := by
  cases h0 : (g 0).msb
  · have h0' := h0
    simp [shiftMix, msb_sext, h0', accum]
  have t1 := term_msb h0 1 (by omega) (by omega)
  have t2 := term_msb h0 2 (by omega) (by omega)
  have t3 := term_msb h0 3 (by omega) (by omega)
  have t4 := term_msb h0 4 (by omega) (by omega)
  have t5 := term_msb h0 5 (by omega) (by omega)
  have t6 := term_msb h0 6 (by omega) (by omega)
  have t7 := term_msb h0 7 (by omega) (by omega)
  have t8 := term_msb h0 8 (by omega) (by omega)
  have fold : ∀ k, shlByte k (g k) ((g 0).signExtend 64) = term g k := fun _ => rfl
  have one_msb : ∀ b : Byte, b = 1#8 → b.msb = false ∧ b.getLsbD 0 = true := by
    rintro b rfl; decide
  have a2 : (g 0).signExtend 64 &&& term g 1 = accum g 2 := rfl
  have a3 : (g 0).signExtend 64 &&& (term g 1 &&& term g 2) = accum g 3 := by
    rw [← BitVec.and_assoc]; rfl
  have a4 : (g 0).signExtend 64 &&& ((term g 1 &&& term g 3) &&& term g 2) = accum g 4 := by
    rw [and_perm3, a3]; rfl
  have a5 : (g 0).signExtend 64 &&& ((term g 1 &&& term g 3) &&& (term g 2 &&& term g 4)) = accum g 5 := by
    rw [and_perm4, a4]; rfl
  have a6 : (g 0).signExtend 64 &&& ((term g 1 &&& term g 3 &&& term g 5) &&& (term g 2 &&& term g 4)) = accum g 6 := by
    rw [and_perm3, a5]; rfl
  have a7 : (g 0).signExtend 64 &&& ((term g 1 &&& term g 3 &&& term g 5) &&& (term g 2 &&& term g 4 &&& term g 6)) = accum g 7 := by
    rw [and_perm4, a6]; rfl
  have a8 : (g 0).signExtend 64 &&& ((term g 1 &&& term g 3 &&& term g 5 &&& term g 7) &&& (term g 2 &&& term g 4 &&& term g 6)) = accum g 8 := by
    rw [and_perm3, a7]; rfl
  have a9 : (g 0).signExtend 64 &&& ((term g 1 &&& term g 3 &&& term g 5 &&& term g 7) &&& (term g 2 &&& term g 4 &&& term g 6 &&& term g 8)) = accum g 9 := by
    rw [and_perm4, a8]; rfl
  cases h1 : (g 1).msb
  · have h1' := h1
    simp [shiftMix, msb_sext, h0, fold, t1, h1', a2]
  cases h2 : (g 2).msb
  · have h2' := h2
    simp [shiftMix, msb_sext, h0, fold, t1, t2, h1, h2', a3]
  cases h3 : (g 3).msb
  · have h3' := h3
    simp [shiftMix, msb_sext, h0, fold, t1, t2, t3, h1, h2, h3', a4, BitVec.msb_and]
  have last : ∀ (k : Nat) (r1 r2 r3 : BitVec 64), mixLast false g k r1 r2 r3 =
      if (g k).msb then (none, r1) else (some (k + 1), r1 &&& (r2 &&& r3)) := by
    intro k r1 r2 r3
    unfold mixLast
    by_cases e : g k = 1#8
    · simp [e]
    · simp [e]
  by_cases ht : ty = .tag
  · subst ht
    simp [shiftMix, msb_sext, h0, fold, t1, t2, t3, h1, h2, h3, a4, BitVec.msb_and, last]
  cases h4 : (g 4).msb
  · have h4' := h4
    simp [shiftMix, msb_sext, h0, fold, t1, t2, t3, t4, h1, h2, h3, h4', ht, a5, BitVec.msb_and]
  cases ty with
  | tag => exact absurd rfl ht
  | u32 =>
    simp [shiftMix, msb_sext, h0, fold, t1, t2, t3, t4, h1, h2, h3, h4, a5, BitVec.msb_and, last]
  | i32 =>
    simp [shiftMix, msb_sext, h0, fold, t1, t2, t3, t4, h1, h2, h3, h4, a5, BitVec.msb_and, last]
  | w64 =>
    cases h5 : (g 5).msb
    · have h5' := h5
      simp [shiftMix, msb_sext, h0, fold, t1, t2, t3, t4, t5, h1, h2, h3, h4, h5', a6, BitVec.msb_and]
    cases h6 : (g 6).msb
    · have h6' := h6
      simp [shiftMix, msb_sext, h0, fold, t1, t2, t3, t4, t5, t6, h1, h2, h3, h4, h5, h6', a7, BitVec.msb_and]
    cases h7 : (g 7).msb
    · have h7' := h7
      simp [shiftMix, msb_sext, h0, fold, t1, t2, t3, t4, t5, t6, t7, h1, h2, h3, h4, h5, h6, h7', a8, BitVec.msb_and]
    cases h8 : (g 8).msb
    · have h8' := h8
      simp [shiftMix, msb_sext, h0, fold, t1, t2, t3, t4, t5, t6, t7, t8, h1, h2, h3, h4, h5, h6, h7, h8', a9, BitVec.msb_and]
    have r3 : (term g 2 &&& term g 4 &&& term g 6 &&& term g 8).msb = true := by
      simp [BitVec.msb_and, t2, t4, t6, t8, h2, h4, h6, h8]
    have r12 : ((g 0).signExtend 64 &&& (term g 1 &&& term g 3 &&& term g 5 &&& term g 7)).msb = true := by
      simp [BitVec.msb_and, msb_sext, t1, t3, t5, t7, h0, h1, h3, h5, h7]
    -- clearing bit 63 of res3 is clearing it in the whole conjunction
    have clr : ∀ a b c : BitVec 64, (a &&& b).msb = true → c.msb = true →
        a &&& (b &&& (c ^^^ (1#64 <<< 63))) = (a &&& (b &&& c)) ^^^ (1#64 <<< 63) := by
      intro a b c hab hc
      rw [BitVec.msb_eq_getLsbD_last] at hab hc
      rw [BitVec.getLsbD_and] at hab
      apply BitVec.eq_of_getLsbD_eq
      intro i hi
      simp only [BitVec.getLsbD_and, BitVec.getLsbD_xor, BitVec.getLsbD_shiftLeft]
      by_cases hi63 : i = 63
      · subst hi63
        simp at hab hc
        simp [hab, hc]
      · have : i < 63 := by omega
        simp [this]
    simp only [shiftMix, msb_sext, h0, fold, t1, t2, t3, t4, t5, t6, t7, t8, h1, h2, h3, h4, h5, h6, h7, h8,
      BitVec.msb_and, Bool.and_self, Bool.not_true, Bool.false_eq_true, if_false, if_true, reduceCtorEq]
    unfold mixLast
    by_cases e : g 9 = 1#8
    · simp [e, one_msb _ rfl, a9]
    · by_cases hm : (g 9).msb = true
      · simp [e, hm]
      · have hm' : (g 9).msb = false := by simpa using hm
        cases hb : (g 9).getLsbD 0 with
        | true => simp [e, hm', a9]
        | false =>
          simp only [e, hm', a9, clr _ _ _ r12 r3]
          simp

/-- Longest encoding each instance of the mixer accepts. -/
def MixTy.maxLen : MixTy → Nat
  | .w64 | .i32 => 10
  | .u32 => 6
  | .tag => 5

/-- Number of low result bits that carry the value, for an `n`-byte encoding. -/
def MixTy.exact : MixTy → Nat → Nat
  | .w64, _ => 64
  | .i32, n | .u32, n => if n ≤ 5 then 64 else 35
  | .tag, n => if n ≤ 4 then 64 else 28

theorem endsAt_of {g : Mem} {n : Nat} (h : ∀ i, i < n → (g i).msb = true) (he : (g n).msb = false) :
    EndsAt g (n + 1) := ⟨by omega, fun i hi => h i (by omega), he⟩

theorem open_low {g : Mem} {k n : Nat} {r} (h : Open g k r) (hn : k ≤ n) (m : Nat) (hm : m ≤ 7 * k)
    (hm64 : m ≤ 64) : ∀ i, i < m → r.getLsbD i = (varintVal g n).testBit i := by
  intro i hi
  have h1 : i < 7 * k := by omega
  have h2 : i < 7 * n := by omega
  rw [h i (by omega), testBit_varintVal]
  simp [h1, h2]

theorem closed_low {g : Mem} {k : Nat} {r} (h : Closed g k r) :
    ∀ i, i < 64 → r.getLsbD i = (varintVal g k).testBit i := by
  intro i hi
  rw [h i hi, testBit_varintVal]

/-- The mixer's length and value, for every memory content. -/
theorem shiftMix_spec (ty : MixTy) (g : Mem) :
    (shiftMix ty g).1 = varintLen g ty.maxLen ∧
    ∀ n, varintLen g ty.maxLen = some n →
      ∀ i, i < ty.exact n → (shiftMix ty g).2.getLsbD i = (varintVal g n).testBit i := by
  have key : ∀ n r, EndsAt g n → n ≤ ty.maxLen → shiftMix ty g = (some n, r) →
      (∀ i, i < ty.exact n → r.getLsbD i = (varintVal g n).testBit i) →
      (shiftMix ty g).1 = varintLen g ty.maxLen ∧
      ∀ n, varintLen g ty.maxLen = some n →
        ∀ i, i < ty.exact n → (shiftMix ty g).2.getLsbD i = (varintVal g n).testBit i := by
    intro n r he hn hs hv
    have hl : varintLen g ty.maxLen = some n := varintLen_some.2 ⟨he, hn⟩
    rw [hs, hl]
    refine ⟨rfl, ?_⟩
    intro m hm
    cases hm
    exact hv
  have keyN : ∀ r, (∀ i, i < ty.maxLen → (g i).msb = true) → shiftMix ty g = (none, r) →
      (shiftMix ty g).1 = varintLen g ty.maxLen ∧
      ∀ n, varintLen g ty.maxLen = some n →
        ∀ i, i < ty.exact n → (shiftMix ty g).2.getLsbD i = (varintVal g n).testBit i := by
    intro r h hs
    have hl : varintLen g ty.maxLen = none := varintLen_none.2 h
    rw [hs, hl]
    refine ⟨rfl, ?_⟩
    intro m hm; cases hm
  have ex64 : ∀ n, ty.exact n ≤ 64 := by intro n; cases ty <;> simp only [MixTy.exact] <;> (try split) <;> omega
  have max5 : 5 ≤ ty.maxLen := by cases ty <;> decide
  have clo : ∀ n, n ≤ 9 → EndsAt g n → ∀ i, i < ty.exact n → (accum g n).getLsbD i = (varintVal g n).testBit i :=
    fun n hn9 he i hi => closed_low (accum_closed n hn9 he) i (Nat.lt_of_lt_of_le hi (ex64 n))
  have hc := shiftMix_cases ty g
  have step : ∀ n : Nat, (∀ i, i < n → (g i).msb = true) → (g n).msb = true →
      (∀ i, i < n + 1 → (g i).msb = true) := by
    intro n h hn i hi
    by_cases e : i = n
    · rw [e]; exact hn
    · exact h i (by omega)
  have H0 : ∀ i, i < 0 → (g i).msb = true := fun i hi => by omega
  cases h0 : (g 0).msb
  · exact key 1 _ (endsAt_of H0 h0) (by omega) (by rw [hc]; simp [h0]) (clo 1 (by omega) (endsAt_of H0 h0))
  have H1 := step 0 H0 h0
  cases h1 : (g 1).msb
  · exact key 2 _ (endsAt_of H1 h1) (by omega) (by rw [hc]; simp [h0, h1]) (clo 2 (by omega) (endsAt_of H1 h1))
  have H2 := step 1 H1 h1
  cases h2 : (g 2).msb
  · exact key 3 _ (endsAt_of H2 h2) (by omega) (by rw [hc]; simp [h0, h1, h2]) (clo 3 (by omega) (endsAt_of H2 h2))
  have H3 := step 2 H2 h2
  cases h3 : (g 3).msb
  · exact key 4 _ (endsAt_of H3 h3) (by omega) (by rw [hc]; simp [h0, h1, h2, h3]) (clo 4 (by omega) (endsAt_of H3 h3))
  have H4 := step 3 H3 h3
  by_cases ht : ty = .tag
  · subst ht
    cases h4 : (g 4).msb
    · exact key 5 _ (endsAt_of H4 h4) (by decide) (by rw [hc]; simp [h0, h1, h2, h3, h4])
        (open_low (accum_open 4 (by omega) (by omega) H4) (by omega) _ (by decide) (by decide))
    · exact keyN _ (step 4 H4 h4) (by rw [hc]; simp [h0, h1, h2, h3, h4]; rfl)
  cases h4 : (g 4).msb
  · exact key 5 _ (endsAt_of H4 h4) (by omega) (by rw [hc]; simp [h0, h1, h2, h3, h4, ht]) (clo 5 (by omega) (endsAt_of H4 h4))
  have H5 := step 4 H4 h4
  have O5 := accum_open 5 (by omega) (by omega) H5
  cases ty with
  | tag => exact absurd rfl ht
  | u32 =>
    cases h5 : (g 5).msb
    · exact key 6 _ (endsAt_of H5 h5) (by decide) (by rw [hc]; simp [h0, h1, h2, h3, h4, h5])
        (open_low O5 (by omega) _ (by decide) (by decide))
    · exact keyN _ (step 5 H5 h5) (by rw [hc]; simp [h0, h1, h2, h3, h4, h5]; rfl)
  | i32 =>
    have lo : ∀ n, 6 ≤ n → ∀ i, i < MixTy.exact .i32 n → (accum g 5).getLsbD i = (varintVal g n).testBit i := by
      intro n hn
      have : ¬ n ≤ 5 := by omega
      apply open_low O5 (by omega) <;> simp [MixTy.exact, this]
    cases h5 : (g 5).msb
    · exact key 6 _ (endsAt_of H5 h5) (by decide) (by rw [hc]; simp [h0, h1, h2, h3, h4, h5]) (lo _ (by omega))
    have H6 := step 5 H5 h5
    cases h6 : (g 6).msb
    · exact key 7 _ (endsAt_of H6 h6) (by decide) (by rw [hc]; simp [h0, h1, h2, h3, h4, h5, h6]) (lo _ (by omega))
    have H7 := step 6 H6 h6
    cases h7 : (g 7).msb
    · exact key 8 _ (endsAt_of H7 h7) (by decide) (by rw [hc]; simp [h0, h1, h2, h3, h4, h5, h6, h7]) (lo _ (by omega))
    have H8 := step 7 H7 h7
    cases h8 : (g 8).msb
    · exact key 9 _ (endsAt_of H8 h8) (by decide) (by rw [hc]; simp [h0, h1, h2, h3, h4, h5, h6, h7, h8]) (lo _ (by omega))
    have H9 := step 8 H8 h8
    cases h9 : (g 9).msb
    · exact key 10 _ (endsAt_of H9 h9) (by decide) (by rw [hc]; simp [h0, h1, h2, h3, h4, h5, h6, h7, h8, h9]) (lo _ (by omega))
    · exact keyN _ (step 9 H9 h9) (by rw [hc]; simp [h0, h1, h2, h3, h4, h5, h6, h7, h8, h9]; rfl)
  | w64 =>
    cases h5 : (g 5).msb
    · exact key 6 _ (endsAt_of H5 h5) (by decide) (by rw [hc]; simp [h0, h1, h2, h3, h4, h5]) (clo 6 (by omega) (endsAt_of H5 h5))
    have H6 := step 5 H5 h5
    cases h6 : (g 6).msb
    · exact key 7 _ (endsAt_of H6 h6) (by decide) (by rw [hc]; simp [h0, h1, h2, h3, h4, h5, h6]) (clo 7 (by omega) (endsAt_of H6 h6))
    have H7 := step 6 H6 h6
    cases h7 : (g 7).msb
    · exact key 8 _ (endsAt_of H7 h7) (by decide) (by rw [hc]; simp [h0, h1, h2, h3, h4, h5, h6, h7]) (clo 8 (by omega) (endsAt_of H7 h7))
    have H8 := step 7 H7 h7
    cases h8 : (g 8).msb
    · exact key 9 _ (endsAt_of H8 h8) (by decide) (by rw [hc]; simp [h0, h1, h2, h3, h4, h5, h6, h7, h8]) (clo 9 (by omega) (endsAt_of H8 h8))
    have H9 := step 8 H8 h8
    have O9 := accum_open 9 (by omega) (by omega) H9
    cases h9 : (g 9).msb
    · cases hb : (g 9).getLsbD 0
      · refine key 10 (accum g 9 ^^^ (1#64 <<< 63)) (endsAt_of H9 h9) (by decide) (by rw [hc]; simp [h0, h1, h2, h3, h4, h5, h6, h7, h8, h9, by simpa using hb]) ?_
        intro i hi
        have hi : i < 64 := hi
        rw [BitVec.getLsbD_xor, O9 i hi, testBit_varintVal, BitVec.getLsbD_shiftLeft]
        by_cases h63 : i = 63
        · subst h63; simp [payBit, show (g 9)[0] = _ by simpa using hb]
        · have : i < 63 := by omega
          have h70 : i < 70 := by omega
          simp [this, h70]
      · refine key 10 (accum g 9) (endsAt_of H9 h9) (by decide) (by rw [hc]; simp [h0, h1, h2, h3, h4, h5, h6, h7, h8, h9, by simpa using hb]) ?_
        intro i hi
        have hi : i < 64 := hi
        rw [O9 i hi, testBit_varintVal]
        by_cases h63 : i = 63
        · subst h63; simp [payBit, show (g 9)[0] = _ by simpa using hb]
        · have : i < 63 := by omega
          have h70 : i < 70 := by omega
          simp [this, h70]
    · exact keyN _ (step 9 H9 h9) (by rw [hc]; simp [h0, h1, h2, h3, h4, h5, h6, h7, h8, h9]; rfl)

/-- the 5-byte tag case: all bits from 28 up are ones -/
theorem shiftMix_tag5 (g : Mem) (h : varintLen g 5 = some 5) (i : Nat) (hi : i < 64) (h28 : 28 ≤ i) :
    (shiftMix .tag g).2.getLsbD i = true := by
  obtain ⟨⟨_, h2, h3⟩, _⟩ := varintLen_some.1 h
  rw [shiftMix_cases]
  have H : ∀ i, i < 4 → (g i).msb = true := fun i hi => h2 i (by omega)
  have e0 := H 0 (by omega); have e1 := H 1 (by omega); have e2 := H 2 (by omega); have e3 := H 3 (by omega)
  have e4 : (g 4).msb = false := h3
  have O := accum_open 4 (by omega) (by omega) H
  simp only [e0, e1, e2, e3, e4, Bool.not_true, Bool.false_eq_true, if_false, if_true]
  rw [O i hi]
  have : ¬ i < 7 * 4 := by omega
  simp [this]

end HppProto
