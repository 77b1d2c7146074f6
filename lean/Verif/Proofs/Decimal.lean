import Verif.Model.Decimal
/-! Decimal text: facts about digits, `fromChars` and the digit writers. -/
namespace HppProto

theorem digit_toNat {n : Nat} (h : n < 10) : (digit n).toNat = 0x30 + n := by
  unfold digit; rw [BitVec.toNat_ofNat]; omega

theorem isDigit_digit {n : Nat} (h : n < 10) : isDigit (digit n) = true := by
  unfold isDigit; rw [digit_toNat h]; simp; omega

theorem digit_of_isDigit {ch : Byte} (h : isDigit ch = true) : ∃ n < 10, ch = digit n := by
  unfold isDigit at h
  simp at h
  refine ⟨ch.toNat - 0x30, by omega, ?_⟩
  apply BitVec.eq_of_toNat_eq
  rw [digit_toNat (by omega)]; omega

theorem not_digit_minus : isDigit 0x2d = false := by decide
theorem not_digit_point : isDigit 0x2e = false := by decide

theorem foldl_dec (s : List Byte) : ∀ n, s.foldl (fun n ch => 10 * n + (ch.toNat - 0x30)) n = n * 10 ^ s.length + decVal s := by
  induction s with
  | nil => intro n; simp [decVal]
  | cons c s ih =>
    intro n
    have e : decVal (c :: s) = (c.toNat - 0x30) * 10 ^ s.length + decVal s := by
      unfold decVal; rw [List.foldl_cons, ih]; simp [decVal]
    rw [List.foldl_cons, ih, e, List.length_cons, Nat.pow_succ, Nat.add_mul, Nat.mul_comm 10 n, Nat.mul_assoc, Nat.mul_comm 10]
    omega

theorem decVal_append (a b : List Byte) : decVal (a ++ b) = decVal a * 10 ^ b.length + decVal b := by
  unfold decVal
  rw [List.foldl_append, foldl_dec]
  rfl

theorem decVal_digit {n : Nat} (h : n < 10) : decVal [digit n] = n := by
  simp [decVal, digit_toNat h]

theorem decVal_lt (s : List Byte) (h : ∀ ch ∈ s, isDigit ch = true) : decVal s < 10 ^ s.length := by
  induction s with
  | nil => simp [decVal]
  | cons c s ih =>
    have e : decVal (c :: s) = (c.toNat - 0x30) * 10 ^ s.length + decVal s := by
      have := decVal_append [c] s
      simpa [decVal] using this
    have ih := ih (fun ch hc => h ch (by simp [hc]))
    obtain ⟨n, hn, rfl⟩ := digit_of_isDigit (h c (by simp))
    rw [e, digit_toNat hn, List.length_cons, Nat.pow_succ]
    have : n * 10 ^ s.length ≤ 9 * 10 ^ s.length := Nat.mul_le_mul_right _ (by omega)
    have e2 : 0x30 + n - 0x30 = n := by omega
    rw [e2]
    omega

theorem fixed_length : ∀ k n, (fixedDigits k n).length = k
  | 0, _ => rfl
  | k + 1, n => by simp [fixedDigits, fixed_length k]

theorem fixed_digits : ∀ k n, ∀ ch ∈ fixedDigits k n, isDigit ch = true
  | 0, _ => by simp [fixedDigits]
  | k + 1, n => by
    intro ch h
    simp only [fixedDigits, List.mem_append, List.mem_singleton] at h
    rcases h with h | rfl
    · exact fixed_digits k _ ch h
    · exact isDigit_digit (by omega)

theorem fixed_val : ∀ k n, decVal (fixedDigits k n) = n % 10 ^ k
  | 0, n => by simp [fixedDigits, decVal, Nat.mod_one]
  | k + 1, n => by
    rw [fixedDigits, decVal_append, fixed_val k, decVal_digit (by omega), Nat.pow_succ, Nat.mul_comm (10 ^ k) 10, Nat.mod_mul]
    simp; omega

theorem toDecAux_digits : ∀ k n, ∀ ch ∈ toDecAux k n, isDigit ch = true
  | 0, n => by
    intro ch h
    simp only [toDecAux, List.mem_singleton] at h
    subst h
    exact isDigit_digit (by omega)
  | k + 1, n => by
    intro ch h
    rw [toDecAux] at h
    split at h
    · simp only [List.mem_singleton] at h
      subst h
      exact isDigit_digit (by omega)
    · simp only [List.mem_append, List.mem_singleton] at h
      rcases h with h | rfl
      · exact toDecAux_digits k _ ch h
      · exact isDigit_digit (by omega)

theorem toDecAux_val : ∀ k n, n < 10 ^ (k + 1) → decVal (toDecAux k n) = n
  | 0, n => by
    intro h
    rw [toDecAux, decVal_digit (by omega)]
    simp at h; omega
  | k + 1, n => by
    intro h
    rw [toDecAux]
    split
    · rename_i h'; rw [decVal_digit h']
    · rw [decVal_append, toDecAux_val k _ (by rw [Nat.pow_succ] at h; omega), decVal_digit (by omega)]
      simp; omega

theorem toDecAux_ne : ∀ k n, toDecAux k n ≠ []
  | 0, n => by simp [toDecAux]
  | k + 1, n => by rw [toDecAux]; split <;> simp

/-- No leading zero, except for the text of zero. -/
theorem toDecAux_head : ∀ k n, 0 < n → n < 10 ^ (k + 1) → (toDecAux k n).head? ≠ some 0x30
  | 0, n => by
    intro h0 h
    simp only [toDecAux, List.head?_cons, ne_eq, Option.some.injEq]
    intro e
    have := congrArg BitVec.toNat e
    simp at h
    rw [digit_toNat (by omega)] at this
    simp at this; omega
  | k + 1, n => by
    intro h0 h
    rw [toDecAux]
    split
    · rename_i h'
      simp only [List.head?_cons, ne_eq, Option.some.injEq]
      intro e
      have := congrArg BitVec.toNat e
      rw [digit_toNat h'] at this
      simp at this; omega
    · have := toDecAux_head k (n / 10) (by omega) (by rw [Nat.pow_succ] at h; omega)
      rw [List.head?_append, Option.or_of_isSome (by simpa using toDecAux_ne k _)]
      exact this

theorem toDecAux_length : ∀ k n j, n < 10 ^ (j + 1) → (toDecAux k n).length ≤ j + 1
  | 0, n, j => by intro; simp [toDecAux]
  | k + 1, n, j => by
    intro h
    rw [toDecAux]
    split
    · simp
    · match j with
      | 0 => simp at h; omega
      | j + 1 =>
        have := toDecAux_length k (n / 10) j (by rw [Nat.pow_succ] at h; omega)
        simp; omega

theorem takeWhile_digits {s : List Byte} (h : ∀ ch ∈ s, isDigit ch = true) : s.takeWhile isDigit = s ∧ s.dropWhile isDigit = [] := by
  induction s with
  | nil => simp
  | cons c s ih =>
    have hc := h c (by simp)
    have ih := ih (fun ch hh => h ch (by simp [hh]))
    simp [hc, ih]

theorem dropWhile_nil {s : List Byte} (h : s.dropWhile isDigit = []) : (∀ ch ∈ s, isDigit ch = true) := by
  induction s with
  | nil => simp
  | cons c s ih =>
    rw [List.dropWhile_cons] at h
    split at h
    · rename_i hc
      intro ch hm
      rcases List.mem_cons.1 hm with rfl | hm
      · exact hc
      · exact ih h ch hm
    · simp at h

/-- What `from_chars` over a whole text accepts. -/
theorem fromStrView_iff (lo hi : Int) (s : List Byte) (v : Int) : fromStrView lo hi s = some v ↔
    ∃ (neg : Bool) (ds : List Byte), (neg = true → lo < 0) ∧ s = (if neg then 0x2d :: ds else ds) ∧ ds ≠ [] ∧ (∀ ch ∈ ds, isDigit ch = true) ∧
      v = (if neg then - (decVal ds : Int) else decVal ds) ∧ lo ≤ v ∧ v ≤ hi := by
  constructor
  · intro h
    unfold fromStrView at h
    split at h
    case h_2 => simp at h
    case h_1 v' heq =>
    injection h with h; subst h
    unfold fromChars at heq
    simp only at heq
    by_cases hneg : lo < 0 ∧ s.head? = some 0x2d
    · simp only [hneg, and_self, if_true] at heq
      split at heq
      · simp at heq
      split at heq
      · simp at heq
      rename_i hne hr
      simp only [Option.some.injEq, Prod.mk.injEq] at heq
      obtain ⟨rfl, hd⟩ := heq
      have hall := dropWhile_nil hd
      rw [(takeWhile_digits hall).1] at hne hr ⊢
      have hs : s = 0x2d :: s.tail := by
        cases s with
        | nil => simp at hneg
        | cons a s => simp at hneg; simp [hneg.2]
      exact ⟨true, s.tail, fun _ => hneg.1, by simpa using hs, hne, hall, by simp, by omega, by omega⟩
    · simp only [hneg, if_false] at heq
      split at heq
      · simp at heq
      split at heq
      · simp at heq
      rename_i hne hr
      simp only [Option.some.injEq, Prod.mk.injEq] at heq
      obtain ⟨rfl, hd⟩ := heq
      have hall := dropWhile_nil hd
      rw [(takeWhile_digits hall).1] at hne hr ⊢
      exact ⟨false, s, by simp, by simp, hne, hall, by simp, by omega, by omega⟩
  · rintro ⟨neg, ds, hlo, rfl, hne, hall, rfl, h1, h2⟩
    have ht := takeWhile_digits hall
    cases neg with
    | true =>
      have hl := hlo rfl
      simp only [if_true] at h1 h2 ⊢
      unfold fromStrView fromChars
      simp only [hl, List.head?_cons, true_and, if_true, List.tail_cons, ht.1, ht.2]
      rw [if_neg hne, if_neg (by omega)]
    | false =>
      simp only [Bool.false_eq_true, if_false] at h1 h2 ⊢
      have hh : ¬ (lo < 0 ∧ ds.head? = some 0x2d) := by
        rintro ⟨_, hh⟩
        have := hall 0x2d (List.mem_of_mem_head? hh)
        rw [not_digit_minus] at this; cases this
      unfold fromStrView fromChars
      simp only [hh, if_false, ht.1, ht.2]
      rw [if_neg hne, if_neg (by omega)]

end HppProto
