import Verif.Model.Timestamp
import Verif.Spec.Timestamp
import Verif.Proofs.Calendar
import Verif.Proofs.Duration
/-! Timestamp text: what the decoder accepts and what the encoder writes. -/
namespace HppProto
open Spec

theorem two_length (n : Nat) : (two n).length = 2 := rfl
theorem four_length (n : Nat) : (four n).length = 4 := rfl

theorem two_digits {n : Nat} (h : n < 100) : ∀ ch ∈ two n, isDigit ch = true := by
  intro ch hc
  simp only [two, List.mem_cons, List.not_mem_nil, or_false] at hc
  rcases hc with rfl | rfl <;> exact isDigit_digit (by omega)

theorem four_digits {n : Nat} (h : n < 10000) : ∀ ch ∈ four n, isDigit ch = true := by
  intro ch hc
  simp only [four, List.mem_cons, List.not_mem_nil, or_false] at hc
  rcases hc with rfl | rfl | rfl | rfl <;> exact isDigit_digit (by omega)

theorem two_val {n : Nat} (h : n < 100) : decVal (two n) = n := by
  simp only [two, decVal, List.foldl_cons, List.foldl_nil, digit_toNat (show n / 10 < 10 by omega), digit_toNat (show n % 10 < 10 by omega)]
  omega

theorem four_val {n : Nat} (h : n < 10000) : decVal (four n) = n := by
  simp only [four, decVal, List.foldl_cons, List.foldl_nil, digit_toNat (show n / 1000 < 10 by omega), digit_toNat (show n / 100 % 10 < 10 by omega),
    digit_toNat (show n / 10 % 10 < 10 by omega), digit_toNat (show n % 10 < 10 by omega)]
  omega

theorem fixed_two {n : Nat} (h : n < 100) : fixedDigits 2 n = two n := by
  simp only [fixedDigits, two, List.nil_append, List.cons_append]
  rw [show n / 10 % 10 = n / 10 by omega]

theorem fixed_four {n : Nat} (h : n < 10000) : fixedDigits 4 n = four n := by
  simp only [fixedDigits, four, List.nil_append, List.cons_append]
  rw [show n / 10 / 10 / 10 % 10 = n / 1000 by omega, show n / 10 / 10 % 10 = n / 100 % 10 by omega]

/-- Two digits are the text of their number. -/
theorem two_of_digits {a b : Byte} (ha : isDigit a = true) (hb : isDigit b = true) : [a, b] = two (decVal [a, b]) ∧ decVal [a, b] < 100 := by
  obtain ⟨m, hm, rfl⟩ := digit_of_isDigit ha
  obtain ⟨n, hn, rfl⟩ := digit_of_isDigit hb
  have e : decVal [digit m, digit n] = 10 * m + n := by
    simp only [decVal, List.foldl_cons, List.foldl_nil, digit_toNat hm, digit_toNat hn]; omega
  rw [e]
  unfold two
  rw [show (10 * m + n) / 10 = m by omega, show (10 * m + n) % 10 = n by omega]
  exact ⟨rfl, by omega⟩

theorem four_of_digits {a b c d : Byte} (ha : isDigit a = true) (hb : isDigit b = true) (hc : isDigit c = true) (hd : isDigit d = true) :
    [a, b, c, d] = four (decVal [a, b, c, d]) ∧ decVal [a, b, c, d] < 10000 := by
  obtain ⟨m, hm, rfl⟩ := digit_of_isDigit ha
  obtain ⟨n, hn, rfl⟩ := digit_of_isDigit hb
  obtain ⟨p, hp, rfl⟩ := digit_of_isDigit hc
  obtain ⟨q, hq, rfl⟩ := digit_of_isDigit hd
  have e : decVal [digit m, digit n, digit p, digit q] = 1000 * m + 100 * n + 10 * p + q := by
    simp only [decVal, List.foldl_cons, List.foldl_nil, digit_toNat hm, digit_toNat hn, digit_toNat hp, digit_toNat hq]; omega
  rw [e]
  unfold four
  rw [show (1000 * m + 100 * n + 10 * p + q) / 1000 = m by omega, show (1000 * m + 100 * n + 10 * p + q) / 100 % 10 = n by omega,
    show (1000 * m + 100 * n + 10 * p + q) / 10 % 10 = p by omega, show (1000 * m + 100 * n + 10 * p + q) % 10 = q by omega]
  exact ⟨rfl, by omega⟩

/-- What `from_chars` makes of a component: two digits, or the text `-0`. -/
def looseTwo (w : List Byte) (v : Nat) : Prop := (w = two v ∧ v < 100) ∨ (w = [0x2d, 0x30] ∧ v = 0)

theorem fromStrView_two {w : List Byte} {v : Int} (hl : w.length = 2) (h0 : 0 ≤ v) : fromStrView minI32 maxI32 w = some v ↔ looseTwo w v.toNat := by
  rw [fromStrView_iff]
  constructor
  · rintro ⟨neg, ds, -, rfl, hne, hall, rfl, -, -⟩
    cases neg with
    | false =>
      simp only [Bool.false_eq_true, if_false] at hl h0 ⊢
      match ds, hl with
      | [a, b], _ =>
        have := two_of_digits (hall a (by simp)) (hall b (by simp))
        left
        simpa using this
    | true =>
      simp only [if_true] at hl h0 ⊢
      match ds, hl with
      | [a], _ =>
        obtain ⟨n, hn, rfl⟩ := digit_of_isDigit (hall a (by simp))
        rw [decVal_digit hn] at h0 ⊢
        have : n = 0 := by omega
        subst this
        right
        exact ⟨rfl, rfl⟩
  · rintro (⟨rfl, h⟩ | ⟨rfl, h⟩)
    · refine ⟨false, two v.toNat, by simp, by simp, by simp [two], two_digits h, ?_, by unfold minI32; omega, by unfold maxI32; omega⟩
      rw [two_val h]; simp; omega
    · refine ⟨true, [0x30], fun _ => by unfold minI32; omega, by simp, by simp, by decide, ?_, by unfold minI32; omega, by unfold maxI32; omega⟩
      have : v = 0 := by omega
      subst this; rfl

theorem fromStrView_four {w : List Byte} {v : Int} (hl : w.length = 4) (h0 : 0 < v) : fromStrView minI32 maxI32 w = some v ↔ (w = four v.toNat ∧ v.toNat < 10000) := by
  rw [fromStrView_iff]
  constructor
  · rintro ⟨neg, ds, -, rfl, hne, hall, rfl, -, -⟩
    cases neg with
    | false =>
      simp only [Bool.false_eq_true, if_false] at hl h0 ⊢
      match ds, hl with
      | [a, b, c, d], _ =>
        have := four_of_digits (hall a (by simp)) (hall b (by simp)) (hall c (by simp)) (hall d (by simp))
        simpa using this
    | true =>
      simp only [if_true] at hl h0 ⊢
      omega
  · rintro ⟨rfl, h⟩
    refine ⟨false, four v.toNat, by simp, by simp, by simp [four], four_digits h, ?_, by unfold minI32; omega, by unfold maxI32; omega⟩
    rw [four_val h]; simp; omega

theorem parseSep_iff (s : List Byte) (k : Nat) (c : Byte) (v : Int) (rest : List Byte) : parseWithSeparator s k (some c) = some (v, rest) ↔
    ∃ w, w.length = k ∧ s = w ++ c :: rest ∧ fromStrView minI32 maxI32 w = some v := by
  unfold parseWithSeparator
  constructor
  · intro h
    split at h
    · simp at h
    rename_i hlen
    split at h
    · simp at h
    rename_i u hu
    simp only at h
    split at h
    · rename_i hh
      simp only [Option.some.injEq, Prod.mk.injEq] at h
      obtain ⟨rfl, rfl⟩ := h
      refine ⟨s.take k, by simp; omega, ?_, hu⟩
      conv => lhs; rw [← List.take_append_drop k s]
      congr 1
      cases hd : s.drop k with
      | nil => rw [hd] at hh; simp at hh
      | cons a t => rw [hd] at hh; simp at hh; simp [hh]
    · simp at h
  · rintro ⟨w, rfl, rfl, hw⟩
    rw [if_neg (by simp)]
    simp [hw]

theorem parseEnd_iff (s : List Byte) (k : Nat) (v : Int) (rest : List Byte) : parseWithSeparator s k none = some (v, rest) ↔
    ∃ w, w.length = k ∧ s = w ++ rest ∧ fromStrView minI32 maxI32 w = some v := by
  unfold parseWithSeparator
  constructor
  · intro h
    split at h
    · simp at h
    rename_i hlen
    split at h
    · simp at h
    rename_i u hu
    simp only [Option.some.injEq, Prod.mk.injEq] at h
    obtain ⟨rfl, rfl⟩ := h
    exact ⟨s.take k, by simp; omega, (List.take_append_drop k s).symm, hu⟩
  · rintro ⟨w, rfl, rfl, hw⟩
    rw [if_neg (by simp)]
    simp [hw]

theorem parseDatetime_iff (s : List Byte) (yy mm dd hh mn ss : Int) (rest : List Byte) : parseDatetime s = some ((yy, mm, dd, hh, mn, ss), rest) ↔
    ∃ y m d h n e : List Byte, y.length = 4 ∧ m.length = 2 ∧ d.length = 2 ∧ h.length = 2 ∧ n.length = 2 ∧ e.length = 2 ∧
      s = y ++ 0x2d :: (m ++ 0x2d :: (d ++ 0x54 :: (h ++ 0x3a :: (n ++ 0x3a :: (e ++ rest))))) ∧
      fromStrView minI32 maxI32 y = some yy ∧ fromStrView minI32 maxI32 m = some mm ∧ fromStrView minI32 maxI32 d = some dd ∧
      fromStrView minI32 maxI32 h = some hh ∧ fromStrView minI32 maxI32 n = some mn ∧ fromStrView minI32 maxI32 e = some ss := by
  constructor
  · intro H
    unfold parseDatetime at H
    split at H
    · simp at H
    rename_i v1 s1 h1
    split at H
    · simp at H
    rename_i v2 s2 h2
    split at H
    · simp at H
    rename_i v3 s3 h3
    split at H
    · simp at H
    rename_i v4 s4 h4
    split at H
    · simp at H
    rename_i v5 s5 h5
    split at H
    · simp at H
    rename_i v6 s6 h6
    simp only [Option.some.injEq, Prod.mk.injEq] at H
    obtain ⟨⟨rfl, rfl, rfl, rfl, rfl, rfl⟩, rfl⟩ := H
    rw [parseSep_iff] at h1 h2 h3 h4 h5
    rw [parseEnd_iff] at h6
    obtain ⟨w1, l1, rfl, f1⟩ := h1
    obtain ⟨w2, l2, rfl, f2⟩ := h2
    obtain ⟨w3, l3, rfl, f3⟩ := h3
    obtain ⟨w4, l4, rfl, f4⟩ := h4
    obtain ⟨w5, l5, rfl, f5⟩ := h5
    obtain ⟨w6, l6, rfl, f6⟩ := h6
    exact ⟨w1, w2, w3, w4, w5, w6, l1, l2, l3, l4, l5, l6, rfl, f1, f2, f3, f4, f5, f6⟩
  · rintro ⟨w1, w2, w3, w4, w5, w6, l1, l2, l3, l4, l5, l6, rfl, f1, f2, f3, f4, f5, f6⟩
    unfold parseDatetime
    rw [(parseSep_iff _ _ _ _ _).2 ⟨w1, l1, rfl, f1⟩]
    simp only
    rw [(parseSep_iff _ _ _ _ _).2 ⟨w2, l2, rfl, f2⟩]
    simp only
    rw [(parseSep_iff _ _ _ _ _).2 ⟨w3, l3, rfl, f3⟩]
    simp only
    rw [(parseSep_iff _ _ _ _ _).2 ⟨w4, l4, rfl, f4⟩]
    simp only
    rw [(parseSep_iff _ _ _ _ _).2 ⟨w5, l5, rfl, f5⟩]
    simp only
    rw [(parseEnd_iff _ _ _ _).2 ⟨w6, l6, rfl, f6⟩]

/-- What is accepted as a fraction: digits, or a minus sign and zeros. -/
def looseFrac (f : Option (List Byte)) (n : Int) : Prop :=
  match f with
  | none => n = 0
  | some f => 1 ≤ f.length ∧ f.length ≤ 9 ∧
    (((∀ ch ∈ f, isDigit ch = true) ∧ n = fracNanos (some f)) ∨ (∃ k, f = 0x2d :: List.replicate (k + 1) 0x30) ∧ n = 0)

theorem decVal_zero {ds : List Byte} (h : ∀ ch ∈ ds, isDigit ch = true) (h0 : decVal ds = 0) : ds = List.replicate ds.length 0x30 := by
  induction ds with
  | nil => rfl
  | cons c s ih =>
    have e : decVal (c :: s) = (c.toNat - 0x30) * 10 ^ s.length + decVal s := by
      have := decVal_append [c] s
      simpa [decVal] using this
    obtain ⟨n, hn, rfl⟩ := digit_of_isDigit (h c (by simp))
    rw [e, digit_toNat hn] at h0
    have hs : decVal s = 0 := by omega
    have hp : 0 < 10 ^ s.length := Nat.pow_pos (by omega)
    have hn0 : n = 0 := by
      have h1 : (0x30 + n - 0x30) * 10 ^ s.length = 0 := by omega
      rcases Nat.mul_eq_zero.1 h1 with h2 | h2
      · omega
      · omega
    subst hn0
    have := ih (fun ch hc => h ch (by simp [hc])) hs
    rw [List.length_cons, List.replicate_succ, ← this]
    rfl

theorem decVal_zeros (k : Nat) : decVal (List.replicate k 0x30) = 0 := by
  induction k with
  | zero => rfl
  | succ k ih =>
    have := decVal_append [0x30] (List.replicate k 0x30)
    rw [List.replicate_succ]
    rw [ih] at this
    simpa [decVal] using this

theorem parseFrac_iff (s : List Byte) (n : Int) : parseFractionalNanos s = some n ↔ ∃ f, s = fracText f ∧ looseFrac f n := by
  constructor
  · intro h
    match s, h with
    | [], h =>
      simp [parseFractionalNanos] at h
      exact ⟨none, rfl, h.symm⟩
    | c :: f, h =>
      unfold parseFractionalNanos at h
      simp only at h
      split at h
      · simp at h
      rename_i hc
      split at h
      · simp at h
      rename_i hl
      split at h
      · simp at h
      rename_i m hm
      split at h
      · simp at h
      rename_i hneg
      injection h with h
      have hc' : c = 0x2e := by simpa using hc
      subst hc'
      refine ⟨some f, rfl, ?_⟩
      have hne : f ≠ [] := fun h => hl (Or.inl h)
      refine ⟨List.length_pos_iff.2 hne, by omega, ?_⟩
      rw [fromStrView_iff] at hm
      obtain ⟨neg, ds, -, hf, hdne, hall, hv, -, -⟩ := hm
      cases neg with
      | false =>
        simp only [Bool.false_eq_true, if_false] at hf hv
        subst hf
        left
        refine ⟨hall, ?_⟩
        rw [← h, hv]
        rfl
      | true =>
        simp only [if_true] at hf hv
        right
        have h0 : decVal ds = 0 := by omega
        have hz := decVal_zero hall h0
        refine ⟨⟨ds.length - 1, ?_⟩, ?_⟩
        · rw [hf]
          congr 1
          have : ds.length - 1 + 1 = ds.length := by have := List.length_pos_iff.2 hdne; omega
          rw [this]; exact hz
        · rw [← h, hv, h0]; simp [scaleNanos]
  · rintro ⟨f, rfl, h⟩
    cases f with
    | none => simp only [looseFrac] at h; subst h; rfl
    | some f =>
      obtain ⟨h1, h2, h3⟩ := h
      have hne : f ≠ [] := by rintro rfl; simp at h1
      simp only [fracText, parseFractionalNanos]
      rw [if_neg (by simp), if_neg (by simp [hne]; omega)]
      rcases h3 with ⟨hall, rfl⟩ | ⟨⟨k, rfl⟩, rfl⟩
      · have hb := decVal_lt f hall
        have : 10 ^ f.length ≤ 10 ^ 9 := Nat.pow_le_pow_right (by omega) h2
        have hv : fromStrView minI32 maxI32 f = some (decVal f : Int) := by
          rw [fromStrView_iff]
          exact ⟨false, f, by simp, rfl, hne, hall, rfl, by unfold minI32; omega, by unfold maxI32; omega⟩
        rw [hv]
        simp only
        rw [if_neg (by omega)]
        rfl
      · have hv : fromStrView minI32 maxI32 (0x2d :: List.replicate (k + 1) 0x30) = some 0 := by
          rw [fromStrView_iff]
          refine ⟨true, List.replicate (k + 1) 0x30, fun _ => by unfold minI32; omega, rfl, by simp, ?_, ?_, by unfold minI32; omega, by unfold maxI32; omega⟩
          · intro ch hc
            rw [List.eq_of_mem_replicate hc]; rfl
          · rw [decVal_zeros]; rfl
        rw [hv]
        simp [scaleNanos]

/-- Exactly what the decoder accepts, and the value it returns. -/
theorem timestampDecode_iff (t : List Byte) (sec nanos : Int) : timestampDecode t = some (sec, nanos) ↔
    ∃ (y m d h n e : Nat) (hT nT eT : List Byte) (f : Option (List Byte)), dateOk y m d ∧ h < 24 ∧ n < 60 ∧ e < 60 ∧
      looseTwo hT h ∧ looseTwo nT n ∧ looseTwo eT e ∧ looseFrac f nanos ∧
      t = four y ++ 0x2d :: (two m ++ 0x2d :: (two d ++ 0x54 :: (hT ++ 0x3a :: (nT ++ 0x3a :: (eT ++ fracText f))))) ++ [0x5a] ∧
      sec = dayNumber y m d * 86400 + h * 3600 + n * 60 + e := by
  constructor
  · intro H
    unfold timestampDecode at H
    split at H
    · simp at H
    rename_i hl
    have ht : t = t.dropLast ++ [0x5a] := by
      have hl' : t.getLast? = some 0x5a := by simpa using hl
      obtain ⟨ys, hy⟩ := List.getLast?_eq_some_iff.1 hl'
      rw [hy]; simp
    split at H
    · simp at H
    rename_i yy mm dd hh mn ss rest hp
    split at H
    · simp at H
    rename_i hv
    split at H
    · simp at H
    rename_i hday
    split at H
    · simp at H
    rename_i fr hfr
    simp only [Option.some.injEq, Prod.mk.injEq] at H
    obtain ⟨hsec, rfl⟩ := H
    rw [parseDatetime_iff] at hp
    obtain ⟨w1, w2, w3, w4, w5, w6, l1, l2, l3, l4, l5, l6, hs, f1, f2, f3, f4, f5, f6⟩ := hp
    unfold validateDatetime at hv
    simp only [Bool.not_eq_true, Bool.not_eq_false] at hv
    split at hv
    · simp at hv
    split at hv
    · simp at hv
    rename_i hv1 hv2
    rw [fromStrView_four l1 (by omega)] at f1
    rw [fromStrView_two l2 (by omega)] at f2
    rw [fromStrView_two l3 (by omega)] at f3
    rw [fromStrView_two l4 (by omega)] at f4
    rw [fromStrView_two l5 (by omega)] at f5
    rw [fromStrView_two l6 (by omega)] at f6
    rw [parseFrac_iff] at hfr
    obtain ⟨f, rfl, hf⟩ := hfr
    rw [lastDay_eq _ (by omega) (by omega)] at hday
    have hd : dateOk yy.toNat mm.toNat dd.toNat := ⟨by omega, by omega, by omega, by omega, by omega, by omega⟩
    have e2 : w2 = two mm.toNat := by rcases f2 with h | h; exact h.1; omega
    have e3 : w3 = two dd.toNat := by rcases f3 with h | h; exact h.1; omega
    refine ⟨yy.toNat, mm.toNat, dd.toNat, hh.toNat, mn.toNat, ss.toNat, w4, w5, w6, f, hd, by omega, by omega, by omega, f4, f5, f6, hf, ?_, ?_⟩
    · rw [ht, hs, f1.1, e2, e3]
    · rw [← hsec, sysDays_eq hd]; omega
  · rintro ⟨y, m, d, h, n, e, hT, nT, eT, f, hd, h24, n60, e60, fh, fn, fe, ff, ht, hsec⟩
    rw [ht, hsec]
    clear ht hsec
    have ll : ∀ {w v}, looseTwo w v → w.length = 2 := by
      rintro w v (⟨rfl, _⟩ | ⟨rfl, _⟩) <;> rfl
    have hb := hd
    obtain ⟨d1, d2, d3, d4, d5, d6⟩ := hb
    have hday : d ≤ 31 := by
      have : daysIn y m ≤ 31 := by
        rcases month_cases d3 d4 with h | h | h | h | h | h | h | h | h | h | h | h <;> subst h <;> simp only [daysIn] <;> (try split) <;> omega
      omega
    unfold timestampDecode
    rw [if_neg (by rw [List.getLast?_concat]; simp), List.dropLast_concat,
      (parseDatetime_iff _ y m d h n e (fracText f)).2 ⟨four y, two m, two d, hT, nT, eT, rfl, rfl, rfl, ll fh, ll fn, ll fe, rfl,
        (fromStrView_four rfl (by omega)).2 ⟨by simp, by simp; omega⟩, (fromStrView_two rfl (by omega)).2 (Or.inl ⟨by simp, by simp; omega⟩),
        (fromStrView_two rfl (by omega)).2 (Or.inl ⟨by simp, by simp; omega⟩), (fromStrView_two (ll fh) (by omega)).2 (by simpa using fh),
        (fromStrView_two (ll fn) (by omega)).2 (by simpa using fn), (fromStrView_two (ll fe) (by omega)).2 (by simpa using fe)⟩]
    simp only
    have hv : validateDatetime y m d h n e = true := by
      unfold validateDatetime
      rw [if_neg (by omega), if_neg (by omega)]
    rw [hv, (parseFrac_iff _ _).2 ⟨f, rfl, ff⟩]
    simp only [not_true_eq_false, if_false, Int.toNat_natCast]
    rw [if_neg (by rw [lastDay_eq _ d3 d4]; omega), sysDays_eq hd]

/-- The parts the encoder writes. -/
def timestampParts (s n : Int) : DateTime :=
  let day := s / 86400
  let tod := (s - day * 86400).toNat
  ⟨(civil day).1, (civil day).2.1, (civil day).2.2, tod / 3600, tod % 3600 / 60, tod % 60, if n > 0 then some (nanosDigits n.natAbs) else none⟩

theorem timestampParts_ok {s n : Int} (h1 : -62135596800 ≤ s) (h2 : s ≤ 253402300799) (h3 : 0 ≤ n) (h4 : n ≤ 999999999) :
    (timestampParts s n).ok ∧ (timestampParts s n).seconds = s ∧ fracNanos (timestampParts s n).frac = n := by
  have hday : -719162 ≤ s / 86400 ∧ s / 86400 < 2932897 := by omega
  obtain ⟨hd, hs⟩ := civil_spec hday.1 hday.2
  have hnd := nanosDigits_spec (n := n.natAbs) (by omega)
  refine ⟨⟨hd, ?_, ?_, ?_, ?_⟩, ?_, ?_⟩
  · simp only [timestampParts]; omega
  · simp only [timestampParts]; omega
  · simp only [timestampParts]; omega
  · intro f hf
    simp only [timestampParts] at hf
    split at hf
    · injection hf with hf
      subst hf
      refine ⟨?_, ?_, hnd.1⟩ <;> rw [hnd.2.2] <;> split <;> (try split) <;> omega
    · cases hf
  · unfold DateTime.seconds
    rw [← sysDays_eq (show dateOk (timestampParts s n).year (timestampParts s n).month (timestampParts s n).day from hd)]
    simp only [timestampParts]
    rw [hs]
    omega
  · simp only [timestampParts]
    split
    · have := hnd.2.1
      simp only [fracNanos]
      have h' : (((decVal (nanosDigits n.natAbs)) * 10 ^ (9 - (nanosDigits n.natAbs).length) : Nat) : Int) = (n.natAbs : Int) := by rw [this]
      rw [Int.natCast_mul, Int.natCast_pow] at h'
      rw [show ((10 : Nat) : Int) = 10 from rfl] at h'
      rw [h']; omega
    · simp only [fracNanos]; omega

theorem timestampEncode_text {s n : Int} (h1 : -62135596800 ≤ s) (h2 : s ≤ 253402300799) (h3 : 0 ≤ n) (h4 : n ≤ 999999999) :
    timestampEncode s n = some (timestampParts s n).text := by
  obtain ⟨⟨hd, hh, hm, hs, -⟩, -, -⟩ := timestampParts_ok h1 h2 h3 h4
  obtain ⟨d1, d2, d3, d4, d5, d6⟩ := hd
  have hday : (timestampParts s n).day ≤ 31 := by
    have : daysIn (timestampParts s n).year (timestampParts s n).month ≤ 31 := by
      generalize (timestampParts s n).month = m at *
      rcases month_cases d3 d4 with h | h | h | h | h | h | h | h | h | h | h | h <;> subst h <;> simp only [daysIn] <;> (try split) <;> omega
    omega
  unfold timestampEncode
  rw [if_neg (by omega), if_neg (by omega)]
  unfold DateTime.text
  rw [← fixed_four (n := (timestampParts s n).year) (by omega), ← fixed_two (n := (timestampParts s n).month) (by omega),
    ← fixed_two (n := (timestampParts s n).day) (by omega), ← fixed_two (n := (timestampParts s n).hour) (by omega),
    ← fixed_two (n := (timestampParts s n).minute) (by omega), ← fixed_two (n := (timestampParts s n).second) (by omega)]
  clear hh hm hs d1 d2 d3 d4 d5 d6 hday
  unfold timestampParts
  generalize civil (s / 86400) = c
  obtain ⟨y, m, d⟩ := c
  by_cases hn : n > 0
  · simp [hn, fracText]
  · simp [hn, fracText]

end HppProto
