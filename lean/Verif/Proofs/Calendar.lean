import Verif.Model.Calendar
import Verif.Spec.Calendar
/-! The calendar functions agree with counting days. -/
namespace HppProto
open Spec

theorem isLeap_iff (y : Nat) : isLeap y = true ↔ leap y := by
  unfold isLeap leap
  simp only [Bool.and_eq_true, decide_eq_true_eq, Bool.or_eq_true]

theorem yearsLen_eq (p : Nat) : yearsLen p + p / 100 = 365 * p + p / 4 + p / 400 := by
  induction p with
  | zero => rfl
  | succ p ih =>
    rw [yearsLen, yearLen]
    by_cases h : leap (p + 1)
    · rw [if_pos h]; unfold leap at h; omega
    · rw [if_neg h]; unfold leap at h; omega

theorem isLeap_eq (y : Nat) : isLeap y = decide (leap y) := by
  by_cases h : leap y
  · rw [(isLeap_iff y).2 h]; simp [h]
  · have : ¬ isLeap y = true := fun h' => h ((isLeap_iff y).1 h')
    simp only [Bool.not_eq_true] at this
    rw [this]; simp [h]

theorem month_cases {m : Nat} (h1 : 1 ≤ m) (h2 : m ≤ 12) :
    m = 1 ∨ m = 2 ∨ m = 3 ∨ m = 4 ∨ m = 5 ∨ m = 6 ∨ m = 7 ∨ m = 8 ∨ m = 9 ∨ m = 10 ∨ m = 11 ∨ m = 12 := by omega

theorem monthsLen_eq (y : Nat) {m : Nat} (h1 : 1 ≤ m) (h2 : m ≤ 12) : monthsLen y (m - 1) = daysBefore y m := by
  unfold daysBefore
  rw [isLeap_eq]
  rcases month_cases h1 h2 with h | h | h | h | h | h | h | h | h | h | h | h <;> subst h <;>
    by_cases hl : leap y <;> simp [monthsLen, daysIn, hl]

theorem lastDay_eq (y : Nat) {m : Nat} (h1 : 1 ≤ m) (h2 : m ≤ 12) : lastDay y m = daysIn y m := by
  unfold lastDay
  rw [isLeap_eq]
  rcases month_cases h1 h2 with h | h | h | h | h | h | h | h | h | h | h | h <;> subst h <;>
    by_cases hl : leap y <;> simp [daysIn, hl]

theorem epoch_count : dayCount 1970 1 1 = 719162 := by
  have := yearsLen_eq 1969
  unfold dayCount
  simp only [Nat.reduceSub, monthsLen, Nat.add_zero]
  omega

theorem sysDays_eq {y m d : Nat} (h : dateOk y m d) : sysDays y m d = dayNumber y m d := by
  obtain ⟨h1, h2, h3, h4, h5, h6⟩ := h
  unfold sysDays dayNumber
  rw [epoch_count]
  unfold dayCount
  rw [monthsLen_eq y h3 h4]
  have := yearsLen_eq (y - 1)
  simp only
  omega

/-- The day after a date. -/
def nextDate (y m d : Nat) : Nat × Nat × Nat :=
  if d < daysIn y m then (y, m, d + 1) else if m < 12 then (y, m + 1, 1) else (y + 1, 1, 1)

theorem dayCount_next {y m d : Nat} (h : dateOk y m d) :
    dayCount (nextDate y m d).1 (nextDate y m d).2.1 (nextDate y m d).2.2 = dayCount y m d + 1 := by
  obtain ⟨h1, h2, h3, h4, h5, h6⟩ := h
  unfold nextDate
  split
  · unfold dayCount; simp only; omega
  · split
    · unfold dayCount
      simp only
      have e : m + 1 - 1 = m - 1 + 1 := by omega
      rw [e, monthsLen, show m - 1 + 1 = m by omega]
      omega
    · have hm : m = 12 := by omega
      subst hm
      unfold dayCount
      simp only
      have e : y + 1 - 1 = y - 1 + 1 := by omega
      rw [e, yearsLen, show y - 1 + 1 = y by omega]
      have hy : monthsLen y (12 - 1) + 31 = yearLen y := by
        by_cases hl : leap y <;> simp [monthsLen, daysIn, hl, yearLen]
      have h0 : monthsLen (y + 1) (1 - 1) = 0 := rfl
      rw [h0]
      simp only [daysIn] at h6
      have hd : d = 31 := by
        rename_i hh _
        simp only [daysIn] at hh
        omega
      omega

theorem monthOf_spec (y : Nat) {doy : Nat} (h : doy < yearLen y) :
    1 ≤ monthOf y doy ∧ monthOf y doy ≤ 12 ∧ daysBefore y (monthOf y doy) ≤ doy ∧ doy < daysBefore y (monthOf y doy) + daysIn y (monthOf y doy) := by
  have hb : ∀ m, daysBefore y m = [0, 31, 59, 90, 120, 151, 181, 212, 243, 273, 304, 334].getD (m - 1) 0 + (if leap y ∧ 2 < m then 1 else 0) := by
    intro m; unfold daysBefore; rw [isLeap_eq]; simp only [decide_eq_true_eq]
  generalize hm : monthOf y doy = m
  unfold monthOf at hm
  unfold yearLen at h
  obtain ⟨l, hl⟩ : ∃ l, (if leap y then 1 else 0) = l := ⟨_, rfl⟩
  have hl' : l ≤ 1 ∧ doy < 365 + l := by
    by_cases hh : leap y
    · rw [if_pos hh] at h hl; omega
    · rw [if_neg hh] at h hl; omega
  have b1 : daysBefore y 1 = 0 := by rw [hb]; simp
  have b2 : daysBefore y 2 = 31 := by rw [hb]; simp
  have b3 : daysBefore y 3 = 59 + l := by rw [hb, ← hl]; simp
  have b4 : daysBefore y 4 = 90 + l := by rw [hb, ← hl]; simp
  have b5 : daysBefore y 5 = 120 + l := by rw [hb, ← hl]; simp
  have b6 : daysBefore y 6 = 151 + l := by rw [hb, ← hl]; simp
  have b7 : daysBefore y 7 = 181 + l := by rw [hb, ← hl]; simp
  have b8 : daysBefore y 8 = 212 + l := by rw [hb, ← hl]; simp
  have b9 : daysBefore y 9 = 243 + l := by rw [hb, ← hl]; simp
  have b10 : daysBefore y 10 = 273 + l := by rw [hb, ← hl]; simp
  have b11 : daysBefore y 11 = 304 + l := by rw [hb, ← hl]; simp
  have b12 : daysBefore y 12 = 334 + l := by rw [hb, ← hl]; simp
  have f2 : daysIn y 2 = 28 + l := by rw [← hl]; simp only [daysIn]; split <;> rfl
  clear hb h hl
  rw [b2, b3, b4, b5, b6, b7, b8, b9, b10, b11, b12] at hm
  by_cases c1 : doy < 31
  · rw [if_pos c1] at hm; subst hm; rw [b1]; simp only [daysIn]; clear b1 b2 b3 b4 b5 b6 b7 b8 b9 b10 b11 b12 f2; omega
  rw [if_neg c1] at hm
  by_cases c2 : doy < 59 + l
  · rw [if_pos c2] at hm; subst hm; rw [b2, f2]; clear b1 b2 b3 b4 b5 b6 b7 b8 b9 b10 b11 b12 f2; omega
  rw [if_neg c2] at hm
  by_cases c3 : doy < 90 + l
  · rw [if_pos c3] at hm; subst hm; rw [b3]; simp only [daysIn]; clear b1 b2 b3 b4 b5 b6 b7 b8 b9 b10 b11 b12 f2; omega
  rw [if_neg c3] at hm
  by_cases c4 : doy < 120 + l
  · rw [if_pos c4] at hm; subst hm; rw [b4]; simp only [daysIn]; clear b1 b2 b3 b4 b5 b6 b7 b8 b9 b10 b11 b12 f2; omega
  rw [if_neg c4] at hm
  by_cases c5 : doy < 151 + l
  · rw [if_pos c5] at hm; subst hm; rw [b5]; simp only [daysIn]; clear b1 b2 b3 b4 b5 b6 b7 b8 b9 b10 b11 b12 f2; omega
  rw [if_neg c5] at hm
  by_cases c6 : doy < 181 + l
  · rw [if_pos c6] at hm; subst hm; rw [b6]; simp only [daysIn]; clear b1 b2 b3 b4 b5 b6 b7 b8 b9 b10 b11 b12 f2; omega
  rw [if_neg c6] at hm
  by_cases c7 : doy < 212 + l
  · rw [if_pos c7] at hm; subst hm; rw [b7]; simp only [daysIn]; clear b1 b2 b3 b4 b5 b6 b7 b8 b9 b10 b11 b12 f2; omega
  rw [if_neg c7] at hm
  by_cases c8 : doy < 243 + l
  · rw [if_pos c8] at hm; subst hm; rw [b8]; simp only [daysIn]; clear b1 b2 b3 b4 b5 b6 b7 b8 b9 b10 b11 b12 f2; omega
  rw [if_neg c8] at hm
  by_cases c9 : doy < 273 + l
  · rw [if_pos c9] at hm; subst hm; rw [b9]; simp only [daysIn]; clear b1 b2 b3 b4 b5 b6 b7 b8 b9 b10 b11 b12 f2; omega
  rw [if_neg c9] at hm
  by_cases c10 : doy < 304 + l
  · rw [if_pos c10] at hm; subst hm; rw [b10]; simp only [daysIn]; clear b1 b2 b3 b4 b5 b6 b7 b8 b9 b10 b11 b12 f2; omega
  rw [if_neg c10] at hm
  by_cases c11 : doy < 334 + l
  · rw [if_pos c11] at hm; subst hm; rw [b11]; simp only [daysIn]; clear b1 b2 b3 b4 b5 b6 b7 b8 b9 b10 b11 b12 f2; omega
  rw [if_neg c11] at hm
  subst hm; rw [b12]; simp only [daysIn]; clear b1 b2 b3 b4 b5 b6 b7 b8 b9 b10 b11 b12 f2; omega

/-- One step of `civil`: at most three units of `u` days. -/
theorem unit_step {r u b s : Nat} (hu : 0 < u) (hb : min 3 (r / u) = b) (hs : r - b * u = s) : b ≤ 3 ∧ r = b * u + s ∧ (b < 3 → s < u) := by
  subst hb hs
  have hle : min 3 (r / u) * u ≤ r := Nat.le_trans (Nat.mul_le_mul_right u (Nat.min_le_right 3 (r / u))) (Nat.div_mul_le_self r u)
  refine ⟨Nat.min_le_left _ _, by omega, ?_⟩
  intro h
  have he : min 3 (r / u) = r / u := by omega
  rw [he]
  have h1 := Nat.div_add_mod r u
  have h2 := Nat.mod_lt r hu
  rw [Nat.mul_comm] at h1
  omega

theorem year_len {a b c e doy s t : Nat} (hb : b ≤ 3) (he : e ≤ 3) (hs : b < 3 → s < 36524) (hs' : s ≤ 36524) (hst : s = 1461 * c + t) (ht : t < 1461)
    (htd : t = e * 365 + doy) (hd : e < 3 → doy < 365) : doy < yearLen (400 * a + 100 * b + 4 * c + e + 1) := by
  unfold yearLen
  by_cases hl : leap (400 * a + 100 * b + 4 * c + e + 1)
  · rw [if_pos hl]
    clear hl
    have : e = 0 ∨ e = 1 ∨ e = 2 ∨ e = 3 := by omega
    rcases this with h | h | h | h <;> subst h <;> omega
  · rw [if_neg hl]
    by_cases h3 : e < 3
    · exact hd h3
    · have : e = 3 := by omega
      subst this
      clear h3 hd he
      have hc : c ≤ 24 := by omega
      unfold leap at hl
      by_cases hc24 : c = 24
      · subst hc24
        by_cases hb3 : b < 3
        · have := hs hb3; clear hl; omega
        · have : b = 3 := by omega
          subst this
          exfalso
          apply hl
          constructor
          · omega
          · right; omega
      · exfalso
        apply hl
        constructor
        · omega
        · left; omega

/-- The year found by `civil`: the day is that day of the year. -/
theorem civil_year (n : Nat) : ∃ p doy, doy < yearLen (p + 1) ∧ n + p / 100 = 365 * p + p / 4 + p / 400 + doy ∧
    p = 400 * (n / 146097) + 100 * min 3 (n % 146097 / 36524) + 4 * ((n % 146097 - min 3 (n % 146097 / 36524) * 36524) / 1461) +
      min 3 ((n % 146097 - min 3 (n % 146097 / 36524) * 36524) % 1461 / 365) ∧
    doy = (n % 146097 - min 3 (n % 146097 / 36524) * 36524) % 1461 - min 3 ((n % 146097 - min 3 (n % 146097 / 36524) * 36524) % 1461 / 365) * 365 := by
  refine ⟨_, _, ?_, ?_, rfl, rfl⟩ <;> {
    have hr' : n % 146097 < 146097 := Nat.mod_lt _ (by omega)
    have hn := Nat.div_add_mod n 146097
    generalize n / 146097 = a at *
    generalize n % 146097 = r at *
    obtain ⟨b, hb⟩ : ∃ b, min 3 (r / 36524) = b := ⟨_, rfl⟩
    rw [hb]
    obtain ⟨s, hs⟩ : ∃ s, r - b * 36524 = s := ⟨_, rfl⟩
    rw [hs]
    obtain ⟨hb3, hrs, hs1⟩ := unit_step (by omega) hb hs
    clear hb hs
    have hs2 : s ≤ 36524 := by
      have : b = 0 ∨ b = 1 ∨ b = 2 ∨ b = 3 := by omega
      rcases this with h | h | h | h <;> subst h <;> omega
    have ht := Nat.mod_lt s (show 1461 > 0 by omega)
    have hst := Nat.div_add_mod s 1461
    generalize s / 1461 = c at *
    generalize s % 1461 = t at *
    obtain ⟨e, he⟩ : ∃ e, min 3 (t / 365) = e := ⟨_, rfl⟩
    rw [he]
    obtain ⟨doy, hd⟩ : ∃ doy, t - e * 365 = doy := ⟨_, rfl⟩
    rw [hd]
    obtain ⟨he3, htd, hd1⟩ := unit_step (by omega) he hd
    clear he hd
    first
    | exact year_len hb3 he3 hs1 hs2 hst.symm ht htd hd1
    | have hc : c ≤ 24 := by omega
      have hce : 4 * c + e ≤ 99 := by omega
      clear hs1 hd1 hs2 ht
      have p4 : (400 * a + 100 * b + 4 * c + e) / 4 = 100 * a + 25 * b + c := by clear htd hst hrs hn hr'; omega
      have p100 : (400 * a + 100 * b + 4 * c + e) / 100 = 4 * a + b := by clear htd hst hrs hn hr' p4; omega
      have p400 : (400 * a + 100 * b + 4 * c + e) / 400 = a := by clear htd hst hrs hn hr' p4 p100; omega
      rw [p4, p100, p400]
      clear p4 p100 p400
      omega }

theorem civil_spec {z : Int} (h0 : -719162 ≤ z) (h1 : z < 2932897) :
    dateOk (civil z).1 (civil z).2.1 (civil z).2.2 ∧ sysDays (civil z).1 (civil z).2.1 (civil z).2.2 = z := by
  obtain ⟨p, doy, hd, hn, hp, hdoy⟩ := civil_year (z + 719162).toNat
  have e : civil z = (p + 1, monthOf (p + 1) doy, doy - daysBefore (p + 1) (monthOf (p + 1) doy) + 1) := by
    subst hp hdoy
    simp only [civil]
  clear hp hdoy
  obtain ⟨m1, m2, m3, m4⟩ := monthOf_spec (p + 1) hd
  rw [e]
  simp only
  have hy : p + 1 ≤ 9999 := by
    have : doy < 367 := by unfold yearLen at hd; split at hd <;> omega
    omega
  refine ⟨⟨by omega, hy, m1, m2, by omega, by omega⟩, ?_⟩
  unfold sysDays
  simp only [Nat.add_sub_cancel]
  omega

end HppProto
