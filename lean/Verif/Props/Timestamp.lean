import Verif.Proofs.Timestamp
/-!
# C32, C33: timestamps as JSON text

`timestampEncode`/`timestampDecode` model the codec; `Spec.DateTime` is RFC 3339 text, days counted
year by year and month by month.
-/
namespace HppProto.Props
open HppProto Spec

/-- The specification's calendar is the usual one: 1970-01-01 is day 0, and the number grows by one
from each date to the next. -/
theorem calendar : dayNumber 1970 1 1 = 0 ∧ ∀ y m d, dateOk y m d →
    dayNumber (nextDate y m d).1 (nextDate y m d).2.1 (nextDate y m d).2.2 = dayNumber y m d + 1 := by
  refine ⟨by unfold dayNumber; omega, fun y m d h => ?_⟩
  have := dayCount_next h
  unfold dayNumber
  omega

/-- A value of the range 0001-01-01T00:00:00Z … 9999-12-31T23:59:59.999999999Z. -/
def timestampOk (seconds nanos : Int) : Prop := -62135596800 ≤ seconds ∧ seconds ≤ 253402300799 ∧ 0 ≤ nanos ∧ nanos ≤ 999999999

/-- The bounds are the first and the last second of the years 1 to 9999. -/
example : (⟨1, 1, 1, 0, 0, 0, none⟩ : DateTime).seconds = -62135596800 ∧ (⟨9999, 12, 31, 23, 59, 59, none⟩ : DateTime).seconds = 253402300799 := by
  have h1 : dateOk 1 1 1 := ⟨by omega, by omega, by omega, by omega, by omega, by simp [daysIn]⟩
  have h2 : dateOk 9999 12 31 := ⟨by omega, by omega, by omega, by omega, by omega, by simp [daysIn]⟩
  unfold DateTime.seconds
  simp only
  rw [← sysDays_eq h1, ← sysDays_eq h2]
  decide +kernel

/-- C32: every timestamp in range is written as an RFC 3339 text that denotes it, of at most 30
characters, and reading the text gives the same timestamp; every other value is refused. -/
theorem C32_round_trip (s n : Int) :
    (timestampOk s n → ∃ p : DateTime, p.ok ∧ p.seconds = s ∧ fracNanos p.frac = n ∧ timestampEncode s n = some p.text ∧
      p.text.length ≤ 30 ∧ timestampDecode p.text = some (s, n)) ∧
    (¬ timestampOk s n → timestampEncode s n = none) := by
  constructor
  · rintro ⟨h1, h2, h3, h4⟩
    obtain ⟨hok, hs, hn⟩ := timestampParts_ok h1 h2 h3 h4
    refine ⟨timestampParts s n, hok, hs, hn, timestampEncode_text h1 h2 h3 h4, ?_, ?_⟩
    · have hf : (fracText (timestampParts s n).frac).length ≤ 10 := by
        cases hf : (timestampParts s n).frac with
        | none => simp [fracText]
        | some f =>
          have := (hok.2.2.2.2 f hf).2.1
          simp [fracText]; omega
      simp only [DateTime.text, List.length_append, List.length_cons, four_length, two_length, List.length_nil]
      omega
    · rw [timestampDecode_iff]
      obtain ⟨hd, hh, hm, hse, hfr⟩ := hok
      refine ⟨_, _, _, _, _, _, _, _, _, (timestampParts s n).frac, hd, hh, hm, hse, Or.inl ⟨rfl, by omega⟩, Or.inl ⟨rfl, by omega⟩, Or.inl ⟨rfl, by omega⟩, ?_, ?_, ?_⟩
      · cases hf : (timestampParts s n).frac with
        | none => rw [hf] at hn; exact hn.symm
        | some f =>
          obtain ⟨f1, f2, f3⟩ := hfr f hf
          rw [hf] at hn
          exact ⟨f1, f2, Or.inl ⟨f3, hn.symm⟩⟩
      · simp [DateTime.text]
      · exact hs.symm
  · intro h
    unfold timestampOk at h
    unfold timestampEncode
    by_cases h1 : n > 999999999 ∨ n < 0
    · rw [if_pos h1]
    · rw [if_neg h1, if_pos (by omega)]

/-- 2000-02-29T12:34:56.5Z, and the first nanosecond of the year 1. -/
example : timestampOk 951827696 500000000 ∧ timestampOk (-62135596800) 1 ∧
    timestampEncode 951827696 500000000 = some ([0x32, 0x30, 0x30, 0x30, 0x2d, 0x30, 0x32, 0x2d, 0x32, 0x39, 0x54, 0x31, 0x32, 0x3a, 0x33, 0x34, 0x3a, 0x35, 0x36,
      0x2e, 0x35, 0x30, 0x30, 0x5a]) := by
  refine ⟨⟨by omega, by omega, by omega, by omega⟩, ⟨by omega, by omega, by omega, by omega⟩, by decide +kernel⟩

/-- C33, exact acceptance. Claimed: only RFC 3339 UTC text is accepted. What holds: a text is accepted
exactly when it is such a text in which, further, hour, minute or second may be written `-0` and the
fraction may be a minus sign and zeros; date and ranges are checked, and the value is the one denoted.
Missing: those signs are not refused (`C33_minus_zero_accepted`). -/
theorem C33_accepted_partial (t : List Byte) (s n : Int) : timestampDecode t = some (s, n) ↔
    ∃ (p : DateTime) (hT mT sT : List Byte), dateOk p.year p.month p.day ∧ p.hour < 24 ∧ p.minute < 60 ∧ p.second < 60 ∧
      (hT = two p.hour ∨ hT = [0x2d, 0x30] ∧ p.hour = 0) ∧ (mT = two p.minute ∨ mT = [0x2d, 0x30] ∧ p.minute = 0) ∧
      (sT = two p.second ∨ sT = [0x2d, 0x30] ∧ p.second = 0) ∧
      (match p.frac with
        | none => n = 0
        | some f => 1 ≤ f.length ∧ f.length ≤ 9 ∧
          (((∀ ch ∈ f, isDigit ch = true) ∧ n = fracNanos (some f)) ∨ (∃ k, f = 0x2d :: List.replicate (k + 1) 0x30) ∧ n = 0)) ∧
      t = four p.year ++ 0x2d :: two p.month ++ 0x2d :: two p.day ++ 0x54 :: hT ++ 0x3a :: mT ++ 0x3a :: sT ++ fracText p.frac ++ [0x5a] ∧
      s = p.seconds := by
  rw [timestampDecode_iff]
  constructor
  · rintro ⟨y, m, d, h, mi, e, hT, mT, sT, f, hd, h24, n60, e60, fh, fn, fe, ff, ht, hs⟩
    refine ⟨⟨y, m, d, h, mi, e, f⟩, hT, mT, sT, hd, h24, n60, e60, ?_, ?_, ?_, ff, by simp [ht], hs⟩
    · exact fh.imp And.left id
    · exact fn.imp And.left id
    · exact fe.imp And.left id
  · rintro ⟨p, hT, mT, sT, hd, h24, n60, e60, fh, fn, fe, ff, ht, hs⟩
    refine ⟨p.year, p.month, p.day, p.hour, p.minute, p.second, hT, mT, sT, p.frac, hd, h24, n60, e60, ?_, ?_, ?_, ff, by simp [ht], hs⟩
    · exact fh.imp (fun h => ⟨h, by omega⟩) id
    · exact fn.imp (fun h => ⟨h, by omega⟩) id
    · exact fe.imp (fun h => ⟨h, by omega⟩) id

/-- C33 as claimed, for texts without a minus sign after the date: such a text is accepted exactly when
it is an RFC 3339 text. -/
theorem C33_rfc3339_partial (t : List Byte) (hm : (0x2d : Byte) ∉ t.drop 10) (s n : Int) : timestampDecode t = some (s, n) ↔
    ∃ p : DateTime, p.ok ∧ p.text = t ∧ p.seconds = s ∧ fracNanos p.frac = n := by
  rw [C33_accepted_partial]
  constructor
  · rintro ⟨p, hT, mT, sT, hd, h24, n60, e60, fh, fn, fe, ff, ht, hs⟩
    have hdrop : t.drop 10 = 0x54 :: hT ++ 0x3a :: mT ++ 0x3a :: sT ++ fracText p.frac ++ [0x5a] := by rw [ht]; rfl
    rw [hdrop] at hm
    have key : ∀ {w : List Byte} {v : Nat}, (w = two v ∨ w = [0x2d, 0x30] ∧ v = 0) → (0x2d : Byte) ∉ w → w = two v := by
      rintro w v (h | ⟨rfl, _⟩) hn
      · exact h
      · exact absurd (List.mem_cons_self ..) hn
    have e1 := key fh (fun h => hm (by simp only [List.mem_append, List.mem_cons, h, true_or, or_true]))
    have e2 := key fn (fun h => hm (by simp only [List.mem_append, List.mem_cons, h, true_or, or_true]))
    have e3 := key fe (fun h => hm (by simp only [List.mem_append, List.mem_cons, h, true_or, or_true]))
    subst e1 e2 e3
    cases hf : p.frac with
    | none =>
      rw [hf] at ff
      exact ⟨p, ⟨hd, h24, n60, e60, by simp [hf]⟩, by rw [ht]; rfl, hs.symm, by rw [hf]; exact ff.symm⟩
    | some f =>
      rw [hf] at ff
      obtain ⟨f1, f2, ⟨f3, f4⟩ | ⟨⟨k, rfl⟩, _⟩⟩ := ff
      · refine ⟨p, ⟨hd, h24, n60, e60, ?_⟩, by rw [ht]; rfl, hs.symm, by rw [hf]; exact f4.symm⟩
        intro g hg
        rw [hf] at hg
        injection hg with hg
        subst hg
        exact ⟨f1, f2, f3⟩
      · exfalso
        rw [hf] at hm
        exact hm (by simp only [fracText, List.mem_append, List.mem_cons, true_or, or_true])
  · rintro ⟨p, ⟨hd, h24, n60, e60, hf⟩, ht, hs, hn⟩
    refine ⟨p, _, _, _, hd, h24, n60, e60, Or.inl rfl, Or.inl rfl, Or.inl rfl, ?_, by rw [← ht]; rfl, hs.symm⟩
    cases hp : p.frac with
    | none => rw [hp] at hn; exact hn.symm
    | some f =>
      obtain ⟨f1, f2, f3⟩ := hf f hp
      rw [hp] at hn
      exact ⟨f1, f2, Or.inl ⟨f3, hn.symm⟩⟩

/-- "2000-02-29T12:34:56Z" is accepted, "1900-02-29T00:00:00Z" is not. -/
example : timestampDecode [0x32, 0x30, 0x30, 0x30, 0x2d, 0x30, 0x32, 0x2d, 0x32, 0x39, 0x54, 0x31, 0x32, 0x3a, 0x33, 0x34, 0x3a, 0x35, 0x36, 0x5a] = some (951827696, 0) ∧
    timestampDecode [0x31, 0x39, 0x30, 0x30, 0x2d, 0x30, 0x32, 0x2d, 0x32, 0x39, 0x54, 0x30, 0x30, 0x3a, 0x30, 0x30, 0x3a, 0x30, 0x30, 0x5a] = none := by decide +kernel

/-- Against C33: "2000-01-01T-0:-0:-0.-0Z" is accepted as 2000-01-01T00:00:00Z. -/
theorem C33_minus_zero_accepted : timestampDecode [0x32, 0x30, 0x30, 0x30, 0x2d, 0x30, 0x31, 0x2d, 0x30, 0x31, 0x54, 0x2d, 0x30, 0x3a, 0x2d, 0x30, 0x3a, 0x2d, 0x30,
    0x2e, 0x2d, 0x30, 0x5a] = some (946684800, 0) := by decide +kernel

end HppProto.Props
