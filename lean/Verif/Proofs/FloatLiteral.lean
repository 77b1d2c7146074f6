import Verif.Model.FloatLiteral
import Verif.Spec.FloatLiteral

namespace HppProto.Lex
open HppProto Spec.Flt

/-- The text does not start with a digit. -/
def Stops (s : List Byte) : Prop := ∀ c ∈ s.head?, isDigit c = false

theorem takeWhile_digits {ds s : List Byte} (hd : Digits ds) (hs : Stops s) : (ds ++ s).takeWhile isDigit = ds := by
  induction ds with
  | nil =>
    cases s with
    | nil => rfl
    | cons c s => simp [hs c rfl]
  | cons d ds ih => simp [hd d (by simp), ih fun c hc => hd c (by simp [hc])]

theorem dropWhile_digits {ds s : List Byte} (hd : Digits ds) (hs : Stops s) : (ds ++ s).dropWhile isDigit = s := by
  induction ds with
  | nil =>
    cases s with
    | nil => rfl
    | cons c s => simp [hs c rfl]
  | cons d ds ih => simp [hd d (by simp), ih fun c hc => hd c (by simp [hc])]

theorem digits_takeWhile (s : List Byte) : Digits (s.takeWhile isDigit) := fun _ hc => by
  induction s with
  | nil => cases hc
  | cons d s ih =>
    simp only [List.takeWhile] at hc
    split at hc
    · rcases List.mem_cons.1 hc with rfl | hc
      · assumption
      · exact ih hc
    · cases hc

theorem digit_ne {c : Byte} (h : isDigit c = true) : c ≠ minus ∧ c ≠ plus ∧ c ≠ dot ∧ c ≠ smallE ∧ c ≠ bigE := by
  refine ⟨?_, ?_, ?_, ?_, ?_⟩ <;> rintro rfl <;> revert h <;> decide

theorem no_mem_none {γ : Type} {P : γ → Prop} : ∀ x ∈ (none : Option γ), P x := fun _ h => nomatch h

theorem takeWhile_all {ds : List Byte} (h : Digits ds) : ds.takeWhile isDigit = ds := by
  simpa using takeWhile_digits (s := []) h (fun c hc => nomatch hc)

theorem dropWhile_all {ds : List Byte} (h : Digits ds) : ds.dropWhile isDigit = [] := by
  simpa using dropWhile_digits (s := []) h (fun c hc => nomatch hc)

theorem exponentPart_text {x : Expo} (hx : x.Ok) : exponentPart x.text = (x.value, []) := by
  obtain ⟨letter, sign, ds⟩ := x
  obtain ⟨h1, h2, h3, h4⟩ := hx
  dsimp only at h1 h2 h3 h4
  have t1 := takeWhile_all h3
  have t2 := dropWhile_all h3
  cases sign with
  | none =>
    cases ds with
    | nil => exact absurd rfl h4
    | cons d ds =>
      have hd := digit_ne (h3 d (by simp))
      simp only [Expo.text, Option.toList, List.cons_append, List.nil_append, exponentPart, List.head?_cons, Option.some.injEq,
        hd.1, hd.2.1, or_self, if_false, t1, t2, Expo.value]
      rw [if_pos ⟨h1, h4⟩]
      simp
  | some c =>
    have hc := h2 c rfl
    simp only [Expo.text, Option.toList, List.cons_append, List.nil_append, exponentPart, List.head?_cons, Option.some.injEq,
      if_pos hc, List.tail_cons, t1, t2, Expo.value]
    rw [if_pos ⟨h1, h4⟩]

theorem stops_expo {o : Option Expo} (h : ∀ x ∈ o, x.Ok) :
    Stops ((o.map Expo.text).getD []) ∧ ((o.map Expo.text).getD []).head? ≠ some dot := by
  cases o with
  | none => exact ⟨fun c hc => (nomatch hc), by simp⟩
  | some x =>
    have := (h x rfl).1
    simp only [Option.map_some, Option.getD_some, Expo.text, List.cons_append]
    refine ⟨fun c hc => ?_, ?_⟩
    · cases hc
      rcases this with h | h <;> rw [h] <;> decide
    · simp only [List.head?_cons, ne_eq, Option.some.injEq]
      rcases this with h | h <;> rw [h] <;> decide

theorem exponentPart_option {o : Option Expo} (h : ∀ x ∈ o, x.Ok) :
    exponentPart ((o.map Expo.text).getD []) = ((o.map Expo.value).getD 0, []) := by
  cases o with
  | none => rfl
  | some x => exact exponentPart_text (h x rfl)

/-- The part from the point on. -/
def tailText (point : Bool) (frac xs : List Byte) : List Byte := (if point then dot :: frac else []) ++ xs

theorem fraction_text {point : Bool} {frac xs : List Byte} (h2 : Digits frac) (h3 : point = false → frac = []) (s1 : Stops xs)
    (s2 : xs.head? ≠ some dot) : fractionPart (tailText point frac xs) = (frac, xs) := by
  cases point with
  | true =>
    simp only [fractionPart, tailText, if_true, List.cons_append, List.head?_cons, List.tail_cons, takeWhile_digits h2 s1,
      dropWhile_digits h2 s1]
  | false =>
    cases h3 rfl
    simp only [fractionPart, tailText, Bool.false_eq_true, if_false, List.nil_append, if_neg s2]

theorem fromChars_text {n : Num} (h : n.Ok) : fromCharsGeneral n.text = some (n.neg, n.mantissa, n.power, []) := by
  obtain ⟨neg, whole, point, frac, expo⟩ := n
  obtain ⟨h1, h2, h3, h4, h5⟩ := h
  dsimp only at h1 h2 h3 h4 h5
  obtain ⟨s1, s2⟩ := stops_expo h5
  have e1 := exponentPart_option h5
  have ht : Num.text ⟨neg, whole, point, frac, expo⟩ =
      (if neg then [minus] else []) ++ (whole ++ tailText point frac ((expo.map Expo.text).getD [])) := by
    simp only [Num.text, tailText, List.append_assoc]
  rw [ht]
  generalize ((expo.map Expo.text).getD []) = xs at *
  have st : Stops (tailText point frac xs) := by
    cases point with
    | true => intro c hc; cases hc; decide
    | false => exact s1
  have hm : (whole ++ tailText point frac xs).head? ≠ some minus := by
    cases whole with
    | cons d ds => simpa using (digit_ne (h1 d (by simp))).1
    | nil =>
      cases point with
      | true => show some dot ≠ some minus; decide
      | false => exact absurd (h3 rfl) (h4.resolve_left (by simp))
  have hu : unsignedPart (whole ++ tailText point frac xs) =
      some (Num.mantissa ⟨neg, whole, point, frac, expo⟩, Num.power ⟨neg, whole, point, frac, expo⟩, []) := by
    unfold unsignedPart
    simp only [takeWhile_digits h1 st, dropWhile_digits h1 st, fraction_text h2 h3 s1 s2, e1]
    rw [if_neg (fun h => h4.elim (· h.1) (· h.2))]
    rfl
  unfold fromCharsGeneral
  cases neg with
  | true =>
    simp only [if_true, List.cons_append, List.nil_append, List.head?_cons, List.tail_cons, hu]
    rfl
  | false =>
    simp only [Bool.false_eq_true, if_false, List.nil_append, if_neg hm, hu]
    rfl

theorem exponentPart_inv {s : List Byte} (h : (exponentPart s).2 = []) :
    ∃ o : Option Expo, (∀ x ∈ o, x.Ok) ∧ (o.map Expo.text).getD [] = s ∧ (o.map Expo.value).getD 0 = (exponentPart s).1 := by
  cases s with
  | nil => exact ⟨none, no_mem_none, rfl, rfl⟩
  | cons c r =>
    simp only [exponentPart] at h ⊢
    generalize hq : (if r.head? = some minus ∨ r.head? = some plus then r.tail else r) = q at *
    by_cases hc : (c = smallE ∨ c = bigE) ∧ q.takeWhile isDigit ≠ []
    · rw [if_pos hc] at h ⊢
      dsimp only at h ⊢
      have hall : q.takeWhile isDigit = q := by
        have := List.takeWhile_append_dropWhile (p := isDigit) (l := q)
        rw [h, List.append_nil] at this
        exact this
      have hdig : Digits q := by rw [← hall]; exact digits_takeWhile q
      rw [hall] at hc ⊢
      cases r with
      | nil =>
        have : q = [] := by rw [← hq]; simp
        exact absurd this hc.2
      | cons d r =>
        simp only [List.head?_cons, Option.some.injEq, List.tail_cons] at hq ⊢
        by_cases hs : d = minus ∨ d = plus
        · rw [if_pos hs] at hq
          refine ⟨some ⟨c, some d, q⟩, fun x hx => ?_, ?_, ?_⟩
          · cases hx
            exact ⟨hc.1, fun y hy => by cases hy; exact hs, hdig, hc.2⟩
          · simp [Expo.text, hq]
          · simp [Expo.value]
        · rw [if_neg hs] at hq
          refine ⟨some ⟨c, none, q⟩, fun x hx => ?_, ?_, ?_⟩
          · cases hx
            exact ⟨hc.1, no_mem_none, hdig, hc.2⟩
          · simp [Expo.text, hq]
          · have : d ≠ minus := fun e => hs (.inl e)
            simp [Expo.value, this]
    · rw [if_neg hc] at h
      cases h

theorem fraction_inv (r : List Byte) : ∃ point : Bool, Digits (fractionPart r).1 ∧ (point = false → (fractionPart r).1 = []) ∧
    r = tailText point (fractionPart r).1 (fractionPart r).2 := by
  unfold fractionPart
  by_cases hp : r.head? = some dot
  · refine ⟨true, ?_⟩
    rw [if_pos hp]
    refine ⟨digits_takeWhile _, fun h => (nomatch h), ?_⟩
    cases r with
    | nil => cases hp
    | cons c r => cases hp; simp [tailText]
  · refine ⟨false, ?_⟩
    rw [if_neg hp]
    exact ⟨fun _ h => (nomatch h), fun _ => rfl, by simp [tailText]⟩

theorem unsigned_inv {t : List Byte} {m : Nat} {e : Int} (neg : Bool) (h : unsignedPart t = some (m, e, [])) :
    ∃ n : Num, n.Ok ∧ n.text = (if neg then [minus] else []) ++ t ∧ n.neg = neg ∧ n.mantissa = m ∧ n.power = e := by
  simp only [unsignedPart] at h
  by_cases hne : t.takeWhile isDigit = [] ∧ (fractionPart (t.dropWhile isDigit)).1 = []
  · rw [if_pos hne] at h; cases h
  · rw [if_neg hne] at h
    simp only [Option.some.injEq, Prod.mk.injEq] at h
    obtain ⟨h1, h2, h3⟩ := h
    obtain ⟨point, p1, p2, p3⟩ := fraction_inv (t.dropWhile isDigit)
    obtain ⟨o, o1, o2, o3⟩ := exponentPart_inv h3
    refine ⟨⟨neg, t.takeWhile isDigit, point, (fractionPart (t.dropWhile isDigit)).1, o⟩,
      ⟨digits_takeWhile _, p1, p2, ?_, o1⟩, ?_, rfl, h1, ?_⟩
    · by_cases hw : t.takeWhile isDigit = []
      · exact .inr fun hf => hne ⟨hw, hf⟩
      · exact .inl hw
    · simp only [Num.text, o2, List.append_assoc]
      congr 1
      rw [tailText] at p3
      rw [← p3, List.takeWhile_append_dropWhile]
    · simp only [Num.power, o3]; exact h2

theorem fromChars_inv {s : List Byte} {neg : Bool} {m : Nat} {e : Int} (h : fromCharsGeneral s = some (neg, m, e, [])) :
    ∃ n : Num, n.Ok ∧ n.text = s ∧ n.neg = neg ∧ n.mantissa = m ∧ n.power = e := by
  unfold fromCharsGeneral at h
  by_cases hs : s.head? = some minus
  · rw [if_pos hs] at h
    obtain ⟨p, hp, he⟩ := Option.map_eq_some_iff.1 h
    cases he
    obtain ⟨n, n1, n2, n3⟩ := unsigned_inv true hp
    refine ⟨n, n1, ?_, n3⟩
    rw [n2]
    cases s with
    | nil => cases hs
    | cons c s => cases hs; rfl
  · rw [if_neg hs] at h
    obtain ⟨p, hp, he⟩ := Option.map_eq_some_iff.1 h
    cases he
    exact unsigned_inv false hp

theorem integral_iff {n : Num} (h : n.Ok) :
    (dot ∉ n.text ∧ smallE ∉ n.text ∧ bigE ∉ n.text) ↔ n.point = false ∧ n.expo = none := by
  obtain ⟨neg, whole, point, frac, expo⟩ := n
  obtain ⟨h1, h2, h3, h4, h5⟩ := h
  constructor
  · rintro ⟨a, b, c⟩
    constructor
    · cases point with
      | false => rfl
      | true => exact absurd (by simp [Num.text]) a
    · cases expo with
      | none => rfl
      | some x =>
        rcases (h5 x rfl).1 with h | h
        · exact absurd (by simp [Num.text, Expo.text, h]) b
        · exact absurd (by simp [Num.text, Expo.text, h]) c
  · rintro ⟨rfl, rfl⟩
    have key : ∀ y : Byte, y ≠ minus → isDigit y = false → y ∉ Num.text ⟨neg, whole, false, frac, none⟩ := by
      intro y hy hd hm
      simp only [Num.text, Bool.false_eq_true, if_false, Option.map_none, Option.getD_none, List.append_nil, List.mem_append] at hm
      rcases hm with hm | hm
      · cases neg with
        | false => cases hm
        | true => exact hy (by simpa using hm)
      · have := h1 y hm
        rw [hd] at this
        cases this
    exact ⟨key _ (by decide) (by decide), key _ (by decide) (by decide), key _ (by decide) (by decide)⟩

theorem decVal_append_zero (s : List Byte) : decVal (s ++ b!"0") = decVal s * 10 := by
  simp only [decVal, List.foldl_append]
  show 10 * _ + 0 = _
  omega

end HppProto.Lex
