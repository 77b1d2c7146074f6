import Verif.Proofs.JsonLex
import Verif.Proofs.FieldMask

/-! # The laws of glaze can be met

An implementation of the functions of glaze, for examples. A floating-point number is written as the
decimal text of its bit pattern. -/

namespace HppProto.Json
open HppProto HppProto.Spec

/-- What is between the quotes, and what follows, after the opening quote. -/
def scanStr : List Byte → Option (List Byte × List Byte)
  | [] => none
  | c :: s =>
    if c = 0x22 then some ([], s)
    else if c = 0x5c then
      match s with
      | [] => none
      | e :: s => (scanStr s).map fun p => (c :: e :: p.1, p.2)
    else (scanStr s).map fun p => (c :: p.1, p.2)

/-- After the opening bracket, to the closing one. `mode`: outside strings, inside, after a backslash. -/
def skipClosed (opening closing : Byte) : (depth mode : Nat) → List Byte → Option (List Byte)
  | _, _, [] => none
  | d, 0, c :: s =>
    if c = closing then
      match d with
      | 0 => some s
      | d + 1 => skipClosed opening closing d 0 s
    else skipClosed opening closing (if c = opening then d + 1 else d) (if c = 0x22 then 1 else 0) s
  | d, 1, c :: s => skipClosed opening closing d (if c = 0x22 then 0 else if c = 0x5c then 2 else 1) s
  | d, _ + 2, _ :: s => skipClosed opening closing d 1 s

/-- An absent result is an error. -/
def orError {α : Type} : Option α → Res α
  | some a => .ok a
  | none => .err .badMessage

def refString (decode : List Byte → Option (List Byte)) (s : List Byte) : Option (List Byte × List Byte) :=
  match s with
  | [] => none
  | c :: s =>
    if c = 0x22 then
      match scanStr s with
      | some (u, rest) => (decode u).map fun v => (v, rest)
      | none => none
    else none

/-- The implementation. -/
def refGlaze : Glaze where
  writeStr v := 0x22 :: escapePath v ++ [0x22]
  writeFloat _ v := toDec v.toNat
  readStr s := orError (refString unescape s)
  readView s := orError (refString some s)
  readInt lo hi s := orError (fromChars lo hi s)
  readFloat _ s := orError ((fromChars 0 (2 ^ 64 - 1) s).map fun p => (BitVec.ofInt 64 p.1, p.2))
  skipStr s := orError ((refString some s).map (·.2))
  skipObj s := orError (skipClosed 0x7b 0x7d 0 0 s)
  skipArr s := orError (skipClosed 0x5b 0x5d 0 0 s)
  skipComment _ := .err .badMessage

theorem hex_plain {c : Byte} {v : Nat} (h : hexVal c = some v) : c ≠ 0x22 ∧ c ≠ 0x5c := by
  constructor <;> (rintro rfl; simp [hexVal] at h)

/-- What can stand between the quotes, as far as finding the closing quote goes. -/
inductive Inside : List Byte → Prop
  | nil : Inside []
  | esc (e : Byte) {s : List Byte} : Inside s → Inside (0x5c :: e :: s)
  | char {c : Byte} {s : List Byte} : c ≠ 0x22 → c ≠ 0x5c → Inside s → Inside (c :: s)

theorem inside_unescape : ∀ u v, unescape u = some v → Inside u := by
  intro u
  induction u using unescape.induct with
  | case1 => exact fun _ _ => .nil
  | case2 => intro v h; rw [unescape.eq_def] at h; simp_all
  | case3 h1 h2 h3 h4 rest v3 v4 e4 e3 e2 e1 hlt ih =>
    intro v h
    rw [unescape.eq_def] at h
    simp only [if_true, e1, e2, e3, e4, hlt, Option.map_eq_some_iff] at h
    obtain ⟨w, hw, _⟩ := h
    exact .esc _ (.char (hex_plain e1).1 (hex_plain e1).2 (.char (hex_plain e2).1 (hex_plain e2).2
      (.char (hex_plain e3).1 (hex_plain e3).2 (.char (hex_plain e4).1 (hex_plain e4).2 (ih w hw)))))
  | case4 h1 h2 h3 h4 rest v3 v4 e4 e3 e2 e1 hlt =>
    intro v h
    rw [unescape.eq_def] at h
    simp only [if_true, e1, e2, e3, e4, hlt, if_false] at h
    cases h
  | case5 => intro v h; rw [unescape.eq_def] at h; simp_all
  | case6 => intro v h; rw [unescape.eq_def] at h; simp_all
  | case7 e rest he b eb ih =>
    intro v h
    rw [unescape.eq_def] at h
    simp only [if_true, if_neg he, eb, Option.map_eq_some_iff] at h
    obtain ⟨w, hw, _⟩ := h
    exact .esc _ (ih w hw)
  | case8 => intro v h; rw [unescape.eq_def] at h; simp_all
  | case9 => intro v h; rw [unescape.eq_def] at h; simp_all
  | case10 c rest h1 h2 ih =>
    intro v h
    rw [unescape.eq_def] at h
    simp only [if_neg h1, if_neg h2, Option.map_eq_some_iff] at h
    obtain ⟨w, hw, _⟩ := h
    exact .char (fun e => h2 (.inl e)) h1 (ih w hw)

theorem scan_inside {u : List Byte} (h : Inside u) (rest : List Byte) : scanStr (u ++ 0x22 :: rest) = some (u, rest) := by
  induction h with
  | nil =>
    rw [List.nil_append, scanStr.eq_def]
    simp only [if_true]
  | esc e _ ih =>
    rw [List.cons_append, List.cons_append, scanStr.eq_def]
    simp only [if_true, if_neg (show ¬ (0x5c : Byte) = 0x22 by decide), ih, Option.map_some]
  | char h1 h2 _ ih =>
    rw [List.cons_append, scanStr.eq_def]
    simp only [if_neg h1, if_neg h2, ih, Option.map_some]

theorem ref_string {u v : List Byte} {decode : List Byte → Option (List Byte)} (h : Inside u) (hd : decode u = some v)
    (rest : List Byte) : refString decode (0x22 :: u ++ 0x22 :: rest) = some (v, rest) := by
  unfold refString
  simp only [List.cons_append, if_true, scan_inside h, hd, Option.map_some]

theorem skip_out {o c x : Byte} {d : Nat} {s : List Byte} : skipClosed o c d 0 (x :: s) =
    if x = c then (match d with
      | 0 => some s
      | d + 1 => skipClosed o c d 0 s)
    else skipClosed o c (if x = o then d + 1 else d) (if x = 0x22 then 1 else 0) s := by
  cases d <;> rfl

theorem intText_nat (n : Nat) : intText (n : Int) = toDec n := by
  unfold intText
  rw [if_neg (by omega)]
  simp

theorem skip_inside {o c : Byte} {u : List Byte} (h : Inside u) (d : Nat) (rest : List Byte) :
    skipClosed o c d 1 (u ++ 0x22 :: rest) = skipClosed o c d 0 rest := by
  induction h with
  | nil => rw [List.nil_append, skipClosed]; rfl
  | esc e _ ih => rw [List.cons_append, List.cons_append, skipClosed]; exact ih
  | char h1 h2 _ ih => rw [List.cons_append, skipClosed, if_neg h1, if_neg h2]; exact ih

/-- The text does not change the depth. -/
def Level (o c : Byte) (t : List Byte) : Prop :=
  ∀ d rest, skipClosed o c d 0 (t ++ rest) = skipClosed o c d 0 rest

theorem Level.nil {o c : Byte} : Level o c [] := fun _ _ => rfl

theorem Level.append {o c : Byte} {s t : List Byte} (h : Level o c s) (h' : Level o c t) : Level o c (s ++ t) := by
  intro d rest
  rw [List.append_assoc, h, h']

section
variable {o c : Byte} (hoc : (o = 0x7b ∧ c = 0x7d) ∨ (o = 0x5b ∧ c = 0x5d))
include hoc

theorem level_char {x : Byte} (h1 : x ≠ 0x22) (h2 : x ≠ o) (h3 : x ≠ c) : Level o c [x] := by
  intro d rest
  rw [List.singleton_append, skip_out, if_neg h3, if_neg h2, if_neg h1]

theorem level_dull : ∀ {t : List Byte}, (∀ x ∈ t, dull x = true) → Level o c t
  | [], _ => Level.nil
  | x :: t, h => by
    have hx : x ≠ 0x22 ∧ x ≠ o ∧ x ≠ c := by
      have := h x (by simp)
      unfold dull at this
      rcases hoc with ⟨rfl, rfl⟩ | ⟨rfl, rfl⟩ <;> simp_all
    exact (level_char hoc hx.1 hx.2.1 hx.2.2).append (level_dull (t := t) fun y hy => h y (by simp [hy]))

theorem level_comma : Level o c [0x2c] := by
  rcases hoc with ⟨rfl, rfl⟩ | ⟨rfl, rfl⟩ <;> exact level_char (by decide) (by decide) (by decide) (by decide)

theorem level_str {v t : List Byte} (h : StrLit v t) : Level o c t := by
  obtain ⟨u, hu, rfl⟩ := h
  intro d rest
  have : (0x22 :: u ++ [0x22]) ++ rest = 0x22 :: (u ++ 0x22 :: rest) := by simp
  rw [this, skip_out, if_neg (by rcases hoc with ⟨_, rfl⟩ | ⟨_, rfl⟩ <;> decide),
    if_neg (by rcases hoc with ⟨rfl, _⟩ | ⟨rfl, _⟩ <;> decide), if_pos rfl, skip_inside (inside_unescape u v hu)]

theorem level_pair {a b : Byte} (hab : (a = 0x7b ∧ b = 0x7d) ∨ (a = 0x5b ∧ b = 0x5d)) {t : List Byte} (h : Level o c t) :
    Level o c (a :: t ++ [b]) := by
  by_cases e : a = o
  · subst e
    have hb : b = c := by
      rcases hab with ⟨h1, rfl⟩ | ⟨h1, rfl⟩ <;> rcases hoc with ⟨h2, rfl⟩ | ⟨h2, rfl⟩ <;> simp_all
    subst hb
    intro d rest
    have hne : a ≠ b ∧ a ≠ 0x22 := by rcases hab with ⟨rfl, rfl⟩ | ⟨rfl, rfl⟩ <;> decide
    rw [List.cons_append, List.cons_append, skip_out, if_neg hne.1, if_pos rfl, if_neg hne.2, List.append_assoc, h,
      List.singleton_append, skip_out, if_pos rfl]
  · have h1 : Level o c [a] := by
      refine level_char hoc ?_ e ?_
      · rcases hab with ⟨rfl, _⟩ | ⟨rfl, _⟩ <;> decide
      · rcases hab with ⟨rfl, _⟩ | ⟨rfl, _⟩ <;> rcases hoc with ⟨_, rfl⟩ | ⟨_, rfl⟩ <;> decide
    have h2 : Level o c [b] := by
      refine level_char hoc ?_ ?_ ?_
      · rcases hab with ⟨_, rfl⟩ | ⟨_, rfl⟩ <;> decide
      · rcases hab with ⟨_, rfl⟩ | ⟨_, rfl⟩ <;> rcases hoc with ⟨rfl, _⟩ | ⟨rfl, _⟩ <;> decide
      · rcases hab with ⟨rfl, rfl⟩ | ⟨rfl, rfl⟩ <;> rcases hoc with ⟨rfl, rfl⟩ | ⟨rfl, rfl⟩ <;> simp_all
    exact (h1.append h).append h2

mutual
theorem level_spells : ∀ {j : JTree} {t : List Byte}, Spells j t → Level o c t
  | _, _, .null => level_dull hoc (by decide)
  | _, _, .true => level_dull hoc (by decide)
  | _, _, .false => level_dull hoc (by decide)
  | _, _, .num h => level_dull hoc (num_dull h)
  | _, _, .str h => level_str hoc h.1
  | _, _, .arr h => level_pair hoc (.inr ⟨rfl, rfl⟩) (level_items h)
  | _, _, .obj h => level_pair hoc (.inl ⟨rfl, rfl⟩) (level_members h)
theorem level_items : ∀ {xs : List JTree} {t : List Byte}, SpellsItems xs t → Level o c t
  | _, _, .nil h => level_dull hoc (ws_dull h)
  | _, _, .one ha h hb => ((level_dull hoc (ws_dull ha)).append (level_spells h)).append (level_dull hoc (ws_dull hb))
  | _, _, .more ha h hb hr =>
    ((((level_dull hoc (ws_dull ha)).append (level_spells h)).append (level_dull hoc (ws_dull hb))).append
      ((level_comma hoc).append (level_items hr)))
theorem level_members : ∀ {ps : List (JStr × JTree)} {t : List Byte}, SpellsMembers ps t → Level o c t
  | _, _, .nil h => level_dull hoc (ws_dull h)
  | _, _, .one ha h hb => ((level_dull hoc (ws_dull ha)).append (level_member h)).append (level_dull hoc (ws_dull hb))
  | _, _, .more ha h hb hr =>
    ((((level_dull hoc (ws_dull ha)).append (level_member h)).append (level_dull hoc (ws_dull hb))).append
      ((level_comma hoc).append (level_members hr)))
theorem level_member : ∀ {p : JStr × JTree} {t : List Byte}, SpellsMember p t → Level o c t
  | _, _, .mk hs ha hb h =>
    ((level_str hoc hs.1).append (level_dull hoc (ws_dull ha))).append
      ((level_dull (t := [0x3a]) hoc (by decide)).append (level_dull hoc (ws_dull hb)) |>.append (level_spells h)
        |> fun h => by simpa using h) |> fun h => by simpa using h
end

end

theorem orError_shortens {α : Type} {s : List Byte} {r : Option (α × List Byte)}
    (h : ∀ x u, r = some (x, u) → ∃ p, p ≠ [] ∧ s = p ++ u) : Shortens s (orError r) := by
  cases r with
  | none => exact .inr rfl
  | some p => exact .inl ⟨p.1, p.2, rfl, h _ _ rfl⟩

theorem orError_skips {s : List Byte} {r : Option (List Byte)} (h : ∀ u, r = some u → ∃ p, p ≠ [] ∧ s = p ++ u) :
    Skips s (orError r) := by
  cases r with
  | none => exact .inr rfl
  | some u => exact .inl ⟨u, rfl, h _ rfl⟩

theorem scan_safe : ∀ (n : Nat) (s : List Byte), s.length ≤ n → ∀ u r, scanStr s = some (u, r) → ∃ p, p ≠ [] ∧ s = p ++ r := by
  intro n
  induction n with
  | zero =>
    intro s hs u r h
    cases s with
    | nil => rw [scanStr] at h; cases h
    | cons _ _ => simp at hs
  | succ n ih =>
    intro s hs u r h
    cases s with
    | nil => rw [scanStr] at h; cases h
    | cons c s =>
      rw [scanStr.eq_def] at h
      simp only at h
      split at h
      · cases h
        exact ⟨[c], by simp, rfl⟩
      split at h
      · cases s with
        | nil => cases h
        | cons e s =>
          obtain ⟨q, hq, h⟩ := Option.map_eq_some_iff.1 h
          cases h
          obtain ⟨p, _, rfl⟩ := ih s (by simp at hs; omega) q.1 q.2 hq
          exact ⟨c :: e :: p, by simp, by simp⟩
      · obtain ⟨q, hq, h⟩ := Option.map_eq_some_iff.1 h
        cases h
        obtain ⟨p, _, rfl⟩ := ih s (by simp at hs; omega) q.1 q.2 hq
        exact ⟨c :: p, by simp, by simp⟩

theorem refString_safe {decode : List Byte → Option (List Byte)} {s v r : List Byte} (h : refString decode s = some (v, r)) :
    ∃ p, p ≠ [] ∧ s = p ++ r := by
  unfold refString at h
  cases s with
  | nil => cases h
  | cons c s =>
    simp only at h
    split at h
    · split at h
      · rename_i u rest e
        obtain ⟨w, _, h⟩ := Option.map_eq_some_iff.1 h
        cases h
        obtain ⟨p, _, rfl⟩ := scan_safe _ s (Nat.le_refl _) _ _ e
        exact ⟨c :: p, by simp, by simp⟩
      · cases h
    · cases h

theorem skipClosed_safe {o c : Byte} : ∀ (s : List Byte) (d mode : Nat) (u : List Byte), skipClosed o c d mode s = some u →
    ∃ p, p ≠ [] ∧ s = p ++ u
  | [], d, mode, u, h => by simp [skipClosed] at h
  | x :: s, d, mode, u, h => by
    have next : ∀ d mode, skipClosed o c d mode s = some u → ∃ p, p ≠ [] ∧ x :: s = p ++ u := by
      intro d mode h
      obtain ⟨p, _, e⟩ := skipClosed_safe s d mode u h
      exact ⟨x :: p, by simp, by simp [← e]⟩
    match mode with
    | 0 =>
      rw [skip_out] at h
      split at h
      · cases d with
        | zero => cases h; exact ⟨[x], by simp, rfl⟩
        | succ d => exact next _ _ h
      · exact next _ _ h
    | 1 => rw [skipClosed] at h; exact next _ _ h
    | _ + 2 => rw [skipClosed] at h; exact next _ _ h

theorem fromChars_safe {lo hi v : Int} {s u : List Byte} (h : fromChars lo hi s = some (v, u)) : ∃ p, p ≠ [] ∧ s = p ++ u := by
  unfold fromChars at h
  by_cases hneg : lo < 0 ∧ s.head? = some 0x2d
  · simp only [if_pos hneg] at h
    by_cases hne : s.tail.takeWhile isDigit = []
    · rw [if_pos hne] at h; cases h
    rw [if_neg hne] at h
    split at h
    · cases h
    cases h
    cases s with
    | nil => cases hneg.2
    | cons c s => exact ⟨c :: s.takeWhile isDigit, by simp, by simp⟩
  · simp only [if_neg hneg] at h
    by_cases hne : s.takeWhile isDigit = []
    · rw [if_pos hne] at h; cases h
    rw [if_neg hne] at h
    split at h
    · cases h
    cases h
    exact ⟨s.takeWhile isDigit, hne, (List.takeWhile_append_dropWhile).symm⟩

theorem takeWhile_all {ds rest : List Byte} (h : ∀ c ∈ ds, isDigit c = true) (hr : numChar (look rest) = false) :
    (ds ++ rest).takeWhile isDigit = ds ∧ (ds ++ rest).dropWhile isDigit = rest := by
  induction ds with
  | nil =>
    cases rest with
    | nil => exact ⟨rfl, rfl⟩
    | cons c rest =>
      have : isDigit c = false := by
        cases e : isDigit c with
        | false => rfl
        | true =>
          have hr : numChar c = false := hr
          simp [numChar, e] at hr
      simp [this]
  | cons c ds ih =>
    have hc := h c (by simp)
    obtain ⟨h1, h2⟩ := ih fun x hx => h x (by simp [hx])
    simp [hc, h1, h2]

theorem fromChars_intText {lo hi v : Int} {rest : List Byte} (h1 : -2 ^ 63 ≤ lo) (h2 : hi < 2 ^ 64) (h3 : lo ≤ v) (h4 : v ≤ hi)
    (hr : numChar (look rest) = false) : fromChars lo hi (intText v ++ rest) = some (v, rest) := by
  have hbig : v.natAbs < 10 ^ 20 := by omega
  have hval : decVal (toDec v.natAbs) = v.natAbs := toDecAux_val 19 _ hbig
  obtain ⟨t1, t2⟩ := takeWhile_all (toDec_digits v.natAbs) hr
  unfold fromChars intText
  by_cases hneg : v < 0
  · have hn : lo < 0 ∧ (0x2d :: toDec v.natAbs ++ rest).head? = some 0x2d := ⟨by omega, rfl⟩
    simp only [if_pos hneg, if_pos hn]
    simp only [List.cons_append, List.tail_cons, t1, t2, hval]
    rw [if_neg (show toDec v.natAbs ≠ [] from toDecAux_ne _ _), if_neg (by omega)]
    congr 2
    omega
  · have hn : ¬ (lo < 0 ∧ (toDec v.natAbs ++ rest).head? = some 0x2d) := by
      rintro ⟨_, hd⟩
      cases e : toDec v.natAbs with
      | nil => exact toDecAux_ne _ _ e
      | cons c u =>
        have := toDec_digits v.natAbs c (by rw [e]; simp)
        rw [e] at hd
        simp only [List.cons_append, List.head?_cons, Option.some.injEq] at hd
        subst hd
        cases this
    simp only [if_neg hneg, if_neg hn, t1, t2, hval]
    rw [if_neg (show toDec v.natAbs ≠ [] from toDecAux_ne _ _), if_neg (by omega)]
    congr 2
    omega

theorem fromChars_over {lo hi v : Int} {rest : List Byte} (h1 : hi < v) (h2 : 0 ≤ v) (h3 : v < 2 ^ 64)
    (hr : numChar (look rest) = false) : fromChars lo hi (intText v ++ rest) = none := by
  have hbig : v.natAbs < 10 ^ 20 := by omega
  have hval : decVal (toDec v.natAbs) = v.natAbs := toDecAux_val 19 _ hbig
  obtain ⟨t1, t2⟩ := takeWhile_all (toDec_digits v.natAbs) hr
  unfold fromChars intText
  have hneg : ¬ v < 0 := by omega
  have hn : ¬ (lo < 0 ∧ (toDec v.natAbs ++ rest).head? = some 0x2d) := by
    rintro ⟨_, hd⟩
    cases e : toDec v.natAbs with
    | nil => exact toDecAux_ne _ _ e
    | cons c u =>
      have := toDec_digits v.natAbs c (by rw [e]; simp)
      rw [e] at hd
      simp only [List.cons_append, List.head?_cons, Option.some.injEq] at hd
      subst hd
      cases this
  simp only [if_neg hneg, if_neg hn, t1, t2, hval]
  rw [if_neg (show toDec v.natAbs ≠ [] from toDecAux_ne _ _), if_pos (by omega)]

theorem escape_plain {v : List Byte} (h : Plain v) : escapePath v = v := by
  unfold escapePath
  induction v with
  | nil => rfl
  | cons c v ih =>
    obtain ⟨h1, h2, h3⟩ := h c (by simp)
    have hc : escapeChar c = [c] := by
      have := Lex.byteAll (fun c => decide (c.toNat < 0x20) || c == 0x22 || c == 0x5c || escapeChar c == [c]) (by decide +kernel) c
      simp only [Bool.or_eq_true, decide_eq_true_eq, beq_iff_eq] at this
      rcases this with ((h | h) | h) | h
      · omega
      · exact absurd h h2
      · exact absurd h h3
      · exact h
    rw [List.flatMap_cons, hc, ih fun x hx => h x (by simp [hx])]
    rfl

/-- The laws are consistent. -/
theorem refGlaze_lawful : refGlaze.Lawful where
  writeStr v := ⟨escapePath v, by simpa [unescape] using unescape_path v [], rfl⟩
  writePlain v h := by
    show 0x22 :: escapePath v ++ [0x22] = _
    rw [escape_plain h]
  writeFloat wide v _ := by
    have h := v.isLt
    have := numText_int (v := (v.toNat : Int)) (by omega)
    rwa [intText_nat] at this
  readStr v t rest h := by
    obtain ⟨u, hu, rfl⟩ := h
    show orError (refString unescape _) = _
    have := ref_string (inside_unescape u v hu) hu rest
    rw [List.append_assoc, List.singleton_append, this]
    rfl
  readView v rest h := by
    show orError (refString some _) = _
    rw [ref_string (inside_unescape v v (unescape_plain h)) rfl rest]
    rfl
  readRaw u v rest h := by
    show orError (refString some _) = _
    rw [ref_string (inside_unescape u v h) rfl rest]
    rfl
  intOver lo hi v rest h1 h2 h3 hr := by
    show orError (fromChars _ _ _) = _
    rw [fromChars_over h1 h2 h3 hr]
    rfl
  readInt lo hi v rest h1 h2 h3 h4 hr := by
    show orError (fromChars _ _ _) = _
    rw [fromChars_intText h1 h2 h3 h4 hr]
    rfl
  readFloat wide v rest _ hr := by
    have h := v.isLt
    have := fromChars_intText (lo := 0) (hi := 2 ^ 64 - 1) (v := (v.toNat : Int)) (by omega) (by omega) (by omega) (by omega) hr
    show orError ((fromChars 0 (2 ^ 64 - 1) (toDec v.toNat ++ rest)).map _) = _
    rw [← intText_nat, this]
    simp [orError]
  skipStr v t rest h := by
    obtain ⟨u, hu, rfl⟩ := h
    show orError ((refString some _).map _) = _
    rw [List.append_assoc, List.singleton_append, ref_string (inside_unescape u v hu) rfl rest]
    rfl
  skipObj ms t rest h := by
    show orError (skipClosed _ _ _ _ _) = _
    rw [level_members (.inl ⟨rfl, rfl⟩) h, skip_out, if_pos rfl]
    rfl
  skipLoose v s t rest hs ht := by
    have hoc : (0x7b : Byte) = 0x7b ∧ (0x7d : Byte) = 0x7d ∨ (0x7b : Byte) = 0x5b ∧ (0x7d : Byte) = 0x5d := .inl ⟨rfl, rfl⟩
    have hl : ∀ {t : List Byte}, (∀ c ∈ t, c ≠ 0x22 ∧ c ≠ 0x7b ∧ c ≠ 0x7d ∧ c ≠ 0x2f) → Level 0x7b 0x7d t := by
      intro t
      induction t with
      | nil => exact fun _ => Level.nil
      | cons x t ih =>
        intro h
        have hx := h x (by simp)
        exact (level_char hoc hx.1 hx.2.1 hx.2.2.1).append (ih fun y hy => h y (by simp [hy]))
    show orError (skipClosed _ _ _ _ _) = _
    rw [List.append_assoc, level_str hoc hs, hl ht, skip_out, if_pos rfl]
    rfl
  skipArr xs t rest h := by
    show orError (skipClosed _ _ _ _ _) = _
    rw [level_items (.inr ⟨rfl, rfl⟩) h, skip_out, if_pos rfl]
    rfl
  safeStr s := orError_shortens fun _ _ h => refString_safe h
  safeView s := orError_shortens fun _ _ h => refString_safe h
  safeInt lo hi s := orError_shortens fun _ _ h => fromChars_safe h
  safeFloat wide s := orError_shortens fun _ _ h => by
    obtain ⟨p, hp, h⟩ := Option.map_eq_some_iff.1 h
    cases h
    exact fromChars_safe hp
  safeSkipStr s := orError_skips fun _ h => by
    obtain ⟨p, hp, h⟩ := Option.map_eq_some_iff.1 h
    cases h
    exact refString_safe hp
  safeSkipObj s := orError_skips fun _ h => skipClosed_safe _ _ _ _ h
  safeSkipArr s := orError_skips fun _ h => skipClosed_safe _ _ _ _ h
  safeSkipComment s := .inr rfl

end HppProto.Json
