import Verif.Model.FieldMask
import Verif.Spec.Json
/-! Field masks. -/
namespace HppProto
open Spec

/-- Text without quotes, backslashes and control characters is itself. -/
theorem unescape_plain (c : Byte) (rest : List Byte) (h1 : c ≠ 0x5c) (h2 : c ≠ 0x22) (h3 : ¬ c.toNat < 0x20) :
    unescape (c :: rest) = (unescape rest).map (c :: ·) := by
  rw [unescape.eq_def]
  simp only
  rw [if_neg h1, if_neg (by simp only [not_or]; exact ⟨h2, h3⟩)]

theorem escape_short : ∀ c e : Byte, escapeTable c = some e → shortEscape e = some c ∧ e ≠ 0x75 := by
  intro c e h
  unfold escapeTable at h
  repeat' split at h
  all_goals first | (injection h with h; subst h; rename_i hc; subst hc; decide) | cases h

theorem escape_hex : ∀ n < 32, hexVal (hexDigit ((BitVec.ofNat 8 n >>> 4 : Byte)).toNat) = some (n / 16) ∧
    hexVal (hexDigit ((BitVec.ofNat 8 n &&& 0x0f : Byte)).toNat) = some (n % 16) := by decide +kernel

theorem unescape_char (c : Byte) (rest : List Byte) : unescape (escapeChar c ++ rest) = (unescape rest).map (c :: ·) := by
  unfold escapeChar
  cases h : escapeTable c with
  | some e =>
    obtain ⟨h1, h2⟩ := escape_short c e h
    simp only [List.cons_append, List.nil_append]
    rw [unescape.eq_def]
    simp only
    rw [if_pos trivial, if_neg h2, h1]
  | none =>
    simp only
    by_cases hc : c.toNat < 0x20
    · rw [if_pos hc]
      simp only [List.cons_append, List.nil_append]
      rw [unescape.eq_def]
      simp only
      rw [if_pos trivial, if_pos trivial]
      obtain ⟨e1, e2⟩ := escape_hex c.toNat hc
      rw [show BitVec.ofNat 8 c.toNat = c by simp] at e1 e2
      have z : hexVal 0x30 = some 0 := by decide
      rw [z, e1, e2]
      simp only
      rw [if_pos (by omega), show 16 * (c.toNat / 16) + c.toNat % 16 = c.toNat by omega]
      simp
    · rw [if_neg hc]
      apply unescape_plain
      · rintro rfl; simp [escapeTable] at h
      · rintro rfl; simp [escapeTable] at h
      · exact hc

theorem unescape_path (p rest : List Byte) : unescape (escapePath p ++ rest) = (unescape rest).map (p ++ ·) := by
  induction p with
  | nil => simp [escapePath]
  | cons c p ih =>
    have e : escapePath (c :: p) ++ rest = escapeChar c ++ (escapePath p ++ rest) := by simp [escapePath]
    rw [e, unescape_char, ih, Option.map_map]
    rfl

/-- The paths after the first, each with a comma before it. -/
def tailText : List (List Byte) → List Byte
  | [] => []
  | p :: rest => 0x2c :: p ++ tailText rest

/-- The paths with commas between them. -/
def joined : List (List Byte) → List Byte
  | [] => []
  | p :: rest => p ++ tailText rest

theorem unescape_rest (ps : List (List Byte)) : unescape (fieldMaskRest ps) = some (tailText ps) := by
  induction ps with
  | nil => rfl
  | cons p rest ih =>
    rw [fieldMaskRest, List.cons_append, unescape_plain _ _ (by decide) (by decide) (by decide), unescape_path, ih]
    rfl

theorem unescape_encode (ps : List (List Byte)) : unescape (fieldMaskEncode ps) = some (joined ps) := by
  cases ps with
  | nil => rfl
  | cons p rest => rw [fieldMaskEncode, unescape_path, unescape_rest]; rfl

theorem escape_size : ∀ c : Byte, (escapeChar c).length ≤ escapedCharSize c := by decide +kernel

theorem escapePath_size (p : List Byte) : (escapePath p).length ≤ (p.map escapedCharSize).sum := by
  induction p with
  | nil => simp [escapePath]
  | cons c p ih =>
    have := escape_size c
    simp only [escapePath, List.flatMap_cons, List.length_append, List.map_cons, List.sum_cons] at ih ⊢
    omega

theorem rest_size (ps : List (List Byte)) : (fieldMaskRest ps).length ≤ fieldMaskMaxSize ps := by
  unfold fieldMaskMaxSize
  induction ps with
  | nil => simp [fieldMaskRest]
  | cons p rest ih =>
    have := escapePath_size p
    simp only [fieldMaskRest, List.cons_append, List.length_cons, List.length_append, List.map_cons, List.sum_cons] at ih ⊢
    omega

theorem encode_size (ps : List (List Byte)) : (fieldMaskEncode ps).length ≤ fieldMaskMaxSize ps := by
  cases ps with
  | nil => simp [fieldMaskEncode]
  | cons p rest =>
    have h1 := escapePath_size p
    have h2 := rest_size rest
    unfold fieldMaskMaxSize at h2 ⊢
    simp only [fieldMaskEncode, List.length_append, List.map_cons, List.sum_cons, List.length_cons]
    omega

/-! ### Decoding -/

theorem takeWhile_path {p : List Byte} (h : (0x2c : Byte) ∉ p) : p.takeWhile (· ≠ 0x2c) = p ∧ p.dropWhile (· ≠ 0x2c) = [] := by
  induction p with
  | nil => simp
  | cons c p ih =>
    simp only [List.mem_cons, not_or] at h
    obtain ⟨h1, h2⟩ := ih h.2
    have hc : decide (c ≠ 0x2c) = true := by simpa using fun e => h.1 e.symm
    rw [List.takeWhile_cons, List.dropWhile_cons, hc]
    simp only [if_true]
    exact ⟨by rw [h1], h2⟩

theorem takeWhile_comma {p : List Byte} (h : (0x2c : Byte) ∉ p) (rest : List Byte) :
    (p ++ 0x2c :: rest).takeWhile (· ≠ 0x2c) = p ∧ (p ++ 0x2c :: rest).dropWhile (· ≠ 0x2c) = 0x2c :: rest := by
  induction p with
  | nil => simp
  | cons c p ih =>
    simp only [List.mem_cons, not_or] at h
    obtain ⟨h1, h2⟩ := ih h.2
    have hc : decide (c ≠ 0x2c) = true := by simpa using fun e => h.1 e.symm
    rw [List.cons_append, List.takeWhile_cons, List.dropWhile_cons, hc]
    simp only [if_true]
    exact ⟨by rw [h1], h2⟩

theorem count_joined : ∀ ps : List (List Byte), (∀ p ∈ ps, (0x2c : Byte) ∉ p) → (tailText ps).count 0x2c = ps.length := by
  intro ps h
  induction ps with
  | nil => rfl
  | cons p rest ih =>
    have ih := ih (fun q hq => h q (by simp [hq]))
    have hp := List.count_eq_zero.2 (h p (by simp))
    rw [tailText, List.cons_append, List.count_cons, List.count_append, ih, hp]
    simp

theorem loop_joined : ∀ (rest : List (List Byte)) (p : List Byte), (0x2c : Byte) ∉ p → (∀ q ∈ rest, (0x2c : Byte) ∉ q) →
    fieldMaskLoop (rest.length + 1) (p ++ tailText rest) = p :: rest
  | [], p, hp, _ => by
    have := takeWhile_path hp
    simp only [List.length_nil, Nat.zero_add, tailText, List.append_nil, fieldMaskLoop]
    rw [this.1]
  | q :: rest, p, hp, hr => by
    have h := takeWhile_comma hp (q ++ tailText rest)
    have ih := loop_joined rest q (hr q (by simp)) (fun r hq => hr r (by simp [hq]))
    rw [List.length_cons, tailText, List.cons_append, fieldMaskLoop]
    simp only [List.cons_append] at h ⊢
    rw [h.1, h.2]
    simp only
    rw [ih]

theorem decode_joined {ps : List (List Byte)} (h : ∀ p ∈ ps, (0x2c : Byte) ∉ p) (hne : ps ≠ [[]]) : fieldMaskDecode (joined ps) = ps := by
  cases ps with
  | nil => rfl
  | cons p rest =>
    have hp := h p (by simp)
    have hr : ∀ q ∈ rest, (0x2c : Byte) ∉ q := fun q hq => h q (by simp [hq])
    have hj : joined (p :: rest) ≠ [] := by
      cases rest with
      | nil =>
        intro e
        apply hne
        simp only [joined, tailText, List.append_nil] at e
        rw [e]
      | cons q rest => simp [joined, tailText]
    unfold fieldMaskDecode
    rw [if_neg hj]
    have hc : (joined (p :: rest)).count 0x2c = rest.length := by
      rw [joined, List.count_append, count_joined rest hr, List.count_eq_zero.2 hp]; simp
    rw [hc]
    exact loop_joined rest p hp hr

theorem loop_no_comma : ∀ (k : Nat) (cur : List Byte), ∀ p ∈ fieldMaskLoop k cur, (0x2c : Byte) ∉ p
  | 0, _ => by simp [fieldMaskLoop]
  | k + 1, cur => by
    intro p hp
    rw [fieldMaskLoop] at hp
    simp only [List.mem_cons] at hp
    rcases hp with rfl | hp
    · intro hm
      have := List.all_takeWhile (l := cur) (p := fun c : Byte => decide (c ≠ 0x2c))
      rw [List.all_eq_true] at this
      have := this _ hm
      simp at this
    · exact loop_no_comma k _ p hp

theorem decode_no_comma (json : List Byte) : ∀ p ∈ fieldMaskDecode json, (0x2c : Byte) ∉ p := by
  unfold fieldMaskDecode
  split
  · simp
  · exact loop_no_comma _ _

end HppProto
