import Verif.Proofs.LexNames
/-! # Proofs: emitted integer literals -/
namespace HppProto.Lex
open HppProto HppProto.Spec.Cpp

theorem digit_eq (b : Byte) : digitValue b = digit b := by
  have := byteAll (fun b => digitValue b == digit b) (by decide +kernel) b
  exact beq_iff_eq.1 this

theorem digit_chars {b : Byte} {d : Nat} (h : digit b = some d) :
    b ≠ 0x2d ∧ b ≠ 0x2b ∧ isSuffixChar b = false := by
  have := byteAll (fun b => !(digit b).isSome || (b != 0x2d && b != 0x2b && !isSuffixChar b)) (by decide +kernel) b
  rw [h] at this
  simp only [Option.isSome_some, Bool.not_true, Bool.false_or, Bool.and_eq_true, bne_iff_ne, ne_eq, Bool.not_eq_true'] at this
  exact ⟨this.1.1, this.1.2, this.2⟩

/-- The loop of `from_chars`, on the digits. -/
def horner (base : Nat) (ds : List Nat) : Nat := ds.foldl (fun n d => n * base + d) 0

theorem horner_acc (base : Nat) : ∀ (ds : List Nat) (a : Nat),
    ds.foldl (fun n d => n * base + d) a = a * base ^ ds.length + horner base ds
  | [], a => by simp [horner]
  | d :: ds, a => by
    unfold horner
    rw [List.foldl_cons, horner_acc base ds, List.foldl_cons, horner_acc base ds (0 * base + d)]
    rw [List.length_cons, Nat.pow_succ]
    simp only [Nat.add_mul, Nat.zero_mul, Nat.zero_add, Nat.mul_assoc, Nat.add_assoc, Nat.mul_comm base]

theorem mapM_length {α β : Type} {f : α → Option β} {l : List α} {r : List β} (h : l.mapM f = some r) : r.length = l.length := by
  have := congrArg List.length ((mapM_some f l r).1 h)
  simpa using this.symm

theorem positional_eq (base : Nat) : ∀ s, positional base s = (s.mapM (baseDigit base)).map (horner base)
  | [] => rfl
  | c :: rest => by
    unfold positional
    rw [positional_eq base rest, List.mapM_cons]
    have hbd : baseDigit base c = (match digit c with | some d => if d < base then some d else none | none => none) := by
      unfold baseDigit; rw [digit_eq]; cases digit c <;> rfl
    rw [hbd]
    cases digit c with
    | none => simp
    | some d =>
      simp only
      split
      · rename_i h1 h2
        injection h1 with h1; subst h1
        cases hm : rest.mapM (baseDigit base) with
        | none => rw [hm] at h2; simp at h2
        | some ds =>
          rw [hm] at h2
          simp only [Option.map_some, Option.some.injEq] at h2
          subst h2
          have hl := mapM_length hm
          change _ = Option.map _ ((if d < base then some d else none).bind (fun y => (some ds).bind (fun ys => pure (y :: ys))))
          by_cases hd : d < base
          · rw [if_pos hd, if_pos hd]
            simp only [Option.bind_some, Option.pure_def, Option.map_some, Option.some.injEq]
            show _ = List.foldl _ 0 (d :: ds)
            rw [List.foldl_cons, horner_acc, hl]
            simp
          · rw [if_neg hd, if_neg hd]; rfl
      · rename_i h
        change _ = Option.map _ ((if d < base then some d else none).bind (fun y => (rest.mapM (baseDigit base)).bind (fun ys => pure (y :: ys))))
        cases hm : rest.mapM (baseDigit base) with
        | none => split <;> rfl
        | some ds => rw [hm] at h; exact absurd rfl (h d _ rfl)

theorem fromCharsAll_iff (base : Nat) (s : List Byte) (v : Nat) :
    fromCharsAll base s = some v ↔ s ≠ [] ∧ positional base s = some v ∧ v < 2 ^ 64 := by
  unfold fromCharsAll
  rw [positional_eq]
  by_cases hs : s = []
  · rw [if_pos hs]; constructor
    · intro h; cases h
    · intro h; exact absurd hs h.1
  · rw [if_neg hs]
    cases hm : s.mapM (baseDigit base) with
    | none => simp
    | some ds =>
      simp only [Option.map_some, Option.some.injEq]
      change (if horner base ds < 2 ^ 64 then some (horner base ds) else none) = some v ↔ _
      constructor
      · intro h
        split at h
        · injection h with h; subst h; exact ⟨hs, rfl, by assumption⟩
        · cases h
      · rintro ⟨_, rfl, h⟩
        rw [if_pos h]

theorem integerLiteral_hex (c : Byte) (ds : List Byte) (hc : c = 0x78 ∨ c = 0x58) :
    integerLiteral (0x30 :: c :: ds) = if ds = [] then none else (positional 16 ds).map (Prod.mk false) := by
  rcases hc with rfl | rfl <;> rfl

theorem integerLiteral_oct (ds : List Byte) (h : ds.head? ≠ some 0x78) (h' : ds.head? ≠ some 0x58) :
    integerLiteral (0x30 :: ds) = (positional 8 ds).map (Prod.mk false) := by
  unfold integerLiteral
  split
  · rename_i heq; cases heq
  · rename_i heq; injection heq with _ heq; subst heq; exact absurd rfl h
  · rename_i heq; injection heq with _ heq; subst heq; exact absurd rfl h'
  · rename_i heq; injection heq with _ heq; subst heq; rfl
  · rename_i hne; exact absurd rfl (hne ds)

theorem integerLiteral_dec (c : Byte) (ds : List Byte) (h : c ≠ 0x30) :
    integerLiteral (c :: ds) = (positional 10 (c :: ds)).map (Prod.mk true) := by
  unfold integerLiteral
  split
  · rename_i heq; cases heq
  · rename_i heq; injection heq with heq _; exact absurd heq h
  · rename_i heq; injection heq with heq _; exact absurd heq h
  · rename_i heq; injection heq with heq _; exact absurd heq h
  · rfl

theorem parseMagnitude_iff (v : List Byte) (m : Nat) :
    parseMagnitude v = some m ↔ ∃ d, integerLiteral v = some (d, m) ∧ m < 2 ^ 64 := by
  have hmap : ∀ (o : Option Nat) (f : Bool), (∃ d, o.map (Prod.mk f) = some (d, m) ∧ m < 2 ^ 64) ↔ (o = some m ∧ m < 2 ^ 64) := by
    intro o f
    cases o <;> simp
  match v with
  | [] => simp [parseMagnitude, integerLiteral]
  | [c0] =>
    unfold parseMagnitude
    rw [fromCharsAll_iff]
    by_cases h : c0 = 0x30
    · subst h
      rw [integerLiteral_oct [] (by simp) (by simp), hmap]
      constructor
      · rintro ⟨_, h, h2⟩; exact ⟨h, h2⟩
      · rintro ⟨h, h2⟩; exact ⟨by simp, h, h2⟩
    · rw [integerLiteral_dec c0 [] h, hmap]
      constructor
      · rintro ⟨_, h, h2⟩; exact ⟨h, h2⟩
      · rintro ⟨h, h2⟩; exact ⟨by simp, h, h2⟩
  | c0 :: c1 :: more =>
    unfold parseMagnitude; dsimp only
    by_cases h : c0 = 0x30
    · subst h
      by_cases hx : c1 = 0x78 ∨ c1 = 0x58
      · rw [if_pos ⟨rfl, hx⟩, integerLiteral_hex c1 more hx, fromCharsAll_iff]
        by_cases hm : more = []
        · rw [if_pos hm]; simp [hm]
        · rw [if_neg hm, hmap]; simp [hm]
      · rw [if_neg (fun h => hx h.2), if_pos rfl, fromCharsAll_iff,
          integerLiteral_oct _ (by simp; exact fun h => hx (.inl h)) (by simp; exact fun h => hx (.inr h)), hmap]
        simp
    · rw [if_neg (fun h' => h h'.1), if_neg h, fromCharsAll_iff, integerLiteral_dec _ _ h, hmap]
      simp

theorem positional_chars (base : Nat) : ∀ (s : List Byte) (v : Nat), positional base s = some v →
    ∀ b ∈ s, ∃ d, digit b = some d
  | [], _, _ => by simp
  | c :: rest, v, h => by
    unfold positional at h
    split at h
    · rename_i d w hd hw
      intro b hb
      rw [List.mem_cons] at hb
      rcases hb with rfl | hb
      · exact ⟨d, hd⟩
      · exact positional_chars base rest w hw b hb
    · cases h

/-- The characters of a literal: none is a sign or a suffix letter. -/
theorem integerLiteral_chars {s : List Byte} {d : Bool} {m : Nat} (h : integerLiteral s = some (d, m)) :
    s ≠ [] ∧ ∀ b ∈ s, b ≠ 0x2d ∧ b ≠ 0x2b ∧ isSuffixChar b = false := by
  have hpos : ∀ (base : Nat) (f : Bool) (ds : List Byte), (positional base ds).map (Prod.mk f) = some (d, m) →
      ∀ b ∈ ds, b ≠ 0x2d ∧ b ≠ 0x2b ∧ isSuffixChar b = false := by
    intro base f ds hp b hb
    cases hq : positional base ds with
    | none => rw [hq] at hp; simp at hp
    | some v =>
      obtain ⟨e, he⟩ := positional_chars base ds v hq b hb
      exact digit_chars he
  have h30 : ((0x30 : Byte) ≠ 0x2d ∧ (0x30 : Byte) ≠ 0x2b ∧ isSuffixChar 0x30 = false) := by decide
  have h78 : ((0x78 : Byte) ≠ 0x2d ∧ (0x78 : Byte) ≠ 0x2b ∧ isSuffixChar 0x78 = false) := by decide
  have h58 : ((0x58 : Byte) ≠ 0x2d ∧ (0x58 : Byte) ≠ 0x2b ∧ isSuffixChar 0x58 = false) := by decide
  unfold integerLiteral at h
  split at h
  · cases h
  · rename_i ds
    split at h
    · cases h
    · refine ⟨by simp, ?_⟩
      intro b hb
      rw [List.mem_cons, List.mem_cons] at hb
      rcases hb with rfl | rfl | hb
      · exact h30
      · exact h78
      · exact hpos _ _ _ h b hb
  · rename_i ds
    split at h
    · cases h
    · refine ⟨by simp, ?_⟩
      intro b hb
      rw [List.mem_cons, List.mem_cons] at hb
      rcases hb with rfl | rfl | hb
      · exact h30
      · exact h58
      · exact hpos _ _ _ h b hb
  · refine ⟨by simp, ?_⟩
    intro b hb
    rw [List.mem_cons] at hb
    rcases hb with rfl | hb
    · exact h30
    · exact hpos _ _ _ h b hb
  · rename_i hne _ _ _
    exact ⟨hne, hpos _ _ _ h⟩

theorem takeWhile_suffix (p suf : List Byte) (hp : ∀ b ∈ p, isSuffixChar b = false)
    (hs : suf = [] ∨ ∃ c cs, suf = c :: cs ∧ isSuffixChar c = true) :
    (p ++ suf).takeWhile (fun b => !isSuffixChar b) = p ∧ (p ++ suf).dropWhile (fun b => !isSuffixChar b) = suf := by
  induction p with
  | nil =>
    rcases hs with rfl | ⟨c, cs, rfl, hc⟩
    · simp
    · simp [hc]
  | cons b p ih =>
    have := ih (fun b hb => hp b (by simp [hb]))
    simp [hp b (by simp), this.1, this.2]

theorem literal_suffix {s suf : List Byte} {d : Bool} {m : Nat} {tys : List Ty} {ty : Ty}
    (h : integerLiteral s = some (d, m)) (hs : suf = [] ∨ ∃ c cs, suf = c :: cs ∧ isSuffixChar c = true)
    (hc : candidates suf d = some (ty :: tys)) (hm : (m : Int) ≤ ty.max) :
    literal (s ++ suf) = some (ty, (m : Int)) := by
  have := takeWhile_suffix s suf (fun b hb => ((integerLiteral_chars h).2 b hb).2.2) hs
  unfold literal
  rw [this.1, this.2, h]
  simp only [hc]
  rw [List.find?_cons_of_pos (by simpa using hm)]
  rfl

theorem suffix_no_minus {suf : List Byte} (hs : suf ∈ [[], b!"U", b!"LL", b!"ULL"]) : ∀ b ∈ suf, b ≠ 0x2d := by
  simp only [List.mem_cons, List.not_mem_nil, or_false] at hs
  rcases hs with rfl | rfl | rfl | rfl <;> decide

theorem splitMinus_none {c : Byte} {rest : List Byte} (h : ∀ b ∈ rest, b ≠ 0x2d) : splitMinus (c :: rest) = none := by
  unfold splitMinus; dsimp only
  rw [if_neg]
  intro hc
  exact h _ (List.contains_iff_mem.1 hc) rfl

theorem unary_other {c : Byte} {t : List Byte} (h : c ≠ 0x2d) (h' : c ≠ 0x2b) : unary (c :: t) = literal (c :: t) := by
  unfold unary
  split
  · rename_i heq; injection heq with heq _; exact absurd heq h
  · rename_i heq; injection heq with heq _; exact absurd heq h'
  · rfl

theorem textInteger_other {c : Byte} {t : List Byte} (h : c ≠ 0x2d) (h' : c ≠ 0x2b) :
    textInteger (c :: t) = (integerLiteral (c :: t)).map (fun p => (p.2 : Int)) := by
  unfold textInteger
  split
  · rename_i heq; injection heq with heq _; exact absurd heq h
  · rename_i heq; injection heq with heq _; exact absurd heq h'
  · rfl

/-- An unsigned literal with a suffix, as an expression. -/
theorem expression_plain {s suf : List Byte} {d : Bool} {m : Nat} {tys : List Ty} {ty : Ty}
    (h : integerLiteral s = some (d, m)) (hs : suf ∈ [[], b!"U", b!"LL", b!"ULL"])
    (hc : candidates suf d = some (ty :: tys)) (hm : (m : Int) ≤ ty.max) :
    expression (s ++ suf) = some (ty, (m : Int)) := by
  have hch := integerLiteral_chars h
  have hs' : suf = [] ∨ ∃ c cs, suf = c :: cs ∧ isSuffixChar c = true := by
    simp only [List.mem_cons, List.not_mem_nil, or_false] at hs
    rcases hs with rfl | rfl | rfl | rfl
    · exact .inl rfl
    all_goals exact .inr ⟨_, _, rfl, by decide⟩
  have hl := literal_suffix h hs' hc hm
  cases s with
  | nil => exact absurd rfl hch.1
  | cons c t =>
    unfold expression
    rw [List.cons_append] at hl ⊢
    rw [splitMinus_none]
    · simp only
      have := hch.2 c (by simp)
      rw [unary_other this.1 this.2.1]
      exact hl
    · intro b hb
      rw [List.mem_append] at hb
      rcases hb with hb | hb
      · exact (hch.2 b (by simp [hb])).1
      · exact suffix_no_minus hs b hb

/-- A signed literal with a suffix. -/
theorem expression_signed {c : Byte} {s suf : List Byte} {d : Bool} {m : Nat} {tys : List Ty} {ty : Ty}
    (h : integerLiteral s = some (d, m)) (hs : suf ∈ [[], b!"U", b!"LL", b!"ULL"])
    (hc : candidates suf d = some (ty :: tys)) (hm : (m : Int) ≤ ty.max) (hmin : ty.min ≤ -(m : Int))
    (hsign : c = 0x2d ∨ c = 0x2b) :
    expression (c :: s ++ suf) = some (ty, if c = 0x2d then -(m : Int) else m) := by
  have hch := integerLiteral_chars h
  have hs' : suf = [] ∨ ∃ c cs, suf = c :: cs ∧ isSuffixChar c = true := by
    simp only [List.mem_cons, List.not_mem_nil, or_false] at hs
    rcases hs with rfl | rfl | rfl | rfl
    · exact .inl rfl
    all_goals exact .inr ⟨_, _, rfl, by decide⟩
  have hl := literal_suffix h hs' hc hm
  unfold expression
  rw [List.cons_append, splitMinus_none]
  · simp only
    rcases hsign with rfl | rfl
    · rw [if_pos rfl]
      show (match literal (s ++ suf) with | some (ty, v) => if ty.min ≤ -v then some (ty, -v) else none | none => none) = _
      rw [hl]
      simp only
      rw [if_pos hmin]
    · rw [if_neg (by decide)]
      exact hl
  · intro b hb
    rw [List.mem_append] at hb
    rcases hb with hb | hb
    · exact (hch.2 b hb).1
    · exact suffix_no_minus hs b hb

/-- The sign and the magnitude, against the text. -/
theorem parseInteger_signed_iff (s : List Byte) (neg : Bool) (m : Nat) :
    parseInteger s true = some (neg, m) ↔
      ∃ c body d, integerLiteral body = some (d, m) ∧ m < 2 ^ 64 ∧
        ((s = c :: body ∧ (c = 0x2d ∧ neg = true ∨ c = 0x2b ∧ neg = false)) ∨ (s = body ∧ neg = false)) := by
  unfold parseInteger
  cases s with
  | nil =>
    constructor
    · intro h; cases h
    · rintro ⟨c, body, d, h, _, (⟨h', _⟩ | ⟨rfl, _⟩)⟩
      · cases h'
      · cases h
  | cons c rest =>
    simp only [Bool.not_true, Bool.false_eq_true, if_false]
    by_cases hc : c = 0x2d ∨ c = 0x2b
    · rw [if_pos hc]
      constructor
      · intro h
        cases hp : parseMagnitude rest with
        | none => rw [hp] at h; cases h
        | some m' =>
          rw [hp] at h
          simp only [Option.map_some, Option.some.injEq, Prod.mk.injEq] at h
          obtain ⟨hn, rfl⟩ := h
          obtain ⟨d, hd, hlt⟩ := (parseMagnitude_iff rest m').1 hp
          refine ⟨c, rest, d, hd, hlt, .inl ⟨rfl, ?_⟩⟩
          rcases hc with rfl | rfl
          · exact .inl ⟨rfl, by simpa using hn.symm⟩
          · exact .inr ⟨rfl, by rw [← hn]; decide⟩
      · rintro ⟨c', body, d, h, hlt, (⟨h', hs⟩ | ⟨h', _⟩)⟩
        · injection h' with h1 h2
          subst h1; subst h2
          rw [(parseMagnitude_iff rest m).2 ⟨d, h, hlt⟩]
          rcases hs with ⟨rfl, rfl⟩ | ⟨rfl, rfl⟩ <;> rfl
        · subst h'
          have := (integerLiteral_chars h).2 c (by simp)
          rcases hc with hc | hc
          · exact absurd hc this.1
          · exact absurd hc this.2.1
    · rw [if_neg hc]
      constructor
      · intro h
        cases hp : parseMagnitude (c :: rest) with
        | none => rw [hp] at h; cases h
        | some m' =>
          rw [hp] at h
          simp only [Option.map_some, Option.some.injEq, Prod.mk.injEq] at h
          obtain ⟨hn, rfl⟩ := h
          obtain ⟨d, hd, hlt⟩ := (parseMagnitude_iff _ m').1 hp
          exact ⟨c, c :: rest, d, hd, hlt, .inr ⟨rfl, hn.symm⟩⟩
      · rintro ⟨c', body, d, h, hlt, (⟨h', hs⟩ | ⟨rfl, rfl⟩)⟩
        · injection h' with h1 h2
          subst h1
          rcases hs with ⟨h, _⟩ | ⟨h, _⟩
          · exact absurd (.inl h) hc
          · exact absurd (.inr h) hc
        · rw [(parseMagnitude_iff _ m).2 ⟨d, h, hlt⟩]; rfl

theorem textInteger_iff (s : List Byte) (v : Int) :
    textInteger s = some v ↔
      ∃ c body d m, integerLiteral body = some (d, m) ∧
        ((s = c :: body ∧ (c = 0x2d ∧ v = -(m : Int) ∨ c = 0x2b ∧ v = m)) ∨ (s = body ∧ v = m)) := by
  cases s with
  | nil =>
    constructor
    · intro h; cases h
    · rintro ⟨c, body, d, m, h, (⟨h', _⟩ | ⟨rfl, _⟩)⟩
      · cases h'
      · cases h
  | cons c rest =>
    by_cases hm : c = 0x2d
    · subst hm
      show (integerLiteral rest).map _ = some v ↔ _
      constructor
      · intro h
        cases hi : integerLiteral rest with
        | none => rw [hi] at h; cases h
        | some p =>
          rw [hi] at h; injection h with h
          exact ⟨_, rest, p.1, p.2, hi, .inl ⟨rfl, .inl ⟨rfl, h.symm⟩⟩⟩
      · rintro ⟨c', body, d, m, h, (⟨h', hs⟩ | ⟨rfl, _⟩)⟩
        · injection h' with h1 h2
          subst h1; subst h2
          rw [h]
          rcases hs with ⟨_, rfl⟩ | ⟨h, _⟩
          · rfl
          · exact absurd h (by decide)
        · exact absurd rfl ((integerLiteral_chars h).2 _ (by simp)).1
    · by_cases hp : c = 0x2b
      · subst hp
        show (integerLiteral rest).map _ = some v ↔ _
        constructor
        · intro h
          cases hi : integerLiteral rest with
          | none => rw [hi] at h; cases h
          | some p =>
            rw [hi] at h; injection h with h
            exact ⟨_, rest, p.1, p.2, hi, .inl ⟨rfl, .inr ⟨rfl, h.symm⟩⟩⟩
        · rintro ⟨c', body, d, m, h, (⟨h', hs⟩ | ⟨rfl, _⟩)⟩
          · injection h' with h1 h2
            subst h1; subst h2
            rw [h]
            rcases hs with ⟨h, _⟩ | ⟨_, rfl⟩
            · exact absurd h (by decide)
            · rfl
          · exact absurd rfl ((integerLiteral_chars h).2 _ (by simp)).2.1
      · rw [textInteger_other hm hp]
        constructor
        · intro h
          cases hi : integerLiteral (c :: rest) with
          | none => rw [hi] at h; cases h
          | some p =>
            rw [hi] at h; injection h with h
            exact ⟨c, c :: rest, p.1, p.2, hi, .inr ⟨rfl, h.symm⟩⟩
        · rintro ⟨c', body, d, m, h, (⟨h', hs⟩ | ⟨rfl, rfl⟩)⟩
          · injection h' with h1 h2
            subst h1
            rcases hs with ⟨h, _⟩ | ⟨h, _⟩
            · exact absurd h hm
            · exact absurd h hp
          · rw [h]; rfl

/-- The C++ type of a signed literal of this width. -/
def sTy : Width → Ty
  | .bits32 => .int
  | .bits64 => .longLong

/-- The C++ type of an unsigned literal of this width. -/
def uTy : Width → Ty
  | .bits32 => .unsignedInt
  | .bits64 => .unsignedLongLong

theorem sTy_max (w : Width) : (sTy w).max = 2 ^ (w.bits - 1) - 1 := by cases w <;> rfl
theorem sTy_min (w : Width) : (sTy w).min = -2 ^ (w.bits - 1) := by cases w <;> rfl

/-- The suffix of a signed literal. -/
def sSuffix (w : Width) : List Byte := if w = .bits64 then b!"LL" else []

theorem sSuffix_mem (w : Width) : sSuffix w ∈ [[], b!"U", b!"LL", b!"ULL"] := by cases w <;> decide
theorem sSuffix_cand (w : Width) (d : Bool) : ∃ tys, candidates (sSuffix w) d = some (sTy w :: tys) := by
  cases w <;> cases d <;> exact ⟨_, rfl⟩

theorem signed_iff (s out : List Byte) (w : Width) : signedInteger s w = some out →
    ∃ v, textInteger s = some v ∧ (sTy w).min ≤ v ∧ v ≤ (sTy w).max ∧ expression out = some (sTy w, v) := by
  intro h
  unfold signedInteger at h
  cases hp : parseInteger s true with
  | none => rw [hp] at h; cases h
  | some p =>
    obtain ⟨neg, m⟩ := p
    rw [hp] at h
    simp only at h
    obtain ⟨c, body, d, hl, hlt, hs⟩ := (parseInteger_signed_iff s neg m).1 hp
    have hmin := sTy_min w
    have hmax := sTy_max w
    generalize hS : (2 : Nat) ^ (w.bits - 1) = S at h
    have hSi : (2 : Int) ^ (w.bits - 1) = (S : Int) := by rw [← hS]; simp
    have hS1 : 0 < S := by rw [← hS]; exact Nat.pow_pos (by decide)
    rw [hSi] at hmin hmax
    split at h
    · cases h
    · rename_i hr
      simp only [Bool.not_eq_true, Bool.or_eq_false_iff, Bool.and_eq_false_iff, Bool.not_eq_false', decide_eq_false_iff_not, Nat.not_lt] at hr
      split at h
      · rename_i hmn
        simp only [Bool.and_eq_true, decide_eq_true_iff] at hmn
        obtain ⟨rfl, hms⟩ := hmn
        injection h with h
        rcases hs with ⟨rfl, (⟨rfl, _⟩ | ⟨_, h⟩)⟩ | ⟨_, h⟩
        · refine ⟨-(m : Int), (textInteger_iff _ _).2 ⟨0x2d, body, d, m, hl, .inl ⟨rfl, .inl ⟨rfl, rfl⟩⟩⟩, by omega, by omega, ?_⟩
          rw [← h, hms]
          cases w with
          | bits32 => rw [← hS]; decide +kernel
          | bits64 => rw [← hS]; decide +kernel
        · cases h
        · cases h
      · rename_i hmn
        simp only [Bool.and_eq_true, decide_eq_true_iff, not_and] at hmn
        injection h with h
        obtain ⟨tys, hc⟩ := sSuffix_cand w d
        have hm : (m : Int) ≤ (sTy w).max := by
          cases neg with
          | false => have := hr.1; simp at this; omega
          | true => have := hr.2; have := hmn rfl; simp at *; omega
        rw [← h]
        change ∃ v, _ ∧ _ ∧ _ ∧ expression (s ++ sSuffix w) = _
        rcases hs with ⟨rfl, (⟨rfl, _⟩ | ⟨rfl, _⟩)⟩ | ⟨rfl, _⟩
        · refine ⟨-(m : Int), (textInteger_iff _ _).2 ⟨0x2d, body, d, m, hl, .inl ⟨rfl, .inl ⟨rfl, rfl⟩⟩⟩, by omega, by omega, ?_⟩
          rw [expression_signed hl (sSuffix_mem w) hc hm (by omega) (.inl rfl), if_pos rfl]
        · refine ⟨(m : Int), (textInteger_iff _ _).2 ⟨0x2b, body, d, m, hl, .inl ⟨rfl, .inr ⟨rfl, rfl⟩⟩⟩, by omega, by omega, ?_⟩
          rw [expression_signed hl (sSuffix_mem w) hc hm (by omega) (.inr rfl), if_neg (by decide)]
        · refine ⟨(m : Int), (textInteger_iff _ _).2 ⟨0x2b, s, d, m, hl, .inr ⟨rfl, rfl⟩⟩, by omega, by omega, ?_⟩
          exact expression_plain hl (sSuffix_mem w) hc hm

theorem signed_accepts (s : List Byte) (w : Width) (v : Int) (h : textInteger s = some v)
    (hmin : (sTy w).min ≤ v) (hmax : v ≤ (sTy w).max) : ∃ out, signedInteger s w = some out := by
  obtain ⟨c, body, d, m, hl, hs⟩ := (textInteger_iff s v).1 h
  rw [sTy_min] at hmin
  rw [sTy_max] at hmax
  unfold signedInteger
  have hS : (2 : Nat) ^ (w.bits - 1) ≤ 2 ^ 63 := by cases w <;> decide
  generalize hS' : (2 : Nat) ^ (w.bits - 1) = S at *
  have hSi : (2 : Int) ^ (w.bits - 1) = (S : Int) := by rw [← hS']; simp
  have hS1 : 0 < S := by rw [← hS']; exact Nat.pow_pos (by decide)
  rw [hSi] at hmin hmax
  have hbig : (2 : Nat) ^ 63 < 2 ^ 64 := by decide
  have : ∃ neg, parseInteger s true = some (neg, m) ∧ (neg = true → v = -(m : Int)) ∧ (neg = false → v = m) ∧ m < 2 ^ 64 := by
    rcases hs with ⟨rfl, (⟨rfl, rfl⟩ | ⟨rfl, rfl⟩)⟩ | ⟨rfl, rfl⟩
    · have hlt : m < 2 ^ 64 := by omega
      exact ⟨true, (parseInteger_signed_iff _ _ _).2 ⟨_, body, d, hl, hlt, .inl ⟨rfl, .inl ⟨rfl, rfl⟩⟩⟩, fun _ => rfl, (fun h => by cases h), hlt⟩
    · have hlt : m < 2 ^ 64 := by omega
      exact ⟨false, (parseInteger_signed_iff _ _ _).2 ⟨_, body, d, hl, hlt, .inl ⟨rfl, .inr ⟨rfl, rfl⟩⟩⟩, (fun h => by cases h), fun _ => rfl, hlt⟩
    · have hlt : m < 2 ^ 64 := by omega
      exact ⟨false, (parseInteger_signed_iff _ _ _).2 ⟨c, s, d, hl, hlt, .inr ⟨rfl, rfl⟩⟩, (fun h => by cases h), fun _ => rfl, hlt⟩
  obtain ⟨neg, hp, h1, h2, _⟩ := this
  rw [hp]
  simp only
  rw [if_neg]
  · split <;> exact ⟨_, rfl⟩
  · simp only [Bool.or_eq_true, Bool.and_eq_true, Bool.not_eq_true', decide_eq_true_iff, not_or, not_and, Nat.not_lt]
    refine ⟨fun hn => ?_, fun hn => ?_⟩
    · have := h2 hn; omega
    · have := h1 hn; omega

theorem parseInteger_unsigned_iff (s : List Byte) (neg : Bool) (m : Nat) :
    parseInteger s false = some (neg, m) ↔ neg = false ∧ ∃ d, integerLiteral s = some (d, m) ∧ m < 2 ^ 64 := by
  unfold parseInteger
  cases s with
  | nil =>
    constructor
    · intro h; cases h
    · rintro ⟨_, d, h, _⟩; cases h
  | cons c rest =>
    simp only [Bool.not_false, if_true]
    by_cases hc : c = 0x2d ∨ c = 0x2b
    · rw [if_pos hc]
      constructor
      · intro h; cases h
      · rintro ⟨_, d, h, _⟩
        have := (integerLiteral_chars h).2 c (by simp)
        rcases hc with hc | hc
        · exact absurd hc this.1
        · exact absurd hc this.2.1
    · rw [if_neg hc, ← parseMagnitude_iff]
      cases parseMagnitude (c :: rest) with
      | none => simp
      | some m' => simp [eq_comm]

/-- The suffix of an unsigned literal. -/
def uSuffix (w : Width) : List Byte := if w = .bits64 then b!"ULL" else b!"U"

theorem uSuffix_mem (w : Width) : uSuffix w ∈ [[], b!"U", b!"LL", b!"ULL"] := by cases w <;> decide
theorem uSuffix_cand (w : Width) (d : Bool) : ∃ tys, candidates (uSuffix w) d = some (uTy w :: tys) := by
  cases w <;> cases d <;> exact ⟨_, rfl⟩

theorem unsigned_iff (s out : List Byte) (w : Width) : unsignedInteger s w = some out →
    ∃ d m, integerLiteral s = some (d, m) ∧ (m : Int) ≤ (uTy w).max ∧ expression out = some (uTy w, (m : Int)) := by
  intro h
  unfold unsignedInteger at h
  cases hp : parseInteger s false with
  | none => rw [hp] at h; cases h
  | some p =>
    obtain ⟨neg, m⟩ := p
    rw [hp] at h
    simp only at h
    obtain ⟨_, d, hl, hlt⟩ := (parseInteger_unsigned_iff s neg m).1 hp
    split at h
    · cases h
    · rename_i hr
      injection h with h
      obtain ⟨tys, hc⟩ := uSuffix_cand w d
      have hm : (m : Int) ≤ (uTy w).max := by
        cases w with
        | bits32 => have : ¬ (m > 2 ^ 32 - 1) := fun hh => hr ⟨rfl, hh⟩
                    show (m : Int) ≤ 2 ^ 32 - 1; omega
        | bits64 => show (m : Int) ≤ 2 ^ 64 - 1; omega
      refine ⟨d, m, hl, hm, ?_⟩
      rw [← h]
      exact expression_plain hl (uSuffix_mem w) hc hm

theorem unsigned_accepts (s : List Byte) (w : Width) (d : Bool) (m : Nat) (h : integerLiteral s = some (d, m))
    (hm : (m : Int) ≤ (uTy w).max) : ∃ out, unsignedInteger s w = some out := by
  have hlt : m < 2 ^ 64 := by
    cases w with
    | bits32 => have : (m : Int) ≤ 2 ^ 32 - 1 := hm; omega
    | bits64 => have : (m : Int) ≤ 2 ^ 64 - 1 := hm; omega
  unfold unsignedInteger
  rw [(parseInteger_unsigned_iff s false m).2 ⟨rfl, d, h, hlt⟩]
  simp only
  rw [if_neg]
  · exact ⟨_, rfl⟩
  · rintro ⟨rfl, h32⟩
    have : (m : Int) ≤ 2 ^ 32 - 1 := hm
    omega

end HppProto.Lex
