import Verif.Model.Lexical
import Verif.Spec.Cpp
/-! # Proofs: emitted literals, comments and names -/
namespace HppProto.Lex
open HppProto HppProto.Spec.Cpp

/-- A fact about all 256 bytes, from the complete table. -/
theorem byteAll (p : Byte → Bool) (h : (List.range 256).all (fun n => p (BitVec.ofNat 8 n)) = true) :
    ∀ b, p b = true := by
  intro b
  rw [List.all_eq_true] at h
  have := h b.toNat (by rw [List.mem_range]; exact b.isLt)
  simpa using this

/-! ## Trigraphs -/

theorem triSteps_eq : ∀ (n : Nat) (l : List Byte), l.length ≤ n → trigraphSteps n l = trigraphs l := by
  have key : ∀ (m n : Nat) (l : List Byte), l.length ≤ m → l.length ≤ n → trigraphSteps m l = trigraphSteps n l := by
    intro m
    induction m with
    | zero =>
      intro n l hm hn
      have : l = [] := List.length_eq_zero_iff.1 (by omega)
      subst this
      cases n <;> rfl
    | succ m ih =>
      intro n l hm hn
      cases l with
      | nil => cases n <;> rfl
      | cons b t =>
        cases n with
        | zero => simp at hn
        | succ n =>
          simp only [List.length_cons] at hm hn
          unfold trigraphSteps
          split
          · rename_i y after h
            have : after.length ≤ t.length := by
              unfold headTrigraph at h
              split at h
              · rename_i a b x after' heq
                split at h
                · cases hx : trigraph x with
                  | none => simp [hx] at h
                  | some y' => simp [hx] at h; injection heq with h1 h2; subst h2; rw [← h.2]; simp
                             ; omega
                · cases h
              · cases h
            rw [ih n after (by omega) (by omega)]
          · rw [ih n t (by omega) (by omega)]
  intro n l h
  exact key n l.length l h (by omega)

theorem tri_cons {b : Byte} {t : List Byte} (h : headTrigraph (b :: t) = none) :
    trigraphs (b :: t) = b :: trigraphs t := by
  unfold trigraphs
  rw [List.length_cons]
  conv => lhs; unfold trigraphSteps
  rw [h]

theorem tri_ne {b : Byte} {t : List Byte} (h : b ≠ 0x3f) : trigraphs (b :: t) = b :: trigraphs t := by
  apply tri_cons
  unfold headTrigraph
  split
  · rename_i a b' x after heq
    injection heq with h1 h2
    subst h1
    rw [if_neg (fun h' => h h'.1)]
  · rfl

theorem tri_q {t : List Byte} (h : t.head? ≠ some 0x3f) : trigraphs (0x3f :: t) = 0x3f :: trigraphs t := by
  apply tri_cons
  unfold headTrigraph
  split
  · rename_i a b' x after heq
    injection heq with h1 h2
    subst h2
    simp at h
    simp [h]
  · rfl

theorem tri_append : ∀ (p t : List Byte), (∀ b ∈ p, b ≠ 0x3f) → trigraphs (p ++ t) = p ++ trigraphs t
  | [], _, _ => rfl
  | b :: p, t, h => by
    rw [List.cons_append, tri_ne (h b (by simp)), tri_append p t (fun b hb => h b (by simp [hb])), List.cons_append]

/-! ## Line splicing -/

theorem restOfBlankLine_length : ∀ (l r : List Byte), restOfBlankLine l = some r → r.length < l.length := by
  intro l
  induction l with
  | nil => intro r h; cases h
  | cons b t ih =>
    intro r h
    unfold restOfBlankLine at h
    split at h
    · injection h with h; subst h; simp
    · split at h
      · have := ih r h; simp; omega
      · cases h

theorem spliceSteps_eq : ∀ (n : Nat) (l : List Byte), l.length ≤ n → spliceSteps n l = splice l := by
  have key : ∀ (m n : Nat) (l : List Byte), l.length ≤ m → l.length ≤ n → spliceSteps m l = spliceSteps n l := by
    intro m
    induction m with
    | zero =>
      intro n l hm hn
      have : l = [] := List.length_eq_zero_iff.1 (by omega)
      subst this
      cases n <;> rfl
    | succ m ih =>
      intro n l hm hn
      cases l with
      | nil => cases n <;> rfl
      | cons b t =>
        cases n with
        | zero => simp at hn
        | succ n =>
          simp only [List.length_cons] at hm hn
          unfold spliceSteps
          split
          · split
            · rename_i after h
              have := restOfBlankLine_length t after h
              rw [ih n after (by omega) (by omega)]
            · rw [ih n t (by omega) (by omega)]
          · rw [ih n t (by omega) (by omega)]
  intro n l h
  exact key n l.length l h (by omega)

theorem splice_ne {b : Byte} {t : List Byte} (h : b ≠ 0x5c) : splice (b :: t) = b :: splice t := by
  unfold splice
  rw [List.length_cons]
  conv => lhs; unfold spliceSteps
  rw [if_neg h]

theorem splice_bs {t : List Byte} (h : restOfBlankLine t = none) : splice (0x5c :: t) = 0x5c :: splice t := by
  unfold splice
  rw [List.length_cons]
  conv => lhs; unfold spliceSteps
  rw [if_pos rfl, h]

theorem splice_append : ∀ (p t : List Byte), (∀ b ∈ p, b ≠ 0x5c) → splice (p ++ t) = p ++ splice t
  | [], _, _ => rfl
  | b :: p, t, h => by
    rw [List.cons_append, splice_ne (h b (by simp)), splice_append p t (fun b hb => h b (by simp [hb])), List.cons_append]

theorem noBlank_cons {b : Byte} {t : List Byte} (h : b ≠ 10) (h' : isBlank b = false) :
    restOfBlankLine (b :: t) = none := by
  unfold restOfBlankLine
  rw [if_neg h, h']; simp

theorem noBlank_space {t : List Byte} (h : restOfBlankLine t = none) : restOfBlankLine (0x20 :: t) = none := by
  unfold restOfBlankLine
  rw [if_neg (by decide)]
  simp [isBlank, h]

/-! ## Chunks of a string literal -/

/-- The table fact about one chunk of a string literal. -/
def chunkOk (e : List Byte) : Bool :=
  match e with
  | [b] => b != 0x5c && b != 10 && b != 0x3f && (b == 0x20 || !isBlank b)
  | [a, b] => a == 0x5c && b != 10 && !isBlank b
  | [a, b, c, d] => a == 0x5c && isAsciiDigit b && isAsciiDigit c && isAsciiDigit d
  | _ => false

theorem escape_ok (b : Byte) : chunkOk (escapeEntry b) = true :=
  byteAll (fun b => chunkOk (escapeEntry b)) (by decide +kernel) b

theorem digit_facts {b : Byte} (h : isAsciiDigit b = true) :
    b ≠ 0x3f ∧ b ≠ 0x5c ∧ b ≠ 10 ∧ b ≠ 13 ∧ isBlank b = false := by
  have := byteAll (fun b => !isAsciiDigit b || (b != 0x3f && b != 0x5c && b != 10 && b != 13 && !isBlank b)) (by decide +kernel) b
  simp only [h, Bool.not_true, Bool.false_or, Bool.and_eq_true, bne_iff_ne, ne_eq, Bool.not_eq_true'] at this
  exact ⟨this.1.1.1.1, this.1.1.1.2, this.1.1.2, this.1.2, this.2⟩

theorem chunk_cases {e : List Byte} (h : chunkOk e = true) :
    (∃ b, e = [b] ∧ b ≠ 0x5c ∧ b ≠ 10 ∧ b ≠ 0x3f ∧ (b = 0x20 ∨ isBlank b = false)) ∨
    (∃ b, e = [0x5c, b] ∧ b ≠ 10 ∧ isBlank b = false) ∨
    (∃ b c d, e = [0x5c, b, c, d] ∧ isAsciiDigit b = true ∧ isAsciiDigit c = true ∧ isAsciiDigit d = true) := by
  unfold chunkOk at h
  split at h
  · rename_i b
    simp only [Bool.and_eq_true, bne_iff_ne, ne_eq, Bool.or_eq_true, beq_iff_eq, Bool.not_eq_true'] at h
    exact .inl ⟨b, rfl, h.1.1.1, h.1.1.2, h.1.2, h.2⟩
  · rename_i a b
    simp only [Bool.and_eq_true, bne_iff_ne, ne_eq, beq_iff_eq, Bool.not_eq_true'] at h
    exact .inr (.inl ⟨b, by rw [h.1.1], h.1.2, h.2⟩)
  · rename_i a b c d
    simp only [Bool.and_eq_true, beq_iff_eq] at h
    exact .inr (.inr ⟨b, c, d, by rw [h.1.1.1], h.1.1.2, h.1.2, h.2⟩)
  · cases h

theorem chunk_tri {e : List Byte} (h : chunkOk e = true) (T : List Byte) (hT : T.head? ≠ some 0x3f) :
    trigraphs (e ++ T) = e ++ trigraphs T ∧ (e ++ T).head? ≠ some 0x3f := by
  rcases chunk_cases h with ⟨b, rfl, h1, h2, h3, h4⟩ | ⟨b, rfl, h1, h2⟩ | ⟨b, c, d, rfl, h1, h2, h3⟩
  · exact ⟨by rw [List.singleton_append, tri_ne h3]; rfl, by simpa using h3⟩
  · refine ⟨?_, by simp⟩
    rw [List.cons_append, tri_ne (by decide), List.singleton_append]
    by_cases hb : b = 0x3f
    · subst hb; rw [tri_q hT]; rfl
    · rw [tri_ne hb]; rfl
  · refine ⟨?_, by simp⟩
    have := digit_facts h1
    have := digit_facts h2
    have := digit_facts h3
    apply tri_append
    intro x hx
    simp only [List.mem_cons, List.not_mem_nil, or_false] at hx
    rcases hx with rfl | rfl | rfl | rfl
    · decide
    · exact (digit_facts h1).1
    · exact (digit_facts h2).1
    · exact (digit_facts h3).1

theorem chunk_splice {e : List Byte} (h : chunkOk e = true) (T : List Byte) (hT : restOfBlankLine T = none) :
    splice (e ++ T) = e ++ splice T ∧ restOfBlankLine (e ++ T) = none := by
  rcases chunk_cases h with ⟨b, rfl, h1, h2, h3, h4⟩ | ⟨b, rfl, h1, h2⟩ | ⟨b, c, d, rfl, h1, h2, h3⟩
  · refine ⟨by rw [List.singleton_append, splice_ne h1]; rfl, ?_⟩
    rcases h4 with rfl | h4
    · exact noBlank_space hT
    · exact noBlank_cons h2 h4
  · refine ⟨?_, noBlank_cons (by decide) (by decide)⟩
    rw [List.cons_append, List.singleton_append, splice_bs (noBlank_cons h1 h2)]
    by_cases hb : b = 0x5c
    · subst hb; rw [splice_bs hT]; rfl
    · rw [splice_ne hb]; rfl
  · refine ⟨?_, noBlank_cons (by decide) (by decide)⟩
    have d1 := digit_facts h1
    rw [List.cons_append, splice_bs (show restOfBlankLine ([b, c, d] ++ T) = none from noBlank_cons d1.2.2.1 d1.2.2.2.2)]
    rw [splice_append [b, c, d] T]
    · rfl
    · intro x hx
      simp only [List.mem_cons, List.not_mem_nil, or_false] at hx
      rcases hx with rfl | rfl | rfl
      · exact (digit_facts h1).2.1
      · exact (digit_facts h2).2.1
      · exact (digit_facts h3).2.1

theorem chunks_tri : ∀ (bs T : List Byte), T.head? ≠ some 0x3f →
    trigraphs (bs.flatMap escapeEntry ++ T) = bs.flatMap escapeEntry ++ trigraphs T ∧
    (bs.flatMap escapeEntry ++ T).head? ≠ some 0x3f
  | [], T, hT => ⟨rfl, hT⟩
  | b :: bs, T, hT => by
    have ih := chunks_tri bs T hT
    have := chunk_tri (escape_ok b) _ ih.2
    rw [List.flatMap_cons, List.append_assoc, List.append_assoc, this.1, ih.1]
    exact ⟨rfl, this.2⟩

theorem chunks_splice : ∀ (bs T : List Byte), restOfBlankLine T = none →
    splice (bs.flatMap escapeEntry ++ T) = bs.flatMap escapeEntry ++ splice T ∧
    restOfBlankLine (bs.flatMap escapeEntry ++ T) = none
  | [], T, hT => ⟨rfl, hT⟩
  | b :: bs, T, hT => by
    have ih := chunks_splice bs T hT
    have := chunk_splice (escape_ok b) _ ih.2
    rw [List.flatMap_cons, List.append_assoc, List.append_assoc, this.1, ih.1]
    exact ⟨rfl, this.2⟩

theorem source_literal (bs rest : List Byte) :
    source (stringLiteral bs ++ rest) = stringLiteral bs ++ source rest := by
  unfold source stringLiteral
  have hq : ∀ t : List Byte, (0x22 :: t : List Byte).head? ≠ some 0x3f := by intro t; simp
  have hb : ∀ t : List Byte, restOfBlankLine (0x22 :: t) = none := fun t => noBlank_cons (by decide) (by decide)
  simp only [List.append_assoc, List.nil_append, List.cons_append]
  rw [tri_ne (by decide), (chunks_tri bs _ (hq rest)).1, tri_ne (by decide), splice_ne (by decide),
    (chunks_splice bs _ (hb _)).1, splice_ne (by decide)]

/-! ## Reading a literal back -/

/-- The table fact: the chunk for a byte is one of the three complete spellings of it. -/
def spells (e : List Byte) (v : Byte) : Bool :=
  match e with
  | [c] => c != 10 && c != 0x5c && c == v
  | [a, e] => a == 0x5c && octal e == none && simpleEscape e == some v
  | [a, x, y, z] =>
    a == 0x5c && match octal x, octal y, octal z with
      | some p, some q, some r => 64 * p + 8 * q + r == v.toNat
      | _, _, _ => false
  | _ => false

theorem escape_spells (b : Byte) : spells (escapeEntry b) b = true :=
  byteAll (fun b => spells (escapeEntry b) b) (by decide +kernel) b

theorem spells_reads {e : List Byte} {v : Byte} (h : spells e v = true) (T : List Byte) :
    stringChar (e ++ T) = some (v.toNat, T) := by
  unfold spells at h
  split at h
  · rename_i c
    simp only [Bool.and_eq_true, bne_iff_ne, ne_eq, beq_iff_eq] at h
    rw [List.singleton_append]
    unfold stringChar; dsimp only
    rw [if_neg h.1.1, if_pos h.1.2, h.2]
  · rename_i a e
    simp only [Bool.and_eq_true, beq_iff_eq] at h
    obtain ⟨⟨rfl, h1⟩, h2⟩ := h
    simp only [List.cons_append, List.nil_append]
    unfold stringChar; dsimp only
    rw [if_neg (by decide), if_neg (by simp)]
    simp only [h1, h2, Option.map_some]
  · rename_i a x y z
    rw [Bool.and_eq_true, beq_iff_eq] at h
    obtain ⟨rfl, h⟩ := h
    split at h
    · rename_i p q r hp hq hr
      simp only [List.cons_append, List.nil_append]
      unfold stringChar; dsimp only
      rw [if_neg (by decide), if_neg (by simp)]
      simp only [hp, hq, hr]
      rw [beq_iff_eq] at h
      rw [h]
    · cases h
  · cases h

theorem stringChar_escape (b : Byte) (T : List Byte) : stringChar (escapeEntry b ++ T) = some (b.toNat, T) :=
  spells_reads (escape_spells b) T

theorem escape_head_ne_quote (b : Byte) : ∃ c cs, escapeEntry b = c :: cs ∧ c ≠ 0x22 := by
  have := byteAll (fun b => (escapeEntry b).head?.isSome && (escapeEntry b).head? != some 0x22) (by decide +kernel) b
  cases h : escapeEntry b with
  | nil => simp [h] at this
  | cons c cs => simp [h] at this; exact ⟨c, cs, rfl, this⟩

theorem stringBody_quote (fuel : Nat) (rest : List Byte) : stringBody (fuel + 1) (0x22 :: rest) = some ([], rest) := rfl

theorem stringBody_char (fuel : Nat) (c : Byte) (cs : List Byte) (hc : c ≠ 0x22) (v : Nat) (rest : List Byte)
    (h : stringChar (c :: cs) = some (v, rest)) (hv : v < 256) :
    stringBody (fuel + 1) (c :: cs) = (stringBody fuel rest).map (fun p => (BitVec.ofNat 8 v :: p.1, p.2)) := by
  conv => lhs; unfold stringBody
  split
  · rename_i heq; injection heq with h1 h2; exact absurd h1 hc
  · rw [h]; simp only; rw [if_pos hv]

theorem stringBody_chunks : ∀ (bs rest : List Byte) (fuel : Nat), bs.length < fuel →
    stringBody fuel (bs.flatMap escapeEntry ++ 0x22 :: rest) = some (bs, rest)
  | [], rest, fuel, h => by
    obtain ⟨f, rfl⟩ : ∃ f, fuel = f + 1 := ⟨fuel - 1, by omega⟩
    rfl
  | b :: bs, rest, fuel, h => by
    obtain ⟨f, rfl⟩ : ∃ f, fuel = f + 1 := ⟨fuel - 1, by omega⟩
    obtain ⟨c, cs, he, hc⟩ := escape_head_ne_quote b
    have hchar := stringChar_escape b (bs.flatMap escapeEntry ++ 0x22 :: rest)
    rw [he, List.cons_append] at hchar
    rw [List.flatMap_cons, List.append_assoc, he, List.cons_append,
      stringBody_char f c _ hc _ _ hchar b.isLt,
      stringBody_chunks bs rest f (by simp at h; omega)]
    simp

theorem length_flatMap_escape (bs : List Byte) : bs.length ≤ (bs.flatMap escapeEntry).length := by
  induction bs with
  | nil => simp
  | cons b bs ih =>
    obtain ⟨c, cs, he, _⟩ := escape_head_ne_quote b
    rw [List.flatMap_cons, he, List.length_append, List.length_cons, List.length_cons]
    omega

theorem literal_reads (bs rest : List Byte) :
    Spec.Cpp.stringLiteral (stringLiteral bs ++ rest) = some (bs, rest) := by
  unfold stringLiteral Spec.Cpp.stringLiteral
  simp only [List.append_assoc, List.nil_append, List.cons_append]
  apply stringBody_chunks
  have := length_flatMap_escape bs
  rw [List.length_append, List.length_cons]
  omega

/-! ## Comments -/

/-- The table fact about one chunk of a comment. -/
def commentOk (e : List Byte) : Bool :=
  e.all (fun b => b != 10 && b != 13 && b != 0x3f && 0x20 ≤ b.toNat && b.toNat < 0x7f) &&
  match e with
  | [b] => b != 0x5c
  | a :: b :: rest => a == 0x5c && (isAsciiDigit b || isAsciiAlpha b) && rest.all isAsciiDigit
  | _ => false

theorem comment_ok (b : Byte) : commentOk (commentByte b) = true :=
  byteAll (fun b => commentOk (commentByte b)) (by decide +kernel) b

theorem alnum_facts {b : Byte} (h : (isAsciiDigit b || isAsciiAlpha b) = true) :
    b ≠ 0x5c ∧ b ≠ 10 ∧ isBlank b = false := by
  have := byteAll (fun b => !(isAsciiDigit b || isAsciiAlpha b) || (b != 0x5c && b != 10 && !isBlank b)) (by decide +kernel) b
  simp only [h, Bool.not_true, Bool.false_or, Bool.and_eq_true, bne_iff_ne, ne_eq, Bool.not_eq_true'] at this
  exact ⟨this.1.1, this.1.2, this.2⟩

theorem comment_bytes (text : List Byte) : ∀ b ∈ commentText text, b ≠ 10 ∧ b ≠ 13 ∧ b ≠ 0x3f ∧ 0x20 ≤ b.toNat ∧ b.toNat < 0x7f := by
  intro b hb
  unfold commentText at hb
  rw [List.mem_flatMap] at hb
  obtain ⟨c, _, hb⟩ := hb
  have h := comment_ok c
  unfold commentOk at h
  rw [Bool.and_eq_true, List.all_eq_true] at h
  have := h.1 b hb
  simp at this
  exact ⟨this.1.1.1.1, this.1.1.1.2, this.1.1.2, this.1.2, this.2⟩

theorem comment_chunk_splice (b : Byte) (T : List Byte) : splice (commentByte b ++ T) = commentByte b ++ splice T := by
  have h := comment_ok b
  unfold commentOk at h
  rw [Bool.and_eq_true] at h
  have h := h.2
  split at h
  · rename_i c heq
    rw [heq, List.singleton_append, splice_ne (by simpa using h)]; rfl
  · rename_i a c rest heq
    simp only [Bool.and_eq_true, beq_iff_eq] at h
    have f := alnum_facts h.1.2
    rw [heq, h.1.1, List.cons_append, List.cons_append, splice_bs (noBlank_cons f.2.1 f.2.2), splice_ne f.1,
      splice_append]
    · rfl
    · intro x hx
      exact (digit_facts (List.all_eq_true.1 h.2 x hx)).2.1
  · cases h

theorem comment_splice : ∀ (text T : List Byte), splice (commentText text ++ T) = commentText text ++ splice T
  | [], _ => rfl
  | b :: text, T => by
    have ih := comment_splice text T
    unfold commentText at ih ⊢
    rw [List.flatMap_cons, List.append_assoc, List.append_assoc, comment_chunk_splice, ih]

theorem dropWhile_line (p T : List Byte) (h : ∀ b ∈ p, b ≠ 10) : (p ++ 10 :: T).dropWhile (fun b => b != 10) = 10 :: T := by
  induction p with
  | nil => simp
  | cons b p ih =>
    rw [List.cons_append, List.dropWhile_cons, if_pos (by simpa using h b (by simp))]
    exact ih (fun b hb => h b (by simp [hb]))

end HppProto.Lex
