import Verif.Proofs.LexFiles
/-!
# Properties C44–C47, C55–C58: what the code generator writes into C++ source
-/
namespace HppProto.Props
open HppProto HppProto.Lex HppProto.Spec.Cpp

/-! ## C44 string literals -/

/-- **C44.** For every byte string, and whatever text follows: after trigraph replacement and line
splicing the emitted literal is a string literal that denotes exactly those bytes and ends exactly
where the following text begins. -/
theorem C44_string_literals (bytes rest : List Byte) :
    Spec.Cpp.stringLiteral (source (Lex.stringLiteral bytes ++ rest)) = some (bytes, source rest) := by
  rw [source_literal, literal_reads]

/-- The emitted literal has only printable ASCII characters. -/
theorem C44_printable (bytes : List Byte) : ∀ b ∈ Lex.stringLiteral bytes, 0x20 ≤ b.toNat ∧ b.toNat < 0x7f := by
  intro b hb
  unfold Lex.stringLiteral at hb
  simp only [List.mem_append, List.mem_singleton, List.mem_flatMap] at hb
  rcases hb with (rfl | ⟨c, _, hc⟩) | rfl
  · decide
  · have := byteAll (fun c => (escapeEntry c).all (fun b => decide (0x20 ≤ b.toNat) && decide (b.toNat < 0x7f))) (by decide +kernel) c
    have := List.all_eq_true.1 this b hc
    simpa using this
  · decide

-- what the reader does without escapes: trigraphs and splices do change text, `\1` followed by a digit runs on
example : source (b!"\"a??/" ++ [10] ++ b!"b\"") = b!"\"ab\"" := by decide +kernel
example : Spec.Cpp.stringLiteral b!"\"\\12\"" = some ([10], []) := by decide +kernel
example : Spec.Cpp.stringLiteral b!"\"\\0123\"" = some ([10, 0x33], []) := by decide +kernel
-- a hard case for the emitter: `\001` before a digit, `??/` before a newline, a quote
example : Lex.stringLiteral ([1, 0x31] ++ b!"??/" ++ [10, 0x22]) = b!"\"\\0011\\?\\?/\\n\\\"\"" := by decide +kernel

/-! ## C45 comments -/

/-- **C45.** For every text: it contains no line end, so the comment ends exactly at the line end
that the generator writes after it — also when it ends in a backslash or in `??/`. `lead` is the
fixed text between `//` and the copied text. -/
theorem C45_comments (lead text rest : List Byte) (hlead : ∀ b ∈ lead, b ≠ 10 ∧ b ≠ 0x3f ∧ b ≠ 0x5c) :
    afterLineComment (source (b!"//" ++ lead ++ commentText text ++ [10] ++ rest)) = some (10 :: source rest) := by
  unfold source
  have e : b!"//" ++ lead ++ commentText text ++ [10] ++ rest = (b!"//" ++ lead) ++ (commentText text ++ 10 :: rest) := by simp
  have hslash : ∀ b ∈ b!"//", b ≠ 10 ∧ b ≠ (0x3f : Byte) ∧ b ≠ (0x5c : Byte) := by decide
  have hl : ∀ b ∈ b!"//" ++ lead, b ≠ 10 ∧ b ≠ (0x3f : Byte) ∧ b ≠ (0x5c : Byte) := by
    intro b hb
    rw [List.mem_append] at hb
    rcases hb with hb | hb
    · exact hslash b hb
    · exact hlead b hb
  rw [e, tri_append _ _ (fun b hb => (hl b hb).2.1), tri_append _ _ (fun b hb => (comment_bytes text b hb).2.2.1), tri_ne (by decide),
    splice_append _ _ (fun b hb => (hl b hb).2.2), comment_splice, splice_ne (by decide)]
  show some (List.dropWhile _ (lead ++ (commentText text ++ 10 :: splice (trigraphs rest)))) = _
  rw [← List.append_assoc, dropWhile_line]
  intro b hb
  rw [List.mem_append] at hb
  rcases hb with hb | hb
  · exact (hlead b hb).1
  · exact (comment_bytes text b hb).1

/-- Only printable ASCII characters and no question mark are copied. -/
theorem C45_printable (text : List Byte) : ∀ b ∈ commentText text, 0x20 ≤ b.toNat ∧ b.toNat < 0x7f ∧ b ≠ 0x3f := by
  intro b hb
  have := comment_bytes text b hb
  exact ⟨this.2.2.2.1, this.2.2.2.2, this.2.2.1⟩

-- copied without the emitter the following line would become part of the comment
example : afterLineComment (source (b!"// a.proto??/" ++ [10] ++ b!"int x;")) = some [] := by decide +kernel
example : afterLineComment (source (b!"// " ++ commentText b!"a.proto??/" ++ [10] ++ b!"int x;")) = some (10 :: b!"int x;") := by decide +kernel
example : ∀ b ∈ b!"           ", b ≠ 10 ∧ b ≠ (0x3f : Byte) ∧ b ≠ (0x5c : Byte) := by decide

/-! ## C46 identifiers -/

/-- **C46.** A name is accepted exactly when it is a C++ name that is not reserved for the
implementation; the emitted identifier is a C++ name, not reserved and no keyword. -/
theorem C46_identifiers (name : List Byte) :
    ((∃ id, fromProto name = some id) ↔ IsName name ∧ ¬ IsReservedName name) ∧
    ∀ id, fromProto name = some id →
      IsName id ∧ id ∉ reservedWords ∧ ¬ IsReservedName id ∧ (id = name ∨ id = name ++ [0x5f]) := by
  refine ⟨fromProto_accepts name, ?_⟩
  intro id h
  have := fromProto_valid h
  refine ⟨this.1, this.2.1, this.2.2, ?_⟩
  rw [fromProto_eq h]
  rcases safe_cases name with ⟨_, h⟩ | ⟨_, h⟩
  · exact .inr h
  · exact .inl h

/-- Two different names get the same identifier only when one is the other with the escape `_`. -/
theorem C46_distinct (a b id : List Byte) (ha : fromProto a = some id) (hb : fromProto b = some id) (h : a ≠ b) :
    (b = a ++ [0x5f] ∧ id = b) ∨ (a = b ++ [0x5f] ∧ id = a) := by
  have ea := fromProto_eq ha
  have eb := fromProto_eq hb
  rcases fromProto_inj ha hb with h' | ⟨hk, h'⟩ | ⟨hk, h'⟩
  · exact absurd h' h
  · left
    refine ⟨h', ?_⟩
    have hne : b ∉ cppKeywords := by rw [h']; exact (keywords_escaped a hk).2.2.2
    rcases safe_cases b with ⟨hk', _⟩ | ⟨_, he⟩
    · exact absurd hk' hne
    · rw [eb, he]
  · right
    refine ⟨h', ?_⟩
    have hne : a ∉ cppKeywords := by rw [h']; exact (keywords_escaped b hk).2.2.2
    rcases safe_cases a with ⟨hk', _⟩ | ⟨_, he⟩
    · exact absurd hk' hne
    · rw [ea, he]

-- a keyword, a plain name, a refused name; and the one way to collide
example : fromProto b!"class" = some b!"class_" ∧ fromProto b!"foo1" = some b!"foo1" ∧ fromProto b!"_Foo" = none ∧
    fromProto b!"class_" = some b!"class_" := by decide +kernel

/-! ## C47 integer literals -/

/-- **C47 (signed).** A text is accepted exactly when it denotes an integer in the range of the
field, and then the emitted C++ expression has the type `int` (32 bit) or `long long` (64 bit) and
exactly that value. -/
theorem C47_signed (s : List Byte) (w : Width) :
    ((∃ out, signedInteger s w = some out) ↔
      ∃ v, textInteger s = some v ∧ -2 ^ (w.bits - 1) ≤ v ∧ v ≤ 2 ^ (w.bits - 1) - 1) ∧
    ∀ out, signedInteger s w = some out →
      ∃ v, textInteger s = some v ∧ expression out = some (if w = .bits32 then .int else .longLong, v) := by
  refine ⟨⟨?_, ?_⟩, ?_⟩
  · rintro ⟨out, h⟩
    obtain ⟨v, h1, h2, h3, _⟩ := signed_iff s out w h
    exact ⟨v, h1, by rw [← sTy_min]; exact h2, by rw [← sTy_max]; exact h3⟩
  · rintro ⟨v, h1, h2, h3⟩
    exact signed_accepts s w v h1 (by rw [sTy_min]; exact h2) (by rw [sTy_max]; exact h3)
  · intro out h
    obtain ⟨v, h1, _, _, h4⟩ := signed_iff s out w h
    refine ⟨v, h1, ?_⟩
    rw [h4]
    cases w <;> rfl

/-- **C47 (unsigned).** The same for `unsigned int` and `unsigned long long`; a sign is refused. -/
theorem C47_unsigned (s : List Byte) (w : Width) :
    ((∃ out, unsignedInteger s w = some out) ↔ ∃ d v, integerLiteral s = some (d, v) ∧ v < 2 ^ w.bits) ∧
    ∀ out, unsignedInteger s w = some out →
      ∃ d v, integerLiteral s = some (d, v) ∧
        expression out = some (if w = .bits32 then .unsignedInt else .unsignedLongLong, (v : Int)) := by
  have hr : ∀ m : Nat, (m : Int) ≤ (uTy w).max ↔ m < 2 ^ w.bits := by
    intro m
    cases w with
    | bits32 => show (m : Int) ≤ 2 ^ 32 - 1 ↔ m < 2 ^ 32; omega
    | bits64 => show (m : Int) ≤ 2 ^ 64 - 1 ↔ m < 2 ^ 64; omega
  refine ⟨⟨?_, ?_⟩, ?_⟩
  · rintro ⟨out, h⟩
    obtain ⟨d, m, h1, h2, _⟩ := unsigned_iff s out w h
    exact ⟨d, m, h1, (hr m).1 h2⟩
  · rintro ⟨d, m, h1, h2⟩
    exact unsigned_accepts s w d m h1 ((hr m).2 h2)
  · intro out h
    obtain ⟨d, m, h1, _, h4⟩ := unsigned_iff s out w h
    refine ⟨d, m, h1, ?_⟩
    rw [h4]
    cases w <;> rfl

-- the minimum needs its own spelling: the plain text is not an `int`, `2^63` is no literal at all
example : signedInteger b!"-2147483648" .bits32 = some b!"-2147483647-1" ∧
    expression b!"-2147483648" = some (.long, -2147483648) ∧ expression b!"-9223372036854775808LL" = none ∧
    expression b!"-9223372036854775807LL-1" = some (.longLong, -2 ^ 63) := by decide +kernel
example : signedInteger b!"2147483648" .bits32 = none ∧ unsignedInteger b!"4294967295" .bits32 = some b!"4294967295U" ∧
    textInteger b!"-0x10" = some (-16) ∧ textInteger b!"010" = some 8 ∧ textInteger b!"08" = none := by decide +kernel

/-! ## C55 qualified names -/

/-- **C55.** A dotted name is accepted exactly when it is empty or each of its segments is an
acceptable identifier; the result is the emitted segments joined by `::`. -/
theorem C55_qualified (name q : List Byte) :
    fromDotted name = some q ↔
      (name = [] ∧ q = []) ∨
      (name ≠ [] ∧ ∃ segs ids, segs ≠ [] ∧ name = dotted segs ∧ segs.map fromProto = ids.map some ∧ q = joined ids) :=
  fromDotted_iff name q

/-- Emitted qualified names are equal only when all their segments are. -/
theorem C55_distinct (segs segs' ids ids' : List (List Byte)) (h : segs.map fromProto = ids.map some)
    (h' : segs'.map fromProto = ids'.map some) (he : joined ids = joined ids') : ids = ids' := by
  have good : ∀ (l r : List (List Byte)), l.map fromProto = r.map some → ∀ s ∈ r, s ≠ [] ∧ ∀ c ∈ s, c ≠ 0x3a := by
    intro l r hl s hs
    have : some s ∈ l.map fromProto := by rw [hl]; exact List.mem_map.2 ⟨s, hs, rfl⟩
    obtain ⟨x, _, hx⟩ := List.mem_map.1 this
    have := fromProto_valid hx
    exact goodName_ne this
  exact joined_inj ids ids' (good _ _ h) (good _ _ h') he

example : fromDotted b!"foo.class.Bar" = some b!"foo::class_::Bar" ∧ fromDotted b!"foo..Bar" = none := by decide +kernel
example : [b!"foo", b!"class"].map fromProto = [b!"foo", b!"class_"].map some ∧
    joined [b!"foo", b!"class_"] = b!"foo::class_" := by decide +kernel

/-! ## C56 include paths -/

/-- **C56.** An include path is emitted exactly when the file name has an extension and the whole
path has no quote and no control character; it is the path with the last extension replaced,
backslashes turned into slashes, between quotes. -/
theorem C56_include (file dir suffix out : List Byte) :
    includePath file dir suffix = some out ↔
      ∃ stem ext, file = stem ++ 0x2e :: ext ∧ (∀ b ∈ ext, b ≠ 0x2e) ∧
        let path := (if dir = [] then [] else dir ++ [0x2f]) ++ stem ++ suffix
        path ≠ [] ∧ (∀ b ∈ path, b ≠ 0x22 ∧ 0x20 ≤ b.toNat) ∧
        out = [0x22] ++ path.map (fun b => if b = 0x5c then 0x2f else b) ++ [0x22] := by
  unfold includePath
  cases h : beforeLastDot file with
  | none =>
    simp only
    constructor
    · intro h; cases h
    · rintro ⟨stem, ext, h1, h2, _⟩
      rw [(beforeLastDot_iff file stem).2 ⟨ext, h1, h2⟩] at h
      cases h
  | some stem =>
    obtain ⟨ext, h1, h2⟩ := (beforeLastDot_iff file stem).1 h
    simp only
    constructor
    · intro ho
      refine ⟨stem, ext, h1, h2, ?_⟩
      split at ho
      · cases ho
      · rename_i p hp
        have := (normalized_iff _ _).1 hp
        injection ho with ho
        exact ⟨this.1, this.2.1, by rw [← ho, this.2.2]⟩
    · rintro ⟨stem', ext', h3, h4, h5, h6, h7⟩
      have := (beforeLastDot_iff file stem').2 ⟨ext', h3, h4⟩
      rw [h] at this
      injection this with this
      subst this
      rw [(normalized_iff _ _).2 ⟨h5, h6, rfl⟩]
      simp only [h7]

/-- Between the quotes there is no quote, no backslash and no control character. -/
theorem C56_header_name (file dir suffix out : List Byte) (h : includePath file dir suffix = some out) :
    ∃ p, out = [0x22] ++ p ++ [0x22] ∧ p ≠ [] ∧ ∀ b ∈ p, b ≠ 0x22 ∧ b ≠ 0x5c ∧ 0x20 ≤ b.toNat := by
  obtain ⟨stem, ext, _, _, h1, h2, h3⟩ := (C56_include file dir suffix out).1 h
  refine ⟨_, h3, by simpa using h1, ?_⟩
  intro b hb
  obtain ⟨c, hc, rfl⟩ := List.mem_map.1 hb
  have := h2 c hc
  exact ⟨(slash_map.2 this).1, slash_map.1, (slash_map.2 this).2⟩

example : includePath b!"a\\b.c.proto" b!"gen" b!".pb.hpp" = some b!"\"gen/a/b.c.pb.hpp\"" ∧
    includePath b!"a\".proto" [] b!".pb.hpp" = none := by decide +kernel

/-! ## C57 file descriptor names -/

/-- **C57.** The namespace that holds the descriptor of an accepted file is a qualified name below
`hpp_proto::file_descriptors`, one component for each component of the path, and each component is
a C++ name that is neither a keyword nor reserved. -/
theorem C57_namespace (file ns : List Byte) (override : Option (List Byte)) (h : fileNamespace file override = some ns) :
    ∃ ids, ns = joined ([b!"hpp_proto", b!"file_descriptors"] ++ ids) ∧ ids.length = (splitSlashes file).length ∧
      ∀ s ∈ ids, IsName s ∧ s ∉ reservedWords ∧ ¬ IsReservedName s := by
  obtain ⟨ids, h1, h2, h3⟩ := fileNamespace_good h
  exact ⟨ids, h2, (fileComponents_good _ _ _ h1).2, fun s hs => h3 s (List.mem_append.2 (.inr hs))⟩

/-- A path component: characters outside names become `_`, a leading digit gets a `_` in front, a
keyword a `_` behind. It is refused exactly when it is empty or the outcome is a reserved name. -/
theorem C57_component (c id : List Byte) :
    fileComponent c = some id ↔
      c ≠ [] ∧ ∃ s,
        (s = c.map (fun b => if b ∈ nameChars then b else 0x5f) ∧ (∀ d, c.head? = some d → d ∉ b!"0123456789") ∨
         s = 0x5f :: c.map (fun b => if b ∈ nameChars then b else 0x5f) ∧ ∃ d, c.head? = some d ∧ d ∈ b!"0123456789") ∧
        (s ∈ cppKeywords ∧ id = s ++ [0x5f] ∨ s ∉ cppKeywords ∧ id = s) ∧ ¬ IsReservedName id := by
  have hmap : (fun b : Byte => if isIdContinue b then b else (0x5f : Byte)) = (fun b => if b ∈ nameChars then b else 0x5f) := by
    funext b
    by_cases h : b ∈ nameChars
    · rw [if_pos h, if_pos ((idContinue_iff b).2 h)]
    · rw [if_neg h, if_neg (fun h' => h ((idContinue_iff b).1 h'))]
  have hdig : ∀ b : Byte, isAsciiDigit b = true ↔ b ∈ b!"0123456789" := by
    intro b
    have := byteAll (fun b => isAsciiDigit b == (b!"0123456789").contains b) (by decide +kernel) b
    rw [beq_iff_eq] at this
    rw [this, List.contains_iff_mem]
  have hsan : ∀ b : Byte, (if b ∈ nameChars then b else (0x5f : Byte)) ∈ nameChars := by
    intro b
    by_cases h : b ∈ nameChars
    · rw [if_pos h]; exact h
    · rw [if_neg h]; decide +kernel
  have hfirst : ∀ b : Byte, isAsciiDigit (if isIdContinue b then b else 0x5f) = isAsciiDigit b ∧
      (isAsciiDigit b = true ∨ isIdStart (if isIdContinue b then b else 0x5f) = true) := by
    intro b
    have := byteAll (fun b => isAsciiDigit (if isIdContinue b then b else 0x5f) == isAsciiDigit b &&
      (isAsciiDigit b || isIdStart (if isIdContinue b then b else 0x5f))) (by decide +kernel) b
    simpa using this
  -- from here on: the final check on a spelling that is an identifier
  have fin : ∀ s : List Byte, isIdentifier s = true →
      (fileOverride s = some id ↔
        (s ∈ cppKeywords ∧ id = s ++ [0x5f] ∨ s ∉ cppKeywords ∧ id = s) ∧ ¬ IsReservedName id) := by
    intro s hs
    have : fromNamespace s = some (safeIdentifier s) := by unfold fromNamespace; rw [hs]; rfl
    unfold fileOverride
    rw [this]
    simp only
    constructor
    · intro h
      split at h
      · cases h
      · rename_i hr
        injection h with h
        subst h
        refine ⟨?_, fun h' => hr ((isReserved_iff _).2 h')⟩
        exact safe_cases s
    · rintro ⟨h, hr⟩
      have he : id = safeIdentifier s := by
        rcases safe_cases s with ⟨h1, h2⟩ | ⟨h1, h2⟩ <;> rcases h with ⟨h3, h4⟩ | ⟨h3, h4⟩
        · rw [h4, h2]
        · exact absurd h1 h3
        · exact absurd h3 h1
        · rw [h4, h2]
      rw [if_neg (fun h' => hr (by rw [he]; exact (isReserved_iff _).1 h')), he]
  cases c with
  | nil => simp [fileComponent]
  | cons d cs =>
    unfold fileComponent
    rw [if_neg (by simp)]
    simp only [List.map_cons, List.head?_cons, Option.map_some, Option.getD_some, (hfirst d).1]
    have hall : ∀ l : List Byte, (l.map (fun b => if isIdContinue b then b else 0x5f)).all isIdContinue = true := by
      intro l
      rw [hmap, List.all_eq_true]
      intro b hb
      obtain ⟨x, _, rfl⟩ := List.mem_map.1 hb
      exact (idContinue_iff _).2 (hsan x)
    by_cases hd : isAsciiDigit d = true
    · rw [if_pos hd]
      have hid : isIdentifier (0x5f :: List.map (fun b => if isIdContinue b then b else 0x5f) (d :: cs)) = true := by
        unfold isIdentifier; dsimp only
        rw [hall]; rfl
      have := fin _ hid
      simp only [List.map_cons] at this
      refine Iff.trans this ?_
      have hd1 := congrFun hmap d
      rw [hmap, hd1]
      constructor
      · rintro ⟨h1, h2⟩
        exact ⟨by simp, _, .inr ⟨rfl, d, rfl, (hdig d).1 hd⟩, h1, h2⟩
      · rintro ⟨_, s, (⟨_, h⟩ | ⟨rfl, _⟩), h1, h2⟩
        · exact absurd ((hdig d).1 hd) (h d rfl)
        · exact ⟨h1, h2⟩
    · rw [if_neg hd]
      have hid : isIdentifier (List.map (fun b => if isIdContinue b then b else 0x5f) (d :: cs)) = true := by
        rw [List.map_cons]
        unfold isIdentifier; dsimp only
        rw [hall cs]
        rcases (hfirst d).2 with h | h
        · exact absurd h hd
        · rw [h]; rfl
      have := fin _ hid
      simp only [List.map_cons] at this
      refine Iff.trans this ?_
      have hd1 := congrFun hmap d
      rw [hmap, hd1]
      constructor
      · rintro ⟨h1, h2⟩
        refine ⟨by simp, _, .inl ⟨rfl, ?_⟩, h1, h2⟩
        intro d' h h'
        injection h with h
        subst h
        exact hd ((hdig _).2 h')
      · rintro ⟨_, s, (⟨rfl, _⟩ | ⟨_, d', h, h'⟩), h1, h2⟩
        · exact ⟨h1, h2⟩
        · injection h with h
          subst h
          exact absurd ((hdig _).2 h') hd

/-- The declarations of a set of files: two variables per file, as lists of name segments. -/
def declared (files : List (List (List Byte))) : List (List (List Byte)) :=
  files.flatMap (fun segs => [segs ++ [b!"file_descriptor_"], segs ++ [b!"file_descriptor_set"]])

/-- **C57 (collisions).** No collision is reported exactly when all declared variables have
different qualified names and none has the name of a namespace that encloses another. -/
theorem C57_collisions (files : List (List (List Byte)))
    (hgood : ∀ segs ∈ files, ∀ s ∈ segs, IsName s) (hne : ∀ segs ∈ files, segs ≠ []) :
    validateNames (files.map joined) = true ↔
      (declared files).Pairwise (fun a b => a ≠ b ∧ (∀ c, c ≠ [] → b ≠ a ++ c) ∧ (∀ c, c ≠ [] → a ≠ b ++ c)) := by
  have hname : ∀ s : List Byte, IsName s → s ≠ [] ∧ ∀ c ∈ s, c ≠ 0x3a := by
    intro s hs
    refine ⟨?_, fun b hb => (name_no_dot hs b hb).2⟩
    obtain ⟨c, cs, rfl, _⟩ := hs; simp
  have hvar : ∀ v ∈ [b!"file_descriptor_", b!"file_descriptor_set"], IsName v := by
    intro v hv
    rw [← isIdentifier_iff]
    revert v; decide +kernel
  have hdecl : ∀ segs ∈ declared files, segs ≠ [] ∧ ∀ s ∈ segs, s ≠ [] ∧ ∀ c ∈ s, c ≠ 0x3a := by
    intro segs hs
    unfold declared at hs
    rw [List.mem_flatMap] at hs
    obtain ⟨f, hf, hs⟩ := hs
    have : ∃ v ∈ [b!"file_descriptor_", b!"file_descriptor_set"], segs = f ++ [v] := by
      simp only [List.mem_cons, List.not_mem_nil, or_false] at hs
      rcases hs with rfl | rfl
      · exact ⟨_, by simp, rfl⟩
      · exact ⟨_, by simp, rfl⟩
    obtain ⟨v, hv, rfl⟩ := this
    refine ⟨by simp, ?_⟩
    intro s hs
    rw [List.mem_append, List.mem_singleton] at hs
    rcases hs with hs | rfl
    · exact hname s (hgood f hf s hs)
    · exact hname s (hvar s hv)
  have hl : (files.map joined).flatMap descriptorVariables = (declared files).map joined := by
    unfold declared
    rw [List.flatMap_map, List.map_flatMap]
    have : ∀ f ∈ files, descriptorVariables (joined f) =
        [f ++ [b!"file_descriptor_"], f ++ [b!"file_descriptor_set"]].map joined := by
      intro f hf
      unfold descriptorVariables
      rw [appendName_joined f _ (hne f hf) (fun s hs => (hname s (hgood f hf s hs)).1),
        appendName_joined f _ (hne f hf) (fun s hs => (hname s (hgood f hf s hs)).1)]
      rfl
    clear hdecl hgood hne
    induction files with
    | nil => rfl
    | cons f files ih =>
      rw [List.flatMap_cons, List.flatMap_cons, this f (by simp), ih (fun g hg => this g (by simp [hg]))]
  unfold validateNames
  rw [go_iff, hl, List.pairwise_map]
  apply List.Pairwise.iff_of_mem
  intro a b ha hb
  have ga := hdecl a ha
  have gb := hdecl b hb
  have eq_iff : joined a = joined b ↔ a = b := ⟨joined_inj a b ga.2 gb.2, fun h => by rw [h]⟩
  unfold collide
  rw [Bool.or_eq_false_iff, Bool.or_eq_false_iff, beq_eq_false_iff_ne, ne_eq, eq_iff]
  have pre : ∀ x y : List (List Byte), x ≠ [] → (∀ s ∈ x, s ≠ [] ∧ ∀ c ∈ s, c ≠ 0x3a) → (∀ s ∈ y, s ≠ [] ∧ ∀ c ∈ s, c ≠ 0x3a) →
      (entityIsPrefix (joined x) (joined y) = false ↔ ∀ c, c ≠ [] → y ≠ x ++ c) := by
    intro x y hx gx gy
    rw [← Bool.not_eq_true, entityIsPrefix_iff x y hx gx gy]
    exact ⟨fun h c hc he => h ⟨c, hc, he⟩, fun h ⟨c, hc, he⟩ => h c hc he⟩
  rw [pre a b ga.1 ga.2 gb.2, pre b a gb.1 gb.2 ga.2]
  exact ⟨fun h => ⟨h.1.1, h.1.2, h.2⟩, fun h => ⟨⟨h.1, h.2.1⟩, h.2.2⟩⟩

-- `a-b.proto` and `a_b.proto` get the same namespace, which is reported; `a.proto` and `b/a.proto` do not
example : fileNamespace b!"x/a-b.proto" none = some b!"hpp_proto::file_descriptors::x::a_b_proto" ∧
    fileNamespace b!"x/a_b.proto" none = some b!"hpp_proto::file_descriptors::x::a_b_proto" ∧
    fileNamespace b!"1/class.proto" none = some b!"hpp_proto::file_descriptors::_1::class_proto" ∧
    fileNamespace b!"a//b.proto" none = none := by decide +kernel
example : validateNames [b!"r::a_b_proto", b!"r::a_b_proto"] = false ∧ validateNames [b!"r::a", b!"r::a::file_descriptor_::b"] = false ∧
    validateNames [b!"r::a", b!"r::b::a"] = true := by decide +kernel
example : (∀ s ∈ [b!"r", b!"a_proto"], isIdentifier s = true) ∧
    [[b!"r", b!"a_proto"], [b!"r", b!"b", b!"a_proto"]].map joined = [b!"r::a_proto", b!"r::b::a_proto"] := by decide +kernel

/-! ## C58 default values of string and bytes fields -/

/-- **C58 (string).** The default value of a string field is emitted as a literal that denotes it. -/
theorem C58_string_default (declared rest : List Byte) :
    Spec.Cpp.stringLiteral (source (stringDefault declared ++ rest)) = some (declared, source rest) :=
  C44_string_literals declared rest

/-- **C58 (bytes), the part that holds.** The descriptor holds the default value of a bytes field
C-escaped. When no byte of it needs escaping the emitted literal denotes it. Missing: every other
byte string, see `C58_bytes_default_wrong`. -/
theorem C58_bytes_default_partial (declared rest : List Byte)
    (h : ∀ b ∈ declared, 0x20 ≤ b.toNat ∧ b.toNat < 0x7f ∧ b ≠ 0x22 ∧ b ≠ 0x27 ∧ b ≠ 0x5c) :
    Spec.Cpp.stringLiteral (source (bytesDefault (describedBytes declared) ++ rest)) = some (declared, source rest) := by
  have : describedBytes declared = declared := by
    unfold describedBytes
    induction declared with
    | nil => rfl
    | cons b t ih =>
      have hb := h b (by simp)
      have hc : cEscape b = [b] := by
        have ht := byteAll (fun b => !(decide (0x20 ≤ b.toNat) && decide (b.toNat < 0x7f) && b != 0x22 && b != 0x27 && b != 0x5c) || cEscape b == [b]) (by decide +kernel) b
        simp only [hb, decide_true, Bool.and_self, bne_iff_ne, ne_eq, not_false_eq_true, Bool.not_true, Bool.false_or, beq_iff_eq, Bool.or_eq_true, Bool.not_eq_true', Bool.and_eq_false_iff] at ht
        rcases ht with ht | ht
        · simp [hb] at ht
          rcases ht with (ht | ht) | ht
          · exact absurd ht hb.2.2.1
          · exact absurd ht hb.2.2.2.1
          · exact absurd ht hb.2.2.2.2
        · exact ht
      rw [List.flatMap_cons, hc, ih (fun b hb => h b (by simp [hb]))]
      rfl
  unfold bytesDefault
  rw [this, C44_string_literals]

/-- **C58 (bytes), refuted.** The escapes of the descriptor are not undone: for a byte that the
descriptor escapes, the emitted literal denotes the spelling of the escape, not the byte. -/
theorem C58_bytes_default_wrong :
    ∃ declared, Spec.Cpp.stringLiteral (source (bytesDefault (describedBytes declared))) ≠ some (declared, []) :=
  ⟨[1], by decide +kernel⟩

/-- What is emitted instead, for every declared value: the descriptor's text. -/
theorem C58_bytes_default_text (declared rest : List Byte) :
    Spec.Cpp.stringLiteral (source (bytesDefault (describedBytes declared) ++ rest)) = some (describedBytes declared, source rest) :=
  C44_string_literals _ rest

example : describedBytes [1] = b!"\\001" ∧ ([1] : List Byte) ≠ b!"\\001" := by decide +kernel
example : ∀ b ∈ b!"world?", 0x20 ≤ b.toNat ∧ b.toNat < 0x7f ∧ b ≠ (0x22 : Byte) ∧ b ≠ (0x27 : Byte) ∧ b ≠ (0x5c : Byte) := by decide

end HppProto.Props
