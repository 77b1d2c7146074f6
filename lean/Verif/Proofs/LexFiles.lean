import Verif.Proofs.LexNumbers
/-! # Proofs: include paths and file descriptor names -/
namespace HppProto.Lex
open HppProto HppProto.Spec.Cpp

/-! ## Include paths -/

theorem normalized_iff (path p : List Byte) : normalizedHeaderPath path = some p ↔
    path ≠ [] ∧ (∀ b ∈ path, b ≠ 0x22 ∧ 0x20 ≤ b.toNat) ∧ p = path.map (fun b => if b = 0x5c then 0x2f else b) := by
  unfold normalizedHeaderPath
  by_cases h : path = []
  · rw [if_pos h]; simp [h]
  · rw [if_neg h]
    by_cases h2 : path.any unsafeHeaderByte = true
    · rw [if_pos h2]
      constructor
      · intro h; cases h
      · rintro ⟨_, hs, _⟩
        rw [List.any_eq_true] at h2
        obtain ⟨b, hb, hu⟩ := h2
        have := hs b hb
        have ht := byteAll (fun b => !unsafeHeaderByte b || (b == 0x22 || decide (b.toNat < 0x20))) (by decide +kernel) b
        rw [hu] at ht
        simp at ht
        rcases ht with ht | ht
        · exact absurd ht this.1
        · omega
    · rw [if_neg h2]
      constructor
      · intro h'
        injection h' with h'
        refine ⟨h, ?_, h'.symm⟩
        intro b hb
        rw [List.any_eq_true] at h2
        have hu : unsafeHeaderByte b = false := by
          cases hq : unsafeHeaderByte b with
          | false => rfl
          | true => exact absurd ⟨b, hb, hq⟩ h2
        have ht := byteAll (fun b => unsafeHeaderByte b || (b != 0x22 && decide (0x20 ≤ b.toNat))) (by decide +kernel) b
        rw [hu] at ht
        simpa using ht
      · rintro ⟨_, _, rfl⟩; rfl

theorem slash_map {b : Byte} : (if b = 0x5c then (0x2f : Byte) else b) ≠ 0x5c ∧
    (b ≠ 0x22 ∧ 0x20 ≤ b.toNat → (if b = 0x5c then (0x2f : Byte) else b) ≠ 0x22 ∧ 0x20 ≤ (if b = 0x5c then (0x2f : Byte) else b).toNat) := by
  by_cases h : b = 0x5c
  · rw [if_pos h]; exact ⟨by decide, fun _ => by decide⟩
  · rw [if_neg h]; exact ⟨h, fun h => h⟩

theorem dropWhile_split : ∀ (l : List Byte), (0x2e : Byte) ∈ l →
    ∃ pre post, l = pre ++ 0x2e :: post ∧ (∀ b ∈ pre, b ≠ 0x2e) ∧ l.dropWhile (fun b => b != 0x2e) = 0x2e :: post
  | [], h => by cases h
  | c :: cs, h => by
    by_cases hc : c = 0x2e
    · subst hc; exact ⟨[], cs, rfl, by simp, by simp⟩
    · have : (0x2e : Byte) ∈ cs := by
        rw [List.mem_cons] at h
        rcases h with h | h
        · exact absurd h.symm hc
        · exact h
      obtain ⟨pre, post, h1, h2, h3⟩ := dropWhile_split cs this
      refine ⟨c :: pre, post, by rw [h1]; rfl, ?_, ?_⟩
      · intro b hb
        rw [List.mem_cons] at hb
        rcases hb with rfl | hb
        · exact hc
        · exact h2 b hb
      · rw [List.dropWhile_cons, if_pos (by simpa using hc), h3]

theorem beforeLastDot_iff (s stem : List Byte) : beforeLastDot s = some stem ↔
    ∃ ext, s = stem ++ 0x2e :: ext ∧ ∀ b ∈ ext, b ≠ 0x2e := by
  unfold beforeLastDot
  have key : ∀ pre post : List Byte, s.reverse = pre ++ 0x2e :: post → s = post.reverse ++ 0x2e :: pre.reverse := by
    intro pre post h
    have := congrArg List.reverse h
    simpa using this
  by_cases hc : s.contains 0x2e = true
  · rw [if_pos hc]
    have hm : (0x2e : Byte) ∈ s.reverse := List.mem_reverse.2 (List.contains_iff_mem.1 hc)
    obtain ⟨pre, post, h1, h2, h3⟩ := dropWhile_split s.reverse hm
    have hs := key pre post h1
    rw [h3]
    constructor
    · intro h
      injection h with h
      subst h
      exact ⟨pre.reverse, hs, fun b hb => h2 b (List.mem_reverse.1 hb)⟩
    · rintro ⟨ext, he, hext⟩
      have : s.reverse = ext.reverse ++ 0x2e :: stem.reverse := by rw [he]; simp
      rw [this] at h3
      rw [List.dropWhile_append_of_pos (by intro b hb; simpa using hext b (List.mem_reverse.1 hb))] at h3
      simp at h3
      simp [← h3]
  · rw [if_neg hc]
    constructor
    · intro h; cases h
    · rintro ⟨ext, rfl, _⟩
      exact absurd (List.contains_iff_mem.2 (by simp)) hc

/-! ## File descriptor names -/

theorem fromNamespace_valid {s x : List Byte} (h : fromNamespace s = some x) : IsName x ∧ x ∉ reservedWords := by
  unfold fromNamespace at h
  split at h
  · cases h
  · rename_i hi
    injection h with h
    subst h
    rw [Bool.not_eq_true', Bool.not_eq_false] at hi
    rcases safe_cases s with ⟨hk, he⟩ | ⟨hk, he⟩
    · have hf := keywords_escaped s hk
      rw [he]
      exact ⟨(isIdentifier_iff _).1 hf.2.2.1, hf.1⟩
    · rw [he]
      exact ⟨(isIdentifier_iff _).1 hi, fun hr => hk (keywords_cover s hr)⟩

/-- What every emitted namespace component satisfies. -/
def GoodName (x : List Byte) : Prop := IsName x ∧ x ∉ reservedWords ∧ ¬ IsReservedName x

theorem namespace_checked {o : Option (List Byte)} {id : List Byte}
    (h : (match o with | none => none | some id => if isReserved id then none else some id) = some id)
    (hv : ∀ x, o = some x → IsName x ∧ x ∉ reservedWords) : GoodName id := by
  cases o with
  | none => cases h
  | some x =>
    simp only at h
    split at h
    · cases h
    · rename_i hr
      injection h with h
      subst h
      have := hv x rfl
      exact ⟨this.1, this.2, fun h' => hr ((isReserved_iff _).2 h')⟩

theorem fileOverride_good {o id : List Byte} (h : fileOverride o = some id) : GoodName id :=
  namespace_checked h (fun _ hx => fromNamespace_valid hx)

theorem fileComponent_good {o id : List Byte} (h : fileComponent o = some id) : GoodName id := by
  unfold fileComponent at h
  split at h
  · cases h
  · exact namespace_checked h (fun _ hx => fromNamespace_valid hx)

theorem fileComponents_good (ov : Option (List Byte)) : ∀ (l : List (List Byte)) (ids : List (List Byte)),
    fileComponents ov l = some ids → (∀ x ∈ ids, GoodName x) ∧ ids.length = l.length
  | [], ids, h => by injection h with h; subst h; simp
  | [last], ids, h => by
    unfold fileComponents at h
    split at h
    · rename_i o
      cases hf : fileOverride o with
      | none => rw [hf] at h; cases h
      | some id => rw [hf] at h; injection h with h; subst h; simp; exact fileOverride_good hf
    · cases hf : fileComponent last with
      | none => rw [hf] at h; cases h
      | some id => rw [hf] at h; injection h with h; subst h; simp; exact fileComponent_good hf
  | a :: b :: rest, ids, h => by
    unfold fileComponents at h
    split at h
    · cases h
    · rename_i id hf
      cases hr : fileComponents ov (b :: rest) with
      | none => rw [hr] at h; cases h
      | some ids' =>
        rw [hr] at h; injection h with h; subst h
        have := fileComponents_good ov (b :: rest) ids' hr
        refine ⟨?_, by simp [this.2]⟩
        intro x hx
        rw [List.mem_cons] at hx
        rcases hx with rfl | hx
        · exact fileComponent_good hf
        · exact this.1 x hx

theorem joined_append_one (a : List (List Byte)) (x : List Byte) (h : a ≠ []) : joined (a ++ [x]) = joined a ++ [0x3a, 0x3a] ++ x := by
  induction a with
  | nil => exact absurd rfl h
  | cons s a ih =>
    cases a with
    | nil => simp [joined]
    | cons t a =>
      have := ih (by simp)
      simp only [List.cons_append] at this ⊢
      simp only [joined]
      rw [this]
      simp

theorem joined_ne {a : List (List Byte)} (h : a ≠ []) (hs : ∀ s ∈ a, s ≠ []) : joined a ≠ [] := by
  cases a with
  | nil => exact absurd rfl h
  | cons s a =>
    cases a with
    | nil => exact hs s (by simp)
    | cons t a => simp [joined]

theorem appendName_joined (a : List (List Byte)) (x : List Byte) (h : a ≠ []) (hs : ∀ s ∈ a, s ≠ []) :
    appendName (joined a) x = joined (a ++ [x]) := by
  unfold appendName
  rw [if_neg (joined_ne h hs), joined_append_one a x h]

theorem goodName_ne {x : List Byte} (h : GoodName x) : x ≠ [] ∧ ∀ c ∈ x, c ≠ 0x3a := by
  obtain ⟨c, cs, rfl, _⟩ := h.1
  exact ⟨by simp, fun b hb => (name_no_dot h.1 b hb).2⟩

theorem foldl_appendName : ∀ (ids a : List (List Byte)), a ≠ [] → (∀ s ∈ a, s ≠ []) → (∀ s ∈ ids, s ≠ []) →
    ids.foldl appendName (joined a) = joined (a ++ ids)
  | [], a, _, _, _ => by simp
  | x :: ids, a, h, ha, hi => by
    rw [List.foldl_cons, appendName_joined a x h ha, foldl_appendName ids (a ++ [x]) (by simp)]
    · simp
    · intro s hs
      rw [List.mem_append] at hs
      rcases hs with hs | hs
      · exact ha s hs
      · simp at hs; rw [hs]; exact hi x (by simp)
    · exact fun s hs => hi s (by simp [hs])

/-- The root namespace. -/
def rootSegs : List (List Byte) := [b!"hpp_proto", b!"file_descriptors"]

theorem root_eq : fromDotted b!"hpp_proto.file_descriptors" = some (joined rootSegs) := by decide +kernel

theorem rootSegs_good : ∀ s ∈ rootSegs, GoodName s := by
  intro s hs
  have : fromProto s = some s := by
    simp only [rootSegs, List.mem_cons, List.not_mem_nil, or_false] at hs
    rcases hs with rfl | rfl <;> decide +kernel
  exact fromProto_valid this

theorem fileNamespace_good {f ns : List Byte} {ov : Option (List Byte)} (h : fileNamespace f ov = some ns) :
    ∃ ids, fileComponents ov (splitSlashes f) = some ids ∧ ns = joined (rootSegs ++ ids) ∧ ∀ s ∈ rootSegs ++ ids, GoodName s := by
  unfold fileNamespace at h
  split at h
  · cases h
  · rw [root_eq] at h
    simp only at h
    cases hc : fileComponents ov (splitSlashes f) with
    | none => rw [hc] at h; cases h
    | some ids =>
      rw [hc] at h
      injection h with h
      have hg := fileComponents_good ov _ _ hc
      refine ⟨ids, rfl, ?_, ?_⟩
      · rw [← h, foldl_appendName ids rootSegs (by simp [rootSegs])]
        · exact fun s hs => (goodName_ne (rootSegs_good s hs)).1
        · exact fun s hs => (goodName_ne (hg.1 s hs)).1
      · intro s hs
        rw [List.mem_append] at hs
        rcases hs with hs | hs
        · exact rootSegs_good s hs
        · exact hg.1 s hs

/-! ## Collisions -/

theorem joined_cons {s : List Byte} {a : List (List Byte)} (h : a ≠ []) : joined (s :: a) = s ++ [0x3a, 0x3a] ++ joined a := by
  cases a with
  | nil => exact absurd rfl h
  | cons t a => rfl

theorem split_colon : ∀ (s t u v : List Byte), (∀ c ∈ s, c ≠ (0x3a : Byte)) → (∀ c ∈ t, c ≠ (0x3a : Byte)) →
      s ++ 0x3a :: u = t ++ 0x3a :: v → s = t ∧ u = v := by
  intro s
  induction s with
  | nil =>
    intro t u v _ ht h
    cases t with
    | nil => simpa using h
    | cons x t => simp at h; exact absurd h.1.symm (ht x (by simp))
  | cons a s ih =>
    intro t u v hs ht h
    cases t with
    | nil => simp at h; exact absurd h.1 (hs a (by simp))
    | cons x t =>
      simp only [List.cons_append, List.cons.injEq] at h
      have := ih t u v (fun c hc => hs c (by simp [hc])) (fun c hc => ht c (by simp [hc])) h.2
      exact ⟨by rw [h.1, this.1], this.2⟩

theorem joined_prefix : ∀ (a b : List (List Byte)) (r : List Byte), a ≠ [] → (∀ s ∈ a, s ≠ [] ∧ ∀ c ∈ s, c ≠ 0x3a) →
    (∀ s ∈ b, s ≠ [] ∧ ∀ c ∈ s, c ≠ 0x3a) → joined b = joined a ++ [0x3a, 0x3a] ++ r → ∃ c, c ≠ [] ∧ b = a ++ c
  | [], _, _, h, _, _, _ => absurd rfl h
  | s :: a, b, r, _, ha, hb, h => by
    cases b with
    | nil => simp [joined] at h
    | cons t b =>
      have hs := (ha s (by simp)).2
      have ht := (hb t (by simp)).2
      by_cases hbe : b = []
      · subst hbe
        exfalso
        have : (0x3a : Byte) ∈ joined [t] := by rw [h]; simp
        exact ht _ this rfl
      · rw [joined_cons hbe] at h
        by_cases hae : a = []
        · subst hae
          simp only [joined, List.append_assoc, List.cons_append, List.nil_append] at h
          have := split_colon t s _ _ ht hs h
          exact ⟨b, hbe, by rw [this.1]; rfl⟩
        · rw [joined_cons hae] at h
          simp only [List.append_assoc, List.cons_append, List.nil_append] at h
          have h1 := split_colon t s _ _ ht hs h
          have h2 := h1.2
          simp only [List.cons.injEq, true_and] at h2
          obtain ⟨c, hc, he⟩ := joined_prefix a b r hae (fun x hx => ha x (by simp [hx])) (fun x hx => hb x (by simp [hx]))
            (by rw [h2]; simp)
          exact ⟨c, hc, by rw [h1.1, he]; rfl⟩

theorem joined_append (a c : List (List Byte)) (ha : a ≠ []) (hc : c ≠ []) : joined (a ++ c) = joined a ++ [0x3a, 0x3a] ++ joined c := by
  induction a with
  | nil => exact absurd rfl ha
  | cons s a ih =>
    by_cases hae : a = []
    · subst hae
      rw [List.cons_append, List.nil_append, joined_cons hc]; rfl
    · rw [List.cons_append, joined_cons (by simp [hae]), ih hae, joined_cons hae]
      simp

theorem startsWith_iff (p l : List Byte) : startsWith p l = true ↔ ∃ r, l = p ++ r := by
  unfold startsWith
  rw [List.isPrefixOf_iff_prefix]
  exact ⟨fun ⟨r, h⟩ => ⟨r, h.symm⟩, fun ⟨r, h⟩ => ⟨r, h.symm⟩⟩

theorem entityIsPrefix_iff (a b : List (List Byte)) (ha : a ≠ []) (hga : ∀ s ∈ a, s ≠ [] ∧ ∀ c ∈ s, c ≠ 0x3a)
    (hgb : ∀ s ∈ b, s ≠ [] ∧ ∀ c ∈ s, c ≠ 0x3a) :
    entityIsPrefix (joined a) (joined b) = true ↔ ∃ c, c ≠ [] ∧ b = a ++ c := by
  unfold entityIsPrefix
  rw [Bool.and_eq_true, Bool.and_eq_true, startsWith_iff, startsWith_iff, decide_eq_true_iff]
  constructor
  · rintro ⟨⟨_, r, hr⟩, q, hq⟩
    rw [hr, List.drop_left] at hq
    exact joined_prefix a b q ha hga hgb (by rw [hr, hq]; simp)
  · rintro ⟨c, hc, rfl⟩
    rw [joined_append a c ha hc]
    refine ⟨⟨?_, ⟨_, by rw [List.append_assoc]⟩⟩, ⟨joined c, ?_⟩⟩
    · simp
    · rw [List.append_assoc, List.drop_left]

theorem go_iff : ∀ (l : List (List Byte)), validateNames.go l = true ↔ l.Pairwise (fun a b => collide a b = false)
  | [] => by simp [validateNames.go]
  | a :: l => by
    unfold validateNames.go
    rw [Bool.and_eq_true, go_iff l, List.pairwise_cons]
    apply and_congr _ Iff.rfl
    rw [Bool.not_eq_true', ← Bool.not_eq_true, List.any_eq_true]
    constructor
    · intro h b hb
      cases hc : collide a b with
      | false => rfl
      | true => exact absurd ⟨b, hb, hc⟩ h
    · rintro h ⟨b, hb, hc⟩
      rw [h b hb] at hc; cases hc

end HppProto.Lex
