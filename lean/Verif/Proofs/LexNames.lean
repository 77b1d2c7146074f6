import Verif.Proofs.Lexical
/-! # Proofs: emitted names -/
namespace HppProto.Lex
open HppProto HppProto.Spec.Cpp

theorem idStart_iff (b : Byte) : isIdStart b = true ↔ b ∈ nameStart := by
  have := byteAll (fun b => isIdStart b == nameStart.contains b) (by decide +kernel) b
  rw [beq_iff_eq] at this
  rw [this, List.contains_iff_mem]

theorem idContinue_iff (b : Byte) : isIdContinue b = true ↔ b ∈ nameChars := by
  have := byteAll (fun b => isIdContinue b == nameChars.contains b) (by decide +kernel) b
  rw [beq_iff_eq] at this
  rw [this, List.contains_iff_mem]

theorem upper_iff (b : Byte) : (0x41 ≤ b.toNat ∧ b.toNat ≤ 0x5a) ↔ b ∈ b!"ABCDEFGHIJKLMNOPQRSTUVWXYZ" := by
  have := byteAll (fun b => decide (0x41 ≤ b.toNat ∧ b.toNat ≤ 0x5a) == (b!"ABCDEFGHIJKLMNOPQRSTUVWXYZ").contains b) (by decide +kernel) b
  rw [beq_iff_eq] at this
  rw [← List.contains_iff_mem, ← this, decide_eq_true_iff]

theorem isIdentifier_iff (s : List Byte) : isIdentifier s = true ↔ IsName s := by
  unfold IsName
  cases s with
  | nil => simp [isIdentifier]
  | cons c cs =>
    unfold isIdentifier
    rw [Bool.and_eq_true, idStart_iff, List.all_eq_true]
    constructor
    · intro h; exact ⟨c, cs, rfl, h.1, fun b hb => (idContinue_iff b).1 (h.2 b hb)⟩
    · rintro ⟨c', cs', heq, h1, h2⟩
      injection heq with e1 e2
      subst e1; subst e2
      exact ⟨h1, fun b hb => (idContinue_iff b).2 (h2 b hb)⟩

theorem doubleUnderscore_iff : ∀ s : List Byte, hasDoubleUnderscore s = true ↔ ∃ p q, s = p ++ [0x5f, 0x5f] ++ q
  | [] => by
    constructor
    · intro h; cases h
    · rintro ⟨p, q, h⟩; have := congrArg List.length h; simp at this
  | [a] => by
    constructor
    · intro h; cases h
    · rintro ⟨p, q, h⟩; have := congrArg List.length h; simp at this; omega
  | a :: b :: rest => by
    have ih := doubleUnderscore_iff (b :: rest)
    unfold hasDoubleUnderscore
    rw [Bool.or_eq_true, ih, Bool.and_eq_true, beq_iff_eq, beq_iff_eq]
    constructor
    · rintro (⟨rfl, rfl⟩ | ⟨p, q, h⟩)
      · exact ⟨[], rest, rfl⟩
      · exact ⟨a :: p, q, by rw [h]; rfl⟩
    · rintro ⟨p, q, h⟩
      cases p with
      | nil => simp at h; exact .inl ⟨h.1, h.2.1⟩
      | cons x p => 
        right
        refine ⟨p, q, ?_⟩
        simpa using (List.cons.inj h).2

theorem isReserved_iff (s : List Byte) : isReserved s = true ↔ IsReservedName s := by
  unfold isReserved IsReservedName
  rw [Bool.or_eq_true, doubleUnderscore_iff]
  apply or_congr Iff.rfl
  split
  · rename_i a b rest
    simp only [Bool.and_eq_true, beq_iff_eq, decide_eq_true_iff]
    constructor
    · rintro ⟨⟨rfl, h1⟩, h2⟩
      exact ⟨b, rest, rfl, (upper_iff b).1 ⟨h1, h2⟩⟩
    · rintro ⟨c, q, heq, hc⟩
      injection heq with e1 e2
      injection e2 with e2 e3
      subst e1; subst e2
      have := (upper_iff _).2 hc
      exact ⟨⟨rfl, this.1⟩, this.2⟩
  · rename_i hne
    constructor
    · intro h; cases h
    · rintro ⟨c, q, rfl, _⟩; exact absurd rfl (hne _ _ _)

/-- Accepted exactly when it is a name that is not reserved. -/
theorem fromProto_accepts (s : List Byte) : (∃ x, fromProto s = some x) ↔ IsName s ∧ ¬ IsReservedName s := by
  unfold fromProto
  rw [← isIdentifier_iff, ← isReserved_iff]
  cases isIdentifier s <;> cases isReserved s <;> simp

theorem fromProto_eq {s x : List Byte} (h : fromProto s = some x) : x = safeIdentifier s := by
  unfold fromProto at h
  split at h
  · cases h
  · split at h
    · cases h
    · injection h with h; exact h.symm

theorem keywords_cover : ∀ k ∈ reservedWords, k ∈ cppKeywords := by decide +kernel

theorem keywords_escaped : ∀ k ∈ cppKeywords, (k ++ [0x5f]) ∉ reservedWords ∧ isReserved (k ++ [0x5f]) = false ∧
    isIdentifier (k ++ [0x5f]) = true ∧ (k ++ [0x5f]) ∉ cppKeywords := by decide +kernel

theorem safe_cases (s : List Byte) : (s ∈ cppKeywords ∧ safeIdentifier s = s ++ [0x5f]) ∨ (s ∉ cppKeywords ∧ safeIdentifier s = s) := by
  unfold safeIdentifier
  by_cases h : s ∈ cppKeywords
  · left; exact ⟨h, if_pos (List.contains_iff_mem.2 h)⟩
  · right; exact ⟨h, if_neg (fun h' => h (List.contains_iff_mem.1 h'))⟩

theorem fromProto_valid {s x : List Byte} (h : fromProto s = some x) :
    IsName x ∧ x ∉ reservedWords ∧ ¬ IsReservedName x := by
  have hs := (fromProto_accepts s).1 ⟨x, h⟩
  have := fromProto_eq h
  rcases safe_cases s with ⟨hk, he⟩ | ⟨hk, he⟩
  · have hf := keywords_escaped s hk
    rw [this, he]
    exact ⟨(isIdentifier_iff _).1 hf.2.2.1, hf.1, fun hr => by rw [← isReserved_iff, hf.2.1] at hr; cases hr⟩
  · rw [this, he]
    exact ⟨hs.1, fun hr => hk (keywords_cover s hr), hs.2⟩

theorem fromProto_inj {s t x : List Byte} (h : fromProto s = some x) (h' : fromProto t = some x) :
    s = t ∨ (s ∈ cppKeywords ∧ t = s ++ [0x5f]) ∨ (t ∈ cppKeywords ∧ s = t ++ [0x5f]) := by
  have e := (fromProto_eq h).symm.trans (fromProto_eq h')
  rcases safe_cases s with ⟨hk, he⟩ | ⟨hk, he⟩ <;> rcases safe_cases t with ⟨hk', he'⟩ | ⟨hk', he'⟩ <;> rw [he, he'] at e
  · left; exact List.append_cancel_right e
  · exact .inr (.inl ⟨hk, e.symm⟩)
  · exact .inr (.inr ⟨hk', e⟩)
  · exact .inl e

/-! ## Qualified names -/

theorem splitDots_ne (s : List Byte) : splitDots s ≠ [] := by
  cases s with
  | nil => simp [splitDots]
  | cons c cs =>
    unfold splitDots
    split
    · simp
    · split <;> simp

theorem splitDots_segment : ∀ (s : List Byte), (∀ b ∈ s, b ≠ 0x2e) → splitDots s = [s]
  | [], _ => rfl
  | c :: cs, h => by
    unfold splitDots
    rw [splitDots_segment cs (fun b hb => h b (by simp [hb]))]
    simp only
    rw [if_neg (h c (by simp))]

theorem splitDots_append : ∀ (s t : List Byte), (∀ b ∈ s, b ≠ 0x2e) → splitDots (s ++ 0x2e :: t) = s :: splitDots t
  | [], t, _ => by
    rw [List.nil_append, splitDots]
    cases h : splitDots t with
    | nil => exact absurd h (splitDots_ne t)
    | cons a b => simp
  | c :: cs, t, h => by
    rw [List.cons_append, splitDots, splitDots_append cs t (fun b hb => h b (by simp [hb]))]
    simp only
    rw [if_neg (h c (by simp))]

theorem splitDots_dotted : ∀ (segs : List (List Byte)), segs ≠ [] → (∀ s ∈ segs, ∀ b ∈ s, b ≠ 0x2e) →
    splitDots (dotted segs) = segs
  | [], h, _ => absurd rfl h
  | [s], _, h => splitDots_segment s (h s (by simp))
  | s :: t :: more, _, h => by
    have ih := splitDots_dotted (t :: more) (by simp) (fun x hx => h x (by simp [hx]))
    unfold dotted
    rw [List.append_assoc, List.singleton_append, splitDots_append s _ (h s (by simp)), ih]

theorem dotted_splitDots : ∀ (s : List Byte), dotted (splitDots s) = s ∧ ∀ seg ∈ splitDots s, ∀ b ∈ seg, b ≠ 0x2e
  | [] => by simp [splitDots, dotted]
  | c :: cs => by
    have ih := dotted_splitDots cs
    unfold splitDots
    cases h : splitDots cs with
    | nil => exact absurd h (splitDots_ne cs)
    | cons seg segs =>
      rw [h] at ih
      simp only
      split
      · rename_i hc
        subst hc
        refine ⟨?_, ?_⟩
        · unfold dotted; rw [ih.1]; rfl
        · intro x hx
          rw [List.mem_cons] at hx
          rcases hx with rfl | hx
          · simp
          · exact ih.2 x hx
      · rename_i hc
        refine ⟨?_, ?_⟩
        · cases segs with
          | nil => have := ih.1; simp only [dotted] at this ⊢; rw [this]
          | cons a b => have := ih.1; simp only [dotted] at this ⊢; rw [← this]; rfl
        · intro x hx
          rw [List.mem_cons] at hx
          rcases hx with rfl | hx
          · intro b hb
            rw [List.mem_cons] at hb
            rcases hb with rfl | hb
            · exact hc
            · exact ih.2 seg (by simp) b hb
          · exact ih.2 x (by simp [hx])

theorem join_eq : ∀ l, joinColons l = joined l
  | [] => rfl
  | [_] => rfl
  | s :: t :: more => by unfold joinColons joined; rw [join_eq (t :: more)]

theorem name_no_dot {s : List Byte} (h : IsName s) : ∀ b ∈ s, b ≠ 0x2e ∧ b ≠ 0x3a := by
  obtain ⟨c, cs, rfl, hc, hcs⟩ := h
  have h1 : (0x2e : Byte) ∉ nameStart := by decide +kernel
  have h2 : (0x2e : Byte) ∉ nameChars := by decide +kernel
  have h3 : (0x3a : Byte) ∉ nameStart := by decide +kernel
  have h4 : (0x3a : Byte) ∉ nameChars := by decide +kernel
  intro b hb
  rw [List.mem_cons] at hb
  rcases hb with rfl | hb
  · exact ⟨fun h => h1 (h ▸ hc), fun h => h3 (h ▸ hc)⟩
  · exact ⟨fun h => h2 (h ▸ hcs b hb), fun h => h4 (h ▸ hcs b hb)⟩

theorem mapM_some {α β : Type} (f : α → Option β) : ∀ (l : List α) (r : List β),
    l.mapM f = some r ↔ l.map f = r.map some
  | [], r => by cases r <;> simp
  | a :: l, r => by
    rw [List.mapM_cons]
    cases ha : f a with
    | none => cases r <;> simp [ha]
    | some b =>
      cases hm : l.mapM f with
      | none =>
        simp only [Option.pure_def, Option.bind_eq_bind, Option.bind_some, Option.bind_none, reduceCtorEq, List.map_cons, ha, false_iff]
        intro h
        cases r with
        | nil => simp at h
        | cons x r =>
          simp at h
          have := (mapM_some f l r).2 h.2
          rw [hm] at this; cases this
      | some bs =>
        have := (mapM_some f l bs).1 hm
        cases r with
        | nil => simp
        | cons x r =>
          simp [ha, this]
          intro _
          constructor
          · rintro rfl; rfl
          · intro h
            exact (List.map_inj_right (fun _ _ h => by injection h)).1 h

/-- The dotted name is accepted exactly when it is empty or all its segments are. -/
theorem fromDotted_iff (name q : List Byte) : fromDotted name = some q ↔
    (name = [] ∧ q = []) ∨
    (name ≠ [] ∧ ∃ segs ids, segs ≠ [] ∧ name = dotted segs ∧ segs.map fromProto = ids.map some ∧ q = joined ids) := by
  unfold fromDotted
  by_cases hn : name = []
  · subst hn
    rw [if_pos rfl]
    constructor
    · intro h; injection h with h; exact .inl ⟨rfl, h.symm⟩
    · rintro (⟨_, rfl⟩ | ⟨h, _⟩)
      · rfl
      · exact absurd rfl h
  · rw [if_neg hn]
    simp only [hn, false_and, ne_eq, not_false_eq_true, true_and, false_or]
    constructor
    · intro h
      split at h
      · rename_i segs hm
        injection h with h
        refine ⟨splitDots name, segs, splitDots_ne name, (dotted_splitDots name).1.symm, (mapM_some _ _ _).1 hm, ?_⟩
        rw [← h, join_eq]
      · cases h
    · rintro ⟨segs, ids, hne, rfl, hm, rfl⟩
      have hs : splitDots (dotted segs) = segs := by
        apply splitDots_dotted segs hne
        intro s hs
        have hmem : fromProto s ∈ segs.map fromProto := List.mem_map.2 ⟨s, hs, rfl⟩
        rw [hm, List.mem_map] at hmem
        obtain ⟨x, _, hx⟩ := hmem
        have := (fromProto_accepts s).1 ⟨x, hx.symm⟩
        exact fun b hb => (name_no_dot this.1 b hb).1
      rw [hs, (mapM_some _ _ _).2 hm]
      simp only [join_eq]

/-- Qualified names are told apart by their segments. -/
theorem joined_inj : ∀ (a b : List (List Byte)), (∀ s ∈ a, s ≠ [] ∧ ∀ c ∈ s, c ≠ 0x3a) → (∀ s ∈ b, s ≠ [] ∧ ∀ c ∈ s, c ≠ 0x3a) →
    joined a = joined b → a = b := by
  have hsplit : ∀ (s t u v : List Byte), (∀ c ∈ s, c ≠ (0x3a : Byte)) → (∀ c ∈ t, c ≠ (0x3a : Byte)) →
      s ++ 0x3a :: u = t ++ 0x3a :: v → s = t ∧ u = v := by
    intro s
    induction s with
    | nil =>
      intro t u v _ ht h
      cases t with
      | nil => simpa using h
      | cons x t => simp at h; exact absurd h.1.symm (ht x (by simp))
    | cons a s ih =>
      intro t u v hs ht h
      cases t with
      | nil => simp at h; exact absurd h.1 (hs a (by simp))
      | cons x t =>
        simp only [List.cons_append, List.cons.injEq] at h
        have := ih t u v (fun c hc => hs c (by simp [hc])) (fun c hc => ht c (by simp [hc])) h.2
        exact ⟨by rw [h.1, this.1], this.2⟩
  have hnot : ∀ (s u : List Byte), (∀ c ∈ s, c ≠ (0x3a : Byte)) → ∀ t, s ≠ t ++ 0x3a :: u := by
    intro s u hs t h
    exact hs 0x3a (by rw [h]; simp) rfl
  intro a
  induction a with
  | nil =>
    intro b _ hb h
    cases b with
    | nil => rfl
    | cons s b =>
      have := (hb s (by simp)).1
      cases b with
      | nil => simp [joined] at h; exact absurd h this
      | cons t b => simp [joined] at h
  | cons s a ih =>
    intro b ha hb h
    cases b with
    | nil =>
      have := (ha s (by simp)).1
      cases a with
      | nil => simp [joined] at h; exact absurd h this
      | cons t a => simp [joined] at h
    | cons t b =>
      cases a with
      | nil =>
        cases b with
        | nil => simpa [joined] using h
        | cons u b =>
          exfalso
          simp only [joined, List.append_assoc, List.cons_append, List.nil_append] at h
          exact hnot s _ (ha s (by simp)).2 t h
      | cons v a =>
        cases b with
        | nil =>
          exfalso
          simp only [joined, List.append_assoc, List.cons_append, List.nil_append] at h
          exact hnot t _ (hb t (by simp)).2 s h.symm
        | cons u b =>
          simp only [joined, List.append_assoc, List.cons_append, List.nil_append] at h
          have := hsplit s t _ _ (ha s (by simp)).2 (hb t (by simp)).2 h
          have h2 := this.2
          simp only [List.cons.injEq, true_and] at h2
          rw [this.1, ih (u :: b) (fun s hs => ha s (by simp [hs])) (fun s hs => hb s (by simp [hs])) h2]

end HppProto.Lex
