import Verif.Proofs.NamesFile
import Verif.Proofs.LexNames

/-! # Names that may be declared -/

namespace HppProto.Names
open HppProto Lex Spec.Cpp

theorem legal_of {n : Name} (h1 : isIdentifier n = true) (h2 : n ∉ reservedWords) (h3 : isReserved n = false) : Legal n :=
  ⟨(isIdentifier_iff n).1 h1, h2, fun h => by rw [← isReserved_iff, h3] at h; cases h⟩

theorem legal_cpp {n : Name} (h : nameOk n = true) : Legal (cppName n) := by
  unfold nameOk at h
  unfold cppName
  cases e : fromProto n with
  | none => rw [e] at h; cases h
  | some x => exact fromProto_valid e

theorem double_append : ∀ a b : Name, hasDoubleUnderscore (a ++ b) = true → hasDoubleUnderscore a = true ∨ hasDoubleUnderscore b = true ∨
    (a.getLast? = some 0x5f ∧ b.head? = some 0x5f) := by
  intro a
  induction a with
  | nil => intro b h; exact .inr (.inl h)
  | cons x a ih =>
    intro b h
    cases a with
    | nil =>
      cases b with
      | nil => cases h
      | cons y b =>
        simp only [List.cons_append, List.nil_append, hasDoubleUnderscore, Bool.or_eq_true, Bool.and_eq_true, beq_iff_eq] at h
        rcases h with h | h
        · exact .inr (.inr (by simp [h.1, h.2]))
        · exact .inr (.inl h)
    | cons y a =>
      simp only [List.cons_append, hasDoubleUnderscore, Bool.or_eq_true, Bool.and_eq_true, beq_iff_eq] at h ⊢
      rcases h with h | h
      · exact .inl (.inl h)
      · rcases ih b h with h | h | h
        · exact .inl (.inr h)
        · exact .inr (.inl h)
        · exact .inr (.inr ⟨by rw [List.getLast?_cons_cons]; exact h.1, h.2⟩)

/-- A legal name goes on with `t`. -/
theorem legal_append {n t : Name} (h : Legal n) (hc : t.all isIdContinue = true) (hd : hasDoubleUnderscore t = false)
    (hj : ¬ (n.getLast? = some 0x5f ∧ t.head? = some 0x5f)) (hu : t.head?.all (fun b => !(0x41 ≤ b.toNat && b.toNat ≤ 0x5a)) = true)
    (hk : n ++ t ∉ reservedWords) : Legal (n ++ t) := by
  obtain ⟨h1, _, h3⟩ := h
  rw [← isIdentifier_iff] at h1
  rw [← isReserved_iff, Bool.not_eq_true] at h3
  refine legal_of ?_ hk ?_
  · cases n with
    | nil => cases h1
    | cons c cs =>
      simp only [List.cons_append, isIdentifier, Bool.and_eq_true, List.all_append] at h1 ⊢
      exact ⟨h1.1, h1.2, hc⟩
  · unfold isReserved at h3 ⊢
    rw [Bool.or_eq_false_iff] at h3 ⊢
    constructor
    · rw [← Bool.not_eq_true]
      intro h
      rcases double_append n t h with h | h | h
      · rw [h3.1] at h; cases h
      · rw [hd] at h; cases h
      · exact hj h
    · have h3 := h3.2
      cases n with
      | nil => cases h1
      | cons c cs =>
        cases cs with
        | cons d ds => exact h3
        | nil =>
          cases t with
          | nil => rfl
          | cons b t =>
            simp only [List.head?_cons, Option.all_some] at hu
            simp only [List.cons_append, List.nil_append]
            rw [Bool.not_eq_true'] at hu
            rw [Bool.and_assoc, hu, Bool.and_false]

theorem word_legal {n w : Name} (h : Legal n) (hc : w.all isIdContinue = true) (hd : hasDoubleUnderscore (0x5f :: w) = false)
    (hd' : hasDoubleUnderscore w = false) (hh : w.head? ≠ some 0x5f) (hu : w.head?.all (fun b => !(0x41 ≤ b.toNat && b.toNat ≤ 0x5a)) = true)
    (hk : reservedWords.all (fun k => !w.isSuffixOf k) = true) : Legal (appendWord n w) := by
  have hk : appendWord n w ∉ reservedWords := by
    intro hm
    have := List.all_eq_true.1 hk _ hm
    rw [Bool.not_eq_true', ← Bool.not_eq_true, List.isSuffixOf_iff_suffix] at this
    exact this (suffix_append_word n w)
  unfold appendWord at hk ⊢
  split at hk
  · rename_i he
    rw [if_pos he]
    exact legal_append h hc hd' (fun h => hh h.2) hu hk
  · rename_i he
    rw [if_neg he]
    simp only [List.append_assoc, List.singleton_append] at hk ⊢
    refine legal_append h ?_ hd (fun h => he (by simp [h.1])) ?_ hk
    · simp only [List.all_cons, Bool.and_eq_true]
      exact ⟨by decide, hc⟩
    · rfl

theorem legal_case {o : Name} (h : nameOk o = true) : Legal (caseName o) := by
  unfold caseName
  rw [show cppName b!"oneof_case" = b!"oneof_case" from by decide +kernel]
  exact word_legal (legal_cpp h) (by decide) (by decide) (by decide) (by decide) (by decide) (by decide +kernel)

theorem legal_table {o : Name} (h : nameOk o = true) : Legal (tableName o) := by
  unfold tableName
  rw [show cppName b!"oneof_numbers" = b!"oneof_numbers" from by decide +kernel]
  exact word_legal (legal_cpp h) (by decide) (by decide) (by decide) (by decide) (by decide) (by decide +kernel)

theorem legal_nested {n : Name} (h : nameOk n = true) : Legal (nestedScope n) := by
  have hl := legal_cpp h
  unfold nestedScope disambiguatedWith
  rw [show cppName b!"nested" = b!"nested" from by decide +kernel]
  split
  · exact word_legal hl (by decide) (by decide) (by decide) (by decide) (by decide) (by decide +kernel)
  · rename_i he
    refine legal_append hl (by decide) (by decide) (fun h => he (by simp [h.1])) (by decide) ?_
    intro hm
    have : reservedWords.all (fun k => !(([0x5f] : Name).isSuffixOf k)) = true := by decide +kernel
    have := List.all_eq_true.1 this _ hm
    rw [Bool.not_eq_true', ← Bool.not_eq_true, List.isSuffixOf_iff_suffix] at this
    exact this (List.suffix_append _ _)

theorem legal_word {n : Name} (h : (isIdentifier n && !reservedWords.contains n && !isReserved n) = true) : Legal n := by
  simp only [Bool.and_eq_true, Bool.not_eq_true'] at h
  exact legal_of h.1.1 (fun hm => by rw [List.contains_iff_mem.2 hm] at h; simp at h) h.2

/-- All these names are legal. -/
theorem legal_words {l : List Name} (h : l.all (fun n => isIdentifier n && !reservedWords.contains n && !isReserved n) = true) : ∀ n ∈ l, Legal n :=
  fun n hn => legal_word (List.all_eq_true.1 h n hn)

theorem legal_class {s c ns : List Name} (h : ∀ n ∈ ns, Legal n) : ∀ d ∈ inClass s c ns, Legal d.name := by
  intro d hd
  obtain ⟨n, hn, rfl⟩ := List.mem_map.1 hd
  exact h n hn

theorem legal_enum {p : List Name} {e : EnumDecl} (h : nameOk e.name = true) (hv : enumOk e = true) : ∀ d ∈ enumDecls p e, Legal d.name := by
  unfold enumOk at hv
  rw [Bool.and_eq_true] at hv
  intro d hd
  unfold enumDecls at hd
  simp only [List.mem_cons] at hd
  rcases hd with rfl | rfl | hd
  · exact legal_cpp h
  · exact legal_word (n := b!"is_valid") (by decide +kernel)
  · refine legal_class ?_ d hd
    intro n hn
    obtain ⟨v, hm, rfl⟩ := List.mem_map.1 hn
    exact legal_cpp (List.all_eq_true.1 hv.1 v hm)

theorem legal_ext {s c : List Name} {x : Name} (h : nameOk x = true) : ∀ d ∈ inClass s c (extensionNames x), Legal d.name := by
  refine legal_class ?_
  intro n hn
  rcases List.mem_cons.1 hn with rfl | hn
  · exact legal_cpp h
  · exact legal_words (by decide +kernel) n hn

theorem legal_fixed {full : Name} {m : MsgDecl} {n : Name} (h : n ∈ fixedNames full m) : Legal n := by
  unfold fixedNames at h
  refine legal_words (l := [b!"Traits", b!"hpp_proto_traits_type", b!"unknown_fields_"] ++ [b!"glaze_reflect"] ++
    [b!"get_extension", b!"set_extension", b!"has_extension"]) (by decide +kernel) n ?_
  simp only [List.mem_append] at h ⊢
  rcases h with (h | h) | h
  · exact .inl (.inl h)
  · split at h
    · exact .inl (.inr h)
    · cases h
  · split at h
    · exact .inr h
    · cases h

theorem legal_heads : ∀ {ms : Msgs}, namesOk ms = true → ∀ k ∈ ms.heads, nameOk k.name = true := by
  intro ms
  induction ms with
  | nil => intro _ k hk; cases hk
  | cons m kids rest _ ih =>
    intro h k hk
    simp only [namesOk, Bool.and_eq_true] at h
    rcases List.mem_cons.1 hk with rfl | hk
    · exact h.1.1.1.1.1.1
    · exact ih h.2 k hk

theorem legal_msgs (top : List Name) : ∀ (ms : Msgs) (p : List Name) (scope : Name), namesOk ms = true → messagesOk scope ms = true →
    ∀ d ∈ msgDecls top p scope ms, Legal d.name := by
  intro ms
  induction ms with
  | nil => intro p scope _ _ d hd; cases hd
  | cons m kids rest ihk ihr =>
    intro p scope hn hok d hd
    simp only [namesOk, Bool.and_eq_true] at hn
    obtain ⟨⟨⟨⟨⟨⟨n1, n2⟩, n3⟩, n4⟩, n5⟩, n6⟩, n7⟩ := hn
    simp only [messagesOk, Bool.and_eq_true] at hok
    rw [msgDecls_cons, List.mem_append] at hd
    rcases hd with hd | hd
    · split at hd
      · cases hd
      · unfold oneMsg at hd
        simp only [List.mem_append, List.mem_cons, List.not_mem_nil, or_false] at hd
        rcases hd with hd | (rfl | rfl | rfl) | hd | hd
        · split at hd
          · rw [List.cons_append, List.mem_cons, List.mem_append] at hd
            rcases hd with rfl | hd | hd
            · exact legal_nested n1
            · obtain ⟨e, he, hd⟩ := List.mem_flatMap.1 hd
              exact legal_enum (List.all_eq_true.1 n5 e he) (List.all_eq_true.1 hok.1.1.2 e he) d hd
            · exact ihk _ _ n6 hok.1.2 d hd
          · cases hd
        · exact legal_cpp n1
        · exact legal_word (n := b!"message_type_url") (by decide +kernel)
        · exact legal_word (n := b!"pb_meta") (by decide +kernel)
        · refine legal_class ?_ d hd
          intro n hm
          rw [class_split, List.cons_append] at hm
          simp only [List.mem_cons, List.mem_append, List.mem_map, List.mem_filter] at hm
          rcases hm with rfl | hm | ⟨e, he, rfl⟩ | ⟨k, ⟨hk, _⟩, rfl⟩ | ⟨f, ⟨hf, _⟩, rfl⟩ | hm | ⟨x, hx, rfl⟩
          · exact legal_cpp n1
          · exact legal_fixed hm
          · exact legal_cpp (List.all_eq_true.1 n5 e he)
          · exact legal_cpp (legal_heads n6 k hk)
          · exact legal_cpp (List.all_eq_true.1 n2 f hf)
          · obtain ⟨⟨o, i⟩, hoi, hm⟩ := List.mem_flatMap.1 hm
            have ho : nameOk o = true := List.all_eq_true.1 n3 o (zip_mem hoi)
            rcases oneof_mem hm with ⟨f, hf, _, rfl⟩ | ⟨_, rfl | rfl | rfl⟩
            · exact legal_cpp (List.all_eq_true.1 n2 f hf)
            · exact legal_cpp ho
            · exact legal_case ho
            · exact legal_table ho
          · exact legal_cpp (List.all_eq_true.1 n4 x hx)
        · obtain ⟨x, hx, hd⟩ := List.mem_flatMap.1 hd
          exact legal_ext (List.all_eq_true.1 n4 x hx) d hd
    · exact ihr p scope n7 hok.2 d hd

theorem legal_spaces : ∀ (ns done : List Name), (∀ n ∈ ns, Legal n) → ∀ d ∈ spaceDecls done ns, Legal d.name := by
  intro ns
  induction ns with
  | nil => intro done _ d hd; cases hd
  | cons s ns ih =>
    intro done h d hd
    rcases List.mem_cons.1 hd with rfl | hd
    · exact h s (by simp)
    · exact ih _ (fun n hn => h n (by simp [hn])) d hd

theorem legal_pool {fs : List FileDecl} (h : accepted fs = true) : ∀ d ∈ decls fs, Legal d.name := by
  unfold accepted at h
  rw [Bool.and_eq_true] at h
  obtain ⟨hb, hp⟩ := h
  unfold poolOk at hp
  simp only [Bool.and_eq_true] at hp
  intro d hd
  obtain ⟨f, hf, hd⟩ := List.mem_flatMap.1 hd
  have hb := List.all_eq_true.1 hb f hf
  simp only [Bool.and_eq_true] at hb
  obtain ⟨⟨⟨b1, b2⟩, b3⟩, b4⟩ := hb
  have hff := List.all_eq_true.1 hp.1.1 f hf
  have hF := fileOk_facts hff
  rw [fileDecls_split, List.mem_append] at hd
  rcases hd with hd | hd
  · refine legal_spaces _ _ ?_ d hd
    intro n hn
    obtain ⟨x, hx, rfl⟩ := List.mem_map.1 hn
    exact legal_cpp (List.all_eq_true.1 b1 x hx)
  · unfold bodyDecls at hd
    simp only [List.mem_append] at hd
    rcases hd with hd | hd | hd | hd
    · obtain ⟨e, he, hd⟩ := List.mem_flatMap.1 hd
      exact legal_enum (List.all_eq_true.1 b3 e he) (hF.enums e he).1 d hd
    · exact legal_msgs _ _ _ _ b2 hF.messages d hd
    · obtain ⟨x, hx, hd⟩ := List.mem_flatMap.1 hd
      have hx := List.all_eq_true.1 b4 x hx
      rcases List.mem_cons.1 hd with rfl | hd
      · exact legal_cpp hx
      · exact legal_ext hx d hd
    · obtain ⟨s, hs, hd⟩ := List.mem_flatMap.1 hd
      have hs' := List.mem_filter.1 hs
      have hmeth := (hF.services s hs'.1 (by simpa using hs'.2)).2.1
      have hserv : nameOk s.name = true := by
        unfold fileOk at hff
        simp only [Bool.and_eq_true] at hff
        have := List.all_eq_true.1 hff.1.2 s hs
        simp only [Bool.and_eq_true, serviceNameOk] at this
        exact this.1.1.1
      have hm : ∀ n ∈ s.methods, nameOk n = true := fun n hn => by
        have := hmeth n hn
        unfold methodNameOk at this
        rw [Bool.and_eq_true] at this
        exact this.1
      unfold serviceDecls at hd
      split at hd
      · cases hd
      · rw [List.cons_append, List.mem_cons, List.mem_append] at hd
        rcases hd with rfl | hd | hd
        · exact legal_cpp hserv
        · refine legal_class ?_ d hd
          intro n hn
          rcases List.mem_append.1 hn with hn | hn
          · obtain ⟨x, hx, rfl⟩ := List.mem_map.1 hn
            exact legal_cpp (hm x hx)
          · exact legal_words (by decide +kernel) n hn
        · obtain ⟨x, hx, hd⟩ := List.mem_flatMap.1 hd
          refine legal_class ?_ d hd
          intro n hn
          rcases List.mem_cons.1 hn with rfl | hn
          · exact legal_cpp (hm x hx)
          · exact legal_words (by decide +kernel) n hn

theorem outermost_pool {fs : List FileDecl} (h : poolOk fs = true) : ∀ d ∈ decls fs, startsLow d.outermost = false := by
  unfold poolOk at h
  simp only [Bool.and_eq_true] at h
  intro d hd
  obtain ⟨f, hf, hd⟩ := List.mem_flatMap.1 hd
  have hok := List.all_eq_true.1 h.1.1 f hf
  unfold fileOk at hok
  simp only [Bool.and_eq_true, Bool.not_eq_true'] at hok
  obtain ⟨⟨⟨⟨⟨h1, h2⟩, _⟩, _⟩, _⟩, _⟩ := hok
  show startsLow (d.key.headD []) = false
  rw [fileDecls_split, List.mem_append] at hd
  rcases hd with hd | hd
  · obtain ⟨_, a, s, b, e1, e2⟩ := space_key _ _ d hd
    rw [e2]
    rw [e1] at h1
    cases a with
    | nil => simpa using h1
    | cons x a => simpa using h1
  · obtain ⟨y, hy, t, ht⟩ := own_step (body_own f d hd)
    rw [← ht]
    cases hns : f.ns with
    | cons x a => rw [hns] at h1; simpa using h1
    | nil =>
      rw [hns] at h2
      simp only [decide_true, Bool.true_and] at h2
      show startsLow y = false
      rcases hy with hy | hy
      · rw [← Bool.not_eq_true]
        intro hl
        rw [List.any_eq_true.2 ⟨y, hy, hl⟩] at h2
        cases h2
      · unfold isHelper at hy
        simp only [Bool.or_eq_true, beq_iff_eq] at hy
        rcases hy with (rfl | rfl) | rfl <;> decide

end HppProto.Names
