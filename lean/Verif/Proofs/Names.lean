import Verif.Spec.Names

/-! # Lemmas about names -/

namespace HppProto.Names
open HppProto Lex

theorem allNew_iff {α : Type} [DecidableEq α] : ∀ (l seen : List α), allNew seen l = true ↔ l.Nodup ∧ ∀ a ∈ l, a ∉ seen := by
  intro l
  induction l with
  | nil => intro seen; simp [allNew]
  | cons a l ih =>
    intro seen
    simp only [allNew, Bool.and_eq_true, decide_eq_true_eq, ih, List.nodup_cons, List.mem_cons, forall_eq_or_imp]
    constructor
    · rintro ⟨h1, h2, h3⟩
      exact ⟨⟨fun h => h3 a h (.inl rfl), h2⟩, h1, fun b hb h => h3 b hb (.inr h)⟩
    · rintro ⟨⟨h1, h2⟩, h3, h4⟩
      refine ⟨h3, h2, fun b hb h => ?_⟩
      rcases h with rfl | h
      · exact h1 hb
      · exact h4 b hb h

theorem nodup_of_allNew {α : Type} [DecidableEq α] {l : List α} (h : allNew [] l = true) : l.Nodup := ((allNew_iff l []).1 h).1

/-! ## Words -/

theorem suffix_append_word (id w : Name) : w <:+ appendWord id w := by
  unfold appendWord
  exact List.suffix_append _ _

theorem case_suffix (o : Name) : b!"oneof_case" <:+ caseName o := by
  have := suffix_append_word (cppName o) (cppName b!"oneof_case")
  rwa [show cppName b!"oneof_case" = b!"oneof_case" from by decide +kernel] at this

theorem table_suffix (o : Name) : b!"oneof_numbers" <:+ tableName o := by
  have := suffix_append_word (cppName o) (cppName b!"oneof_numbers")
  rwa [show cppName b!"oneof_numbers" = b!"oneof_numbers" from by decide +kernel] at this

theorem suffix_ne {w x y : Name} (h : w <:+ x) (hy : w.isSuffixOf y = false) : x ≠ y := by
  rintro rfl
  rw [← List.isSuffixOf_iff_suffix] at h
  rw [h] at hy
  exact absurd hy (by decide)

theorem suffix_last {w x : Name} (h : w <:+ x) (hw : w ≠ []) : x.getLast? = w.getLast? := by
  obtain ⟨t, rfl⟩ := h
  rw [List.getLast?_append]
  cases h : w.getLast? with
  | none => exact absurd (List.getLast?_eq_none_iff.1 h) hw
  | some a => rfl

theorem case_ne_table (o o' : Name) : caseName o ≠ tableName o' := by
  intro h
  have h1 := suffix_last (case_suffix o) (by decide)
  have h2 := suffix_last (table_suffix o') (by decide)
  rw [h, h2] at h1
  exact absurd h1 (by decide)

theorem appendWord_inj {a b w : Name} (h : appendWord a w = appendWord b w) : a = b ∨ a = b ++ [0x5f] ∨ b = a ++ [0x5f] := by
  unfold appendWord at h
  have h := List.append_cancel_right h
  split at h <;> split at h
  · exact .inl h
  · exact .inr (.inl h)
  · exact .inr (.inr h.symm)
  · exact .inl (List.append_cancel_right h)

theorem scope_form (n : Name) : (∃ t, nestedScope n = t ++ [0x5f]) ∨ b!"nested" <:+ nestedScope n := by
  unfold nestedScope disambiguatedWith
  split
  · right
    have := suffix_append_word (cppName n) (cppName b!"nested")
    rwa [show cppName b!"nested" = b!"nested" from by decide +kernel] at this ⊢
  · exact .inl ⟨_, rfl⟩

theorem scope_ne {n y : Name} (h1 : y.getLast? ≠ some 0x5f) (h2 : (b!"nested").isSuffixOf y = false) : nestedScope n ≠ y := by
  rcases scope_form n with ⟨t, h⟩ | h
  · rw [h]
    rintro rfl
    simp at h1
  · exact suffix_ne h h2

theorem scope_helper (n : Name) : isHelper (nestedScope n) = false := by
  unfold isHelper
  simp only [Bool.or_eq_false_iff, beq_eq_false_iff_ne, ne_eq]
  exact ⟨⟨scope_ne (by decide) (by decide), scope_ne (by decide) (by decide)⟩, scope_ne (by decide) (by decide)⟩

theorem not_helper {n : Name} (h : isHelper n = false) : n ≠ b!"message_type_url" ∧ n ≠ b!"pb_meta" ∧ n ≠ b!"is_valid" := by
  unfold isHelper at h
  simp only [Bool.or_eq_false_iff, beq_eq_false_iff_ne, ne_eq] at h
  exact ⟨h.1.1, h.1.2, h.2⟩

/-! ## Names in a class -/

/-- The names fixed in the class of a message, without the name of the class. -/
def fixedNames (full : Name) (m : MsgDecl) : List Name :=
  [b!"Traits", b!"hpp_proto_traits_type", b!"unknown_fields_"] ++ (if wellKnown full then [b!"glaze_reflect"] else []) ++
    (if m.extensible then [b!"get_extension", b!"set_extension", b!"has_extension"] else [])

theorem fixed_iff (full : Name) (m : MsgDecl) (n : Name) : n ∈ fixedNames full m ↔ isFixedMember full m.extensible n = true := by
  unfold fixedNames isFixedMember
  cases h : wellKnown full <;> cases h' : m.extensible <;>
    simp <;> grind

theorem fixed_nodup (full : Name) (m : MsgDecl) : (fixedNames full m).Nodup := by
  unfold fixedNames
  cases wellKnown full <;> cases m.extensible <;> decide

theorem fixed_all (full : Name) (m : MsgDecl) {w : Name}
    (h : ([b!"Traits", b!"hpp_proto_traits_type", b!"unknown_fields_", b!"glaze_reflect", b!"get_extension", b!"set_extension",
      b!"has_extension"]).all (fun y => !w.isSuffixOf y) = true) {x : Name} (hx : w <:+ x) : x ∉ fixedNames full m := by
  intro hm
  simp only [List.all_cons, List.all_nil, Bool.and_eq_true, Bool.not_eq_true', Bool.and_true] at h
  obtain ⟨a1, a2, a3, a4, a5, a6, a7⟩ := h
  have := @suffix_ne w x
  rw [fixed_iff] at hm
  unfold isFixedMember at hm
  have h1 := suffix_ne hx a1
  have h2 := suffix_ne hx a2
  have h3 := suffix_ne hx a3
  have h4 := suffix_ne hx a4
  have h5 := suffix_ne hx a5
  have h6 := suffix_ne hx a6
  have h7 := suffix_ne hx a7
  simp [h1, h2, h3, h4, h5, h6, h7] at hm

theorem class_split (full : Name) (m : MsgDecl) (kids : Msgs) : classNames full m kids =
    cppName m.name :: fixedNames full m ++ (m.enums.map (fun e => cppName e.name) ++
      ((kids.heads.filter (!·.entry)).map (fun k => cppName k.name) ++
      ((m.fields.filter (·.oneof = none)).map (fun f => cppName f.name) ++
      ((m.oneofs.zipIdx.flatMap fun (o, i) => oneofNames m i o) ++ m.extensions.map cppName)))) := by
  unfold classNames fixedNames
  simp only [List.append_assoc, List.cons_append, List.nil_append]

/-- What a oneof declares. -/
theorem oneof_mem {m : MsgDecl} {i : Nat} {o n : Name} (h : n ∈ oneofNames m i o) :
    (∃ f ∈ m.fields, f.oneof = some i ∧ n = cppName f.name) ∨
      (several m i = true ∧ (n = cppName o ∨ n = caseName o ∨ n = tableName o)) := by
  have hf : ∀ f, f ∈ (m.fields.filter fun f => f.oneof = some i) → f ∈ m.fields ∧ f.oneof = some i := fun f hf => by
    have := List.mem_filter.1 hf
    exact ⟨this.1, by simpa using this.2⟩
  unfold oneofNames at h
  split at h
  · cases h
  · rename_i f heq
    rw [List.mem_singleton] at h
    have := hf f (by rw [heq]; simp)
    exact .inl ⟨f, this.1, this.2, h⟩
  · rename_i fs h0 h1
    have hs : several m i = true := by
      unfold several
      cases hc : (m.fields.filter fun f => f.oneof = some i) with
      | nil => exact absurd hc h0
      | cons a l =>
        cases l with
        | nil => exact absurd hc (h1 a)
        | cons b l => simp
    rw [List.mem_append] at h
    rcases h with h | h
    · simp only [List.mem_cons, List.not_mem_nil, or_false] at h
      exact .inr ⟨hs, by rcases h with h | h | h <;> simp [h]⟩
    · obtain ⟨f, hf', rfl⟩ := List.mem_map.1 h
      have := hf f hf'
      exact .inl ⟨f, this.1, this.2, rfl⟩

theorem uses_iff (m : MsgDecl) (kids : Msgs) (n : Name) : usesName m kids n = true ↔ n ∈ (members m kids).map Member.name := by
  unfold usesName members
  simp only [List.map_append, List.map_map, List.mem_append, List.mem_map, Function.comp_def, Bool.or_eq_true, List.any_eq_true, beq_iff_eq]

theorem members_names (m : MsgDecl) (kids : Msgs) : (members m kids).map Member.name =
    m.fields.map (fun f => cppName f.name) ++ (kids.heads.map (fun k => cppName k.name) ++ (m.enums.map (fun e => cppName e.name) ++
      (m.oneofs.map cppName ++ m.extensions.map cppName))) := by
  unfold members
  simp [List.map_append, List.map_map, Function.comp_def]

/-- Lists are separate. -/
theorem nodup_parts {a b c d e : List Name} (h : (a ++ (b ++ (c ++ (d ++ e)))).Nodup) :
    a.Nodup ∧ b.Nodup ∧ c.Nodup ∧ d.Nodup ∧ e.Nodup ∧ (∀ x ∈ a, x ∉ b ∧ x ∉ c ∧ x ∉ d ∧ x ∉ e) ∧
      (∀ x ∈ b, x ∉ c ∧ x ∉ d ∧ x ∉ e) ∧ (∀ x ∈ c, x ∉ d ∧ x ∉ e) ∧ (∀ x ∈ d, x ∉ e) := by
  simp only [List.nodup_append, List.mem_append] at h
  obtain ⟨ha, ⟨hb, ⟨hc, ⟨hd, he, h4⟩, h3⟩, h2⟩, h1⟩ := h
  refine ⟨ha, hb, hc, hd, he, fun x hx => ⟨?_, ?_, ?_, ?_⟩, fun x hx => ⟨?_, ?_, ?_⟩, fun x hx => ⟨?_, ?_⟩, fun x hx => ?_⟩ <;> intro hy
  · exact h1 x hx x (.inl hy) rfl
  · exact h1 x hx x (.inr (.inl hy)) rfl
  · exact h1 x hx x (.inr (.inr (.inl hy))) rfl
  · exact h1 x hx x (.inr (.inr (.inr hy))) rfl
  · exact h2 x hx x (.inl hy) rfl
  · exact h2 x hx x (.inr (.inl hy)) rfl
  · exact h2 x hx x (.inr (.inr hy)) rfl
  · exact h3 x hx x (.inl hy) rfl
  · exact h3 x hx x (.inr hy) rfl
  · exact h4 x hx x hy rfl

theorem map_inj {α : Type} {l : List α} {g : α → Name} (h : (l.map g).Nodup) {a b : α} (ha : a ∈ l) (hb : b ∈ l) (e : g a = g b) : a = b := by
  induction l with
  | nil => cases ha
  | cons c l ih =>
    rw [List.map_cons, List.nodup_cons] at h
    rcases List.mem_cons.1 ha with h1 | h1 <;> rcases List.mem_cons.1 hb with h2 | h2
    · rw [h1, h2]
    · subst h1
      exact absurd (e ▸ List.mem_map_of_mem h2) h.1
    · subst h2
      exact absurd (e ▸ List.mem_map_of_mem h1) h.1
    · exact ih h.2 h1 h2

theorem zip_index {l : List Name} (h : (l.map cppName).Nodup) : (l.zipIdx).Pairwise fun a b => cppName a.1 ≠ cppName b.1 ∧ a.2 ≠ b.2 := by
  rw [List.pairwise_iff_getElem]
  intro i j hi hj hij
  simp only [List.length_zipIdx] at hi hj
  simp only [List.getElem_zipIdx, Nat.zero_add]
  refine ⟨fun e => ?_, by omega⟩
  have := (List.pairwise_iff_getElem.1 h) i j (by simpa) (by simpa) hij
  simp only [List.getElem_map] at this
  exact this e

theorem zip_mem {l : List Name} {a : Name × Nat} (h : a ∈ l.zipIdx) : a.1 ∈ l := by
  have := List.mem_zipIdx_iff_getElem?.1 h
  exact List.mem_of_getElem? this

/-- The names in a class are distinct. -/
theorem class_nodup {full : Name} {m : MsgDecl} {kids : Msgs} (hm : membersOk full m kids = true) (ho : oneofsOk m kids = true)
    (ha : oneofsApart m = true) (hc : isFixedMember full m.extensible (cppName m.name) = false) : (classNames full m kids).Nodup := by
  unfold membersOk at hm
  rw [Bool.and_eq_true] at hm
  obtain ⟨hmem, hnd⟩ := hm
  have hnd := nodup_of_allNew hnd
  have hall : ∀ n ∈ (members m kids).map Member.name, n ∉ fixedNames full m ∧ n ≠ cppName m.name := by
    intro n hn
    obtain ⟨d, hd, rfl⟩ := List.mem_map.1 hn
    have := List.all_eq_true.1 hmem d hd
    unfold memberOk at this
    simp only [Bool.and_eq_true, Bool.not_eq_true'] at this
    refine ⟨fun h => ?_, fun h => ?_⟩
    · rw [fixed_iff, this.1.1.1] at h
      cases h
    · rw [h] at this
      simp at this
  have hone : ∀ o ∈ m.oneofs, (caseName o ≠ cppName m.name ∧ caseName o ∉ (members m kids).map Member.name) ∧
      (tableName o ≠ cppName m.name ∧ tableName o ∉ (members m kids).map Member.name) := by
    intro o hmo
    have := List.all_eq_true.1 ho o hmo
    simp only [Bool.and_eq_true, Bool.not_eq_true', Bool.or_eq_false_iff, beq_eq_false_iff_ne] at this
    rw [← uses_iff, ← uses_iff]
    simp [this]
  rw [members_names] at hnd hall hone
  obtain ⟨nF, nK, nE, nO, nX, dF, dK, dE, dO⟩ := nodup_parts hnd
  simp only [List.mem_append] at hall hone
  -- what the oneofs declare
  have hoo : ∀ n ∈ (m.oneofs.zipIdx.flatMap fun (o, i) => oneofNames m i o),
      (∃ f ∈ m.fields, f.oneof ≠ none ∧ n = cppName f.name) ∨ n ∈ m.oneofs.map cppName ∨ ∃ o ∈ m.oneofs, n = caseName o ∨ n = tableName o := by
    intro n hn
    obtain ⟨⟨o, i⟩, hoi, hn⟩ := List.mem_flatMap.1 hn
    have hmo := zip_mem hoi
    rcases oneof_mem hn with ⟨f, hf, h1, h2⟩ | ⟨_, h⟩
    · exact .inl ⟨f, hf, by rw [h1]; simp, h2⟩
    · rcases h with h | h | h
      · exact .inr (.inl (h ▸ List.mem_map_of_mem hmo))
      · exact .inr (.inr ⟨o, hmo, .inl h⟩)
      · exact .inr (.inr ⟨o, hmo, .inr h⟩)
  have fmem : ∀ f ∈ m.fields, cppName f.name ∈ m.fields.map (fun f => cppName f.name) := fun f hf => List.mem_map_of_mem (f := fun f : FieldDecl => cppName f.name) hf
  have sF : ∀ {q : FieldDecl → Bool} {n}, n ∈ (m.fields.filter q).map (fun f => cppName f.name) → n ∈ m.fields.map (fun f => cppName f.name) :=
    fun h => (List.filter_sublist.map _).subset h
  have sK : ∀ {q : MsgDecl → Bool} {n}, n ∈ (kids.heads.filter q).map (fun k => cppName k.name) → n ∈ kids.heads.map (fun k => cppName k.name) :=
    fun h => (List.filter_sublist.map _).subset h
  have nOO : (m.oneofs.zipIdx.flatMap fun (o, i) => oneofNames m i o).Nodup := by
    unfold List.Nodup
    rw [List.pairwise_flatMap]
    constructor
    · rintro ⟨o, i⟩ hoi
      have hmo : o ∈ m.oneofs := zip_mem hoi
      have h1 := hone o hmo
      show (oneofNames m i o).Nodup
      unfold oneofNames
      split
      · exact List.nodup_nil
      · simp
      · rename_i fs _ _
        rw [List.nodup_append]
        refine ⟨?_, (List.filter_sublist.map _).nodup nF, ?_⟩
        · have e1 := case_ne_table o o
          have e2 : caseName o ≠ cppName o := fun e => h1.1.2 (.inr (.inr (.inr (.inl (e ▸ List.mem_map_of_mem hmo)))))
          have e3 : tableName o ≠ cppName o := fun e => h1.2.2 (.inr (.inr (.inr (.inl (e ▸ List.mem_map_of_mem hmo)))))
          simp [e1, e2, e3]
        · intro a ha b hb
          have hb := sF hb
          simp only [List.mem_cons, List.not_mem_nil, or_false] at ha
          rintro rfl
          rcases ha with rfl | rfl | rfl
          · exact h1.1.2 (.inl hb)
          · exact h1.2.2 (.inl hb)
          · exact (dF _ hb).2.2.1 (List.mem_map_of_mem hmo)
    · refine (zip_index nO).imp_of_mem ?_
      rintro ⟨o, i⟩ ⟨o', i'⟩ hoi hoi' ⟨hne, hii⟩ n hn n' hn' rfl
      have hmo := zip_mem hoi
      have hmo' := zip_mem hoi'
      simp only at hne hii hmo hmo' hn hn'
      have ap : several m i = true → several m i' = true → cppName o ≠ cppName o' ++ [0x5f] ∧ cppName o' ≠ cppName o ++ [0x5f] := by
        intro s1 s2
        have m1 : cppName o ∈ severalNames m := List.mem_map.2 ⟨(o, i), List.mem_filter.2 ⟨hoi, s1⟩, rfl⟩
        have m2 : cppName o' ∈ severalNames m := List.mem_map.2 ⟨(o', i'), List.mem_filter.2 ⟨hoi', s2⟩, rfl⟩
        unfold oneofsApart at ha
        have a1 := List.all_eq_true.1 (List.all_eq_true.1 ha _ m1) _ m2
        have a2 := List.all_eq_true.1 (List.all_eq_true.1 ha _ m2) _ m1
        simp only [bne_iff_ne] at a1 a2
        exact ⟨a2, a1⟩
      have io : cppName o ∈ m.oneofs.map cppName := List.mem_map_of_mem hmo
      have io' : cppName o' ∈ m.oneofs.map cppName := List.mem_map_of_mem hmo'
      rcases oneof_mem hn with ⟨f, hf, h1, h2⟩ | ⟨s1, h⟩ <;> rcases oneof_mem hn' with ⟨f', hf', h1', h2'⟩ | ⟨s2, h'⟩
      · have := map_inj nF hf hf' (h2.symm.trans h2')
        subst this
        rw [h1] at h1'
        exact hii (Option.some.inj h1')
      · have hF := fmem f hf
        rw [← h2] at hF
        rcases h' with rfl | rfl | rfl
        · exact (dF _ hF).2.2.1 io'
        · exact (hone o' hmo').1.2 (.inl hF)
        · exact (hone o' hmo').2.2 (.inl hF)
      · have hF := fmem f' hf'
        rw [← h2'] at hF
        rcases h with rfl | rfl | rfl
        · exact (dF _ hF).2.2.1 io
        · exact (hone o hmo).1.2 (.inl hF)
        · exact (hone o hmo).2.2 (.inl hF)
      · have ap := ap s1 s2
        rcases h with rfl | rfl | rfl <;> rcases h' with h' | h' | h'
        · exact hne h'
        · exact (hone o' hmo').1.2 (.inr (.inr (.inr (.inl (h' ▸ io)))))
        · exact (hone o' hmo').2.2 (.inr (.inr (.inr (.inl (h' ▸ io)))))
        · exact (hone o hmo).1.2 (.inr (.inr (.inr (.inl (h' ▸ io')))))
        · rcases appendWord_inj h' with h | h | h
          · exact hne h
          · exact ap.1 h
          · exact ap.2 h
        · exact case_ne_table _ _ h'
        · exact (hone o hmo).2.2 (.inr (.inr (.inr (.inl (h' ▸ io')))))
        · exact case_ne_table _ _ h'.symm
        · rcases appendWord_inj h' with h | h | h
          · exact hne h
          · exact ap.1 h
          · exact ap.2 h
  rw [class_split]
  -- everything after the fixed names
  have tail : ∀ n ∈ (m.enums.map (fun e => cppName e.name) ++
      ((kids.heads.filter (!·.entry)).map (fun k => cppName k.name) ++
      ((m.fields.filter (·.oneof = none)).map (fun f => cppName f.name) ++
      ((m.oneofs.zipIdx.flatMap fun (o, i) => oneofNames m i o) ++ m.extensions.map cppName)))),
      n ∉ fixedNames full m ∧ n ≠ cppName m.name := by
    intro n hn
    simp only [List.mem_append] at hn
    rcases hn with h | h | h | h | h
    · exact hall n (.inr (.inr (.inl h)))
    · exact hall n (.inr (.inl (sK h)))
    · exact hall n (.inl (sF h))
    · rcases hoo n h with ⟨f, hf, _, rfl⟩ | h | ⟨o, hmo, rfl | rfl⟩
      · exact hall _ (.inl (fmem f hf))
      · exact hall n (.inr (.inr (.inr (.inl h))))
      · exact ⟨fixed_all full m (by decide) (case_suffix o), (hone o hmo).1.1⟩
      · exact ⟨fixed_all full m (by decide) (table_suffix o), (hone o hmo).2.1⟩
    · exact hall n (.inr (.inr (.inr (.inr h))))
  rw [List.cons_append, List.nodup_cons, List.mem_append, List.nodup_append]
  refine ⟨?_, fixed_nodup full m, ?_, ?_⟩
  · rintro (h | h)
    · rw [fixed_iff, hc] at h
      cases h
    · exact (tail _ h).2 rfl
  · simp only [List.nodup_append, List.mem_append]
    refine ⟨nE, ⟨(List.filter_sublist.map _).nodup nK, ⟨(List.filter_sublist.map _).nodup nF, ⟨nOO, nX, ?_⟩, ?_⟩, ?_⟩, ?_⟩
    · rintro a ha b hb rfl
      rcases hoo a ha with ⟨f, hf, _, rfl⟩ | h | ⟨o, hmo, rfl | rfl⟩
      · exact (dF _ (fmem f hf)).2.2.2 hb
      · exact dO a h hb
      · exact (hone o hmo).1.2 (.inr (.inr (.inr (.inr hb))))
      · exact (hone o hmo).2.2 (.inr (.inr (.inr (.inr hb))))
    · rintro a ha b hb rfl
      have hF := sF ha
      rcases hb with hb | hb
      · rcases hoo a hb with ⟨f, hf, h1, rfl⟩ | h | ⟨o, hmo, rfl | rfl⟩
        · obtain ⟨f', hf', e⟩ := List.mem_map.1 ha
          have hf'' := List.mem_filter.1 hf'
          have := map_inj nF hf''.1 hf e
          subst this
          exact h1 (by simpa using hf''.2)
        · exact (dF _ hF).2.2.1 h
        · exact (hone o hmo).1.2 (.inl hF)
        · exact (hone o hmo).2.2 (.inl hF)
      · exact (dF _ hF).2.2.2 hb
    · rintro a ha b hb rfl
      have hK := sK ha
      rcases hb with hb | hb | hb
      · exact (dF _ (sF hb)).1 hK
      · rcases hoo a hb with ⟨f, hf, h1, rfl⟩ | h | ⟨o, hmo, rfl | rfl⟩
        · exact (dF _ (fmem f hf)).1 hK
        · exact (dK _ hK).2.1 h
        · exact (hone o hmo).1.2 (.inr (.inl hK))
        · exact (hone o hmo).2.2 (.inr (.inl hK))
      · exact (dK _ hK).2.2 hb
    · rintro a ha b hb rfl
      rcases hb with hb | hb | hb | hb
      · exact (dK _ (sK hb)).1 ha
      · exact (dF _ (sF hb)).2.1 ha
      · rcases hoo a hb with ⟨f, hf, h1, rfl⟩ | h | ⟨o, hmo, rfl | rfl⟩
        · exact (dF _ (fmem f hf)).2.1 ha
        · exact (dE _ ha).1 h
        · exact (hone o hmo).1.2 (.inr (.inr (.inl ha)))
        · exact (hone o hmo).2.2 (.inr (.inr (.inl ha)))
      · exact (dE _ ha).2 hb
  · rintro a ha b hb rfl
    exact (tail a hb).1 ha

end HppProto.Names
