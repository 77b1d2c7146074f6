import Verif.Proofs.Names

/-! # Declarations of messages, enums, extensions and services -/

namespace HppProto.Names
open HppProto Lex

/-- Scope and name in one path. -/
def Decl.key (d : Decl) : List Name := d.spaces ++ d.classes ++ [d.name]

/-- Stronger than not to clash. -/
def Free (a b : Decl) : Prop :=
  a.key ≠ b.key ∨ (a.kind = .space ∧ b.kind = .space) ∨ (a.kind = .function ∧ b.kind = .function)

theorem Free.ok {a b : Decl} (h : Free a b) : ¬ Clash a b := by
  rintro ⟨h1, h2, h3, h4, h5⟩
  rcases h with h | h | h
  · exact h (by unfold Decl.key; rw [h1, h2, h3])
  · exact h4 h
  · exact h5 h

theorem Free.symm {a b : Decl} (h : Free a b) : Free b a := by
  rcases h with h | h | h
  · exact .inl (Ne.symm h)
  · exact .inr (.inl h.symm)
  · exact .inr (.inr h.symm)

/-- A declaration in one of the names `xs` of the namespace `p`, or one of the functions `hs`. -/
def Own (p : List Name) (xs : List Name) (hs : List (List Name)) (d : Decl) : Prop :=
  (∃ x ∈ xs, (p ++ [x]) <+: d.key) ∨ (d.kind = .function ∧ d.key ∈ hs)

/-- The functions are not in the names. -/
def Clear (p : List Name) (xs : List Name) (hs : List (List Name)) : Prop := ∀ x ∈ xs, ∀ h ∈ hs, ¬ (p ++ [x]) <+: h

theorem Own.mono {p xs ys hs ks} {d : Decl} (h : Own p xs hs d) (hx : ∀ x ∈ xs, x ∈ ys) (hh : ∀ x ∈ hs, x ∈ ks) : Own p ys ks d := by
  rcases h with ⟨x, hm, h⟩ | ⟨h1, h2⟩
  · exact .inl ⟨x, hx x hm, h⟩
  · exact .inr ⟨h1, hh _ h2⟩

theorem prefix_same {p : List Name} {x y : Name} {k : List Name} (h1 : (p ++ [x]) <+: k) (h2 : (p ++ [y]) <+: k) : x = y := by
  obtain ⟨t, rfl⟩ := h1
  obtain ⟨u, h⟩ := h2
  simp only [List.append_assoc, List.append_cancel_left_eq, List.cons_append, List.nil_append, List.cons.injEq] at h
  exact h.1.symm

theorem cross {p xs ys hs} {a b : Decl} (ha : Own p xs hs a) (hb : Own p ys hs b) (hd : ∀ x ∈ xs, x ∉ ys) (hx : Clear p xs hs)
    (hy : Clear p ys hs) : Free a b := by
  rcases ha with ⟨x, hm, h⟩ | ⟨h1, h2⟩ <;> rcases hb with ⟨y, hm', h'⟩ | ⟨h1', h2'⟩
  · refine .inl fun e => ?_
    rw [← e] at h'
    exact hd x hm (prefix_same h h' ▸ hm')
  · refine .inl fun e => hx x hm _ h2' (e ▸ h)
  · refine .inl fun e => hy y hm' _ h2 (e ▸ h')
  · exact .inr (.inr ⟨h1, h1'⟩)

theorem class_pair {s c ns : List Name} (h : ns.Nodup) : (inClass s c ns).Pairwise Free := by
  unfold inClass
  rw [List.pairwise_map]
  refine h.imp ?_
  intro a b hne
  refine .inl fun e => hne ?_
  unfold Decl.key at e
  simpa using e

theorem class_key {s c ns : List Name} {d : Decl} (h : d ∈ inClass s c ns) : ∃ n ∈ ns, d.key = s ++ c ++ [n] := by
  obtain ⟨n, hn, rfl⟩ := List.mem_map.1 h
  exact ⟨n, hn, rfl⟩

theorem class_own {p c ns : List Name} {x : Name} {d : Decl} (h : d ∈ inClass p (x :: c) ns) (hs) : Own p [x] hs d := by
  obtain ⟨n, _, hk⟩ := class_key h
  exact .inl ⟨x, by simp, by rw [hk]; exact ⟨c ++ [n], by simp⟩⟩

/-! ## Enums -/

theorem enum_own {p : List Name} {e : EnumDecl} {hs} (hh : p ++ [b!"is_valid"] ∈ hs) : ∀ d ∈ enumDecls p e, Own p [cppName e.name] hs d := by
  intro d hd
  unfold enumDecls at hd
  simp only [List.mem_cons] at hd
  rcases hd with rfl | rfl | hd
  · exact .inl ⟨_, List.mem_singleton.2 rfl, by simp [Decl.key]⟩
  · exact .inr ⟨rfl, by simpa [Decl.key] using hh⟩
  · exact class_own hd hs

theorem enum_pair {p : List Name} {e : EnumDecl} (h : enumOk e = true) (hn : cppName e.name ≠ b!"is_valid") : (enumDecls p e).Pairwise Free := by
  unfold enumOk at h
  rw [Bool.and_eq_true] at h
  unfold enumDecls
  rw [List.pairwise_cons, List.pairwise_cons]
  refine ⟨?_, ?_, class_pair (nodup_of_allNew h.2)⟩
  · intro d hd
    rcases List.mem_cons.1 hd with rfl | hd
    · exact .inl (by simp only [Decl.key, List.append_nil, ne_eq, List.append_cancel_left_eq, List.cons.injEq, and_true]; exact hn)
    · obtain ⟨n, _, hk⟩ := class_key hd
      refine .inl fun e => ?_
      rw [hk] at e
      have := congrArg List.length e
      simp [Decl.key] at this
  · intro d hd
    obtain ⟨n, _, hk⟩ := class_key hd
    refine .inl fun e => ?_
    rw [hk] at e
    have := congrArg List.length e
    simp [Decl.key] at this

/-- Enums of a namespace together. -/
theorem enums_pair {p : List Name} {es : List EnumDecl} {hs} (hh : p ++ [b!"is_valid"] ∈ hs) (hok : ∀ e ∈ es, enumOk e = true)
    (hn : (es.map fun e => cppName e.name).Nodup) (hc : Clear p (es.map fun e => cppName e.name) hs) :
    (es.flatMap (enumDecls p)).Pairwise Free := by
  rw [List.pairwise_flatMap]
  constructor
  · intro e he
    refine enum_pair (hok e he) fun e' => ?_
    exact hc _ (List.mem_map_of_mem (f := fun e : EnumDecl => cppName e.name) he) _ hh (by rw [e']; exact List.prefix_refl _)
  · unfold List.Nodup at hn
    rw [List.pairwise_map] at hn
    refine hn.imp_of_mem ?_
    intro a b ha hb hne x hx y hy
    refine cross (enum_own hh x hx) (enum_own hh y hy) (by simpa using hne) ?_ ?_
    · intro z hz; rw [List.mem_singleton.1 hz]; exact hc _ (List.mem_map_of_mem (f := fun e : EnumDecl => cppName e.name) ha)
    · intro z hz; rw [List.mem_singleton.1 hz]; exact hc _ (List.mem_map_of_mem (f := fun e : EnumDecl => cppName e.name) hb)

theorem enums_own {p : List Name} {es : List EnumDecl} {hs} (hh : p ++ [b!"is_valid"] ∈ hs) :
    ∀ d ∈ es.flatMap (enumDecls p), Own p (es.map fun e => cppName e.name) hs d := by
  intro d hd
  obtain ⟨e, he, hd⟩ := List.mem_flatMap.1 hd
  refine (enum_own hh d hd).mono ?_ (fun _ h => h)
  intro x hx
  rw [List.mem_singleton.1 hx]
  exact List.mem_map_of_mem (f := fun e : EnumDecl => cppName e.name) he

/-! ## Extensions -/

theorem extension_nodup {x : Name} (h : isFixedExtMember (cppName x) = false) : (extensionNames x).Nodup := by
  unfold isFixedExtMember at h
  simp only [Bool.or_eq_false_iff, beq_eq_false_iff_ne] at h
  unfold extensionNames
  rw [List.nodup_cons]
  refine ⟨?_, by decide⟩
  simp only [List.mem_cons, List.not_mem_nil, or_false, not_or]
  exact ⟨h.1.1.1, h.1.1.2, h.1.2, h.2⟩

/-! ## Messages -/

/-- The functions that messages and enums in the namespace `p` add. -/
def functions (top p : List Name) : List (List Name) := [p ++ [b!"is_valid"], p ++ [b!"pb_meta"], top ++ [b!"message_type_url"]]

/-- What one message declares that is not a map entry. -/
def oneMsg (top p : List Name) (scope : Name) (m : MsgDecl) (kids : Msgs) : List Decl :=
  (if m.enums ≠ [] || kids.heads.any (!·.entry) then
    ⟨p, [], nestedScope m.name, .space⟩ :: m.enums.flatMap (enumDecls (p ++ [nestedScope m.name])) ++
      msgDecls top (p ++ [nestedScope m.name]) (fullName scope m.name) kids
  else []) ++
  ([⟨p, [], cppName m.name, .entity⟩, ⟨top, [], b!"message_type_url", .function⟩, ⟨p, [], b!"pb_meta", .function⟩] ++
  (inClass p [cppName m.name] (classNames (fullName scope m.name) m kids) ++
    m.extensions.flatMap fun x => inClass p [cppName m.name, cppName x] (extensionNames x)))

theorem msgDecls_cons (top p : List Name) (scope : Name) (m : MsgDecl) (kids rest : Msgs) : msgDecls top p scope (.cons m kids rest) =
    (if m.entry then [] else oneMsg top p scope m kids) ++ msgDecls top p scope rest := by
  rw [msgDecls]
  unfold oneMsg
  simp only [List.append_assoc]

theorem own_below {p xs hs} {s : Name} {top : List Name} {d : Decl} (h : Own (p ++ [s]) xs (functions top (p ++ [s])) d)
    (hh : top ++ [b!"message_type_url"] ∈ hs) : Own p [s] hs d := by
  rcases h with ⟨x, _, h⟩ | ⟨h1, h2⟩
  · exact .inl ⟨s, by simp, (List.prefix_append _ _).trans h⟩
  · unfold functions at h2
    simp only [List.mem_cons, List.not_mem_nil, or_false] at h2
    rcases h2 with h2 | h2 | h2
    · exact .inl ⟨s, by simp, by rw [h2]; exact List.prefix_append _ _⟩
    · exact .inl ⟨s, by simp, by rw [h2]; exact List.prefix_append _ _⟩
    · exact .inr ⟨h1, by rw [h2]; exact hh⟩

/-- The part of a message that is not its nested namespace. -/
theorem struct_own (top p : List Name) (full : Name) (m : MsgDecl) (kids : Msgs) :
    ∀ d ∈ ([⟨p, [], cppName m.name, .entity⟩, ⟨top, [], b!"message_type_url", .function⟩, ⟨p, [], b!"pb_meta", .function⟩] ++
      (inClass p [cppName m.name] (classNames full m kids) ++
      m.extensions.flatMap fun x => inClass p [cppName m.name, cppName x] (extensionNames x)) : List Decl),
      Own p [cppName m.name] (functions top p) d := by
  intro d hd
  simp only [List.mem_append, List.mem_cons, List.not_mem_nil, or_false] at hd
  rcases hd with (rfl | rfl | rfl) | hd | hd
  · exact .inl ⟨_, List.mem_singleton.2 rfl, by simp [Decl.key]⟩
  · exact .inr ⟨rfl, by simp [Decl.key, functions]⟩
  · exact .inr ⟨rfl, by simp [Decl.key, functions]⟩
  · exact class_own hd _
  · obtain ⟨x, _, hd⟩ := List.mem_flatMap.1 hd
    exact class_own hd _

theorem struct_pair {top p : List Name} {full : Name} {m : MsgDecl} {kids : Msgs} (hc : Clear p [cppName m.name] (functions top p))
    (hnd : (classNames full m kids).Nodup) (hx : (m.extensions.map cppName).Nodup)
    (hxf : ∀ x ∈ m.extensions, isFixedExtMember (cppName x) = false) :
    ([⟨p, [], cppName m.name, .entity⟩, ⟨top, [], b!"message_type_url", .function⟩, ⟨p, [], b!"pb_meta", .function⟩] ++
      (inClass p [cppName m.name] (classNames full m kids) ++
      m.extensions.flatMap fun x => inClass p [cppName m.name, cppName x] (extensionNames x)) : List Decl).Pairwise Free := by
  have hmem : cppName m.name ∈ [cppName m.name] := List.mem_singleton.2 rfl
  have m2 : p ++ [b!"pb_meta"] ∈ functions top p := by simp [functions]
  have m3 : top ++ [b!"message_type_url"] ∈ functions top p := by simp [functions]
  have below : ∀ d ∈ (inClass p [cppName m.name] (classNames full m kids) ++
      m.extensions.flatMap fun x => inClass p [cppName m.name, cppName x] (extensionNames x)),
      ∃ t, t ≠ [] ∧ d.key = p ++ [cppName m.name] ++ t := by
    intro d hd
    rcases List.mem_append.1 hd with hd | hd
    · obtain ⟨n, _, hk⟩ := class_key hd
      exact ⟨[n], by simp, hk⟩
    · obtain ⟨x, _, hd⟩ := List.mem_flatMap.1 hd
      obtain ⟨n, _, hk⟩ := class_key hd
      exact ⟨[cppName x, n], by simp, by rw [hk]; simp⟩
  rw [List.pairwise_append]
  refine ⟨?_, ?_, ?_⟩
  · simp only [List.pairwise_cons, List.mem_cons, List.not_mem_nil, or_false, forall_eq_or_imp, forall_eq, false_imp_iff, implies_true,
      List.Pairwise.nil, and_true]
    refine ⟨⟨.inl fun e => ?_, .inl fun e => ?_⟩, .inr (.inr ⟨rfl, rfl⟩)⟩
    · simp only [Decl.key, List.append_nil] at e
      exact hc _ hmem _ m3 (by rw [← e]; exact List.prefix_refl _)
    · simp only [Decl.key, List.append_nil] at e
      exact hc _ hmem _ m2 (by rw [← e]; exact List.prefix_refl _)
  · rw [List.pairwise_append]
    refine ⟨class_pair hnd, ?_, ?_⟩
    · rw [List.pairwise_flatMap]
      refine ⟨fun x hxm => class_pair (extension_nodup (hxf x hxm)), ?_⟩
      unfold List.Nodup at hx
      rw [List.pairwise_map] at hx
      refine hx.imp ?_
      intro a b hne d hd d' hd'
      obtain ⟨n, _, hk⟩ := class_key hd
      obtain ⟨n', _, hk'⟩ := class_key hd'
      refine .inl fun e => hne ?_
      rw [hk, hk'] at e
      simp at e
      exact e.1
    · intro d hd d' hd'
      obtain ⟨x, _, hd'⟩ := List.mem_flatMap.1 hd'
      obtain ⟨n, _, hk⟩ := class_key hd
      obtain ⟨n', _, hk'⟩ := class_key hd'
      refine .inl fun e => ?_
      rw [hk, hk'] at e
      have := congrArg List.length e
      simp at this
  · intro d hd d' hd'
    obtain ⟨t, ht, hk⟩ := below d' hd'
    refine .inl fun e => ?_
    rw [hk] at e
    simp only [List.mem_cons, List.not_mem_nil, or_false] at hd
    rcases hd with rfl | rfl | rfl
    · simp [Decl.key] at e
      exact ht e
    · exact hc _ hmem _ m3 ⟨t, by rw [← e]; simp [Decl.key]⟩
    · exact hc _ hmem _ m2 ⟨t, by rw [← e]; simp [Decl.key]⟩

theorem msgs_own (top : List Name) : ∀ (ms : Msgs) (p : List Name) (scope : Name),
    ∀ d ∈ msgDecls top p scope ms, Own p (messageNames ms.heads) (functions top p) d := by
  intro ms
  induction ms with
  | nil => intro p scope d hd; simp [msgDecls] at hd
  | cons m kids rest ihk ihr =>
    intro p scope d hd
    have m3 : top ++ [b!"message_type_url"] ∈ functions top p := by simp [functions]
    rw [msgDecls_cons, List.mem_append] at hd
    have hsub : ∀ x ∈ [cppName m.name, nestedScope m.name], x ∈ messageNames (Msgs.cons m kids rest).heads := by
      intro x hx
      simp only [messageNames, Msgs.heads, List.flatMap_cons, List.mem_append]
      exact .inl hx
    rcases hd with hd | hd
    · split at hd
      · cases hd
      · unfold oneMsg at hd
        rw [List.mem_append] at hd
        rcases hd with hd | hd
        · have : Own p [nestedScope m.name] (functions top p) d := by
            split at hd
            · rw [List.cons_append, List.mem_cons, List.mem_append] at hd
              rcases hd with rfl | hd | hd
              · exact .inl ⟨_, List.mem_singleton.2 rfl, by simp [Decl.key]⟩
              · exact own_below (enums_own (hs := functions top (p ++ [nestedScope m.name])) (by simp [functions]) d hd) m3
              · exact own_below (ihk _ _ d hd) m3
            · cases hd
          exact this.mono (fun x hx => hsub x (by rw [List.mem_singleton.1 hx]; simp)) (fun _ h => h)
        · exact (struct_own top p _ m kids d hd).mono (fun x hx => hsub x (by rw [List.mem_singleton.1 hx]; simp)) (fun _ h => h)
    · refine (ihr p scope d hd).mono ?_ (fun _ h => h)
      intro x hx
      simp only [messageNames, Msgs.heads, List.flatMap_cons, List.mem_append]
      exact .inr hx

/-- The names of messages that passed the checks are not names of functions. -/
theorem heads_helper : ∀ (ms : Msgs) (scope : Name), messagesOk scope ms = true → ∀ x ∈ messageNames ms.heads, isHelper x = false := by
  intro ms
  induction ms with
  | nil => intro scope _ x hx; simp [messageNames, Msgs.heads] at hx
  | cons m kids rest _ ihr =>
    intro scope h x hx
    simp only [messagesOk, Bool.and_eq_true, Bool.not_eq_true', Bool.or_eq_false_iff] at h
    simp only [messageNames, Msgs.heads, List.flatMap_cons, List.mem_append, List.mem_cons, List.not_mem_nil, or_false] at hx
    rcases hx with (rfl | rfl) | hx
    · exact h.1.1.1.1.1.1.2
    · exact scope_helper _
    · exact ihr scope h.2 x hx

theorem clear_of {p top : List Name} {xs : List Name} (h1 : ∀ x ∈ xs, isHelper x = false)
    (h2 : ∀ x ∈ xs, ¬ (p ++ [x]) <+: top ++ [b!"message_type_url"]) : Clear p xs (functions top p) := by
  intro x hx h hh
  have hn := not_helper (h1 x hx)
  unfold functions at hh
  simp only [List.mem_cons, List.not_mem_nil, or_false] at hh
  rcases hh with rfl | rfl | rfl
  · exact fun e => hn.2.2 (prefix_same e (List.prefix_refl _))
  · exact fun e => hn.2.1 (prefix_same e (List.prefix_refl _))
  · exact h2 x hx

theorem msgs_pair (top : List Name) : ∀ (ms : Msgs) (p : List Name) (scope : Name), messagesOk scope ms = true → allOneofsApart ms = true →
    (messageNames ms.heads).Nodup → (∀ x ∈ messageNames ms.heads, ¬ (p ++ [x]) <+: top ++ [b!"message_type_url"]) →
    (msgDecls top p scope ms).Pairwise Free := by
  intro ms
  induction ms with
  | nil => intro p scope _ _ _ _; simp [msgDecls]
  | cons m kids rest ihk ihr =>
    intro p scope hok hap hnd htop
    have hhelp := heads_helper _ scope hok
    have hclear := clear_of hhelp htop
    have hhelpK : ∀ sc, messagesOk sc kids = true → _ := heads_helper kids
    simp only [messagesOk, Bool.and_eq_true, Bool.not_eq_true', Bool.or_eq_false_iff] at hok
    obtain ⟨⟨⟨⟨⟨⟨⟨hfix, hhm⟩, hmem⟩, hone⟩, hns⟩, hen⟩, hkids⟩, hrest⟩ := hok
    simp only [allOneofsApart, Bool.and_eq_true] at hap
    have hsplit : messageNames (Msgs.cons m kids rest).heads = [cppName m.name, nestedScope m.name] ++ messageNames rest.heads := by
      simp [messageNames, Msgs.heads]
    rw [hsplit] at hnd hhelp htop hclear
    rw [List.nodup_append] at hnd
    obtain ⟨hnd1, hnd2, hnd3⟩ := hnd
    have m3 : ∀ q, top ++ [b!"message_type_url"] ∈ functions top q := by simp [functions]
    have sub1 : ∀ x ∈ [cppName m.name], x ∈ [cppName m.name, nestedScope m.name] ++ messageNames rest.heads := by simp
    have sub2 : ∀ x ∈ [nestedScope m.name], x ∈ [cppName m.name, nestedScope m.name] ++ messageNames rest.heads := by simp
    have clear1 : Clear p [cppName m.name] (functions top p) := fun x hx => hclear x (sub1 x hx)
    have clear2 : Clear p [nestedScope m.name] (functions top p) := fun x hx => hclear x (sub2 x hx)
    -- the nested namespace
    have hnsN := nodup_of_allNew hns
    rw [List.append_assoc, List.nodup_append, List.nodup_append] at hnsN
    obtain ⟨nM, ⟨nE, nX, _⟩, nME⟩ := hnsN
    have hscope : ¬ (p ++ [nestedScope m.name]) <+: top ++ [b!"message_type_url"] := htop _ (by simp)
    have htopK : ∀ x, ¬ (p ++ [nestedScope m.name] ++ [x]) <+: top ++ [b!"message_type_url"] :=
      fun x h => hscope ((List.prefix_append _ _).trans h)
    have hhelpK := hhelpK _ hkids
    unfold membersOk at hmem
    rw [Bool.and_eq_true] at hmem
    have hmem' := List.all_eq_true.1 hmem.1
    have hhelpE : ∀ x ∈ m.enums.map (fun e => cppName e.name), isHelper x = false := by
      intro x hx
      obtain ⟨e, he, rfl⟩ := List.mem_map.1 hx
      have := hmem' ⟨cppName e.name, true, false⟩ (by
        unfold members
        simp only [List.mem_append, List.mem_map]
        exact .inl (.inl (.inr ⟨e, he, rfl⟩)))
      simp only [memberOk, Bool.and_eq_true, Bool.not_eq_true', Bool.true_and] at this
      exact this.1.1.2
    have hext : ∀ x ∈ m.extensions, isFixedExtMember (cppName x) = false := by
      intro x hx
      have := hmem' ⟨cppName x, false, true⟩ (by
        unfold members
        simp only [List.mem_append, List.mem_map]
        exact .inr ⟨x, hx, rfl⟩)
      simp only [memberOk, Bool.and_eq_true, Bool.not_eq_true', Bool.true_and] at this
      exact this.1.2
    have clearK := clear_of hhelpK (p := p ++ [nestedScope m.name]) (top := top) (fun x _ => htopK x)
    have clearE := clear_of hhelpE (p := p ++ [nestedScope m.name]) (top := top) (fun x _ => htopK x)
    have ownE := enums_own (p := p ++ [nestedScope m.name]) (es := m.enums) (hs := functions top (p ++ [nestedScope m.name])) (by simp [functions])
    have ownK := msgs_own top kids (p ++ [nestedScope m.name]) (fullName scope m.name)
    have pairE := enums_pair (p := p ++ [nestedScope m.name]) (hs := functions top (p ++ [nestedScope m.name])) (by simp [functions])
      (List.all_eq_true.1 hen) nE clearE
    have pairK := ihk (p ++ [nestedScope m.name]) (fullName scope m.name) hkids hap.1.2 nM (fun x _ => htopK x)
    have nestPair : (⟨p, [], nestedScope m.name, .space⟩ :: m.enums.flatMap (enumDecls (p ++ [nestedScope m.name])) ++
        msgDecls top (p ++ [nestedScope m.name]) (fullName scope m.name) kids : List Decl).Pairwise Free := by
      rw [List.cons_append, List.pairwise_cons]
      constructor
      · intro d hd
        refine .inl fun e => ?_
        have hk : Decl.key ⟨p, [], nestedScope m.name, .space⟩ = p ++ [nestedScope m.name] := by simp [Decl.key]
        rw [hk] at e
        have key : ∀ {xs}, Own (p ++ [nestedScope m.name]) xs (functions top (p ++ [nestedScope m.name])) d → False := by
          intro xs h
          rcases h with ⟨x, _, h⟩ | ⟨_, h⟩
          · rw [← e] at h
            have := h.length_le
            simp at this
          · unfold functions at h
            simp only [List.mem_cons, List.not_mem_nil, or_false] at h
            rw [← e] at h
            rcases h with h | h | h
            · have := congrArg List.length h; simp at this
            · have := congrArg List.length h; simp at this
            · exact hscope (by rw [h]; exact List.prefix_refl _)
        rcases List.mem_append.1 hd with hd | hd
        · exact key (ownE d hd)
        · exact key (ownK d hd)
      · rw [List.pairwise_append]
        refine ⟨pairE, pairK, ?_⟩
        intro a ha b hb
        refine cross (ownE a ha) (ownK b hb) ?_ clearE clearK
        intro x hx hx'
        exact nME x hx' x (List.mem_append.2 (.inl hx)) rfl
    have nestOwn : ∀ d ∈ (⟨p, [], nestedScope m.name, .space⟩ :: m.enums.flatMap (enumDecls (p ++ [nestedScope m.name])) ++
        msgDecls top (p ++ [nestedScope m.name]) (fullName scope m.name) kids : List Decl), Own p [nestedScope m.name] (functions top p) d := by
      intro d hd
      rw [List.cons_append, List.mem_cons, List.mem_append] at hd
      rcases hd with rfl | hd | hd
      · exact .inl ⟨_, List.mem_singleton.2 rfl, by simp [Decl.key]⟩
      · exact own_below (ownE d hd) (m3 _)
      · exact own_below (ownK d hd) (m3 _)
    have nX' : (m.extensions.map cppName).Nodup := nX
    have classN := class_nodup (full := fullName scope m.name) (m := m) (kids := kids) (by unfold membersOk; rw [Bool.and_eq_true]; exact hmem)
      hone hap.1.1 hfix
    have sp := struct_pair (top := top) (p := p) clear1 classN nX' hext
    have so := struct_own top p (fullName scope m.name) m kids
    have hcs : cppName m.name ≠ nestedScope m.name := by
      intro e
      simp [e] at hnd1
    have onePair : (oneMsg top p scope m kids).Pairwise Free := by
      unfold oneMsg
      rw [List.pairwise_append]
      refine ⟨?_, sp, ?_⟩
      · split
        · exact nestPair
        · exact List.Pairwise.nil
      · intro a ha b hb
        split at ha
        · refine cross (nestOwn a ha) (so b hb) ?_ clear2 clear1
          intro x hx hx'
          rw [List.mem_singleton] at hx hx'
          exact hcs (hx'.symm.trans hx)
        · cases ha
    rw [msgDecls_cons, List.pairwise_append]
    refine ⟨?_, ihr p scope hrest hap.2 hnd2 (fun x hx => htop x (List.mem_append.2 (.inr hx))), ?_⟩
    · split
      · exact List.Pairwise.nil
      · exact onePair
    · intro a ha b hb
      split at ha
      · cases ha
      · have hown : Own p [cppName m.name, nestedScope m.name] (functions top p) a := by
          unfold oneMsg at ha
          rcases List.mem_append.1 ha with ha | ha
          · split at ha
            · exact (nestOwn a ha).mono (fun x hx => by rw [List.mem_singleton.1 hx]; simp) (fun _ h => h)
            · cases ha
          · exact (so a ha).mono (fun x hx => by rw [List.mem_singleton.1 hx]; simp) (fun _ h => h)
        refine cross hown (msgs_own top rest p scope b hb) ?_ (fun x hx => hclear x (List.mem_append.2 (.inl hx)))
          (fun x hx => hclear x (List.mem_append.2 (.inr hx)))
        intro x hx hx'
        exact hnd3 x hx x hx' rfl

/-! ## Services -/

theorem service_own {p : List Name} {s : ServiceDecl} {hs} : ∀ d ∈ serviceDecls p s, Own p [cppName s.name] hs d := by
  intro d hd
  unfold serviceDecls at hd
  split at hd
  · cases hd
  · refine .inl ⟨_, List.mem_singleton.2 rfl, ?_⟩
    rw [List.cons_append, List.mem_cons, List.mem_append] at hd
    rcases hd with rfl | hd | hd
    · simp [Decl.key]
    · obtain ⟨n, _, hk⟩ := class_key hd
      exact ⟨[n], by rw [hk]; simp⟩
    · obtain ⟨x, _, hd⟩ := List.mem_flatMap.1 hd
      obtain ⟨n, _, hk⟩ := class_key hd
      exact ⟨[cppName x, n], by rw [hk]; simp⟩

theorem service_pair {p : List Name} {s : ServiceDecl} (hok : ∀ n ∈ s.methods, methodNameOk n = true)
    (hn : (s.methods.map cppName).Nodup) (hm : ∀ n ∈ s.methods, cppName n ≠ b!"_methods") : (serviceDecls p s).Pairwise Free := by
  unfold serviceDecls
  split
  · exact List.Pairwise.nil
  · rw [List.cons_append, List.pairwise_cons, List.pairwise_append]
    refine ⟨?_, ?_, ?_, ?_⟩
    · intro d hd
      refine .inl fun e => ?_
      have hl : ∃ t, t ≠ [] ∧ d.key = p ++ [cppName s.name] ++ t := by
        rcases List.mem_append.1 hd with hd | hd
        · obtain ⟨n, _, hk⟩ := class_key hd
          exact ⟨[n], by simp, by rw [hk]; simp⟩
        · obtain ⟨x, _, hd⟩ := List.mem_flatMap.1 hd
          obtain ⟨n, _, hk⟩ := class_key hd
          exact ⟨[cppName x, n], by simp, by rw [hk]; simp⟩
      obtain ⟨t, ht, hk⟩ := hl
      rw [hk] at e
      simp [Decl.key] at e
      exact ht e
    · refine class_pair ?_
      rw [List.nodup_append]
      refine ⟨hn, by simp, ?_⟩
      intro a ha b hb
      obtain ⟨n, hmn, rfl⟩ := List.mem_map.1 ha
      rw [List.mem_singleton.1 hb]
      exact hm n hmn
    · rw [List.pairwise_flatMap]
      constructor
      · intro n hmn
        refine class_pair ?_
        have := hok n hmn
        unfold methodNameOk isMethodMember at this
        simp only [Bool.and_eq_true, Bool.not_eq_true', Bool.or_eq_false_iff, beq_eq_false_iff_ne] at this
        rw [List.nodup_cons]
        refine ⟨?_, by decide⟩
        simp only [List.mem_cons, List.not_mem_nil, or_false, not_or]
        have h := this.2
        exact ⟨h.1.1.1.1.1.1, h.1.1.1.1.1.2, h.1.1.1.1.2, h.1.1.1.2, h.1.1.2, h.1.2, h.2⟩
      · unfold List.Nodup at hn
        rw [List.pairwise_map] at hn
        refine hn.imp ?_
        intro a b hne d hd d' hd'
        obtain ⟨n, _, hk⟩ := class_key hd
        obtain ⟨n', _, hk'⟩ := class_key hd'
        refine .inl fun e => hne ?_
        rw [hk, hk'] at e
        simp at e
        exact e.1
    · intro d hd d' hd'
      obtain ⟨x, _, hd'⟩ := List.mem_flatMap.1 hd'
      obtain ⟨n, _, hk⟩ := class_key hd
      obtain ⟨n', _, hk'⟩ := class_key hd'
      refine .inl fun e => ?_
      rw [hk, hk'] at e
      have := congrArg List.length e
      simp at this

end HppProto.Names
