import Verif.Proofs.NamesTree

/-! # Declarations of files -/

namespace HppProto.Names
open HppProto Lex

/-- What the checks of a file say. -/
structure FileFacts (f : FileDecl) : Prop where
  messages : messagesOk (dotted f.package) f.messages = true
  enums : ∀ e ∈ f.enums, enumOk e = true ∧ isHelper (cppName e.name) = false
  extensions : ∀ x ∈ f.extensions, isFixedExtMember (cppName x) = false ∧ isHelper (cppName x) = false
  services : ∀ s ∈ f.services, s.methods ≠ [] → isHelper (cppName s.name) = false ∧ (∀ n ∈ s.methods, methodNameOk n = true) ∧
    (s.methods.map cppName).Nodup

theorem fileOk_facts {f : FileDecl} (h : fileOk f = true) : FileFacts f := by
  unfold fileOk at h
  simp only [Bool.and_eq_true] at h
  obtain ⟨⟨⟨⟨_, hx⟩, he⟩, hs⟩, hm⟩ := h
  refine ⟨hm, fun e hm => ?_, fun x hm => ?_, fun s hm hne => ?_⟩
  · have := List.all_eq_true.1 he e hm
    simpa using this
  · have := List.all_eq_true.1 hx x hm
    simpa using this
  · have := List.all_eq_true.1 hs s (List.mem_filter.2 ⟨hm, by simpa using hne⟩)
    simp only [Bool.and_eq_true] at this
    obtain ⟨⟨h1, h2⟩, h3⟩ := this
    unfold serviceNameOk at h1
    simp only [Bool.and_eq_true, Bool.not_eq_true'] at h1
    exact ⟨h1.2, List.all_eq_true.1 h2, nodup_of_allNew h3⟩

theorem top_helper {f : FileDecl} (h : FileFacts f) : ∀ x ∈ f.topNames, isHelper x = false := by
  intro x hx
  unfold FileDecl.topNames at hx
  simp only [List.mem_append, List.mem_map, List.mem_filter, decide_eq_true_eq] at hx
  rcases hx with ((hx | ⟨y, hy, rfl⟩) | ⟨e, he, rfl⟩) | ⟨s, ⟨hs, hne⟩, rfl⟩
  · exact heads_helper _ _ h.messages x hx
  · exact (h.extensions y hy).2
  · exact (h.enums e he).2
  · exact (h.services s hs (by simpa using hne)).1

theorem top_clear {f : FileDecl} (h : FileFacts f) : Clear f.ns f.topNames (functions f.ns f.ns) := by
  refine clear_of (top_helper h) fun x hx e => ?_
  exact (not_helper (top_helper h x hx)).1 (prefix_same e (List.prefix_refl _))

theorem services_filter (p : List Name) : ∀ ss : List ServiceDecl, ss.flatMap (serviceDecls p) =
    (ss.filter (·.methods ≠ [])).flatMap (serviceDecls p) := by
  intro ss
  induction ss with
  | nil => rfl
  | cons s ss ih =>
    rw [List.flatMap_cons, ih]
    by_cases h : s.methods = []
    · rw [List.filter_cons_of_neg (by simpa using h)]
      simp [serviceDecls, h]
    · rw [List.filter_cons_of_pos (by simpa using h), List.flatMap_cons]

theorem space_key : ∀ (ns done : List Name), ∀ d ∈ spaceDecls done ns, d.kind = .space ∧ ∃ a s b, ns = a ++ s :: b ∧ d.key = done ++ a ++ [s] := by
  intro ns
  induction ns with
  | nil => intro done d hd; cases hd
  | cons x ns ih =>
    intro done d hd
    rcases List.mem_cons.1 hd with rfl | hd
    · exact ⟨rfl, [], x, ns, rfl, by simp [Decl.key]⟩
    · obtain ⟨h1, a, s, b, h2, h3⟩ := ih _ d hd
      exact ⟨h1, x :: a, s, b, by rw [h2]; rfl, by rw [h3]; simp⟩

theorem space_pair (ns done : List Name) : (spaceDecls done ns).Pairwise Free := by
  rw [List.pairwise_iff_forall_sublist]
  intro a b h
  have ha := h.subset (List.mem_cons_self ..)
  have hb := h.subset (List.mem_cons_of_mem _ (List.mem_cons_self ..))
  exact .inr (.inl ⟨(space_key ns done a ha).1, (space_key ns done b hb).1⟩)

/-- Extensions of a file. -/
def extDecls (p : List Name) (x : Name) : List Decl := ⟨p, [], cppName x, .entity⟩ :: inClass p [cppName x] (extensionNames x)

theorem ext_own {p : List Name} {x : Name} {hs} : ∀ d ∈ extDecls p x, Own p [cppName x] hs d := by
  intro d hd
  rcases List.mem_cons.1 hd with rfl | hd
  · exact .inl ⟨_, List.mem_singleton.2 rfl, by simp [Decl.key]⟩
  · exact class_own hd hs

theorem ext_pair {p : List Name} {x : Name} (h : isFixedExtMember (cppName x) = false) : (extDecls p x).Pairwise Free := by
  unfold extDecls
  rw [List.pairwise_cons]
  refine ⟨fun d hd => ?_, class_pair (extension_nodup h)⟩
  obtain ⟨n, _, hk⟩ := class_key hd
  refine .inl fun e => ?_
  rw [hk] at e
  have := congrArg List.length e
  simp [Decl.key] at this

/-- The declarations of a file in its namespace. -/
def bodyDecls (f : FileDecl) : List Decl :=
  f.enums.flatMap (enumDecls f.ns) ++ (msgDecls f.ns f.ns (dotted f.package) f.messages ++
    (f.extensions.flatMap (extDecls f.ns) ++ (f.services.filter (·.methods ≠ [])).flatMap (serviceDecls f.ns)))

theorem fileDecls_split (f : FileDecl) : fileDecls f = spaceDecls [] f.ns ++ bodyDecls f := by
  unfold fileDecls bodyDecls
  rw [services_filter]
  simp only [List.append_assoc]
  rfl

/-- Things with a name of their own, together. -/
theorem items_pair {α : Type} {p : List Name} {hs} {l : List α} {name : α → Name} {g : α → List Decl} (hn : (l.map name).Nodup)
    (hc : Clear p (l.map name) hs) (ho : ∀ a ∈ l, ∀ d ∈ g a, Own p [name a] hs d) (hp : ∀ a ∈ l, (g a).Pairwise Free) :
    (l.flatMap g).Pairwise Free := by
  rw [List.pairwise_flatMap]
  refine ⟨hp, ?_⟩
  unfold List.Nodup at hn
  rw [List.pairwise_map] at hn
  refine hn.imp_of_mem ?_
  intro a b ha hb hne x hx y hy
  refine cross (ho a ha x hx) (ho b hb y hy) (by simpa using hne) ?_ ?_
  · intro z hz; rw [List.mem_singleton.1 hz]; exact hc _ (List.mem_map_of_mem ha)
  · intro z hz; rw [List.mem_singleton.1 hz]; exact hc _ (List.mem_map_of_mem hb)

theorem items_own {α : Type} {p : List Name} {hs} {l : List α} {name : α → Name} {g : α → List Decl}
    (ho : ∀ a ∈ l, ∀ d ∈ g a, Own p [name a] hs d) : ∀ d ∈ l.flatMap g, Own p (l.map name) hs d := by
  intro d hd
  obtain ⟨a, ha, hd⟩ := List.mem_flatMap.1 hd
  refine (ho a ha d hd).mono ?_ (fun _ h => h)
  intro x hx
  rw [List.mem_singleton.1 hx]
  exact List.mem_map_of_mem ha

theorem body_own (f : FileDecl) : ∀ d ∈ bodyDecls f, Own f.ns f.topNames (functions f.ns f.ns) d := by
  intro d hd
  unfold bodyDecls at hd
  simp only [List.mem_append] at hd
  unfold FileDecl.topNames
  rcases hd with hd | hd | hd | hd
  · refine (enums_own (hs := functions f.ns f.ns) (by simp [functions]) d hd).mono (fun x hx => ?_) (fun _ h => h)
    simp only [List.mem_append]
    exact .inl (.inr hx)
  · refine (msgs_own f.ns f.messages f.ns _ d hd).mono (fun x hx => ?_) (fun _ h => h)
    simp only [List.mem_append]
    exact .inl (.inl (.inl hx))
  · refine (items_own (name := cppName) (fun a _ => ext_own (hs := functions f.ns f.ns)) d hd).mono (fun x hx => ?_) (fun _ h => h)
    simp only [List.mem_append]
    exact .inl (.inl (.inr hx))
  · refine (items_own (name := fun s => cppName s.name) (fun a _ => service_own (hs := functions f.ns f.ns)) d hd).mono
      (fun x hx => ?_) (fun _ h => h)
    simp only [List.mem_append]
    exact .inr hx

theorem body_pair {f : FileDecl} (h : FileFacts f) (ha : allOneofsApart f.messages = true) (hm : noMethods f = true) (hn : f.topNames.Nodup) :
    (bodyDecls f).Pairwise Free := by
  have hc := top_clear h
  have hh := top_helper h
  unfold FileDecl.topNames at hn hc hh
  simp only [List.append_assoc, List.nodup_append, List.mem_append] at hn
  obtain ⟨nM, ⟨nX, ⟨nE, nS, d3⟩, d2⟩, d1⟩ := hn
  have cM : Clear f.ns (messageNames f.messages.heads) (functions f.ns f.ns) := fun x hx => hc x (by simp [hx])
  have cX : Clear f.ns (f.extensions.map cppName) (functions f.ns f.ns) := fun x hx => hc x (List.mem_append.2 (.inl (List.mem_append.2 (.inl (List.mem_append.2 (.inr hx))))))
  have cE : Clear f.ns (f.enums.map fun e => cppName e.name) (functions f.ns f.ns) := fun x hx => hc x (List.mem_append.2 (.inl (List.mem_append.2 (.inr hx))))
  have cS : Clear f.ns ((f.services.filter (·.methods ≠ [])).map fun s => cppName s.name) (functions f.ns f.ns) :=
    fun x hx => hc x (List.mem_append.2 (.inr hx))
  have oE := enums_own (p := f.ns) (es := f.enums) (hs := functions f.ns f.ns) (by simp [functions])
  have oM := msgs_own f.ns f.messages f.ns (dotted f.package)
  have oX := items_own (l := f.extensions) (name := cppName) (fun a _ => ext_own (p := f.ns) (x := a) (hs := functions f.ns f.ns))
  have oS := items_own (l := f.services.filter (·.methods ≠ [])) (name := fun s => cppName s.name)
    (fun a _ => service_own (p := f.ns) (s := a) (hs := functions f.ns f.ns))
  unfold bodyDecls
  simp only [List.pairwise_append, List.mem_append]
  refine ⟨?_, ⟨?_, ⟨?_, ?_, ?_⟩, ?_⟩, ?_⟩
  · exact enums_pair (hs := functions f.ns f.ns) (by simp [functions]) (fun e he => (h.enums e he).1) nE cE
  · exact msgs_pair f.ns f.messages f.ns _ h.messages ha nM fun x hx e =>
      (not_helper (hh x (by simp [hx]))).1 (prefix_same e (List.prefix_refl _))
  · exact items_pair nX cX (fun a _ => ext_own) (fun a ha => ext_pair (h.extensions a ha).1)
  · refine items_pair nS cS (fun a _ => service_own) fun s hs => ?_
    have hs' := List.mem_filter.1 hs
    have := h.services s hs'.1 (by simpa using hs'.2)
    refine service_pair this.2.1 this.2.2 fun n hn => ?_
    have := List.all_eq_true.1 (List.all_eq_true.1 hm s hs'.1) n hn
    simpa using this
  · intro a ha b hb
    exact cross (oX a ha) (oS b hb) (fun x hx hx' => d2 x hx x (.inr hx') rfl) cX cS
  · intro a ha b hb
    rcases hb with hb | hb
    · exact cross (oM a ha) (oX b hb) (fun x hx hx' => d1 x hx x (.inl hx') rfl) cM cX
    · exact cross (oM a ha) (oS b hb) (fun x hx hx' => d1 x hx x (.inr (.inr hx')) rfl) cM cS
  · intro a ha b hb
    rcases hb with hb | hb | hb
    · exact cross (oE a ha) (oM b hb) (fun x hx hx' => d1 x hx' x (.inr (.inl hx)) rfl) cE cM
    · exact cross (oE a ha) (oX b hb) (fun x hx hx' => d2 x hx' x (.inl hx) rfl) cE cX
    · exact cross (oE a ha) (oS b hb) (fun x hx hx' => d3 x hx x hx' rfl) cE cS

/-- Where something in the namespace `p` is. -/
theorem own_step {p xs} {d : Decl} (h : Own p xs (functions p p) d) : ∃ y, (y ∈ xs ∨ isHelper y = true) ∧ (p ++ [y]) <+: d.key := by
  rcases h with ⟨x, hx, h⟩ | ⟨_, h⟩
  · exact ⟨x, .inl hx, h⟩
  · unfold functions at h
    simp only [List.mem_cons, List.not_mem_nil, or_false] at h
    rcases h with h | h | h
    · exact ⟨b!"is_valid", .inr (by decide), by rw [h]; exact List.prefix_refl _⟩
    · exact ⟨b!"pb_meta", .inr (by decide), by rw [h]; exact List.prefix_refl _⟩
    · exact ⟨b!"message_type_url", .inr (by decide), by rw [h]; exact List.prefix_refl _⟩

theorem apart_step {f g : FileDecl} (h : apart f g = true) {y : Name} {t : List Name} (e : g.ns = f.ns ++ y :: t) :
    y ∉ f.topNames ∧ isHelper y = false := by
  unfold apart at h
  rw [if_pos (by rw [List.isPrefixOf_iff_prefix, e]; exact List.prefix_append _ _), e, List.drop_left] at h
  simpa using h

theorem file_pair {f : FileDecl} (h : FileFacts f) (ha : allOneofsApart f.messages = true) (hm : noMethods f = true) (hn : f.topNames.Nodup) :
    (fileDecls f).Pairwise Free := by
  rw [fileDecls_split, List.pairwise_append]
  refine ⟨space_pair _ _, body_pair h ha hm hn, ?_⟩
  intro a ha b hb
  obtain ⟨_, q, s, r, h1, h2⟩ := space_key _ _ a ha
  obtain ⟨y, _, h3⟩ := own_step (body_own f b hb)
  refine .inl fun e => ?_
  rw [← e, h2, h1] at h3
  have := h3.length_le
  simp at this

theorem file_cross {f g : FileDecl} (hf : FileFacts f) (hg : FileFacts g) (h1 : apart f g = true) (h2 : apart g f = true)
    (hd : f.ns = g.ns → ∀ x ∈ f.topNames, x ∉ g.topNames) : ∀ a ∈ fileDecls f, ∀ b ∈ fileDecls g, Free a b := by
  -- a namespace of one file and something in another
  have mixed : ∀ {f g : FileDecl}, apart g f = true → ∀ a ∈ spaceDecls [] f.ns, ∀ b ∈ bodyDecls g, Free a b := by
    intro f g h2 a ha b hb
    obtain ⟨_, q, s, r, e1, e2⟩ := space_key _ _ a ha
    obtain ⟨y, hy, h3⟩ := own_step (body_own g b hb)
    refine .inl fun e => ?_
    rw [← e, e2, List.nil_append] at h3
    have : (g.ns ++ [y]) <+: f.ns := h3.trans ⟨r, by rw [e1]; simp⟩
    obtain ⟨t, ht⟩ := this
    have := apart_step h2 (y := y) (t := t) (by rw [← ht]; simp)
    rcases hy with hy | hy
    · exact this.1 hy
    · rw [this.2] at hy; cases hy
  have deeper : ∀ {f g : FileDecl}, apart f g = true → f.ns.length < g.ns.length → ∀ a ∈ bodyDecls f, ∀ b ∈ bodyDecls g, a.key ≠ b.key := by
    intro f g h1 hl a ha b hb e
    obtain ⟨x, hx, h3⟩ := own_step (body_own f a ha)
    obtain ⟨y, hy, h4⟩ := own_step (body_own g b hb)
    rw [e] at h3
    have : (f.ns ++ [x]) <+: g.ns := List.prefix_of_prefix_length_le h3 ((List.prefix_append _ _).trans h4) (by simp only [List.length_append, List.length_cons, List.length_nil]; omega)
    obtain ⟨t, ht⟩ := this
    have := apart_step h1 (y := x) (t := t) (by rw [← ht]; simp)
    rcases hx with hx | hx
    · exact this.1 hx
    · rw [this.2] at hx; cases hx
  intro a ha b hb
  rw [fileDecls_split, List.mem_append] at ha hb
  rcases ha with ha | ha <;> rcases hb with hb | hb
  · exact .inr (.inl ⟨(space_key _ _ a ha).1, (space_key _ _ b hb).1⟩)
  · exact mixed h2 a ha b hb
  · exact (mixed h1 b hb a ha).symm
  · rcases Nat.lt_trichotomy f.ns.length g.ns.length with hl | hl | hl
    · exact .inl (deeper h1 hl a ha b hb)
    · by_cases he : f.ns = g.ns
      · have ob := body_own g b hb
        have cg := top_clear hg
        rw [← he] at ob cg
        exact cross (body_own f a ha) ob (hd he) (top_clear hf) cg
      · refine .inl fun e => he ?_
        obtain ⟨x, _, h3⟩ := own_step (body_own f a ha)
        obtain ⟨y, _, h4⟩ := own_step (body_own g b hb)
        rw [e] at h3
        have := List.prefix_of_prefix_length_le ((List.prefix_append _ _).trans h3) ((List.prefix_append _ _).trans h4) (Nat.le_of_eq hl)
        exact this.eq_of_length hl
    · exact .inl (Ne.symm (deeper h2 hl b hb a ha))

theorem pool_pair {fs : List FileDecl} (h : poolOk fs = true) (ha : ∀ f ∈ fs, allOneofsApart f.messages = true)
    (hm : ∀ f ∈ fs, noMethods f = true) (hn : namespacesApart fs = true) : Compatible (decls fs) := by
  unfold poolOk at h
  simp only [Bool.and_eq_true] at h
  obtain ⟨⟨hf, _⟩, hd⟩ := h
  have hf := fun f hm => fileOk_facts (List.all_eq_true.1 hf f hm)
  have hd := nodup_of_allNew hd
  unfold List.Nodup at hd
  rw [List.pairwise_flatMap] at hd
  have hap : ∀ f ∈ fs, ∀ g ∈ fs, apart f g = true := fun f hf g hg =>
    List.all_eq_true.1 (List.all_eq_true.1 hn f hf) g hg
  unfold Compatible decls
  refine List.Pairwise.imp (R := Free) Free.ok ?_
  rw [List.pairwise_flatMap]
  constructor
  · intro f hmf
    refine file_pair (hf f hmf) (ha f hmf) (hm f hmf) ?_
    have := hd.1 f hmf
    rw [List.pairwise_map] at this
    exact this.imp fun {a b} h e => h (by rw [e])
  · refine hd.2.imp_of_mem ?_
    intro f g hmf hmg hne a ha b hb
    refine file_cross (hf f hmf) (hf g hmg) (hap f hmf g hmg) (hap g hmg f hmf) ?_ a ha b hb
    intro e x hx hx'
    exact hne _ (List.mem_map_of_mem hx) _ (List.mem_map_of_mem hx') (by rw [e])

end HppProto.Names
