import Verif.Proofs.PoolBuild

/-! # Descriptor pools: the messages and enums of all files -/

namespace HppProto
open Spec

/-- The names of declared messages and enums are not empty and distinct. -/
structure NamesOk (T : List Decl) (EN : List EnumDecl) : Prop where
  names : (T.map (·.name)).Nodup
  named : ∀ d ∈ T, d.msg.name ≠ []
  enumNames : (EN.map (·.name)).Nodup
  enumNamed : ∀ e ∈ EN, e.enum.name ≠ []

theorem NamesOk.sublist {T T' : List Decl} {EN EN' : List EnumDecl} (h : NamesOk T' EN')
    (h1 : T.Sublist T') (h2 : EN.Sublist EN') : NamesOk T EN :=
  ⟨h.names.sublist (h1.map _), fun d hd => h.named d (h1.subset hd),
   h.enumNames.sublist (h2.map _), fun d hd => h.enumNamed d (h2.subset hd)⟩

/-- A message and all messages inside it. -/
def _root_.HppProto.Spec.Decl.tree (t : Decl) : List Decl := declsOf t.name t.features t.msg

theorem tree_eq (t : Decl) : t.tree = t :: t.children.flatMap Decl.tree := by
  rw [Decl.tree, declsOf_eq, nestedDecls_eq]
  congr 1
  rw [Decl.children, List.flatMap_map]
  rfl

theorem tree_length_pos (ts : List Decl) : ts.length ≤ (ts.flatMap Decl.tree).length := by
  induction ts with
  | nil => simp
  | cons t ts ih =>
    rw [List.flatMap_cons, List.length_append, tree_eq, List.length_cons, List.length_cons]
    omega

theorem PoolBuilding.lengths {p : Pool} {s : List Nat} {ts done : List Decl} {en : List EnumDecl}
    (h : PoolBuilding p s ts done en) :
    p.messages.length = done.length + ts.length ∧ s.length = ts.length ∧
      p.messageMap.length = done.length ∧ p.enums.length = en.length := by
  have h1 := h.perm.length_eq
  have h2 := congrArg List.length h.keys
  have h3 := congrArg List.length h.stack
  have h4 := congrArg List.length h.enums
  simp only [List.length_append, List.length_map, List.length_range] at h1 h2 h3 h4
  omega

theorem PoolBuilding.enumKeys {p : Pool} {s : List Nat} {ts done : List Decl} {en : List EnumDecl}
    (h : PoolBuilding p s ts done en) : p.enumMap.map Prod.fst = en.map (·.name) := by
  rw [h.enumMap, List.map_fst_zip]; simp

/-- The number of oneofs of the declarations. -/
def oneofCount (ds : List Decl) : Nat := (ds.map fun d => d.msg.oneofs.length).sum

theorem oneofCount_append (a b : List Decl) : oneofCount (a ++ b) = oneofCount a + oneofCount b := by
  simp [oneofCount]

theorem buildTree_sat : ∀ (fuel : Nat) (s : List Nat) (ts done : List Decl) (en : List EnumDecl)
    (p : Pool), PoolBuilding p s ts done en →
    done.length + (ts.flatMap Decl.tree).length ≤ p.room.messages →
    en.length + ((ts.flatMap Decl.tree).flatMap Decl.enums).length ≤ p.room.enums →
    oneofCount (done ++ ts.flatMap Decl.tree) ≤ p.room.oneofs →
    (ts.flatMap Decl.tree).length ≤ fuel →
    (buildTree fuel s p).Sat
      (fun p' => PoolBuilding p' [] [] (done ++ ts.flatMap Decl.tree)
          (en ++ (ts.flatMap Decl.tree).flatMap Decl.enums) ∧ Grows p p')
      (¬ NamesOk (done ++ ts.flatMap Decl.tree)
          (en ++ (ts.flatMap Decl.tree).flatMap Decl.enums))
  | fuel, [], ts, done, en, p, h, _, _, _, _ => by
    have := h.lengths
    have hts : ts = [] := List.length_eq_zero_iff.1 (by simpa using this.2.1.symm)
    subst hts
    rw [buildTree]
    exact ⟨by simpa using h, Grows.refl p⟩
  | 0, i :: s, ts, done, en, p, h, _, _, _, hf => by
    have := h.lengths
    have := tree_length_pos ts
    simp at *
    omega
  | fuel + 1, i :: s, [], done, en, p, h, _, _, _, _ => by
    have := h.lengths
    simp at this
  | fuel + 1, i :: s, t :: ts, done, en, p, h, hm, he, ho, hf => by
    obtain ⟨d, hd, ht⟩ := h.stack_cons
    have hl := h.lengths
    have e1 : ((t :: ts).flatMap Decl.tree) =
        [t] ++ ((t.children ++ ts).flatMap Decl.tree) := by
      rw [List.flatMap_cons, tree_eq, List.flatMap_append]; simp
    have hlen1 : (t.children ++ ts).length ≤ ((t.children ++ ts).flatMap Decl.tree).length :=
      tree_length_pos _
    have hc : t.children.length = d.proto.nested.length := by
      rw [← ht, Decl.children, List.length_map]; rfl
    have hte : t.enums.length = d.proto.enums.length := by
      rw [← ht, Decl.enums, List.length_map]; rfl
    have hto : t.msg.oneofs.length = d.proto.oneofs.length := by rw [← ht]; rfl
    rw [e1] at hm he ho hf ⊢
    simp only [List.length_append, List.length_cons, List.length_nil, List.flatMap_append,
      List.flatMap_cons, List.flatMap_nil, List.append_nil] at hm he hf hlen1 hl
    rw [oneofCount_append, oneofCount_append] at ho
    have hoc : oneofCount [t] = t.msg.oneofs.length := by simp [oneofCount]
    have hpo : p.oneofs.length = oneofCount done := h.oneofCount
    rw [buildTree]
    refine (buildMessage_sat hd (by omega) (by omega) (by omega)
      (by rw [h.enumKeys]; exact h.enumNames)).bind ?_ ?_
    · intro hbad hok
      apply hbad
      rw [h.keys, h.enumKeys]
      refine ⟨?_, ?_, ?_, ?_⟩
      · intro hmem
        have := hok.names
        rw [List.map_append, List.nodup_append] at this
        refine this.2.2 _ hmem d.fullName ?_ rfl
        rw [List.map_append, List.mem_append]
        exact .inl (by rw [← ht]; simp [MsgDesc.decl])
      · intro m hmm
        have hcm : (⟨nestedName t.name m.name, m, under t.features m.features⟩ : Decl) ∈
            t.children := by
          rw [Decl.children, ← ht]; exact List.mem_map.2 ⟨m, hmm, rfl⟩
        refine hok.named ⟨nestedName t.name m.name, m, under t.features m.features⟩ ?_
        rw [List.mem_append, List.mem_append]
        refine .inr (.inr (List.mem_flatMap.2 ⟨_, List.mem_append.2 (.inl hcm), ?_⟩))
        rw [tree_eq]; exact List.mem_cons_self ..
      · intro e hem
        refine hok.enumNamed ⟨nestedName d.fullName e.name, e, under d.features e.features⟩ ?_
        rw [List.mem_append, List.flatMap_append, List.mem_append]
        refine .inr (.inl ?_)
        rw [← ht]
        simp only [List.flatMap_cons, List.flatMap_nil, List.append_nil, Decl.enums]
        exact List.mem_map.2 ⟨e, hem, rfl⟩
      · have := hok.enumNames
        rw [List.map_append, List.flatMap_append, List.map_append, ← List.append_assoc,
          List.nodup_append] at this
        have := this.1
        rw [← ht] at this
        simpa [Decl.enums, MsgDesc.decl, Function.comp_def] using this
    · rintro _ ⟨rfl, c1, c2, c3, c4⟩
      have hb := h.step hd ht c1 c2 c3 c4
      have hroom : (afterMessage p i d).room = p.room := rfl
      show (buildTree fuel _ (afterMessage p i d)).Sat _ _
      refine (buildTree_sat fuel _ _ _ _ _ hb ?_ ?_ ?_ ?_).mono ?_ ?_
      · rw [hroom]; simp only [List.length_append, List.length_cons, List.length_nil,
          List.flatMap_append] at hm ⊢; omega
      · rw [hroom]; simp only [List.length_append, List.flatMap_append] at he ⊢; omega
      · rw [hroom, oneofCount_append, oneofCount_append]; omega
      · simp only [List.length_append, List.flatMap_append] at hf ⊢; omega
      · rintro p' ⟨hb', hg⟩
        refine ⟨?_, (grows_after p i d).trans hg⟩
        simpa [List.append_assoc] using hb'
      · intro hn hok
        apply hn
        simpa [List.append_assoc] using hok

/-! ## The messages of a file -/

/-- The pool with one more top-level message, still to be visited. -/
theorem PoolBuilding.push {p : Pool} {done : List Decl} {en : List EnumDecl}
    (h : PoolBuilding p [] [] done en) (d : MsgDesc) (hn : d.proto.name ≠ [])
    (hf : d.fields = [] ∧ d.extensions = []) :
    PoolBuilding { p with messages := p.messages ++ [d] } [p.messages.length] [d.decl] done en ∧
      Grows p { p with messages := p.messages ++ [d] } := by
  have hg : Grows p { p with messages := p.messages ++ [d] } :=
    ⟨rfl, by simp [Pool.heads], List.prefix_rfl, List.prefix_rfl, rfl, rfl, rfl⟩
  have hlt : ∀ e ∈ p.messageMap, e.2 < p.messages.length := by
    intro e he
    have : e.2 ∈ List.range p.messages.length :=
      h.perm.mem_iff.1 (by simp; exact ⟨e.1, he⟩)
    simpa using this
  refine ⟨?_, hg⟩
  refine
    { stack := ?_, keys := h.keys, vals := vals_mono hg.heads h.vals, perm := ?_,
      names := h.names, enums := h.enums, enumMap := h.enumMap,
      enumNames := h.enumNames, named := ?_, enumNamed := h.enumNamed, linked := ?_,
      fresh := ?_, freshOneofs := h.freshOneofs, owned := ?_, oneofCount := h.oneofCount }
  · simp [Pool.heads, head_decl]
  · simp only [List.length_append, List.length_cons, List.length_nil, List.range_succ]
    have := h.perm
    rw [List.append_nil] at this
    exact this.append_right _
  · intro x hx
    rcases List.mem_append.1 hx with hx | hx
    · exact h.named x hx
    · rw [List.mem_singleton.1 hx]; exact hn
  · intro i hi x hx
    obtain ⟨e, he, rfl⟩ := List.mem_map.1 hi
    replace hx : (p.messages ++ [d])[e.2]? = some x := hx
    rw [List.getElem?_append_left (hlt e he)] at hx
    exact (h.linked e.2 hi x hx).mono hg
  · intro x hx
    rcases List.mem_append.1 hx with hx | hx
    · exact h.fresh x hx
    · rw [List.mem_singleton.1 hx]; exact hf
  · simp only
    rw [← h.owned]
    have : ∀ (m : FileMap), (∀ e ∈ m, e.2 < p.messages.length) →
        m.flatMap (fun e => ((p.messages ++ [d])[e.2]?.map (·.oneofs)).getD []) =
        m.flatMap (fun e => (p.messages[e.2]?.map (·.oneofs)).getD []) := by
      intro m hm
      induction m with
      | nil => rfl
      | cons e m ih =>
        rw [List.flatMap_cons, List.flatMap_cons, ih fun x hx => hm x (by simp [hx]),
          List.getElem?_append_left (hm e (by simp))]
    exact this _ hlt

/-- The declarations of the messages of a file, given its package and features. -/
def topDecls (package : List Byte) (F : Features) (ms : List MsgProto) : List Decl :=
  ms.flatMap fun m => declsOf (qualified package m.name) (under F m.features) m

theorem topDecls_cons (package : List Byte) (F : Features) (m : MsgProto) (ms : List MsgProto) :
    topDecls package F (m :: ms) =
      declsOf (qualified package m.name) (under F m.features) m ++ topDecls package F ms := rfl

theorem buildMessages_sat (package : List Byte) (F : Features) (file : Nat) :
    ∀ (ms : List MsgProto) (p : Pool) (ids : List Nat) (done : List Decl) (en : List EnumDecl),
    PoolBuilding p [] [] done en →
    done.length + (topDecls package F ms).length ≤ p.room.messages →
    en.length + ((topDecls package F ms).flatMap Decl.enums).length ≤ p.room.enums →
    oneofCount (done ++ topDecls package F ms) ≤ p.room.oneofs →
    (buildMessages package F file ms p ids).Sat
      (fun r => PoolBuilding r.1 [] [] (done ++ topDecls package F ms)
          (en ++ (topDecls package F ms).flatMap Decl.enums) ∧ Grows p r.1 ∧
        ∃ new, r.2 = ids ++ new ∧ new.map (r.1.heads[·]?) =
          (ms.map (newMsg (qualified package) F file none)).map some)
      (¬ NamesOk (done ++ topDecls package F ms)
          (en ++ (topDecls package F ms).flatMap Decl.enums))
  | [], p, ids, done, en, h, _, _, _ => by
    rw [buildMessages]
    exact ⟨by simpa [topDecls] using h, Grows.refl p, [], by simp, rfl⟩
  | m :: ms, p, ids, done, en, h, hm, he, ho => by
    unfold buildMessages
    have hl := h.lengths
    have hpos : 1 ≤ (declsOf (qualified package m.name) (under F m.features) m).length := by
      rw [declsOf_eq]; simp
    rw [topDecls_cons] at hm he ho ⊢
    split
    · rename_i hn
      refine ⟨rfl, fun hok => hok.named ⟨qualified package m.name, m, under F m.features⟩ ?_
        (by simpa using hn)⟩
      rw [declsOf_eq]; simp
    · rename_i hn
      have hn : m.name ≠ [] := by simpa using hn
      simp only [List.length_append, List.flatMap_append] at hm he
      rw [oneofCount_append, oneofCount_append] at ho
      rw [HppProto.push, if_pos (by simp only [List.length_nil] at hl; omega)]
      obtain ⟨hb, hg⟩ := h.push (newMsg (qualified package) F file none m) hn ⟨rfl, rfl⟩
      have hd : ({ proto := m, fullName := topName package m.name
                   features := mergeFeatures F m.features, file := file
                   parent := none } : MsgDesc) =
          newMsg (qualified package) F file none m := by
        rw [topName_eq, mergeFeatures_eq]; rfl
      have ht : ([(newMsg (qualified package) F file none m).decl].flatMap Decl.tree) =
          declsOf (qualified package m.name) (under F m.features) m := by
        simp [Decl.tree, MsgDesc.decl, newMsg]
      rw [hd]
      show Res.Sat ((buildTree m.nodes [p.messages.length]
        { p with messages := p.messages ++ [newMsg (qualified package) F file none m] }).bind _) _ _
      refine (buildTree_sat m.nodes _ _ _ _ _ hb ?_ ?_ ?_ ?_).bind ?_ ?_
      · rw [ht]; simp only; omega
      · rw [ht]; simp only; omega
      · rw [ht, oneofCount_append]; simp only; omega
      · rw [ht, declsOf_length]; exact Nat.le_refl _
      · rw [ht]
        intro hbad hok
        apply hbad
        refine hok.sublist ?_ ?_
        · rw [← List.append_assoc]; exact List.sublist_append_left _ _
        · rw [List.flatMap_append, ← List.append_assoc]; exact List.sublist_append_left _ _
      · rw [ht]
        rintro p' ⟨hb', hg'⟩
        have hroom : p'.room = p.room := hg'.room
        refine (buildMessages_sat package F file ms p' _ _ _ hb' ?_ ?_ ?_).mono ?_ ?_
        · rw [hroom, List.length_append]; omega
        · rw [hroom, List.length_append]; omega
        · rw [hroom, oneofCount_append, oneofCount_append]; omega
        · rintro ⟨q, ids'⟩ ⟨h1, h2, new, h3, h4⟩
          refine ⟨by simpa [List.append_assoc] using h1, hg.trans (hg'.trans h2),
            p.messages.length :: new, by simp only at h3; rw [h3]; simp, ?_⟩
          simp only [List.map_cons, List.cons.injEq] at h4 ⊢
          refine ⟨?_, h4⟩
          apply prefix_get (hg'.heads.trans h2.heads)
          simp [Pool.heads, MsgDesc.head, newMsg]
        · intro hn hok
          apply hn
          simpa [List.append_assoc] using hok

/-! ## The files -/

/-- The part of a file that the import check reads. -/
def poolFile (f : FileProto) : PoolFile := ⟨f.name, f.deps⟩

theorem namesFrom_append : ∀ (a b : List PoolFile) (i : Nat),
    namesFrom i (a ++ b) = namesFrom i a ++ namesFrom (i + a.length) b
  | [], b, i => by simp [namesFrom]
  | f :: a, b, i => by
    rw [List.cons_append, namesFrom, namesFrom, namesFrom_append a b (i + 1), List.cons_append,
      List.length_cons]
    congr 3
    omega

theorem namesFrom_keys : ∀ (a : List PoolFile) (i : Nat),
    (namesFrom i a).map Prod.fst = a.map PoolFile.name
  | [], _ => rfl
  | f :: a, i => by rw [namesFrom, List.map_cons, List.map_cons, namesFrom_keys a]

theorem namesFrom_vals : ∀ (a : List PoolFile) (i : Nat),
    (namesFrom i a).map Prod.snd = List.range' i a.length
  | [], _ => rfl
  | f :: a, i => by
    rw [namesFrom, List.map_cons, List.length_cons, List.range'_succ, namesFrom_vals a]

/-- The links of the file at index `k` to its messages and enums. -/
structure FileLinked (p : Pool) (k : Nat) (d : FileDesc) : Prop where
  messages : d.messages.map (p.heads[·]?) =
    (d.proto.messages.map (newMsg (qualified d.proto.package) d.features k none)).map some
  enums : d.enums.map (p.enums[·]?) =
    (d.proto.enums.map (newEnum (qualified d.proto.package) d.features k none)).map some

theorem FileLinked.mono {p p' : Pool} (h1 : p.heads <+: p'.heads) (h2 : p.enums <+: p'.enums)
    {k : Nat} {d : FileDesc} (l : FileLinked p k d) : FileLinked p' k d :=
  ⟨map_get_mono h1 l.messages, map_get_mono h2 l.enums⟩

/-- The conditions on files that building their messages and enums checks. -/
structure FilesOk (fs : List FileProto) : Prop where
  named : ∀ f ∈ fs, f.name ≠ []
  names : (fs.map (·.name)).Nodup
  languages : ∀ f ∈ fs, (language f).isSome
  inner : NamesOk (decls fs) (enumDecls fs)

theorem decls_append (a b : List FileProto) : decls (a ++ b) = decls a ++ decls b := by
  simp [decls]

theorem enumDecls_append (a b : List FileProto) :
    enumDecls (a ++ b) = enumDecls a ++ enumDecls b := by
  simp [enumDecls]

theorem FilesOk.left {a b : List FileProto} (h : FilesOk (a ++ b)) : FilesOk a :=
  ⟨fun f hf => h.named f (by simp [hf]),
   by have := h.names; rw [List.map_append, List.nodup_append] at this; exact this.1,
   fun f hf => h.languages f (by simp [hf]),
   h.inner.sublist (by rw [decls_append]; exact List.sublist_append_left _ _)
    (by rw [enumDecls_append]; exact List.sublist_append_left _ _)⟩

/-- The pool after the files `fs` have been built. -/
structure FilesBuilt (p : Pool) (fs : List FileProto) : Prop where
  built : PoolBuilding p [] [] (decls fs) (enumDecls fs)
  protos : p.files.map (·.proto) = fs
  features : ∀ d ∈ p.files, d.features = fileFeatures d.proto
  linked : ∀ (k : Nat) (d : FileDesc), p.files[k]? = some d → FileLinked p k d
  fresh : ∀ d ∈ p.files, d.extensions = [] ∧ d.deps = []
  fileMap : p.fileMap = namesFrom 0 (fs.map poolFile)
  ok : FilesOk fs
  fields : p.fields = []

theorem buildFile_sat {p : Pool} {fs : List FileProto} (h : FilesBuilt p fs) (f : FileProto)
    (hn : f.name ≠ []) (hf : f.name ∉ fs.map (·.name)) {L : Language} (hL : language f = some L)
    (rf : fs.length + 1 ≤ p.room.files)
    (rm : (decls (fs ++ [f])).length ≤ p.room.messages)
    (re : (enumDecls (fs ++ [f])).length ≤ p.room.enums)
    (ro : oneofCount (decls (fs ++ [f])) ≤ p.room.oneofs) :
    (buildFile p f L.features).Sat
      (fun p' => FilesBuilt p' (fs ++ [f]) ∧ p'.room = p.room)
      (¬ FilesOk (fs ++ [f])) := by
  have hF : mergeFeatures L.features f.features = fileFeatures f := by
    rw [mergeFeatures_eq, fileFeatures, hL]; rfl
  have hlen : p.files.length = fs.length := by rw [← h.protos]; simp
  have hdecl : fileDecls f = topDecls f.package (fileFeatures f) f.messages := rfl
  rw [decls_append] at rm ro
  rw [enumDecls_append] at re
  have e1 : decls [f] = fileDecls f := by simp [decls]
  have e2 : enumDecls [f] = fileEnums f := by simp [enumDecls]
  rw [e1, List.length_append] at rm
  rw [e1] at ro
  rw [e2, fileEnums, List.length_append, List.length_append, List.length_map] at re
  unfold buildFile
  simp only [hF]
  rw [HppProto.push, if_pos (by omega)]
  have hb1 : PoolBuilding { p with
      files := p.files ++ [({ proto := f, features := fileFeatures f } : FileDesc)]
      fileMap := p.fileMap ++ [(f.name, p.files.length)] } [] [] (decls fs) (enumDecls fs) :=
    ⟨h.built.stack, h.built.keys, h.built.vals, h.built.perm, h.built.names, h.built.enums,
     h.built.enumMap, h.built.enumNames, h.built.named, h.built.enumNamed,
     fun i hi d hd => let l := h.built.linked i hi d hd; ⟨l.nested, l.enums, l.oneofs⟩,
     h.built.fresh, h.built.freshOneofs, h.built.owned, h.built.oneofCount⟩
  show Res.Sat ((buildMessages f.package (fileFeatures f) p.files.length f.messages
    { p with
      files := p.files ++ [({ proto := f, features := fileFeatures f } : FileDesc)]
      fileMap := p.fileMap ++ [(f.name, p.files.length)] } []).bind _) _ _
  refine (buildMessages_sat _ _ _ _ _ _ _ _ hb1 (by simpa [← hdecl] using rm)
    (by rw [← hdecl]; simp only; omega) (by rw [← hdecl]; exact ro)).bind ?_ ?_
  · intro hbad hok
    apply hbad
    refine hok.inner.sublist ?_ ?_
    · rw [decls_append, e1]; exact List.Sublist.refl _
    · rw [enumDecls_append, e2, fileEnums, ← List.append_assoc]
      exact List.sublist_append_left _ _
  · rintro ⟨q, ids⟩ ⟨hb2, hg, new, hids, hnew⟩
    simp only [List.nil_append] at hids hb2 hg hnew
    subst hids
    have hl := hb2.lengths
    have hroom : q.room = p.room := hg.room
    rw [← hdecl] at hb2 hl
    have htop : (topName f.package) = qualified f.package := by funext n; exact topName_eq _ _
    show Res.Sat ((addEnums (topName f.package) (fileFeatures f) p.files.length none f.enums q
      []).bind _) _ _
    rw [htop]
    refine (addEnums_sat _ _ _ _ f.enums q [] (by rw [hroom, hl.2.2.2, List.length_append]; omega)
      (by rw [hb2.enumKeys]; exact hb2.enumNames)).bind ?_ ?_
    · intro hbad hok
      apply hbad
      have hi := hok.inner
      rw [enumDecls_append, e2, fileEnums, ← List.append_assoc] at hi
      refine ⟨fun e he => hi.enumNamed
        ⟨qualified f.package e.name, e, under (fileFeatures f) e.features⟩ ?_, ?_⟩
      · rw [List.mem_append]; exact .inr (List.mem_map.2 ⟨e, he, rfl⟩)
      · have := hi.enumNames
        rw [List.map_append, ← hb2.enumKeys] at this
        simpa [Function.comp_def] using this
    · rintro _ ⟨rfl, c1, c2⟩
      show FilesBuilt _ _ ∧ _
      refine ⟨?_, hroom⟩
      rw [hb2.enumKeys] at c2
      have hqf : q.files = p.files ++ [({ proto := f, features := fileFeatures f } : FileDesc)] :=
        hg.files
      have hin : NamesOk (decls (fs ++ [f])) (enumDecls (fs ++ [f])) := by
        refine ⟨?_, ?_, ?_, ?_⟩
        · rw [decls_append, e1]; exact hb2.names
        · rw [decls_append, e1]
          intro d hd
          have hv := hb2.vals
          have : some d ∈ q.messageMap.map (fun e => q.heads[e.2]?.map MsgDesc.decl) := by
            rw [hv]; exact List.mem_map.2 ⟨d, hd, rfl⟩
          obtain ⟨e, he, hed⟩ := List.mem_map.1 this
          obtain ⟨x, hx, rfl⟩ := Option.map_eq_some_iff.1 hed
          rw [heads_get, Option.map_eq_some_iff] at hx
          obtain ⟨y, hy, rfl⟩ := hx
          exact hb2.named y (List.mem_of_getElem? hy)
        · rw [enumDecls_append, e2, fileEnums, ← List.append_assoc, List.map_append]
          simpa [Function.comp_def] using c2
        · rw [enumDecls_append, e2, fileEnums, ← List.append_assoc]
          intro e he
          rcases List.mem_append.1 he with he | he
          · exact hb2.enumNamed e he
          · obtain ⟨z, hz, rfl⟩ := List.mem_map.1 he
            exact c1 z hz
      have hpe : q.enums <+: q.enums ++
          f.enums.map (newEnum (qualified f.package) (fileFeatures f) p.files.length none) :=
        List.prefix_append _ _
      refine
        { built := ?_, protos := ?_, features := ?_, linked := ?_, fresh := ?_, fileMap := ?_,
          ok := ⟨?_, ?_, ?_, hin⟩, fields := ?_ }
      · rw [decls_append, e1]
        rw [decls_append, e1] at hin
        refine
          { stack := hb2.stack, keys := hb2.keys, vals := hb2.vals, perm := hb2.perm,
            names := hb2.names, enums := ?_, enumMap := ?_,
            enumNames := hin.enumNames, named := hb2.named, enumNamed := hin.enumNamed,
            linked := ?_, fresh := hb2.fresh, freshOneofs := hb2.freshOneofs,
            owned := hb2.owned, oneofCount := hb2.oneofCount }
        · simp only [List.map_append, hb2.enums]
          rw [enumDecls_append, e2, fileEnums, List.append_assoc, List.map_map]
          rfl
        · simp only
          rw [hb2.enumMap, enumDecls_append, e2, fileEnums, ← List.append_assoc,
            List.map_append (l₂ := List.map _ f.enums),
            List.length_append (bs := List.map _ f.enums),
            List.range_eq_range' (n := _ + _), ← List.range'_append_1,
            Nat.zero_add, ← List.range_eq_range', List.zip_append (by simp), hl.2.2.2]
          simp [Function.comp_def]
        · intro i hi d hd
          have l := hb2.linked i hi d hd
          exact ⟨l.nested, map_get_mono hpe l.enums, l.oneofs⟩
      · simp only
        rw [map_modify_same, hqf, List.map_append, h.protos]
        · rfl
        · exact fun _ => rfl
      · intro d hd
        have key : ∀ y ∈ (q.files.modify p.files.length (fun d => { d with messages := ids, enums := [] ++ List.range' q.enums.length f.enums.length })).map
            (fun d => (d.proto, d.features)), y.2 = fileFeatures y.1 := by
          rw [map_modify_same]
          rotate_left
          · exact fun _ => rfl
          · rw [hqf]
            intro y hy
            obtain ⟨z, hz, rfl⟩ := List.mem_map.1 hy
            rcases List.mem_append.1 hz with hz | hz
            · exact h.features z hz
            · rw [List.mem_singleton.1 hz]
        exact key _ (List.mem_map.2 ⟨d, hd, rfl⟩)
      · intro k d hd
        replace hd : (q.files.modify p.files.length (fun d => { d with messages := ids, enums := [] ++ List.range' q.enums.length f.enums.length }))[k]? = some d := hd
        by_cases hk : p.files.length = k
        · subst hk
          rw [modify_get_eq, hqf] at hd
          simp only [List.getElem?_concat_length, Option.map_some, Option.some.injEq] at hd
          subst hd
          refine ⟨hnew, ?_⟩
          have := map_get_range q.enums
            (f.enums.map (newEnum (qualified f.package) (fileFeatures f) p.files.length none)) []
            (n := f.enums.length) (by simp)
          rw [List.append_nil] at this
          exact this
        · rw [modify_get_ne _ _ hk, hqf] at hd
          have hlt : k < p.files.length := by
            have := (List.getElem?_eq_some_iff.1 hd).1
            simp at this
            omega
          rw [List.getElem?_append_left hlt] at hd
          have l := h.linked k d hd
          exact ⟨map_get_mono hg.heads l.messages, map_get_mono (hg.enums.trans hpe) l.enums⟩
      · intro d hd
        have key : ∀ y ∈ (q.files.modify p.files.length (fun d => { d with messages := ids, enums := [] ++ List.range' q.enums.length f.enums.length })).map
            (fun d => (d.extensions, d.deps)), y = ([], []) := by
          rw [map_modify_same]
          rotate_left
          · exact fun _ => rfl
          · rw [hqf]
            intro y hy
            obtain ⟨z, hz, rfl⟩ := List.mem_map.1 hy
            rcases List.mem_append.1 hz with hz | hz
            · rw [(h.fresh z hz).1, (h.fresh z hz).2]
            · rw [List.mem_singleton.1 hz]
        have := key _ (List.mem_map.2 ⟨d, hd, rfl⟩)
        exact ⟨congrArg Prod.fst this, congrArg Prod.snd this⟩
      · show q.fileMap = _
        rw [hg.fileMap]
        simp only
        rw [h.fileMap, List.map_append, namesFrom_append]
        simp [namesFrom, poolFile, hlen]
      · intro g hg'
        rcases List.mem_append.1 hg' with hg' | hg'
        · exact h.ok.named g hg'
        · rw [List.mem_singleton.1 hg']; exact hn
      · rw [List.map_append, List.nodup_append]
        refine ⟨h.ok.names, by simp, ?_⟩
        intro a ha b hb hab
        simp only [List.map_cons, List.map_nil, List.mem_singleton] at hb
        subst hab hb
        exact hf ha
      · intro g hg'
        rcases List.mem_append.1 hg' with hg' | hg'
        · exact h.ok.languages g hg'
        · rw [List.mem_singleton.1 hg', hL]; rfl
      · show q.fields = []
        rw [hg.fields]; exact h.fields

theorem buildFiles_sat : ∀ (fs : List FileProto) (p : Pool) (done : List FileProto),
    FilesBuilt p done →
    (done ++ fs).length ≤ p.room.files →
    (decls (done ++ fs)).length ≤ p.room.messages →
    (enumDecls (done ++ fs)).length ≤ p.room.enums →
    oneofCount (decls (done ++ fs)) ≤ p.room.oneofs →
    (buildFiles fs p).Sat
      (fun p' => FilesBuilt p' (done ++ fs) ∧ p'.room = p.room) (¬ FilesOk (done ++ fs))
  | [], p, done, h, _, _, _, _ => by
    rw [buildFiles]
    exact ⟨by simpa using h, rfl⟩
  | f :: fs, p, done, h, rf, rm, re, ro => by
    unfold buildFiles
    have hkeys : p.fileMap.map Prod.fst = done.map (·.name) := by
      rw [h.fileMap, namesFrom_keys, List.map_map]; rfl
    have hcat : done ++ f :: fs = (done ++ [f]) ++ fs := by simp
    split
    · rename_i hbad
      refine ⟨rfl, fun hok => ?_⟩
      rw [Bool.or_eq_true] at hbad
      rcases hbad with hbad | hbad
      · exact hok.named f (by simp) (by simpa using hbad)
      · rw [get_isSome, hkeys] at hbad
        have := hok.names
        rw [List.map_append, List.nodup_append] at this
        exact this.2.2 _ hbad f.name (by simp) rfl
    · rename_i hgood
      simp only [Bool.or_eq_true, not_or, get_isSome, hkeys] at hgood
      rw [selectFeatures_eq]
      cases hL : language f with
      | none =>
        refine ⟨rfl, fun hok => ?_⟩
        have := hok.languages f (by simp)
        rw [hL] at this; cases this
      | some L =>
        simp only [Option.map_some]
        rw [hcat] at rf rm re ro ⊢
        refine (buildFile_sat h f (by simpa using hgood.1) hgood.2 hL ?_ ?_ ?_ ?_).bind
          (fun hb hok => hb hok.left) ?_
        · simp at rf; omega
        · rw [decls_append, List.length_append] at rm; omega
        · rw [enumDecls_append, List.length_append] at re; omega
        · rw [decls_append, oneofCount_append] at ro; omega
        · rintro p' ⟨hb, hr⟩
          refine (buildFiles_sat fs p' (done ++ [f]) hb ?_ ?_ ?_ ?_).mono ?_ (fun h => h)
          · rw [hr]; exact rf
          · rw [hr]; exact rm
          · rw [hr]; exact re
          · rw [hr]; exact ro
          · rintro q ⟨h1, h2⟩
            exact ⟨h1, h2.trans hr⟩

theorem filesBuilt_start (room : Counter) : FilesBuilt { room := room } [] := by
  refine
    { built := ?_, protos := rfl, features := by simp, linked := by simp, fresh := by simp,
      fileMap := rfl, ok := ⟨by simp, by simp, by simp, ⟨by simp [decls], by simp [decls],
        by simp [enumDecls], by simp [enumDecls]⟩⟩, fields := rfl }
  refine
    { stack := rfl, keys := rfl, vals := rfl, perm := by simp, names := by simp [decls],
      enums := rfl, enumMap := rfl,
      enumNames := by simp [enumDecls], named := by simp, enumNamed := by simp [enumDecls],
      linked := by simp, fresh := by simp, freshOneofs := by simp,
      owned := rfl, oneofCount := rfl }

end HppProto
