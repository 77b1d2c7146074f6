import Verif.Proofs.PoolFill

/-! # Descriptor pools: the whole of `init` -/

namespace HppProto
open Spec

theorem range_get {α : Type} (l : List α) : (List.range l.length).map (l[·]?) = l.map some := by
  have := map_get_range [] l [] (n := l.length) rfl
  rw [List.range_eq_range']
  simpa using this

theorem makeField_proto (f : FieldProto) (i : Option Nat) (F : Features) :
    (makeField f i F).proto = f := rfl

theorem fieldsFor_protos {b : Pool} : ∀ {m : FileMap} {T : List Decl},
    m.map (fun e => b.heads[e.2]?.map MsgDesc.decl) = T.map some →
    ((m.map Prod.snd).flatMap (fieldsFor b)).map (·.proto) =
      T.flatMap fun d => d.msg.fields ++ d.msg.extensions
  | [], [], _ => rfl
  | [], _ :: _, e => by simp at e
  | _ :: _, [], e => by simp at e
  | e :: m, t :: T, h => by
    simp only [List.map_cons, List.cons.injEq] at h
    obtain ⟨h1, h2⟩ := h
    rw [← decl_get, Option.map_eq_some_iff] at h1
    obtain ⟨d, hd, rfl⟩ := h1
    rw [List.map_cons, List.flatMap_cons, List.map_append, fieldsFor_protos h2, List.flatMap_cons]
    congr 1
    unfold fieldsFor
    rw [hd]
    simp [Function.comp_def, newField_proto, makeField_proto, MsgDesc.decl]

theorem extensionsFor_protos (c : Pool) :
    ((List.range c.files.length).flatMap (extensionsFor c)).map (·.proto) =
      (c.files.map (·.proto)).flatMap (·.extensions) := by
  have key : ∀ g : Option FileDesc → List FieldDesc,
      (List.range c.files.length).flatMap (fun k => g c.files[k]?) =
        c.files.flatMap (fun d => g (some d)) := by
    intro g
    have := congrArg (List.flatMap g) (range_get c.files)
    rw [List.flatMap_map, List.flatMap_map] at this
    exact this
  have := key fun o => match o with
    | none => []
    | some d => d.proto.extensions.map (makeField · none d.features)
  rw [show extensionsFor c = fun k => (match c.files[k]? with
    | none => []
    | some d => d.proto.extensions.map (makeField · none d.features) : List FieldDesc) from rfl,
    this, List.flatMap_map, List.map_flatMap]
  congr 1
  funext d
  simp [Function.comp_def, makeField_proto]

/-! ## Types -/

theorem findType_isSome (m : FileMap) (n : List Byte) :
    (findType m n).isSome = true ↔ ∃ k ∈ m.map Prod.fst, n = b!"." ++ k := by
  have hdot : (b!"." : List Byte) = [46#8] := by decide +kernel
  rw [hdot]
  unfold findType
  cases n with
  | nil => simp
  | cons c rest =>
    simp only
    split
    · rename_i h
      subst h
      rw [get_isSome]
      constructor
      · intro h; exact ⟨rest, h, rfl⟩
      · rintro ⟨k, hk, e⟩
        simp only [List.cons_append, List.nil_append, List.cons.injEq, true_and] at e
        rw [e]; exact hk
    · rename_i h
      simp only [Option.isSome_none, Bool.false_eq_true, false_iff]
      rintro ⟨k, _, e⟩
      simp only [List.cons_append, List.nil_append, List.cons.injEq] at e
      exact h e.1

theorem typesFound_iff {q : Pool} {fs : List FileProto}
    (hm : q.messageMap.map Prod.fst = (decls fs).map (·.name))
    (he : q.enumMap.map Prod.fst = (enumDecls fs).map (·.name)) (f : FieldProto) :
    TypesFound q f ↔ TypesOk fs f := by
  unfold TypesFound
  simp only [findType_isSome, hm, he]
  have e1 : ∀ n : List Byte, (∃ k ∈ (decls fs).map (·.name), n = b!"." ++ k) ↔
      ∃ d ∈ decls fs, n = b!"." ++ d.name := by
    intro n
    constructor
    · rintro ⟨k, hk, e⟩
      obtain ⟨d, hd, rfl⟩ := List.mem_map.1 hk
      exact ⟨d, hd, e⟩
    · rintro ⟨d, hd, e⟩
      exact ⟨d.name, List.mem_map.2 ⟨d, hd, rfl⟩, e⟩
  have e2 : ∀ n : List Byte, (∃ k ∈ (enumDecls fs).map (·.name), n = b!"." ++ k) ↔
      ∃ d ∈ enumDecls fs, n = b!"." ++ d.name := by
    intro n
    constructor
    · rintro ⟨k, hk, e⟩
      obtain ⟨d, hd, rfl⟩ := List.mem_map.1 hk
      exact ⟨d, hd, e⟩
    · rintro ⟨d, hd, e⟩
      exact ⟨d.name, List.mem_map.2 ⟨d, hd, rfl⟩, e⟩
  simp only [e1, e2]
  constructor
  · rintro ⟨h1, h2, h3⟩; exact ⟨fun h => h1 h.symm, h2, h3⟩
  · rintro ⟨h1, h2, h3⟩; exact ⟨fun h => h1 h.symm, h2, h3⟩

/-! ## `init` -/

/-- The stages by which `p` was made from the files `fs`. -/
structure Stages (fs : List FileProto) (p0 c q p : Pool) (D E : List Nat) : Prop where
  built : FilesBuilt p0 fs
  imports : ImportsOk fs
  fielded : Fielded (withDeps p0) c D
  messages : D.Perm (List.range p0.messages.length)
  extended : Extended c q E
  files : E.Perm (List.range p0.files.length)
  types : ∀ f ∈ q.fields, TypesFound q f.proto
  last : p = { q with fields := q.fields.map (resolved q) }

theorem PoolBuilding.protos {p : Pool} {T : List Decl} {en : List EnumDecl}
    (h : PoolBuilding p [] [] T en) : (p.messages.map MsgDesc.decl).Perm T := by
  have h1 := h.vals
  have h2 := h.perm
  rw [List.append_nil] at h2
  have h3 := (h2.map (fun i => p.heads[i]?.map MsgDesc.decl))
  rw [List.map_map, show (fun i => Option.map MsgDesc.decl p.heads[i]?) ∘ Prod.snd =
    fun e : List Byte × Nat => p.heads[e.2]?.map MsgDesc.decl from rfl, h1] at h3
  have h4 : (List.range p.messages.length).map (fun i => p.heads[i]?.map MsgDesc.decl) =
      (p.messages.map MsgDesc.decl).map some := by
    have := congrArg (List.map (Option.map MsgDesc.decl)) (range_get p.messages)
    rw [List.map_map, List.map_map] at this
    rw [List.map_map]
    rw [show (fun i => Option.map MsgDesc.decl p.heads[i]?) =
      Option.map MsgDesc.decl ∘ fun x => p.messages[x]? from by
        funext i; rw [← decl_get]; rfl]
    rw [this]
    rfl
  rw [h4] at h3
  have h5 := h3.filterMap id
  simpa [List.filterMap_map, Function.comp_def] using h5.symm

theorem withDeps_building {p : Pool} {T : List Decl} {en : List EnumDecl}
    (h : PoolBuilding p [] [] T en) : PoolBuilding (withDeps p) [] [] T en :=
  ⟨h.stack, h.keys, h.vals, h.perm, h.names, h.enums, h.enumMap, h.enumNames, h.named,
   h.enumNamed, fun i hi d hd => let l := h.linked i hi d hd; ⟨l.nested, l.enums, l.oneofs⟩,
   h.fresh, h.freshOneofs, h.owned, h.oneofCount⟩

theorem initPool_sat (order : FileMap → FileMap) (ho : ∀ m, (order m).Perm m)
    (fs : List FileProto) :
    (initPool order fs).Sat
      (fun p => (∃ p0 c q D E, Stages fs p0 c q p D E) ∧ WellFormed fs) (¬ WellFormed fs) := by
  unfold initPool
  rw [countFiles_eq]
  simp only [Nat.zero_add]
  show Res.Sat ((buildFiles fs _).bind _) _ _
  refine (buildFiles_sat fs _ [] (filesBuilt_start _) ?_ ?_ ?_ ?_).bind ?_ ?_
  · exact Nat.le_refl _
  · exact Nat.le_refl _
  · exact Nat.le_refl _
  · exact Nat.le_refl _
  · intro hn hw
    exact hn ⟨hw.file_named, hw.file_names, hw.languages,
      ⟨hw.message_names, hw.message_named, hw.enum_names, hw.enum_named⟩⟩
  rintro p0 ⟨hfb, hroom⟩
  rw [List.nil_append] at hfb
  simp only at hroom
  refine (linkPool_sat hfb).bind (fun hn hw => hn ⟨hw.imports, hw.acyclic⟩) ?_
  rintro _ ⟨rfl, himp⟩
  have hb := withDeps_building hfb.built
  have hbr : (withDeps p0).room = p0.room := rfl
  have hD : ((order (withDeps p0).messageMap).map Prod.snd).Perm
      ((withDeps p0).messageMap.map Prod.snd) := (ho _).map _
  have hDr : ((order (withDeps p0).messageMap).map Prod.snd).Perm
      (List.range p0.messages.length) := by
    have := hb.perm
    rw [List.append_nil] at this
    exact hD.trans this
  have hDf : ((((order (withDeps p0).messageMap).map Prod.snd).flatMap
      (fieldsFor (withDeps p0))).map (·.proto)).Perm
      ((decls fs).flatMap fun d => d.msg.fields ++ d.msg.extensions) := by
    rw [← fieldsFor_protos hb.vals]
    exact (hD.flatMap_right _).map _
  have hDl := hDf.length_eq
  rw [List.length_map] at hDl
  have htot : (fieldDecls fs).length = ((decls fs).flatMap fun d =>
      d.msg.fields ++ d.msg.extensions).length + (fs.flatMap (·.extensions)).length := by
    rw [fieldDecls, List.length_append]
  have hmsgs : (∀ d ∈ (withDeps p0).messages, MsgOk d.proto) ↔
      ((∀ d ∈ decls fs, FieldsOk d.msg) ∧ ∀ d ∈ decls fs, ∀ f ∈ d.msg.extensions, FieldOk f) := by
    have hp := hb.protos
    constructor
    · intro h
      constructor <;> intro d hd
      all_goals
        obtain ⟨x, hx, rfl⟩ := List.mem_map.1 (hp.mem_iff.2 hd)
      · exact (h x hx).1
      · exact (h x hx).2
    · rintro ⟨h1, h2⟩ d hd
      have : d.decl ∈ decls fs := hp.mem_iff.1 (List.mem_map.2 ⟨d, hd, rfl⟩)
      exact ⟨h1 _ this, h2 _ this⟩
  refine (buildAllFields_sat hb (order (withDeps p0).messageMap) (withDeps p0) []
    (Fielded.start _ hfb.fields) ?_ ?_ ?_).bind (fun hn hw => hn (hmsgs.2 ⟨hw.fields, hw.extensions⟩))
    ?_
  · rw [List.nil_append]; exact hDr.nodup_iff.2 List.nodup_range
  · intro e he
    exact List.mem_range.1 (hDr.mem_iff.1 (List.mem_map.2 ⟨e, he, rfl⟩))
  · rw [List.nil_append, hDl, hbr, hroom]
    simp only
    omega
  rw [List.nil_append]
  intro c hc
  have hfm : c.fileMap = namesFrom 0 (fs.map poolFile) := by
    rw [hc.fileMap]; exact hfb.fileMap
  have hcf : c.files.map (·.proto) = fs := by
    rw [hc.files, ← hfb.protos]; simp [withDeps, Function.comp_def]
  have hcl : c.files.length = fs.length := by rw [← hcf]; simp
  have hE : ((order c.fileMap).map Prod.snd).Perm (List.range c.files.length) := by
    have := (ho c.fileMap).map Prod.snd
    refine this.trans ?_
    rw [hfm, namesFrom_vals, List.length_map, hcl, List.range_eq_range']
  have hcfl : c.fields.length = ((decls fs).flatMap fun d =>
      d.msg.fields ++ d.msg.extensions).length := by rw [hc.fields, hDl]
  have hEf : ((((order c.fileMap).map Prod.snd).flatMap (extensionsFor c)).map (·.proto)).Perm
      (fs.flatMap (·.extensions)) := by
    have := extensionsFor_protos c
    rw [hcf] at this
    rw [← this]
    exact (hE.flatMap_right _).map _
  have hEl := hEf.length_eq
  rw [List.length_map] at hEl
  have hfiles : (∀ d ∈ c.files, ∀ f ∈ d.proto.extensions, FieldOk f) ↔
      ∀ f ∈ fs, ∀ x ∈ f.extensions, FieldOk x := by
    constructor
    · intro h f hf
      rw [← hcf] at hf
      obtain ⟨d, hd, rfl⟩ := List.mem_map.1 hf
      exact h d hd
    · intro h d hd
      exact h _ (by rw [← hcf]; exact List.mem_map.2 ⟨d, hd, rfl⟩)
  refine (buildFileExtensions_sat (order c.fileMap) c [] (Extended.start c) ?_ ?_ ?_).bind
    (fun hn hw => hn (hfiles.2 hw.file_extensions)) ?_
  · rw [List.nil_append]; exact hE.nodup_iff.2 List.nodup_range
  · intro e he
    exact List.mem_range.1 (hE.mem_iff.1 (List.mem_map.2 ⟨e, he, rfl⟩))
  · rw [List.nil_append, hEl, hcfl, hc.room, hbr, hroom]
    simp only
    omega
  rw [List.nil_append]
  intro q hq
  have hmm : q.messageMap = p0.messageMap := by rw [hq.messageMap, hc.messageMap]; rfl
  have hem : q.enumMap = p0.enumMap := by rw [hq.enumMap, hc.enumMap]; rfl
  have hqf : (q.fields.map (·.proto)).Perm (fieldDecls fs) := by
    rw [hq.fields, hc.fields, List.map_append, fieldDecls]
    exact hDf.append hEf
  have htypes : (∀ f ∈ q.fields, TypesFound q f.proto) ↔ ∀ f ∈ fieldDecls fs, TypesOk fs f := by
    have e := typesFound_iff (q := q) (fs := fs) (by rw [hmm, hfb.built.keys])
      (by rw [hem, hfb.built.enumKeys])
    constructor
    · intro h f hf
      obtain ⟨x, hx, rfl⟩ := List.mem_map.1 (hqf.mem_iff.2 hf)
      exact (e _).1 (h x hx)
    · intro h f hf
      exact (e _).2 (h _ (hqf.mem_iff.1 (List.mem_map.2 ⟨f, hf, rfl⟩)))
  refine (resolveFields_sat ?_ q.fields).bind (fun hn hw => hn (htypes.2 hw.types)) ?_
  · intro n i h
    unfold findType at h
    cases n with
    | nil => cases h
    | cons ch rest =>
      simp only at h
      split at h
      · rw [get_eq_some (by rw [hmm, hfb.built.keys]; exact hfb.built.names), hmm] at h
        have hi : i ∈ List.range p0.messages.length := by
          have := hfb.built.perm
          rw [List.append_nil] at this
          exact this.mem_iff.1 (List.mem_map.2 ⟨_, h, rfl⟩)
        have : i < q.messages.length := by
          rw [hq.messages]
          have := congrArg List.length hc.shape
          simp only [List.length_map] at this
          rw [this]
          exact List.mem_range.1 hi
        exact ⟨_, List.getElem?_eq_getElem this⟩
      · cases h
  rintro _ ⟨rfl, ht⟩
  have hlen : q.messages.length = (decls fs).length := by
    rw [hq.messages]
    have h1 := congrArg List.length hc.shape
    simp only [List.length_map] at h1
    rw [h1]
    have := hfb.built.lengths
    simp only [List.length_nil] at this
    exact this.1
  show (if _ then _ else _ : Res _).Sat _ _
  rw [if_neg (by simpa using hlen)]
  have hpl : p0.files.length = c.files.length := by
    rw [hc.files]; simp [withDeps]
  refine ⟨⟨p0, c, q, _, _, hfb, himp, hc, hDr, hq, by rw [hpl]; exact hE, ht, rfl⟩, ?_⟩
  have hmo := hmsgs.1 (by
    intro d hd
    obtain ⟨i, hi, e⟩ := List.getElem_of_mem hd
    exact hc.ok i (hDr.mem_iff.2 (List.mem_range.2 hi)) d (by rw [List.getElem?_eq_getElem hi, e]))
  have hfo := hfiles.1 (by
    intro d hd
    obtain ⟨i, hi, e⟩ := List.getElem_of_mem hd
    exact hq.ok i (hE.mem_iff.2 (List.mem_range.2 hi)) d (by rw [List.getElem?_eq_getElem hi, e]))
  exact ⟨hfb.ok.named, hfb.ok.names, hfb.ok.languages, himp.1, himp.2, hfb.ok.inner.named,
    hfb.ok.inner.names, hfb.ok.inner.enumNamed, hfb.ok.inner.enumNames, hmo.1, hmo.2, hfo,
    htypes.1 ht⟩

end HppProto
