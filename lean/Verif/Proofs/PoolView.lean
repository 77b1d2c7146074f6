import Verif.Proofs.PoolInit
import Verif.Spec.PoolView

/-! # Descriptor pools: what the finished pool shows -/

namespace HppProto
open Spec

theorem follow_of {α α' β γ : Type} {t : List α} {t' : List α'} {shown : α → β} {shown' : α' → β}
    (ht : ∀ j : Nat, t[j]?.map shown = t'[j]?.map shown') {g : γ → α'} {want : γ → β}
    (hg : ∀ x, shown' (g x) = want x) {ids : List Nat} {xs : List γ}
    (h : ids.map (t'[·]?) = (xs.map g).map some) :
    follow t shown ids = xs.map fun x => some (want x) := by
  have h1 := congrArg (List.map (Option.map shown')) h
  rw [List.map_map, List.map_map, List.map_map] at h1
  unfold follow
  rw [show (fun j => Option.map shown t[j]?) = Option.map shown' ∘ fun x => t'[x]? from
    funext ht, h1]
  congr 1
  funext x
  simp [hg]

theorem get_map_eq {α α' β : Type} {t : List α} {t' : List α'} {f : α → β} {f' : α' → β}
    (h : t.map f = t'.map f') (j : Nat) : t[j]?.map f = t'[j]?.map f' := by
  have := congrArg (·[j]?) h
  simpa using this

theorem nodup_map_get {α β : Type} {f : α → β} {l : List α} (h : (l.map f).Nodup) {i j : Nat} {x y : α}
    (hi : l[i]? = some x) (hj : l[j]? = some y) (e : f x = f y) : i = j := by
  have hl : i < (l.map f).length := by
    rw [List.length_map]; exact (List.getElem?_eq_some_iff.1 hi).1
  apply (List.getElem?_inj hl h).1
  rw [List.getElem?_map, List.getElem?_map, hi, hj, Option.map_some, Option.map_some, e]

section
variable {fs : List FileProto} {p0 c q p : Pool} {D E : List Nat}

theorem Stages.msgShape (h : Stages fs p0 c q p D E) :
    p.messages.map MsgDesc.bare = p0.messages.map MsgDesc.bare := by
  rw [h.last]
  show q.messages.map _ = _
  rw [h.extended.messages, h.fielded.shape]
  rfl

theorem Stages.enumsEq (h : Stages fs p0 c q p D E) : p.enums = p0.enums := by
  rw [h.last]
  show q.enums = _
  rw [h.extended.enums, h.fielded.enums]
  rfl

theorem Stages.oneofsEq (h : Stages fs p0 c q p D E) : p.oneofs = c.oneofs := by
  rw [h.last]; exact h.extended.oneofs

theorem Stages.messageMapEq (h : Stages fs p0 c q p D E) : p.messageMap = p0.messageMap := by
  rw [h.last]
  show q.messageMap = _
  rw [h.extended.messageMap, h.fielded.messageMap]
  rfl

theorem Stages.enumMapEq (h : Stages fs p0 c q p D E) : p.enumMap = p0.enumMap := by
  rw [h.last]
  show q.enumMap = _
  rw [h.extended.enumMap, h.fielded.enumMap]
  rfl

theorem Stages.fileMapEq (h : Stages fs p0 c q p D E) : p.fileMap = p0.fileMap := by
  rw [h.last]
  show q.fileMap = _
  rw [h.extended.fileMap, h.fielded.fileMap]
  rfl

theorem Stages.fileShape (h : Stages fs p0 c q p D E) :
    p.files.map FileDesc.bare = (withDeps p0).files.map FileDesc.bare := by
  rw [h.last]
  show q.files.map _ = _
  rw [h.extended.shape, h.fielded.files]

theorem Stages.fieldGet (h : Stages fs p0 c q p D E) (j : Nat) :
    p.fields[j]? = q.fields[j]?.map (resolved q) := by
  rw [h.last]; simp

theorem Stages.fieldsPrefix (h : Stages fs p0 c q p D E) : c.fields <+: q.fields := by
  rw [h.extended.fields]; exact List.prefix_append _ _

theorem Stages.msgLength (h : Stages fs p0 c q p D E) : p.messages.length = p0.messages.length := by
  have := congrArg List.length h.msgShape
  simpa using this

theorem Stages.filled (h : Stages fs p0 c q p D E) {i : Nat} {d : MsgDesc}
    (hd : p.messages[i]? = some d) : Filled c i d := by
  have hi := (List.getElem?_eq_some_iff.1 hd).1
  rw [h.msgLength] at hi
  refine h.fielded.filled i (h.messages.mem_iff.2 (List.mem_range.2 hi)) d ?_
  rw [← hd, h.last]
  show _ = q.messages[i]?
  rw [h.extended.messages]

/-- The message at index `i` as it was before fields were added. -/
theorem Stages.before (h : Stages fs p0 c q p D E) {i : Nat} {d : MsgDesc}
    (hd : p.messages[i]? = some d) : ∃ d0, p0.messages[i]? = some d0 ∧ d0.bare = d.bare ∧
      Linked p0 i d0 := by
  obtain ⟨d0, h0, e⟩ := bare_get h.msgShape hd
  exact ⟨d0, h0, e, h.built.built.linked i (h.built.built.mem_map h0) d0 h0⟩

theorem Stages.shownMsg (h : Stages fs p0 c q p D E) (j : Nat) :
    p.messages[j]?.map shownMessage = p0.heads[j]?.map shownMessage := by
  have := congrArg (Option.map shownMessage) (get_map_eq h.msgShape j)
  rw [Option.map_map, Option.map_map] at this
  rw [heads_get, Option.map_map]
  exact this

theorem shownMessage_newMsg (full : List Byte → List Byte) (F : Features) (k : Nat) (o : Option Nat)
    (m : MsgProto) : shownMessage (newMsg full F k o m) =
      ⟨m, full m.name, under F m.features, k, o⟩ := rfl

theorem shownEnum_newEnum (full : List Byte → List Byte) (F : Features) (k : Nat) (o : Option Nat)
    (e : EnumProto) : shownEnum (newEnum full F k o e) =
      ⟨e, full e.name, under F e.features, k, o⟩ := rfl

theorem shownField_makeField (F : Features) (o : Option Nat) (f : FieldProto) :
    shownField (makeField f o F) = (f, o, under F f.features) := by
  unfold shownField makeField
  rw [mergeFeatures_eq]

theorem shownField_newField (i : Nat) (b : Bool) (F : Features) (f : FieldProto) :
    shownField (newField i b F f) = (f, some i, under F f.features) := by
  rw [← shownField_makeField]
  unfold newField
  split <;> rfl

theorem shownField_resolved (q : Pool) (f : FieldDesc) : shownField (resolved q f) = shownField f :=
  rfl

theorem Stages.shownFld (h : Stages fs p0 c q p D E) (j : Nat) :
    p.fields[j]?.map shownField = q.fields[j]?.map shownField := by
  rw [h.fieldGet, Option.map_map]
  rfl

theorem Stages.fileBefore (h : Stages fs p0 c q p D E) {k : Nat} {d : FileDesc}
    (hd : p.files[k]? = some d) : ∃ d0, p0.files[k]? = some d0 ∧ d0.proto = d.proto ∧
      d0.features = d.features ∧ d0.messages = d.messages ∧ d0.enums = d.enums ∧
      FileLinked p0 k d0 := by
  have e := get_map_eq h.fileShape k
  rw [hd, Option.map_some] at e
  obtain ⟨d1, h1, e1⟩ := Option.map_eq_some_iff.1 e.symm
  simp only [withDeps, List.getElem?_map] at h1
  obtain ⟨d0, h0, rfl⟩ := Option.map_eq_some_iff.1 h1
  refine ⟨d0, h0, ?_, ?_, ?_, ?_, h.built.linked k d0 h0⟩
  · exact (congrArg FileDesc.proto e1 :)
  · exact (congrArg FileDesc.features e1 :)
  · exact (congrArg FileDesc.messages e1 :)
  · exact (congrArg FileDesc.enums e1 :)

theorem Stages.fieldsPerm (h : Stages fs p0 c q p D E) :
    (p.fields.map (·.proto)).Perm (fieldDecls fs) := by
  have hb := withDeps_building h.built.built
  have hcf : c.files.map (·.proto) = fs := by
    rw [h.fielded.files, ← h.built.protos]; simp [withDeps, Function.comp_def]
  have e : p.fields.map (·.proto) = q.fields.map (·.proto) := by
    rw [h.last]
    show (q.fields.map (resolved q)).map _ = _
    rw [List.map_map]
    rfl
  rw [e, h.extended.fields, h.fielded.fields, List.map_append, fieldDecls]
  refine List.Perm.append ?_ ?_
  · rw [← fieldsFor_protos hb.vals]
    have hp := hb.perm
    rw [List.append_nil] at hp
    exact ((h.messages.trans hp.symm).flatMap_right _).map _
  · have := extensionsFor_protos c
    rw [hcf] at this
    rw [← this]
    have hl : c.files.length = p0.files.length := by rw [h.fielded.files]; simp [withDeps]
    rw [hl]
    exact (h.files.flatMap_right _).map _

theorem Stages.mirrors (h : Stages fs p0 c q p D E) : Mirrors p fs where
  files := by
    have h1 := congrArg (List.map fun d : FileDesc => (d.proto, d.features)) h.fileShape
    rw [List.map_map, List.map_map] at h1
    have h2 : p0.files.map (fun d => (d.proto, d.features)) =
        p0.files.map (fun d => (d.proto, fileFeatures d.proto)) :=
      List.map_congr_left fun d hd => by rw [h.built.features d hd]
    have h3 : p.files.map (fun d => (d.proto, d.features)) =
        p0.files.map (fun d => (d.proto, d.features)) := by
      refine Eq.trans h1 ?_
      simp only [withDeps, List.map_map]
      rfl
    rw [h3, h2]
    have h4 := congrArg (List.map fun f => (f, fileFeatures f)) h.built.protos
    rw [List.map_map] at h4
    exact h4
  imports := by
    intro d hd
    have hn := deps_named h.built h.imports
    obtain ⟨k, hk, e⟩ := List.getElem_of_mem hd
    have hk' : p.files[k]? = some d := by rw [List.getElem?_eq_getElem hk, e]
    have e := get_map_eq h.fileShape k
    rw [hk', Option.map_some] at e
    obtain ⟨d1, h1, e1⟩ := Option.map_eq_some_iff.1 e.symm
    have := hn d1 (List.mem_of_getElem? h1)
    have a1 : d1.deps = d.deps := (congrArg FileDesc.deps e1 :)
    have a2 : d1.proto = d.proto := (congrArg FileDesc.proto e1 :)
    rw [a1, a2] at this
    rw [← this]
    unfold follow
    congr 1
    funext j
    have := congrArg (Option.map fun d : FileDesc => d.proto.name) (get_map_eq h.fileShape j)
    rw [Option.map_map, Option.map_map] at this
    exact this
  file_messages := by
    intro k d hd
    obtain ⟨d0, h0, e1, e2, e3, e4, hl⟩ := h.fileBefore hd
    have := hl.messages
    rw [e1, e2, e3] at this
    exact follow_of h.shownMsg (shownMessage_newMsg _ _ _ _) this
  file_enums := by
    intro k d hd
    obtain ⟨d0, h0, e1, e2, e3, e4, hl⟩ := h.fileBefore hd
    have := hl.enums
    rw [e1, e2, e4] at this
    exact follow_of (fun j => by rw [h.enumsEq]) (shownEnum_newEnum _ _ _ _) this
  file_extensions := by
    intro k d hd
    obtain ⟨d0, h0, e1, e2, e3, e4, hl⟩ := h.fileBefore hd
    have hk : k ∈ E := h.files.mem_iff.2 (List.mem_range.2 (List.getElem?_eq_some_iff.1 h0).1)
    have := h.extended.filled k hk d (by rw [← hd, h.last])
    exact follow_of h.shownFld (fun f => shownField_makeField _ _ f) this
  nested := by
    intro i d hd
    obtain ⟨d0, h0, e, hl⟩ := h.before hd
    have := hl.nested
    rw [show d0.messages = d.messages from (congrArg MsgDesc.messages e :),
      show d0.proto = d.proto from (congrArg MsgDesc.proto e :),
      show d0.fullName = d.fullName from (congrArg MsgDesc.fullName e :),
      show d0.features = d.features from (congrArg MsgDesc.features e :),
      show d0.file = d.file from (congrArg MsgDesc.file e :)] at this
    exact follow_of h.shownMsg (shownMessage_newMsg _ _ _ _) this
  enums := by
    intro i d hd
    obtain ⟨d0, h0, e, hl⟩ := h.before hd
    have := hl.enums
    rw [show d0.enums = d.enums from (congrArg MsgDesc.enums e :),
      show d0.proto = d.proto from (congrArg MsgDesc.proto e :),
      show d0.fullName = d.fullName from (congrArg MsgDesc.fullName e :),
      show d0.features = d.features from (congrArg MsgDesc.features e :),
      show d0.file = d.file from (congrArg MsgDesc.file e :)] at this
    exact follow_of (fun j => by rw [h.enumsEq]) (shownEnum_newEnum _ _ _ _) this
  oneofs := by
    intro i d hd
    obtain ⟨d0, h0, e, hl⟩ := h.before hd
    have := hl.oneofs
    rw [show d0.oneofs = d.oneofs from (congrArg MsgDesc.oneofs e :),
      show d0.proto = d.proto from (congrArg MsgDesc.proto e :),
      show d0.features = d.features from (congrArg MsgDesc.features e :)] at this
    refine follow_of (t' := p0.oneofs) (shown' := fun o => (o.proto, o.features)) (fun j => ?_)
      (fun o => rfl) this
    rw [h.oneofsEq]
    have := congrArg (Option.map fun o : OneofDesc => (o.proto, o.features))
      (get_map_eq h.fielded.oneofShape j)
    rw [Option.map_map, Option.map_map] at this
    exact this
  fields := by
    intro i d hd
    exact follow_of h.shownFld (fun f => shownField_newField _ _ _ f)
      (map_get_mono h.fieldsPrefix (h.filled hd).fields)
  extensions := by
    intro i d hd
    exact follow_of h.shownFld (fun f => shownField_makeField _ _ f)
      (map_get_mono h.fieldsPrefix (h.filled hd).extensions)
  members := by
    intro i d hd k o ho
    have := (h.filled hd).members k o ho
    rw [h.oneofsEq, this]
    congr 1
    apply List.filter_congr
    intro j hj
    obtain ⟨x, hx⟩ := map_some_get (h.filled hd).fields j hj
    rw [h.fieldGet, prefix_get h.fieldsPrefix hx, hx]
    rfl
  all_messages := by
    have h1 := h.built.built.protos
    have h2 := congrArg (List.map MsgDesc.decl) h.msgShape
    rw [List.map_map, List.map_map] at h2
    have h3 : p.messages.map MsgDesc.decl = p0.messages.map MsgDesc.decl := h2
    rw [← h3] at h1
    exact h1
  all_enums := by
    have h1 := h.built.built.enums
    rw [h.enumsEq]
    rw [← h1]
    exact List.Perm.refl _
  all_fields := h.fieldsPerm

/-! ## Lookups -/

theorem Stages.findMessage (h : Stages fs p0 c q p D E) (n : List Byte) (i : Nat) :
    p.findMessage n = some i ↔ p.messages[i]?.map (·.fullName) = some n := by
  unfold Pool.findMessage
  have hb := h.built.built
  rw [h.messageMapEq, get_eq_some (by rw [hb.keys]; exact hb.names)]
  have hfull : ∀ i : Nat, p.messages[i]?.map (·.fullName) = p0.messages[i]?.map (·.fullName) := by
    intro i
    have := congrArg (Option.map MsgDesc.fullName) (get_map_eq h.msgShape i)
    rw [Option.map_map, Option.map_map] at this
    exact this
  rw [hfull]
  have key : ∀ e ∈ p0.messageMap, p0.messages[e.2]?.map (·.fullName) = some e.1 := by
    intro e he
    obtain ⟨k, hk, hk'⟩ := List.getElem_of_mem he
    have hke : p0.messageMap[k]? = some e := by rw [List.getElem?_eq_getElem hk, hk']
    have e1 := congrArg (·[k]?) hb.keys
    have e2 := congrArg (·[k]?) hb.vals
    simp only [List.getElem?_map, hke, Option.map_some] at e1 e2
    cases hT : (decls fs)[k]? with
    | none => rw [hT] at e1; cases e1
    | some t =>
      rw [hT] at e1 e2
      simp only [Option.map_some, Option.some.injEq] at e1 e2
      rw [← decl_get] at e2
      obtain ⟨d, hd, rfl⟩ := Option.map_eq_some_iff.1 e2
      rw [hd, e1]
      rfl
  constructor
  · intro hm; exact key _ hm
  · intro hi
    obtain ⟨d, hd, rfl⟩ := Option.map_eq_some_iff.1 hi
    obtain ⟨e, he, rfl⟩ := List.mem_map.1 (hb.mem_map hd)
    have := key e he
    rw [hd, Option.map_some, Option.some.injEq] at this
    rw [this]
    exact he

theorem Stages.findEnum (h : Stages fs p0 c q p D E) (n : List Byte) (i : Nat) :
    p.findEnum n = some i ↔ p.enums[i]?.map (·.fullName) = some n := by
  unfold Pool.findEnum
  have hb := h.built.built
  have hl : (enumDecls fs).length = p0.enums.length := by rw [← hb.enums]; simp
  rw [h.enumMapEq, get_eq_some (by rw [hb.enumKeys]; exact hb.enumNames), h.enumsEq, hb.enumMap,
    List.mem_iff_getElem?]
  have e : p0.enums[i]?.map (·.fullName) = ((enumDecls fs).map (·.name))[i]? := by
    rw [← hb.enums]
    simp only [List.getElem?_map, Option.map_map]
    rfl
  rw [e]
  constructor
  · rintro ⟨k, hk⟩
    rw [List.getElem?_zip_eq_some] at hk
    obtain ⟨h1, h2⟩ := hk
    have : k = i := by
      rw [List.getElem?_range] at h2
      · simpa using h2
      · have := (List.getElem?_eq_some_iff.1 h1).1
        simpa using this
    subst this
    exact h1
  · intro hi
    refine ⟨i, List.getElem?_zip_eq_some.2 ⟨hi, ?_⟩⟩
    have := (List.getElem?_eq_some_iff.1 hi).1
    rw [List.length_map] at this
    rw [List.getElem?_range this]

theorem Stages.findFile (h : Stages fs p0 c q p D E) (n : List Byte) (i : Nat) :
    p.findFile n = some i ↔ p.files[i]?.map (·.proto.name) = some n := by
  unfold Pool.findFile
  have hk : p0.fileMap.map Prod.fst = fs.map (·.name) := by
    rw [h.built.fileMap, namesFrom_keys, List.map_map]; rfl
  have hv : p0.fileMap.map Prod.snd = List.range fs.length := by
    rw [h.built.fileMap, namesFrom_vals, List.length_map, List.range_eq_range']
  rw [h.fileMapEq, get_eq_some (by rw [hk]; exact h.built.ok.names), List.mem_iff_getElem?]
  have e : p.files[i]?.map (·.proto.name) = (fs.map (·.name))[i]? := by
    have := congrArg (List.map fun x : FileProto × Features => x.1.name) h.mirrors.files
    rw [List.map_map, List.map_map] at this
    have := congrArg (·[i]?) this
    simp only [List.getElem?_map] at this
    rw [List.getElem?_map]
    exact this
  rw [e]
  have hlen : p0.fileMap.length = fs.length := by
    have := congrArg List.length hk
    simpa using this
  constructor
  · rintro ⟨k, hk'⟩
    have e1 := congrArg (·[k]?) hk
    have e2 := congrArg (·[k]?) hv
    have hlt : k < fs.length := by rw [← hlen]; exact (List.getElem?_eq_some_iff.1 hk').1
    simp only [List.getElem?_map, hk', Option.map_some] at e1 e2
    rw [List.getElem?_range hlt, Option.some.injEq] at e2
    subst e2
    rw [List.getElem?_map, ← e1]
  · intro hi
    have hlt : i < fs.length := by
      have := (List.getElem?_eq_some_iff.1 hi).1
      simpa using this
    refine ⟨i, ?_⟩
    have e1 := congrArg (·[i]?) hk
    have e2 := congrArg (·[i]?) hv
    simp only [hi] at e1
    simp only [List.getElem?_range hlt] at e2
    rw [List.getElem?_map] at e1 e2
    obtain ⟨a, ha, ha'⟩ := Option.map_eq_some_iff.1 e1
    obtain ⟨b, hb, hb'⟩ := Option.map_eq_some_iff.1 e2
    rw [ha] at hb
    cases hb
    rw [ha]
    cases a
    simp only at ha' hb'
    rw [ha', hb']

theorem findType_some {m : FileMap} {n : List Byte} {i : Nat} (h : findType m n = some i) :
    ∃ k, n = b!"." ++ k ∧ m.get k = some i := by
  have hdot : (b!"." : List Byte) = [46#8] := by decide +kernel
  unfold findType at h
  cases n with
  | nil => cases h
  | cons ch rest =>
    simp only at h
    split at h
    · rename_i hc
      subst hc
      exact ⟨rest, by rw [hdot]; rfl, h⟩
    · cases h

theorem Stages.msgType (h : Stages fs p0 c q p D E) {n : List Byte}
    (hs : (findType q.messageMap n).isSome) : ∃ i d, findType q.messageMap n = some i ∧
      p.messages[i]? = some d ∧ n = b!"." ++ d.fullName := by
  obtain ⟨i, hi⟩ := Option.isSome_iff_exists.1 hs
  obtain ⟨k, rfl, hk⟩ := findType_some hi
  have hm : p.findMessage k = some i := by
    unfold Pool.findMessage
    rw [h.last]
    exact hk
  rw [h.findMessage] at hm
  obtain ⟨d, hd, rfl⟩ := Option.map_eq_some_iff.1 hm
  exact ⟨i, d, hi, hd, rfl⟩

theorem Stages.enumType (h : Stages fs p0 c q p D E) {n : List Byte}
    (hs : (findType q.enumMap n).isSome) : ∃ i d, findType q.enumMap n = some i ∧
      p.enums[i]? = some d ∧ n = b!"." ++ d.fullName := by
  obtain ⟨i, hi⟩ := Option.isSome_iff_exists.1 hs
  obtain ⟨k, rfl, hk⟩ := findType_some hi
  have hm : p.findEnum k = some i := by
    unfold Pool.findEnum
    rw [h.last]
    exact hk
  rw [h.findEnum] at hm
  obtain ⟨d, hd, rfl⟩ := Option.map_eq_some_iff.1 hm
  exact ⟨i, d, hi, hd, rfl⟩

/-! ## Fields -/

theorem map_some_mem {α β : Type} {t : List α} {g : β → α} : ∀ {ids : List Nat} {xs : List β},
    ids.map (t[·]?) = (xs.map g).map some → ∀ j ∈ ids, ∃ x ∈ xs, t[j]? = some (g x)
  | [], _, _, _, hj => by simp at hj
  | _ :: _, [], e, _, _ => by simp at e
  | i :: ids, x :: xs, e, j, hj => by
    simp only [List.map_cons, List.cons.injEq] at e
    rcases List.mem_cons.1 hj with rfl | hj
    · exact ⟨x, List.mem_cons_self, e.1⟩
    · obtain ⟨y, hy, h⟩ := map_some_mem e.2 j hj
      exact ⟨y, List.mem_cons_of_mem _ hy, h⟩

theorem Stages.field (h : Stages fs p0 c q p D E) {i : Nat} {d : MsgDesc}
    (hd : p.messages[i]? = some d) {j : Nat} (hj : j ∈ d.fields) :
    ∃ f ∈ d.proto.fields,
      p.fields[j]? = some (resolved q (newField i d.proto.mapEntry d.features f)) := by
  obtain ⟨f, hf, e⟩ := map_some_mem (map_get_mono h.fieldsPrefix (h.filled hd).fields) j hj
  exact ⟨f, hf, by rw [h.fieldGet, e]; rfl⟩

theorem Stages.extension (h : Stages fs p0 c q p D E) {i : Nat} {d : MsgDesc}
    (hd : p.messages[i]? = some d) {j : Nat} (hj : j ∈ d.extensions) :
    ∃ f ∈ d.proto.extensions,
      p.fields[j]? = some (resolved q (makeField f (some i) d.features)) := by
  obtain ⟨f, hf, e⟩ := map_some_mem (map_get_mono h.fieldsPrefix (h.filled hd).extensions) j hj
  exact ⟨f, hf, by rw [h.fieldGet, e]; rfl⟩

theorem newField_plain (i : Nat) (b : Bool) (F : Features) (f : FieldProto) :
    (newField i b F f).type = none ∧ (newField i b F f).extendee = none ∧
      (newField i b F f).bits.mapEntry = false := by
  unfold newField
  split <;> exact ⟨rfl, rfl, rfl⟩

/-- Every field of the pool before its types are resolved. -/
theorem Stages.plain (h : Stages fs p0 c q p D E) {f : FieldDesc} (hf : f ∈ p.fields) :
    ∃ g ∈ q.fields, f = resolved q g ∧ g.type = none ∧ g.extendee = none ∧
      g.bits.mapEntry = false := by
  rw [h.last] at hf
  obtain ⟨g, hg, rfl⟩ := List.mem_map.1 hf
  refine ⟨g, hg, rfl, ?_⟩
  rw [h.extended.fields, h.fielded.fields, List.mem_append, List.mem_flatMap, List.mem_flatMap] at hg
  rcases hg with ⟨i, _, hg⟩ | ⟨k, _, hg⟩
  · unfold fieldsFor at hg
    split at hg
    · cases hg
    · rw [List.mem_append, List.mem_map, List.mem_map] at hg
      rcases hg with ⟨x, _, rfl⟩ | ⟨x, _, rfl⟩
      · exact newField_plain _ _ _ _
      · exact ⟨rfl, rfl, rfl⟩
  · unfold extensionsFor at hg
    split at hg
    · cases hg
    · obtain ⟨x, _, rfl⟩ := List.mem_map.1 hg
      exact ⟨rfl, rfl, rfl⟩

theorem Stages.resolvedField (h : Stages fs p0 c q p D E) {f : FieldDesc} (hf : f ∈ p.fields) :
    Resolved p f := by
  obtain ⟨g, hg, rfl, ht, hx, hm⟩ := h.plain hf
  have hq : p.messages = q.messages := by rw [h.last]
  have tf := h.types g hg
  have e11 : ∀ {n : Int}, n = 10 ∨ n = 11 → n = 11 ∨ n = 10 := fun h => h.symm
  constructor
  · intro h1
    have h1' : g.proto.type = 11 ∨ g.proto.type = 10 := h1.symm
    obtain ⟨i, d, hi, hd, hn⟩ := h.msgType (tf.1 h1')
    refine ⟨i, d, ?_, hd, hn, ?_⟩
    · show (if _ then _ else _) = _
      rw [if_pos h1', hi]
    · show (g.bits.mapEntry || _) = _
      rw [hq] at hd
      simp [hm, h1', hi, hd]
  · intro h1
    have h1' : g.proto.type = 14 := h1
    obtain ⟨i, d, hi, hd, hn⟩ := h.enumType (tf.2.1 h1')
    refine ⟨i, d, ?_, hd, hn⟩
    show (if _ then _ else _) = _
    rw [if_neg (by omega), if_pos h1', hi]
  · intro h1 h2
    have h1' : g.proto.type ≠ 10 := h1
    have h2' : g.proto.type ≠ 11 := h2
    show (g.bits.mapEntry || _) = _
    simp [hm, h1', h2']
  · intro h1 h2 h3
    have h1' : g.proto.type ≠ 10 := h1
    have h2' : g.proto.type ≠ 11 := h2
    have h3' : g.proto.type ≠ 14 := h3
    show (if _ then _ else _) = _
    rw [if_neg (by omega), if_neg h3', ht]
  · intro h1
    have h1' : g.proto.extendee ≠ [] := h1
    obtain ⟨i, d, hi, hd, hn⟩ := h.msgType (tf.2.2 h1')
    refine ⟨i, d, ?_, hd, hn⟩
    show (if _ then _ else _) = _
    rw [if_neg h1', hi]
  · intro h1
    have h1' : g.proto.extendee = [] := h1
    show (if _ then _ else _) = _
    rw [if_pos h1', hx]

/-- The definitions of the fields of a message. -/
theorem Stages.fieldProtos (h : Stages fs p0 c q p D E) {i : Nat} {d : MsgDesc}
    (hd : p.messages[i]? = some d) :
    d.fields.map (fun j => p.fields[j]?.map (·.proto)) = d.proto.fields.map some := by
  have := congrArg (List.map (Option.map Prod.fst)) (h.mirrors.fields i d hd)
  unfold follow at this
  simpa [Function.comp_def, shownField] using this

theorem Stages.fieldsOk (h : Stages fs p0 c q p D E) (hw : WellFormed fs) {i : Nat} {d : MsgDesc}
    (hd : p.messages[i]? = some d) : FieldsOk d.proto := by
  refine hw.fields ⟨d.fullName, d.proto, d.features⟩ (h.mirrors.all_messages.mem_iff.1 ?_)
  exact List.mem_map.2 ⟨d, List.mem_of_getElem? hd, rfl⟩

/-- Two fields of a message with the same key are the same, if the definitions have different
keys. -/
theorem Stages.field_unique (h : Stages fs p0 c q p D E) {i : Nat} {d : MsgDesc}
    (hd : p.messages[i]? = some d) {β : Type} {key : FieldProto → β}
    (hn : (d.proto.fields.map key).Nodup) {j j' : Nat} (hj : j ∈ d.fields) (hj' : j' ∈ d.fields)
    {f f' : FieldDesc} (hf : p.fields[j]? = some f) (hf' : p.fields[j']? = some f')
    (e : key f.proto = key f'.proto) : j = j' := by
  have hp := h.fieldProtos hd
  obtain ⟨a, ha⟩ := List.mem_iff_getElem?.1 hj
  obtain ⟨b, hb⟩ := List.mem_iff_getElem?.1 hj'
  have ea := congrArg (·[a]?) hp
  have eb := congrArg (·[b]?) hp
  simp only [List.getElem?_map, ha, hb, Option.map_some, hf, hf'] at ea eb
  obtain ⟨x, hx, hx'⟩ := Option.map_eq_some_iff.1 ea.symm
  obtain ⟨y, hy, hy'⟩ := Option.map_eq_some_iff.1 eb.symm
  simp only [Option.some.injEq] at hx' hy'
  subst hx' hy'
  have := nodup_map_get hn hx hy e
  subst this
  rw [ha] at hb
  exact Option.some.inj hb

theorem find_unique {ids : List Nat} {t : Nat → Bool}
    (hu : ∀ j ∈ ids, ∀ j' ∈ ids, t j = true → t j' = true → j = j') (j : Nat) :
    ids.find? t = some j ↔ j ∈ ids ∧ t j = true := by
  constructor
  · intro h
    exact ⟨List.mem_of_find?_eq_some h, List.find?_some h⟩
  · rintro ⟨hj, ht⟩
    cases hf : ids.find? t with
    | none =>
      rw [List.find?_eq_none] at hf
      exact absurd ht (hf j hj)
    | some k =>
      rw [hu j hj k (List.mem_of_find?_eq_some hf) ht (List.find?_some hf)]

theorem findField_test (p : Pool) (test : FieldProto → Bool) (j : Nat) :
    ((p.fields[j]?.map fun f => test f.proto).getD false) = true ↔
      ∃ f, p.fields[j]? = some f ∧ test f.proto = true := by
  cases p.fields[j]? <;> simp

theorem Stages.findField (h : Stages fs p0 c q p D E) {i : Nat} {d : MsgDesc}
    (hd : p.messages[i]? = some d) {β : Type} [BEq β] [LawfulBEq β] {key : FieldProto → β}
    (hn : (d.proto.fields.map key).Nodup) (k : β) (j : Nat) :
    p.findField d (fun f => key f == k) = some j ↔
      j ∈ d.fields ∧ ∃ f, p.fields[j]? = some f ∧ key f.proto = k := by
  unfold Pool.findField
  rw [find_unique]
  · refine (and_congr_right fun _ => findField_test p (fun f => key f == k) j).trans ?_
    simp
  · intro a ha b hb hta htb
    obtain ⟨f, hf, e⟩ := (findField_test p (fun f => key f == k) a).1 hta
    obtain ⟨f', hf', e'⟩ := (findField_test p (fun f => key f == k) b).1 htb
    simp only [beq_iff_eq] at e e'
    exact h.field_unique hd hn ha hb hf hf' (e.trans e'.symm)

theorem findField_only {p : Pool} {d : MsgDesc} {test : FieldProto → Bool} {j : Nat}
    (hj : j ∈ d.fields) {f : FieldDesc} (hf : p.fields[j]? = some f) (ht : test f.proto = true)
    (hu : ∀ j' ∈ d.fields, ∀ f', p.fields[j']? = some f' → test f'.proto = true → j' = j) :
    p.findField d test = some j := by
  unfold Pool.findField
  cases hx : d.fields.find? fun j => (p.fields[j]?.map fun f => test f.proto).getD false with
  | none =>
    rw [List.find?_eq_none] at hx
    exact absurd ((findField_test p test j).2 ⟨f, hf, ht⟩) (hx j hj)
  | some k =>
    have hk := List.find?_some hx
    obtain ⟨f', hf', ht'⟩ := (findField_test p test k).1 hk
    rw [hu k (List.mem_of_find?_eq_some hx) f' hf' ht']

theorem findField_none {p : Pool} {d : MsgDesc} {test : FieldProto → Bool}
    (hu : ∀ j ∈ d.fields, ∀ f, p.fields[j]? = some f → test f.proto = false) :
    p.findField d test = none := by
  unfold Pool.findField
  rw [List.find?_eq_none]
  intro j hj ht
  obtain ⟨f, hf, ht⟩ := (findField_test p test j).1 ht
  rw [hu j hj f hf] at ht
  cases ht

/-- A set of flags without those that do not follow from the definition of the field alone. -/
def FieldBits.own (b : FieldBits) : FieldBits := { b with presence := false, mapEntry := false }

theorem newField_own (i : Nat) (b : Bool) (F : Features) (f : FieldProto) :
    (newField i b F f).bits.own = (fieldBits (newField i b F f).proto (newField i b F f).features).own := by
  unfold newField
  split <;> rfl

theorem Stages.ownFlags (h : Stages fs p0 c q p D E) {f : FieldDesc} (hf : f ∈ p.fields) :
    f.bits.own = (fieldBits f.proto f.features).own := by
  rw [h.last] at hf
  obtain ⟨g, hg, rfl⟩ := List.mem_map.1 hf
  show g.bits.own = (fieldBits g.proto g.features).own
  rw [h.extended.fields, h.fielded.fields, List.mem_append, List.mem_flatMap, List.mem_flatMap] at hg
  rcases hg with ⟨i, _, hg⟩ | ⟨k, _, hg⟩
  · unfold fieldsFor at hg
    split at hg
    · cases hg
    · rw [List.mem_append, List.mem_map, List.mem_map] at hg
      rcases hg with ⟨x, _, rfl⟩ | ⟨x, _, rfl⟩
      · exact newField_own _ _ _ _
      · rfl
  · unfold extensionsFor at hg
    split at hg
    · cases hg
    · obtain ⟨x, _, rfl⟩ := List.mem_map.1 hg
      rfl

theorem newField_presence (i : Nat) (b : Bool) (F : Features) (f : FieldProto) :
    (newField i b F f).bits.presence =
      (b || (fieldBits f (newField i b F f).features).presence) := by
  unfold newField
  cases b <;> rfl

end

end HppProto
