import Verif.Proofs.PoolFields

/-! # Descriptor pools: the fields of all messages -/

namespace HppProto
open Spec

/-- The conditions on the fields and extensions of a message. -/
def MsgOk (m : MsgProto) : Prop := FieldsOk m ∧ ∀ f ∈ m.extensions, FieldOk f

/-! ## Who owns a oneof -/

theorem PoolBuilding.mem_map {p : Pool} {T : List Decl} {en : List EnumDecl}
    (h : PoolBuilding p [] [] T en) {i : Nat} {d : MsgDesc} (hd : p.messages[i]? = some d) :
    i ∈ p.messageMap.map Prod.snd := by
  have := h.perm
  rw [List.append_nil] at this
  exact this.mem_iff.2 (List.mem_range.2 (List.getElem?_eq_some_iff.1 hd).1)

theorem PoolBuilding.owners {p : Pool} {T : List Decl} {en : List EnumDecl}
    (h : PoolBuilding p [] [] T en) :
    (∀ (i : Nat) (d : MsgDesc), p.messages[i]? = some d → d.oneofs.Nodup) ∧
    ∀ (i j : Nat) (di dj : MsgDesc), p.messages[i]? = some di → p.messages[j]? = some dj → i ≠ j →
      ∀ o ∈ di.oneofs, o ∉ dj.oneofs := by
  have hn : (p.messageMap.flatMap
      (fun e => (p.messages[e.2]?.map (·.oneofs)).getD [])).Pairwise (· ≠ ·) := by
    rw [h.owned]; exact List.nodup_range
  rw [List.pairwise_flatMap] at hn
  constructor
  · intro i d hd
    obtain ⟨e, he, rfl⟩ := List.mem_map.1 (h.mem_map hd)
    have := hn.1 e he
    rw [hd] at this
    exact this
  · intro i j di dj hi hj hij o ho ho'
    obtain ⟨e, he, rfl⟩ := List.mem_map.1 (h.mem_map hi)
    obtain ⟨e', he', rfl⟩ := List.mem_map.1 (h.mem_map hj)
    rcases pairwise_of hn.2 (fun a b hab x hx y hy exy => hab y hy x hx exy.symm) e he e' he' with
      rfl | hr
    · exact hij rfl
    · rw [hi, hj] at hr
      exact hr o ho o ho' rfl

theorem PoolBuilding.oneofs_length {p : Pool} {T : List Decl} {en : List EnumDecl}
    (h : PoolBuilding p [] [] T en) {i : Nat} {d : MsgDesc} (hd : p.messages[i]? = some d) :
    d.oneofs.length = d.proto.oneofs.length := by
  have := congrArg List.length (h.linked i (h.mem_map hd) d hd).oneofs
  simpa using this

/-! ## One message -/

theorem slotOf_mem {os : List Nat} {f : FieldProto} {o : Nat} (h : slotOf os f = some o) :
    o ∈ os := by
  unfold slotOf at h
  rw [Option.bind_eq_some_iff] at h
  obtain ⟨k, _, h⟩ := h
  rw [Option.bind_eq_some_iff] at h
  obtain ⟨n, _, h⟩ := h
  exact List.mem_of_getElem? h

/-- The pool after the fields of the message `d` at index `i` have been built. -/
def withFields (p : Pool) (i : Nat) (d : MsgDesc) : Pool :=
  { p with
    fields := p.fields ++ d.proto.fields.map (newField i d.proto.mapEntry d.features)
    oneofs := joinedOneofs d.oneofs p.fields.length d.proto.fields p.oneofs
    messages := p.messages.modify i (fun d' => { d' with
      fields := List.range' p.fields.length d.proto.fields.length }) }

theorem buildFields_sat {p : Pool} {i : Nat} {d : MsgDesc} (hd : p.messages[i]? = some d)
    (hr : p.fields.length + d.proto.fields.length ≤ p.room.fields)
    (hn : d.oneofs.Nodup) (hl : d.oneofs.length = d.proto.oneofs.length)
    (hf : ∀ o ∈ d.oneofs, ∃ x, p.oneofs[o]? = some x ∧ x.fields = []) :
    (buildFields p i).Sat (fun q => q = withFields p i d ∧ FieldsOk d.proto)
      (¬ FieldsOk d.proto) := by
  unfold buildFields
  rw [hd]
  simp only
  rw [fieldsOk_iff, ← hl]
  refine (fieldLoop_sat i d.proto.mapEntry d.features d.oneofs d.proto.fields {} p [] hr).bind
    (fun h ha => h ha.1) ?_
  rintro _ ⟨rfl, ha⟩
  simp only
  have key : d.oneofs.any (fun o => ((joinedOneofs d.oneofs p.fields.length d.proto.fields
      p.oneofs)[o]?.map (·.fields.isEmpty)).getD true) = true ↔
      ¬ ∀ k : Nat, k < d.oneofs.length →
        ∃ f ∈ d.proto.fields, f.oneofIndex = some (k : Int) := by
    rw [List.any_eq_true]
    constructor
    · rintro ⟨o, ho, h⟩ hall
      obtain ⟨x, hx, hxf⟩ := hf o ho
      rw [joinedOneofs_get, hx] at h
      simp only [Option.map_some, hxf, List.nil_append, Option.getD_some,
        List.isEmpty_iff] at h
      rw [membersOf_nil_iff] at h
      obtain ⟨k, hk, ek⟩ := List.getElem_of_mem ho
      obtain ⟨f, hfm, hfi⟩ := hall k hk
      exact h ⟨f, hfm, (slotOf_iff hn (by rw [List.getElem?_eq_getElem hk, ek]) f).2 hfi⟩
    · intro h
      refine Classical.byContradiction fun hno => h fun k hk => ?_
      refine Classical.byContradiction fun hnf => hno ⟨d.oneofs[k], List.getElem_mem hk, ?_⟩
      obtain ⟨x, hx, hxf⟩ := hf _ (List.getElem_mem hk)
      rw [joinedOneofs_get, hx]
      simp only [Option.map_some, hxf, List.nil_append, Option.getD_some, List.isEmpty_iff]
      rw [membersOf_nil_iff]
      rintro ⟨f, hfm, hfs⟩
      exact hnf ⟨f, hfm, (slotOf_iff hn (List.getElem?_eq_getElem hk) f).1 hfs⟩
  show (if _ then _ else _ : Res _).Sat _ _
  split
  · rename_i h
    exact ⟨rfl, fun hc => key.1 h hc.2⟩
  · rename_i h
    refine ⟨?_, ha, Classical.not_not.1 fun hc => h (key.2 hc)⟩
    rfl

/-- The pool after the extensions of the message `d` at index `i` have been built. -/
def withExtensions (p : Pool) (i : Nat) (d : MsgDesc) : Pool :=
  { p with
    fields := p.fields ++ d.proto.extensions.map (makeField · (some i) d.features)
    messages := p.messages.modify i (fun d' => { d' with
      extensions := List.range' p.fields.length d.proto.extensions.length }) }

theorem messageExtensions_sat {p : Pool} {i : Nat} {d : MsgDesc} (hd : p.messages[i]? = some d)
    (hr : p.fields.length + d.proto.extensions.length ≤ p.room.fields) :
    (messageExtensions p i).Sat
      (fun q => q = withExtensions p i d ∧ ∀ f ∈ d.proto.extensions, FieldOk f)
      (¬ ∀ f ∈ d.proto.extensions, FieldOk f) := by
  unfold messageExtensions
  rw [hd]
  simp only
  refine (extensionLoop_sat (some i) d.features d.proto.extensions p [] hr).bind (fun h => h) ?_
  rintro _ ⟨rfl, ha⟩
  exact ⟨rfl, ha⟩

/-! ## All messages -/

/-- A message descriptor without its fields and extensions. -/
def MsgDesc.bare (d : MsgDesc) : MsgDesc := { d with fields := [], extensions := [] }

/-- A oneof descriptor without its members. -/
def OneofDesc.bare (d : OneofDesc) : OneofDesc := { d with fields := [] }

/-- The field descriptors made for the message at index `i`. -/
def fieldsFor (b : Pool) (i : Nat) : List FieldDesc :=
  match b.messages[i]? with
  | none => []
  | some d => d.proto.fields.map (newField i d.proto.mapEntry d.features) ++
      d.proto.extensions.map (makeField · (some i) d.features)

/-- The links of the message `d` at index `i` to its fields, extensions and the members of its
oneofs. -/
structure Filled (p : Pool) (i : Nat) (d : MsgDesc) : Prop where
  fields : d.fields.map (p.fields[·]?) =
    (d.proto.fields.map (newField i d.proto.mapEntry d.features)).map some
  extensions : d.extensions.map (p.fields[·]?) =
    (d.proto.extensions.map (makeField · (some i) d.features)).map some
  members : ∀ (k o : Nat), d.oneofs[k]? = some o → p.oneofs[o]?.map (·.fields) =
    some (d.fields.filter fun j => p.fields[j]?.bind (·.proto.oneofIndex) = some (k : Int))

theorem map_some_get {α : Type} {l : List α} : ∀ {ids : List Nat} {xs : List α},
    ids.map (l[·]?) = xs.map some → ∀ j ∈ ids, ∃ x, l[j]? = some x
  | [], _, _, j, hj => by simp at hj
  | _ :: _, [], e, _, _ => by simp at e
  | i :: ids, x :: xs, e, j, hj => by
    simp only [List.map_cons, List.cons.injEq] at e
    rcases List.mem_cons.1 hj with rfl | hj
    · exact ⟨x, e.1⟩
    · exact map_some_get e.2 j hj

theorem Filled.mono {p p' : Pool} {i : Nat} {d : MsgDesc} (h : Filled p i d)
    (hf : p.fields <+: p'.fields) (ho : ∀ o ∈ d.oneofs, p'.oneofs[o]? = p.oneofs[o]?) :
    Filled p' i d := by
  refine ⟨map_get_mono hf h.fields, map_get_mono hf h.extensions, ?_⟩
  intro k o hk
  rw [ho o (List.mem_of_getElem? hk), h.members k o hk]
  congr 1
  apply List.filter_congr
  intro j hj
  obtain ⟨x, hx⟩ := map_some_get h.fields j hj
  rw [hx, prefix_get hf hx]

/-- The pool `p` made from `b` when the fields of the messages `D` have been built. -/
structure Fielded (b p : Pool) (D : List Nat) : Prop where
  room : p.room = b.room
  files : p.files = b.files
  enums : p.enums = b.enums
  fileMap : p.fileMap = b.fileMap
  messageMap : p.messageMap = b.messageMap
  enumMap : p.enumMap = b.enumMap
  shape : p.messages.map MsgDesc.bare = b.messages.map MsgDesc.bare
  fields : p.fields = D.flatMap (fieldsFor b)
  filled : ∀ i ∈ D, ∀ d : MsgDesc, p.messages[i]? = some d → Filled p i d
  todo : ∀ i : Nat, i ∉ D → p.messages[i]? = b.messages[i]?
  oneofShape : p.oneofs.map OneofDesc.bare = b.oneofs.map OneofDesc.bare
  oneofTodo : ∀ i : Nat, i ∉ D → ∀ d : MsgDesc, b.messages[i]? = some d →
    ∀ o ∈ d.oneofs, p.oneofs[o]? = b.oneofs[o]?
  ok : ∀ i ∈ D, ∀ d : MsgDesc, b.messages[i]? = some d → MsgOk d.proto

theorem bare_get {l l' : List MsgDesc} (h : l.map MsgDesc.bare = l'.map MsgDesc.bare) {i : Nat}
    {d : MsgDesc} (hd : l[i]? = some d) : ∃ d', l'[i]? = some d' ∧ d'.bare = d.bare := by
  have := congrArg (·[i]?) h
  simp only [List.getElem?_map, hd, Option.map_some] at this
  exact Option.map_eq_some_iff.1 this.symm

theorem Fielded.start (b : Pool) (h : b.fields = []) : Fielded b b [] :=
  ⟨rfl, rfl, rfl, rfl, rfl, rfl, rfl, by simpa using h, by simp, fun _ _ => rfl, rfl,
   fun _ _ _ _ _ _ => rfl, by simp⟩

theorem Fielded.step {b p : Pool} {D : List Nat} {T : List Decl} {en : List EnumDecl}
    (hb : PoolBuilding b [] [] T en) (h : Fielded b p D) {i : Nat} {d : MsgDesc} (hi : i ∉ D)
    (hd : b.messages[i]? = some d) (hok : MsgOk d.proto) :
    Fielded b (withExtensions (withFields p i d) i d) (D ++ [i]) := by
  have hp : p.messages[i]? = some d := by rw [h.todo i hi]; exact hd
  obtain ⟨hn, hown⟩ := hb.owners
  have hother : ∀ o, o ∉ d.oneofs →
      (joinedOneofs d.oneofs p.fields.length d.proto.fields p.oneofs)[o]? = p.oneofs[o]? := by
    intro o ho
    rw [joinedOneofs_get]
    have : membersOf d.oneofs p.fields.length d.proto.fields o = [] := by
      rw [membersOf_nil_iff]
      rintro ⟨f, _, hf⟩
      exact ho (slotOf_mem hf)
    rw [this]
    cases p.oneofs[o]? <;> simp
  have hff : fieldsFor b i = d.proto.fields.map (newField i d.proto.mapEntry d.features) ++
      d.proto.extensions.map (makeField · (some i) d.features) := by
    unfold fieldsFor; rw [hd]
  have hpre : p.fields <+: (withExtensions (withFields p i d) i d).fields :=
    ⟨fieldsFor b i, by rw [hff]; simp [withExtensions, withFields]⟩
  have hnew : (withExtensions (withFields p i d) i d).messages[i]? = some { d with
      fields := List.range' p.fields.length d.proto.fields.length
      extensions := List.range' (p.fields.length + d.proto.fields.length)
        d.proto.extensions.length } := by
    simp only [withExtensions, withFields]
    rw [modify_get_eq, modify_get_eq, hp]
    simp
  have hold : ∀ j, i ≠ j →
      (withExtensions (withFields p i d) i d).messages[j]? = p.messages[j]? := by
    intro j hj
    simp only [withExtensions, withFields]
    rw [modify_get_ne _ _ hj, modify_get_ne _ _ hj]
  refine
    { room := h.room, files := h.files, enums := h.enums, fileMap := h.fileMap,
      messageMap := h.messageMap, enumMap := h.enumMap, shape := ?_, fields := ?_, filled := ?_,
      todo := ?_, oneofShape := ?_, oneofTodo := ?_, ok := ?_ }
  · simp only [withExtensions, withFields]
    rw [map_modify_same, map_modify_same]
    · exact h.shape
    · exact fun _ => rfl
    · exact fun _ => rfl
  · rw [List.flatMap_append, ← h.fields]
    simp [withExtensions, withFields, hff]
  · intro j hj x hx
    by_cases hij : i = j
    · subst hij
      rw [hnew] at hx
      obtain rfl := Option.some.inj hx
      refine ⟨?_, ?_, ?_⟩
      · have := map_get_range p.fields
          (d.proto.fields.map (newField i d.proto.mapEntry d.features))
          (d.proto.extensions.map (makeField · (some i) d.features))
          (n := d.proto.fields.length) (by simp)
        exact this
      · have := map_get_range
          (p.fields ++ d.proto.fields.map (newField i d.proto.mapEntry d.features))
          (d.proto.extensions.map (makeField · (some i) d.features)) []
          (n := d.proto.extensions.length) (by simp)
        rw [List.append_nil, List.length_append, List.length_map] at this
        exact this
      · intro k o hk
        replace hk : d.oneofs[k]? = some o := hk
        have ho := List.mem_of_getElem? hk
        show ((joinedOneofs d.oneofs p.fields.length d.proto.fields p.oneofs)[o]?).map _ = _
        rw [joinedOneofs_get, h.oneofTodo i hi d hd o ho]
        have hlink := (hb.linked i (hb.mem_map hd) d hd).oneofs
        obtain ⟨x, hx⟩ := map_some_get hlink o ho
        have hxf := hb.freshOneofs x (List.mem_of_getElem? hx)
        rw [hx]
        simp only [Option.map_some, hxf, List.nil_append, Option.some.injEq]
        refine membersOf_filter (hn i d hd) hk
          (fun j => (withExtensions (withFields p i d) i d).fields[j]?.bind
            (·.proto.oneofIndex)) _ _ ?_
        intro t f hf
        have hlt := (List.getElem?_eq_some_iff.1 hf).1
        simp only [withExtensions, withFields]
        rw [List.append_assoc, List.getElem?_append_right (by omega),
          List.getElem?_append_left (by simp; omega), List.getElem?_map,
          show p.fields.length + t - p.fields.length = t by omega, hf]
        simp [newField_proto]
    · rw [hold j hij] at hx
      rcases List.mem_append.1 hj with hj | hj
      · refine (h.filled j hj x hx).mono hpre ?_
        intro o ho
        obtain ⟨x', hx', e⟩ := bare_get h.shape hx
        have e' : x'.oneofs = x.oneofs := congrArg (·.oneofs) e
        exact hother o (hown j i x' d hx' hd (fun e => hij e.symm) o (by rw [e']; exact ho))
      · exact absurd (List.mem_singleton.1 hj).symm hij
  · intro j hj
    simp only [List.mem_append, List.mem_singleton, not_or] at hj
    rw [hold j (fun e => hj.2 e.symm)]
    exact h.todo j hj.1
  · show (joinedOneofs d.oneofs p.fields.length d.proto.fields p.oneofs).map _ = _
    rw [← h.oneofShape]
    apply List.ext_getElem?
    intro o
    rw [List.getElem?_map, List.getElem?_map, joinedOneofs_get]
    cases p.oneofs[o]? <;> rfl
  · intro j hj x hx o ho
    simp only [List.mem_append, List.mem_singleton, not_or] at hj
    show (joinedOneofs d.oneofs p.fields.length d.proto.fields p.oneofs)[o]? = _
    rw [hother o (hown j i x d hx hd hj.2 o ho)]
    exact h.oneofTodo j hj.1 x hx o ho
  · intro j hj x hx
    rcases List.mem_append.1 hj with hj | hj
    · exact h.ok j hj x hx
    · rw [List.mem_singleton.1 hj, hd] at hx
      obtain rfl := Option.some.inj hx
      exact hok

theorem buildAllFields_sat {b : Pool} {T : List Decl} {en : List EnumDecl}
    (hb : PoolBuilding b [] [] T en) : ∀ (es : FileMap) (p : Pool) (D : List Nat),
    Fielded b p D → (D ++ es.map Prod.snd).Nodup →
    (∀ e ∈ es, e.2 < b.messages.length) →
    ((D ++ es.map Prod.snd).flatMap (fieldsFor b)).length ≤ b.room.fields →
    (buildAllFields es p).Sat (fun p' => Fielded b p' (D ++ es.map Prod.snd))
      (¬ ∀ d ∈ b.messages, MsgOk d.proto)
  | [], p, D, h, _, _, _ => by
    rw [buildAllFields]
    show Fielded b p _
    simpa using h
  | e :: es, p, D, h, hnd, hlt, hr => by
    have hi := List.getElem?_eq_getElem (hlt e (by simp))
    generalize b.messages[e.2]'(hlt e (by simp)) = d at hi
    have hdm : d ∈ b.messages := List.mem_of_getElem? hi
    have hiD : e.2 ∉ D := by
      rw [List.nodup_append] at hnd
      exact fun hm => hnd.2.2 _ hm e.2 (by simp) rfl
    have hp : p.messages[e.2]? = some d := by rw [h.todo _ hiD]; exact hi
    have hff : fieldsFor b e.2 = d.proto.fields.map (newField e.2 d.proto.mapEntry d.features) ++
        d.proto.extensions.map (makeField · (some e.2) d.features) := by
      unfold fieldsFor; rw [hi]
    have hcap : p.fields.length + (d.proto.fields.length + d.proto.extensions.length) ≤
        p.room.fields := by
      rw [h.room, h.fields]
      simp only [List.map_cons, List.flatMap_append, List.flatMap_cons, List.length_append,
        hff, List.length_map] at hr
      omega
    unfold buildAllFields
    refine (buildFields_sat hp (by omega) (hb.owners.1 _ _ hi) (hb.oneofs_length hi) ?_).bind
      (fun hn ha => hn (ha d hdm).1) ?_
    · intro o ho
      have hlink := (hb.linked _ (hb.mem_map hi) d hi).oneofs
      obtain ⟨x, hx⟩ := map_some_get hlink o ho
      exact ⟨x, by rw [h.oneofTodo _ hiD d hi o ho]; exact hx,
        hb.freshOneofs x (List.mem_of_getElem? hx)⟩
    · rintro _ ⟨rfl, hf⟩
      have hq : (withFields p e.2 d).messages[e.2]? = some { d with
          fields := List.range' p.fields.length d.proto.fields.length } := by
        simp only [withFields]
        rw [modify_get_eq, hp]; rfl
      refine (messageExtensions_sat hq (by simp [withFields]; omega)).bind
        (fun hn ha => hn (ha d hdm).2) ?_
      rintro _ ⟨rfl, hx⟩
      have hs := h.step hb hiD hi ⟨hf, hx⟩
      have e1 : D ++ (e :: es).map Prod.snd = (D ++ [e.2]) ++ es.map Prod.snd := by simp
      rw [e1] at hnd hr ⊢
      exact buildAllFields_sat hb es _ (D ++ [e.2]) hs hnd (fun x hx => hlt x (by simp [hx])) hr

/-! ## The extensions of the files -/

/-- A file descriptor without its extensions. -/
def FileDesc.bare (d : FileDesc) : FileDesc := { d with extensions := [] }

/-- The field descriptors made for the extensions of the file at index `k`. -/
def extensionsFor (c : Pool) (k : Nat) : List FieldDesc :=
  match c.files[k]? with
  | none => []
  | some d => d.proto.extensions.map (makeField · none d.features)

/-- The pool `p` made from `c` when the extensions of the files `E` have been built. -/
structure Extended (c p : Pool) (E : List Nat) : Prop where
  room : p.room = c.room
  messages : p.messages = c.messages
  enums : p.enums = c.enums
  oneofs : p.oneofs = c.oneofs
  fileMap : p.fileMap = c.fileMap
  messageMap : p.messageMap = c.messageMap
  enumMap : p.enumMap = c.enumMap
  shape : p.files.map FileDesc.bare = c.files.map FileDesc.bare
  fields : p.fields = c.fields ++ E.flatMap (extensionsFor c)
  filled : ∀ k ∈ E, ∀ d : FileDesc, p.files[k]? = some d → d.extensions.map (p.fields[·]?) =
    (d.proto.extensions.map (makeField · none d.features)).map some
  todo : ∀ k : Nat, k ∉ E → p.files[k]? = c.files[k]?
  ok : ∀ k ∈ E, ∀ d : FileDesc, c.files[k]? = some d → ∀ f ∈ d.proto.extensions, FieldOk f

theorem Extended.start (c : Pool) : Extended c c [] :=
  ⟨rfl, rfl, rfl, rfl, rfl, rfl, rfl, rfl, by simp, by simp, fun _ _ => rfl, by simp⟩

theorem buildFileExtensions_sat {c : Pool} : ∀ (es : FileMap) (p : Pool) (E : List Nat),
    Extended c p E → (E ++ es.map Prod.snd).Nodup → (∀ e ∈ es, e.2 < c.files.length) →
    c.fields.length + ((E ++ es.map Prod.snd).flatMap (extensionsFor c)).length ≤ c.room.fields →
    (buildFileExtensions es p).Sat (fun p' => Extended c p' (E ++ es.map Prod.snd))
      (¬ ∀ d ∈ c.files, ∀ f ∈ d.proto.extensions, FieldOk f)
  | [], p, E, h, _, _, _ => by
    rw [buildFileExtensions]
    show Extended c p _
    simpa using h
  | e :: es, p, E, h, hnd, hlt, hr => by
    have hi := List.getElem?_eq_getElem (hlt e (by simp))
    generalize c.files[e.2]'(hlt e (by simp)) = d at hi
    have hdm : d ∈ c.files := List.mem_of_getElem? hi
    have hiE : e.2 ∉ E := by
      rw [List.nodup_append] at hnd
      exact fun hm => hnd.2.2 _ hm e.2 (by simp) rfl
    have hp : p.files[e.2]? = some d := by rw [h.todo _ hiE]; exact hi
    have hff : extensionsFor c e.2 = d.proto.extensions.map (makeField · none d.features) := by
      unfold extensionsFor; rw [hi]
    have hcap : p.fields.length + d.proto.extensions.length ≤ p.room.fields := by
      rw [h.room, h.fields]
      simp only [List.map_cons, List.flatMap_append, List.flatMap_cons, List.length_append,
        hff, List.length_map] at hr ⊢
      omega
    unfold buildFileExtensions fileExtensions
    rw [hp]
    simp only
    show Res.Sat (((extensionLoop none d.features d.proto.extensions p []).bind _).bind _) _ _
    refine ((extensionLoop_sat none d.features d.proto.extensions p [] hcap).bind
      (Q := fun q => q = { p with
          fields := p.fields ++ d.proto.extensions.map (makeField · none d.features)
          files := p.files.modify e.2 (fun d' => { d' with
            extensions := [] ++ List.range' p.fields.length d.proto.extensions.length }) } ∧
        ∀ f ∈ d.proto.extensions, FieldOk f)
      (E' := ¬ ∀ d ∈ c.files, ∀ f ∈ d.proto.extensions, FieldOk f)
      (fun hn ha => hn (ha d hdm)) ?_).bind (fun h => h) ?_
    · rintro _ ⟨rfl, ha⟩
      exact ⟨rfl, ha⟩
    · rintro _ ⟨rfl, ha⟩
      have e1 : E ++ (e :: es).map Prod.snd = (E ++ [e.2]) ++ es.map Prod.snd := by simp
      rw [e1] at hnd hr ⊢
      refine buildFileExtensions_sat es _ (E ++ [e.2]) ?_ hnd (fun x hx => hlt x (by simp [hx])) hr
      refine
        { room := h.room, messages := h.messages, enums := h.enums, oneofs := h.oneofs,
          fileMap := h.fileMap, messageMap := h.messageMap, enumMap := h.enumMap, shape := ?_,
          fields := ?_, filled := ?_, todo := ?_, ok := ?_ }
      · simp only
        rw [map_modify_same]
        · exact h.shape
        · exact fun _ => rfl
      · simp [h.fields, hff]
      · intro k hk x hx
        simp only at hx
        by_cases hek : e.2 = k
        · subst hek
          rw [modify_get_eq, hp] at hx
          obtain rfl := Option.some.inj hx
          have := map_get_range p.fields (d.proto.extensions.map (makeField · none d.features)) []
            (n := d.proto.extensions.length) (by simp)
          rw [List.append_nil] at this
          simpa using this
        · rw [modify_get_ne _ _ hek] at hx
          rcases List.mem_append.1 hk with hk | hk
          · exact map_get_mono (List.prefix_append _ _) (h.filled k hk x hx)
          · exact absurd (List.mem_singleton.1 hk).symm hek
      · intro k hk
        simp only [List.mem_append, List.mem_singleton, not_or] at hk
        simp only
        rw [modify_get_ne _ _ (fun e => hk.2 e.symm)]
        exact h.todo k hk.1
      · intro k hk x hx
        rcases List.mem_append.1 hk with hk | hk
        · exact h.ok k hk x hx
        · rw [List.mem_singleton.1 hk, hi] at hx
          obtain rfl := Option.some.inj hx
          exact ha

/-! ## Types -/

/-- A field descriptor with its type and extendee resolved. -/
def resolved (p : Pool) (f : FieldDesc) : FieldDesc :=
  { f with
    type := if f.proto.type = 11 ∨ f.proto.type = 10 then findType p.messageMap f.proto.typeName
      else if f.proto.type = 14 then findType p.enumMap f.proto.typeName else f.type
    extendee := if f.proto.extendee = [] then f.extendee
      else findType p.messageMap f.proto.extendee
    bits := { f.bits with mapEntry := f.bits.mapEntry ||
      (decide (f.proto.type = 11 ∨ f.proto.type = 10) &&
        (((findType p.messageMap f.proto.typeName).bind (p.messages[·]?)).map
          (·.proto.mapEntry)).getD false) } }

/-- The types that a field names are in the maps. -/
def TypesFound (p : Pool) (f : FieldProto) : Prop :=
  (f.type = 11 ∨ f.type = 10 → (findType p.messageMap f.typeName).isSome) ∧
  (f.type = 14 → (findType p.enumMap f.typeName).isSome) ∧
  (f.extendee ≠ [] → (findType p.messageMap f.extendee).isSome)

theorem resolveField_sat {p : Pool}
    (hm : ∀ (n : List Byte) (i : Nat), findType p.messageMap n = some i → ∃ d : MsgDesc, p.messages[i]? = some d) (f : FieldDesc) :
    ((resolveType p f).bind (resolveExtendee p)).Sat
      (fun g => g = resolved p f ∧ TypesFound p f.proto) (¬ TypesFound p f.proto) := by
  have hx : ∀ g : FieldDesc, g.proto = f.proto → (resolveExtendee p g).Sat
      (fun g' => g' = { g with extendee := (if f.proto.extendee = [] then g.extendee
          else (findType p.messageMap f.proto.extendee)) } ∧
        (f.proto.extendee ≠ [] → (findType p.messageMap f.proto.extendee).isSome))
      (¬ (f.proto.extendee ≠ [] → (findType p.messageMap f.proto.extendee).isSome)) := by
    intro g hg
    unfold resolveExtendee
    rw [hg]
    split
    · rename_i h
      have h : f.proto.extendee = [] := by simpa using h
      exact ⟨by rw [if_pos h, ← hg], fun hc => absurd h hc⟩
    · rename_i h
      have h : f.proto.extendee ≠ [] := by simpa using h
      cases he : findType p.messageMap f.proto.extendee with
      | none => exact ⟨rfl, fun hc => by have := hc h; simp at this⟩
      | some i => exact ⟨by rw [if_neg h], fun _ => rfl⟩
  unfold resolveType
  by_cases h1 : f.proto.type = 11 ∨ f.proto.type = 10
  · rw [if_pos (by rcases h1 with h | h <;> simp [h])]
    have h14 : f.proto.type ≠ 14 := by omega
    cases ht : findType p.messageMap f.proto.typeName with
    | none =>
      refine ⟨rfl, fun hc => ?_⟩
      have := hc.1 h1
      rw [ht] at this; cases this
    | some i =>
      obtain ⟨d, hd⟩ := hm _ _ ht
      simp only [hd]
      refine (hx { f with
        type := some i
        bits := if d.proto.mapEntry then { f.bits with mapEntry := true } else f.bits } rfl).mono ?_ (fun hn (hc : TypesFound p f.proto) => hn hc.2.2)
      rintro _ ⟨rfl, h3⟩
      refine ⟨?_, fun _ => by rw [ht]; rfl, fun h => absurd h h14, h3⟩
      simp only [resolved, if_pos h1, ht, Option.bind_some, hd, Option.map_some,
        Option.getD_some, h1, decide_true, Bool.true_and]
      cases hb : d.proto.mapEntry <;> simp
  · have h1' := h1
    rw [not_or] at h1'
    rw [if_neg (by simp [h1'])]
    by_cases h2 : f.proto.type = 14
    · rw [if_pos (by simp [h2])]
      cases ht : findType p.enumMap f.proto.typeName with
      | none =>
        refine ⟨rfl, fun hc => ?_⟩
        have := hc.2.1 h2
        rw [ht] at this; cases this
      | some i =>
        refine (hx { f with type := some i } rfl).mono ?_ (fun hn (hc : TypesFound p f.proto) => hn hc.2.2)
        rintro _ ⟨rfl, h3⟩
        refine ⟨?_, fun h => absurd h h1, fun _ => by rw [ht]; rfl, h3⟩
        simp [resolved, h2, ht]
    · rw [if_neg (by simp [h2])]
      refine (hx _ rfl).mono ?_ (fun hn (hc : TypesFound p f.proto) => hn hc.2.2)
      rintro _ ⟨rfl, h3⟩
      refine ⟨?_, fun h => absurd h h1, fun h => absurd h h2, h3⟩
      simp [resolved, h2, h1]

theorem resolveFields_sat {p : Pool}
    (hm : ∀ (n : List Byte) (i : Nat), findType p.messageMap n = some i → ∃ d : MsgDesc, p.messages[i]? = some d) :
    ∀ fs : List FieldDesc, (resolveFields p fs).Sat
      (fun gs => gs = fs.map (resolved p) ∧ ∀ f ∈ fs, TypesFound p f.proto)
      (¬ ∀ f ∈ fs, TypesFound p f.proto)
  | [] => ⟨rfl, by simp⟩
  | f :: fs => by
    unfold resolveFields
    have e : (do
        let f ← resolveType p f
        let f ← resolveExtendee p f
        let fs ← resolveFields p fs
        Res.ok (f :: fs) : Res (List FieldDesc)) =
        ((resolveType p f).bind (resolveExtendee p)).bind fun f =>
          (resolveFields p fs).bind fun fs => Res.ok (f :: fs) := by
      show (resolveType p f).bind _ = _
      cases resolveType p f <;> rfl
    rw [e]
    refine (resolveField_sat hm f).bind (fun hn hc => hn (hc f (by simp))) ?_
    rintro _ ⟨rfl, h1⟩
    refine (resolveFields_sat hm fs).bind (fun hn hc => hn fun g hg => hc g (by simp [hg])) ?_
    rintro _ ⟨rfl, h2⟩
    refine ⟨rfl, ?_⟩
    intro g hg
    rcases List.mem_cons.1 hg with rfl | hg
    · exact h1
    · exact h2 g hg

end HppProto
