import Verif.Proofs.PoolBase
import Verif.Proofs.FileGraph

/-! # Descriptor pools: messages and enums -/

namespace HppProto
open Spec

/-! ## Maps -/

theorem get_isSome (m : FileMap) (n : List Byte) : (m.get n).isSome = true ↔ n ∈ m.map Prod.fst := by
  unfold FileMap.get fileIndex
  rw [Option.isSome_map, List.find?_isSome]
  simp

theorem get_eq_some {m : FileMap} (hd : (m.map Prod.fst).Nodup) {n : List Byte} {i : Nat} :
    m.get n = some i ↔ (n, i) ∈ m := by
  unfold FileMap.get fileIndex
  induction m with
  | nil => simp
  | cons e m ih =>
    obtain ⟨n', i'⟩ := e
    simp only [List.map_cons, List.nodup_cons] at hd
    rw [List.find?_cons]
    by_cases h : n' = n
    · subst h
      simp only [BEq.rfl, Option.map_some, Option.some.injEq, List.mem_cons, Prod.mk.injEq,
        true_and]
      constructor
      · rintro rfl; exact .inl rfl
      · rintro (rfl | h)
        · rfl
        · exact absurd (List.mem_map.2 ⟨_, h, rfl⟩) hd.1
    · have : (n' == n) = false := by simpa using h
      simp only [this, ih hd.2, List.mem_cons, Prod.mk.injEq]
      constructor
      · exact .inr
      · rintro (⟨rfl, _⟩ | h')
        · exact absurd rfl h
        · exact h'

/-! ## What the loops append -/

/-- The enum descriptor made for an enum of a scope. -/
def newEnum (full : List Byte → List Byte) (F : Features) (file : Nat) (parent : Option Nat)
    (e : EnumProto) : EnumDesc :=
  { proto := e, fullName := full e.name, features := under F e.features, file := file,
    parent := parent }

theorem addEnums_sat (full : List Byte → List Byte) (F : Features) (file : Nat)
    (parent : Option Nat) : ∀ (es : List EnumProto) (p : Pool) (ids : List Nat),
    p.enums.length + es.length ≤ p.room.enums → (p.enumMap.map Prod.fst).Nodup →
    (addEnums full F file parent es p ids).Sat
      (fun r => r = ({ p with
            enums := p.enums ++ es.map (newEnum full F file parent)
            enumMap := p.enumMap ++
              (es.map fun e => full e.name).zip (List.range' p.enums.length es.length) },
          ids ++ List.range' p.enums.length es.length) ∧
        (∀ e ∈ es, e.name ≠ []) ∧
        (p.enumMap.map Prod.fst ++ es.map fun e => full e.name).Nodup)
      (¬ ((∀ e ∈ es, e.name ≠ []) ∧
        (p.enumMap.map Prod.fst ++ es.map fun e => full e.name).Nodup))
  | [], p, ids, _, hd => by
    refine ⟨?_, by simp, by simpa using hd⟩
    simp
  | e :: es, p, ids, hr, hd => by
    unfold addEnums
    split
    · rename_i h
      refine ⟨rfl, fun hc => ?_⟩
      exact hc.1 e (List.mem_cons_self ..) (by simpa using h)
    · rename_i hn
      have hn : e.name ≠ [] := by simpa using hn
      simp only [List.length_cons] at hr
      rw [push, if_pos (by omega)]
      show (if _ then _ else _ : Res _).Sat _ _
      split
      · rename_i h
        rw [get_isSome] at h
        refine ⟨rfl, fun hc => ?_⟩
        have := hc.2
        rw [List.nodup_append] at this
        exact this.2.2 _ h _ (by simp) rfl
      · rename_i h
        rw [get_isSome] at h
        have hd' : ((p.enumMap ++ [(full e.name, p.enums.length)]).map Prod.fst).Nodup := by
          rw [List.map_append, List.nodup_append]
          refine ⟨hd, by simp, ?_⟩
          intro a ha b hb hab
          simp at hb
          subst hab hb
          exact h ha
        refine (addEnums_sat full F file parent es _ _ (by simp; omega) hd').mono ?_ ?_
        · rintro _ ⟨rfl, h1, h2⟩
          refine ⟨?_, ?_, ?_⟩
          · simp only [List.map_cons, List.length_append, List.length_cons, List.length_nil,
              List.range'_succ, List.append_assoc, List.cons_append, List.nil_append, List.zip_cons_cons,
              newEnum, mergeFeatures_eq]
          · intro x hx
            rcases List.mem_cons.1 hx with rfl | hx
            · exact hn
            · exact h1 x hx
          · simpa using h2
        · intro hc hc'
          apply hc
          refine ⟨fun x hx => hc'.1 x (List.mem_cons_of_mem _ hx), ?_⟩
          simpa using hc'.2

/-- The oneof descriptor made for a oneof of a message with features `F`. -/
def newOneof (F : Features) (o : OneofProto) : OneofDesc :=
  { proto := o, features := under F o.features }

theorem addOneofs_eq (F : Features) : ∀ (os : List OneofProto) (p : Pool) (ids : List Nat),
    p.oneofs.length + os.length ≤ p.room.oneofs →
    addOneofs F os p ids =
      .ok ({ p with oneofs := p.oneofs ++ os.map (newOneof F) },
        ids ++ List.range' p.oneofs.length os.length)
  | [], p, ids, _ => by simp [addOneofs]
  | o :: os, p, ids, hr => by
    simp only [List.length_cons] at hr
    unfold addOneofs
    rw [push, if_pos (by omega)]
    show addOneofs F os _ _ = _
    rw [addOneofs_eq F os _ _ (by simp; omega)]
    simp [List.range'_succ, newOneof, mergeFeatures_eq]

/-- The message descriptor made for a message. -/
def newMsg (full : List Byte → List Byte) (F : Features) (file : Nat) (parent : Option Nat)
    (m : MsgProto) : MsgDesc :=
  { proto := m, fullName := full m.name, features := under F m.features, file := file,
    parent := parent }

theorem addNested_sat (full : List Byte) (F : Features) (file parent : Nat) :
    ∀ (ms : List MsgProto) (p : Pool) (ids : List Nat),
    p.messages.length + ms.length ≤ p.room.messages →
    (addNested full F file parent ms p ids).Sat
      (fun r => r = ({ p with
            messages := p.messages ++ ms.map (newMsg (nestedName full) F file (some parent)) },
          ids ++ List.range' p.messages.length ms.length) ∧
        (∀ m ∈ ms, m.name ≠ []))
      (¬ (∀ m ∈ ms, m.name ≠ []))
  | [], p, ids, _ => by
    refine ⟨?_, by simp⟩
    simp
  | m :: ms, p, ids, hr => by
    unfold addNested
    split
    · rename_i h
      refine ⟨rfl, fun hc => ?_⟩
      exact hc m (List.mem_cons_self ..) (by simpa using h)
    · rename_i hn
      have hn : m.name ≠ [] := by simpa using hn
      simp only [List.length_cons] at hr
      rw [push, if_pos (by omega)]
      show (addNested full F file parent ms _ _).Sat _ _
      refine (addNested_sat full F file parent ms _ _ (by simp; omega)).mono ?_ ?_
      · rintro _ ⟨rfl, h1⟩
        refine ⟨?_, ?_⟩
        · simp [List.range'_succ, newMsg, mergeFeatures_eq, joinByDot_eq]
        · intro x hx
          rcases List.mem_cons.1 hx with rfl | hx
          · exact hn
          · exact h1 x hx
      · exact fun hc hc' => hc fun x hx => hc' x (List.mem_cons_of_mem _ hx)

/-- The pool after the message `d` at index `i` has been built. -/
def afterMessage (p : Pool) (i : Nat) (d : MsgDesc) : Pool :=
  { p with
    oneofs := p.oneofs ++ d.proto.oneofs.map (newOneof d.features)
    messageMap := p.messageMap ++ [(d.fullName, i)]
    enums := p.enums ++ d.proto.enums.map (newEnum (nestedName d.fullName) d.features d.file (some i))
    enumMap := p.enumMap ++ (d.proto.enums.map fun e => nestedName d.fullName e.name).zip
      (List.range' p.enums.length d.proto.enums.length)
    messages := (p.messages ++
      d.proto.nested.map (newMsg (nestedName d.fullName) d.features d.file (some i))).modify i
        (fun d' => { d' with
          oneofs := List.range' p.oneofs.length d.proto.oneofs.length
          messages := List.range' p.messages.length d.proto.nested.length
          enums := List.range' p.enums.length d.proto.enums.length }) }

theorem buildMessage_sat {p : Pool} {i : Nat} {d : MsgDesc} (hi : p.messages[i]? = some d)
    (ho : p.oneofs.length + d.proto.oneofs.length ≤ p.room.oneofs)
    (hm : p.messages.length + d.proto.nested.length ≤ p.room.messages)
    (he : p.enums.length + d.proto.enums.length ≤ p.room.enums)
    (hd : (p.enumMap.map Prod.fst).Nodup) :
    (buildMessage p i).Sat
      (fun r => r = (afterMessage p i d, List.range' p.messages.length d.proto.nested.length) ∧
        d.fullName ∉ p.messageMap.map Prod.fst ∧
        (∀ m ∈ d.proto.nested, m.name ≠ []) ∧ (∀ e ∈ d.proto.enums, e.name ≠ []) ∧
        (p.enumMap.map Prod.fst ++ d.proto.enums.map fun e => nestedName d.fullName e.name).Nodup)
      (¬ (d.fullName ∉ p.messageMap.map Prod.fst ∧
        (∀ m ∈ d.proto.nested, m.name ≠ []) ∧ (∀ e ∈ d.proto.enums, e.name ≠ []) ∧
        (p.enumMap.map Prod.fst ++
          d.proto.enums.map fun e => nestedName d.fullName e.name).Nodup)) := by
  unfold buildMessage
  rw [hi]
  simp only
  rw [addOneofs_eq d.features d.proto.oneofs p [] ho]
  show (if _ then _ else _ : Res _).Sat _ _
  split
  · rename_i h
    rw [get_isSome] at h
    exact ⟨rfl, fun hc => hc.1 h⟩
  · rename_i h
    rw [get_isSome] at h
    refine (addNested_sat d.fullName d.features d.file i d.proto.nested _ [] (by simpa using hm)).bind
      (fun hc hc' => hc hc'.2.1) ?_
    rintro _ ⟨rfl, hn⟩
    refine (addEnums_sat (nestedName d.fullName) d.features d.file (some i) d.proto.enums _ []
      (by simpa using he) (by simpa using hd)).bind (fun hc hc' => hc hc'.2.2) ?_
    rintro _ ⟨rfl, hen, hnd⟩
    refine ⟨?_, by simpa using h, hn, hen, by simpa using hnd⟩
    simp [afterMessage]

/-! ## The invariant of the loop over the messages -/

/-- The declaration that a message descriptor stands for. -/
def MsgDesc.decl (d : MsgDesc) : Decl := ⟨d.fullName, d.proto, d.features⟩

/-- The declaration that an enum descriptor stands for. -/
def EnumDesc.decl (d : EnumDesc) : EnumDecl := ⟨d.fullName, d.proto, d.features⟩

/-- A message descriptor without its links to other descriptors. -/
def MsgDesc.head (d : MsgDesc) : MsgDesc :=
  { d with fields := [], enums := [], oneofs := [], messages := [], extensions := [] }

/-- The message descriptors of a pool without their links. -/
def Pool.heads (p : Pool) : List MsgDesc := p.messages.map MsgDesc.head

theorem heads_get (p : Pool) (j : Nat) : p.heads[j]? = p.messages[j]?.map MsgDesc.head := by
  simp [Pool.heads]

theorem head_decl (d : MsgDesc) : d.head.decl = d.decl := rfl

theorem decl_get (p : Pool) (j : Nat) :
    p.messages[j]?.map MsgDesc.decl = p.heads[j]?.map MsgDesc.decl := by
  rw [heads_get, Option.map_map]; rfl

theorem prefix_get {α : Type} {l l' : List α} (h : l <+: l') {j : Nat} {x : α}
    (hj : l[j]? = some x) : l'[j]? = some x := by
  obtain ⟨t, rfl⟩ := h
  rw [List.getElem?_append_left]
  · exact hj
  · exact (List.getElem?_eq_some_iff.1 hj).1

theorem map_get_mono {α : Type} {l l' : List α} (h : l <+: l') : ∀ {ids : List Nat} {xs : List α},
    ids.map (l[·]?) = xs.map some → ids.map (l'[·]?) = xs.map some
  | [], [], _ => rfl
  | [], _ :: _, e => by simp at e
  | _ :: _, [], e => by simp at e
  | j :: ids, x :: xs, e => by
    simp only [List.map_cons, List.cons.injEq] at e ⊢
    exact ⟨prefix_get h e.1, map_get_mono h e.2⟩

theorem map_get_range {α : Type} (l xs t : List α) {n : Nat} (hn : n = xs.length) :
    (List.range' l.length n).map ((l ++ xs ++ t)[·]?) = xs.map some := by
  subst hn
  apply map_get_mono (List.prefix_append _ _)
  induction xs generalizing l with
  | nil => simp
  | cons x xs ih =>
    simp only [List.length_cons, List.range'_succ, List.map_cons, List.cons.injEq]
    refine ⟨by simp, ?_⟩
    have := ih (l ++ [x])
    simpa using this

/-- The links of the message `d` at index `i` to its nested messages, enums and oneofs. -/
structure Linked (p : Pool) (i : Nat) (d : MsgDesc) : Prop where
  nested : d.messages.map (p.heads[·]?) =
    (d.proto.nested.map (newMsg (nestedName d.fullName) d.features d.file (some i))).map some
  enums : d.enums.map (p.enums[·]?) =
    (d.proto.enums.map (newEnum (nestedName d.fullName) d.features d.file (some i))).map some
  oneofs : d.oneofs.map (p.oneofs[·]?) = (d.proto.oneofs.map (newOneof d.features)).map some

/-- A pool that grew by appending. -/
structure Grows (p p' : Pool) : Prop where
  room : p'.room = p.room
  heads : p.heads <+: p'.heads
  enums : p.enums <+: p'.enums
  oneofs : p.oneofs <+: p'.oneofs
  files : p'.files = p.files
  fileMap : p'.fileMap = p.fileMap
  fields : p'.fields = p.fields

theorem Grows.refl (p : Pool) : Grows p p :=
  ⟨rfl, List.prefix_rfl, List.prefix_rfl, List.prefix_rfl, rfl, rfl, rfl⟩

theorem Grows.trans {p q r : Pool} (h : Grows p q) (h' : Grows q r) : Grows p r :=
  ⟨h'.room.trans h.room, h.heads.trans h'.heads, h.enums.trans h'.enums, h.oneofs.trans h'.oneofs,
   h'.files.trans h.files, h'.fileMap.trans h.fileMap, h'.fields.trans h.fields⟩

theorem Linked.mono {p p' : Pool} (h : Grows p p') {i : Nat} {d : MsgDesc} (l : Linked p i d) :
    Linked p' i d :=
  ⟨map_get_mono h.heads l.nested, map_get_mono h.enums l.enums, map_get_mono h.oneofs l.oneofs⟩

/-- The state of a pool while its messages are built: `s` are the messages still to be visited,
`ts` what they stand for, `done` the messages visited, `en` the enums found. -/
structure PoolBuilding (p : Pool) (s : List Nat) (ts done : List Decl) (en : List EnumDecl) : Prop where
  stack : s.map (fun i => p.heads[i]?.map MsgDesc.decl) = ts.map some
  keys : p.messageMap.map Prod.fst = done.map (·.name)
  vals : p.messageMap.map (fun e => p.heads[e.2]?.map MsgDesc.decl) = done.map some
  perm : (p.messageMap.map Prod.snd ++ s).Perm (List.range p.messages.length)
  names : (done.map (·.name)).Nodup
  enums : p.enums.map EnumDesc.decl = en
  enumMap : p.enumMap = (en.map (·.name)).zip (List.range en.length)
  enumNames : (en.map (·.name)).Nodup
  named : ∀ d ∈ p.messages, d.proto.name ≠ []
  enumNamed : ∀ e ∈ en, e.enum.name ≠ []
  linked : ∀ i ∈ p.messageMap.map Prod.snd, ∀ d, p.messages[i]? = some d → Linked p i d
  fresh : ∀ d ∈ p.messages, d.fields = [] ∧ d.extensions = []
  freshOneofs : ∀ o ∈ p.oneofs, o.fields = []
  owned : p.messageMap.flatMap (fun e => (p.messages[e.2]?.map (·.oneofs)).getD []) =
    List.range p.oneofs.length
  oneofCount : p.oneofs.length = (done.map fun d => d.msg.oneofs.length).sum

theorem map_modify_same {α β : Type} (g : α → β) (f : α → α) (h : ∀ x, g (f x) = g x)
    (l : List α) (i : Nat) : (l.modify i f).map g = l.map g := by
  apply List.ext_getElem?
  intro j
  rw [List.getElem?_map, List.getElem?_map, List.getElem?_modify]
  cases l[j]? with
  | none => rfl
  | some x =>
    simp only [Option.map_eq_map, Option.map_some, Option.some.injEq]
    split
    · exact h x
    · rfl

theorem modify_get_ne {α : Type} (f : α → α) (l : List α) {i j : Nat} (h : i ≠ j) :
    (l.modify i f)[j]? = l[j]? := by
  rw [List.getElem?_modify]
  cases l[j]? with
  | none => rfl
  | some x => simp [h]

theorem modify_get_eq {α : Type} (f : α → α) (l : List α) (i : Nat) :
    (l.modify i f)[i]? = l[i]?.map f := by
  rw [List.getElem?_modify]
  cases l[i]? with
  | none => rfl
  | some x => simp

theorem heads_after (p : Pool) (i : Nat) (d : MsgDesc) : (afterMessage p i d).heads =
    p.heads ++ d.proto.nested.map (newMsg (nestedName d.fullName) d.features d.file (some i)) := by
  unfold afterMessage Pool.heads
  simp only
  rw [map_modify_same, List.map_append, List.map_map]
  · rfl
  · exact fun _ => rfl

theorem grows_after (p : Pool) (i : Nat) (d : MsgDesc) : Grows p (afterMessage p i d) :=
  ⟨rfl, by rw [heads_after]; exact List.prefix_append _ _, List.prefix_append _ _,
    List.prefix_append _ _, rfl, rfl, rfl⟩

theorem after_length (p : Pool) (i : Nat) (d : MsgDesc) :
    (afterMessage p i d).messages.length = p.messages.length + d.proto.nested.length := by
  simp [afterMessage]

theorem PoolBuilding.stack_cons {p : Pool} {i : Nat} {s : List Nat} {t : Decl} {ts done : List Decl}
    {en : List EnumDecl} (h : PoolBuilding p (i :: s) (t :: ts) done en) :
    ∃ d, p.messages[i]? = some d ∧ d.decl = t := by
  have := h.stack
  simp only [List.map_cons, List.cons.injEq, ← decl_get, Option.map_eq_some_iff] at this
  exact this.1

theorem stack_mono {h h' : List MsgDesc} (hp : h <+: h') : ∀ {s : List Nat} {ts : List Decl},
    s.map (fun i => h[i]?.map MsgDesc.decl) = ts.map some →
    s.map (fun i => h'[i]?.map MsgDesc.decl) = ts.map some
  | [], [], _ => rfl
  | [], _ :: _, e => by simp at e
  | _ :: _, [], e => by simp at e
  | i :: s, t :: ts, e => by
    simp only [List.map_cons, List.cons.injEq, Option.map_eq_some_iff] at e ⊢
    obtain ⟨⟨d, hd, ht⟩, e⟩ := e
    exact ⟨⟨d, prefix_get hp hd, ht⟩, stack_mono hp e⟩

theorem vals_mono {h h' : List MsgDesc} (hp : h <+: h') : ∀ {m : FileMap} {ts : List Decl},
    m.map (fun e => h[e.2]?.map MsgDesc.decl) = ts.map some →
    m.map (fun e => h'[e.2]?.map MsgDesc.decl) = ts.map some := by
  intro m ts e
  have e' : (m.map Prod.snd).map (fun i => h[i]?.map MsgDesc.decl) = ts.map some := by
    rw [List.map_map]; exact e
  have := stack_mono hp e'
  rw [List.map_map] at this
  exact this

/-- What the messages nested in a message stand for. -/
def _root_.HppProto.Spec.Decl.children (t : Decl) : List Decl :=
  t.msg.nested.map fun m => ⟨nestedName t.name m.name, m, under t.features m.features⟩

theorem PoolBuilding.step {p : Pool} {i : Nat} {s : List Nat} {t : Decl} {ts done : List Decl}
    {en : List EnumDecl} (h : PoolBuilding p (i :: s) (t :: ts) done en) {d : MsgDesc}
    (hi : p.messages[i]? = some d) (ht : d.decl = t)
    (h1 : d.fullName ∉ p.messageMap.map Prod.fst)
    (h2 : ∀ m ∈ d.proto.nested, m.name ≠ []) (h3 : ∀ e ∈ d.proto.enums, e.name ≠ [])
    (h4 : (p.enumMap.map Prod.fst ++
      d.proto.enums.map fun e => nestedName d.fullName e.name).Nodup) :
    PoolBuilding (afterMessage p i d)
      (List.range' p.messages.length d.proto.nested.length ++ s) (t.children ++ ts)
      (done ++ [t]) (en ++ t.enums) := by
  subst ht
  have hg := grows_after p i d
  have hh := heads_after p i d
  have hlt : i < p.messages.length := (List.getElem?_eq_some_iff.1 hi).1
  have hstack := h.stack
  simp only [List.map_cons, List.cons.injEq] at hstack
  have hdecl : p.heads[i]?.map MsgDesc.decl = some d.decl := by rw [heads_get, hi]; rfl
  have hnd : (p.messageMap.map Prod.snd ++ i :: s).Nodup :=
    h.perm.nodup_iff.2 List.nodup_range
  have hne : ∀ e ∈ p.messageMap, i ≠ e.2 := by
    intro e he hie
    rw [List.nodup_append] at hnd
    exact hnd.2.2 e.2 (List.mem_map.2 ⟨e, he, rfl⟩) i (by simp) hie.symm
  have hmlt : ∀ e ∈ p.messageMap, e.2 < p.messages.length := by
    intro e he
    have : e.2 ∈ List.range p.messages.length :=
      h.perm.mem_iff.1 (by simp; exact .inl ⟨e.1, he⟩)
    simpa using this
  have hen : p.enumMap.map Prod.fst = en.map (·.name) := by
    rw [h.enumMap, List.map_fst_zip]; simp
  have hel : p.enums.length = en.length := by rw [← h.enums]; simp
  have old : ∀ j, j < p.messages.length → i ≠ j →
      (afterMessage p i d).messages[j]? = p.messages[j]? := by
    intro j hj hij
    show (List.modify _ i _)[j]? = _
    rw [modify_get_ne _ _ hij, List.getElem?_append_left hj]
  refine
    { stack := ?_, keys := ?_, vals := ?_, perm := ?_, names := ?_, enums := ?_, enumMap := ?_,
      enumNames := ?_, named := ?_, enumNamed := ?_, linked := ?_, fresh := ?_,
      freshOneofs := ?_, owned := ?_, oneofCount := ?_ }
  · rw [List.map_append, List.map_append]
    congr 1
    · have := map_get_range p.heads
        (d.proto.nested.map (newMsg (nestedName d.fullName) d.features d.file (some i))) []
        (n := d.proto.nested.length) (by simp)
      rw [List.append_nil, ← hh] at this
      have hl : p.heads.length = p.messages.length := by simp [Pool.heads]
      rw [hl] at this
      have := congrArg (List.map (Option.map MsgDesc.decl)) this
      rw [List.map_map, List.map_map, List.map_map] at this
      rw [show (fun i_1 => Option.map MsgDesc.decl (afterMessage p i d).heads[i_1]?) =
        (Option.map MsgDesc.decl ∘ fun x => (afterMessage p i d).heads[x]?) from rfl, this]
      simp [Decl.children, MsgDesc.decl, newMsg]
    · exact stack_mono hg.heads hstack.2
  · show (p.messageMap ++ [(d.fullName, i)]).map Prod.fst = _
    simp [h.keys, MsgDesc.decl]
  · show (p.messageMap ++ [(d.fullName, i)]).map _ = _
    rw [List.map_append, List.map_append]
    congr 1
    · exact vals_mono hg.heads h.vals
    · simp only [List.map_cons, List.map_nil, List.cons.injEq, and_true]
      obtain ⟨x, hx, hxd⟩ := Option.map_eq_some_iff.1 hdecl
      rw [prefix_get hg.heads hx]
      simp [hxd]
  · rw [after_length]
    show ((p.messageMap ++ [(d.fullName, i)]).map Prod.snd ++ _).Perm _
    rw [List.map_append, List.map_cons, List.map_nil, List.range_eq_range', ← List.range'_append_1,
      Nat.zero_add, ← List.range_eq_range']
    have : (List.map Prod.snd p.messageMap ++ [i] ++
        (List.range' p.messages.length d.proto.nested.length ++ s)).Perm
        ((List.map Prod.snd p.messageMap ++ i :: s) ++
          List.range' p.messages.length d.proto.nested.length) := by
      simp only [List.append_assoc, List.cons_append, List.nil_append]
      exact List.Perm.append_left _ (List.Perm.cons _ List.perm_append_comm)
    exact this.trans (h.perm.append_right _)
  · rw [List.map_append, List.nodup_append]
    refine ⟨h.names, by simp, ?_⟩
    intro a ha b hb hab
    simp only [List.map_cons, List.map_nil, List.mem_singleton] at hb
    subst hab hb
    rw [h.keys] at h1
    exact h1 ha
  · show (p.enums ++ _).map _ = _
    rw [List.map_append, h.enums, List.map_map]
    rfl
  · show p.enumMap ++ _ = _
    rw [h.enumMap, List.map_append, List.length_append, List.range_eq_range' (n := _ + _),
      ← List.range'_append_1, Nat.zero_add, ← List.range_eq_range', List.zip_append (by simp)]
    simp [Decl.enums, MsgDesc.decl, hel, Function.comp_def]
  · rw [hen] at h4
    rw [List.map_append]
    have : d.decl.enums.map (·.name) = d.proto.enums.map fun e => nestedName d.fullName e.name := by
      simp [Decl.enums, MsgDesc.decl, Function.comp_def]
    rw [this]
    exact h4
  · intro x hx
    have key : ∀ y ∈ (afterMessage p i d).heads, y.proto.name ≠ [] := by
      rw [hh]
      intro y hy
      rcases List.mem_append.1 hy with hy | hy
      · obtain ⟨z, hz, rfl⟩ := List.mem_map.1 hy
        exact h.named z hz
      · obtain ⟨z, hz, rfl⟩ := List.mem_map.1 hy
        exact h2 z hz
    exact key x.head (List.mem_map.2 ⟨x, hx, rfl⟩)
  · intro e he
    rcases List.mem_append.1 he with he | he
    · exact h.enumNamed e he
    · obtain ⟨z, hz, rfl⟩ := List.mem_map.1 he
      exact h3 z hz
  · intro j hj x hx
    replace hj : j ∈ (p.messageMap ++ [(d.fullName, i)]).map Prod.snd := hj
    rw [List.map_append, List.mem_append] at hj
    rcases hj with hj | hj
    · obtain ⟨e, he, rfl⟩ := List.mem_map.1 hj
      rw [old e.2 (hmlt e he) (hne e he)] at hx
      exact (h.linked e.2 (List.mem_map.2 ⟨e, he, rfl⟩) x hx).mono hg
    · simp only [List.map_cons, List.map_nil, List.mem_singleton] at hj
      subst hj
      have hx' : (afterMessage p j d).messages[j]? = some { d with
          oneofs := List.range' p.oneofs.length d.proto.oneofs.length
          messages := List.range' p.messages.length d.proto.nested.length
          enums := List.range' p.enums.length d.proto.enums.length } := by
        show (List.modify _ j _)[j]? = _
        rw [modify_get_eq, List.getElem?_append_left hlt, hi]
        rfl
      rw [hx'] at hx
      obtain rfl := Option.some.inj hx
      refine ⟨?_, ?_, ?_⟩
      · simp only
        rw [hh]
        have := map_get_range p.heads
          (d.proto.nested.map (newMsg (nestedName d.fullName) d.features d.file (some j))) []
          (n := d.proto.nested.length) (by simp)
        rw [List.append_nil] at this
        have hl : p.heads.length = p.messages.length := by simp [Pool.heads]
        rw [hl] at this
        exact this
      · have := map_get_range p.enums
          (d.proto.enums.map (newEnum (nestedName d.fullName) d.features d.file (some j))) []
          (n := d.proto.enums.length) (by simp)
        rw [List.append_nil] at this
        exact this
      · have := map_get_range p.oneofs
          (d.proto.oneofs.map (newOneof d.features)) []
          (n := d.proto.oneofs.length) (by simp)
        rw [List.append_nil] at this
        exact this
  · intro x hx
    have key : ∀ y ∈ (afterMessage p i d).messages.map (fun d => (d.fields, d.extensions)),
        y = ([], []) := by
      show ∀ y ∈ (List.modify _ i _).map _, _
      rw [map_modify_same, List.map_append, List.map_map]
      rotate_left
      · exact fun _ => rfl
      intro y hy
      rcases List.mem_append.1 hy with hy | hy
      · obtain ⟨z, hz, rfl⟩ := List.mem_map.1 hy
        rw [(h.fresh z hz).1, (h.fresh z hz).2]
      · obtain ⟨z, hz, rfl⟩ := List.mem_map.1 hy
        rfl
    have := key _ (List.mem_map.2 ⟨x, hx, rfl⟩)
    exact ⟨congrArg Prod.fst this, congrArg Prod.snd this⟩
  · intro o ho
    rcases List.mem_append.1 (show o ∈ p.oneofs ++ _ from ho) with ho | ho
    · exact h.freshOneofs o ho
    · obtain ⟨z, hz, rfl⟩ := List.mem_map.1 ho
      rfl
  · show (p.messageMap ++ [(d.fullName, i)]).flatMap _ = List.range (p.oneofs ++ _).length
    rw [List.flatMap_append, List.length_append, List.range_eq_range', ← List.range'_append_1,
      Nat.zero_add, ← List.range_eq_range']
    congr 1
    · rw [← h.owned]
      have : ∀ (m : FileMap), (∀ e ∈ m, e.2 < p.messages.length ∧ i ≠ e.2) →
          m.flatMap (fun e => ((afterMessage p i d).messages[e.2]?.map (·.oneofs)).getD []) =
          m.flatMap (fun e => (p.messages[e.2]?.map (·.oneofs)).getD []) := by
        intro m hm
        induction m with
        | nil => rfl
        | cons e m ih =>
          rw [List.flatMap_cons, List.flatMap_cons, ih fun x hx => hm x (by simp [hx]),
            old e.2 (hm e (by simp)).1 (hm e (by simp)).2]
      exact this _ fun e he => ⟨hmlt e he, hne e he⟩
    · simp only [List.flatMap_cons, List.flatMap_nil, List.append_nil]
      have hx' : (afterMessage p i d).messages[i]? = some { d with
          oneofs := List.range' p.oneofs.length d.proto.oneofs.length
          messages := List.range' p.messages.length d.proto.nested.length
          enums := List.range' p.enums.length d.proto.enums.length } := by
        show (List.modify _ i _)[i]? = _
        rw [modify_get_eq, List.getElem?_append_left hlt, hi]
        rfl
      rw [hx']
      simp
  · show (p.oneofs ++ _).length = _
    rw [List.length_append, h.oneofCount, List.map_append, List.sum_append_nat]
    simp [MsgDesc.decl]

end HppProto
