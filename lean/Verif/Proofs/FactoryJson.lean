import Verif.Proofs.FactoryTypes
import Verif.Spec.WellKnown
import Verif.Spec.AnyJson

/-! # The message types of a factory in the JSON functions (C114) -/

namespace HppProto
open Spec Meta

theorem follow_mem {α β γ : Type} {t : List α} {s : α → β} {ids : List Nat} {l : List γ} {g : γ → β}
    (h : follow t s ids = l.map fun m => some (g m)) {m : γ} (hm : m ∈ l) : ∃ (j : Nat) (D : α), t[j]? = some D ∧ s D = g m := by
  have : some (g m) ∈ follow t s ids := by
    rw [h]
    exact List.mem_map.2 ⟨m, hm, rfl⟩
  obtain ⟨j, -, hj⟩ := List.mem_map.1 this
  obtain ⟨D, hD, e⟩ := Option.map_eq_some_iff.1 hj
  exact ⟨j, D, hD, e⟩

/-- The message of the pool that stands for a declaration, in a given file. -/
def StandsIn (p : Pool) (k : Nat) (x : Decl) : Prop :=
  ∃ (j : Nat) (D : MsgDesc), p.messages[j]? = some D ∧ x = ⟨D.fullName, D.proto, D.features⟩ ∧ D.file = k

mutual
theorem declsOf_stand {p : Pool} {fs : List FileProto} (M : Mirrors p fs) {k : Nat} : (m : MsgProto) → (name : List Byte) →
    (F : Features) → StandsIn p k ⟨name, m, F⟩ → ∀ x ∈ declsOf name F m, StandsIn p k x
  | .mk n fields nested enums oneofs extensions mapEntry features, name, F, h, x, hx => by
    rw [declsOf, List.mem_cons] at hx
    rcases hx with rfl | hx
    · exact h
    refine nested_stand M nested name F ?_ x hx
    intro m hm
    obtain ⟨j, D, hD, e, hk⟩ := h
    simp only [Decl.mk.injEq] at e
    obtain ⟨e1, e2, e3⟩ := e
    have hn : m ∈ D.proto.nested := by rw [← e2]; exact hm
    obtain ⟨j', D', hD', e'⟩ := follow_mem (M.nested j D hD) hn
    unfold shownMessage at e'
    simp only [Shown.mk.injEq] at e'
    obtain ⟨a1, a2, a3, a4, -⟩ := e'
    exact ⟨j', D', hD', by rw [a1, a2, a3, e1, e3], by rw [a4, hk]⟩
theorem nested_stand {p : Pool} {fs : List FileProto} (M : Mirrors p fs) {k : Nat} : (ms : List MsgProto) → (name : List Byte) →
    (F : Features) → (∀ m ∈ ms, StandsIn p k ⟨nestedName name m.name, m, under F m.features⟩) →
    ∀ x ∈ nestedDecls name F ms, StandsIn p k x
  | [], _, _, _, x, hx => by simp [nestedDecls] at hx
  | m :: ms, name, F, h, x, hx => by
    rw [nestedDecls, List.mem_append] at hx
    rcases hx with hx | hx
    · exact declsOf_stand M m _ _ (h m (by simp)) x hx
    · exact nested_stand M ms name F (fun m hm => h m (by simp [hm])) x hx
end

section
variable {order : FileMap → FileMap} (ho : ∀ m, (order m).Perm m) {fs : List FileProto} {p : Pool}
  (h : initPool order fs = .ok p)
include ho h

/-- What a file declares is in the pool, in that file. -/
theorem file_decl_get {k : Nat} {fd : FileDesc} (hk : p.files[k]? = some fd) {x : Decl} (hx : x ∈ fileDecls fd.proto) :
    StandsIn p k x := by
  have M := pool_mirrors ho h
  obtain ⟨m, hm, hx⟩ := List.mem_flatMap.1 hx
  refine declsOf_stand M m _ _ ?_ x hx
  obtain ⟨j, D, hD, e⟩ := follow_mem (M.file_messages k fd hk) hm
  unfold shownMessage at e
  simp only [Shown.mk.injEq] at e
  obtain ⟨a1, a2, a3, a4, -⟩ := e
  have : fd.features = fileFeatures fd.proto := by
    have := congrArg (fun l => l[k]?) M.files
    simp only [List.getElem?_map, hk, Option.map_some] at this
    cases hf : fs[k]? with
    | none => rw [hf] at this; cases this
    | some f =>
      rw [hf] at this
      simp only [Option.map_some, Option.some.injEq, Prod.mk.injEq] at this
      rw [this.2, this.1]
  exact ⟨j, D, hD, by rw [a1, a2, a3, this], a4⟩

/-- Messages of the pool with the same name are the same. -/
theorem pool_name_inj {i j : Nat} {d e : MsgDesc} (hd : p.messages[i]? = some d) (he : p.messages[j]? = some e)
    (hn : d.fullName = e.fullName) : i = j := by
  have hN : (p.messages.map fun d => (⟨d.fullName, d.proto, d.features⟩ : Decl).name).Nodup := by
    have := ((pool_mirrors ho h).all_messages.map Decl.name).nodup_iff.2 (pool_wellFormed ho h).message_names
    rwa [List.map_map] at this
  exact nodup_map_get hN hd he hn

/-- A message of the pool is declared in its file. -/
theorem file_decl {i : Nat} {d : MsgDesc} (hd : p.messages[i]? = some d) :
    ∃ fd : FileDesc, p.files[d.file]? = some fd ∧ (⟨d.fullName, d.proto, d.features⟩ : Decl) ∈ fileDecls fd.proto := by
  obtain ⟨f, hf, hx⟩ := List.mem_flatMap.1 (pool_decl ho h hd)
  have M := pool_mirrors ho h
  obtain ⟨k, hk⟩ := List.getElem?_of_mem hf
  have := congrArg (fun l => l[k]?) M.files
  simp only [List.getElem?_map, hk, Option.map_some] at this
  obtain ⟨fd, hfd, e⟩ := Option.map_eq_some_iff.1 this
  simp only [Prod.mk.injEq] at e
  rw [← e.1] at hx
  obtain ⟨j, D, hD, e', hfile⟩ := file_decl_get ho h hfd hx
  simp only [Decl.mk.injEq] at e'
  have := pool_name_inj ho h hd hD e'.1
  subst this
  rw [hd] at hD
  cases hD
  exact ⟨fd, by rw [hfile]; exact hfd, hx⟩

end

theorem zip_one {α β γ δ : Type} {f : α → β → γ} {g : α → δ} {a : δ} : ∀ {L : List α} {ls : List β}, L.map g = [a] →
    ls.length = L.length → ∃ x l, L = [x] ∧ g x = a ∧ L.zipWith f ls = [f x l]
  | [x], [l], h, _ => ⟨x, l, rfl, by simpa using h, rfl⟩
  | [], _, h, _ => by simp at h
  | _ :: _ :: _, _, h, _ => by simp at h
  | [_], [], _, h => by simp at h
  | [_], _ :: _ :: _, _, h => by simp at h

theorem zip_cons {α β γ δ : Type} {f : α → β → γ} {g : α → δ} {a : δ} {as : List δ} : ∀ {L : List α} {ls : List β},
    L.map g = a :: as → ls.length = L.length → ∃ x l L' ls', L = x :: L' ∧ g x = a ∧ L'.map g = as ∧ ls'.length = L'.length ∧
      L.zipWith f ls = f x l :: L'.zipWith f ls'
  | x :: L, l :: ls, h, hl => by
    simp only [List.map_cons, List.cons.injEq] at h
    exact ⟨x, l, L, ls, rfl, h.1, h.2, by simpa using hl, rfl⟩
  | [], _, h, _ => by simp at h
  | _ :: _, [], _, h => by simp at h

/-! ## The well-known types -/

/-- The fields of a wrapper. -/
def wrapperShape : List FieldProto → Bool
  | [f] => f.label == 1 && f.type != 10 && f.type != 11 && f.type != 14
  | _ => false

/-- The fields of the well-known types. -/
def shapeOf (w : Json.WellKnown) (fs : List FieldProto) : Bool :=
  match w with
  | .none => false
  | .any => fs == (anyFile.messages.flatMap fun m => m.fields)
  | .timestamp | .duration => fs == secondsNanos
  | .fieldMask => fs == (fieldMaskFile.messages.flatMap fun m => m.fields)
  | .value => fs == ((structFile.messages.drop 1).take 1).flatMap fun m => m.fields
  | .struct => fs == ((structFile.messages.take 1).flatMap fun m => m.fields)
  | .listValue => fs == ((structFile.messages.drop 2).flatMap fun m => m.fields)
  | .wrapper => wrapperShape fs

/-- The messages of the files of the well-known types are what the table says. -/
theorem canonical_shape : ∀ f ∈ canonicalFiles, ∀ x ∈ fileDecls f, ∀ w ∈ wellKnownMappings, w.1 = x.name →
    shapeOf w.2 x.msg.fields = true ∧ x.msg.mapEntry = false := by decide +kernel

/-- The messages that `Struct`, `Value` and `ListValue` need are in the same file. -/
theorem canonical_struct : ∀ f ∈ canonicalFiles, ∀ x ∈ fileDecls f, ∀ w ∈ wellKnownMappings, w.1 = x.name →
    (w.2 = .value ∨ w.2 = .struct ∨ w.2 = .listValue) → f.name = structFile.name := by decide +kernel

theorem shape_wrapper {fs : List FieldProto} (h : shapeOf .wrapper fs = true) :
    ∃ f, fs = [f] ∧ f.label = 1 ∧ f.type ≠ 10 ∧ f.type ≠ 11 ∧ f.type ≠ 14 := by
  have h : wrapperShape fs = true := h
  unfold wrapperShape at h
  split at h
  · rename_i f _
    simp only [Bool.and_eq_true, beq_iff_eq, bne_iff_ne] at h
    exact ⟨f, rfl, h.1.1.1, h.1.1.2, h.1.2, h.2⟩
  · cases h

/-- The messages of `google/protobuf/struct.proto`. -/
theorem struct_decls : (∃ x ∈ fileDecls structFile, x.name = b!"google.protobuf.Struct" ∧ x.msg.mapEntry = false) ∧
    (∃ x ∈ fileDecls structFile, x.name = b!"google.protobuf.Struct.FieldsEntry" ∧ x.msg.mapEntry = true) ∧
    (∃ x ∈ fileDecls structFile, x.name = b!"google.protobuf.Value" ∧ x.msg.mapEntry = false) ∧
    ∃ x ∈ fileDecls structFile, x.name = b!"google.protobuf.ListValue" ∧ x.msg.mapEntry = false := by decide +kernel

theorem canonical_name : ∀ f ∈ canonicalFiles, f.name = structFile.name → f = structFile := by
  intro f hf h
  simp only [canonicalFiles, List.mem_cons, List.not_mem_nil, or_false] at hf
  rcases hf with rfl | rfl | rfl | rfl | rfl | rfl <;> first | rfl | exact absurd h (by decide +kernel)

section
variable {order : FileMap → FileMap} (ho : ∀ m, (order m).Perm m) {fs : List FileProto} {p : Pool}
  (h : initPool order fs = .ok p) (E : FactoryEnv) (hC : ∀ f, E.canonical f = true → f ∈ canonicalFiles)

/-- What makes a message a well-known type. -/
theorem wellKnown_iff {d : MsgDesc} {w : Json.WellKnown} (hw : w ≠ .none) : wellKnownOf E p d = w ↔
    (d.fullName, w) ∈ wellKnownMappings ∧ ∃ f, p.files[d.file]? = some f ∧ fileValidated E f.proto = true := by
  have hN : (wellKnownMappings.map Prod.fst).Nodup := by decide +kernel
  unfold wellKnownOf
  cases hf : wellKnownMappings.find? fun w => w.1 == d.fullName with
  | none =>
    constructor
    · intro e; exact absurd e.symm hw
    · rintro ⟨h1, -⟩
      have := List.find?_eq_none.1 hf _ h1
      simp at this
  | some v =>
    have h1 := List.mem_of_find?_eq_some hf
    have h2 := List.find?_some hf
    rw [beq_iff_eq] at h2
    have key : (d.fullName, w) ∈ wellKnownMappings ↔ v.2 = w := by
      constructor
      · intro hm
        have := nodup_inj hN h1 hm h2
        rw [this]
      · intro e
        rw [← h2, ← e]
        exact h1
    rw [key]
    cases hp : p.files[d.file]? with
    | none =>
      constructor
      · intro e; exact absurd e.symm hw
      · rintro ⟨-, f, hf, -⟩
        cases hf
    | some f =>
      simp only
      cases hv : fileValidated E f.proto
      · constructor
        · intro e; exact absurd e.symm (by simpa using hw)
        · rintro ⟨-, f', hf', hv'⟩
          cases hf'
          rw [hv] at hv'
          cases hv'
      · constructor
        · intro e; exact ⟨e, f, rfl, hv⟩
        · rintro ⟨e, -⟩; exact e

include ho h hC
/-- A well-known type is declared in a file of the library. -/
theorem wk_decl {i : Nat} {d : MsgDesc} (hd : p.messages[i]? = some d) {w : Json.WellKnown} (hw : w ≠ .none)
    (e : wellKnownOf E p d = w) : ∃ fd : FileDesc, p.files[d.file]? = some fd ∧ fileValidated E fd.proto = true ∧
      fd.proto ∈ canonicalFiles ∧ (d.fullName, w) ∈ wellKnownMappings ∧
      (⟨d.fullName, d.proto, d.features⟩ : Decl) ∈ fileDecls fd.proto := by
  obtain ⟨h1, fd, h2, h3⟩ := (wellKnown_iff E hw).1 e
  obtain ⟨fd', h4, h5⟩ := file_decl ho h hd
  rw [h2] at h4
  cases h4
  refine ⟨fd, h2, h3, hC _ ?_, h1, h5⟩
  unfold fileValidated at h3
  simp only [Bool.and_eq_true] at h3
  exact h3.2

theorem wk_shape {i : Nat} {d : MsgDesc} (hd : p.messages[i]? = some d) {w : Json.WellKnown} (hw : w ≠ .none)
    (e : wellKnownOf E p d = w) : shapeOf w d.proto.fields = true ∧ d.proto.mapEntry = false := by
  obtain ⟨fd, -, -, h1, h2, h3⟩ := wk_decl ho h E hC hd hw e
  exact canonical_shape _ h1 _ h3 _ h2 rfl

/-- The message of a field of `Struct`, `Value` or `ListValue`. -/
theorem wk_sub {i : Nat} {d : MsgDesc} (hd : p.messages[i]? = some d) {w : Json.WellKnown}
    (hw : w = .value ∨ w = .struct ∨ w = .listValue) (e : wellKnownOf E p d = w) {f : FieldDesc} (hf : f ∈ p.fields)
    (ht : f.proto.type = 11) {x : Decl} (hx : x ∈ fileDecls structFile) {n : List Byte} (hx' : x.name = n)
    (hn : f.proto.typeName = b!"." ++ n) :
    ∃ D : MsgDesc, p.messages[f.type.getD 0]? = some D ∧ D.proto = x.msg ∧
      ∀ v, (n, v) ∈ wellKnownMappings → wellKnownOf E p D = v := by
  obtain ⟨fd, h1, h2, h3, h4, h5⟩ := wk_decl ho h E hC hd (by rcases hw with rfl | rfl | rfl <;> simp) e
  have := canonical_name _ h3 (canonical_struct _ h3 _ h5 _ h4 rfl hw)
  rw [← this] at hx
  obtain ⟨j, D, hD, ex, hk⟩ := file_decl_get ho h h1 hx
  subst ex
  subst hx'
  obtain ⟨i', d', a1, a2, a3, -⟩ := pool_messageOf ho h hf (.inr ht)
  have hi : i' = j := by
    refine pool_name_inj ho h a2 hD ?_
    rw [hn] at a3
    exact (List.append_cancel_left a3).symm
  subst hi
  refine ⟨D, by rw [a1]; exact hD, rfl, ?_⟩
  intro v hv
  refine (wellKnown_iff E ?_).2 ⟨hv, fd, by rw [hk]; exact h1, h2⟩
  intro hn
  rw [hn] at hv
  have : ∀ w ∈ wellKnownMappings, w.2 ≠ .none := by decide +kernel
  exact this _ hv rfl

end

section
variable {order : FileMap → FileMap} (ho : ∀ m, (order m).Perm m) {fs : List FileProto} {p : Pool}
  (h : initPool order fs = .ok p) (E : FactoryEnv) (hF : FactoryOk E.float fs)
include ho h hF

/-- The fields of a type, one by one. -/
theorem types_fields {i : Nat} {d : MsgDesc} (hd : p.messages[i]? = some d) : ∃ L ls, L = listed p d.fields ∧
    L.map (·.proto) = d.proto.fields ∧ ls.length = L.length ∧ (typesOf E p i).fields = L.zipWith (resolvedField E p) ls := by
  obtain ⟨ls, n, h1, h2, e⟩ := types_at ho h E hF hd
  exact ⟨_, ls, rfl, (view_of order ho h hd).protos, h2, by rw [e]⟩

theorem types_one {i : Nat} {d : MsgDesc} (hd : p.messages[i]? = some d) {a : FieldProto} (e : d.proto.fields = [a]) :
    ∃ x l, x ∈ listed p d.fields ∧ x.proto = a ∧ (typesOf E p i).fields = [resolvedField E p x l] := by
  obtain ⟨L, ls, hL, h1, h2, h3⟩ := types_fields ho h E hF hd
  rw [e] at h1
  obtain ⟨x, l, e1, e2, e3⟩ := zip_one (f := resolvedField E p) h1 h2
  exact ⟨x, l, by rw [← hL, e1]; simp, e2, by rw [h3, e3]⟩

theorem types_two {i : Nat} {d : MsgDesc} (hd : p.messages[i]? = some d) {a b : FieldProto} (e : d.proto.fields = [a, b]) :
    ∃ x y l m, x ∈ listed p d.fields ∧ y ∈ listed p d.fields ∧ x.proto = a ∧ y.proto = b ∧
      (typesOf E p i).fields = [resolvedField E p x l, resolvedField E p y m] := by
  obtain ⟨L, ls, hL, h1, h2, h3⟩ := types_fields ho h E hF hd
  rw [e] at h1
  obtain ⟨x, l, L1, ls1, e1, x1, h1, h2, f1⟩ := zip_cons (f := resolvedField E p) h1 h2
  obtain ⟨y, m, e2, x2, f2⟩ := zip_one (f := resolvedField E p) h1 h2
  have hL : listed p d.fields = [x, y] := by rw [← hL, e1, e2]
  exact ⟨x, y, l, m, by rw [hL]; simp, by rw [hL]; simp, x1, x2, by rw [h3, f1, f2]⟩

theorem types_six {i : Nat} {d : MsgDesc} (hd : p.messages[i]? = some d) {a b c a' b' c' : FieldProto}
    (e : d.proto.fields = [a, b, c, a', b', c']) :
    ∃ x y z x' y' z' l m n l' m' n', x ∈ listed p d.fields ∧ x' ∈ listed p d.fields ∧ y' ∈ listed p d.fields ∧
      z' ∈ listed p d.fields ∧ x.proto = a ∧ y.proto = b ∧ z.proto = c ∧ x'.proto = a' ∧ y'.proto = b' ∧ z'.proto = c' ∧
      (typesOf E p i).fields = [resolvedField E p x l, resolvedField E p y m, resolvedField E p z n,
        resolvedField E p x' l', resolvedField E p y' m', resolvedField E p z' n'] := by
  obtain ⟨L, ls, hL, h1, h2, h3⟩ := types_fields ho h E hF hd
  rw [e] at h1
  obtain ⟨x, l, L1, ls1, e1, x1, h1, h2, f1⟩ := zip_cons (f := resolvedField E p) h1 h2
  obtain ⟨y, m, L2, ls2, e2, x2, h1, h2, f2⟩ := zip_cons (f := resolvedField E p) h1 h2
  obtain ⟨z, n, L3, ls3, e3, x3, h1, h2, f3⟩ := zip_cons (f := resolvedField E p) h1 h2
  obtain ⟨x', l', L4, ls4, e4, x4, h1, h2, f4⟩ := zip_cons (f := resolvedField E p) h1 h2
  obtain ⟨y', m', L5, ls5, e5, x5, h1, h2, f5⟩ := zip_cons (f := resolvedField E p) h1 h2
  obtain ⟨z', n', e6, x6, f6⟩ := zip_one (f := resolvedField E p) h1 h2
  have hL : listed p d.fields = [x, y, z, x', y', z'] := by rw [← hL, e1, e2, e3, e4, e5, e6]
  exact ⟨x, y, z, x', y', z', l, m, n, l', m', n', by rw [hL]; simp, by rw [hL]; simp, by rw [hL]; simp, by rw [hL]; simp,
    x1, x2, x3, x4, x5, x6, by rw [h3, f1, f2, f3, f4, f5, f6]⟩

theorem types_wk {i : Nat} {w : Json.WellKnown} (hw : w ≠ .none) (e : (typesOf E p i).wk = w) :
    ∃ d, p.messages[i]? = some d ∧ wellKnownOf E p d = w := by
  cases hd : p.messages[i]? with
  | none =>
    rw [types_none E hd] at e
    exact absurd e.symm hw
  | some d =>
    obtain ⟨ls, n, h1, h2, e'⟩ := types_at ho h E hF hd
    rw [e'] at e
    exact ⟨d, rfl, e⟩

theorem types_of {i : Nat} {d : MsgDesc} (hd : p.messages[i]? = some d) :
    (typesOf E p i).wk = wellKnownOf E p d ∧ (typesOf E p i).entry = d.proto.mapEntry := by
  obtain ⟨ls, n, h1, h2, e'⟩ := types_at ho h E hF hd
  rw [e']
  exact ⟨rfl, rfl⟩

omit hF in
theorem not_repeated {i : Nat} {d : MsgDesc} (hd : p.messages[i]? = some d) {f : FieldDesc} (hf : f ∈ listed p d.fields)
    (hl : f.proto.label = 1) (l : SlotLayout) : (resolvedField E p f l).dyn.repeated = false := by
  show f.bits.repeated = false
  rw [← Bool.not_eq_true, bit_repeated ho h hd hf]
  omega

omit hF in
theorem yes_repeated {i : Nat} {d : MsgDesc} (hd : p.messages[i]? = some d) {f : FieldDesc} (hf : f ∈ listed p d.fields)
    (hl : f.proto.label = 3) (l : SlotLayout) : (resolvedField E p f l).dyn.repeated = true :=
  (bit_repeated ho h hd hf).2 hl

omit ho h hF in
theorem oneof_none {f : FieldDesc} (hl : f.proto.oneofIndex = none) (l : SlotLayout) : (resolvedField E p f l).dyn.oneof = none := by
  show f.proto.oneofIndex.map Int.toNat = none
  rw [hl]
  rfl

omit ho h hF in
theorem oneof_some {f : FieldDesc} (hl : f.proto.oneofIndex = some 0) (l : SlotLayout) : (resolvedField E p f l).dyn.oneof = some 0 := by
  show f.proto.oneofIndex.map Int.toNat = some 0
  rw [hl]
  rfl

variable (hC : ∀ f, E.canonical f = true → f ∈ canonicalFiles)
include hC

theorem types_any_shape {i : Nat} (hw : (typesOf E p i).wk = .any) : ∃ u v, (typesOf E p i).fields = [u, v] ∧ u.ty = .string ∧
    v.ty = .bytes ∧ u.dyn.repeated = false ∧ v.dyn.repeated = false ∧ u.dyn.oneof = none ∧ v.dyn.oneof = none := by
  obtain ⟨d, hd, e⟩ := types_wk ho h E hF (by simp) hw
  obtain ⟨x, y, l, m, hx, hy, ex, ey, e⟩ := types_two ho h E hF hd (eq_of_beq (wk_shape ho h E hC hd (by simp) e).1)
  refine ⟨_, _, e, ?_, ?_, not_repeated ho h E hd hx (by rw [ex]) _, not_repeated ho h E hd hy (by rw [ey]) _,
    oneof_none E (by rw [ex]) _, oneof_none E (by rw [ey]) _⟩ <;> simp [resolvedField, fieldType, ex, ey]

theorem types_clock_shape {i : Nat} (hw : (typesOf E p i).wk = .timestamp ∨ (typesOf E p i).wk = .duration) :
    ∃ a b, (typesOf E p i).fields = [a, b] ∧ a.ty = .int true true ∧
    b.ty = .int true false ∧ a.dyn.repeated = false ∧ b.dyn.repeated = false ∧ a.dyn.oneof = none ∧
    b.dyn.oneof = none := by
  have : ∃ d, p.messages[i]? = some d ∧ d.proto.fields = secondsNanos := by
    rcases hw with hw | hw
    · obtain ⟨d, hd, e⟩ := types_wk ho h E hF (by simp) hw
      exact ⟨d, hd, eq_of_beq (wk_shape ho h E hC hd (by simp) e).1⟩
    · obtain ⟨d, hd, e⟩ := types_wk ho h E hF (by simp) hw
      exact ⟨d, hd, eq_of_beq (wk_shape ho h E hC hd (by simp) e).1⟩
  obtain ⟨d, hd, e⟩ := this
  obtain ⟨x, y, l, m, hx, hy, ex, ey, e⟩ := types_two ho h E hF hd e
  refine ⟨_, _, e, ?_, ?_, not_repeated ho h E hd hx (by rw [ex]) _, not_repeated ho h E hd hy (by rw [ey]) _,
    oneof_none E (by rw [ex]) _, oneof_none E (by rw [ey]) _⟩ <;> simp [resolvedField, fieldType, ex, ey]

theorem types_mask_shape {i : Nat} (hw : (typesOf E p i).wk = .fieldMask) :
    ∃ f, (typesOf E p i).fields = [f] ∧ f.ty = .string ∧ f.dyn.repeated = true := by
  obtain ⟨d, hd, e⟩ := types_wk ho h E hF (by simp) hw
  obtain ⟨x, l, hx, ex, e⟩ := types_one ho h E hF hd (eq_of_beq (wk_shape ho h E hC hd (by simp) e).1)
  exact ⟨_, e, by simp [resolvedField, fieldType, ex], yes_repeated ho h E hd hx (by rw [ex]) _⟩

theorem types_wrapper_shape {i : Nat} (hw : (typesOf E p i).wk = .wrapper) :
    ∃ f, (typesOf E p i).fields = [f] ∧ f.dyn.repeated = false ∧ (∀ id, f.ty ≠ .msg id) ∧ ∀ e, f.ty ≠ .enum e := by
  obtain ⟨d, hd, e⟩ := types_wk ho h E hF (by simp) hw
  obtain ⟨f, hf, hs⟩ := shape_wrapper (wk_shape ho h E hC hd (by simp) e).1
  obtain ⟨x, l, hx, ex, e⟩ := types_one ho h E hF hd hf
  have ht := (listed_type ho h hd hx).type
  refine ⟨_, e, not_repeated ho h E hd hx (by rw [ex]; exact hs.1) _, ?_⟩
  subst ex
  show (∀ id, fieldType p x ≠ .msg id) ∧ ∀ e, fieldType p x ≠ .enum e
  unfold fieldType
  rcases field_types ht with e | e | e | e | e | e | e | e | e | e | e | e | e | e | e | e | e | e <;> simp [e] at hs ⊢

theorem types_struct_shape {i : Nat} (hw : (typesOf E p i).wk = .struct) :
    ∃ f id, (typesOf E p i).fields = [f] ∧ f.dyn.repeated = true ∧ f.ty = .msg id ∧ (typesOf E p id).entry = true := by
  obtain ⟨d, hd, e⟩ := types_wk ho h E hF (by simp) hw
  obtain ⟨x, l, hx, ex, e'⟩ := types_one ho h E hF hd (eq_of_beq (wk_shape ho h E hC hd (by simp) e).1)
  have V := view_of order ho h hd
  obtain ⟨-, ⟨q, q1, q2, q3⟩, -⟩ := struct_decls
  obtain ⟨D, hD, hm, -⟩ := wk_sub ho h E hC hd (.inr (.inl rfl)) e (V.mem x hx) (by rw [ex]) q1 q2 (by rw [ex]; rfl)
  exact ⟨_, _, e', yes_repeated ho h E hd hx (by rw [ex]) _, by simp [resolvedField, fieldType, ex]; rfl,
    by rw [(types_of ho h E hF hD).2, hm, q3]⟩

theorem types_list_shape {i : Nat} (hw : (typesOf E p i).wk = .listValue) :
    ∃ f id, (typesOf E p i).fields = [f] ∧ f.dyn.repeated = true ∧ f.ty = .msg id ∧ (typesOf E p id).entry = false ∧
      (typesOf E p id).wk = .value := by
  obtain ⟨d, hd, e⟩ := types_wk ho h E hF (by simp) hw
  obtain ⟨x, l, hx, ex, e'⟩ := types_one ho h E hF hd (eq_of_beq (wk_shape ho h E hC hd (by simp) e).1)
  have V := view_of order ho h hd
  obtain ⟨-, -, ⟨q, q1, q2, q3⟩, -⟩ := struct_decls
  obtain ⟨D, hD, hm, hv⟩ := wk_sub ho h E hC hd (.inr (.inr rfl)) e (V.mem x hx) (by rw [ex]) q1 q2 (by rw [ex]; rfl)
  refine ⟨_, _, e', yes_repeated ho h E hd hx (by rw [ex]) _, by simp [resolvedField, fieldType, ex]; rfl,
    by rw [(types_of ho h E hF hD).2, hm, q3], ?_⟩
  rw [(types_of ho h E hF hD).1]
  exact hv .value (by decide +kernel)

theorem types_value_shape {i : Nat} (hw : (typesOf E p i).wk = .value) : ∃ nul num str bool struct list I sid lid,
    (typesOf E p i).fields = [nul, num, str, bool, struct, list] ∧
    nul.ty = .enum I ∧ I.isNull = true ∧ num.ty = .float true ∧ str.ty = .string ∧ bool.ty = .bool ∧
    struct.ty = .msg sid ∧ (typesOf E p sid).wk = .struct ∧ (typesOf E p sid).entry = false ∧
    list.ty = .msg lid ∧ (typesOf E p lid).wk = .listValue ∧ (typesOf E p lid).entry = false ∧
    ∀ f ∈ (typesOf E p i).fields, f.dyn.oneof = some 0 := by
  obtain ⟨d, hd, e⟩ := types_wk ho h E hF (by simp) hw
  obtain ⟨x, y, z, x', y', z', l, m, n, l', m', n', hx, hx', hy', hz', ex, ey, ez, ex', ey', ez', e'⟩ :=
    types_six ho h E hF hd (eq_of_beq (wk_shape ho h E hC hd (by simp) e).1)
  have V := view_of order ho h hd
  obtain ⟨⟨q, q1, q2, q3⟩, -, -, q', q1', q2', q3'⟩ := struct_decls
  obtain ⟨D, hD, hm, hv⟩ := wk_sub ho h E hC hd (.inl rfl) e (V.mem y' hy') (by rw [ey']) q1 q2 (by rw [ey']; rfl)
  obtain ⟨D', hD', hm', hv'⟩ := wk_sub ho h E hC hd (.inl rfl) e (V.mem z' hz') (by rw [ez']) q1' q2' (by rw [ez']; rfl)
  obtain ⟨j, I, -, -, h3, h4⟩ := pool_enumOf ho h (V.mem x hx) (by rw [ex])
  have hI : I.fullName = b!"google.protobuf.NullValue" := by
    have := ((h4 _).2 rfl).2
    rw [ex] at this
    exact (List.append_cancel_left (as := b!".") (by exact this)).symm
  refine ⟨_, _, _, _, _, _, enumInfo p x, _, _, e', by simp [resolvedField, fieldType, ex], ?_, by simp [resolvedField, fieldType, ey],
    by simp [resolvedField, fieldType, ez], by simp [resolvedField, fieldType, ex'], by simp [resolvedField, fieldType, ey']; rfl, ?_, ?_,
    by simp [resolvedField, fieldType, ez']; rfl, ?_, ?_, ?_⟩
  · unfold enumInfo
    rw [h3]
    simp [hI]
  · rw [(types_of ho h E hF hD).1]
    exact hv .struct (by decide +kernel)
  · rw [(types_of ho h E hF hD).2, hm, q3]
  · rw [(types_of ho h E hF hD').1]
    exact hv' .listValue (by decide +kernel)
  · rw [(types_of ho h E hF hD').2, hm', q3']
  · intro f hf
    rw [e'] at hf
    simp only [List.mem_cons, List.not_mem_nil, or_false] at hf
    rcases hf with rfl | rfl | rfl | rfl | rfl | rfl
    · exact oneof_some E (by rw [ex]) _
    · exact oneof_some E (by rw [ey]) _
    · exact oneof_some E (by rw [ez]) _
    · exact oneof_some E (by rw [ex']) _
    · exact oneof_some E (by rw [ey']) _
    · exact oneof_some E (by rw [ez']) _

/-- The types of a factory are those in which the JSON form is used. -/
theorem types_any (hP : Proper fs) (hN : JsonNames fs) : Json.AnyTypes (typesOf E p) where
  ok i := {
    dyn := types_ok ho h E hF hP i
    distinct := by
      have := types_distinct ho h E hF i
      unfold Json.JTypes.dyn Json.JDesc.dyn at this
      rw [List.map_map] at this
      exact this
    tied := by
      intro g hg
      obtain ⟨d, hd, f, hf, l, rfl⟩ := types_field ho h E hF hg
      exact kind_tied (listed_type ho h hd hf).type l
    plain := by
      intro g hg
      obtain ⟨d, hd, f, hf, l, rfl⟩ := types_field ho h E hF hg
      exact hN.plain _ (pool_decl ho h hd) f.proto ((view_of order ho h hd).proto_mem f hf)
    keys := by
      intro g hg g' hg' e
      have hD := types_distinct ho h E hF i
      unfold Json.JTypes.dyn Json.JDesc.dyn at hD
      rw [List.map_map] at hD
      refine nodup_inj hD hg hg' ?_
      obtain ⟨d, hd, f, hf, l, rfl⟩ := types_field ho h E hF hg
      obtain ⟨d', hd', f', hf', l', rfl⟩ := types_field ho h E hF hg'
      rw [hd] at hd'
      cases hd'
      have V := view_of order ho h hd
      have : f.proto.number = f'.proto.number := by
        have hm := V.proto_mem f hf
        have hm' := V.proto_mem f' hf'
        rcases e with e | e | e
        · exact hN.keys _ (pool_decl ho h hd) _ hm _ hm' (.inl e)
        · exact hN.keys _ (pool_decl ho h hd) _ hm _ hm' (.inr e)
        · rw [nodup_inj V.fields.names hm hm' e]
      show BitVec.ofInt 32 f.proto.number = BitVec.ofInt 32 f'.proto.number
      rw [this]
    enums := by
      intro g hg I hI
      obtain ⟨d, hd, f, hf, l, rfl⟩ := types_field ho h E hF hg
      have V := view_of order ho h hd
      have ht : f.proto.type = 14 ∧ I = enumInfo p f := by
        have hI : fieldType p f = .enum I := hI
        unfold fieldType at hI
        rcases field_types (listed_type ho h hd hf).type with
          e | e | e | e | e | e | e | e | e | e | e | e | e | e | e | e | e | e <;> simp [e] at hI
        exact ⟨e, hI.symm⟩
      obtain ⟨ht, rfl⟩ := ht
      obtain ⟨j, e, -, -, h3, h4⟩ := pool_enumOf ho h (V.mem f hf) ht
      obtain ⟨n1, n2⟩ := hN.enums _ ((h4 _).2 rfl).1
      unfold enumInfo
      rw [h3]
      refine ⟨?_, ?_⟩
      · simp only [List.map_map]
        exact n1
      · intro v hv
        obtain ⟨v', hv', rfl⟩ := List.mem_map.1 hv
        exact n2 v' hv'
    maps := by
      intro g hg id hi he
      obtain ⟨d, hd, f, hf, l, rfl⟩ := types_field ho h E hF hg
      have V := view_of order ho h hd
      have ht : (f.proto.type = 10 ∨ f.proto.type = 11) ∧ id = f.type.getD 0 := by
        have hi : fieldType p f = .msg id := hi
        unfold fieldType at hi
        rcases field_types (listed_type ho h hd hf).type with
          e | e | e | e | e | e | e | e | e | e | e | e | e | e | e | e | e | e <;> simp [e] at hi
        · exact ⟨.inl e, hi.symm⟩
        · exact ⟨.inr e, hi.symm⟩
      obtain ⟨ht, rfl⟩ := ht
      obtain ⟨d', x1, x2, x3⟩ := sub_entry ho h E hF (V.mem f hf) ht
      rw [x3] at he
      exact (bit_repeated ho h hd hf).2
        (hP.maps _ (pool_decl ho h hd) f.proto (V.proto_mem f hf) _ (pool_decl ho h x1) ht x2 he).1
    entries := by
      intro he
      cases hd : p.messages[i]? with
      | none =>
        rw [types_none E hd] at he
        cases he
      | some d =>
        rw [(types_of ho h E hF hd).2] at he
        obtain ⟨k, v, hL, k1, v1, k2, v2, k3, v3, k4, v4⟩ := entry_fields ho h hP hd he
        have V := view_of order ho h hd
        have hp := V.protos
        rw [hL] at hp
        obtain ⟨x, y, l, m, hx, hy, ex, ey, e⟩ := types_two ho h E hF hd hp.symm
        refine ⟨_, _, e, not_repeated ho h E hd hx (by rw [ex]; exact k2) _, not_repeated ho h E hd hy (by rw [ey]; exact v2) _,
          oneof_none E (by rw [ex]; exact k3) _, oneof_none E (by rw [ey]; exact v3) _, ?_⟩
        have ex : x.proto = k.proto := ex
        rw [← ex] at k4
        show (fieldType p x).isKey = true
        unfold fieldType
        rcases field_types (listed_type ho h hd hx).type with
          e | e | e | e | e | e | e | e | e | e | e | e | e | e | e | e | e | e <;>
          simp [e, Json.JType.isKey, intType] at k4 ⊢
    timestamps := types_clock_shape ho h E hF hC
    masks := types_mask_shape ho h E hF hC
    values := types_value_shape ho h E hF hC
    structs := types_struct_shape ho h E hF hC
    lists := types_list_shape ho h E hF hC
    wrappers := types_wrapper_shape ho h E hF hC }
  any i := types_any_shape ho h E hF hC
  entry i he := by
    false_or_by_contra
    rename_i hw
    obtain ⟨d, hd, e⟩ := types_wk ho h E hF hw rfl
    have := (wk_shape ho h E hC hd hw e).2
    rw [(types_of ho h E hF hd).2, this] at he
    cases he
  named := by
    intro i g hg
    obtain ⟨d, hd, f, hf, l, rfl⟩ := types_field ho h E hF hg
    exact hN.named _ (pool_decl ho h hd) f.proto ((view_of order ho h hd).proto_mem f hf)

end
end HppProto
