import Verif.Spec.PoolSchema

/-! # Descriptor pools: features, names and counting -/

namespace HppProto
open Spec

/-- The outcome of a step: `P` of its result, or `E` if it fails; it does nothing else. -/
def Res.Sat {α : Type} (r : Res α) (P : α → Prop) (E : Prop) : Prop :=
  match r with
  | .ok a => P a
  | .err e => e = .invalidArgument ∧ E
  | _ => False

theorem Res.Sat.bind {α β : Type} {r : Res α} {f : α → Res β} {P : α → Prop} {E : Prop}
    {Q : β → Prop} {E' : Prop} (h : r.Sat P E) (hE : E → E')
    (hf : ∀ a, P a → (f a).Sat Q E') : (r.bind f).Sat Q E' := by
  cases r with
  | ok a => exact hf a h
  | err e => exact ⟨h.1, hE h.2⟩
  | _ => exact h.elim

theorem Res.Sat.mono {α : Type} {r : Res α} {P Q : α → Prop} {E E' : Prop} (h : r.Sat P E)
    (hP : ∀ a, P a → Q a) (hE : E → E') : r.Sat Q E' := by
  cases r with
  | ok a => exact hP a h
  | err e => exact ⟨h.1, hE h.2⟩
  | _ => exact h.elim

/-! ## Features -/

theorem copyFeatures_eq (s : Features) : copyFeatures s = s := by
  cases s
  simp only [copyFeatures, Features.mergedWith, Features.mk.injEq]
  refine ⟨?_, ?_, ?_, ?_, ?_, ?_, ?_, ?_⟩ <;> (split <;> first | (symm; assumption) | rfl)

theorem mergeFeatures_eq (s : Features) (o : Option Features) : mergeFeatures s o = under s o := by
  cases o with
  | none => simp only [mergeFeatures, copyFeatures_eq, under]
  | some o => simp only [mergeFeatures, copyFeatures_eq, under, Features.mergedWith]

theorem selectFeatures_eq (f : FileProto) :
    selectFeatures f = (language f).map Language.features := by
  unfold selectFeatures language currentEdition
  by_cases h3 : f.syntaxName = b!"proto3"
  · rw [if_pos h3, if_pos h3]; decide +kernel
  · rw [if_neg h3, if_neg h3]
    by_cases he : f.syntaxName = b!"editions"
    · rw [if_pos he, if_pos he]
      by_cases h1 : f.edition = 900
      · rw [h1]; decide +kernel
      · by_cases h2 : f.edition = 999
        · rw [h2]; decide +kernel
        · by_cases h4 : f.edition = 1000
          · rw [h4]; decide +kernel
          · by_cases h5 : f.edition = 1001
            · rw [h5]; decide +kernel
            · rw [if_neg h1, if_neg h2, if_neg h4, if_neg h5]
              have e : ∀ {a : Int}, f.edition ≠ a → (a == f.edition) = false := by
                intro a h; simp; exact fun e => h e.symm
              simp only [cppEditionDefaults, List.find?_cons, List.find?_nil, e h1, e h2, e h4,
                e h5, Option.map_none]
    · rw [if_neg he, if_neg he]; decide +kernel

theorem topName_eq (s n : List Byte) : topName s n = qualified s n := by
  cases s <;> rfl

theorem joinByDot_eq (s n : List Byte) : joinByDot s n = nestedName s n := rfl

/-! ## JSON names -/

theorem words_ne_nil : ∀ n, words n ≠ []
  | [] => by simp [words]
  | c :: cs => by
    unfold words
    split
    · simp
    · split <;> simp

theorem capital_step (c : Byte) :
    (if (97#8 ≤ c ∧ c ≤ 122#8) then c - 32#8 else c) =
      (if 97 ≤ c.toNat ∧ c.toNat ≤ 122 then BitVec.ofNat 8 (c.toNat - 32) else c) := by
  have h1 : (97#8 ≤ c ∧ c ≤ 122#8) ↔ (97 ≤ c.toNat ∧ c.toNat ≤ 122) := by
    simp [BitVec.le_def]
  by_cases h : 97#8 ≤ c ∧ c ≤ 122#8
  · rw [if_pos h, if_pos (h1.1 h)]
    have := h1.1 h
    apply BitVec.eq_of_toNat_eq
    simp [BitVec.toNat_sub]
    omega
  · rw [if_neg h, if_neg (fun x => h (h1.2 x))]

theorem jsonNameLoop_eq : ∀ (up : Bool) (n : List Byte), jsonNameLoop up n =
    match words n with
    | [] => []
    | w :: ws => (if up then capitalized w else w) ++ ws.flatMap capitalized
  | up, [] => by cases up <;> rfl
  | up, c :: cs => by
    unfold jsonNameLoop words
    by_cases hc : c = 95#8
    · rw [if_pos hc, if_pos hc, jsonNameLoop_eq true cs]
      have := words_ne_nil cs
      cases hw : words cs with
      | nil => exact absurd hw this
      | cons w ws => cases up <;> simp [capitalized]
    · rw [if_neg hc, if_neg hc, jsonNameLoop_eq false cs]
      have := words_ne_nil cs
      cases hw : words cs with
      | nil => exact absurd hw this
      | cons w ws =>
        simp only [Bool.false_eq_true, if_false]
        cases up with
        | false => simp
        | true =>
          simp only [Bool.true_and, Bool.and_eq_true, decide_eq_true_eq, if_true, capitalized]
          rw [← capital_step c]
          split <;> simp

theorem defaultJsonName_eq (n : List Byte) : defaultJsonName n = lowerCamel n := by
  rw [defaultJsonName, jsonNameLoop_eq, lowerCamel]
  cases words n <;> simp

theorem hasCustomJsonName_iff (f : FieldProto) : hasCustomJsonName f = true ↔ CustomJson f := by
  unfold hasCustomJsonName CustomJson
  rw [defaultJsonName_eq]
  simp

/-! ## Counting -/

theorem declsOf_eq (n : List Byte) (F : Features) (m : MsgProto) :
    declsOf n F m = ⟨n, m, F⟩ :: nestedDecls n F m.nested := by
  cases m; rfl

theorem nestedDecls_eq (n : List Byte) (F : Features) : ∀ ms : List MsgProto,
    nestedDecls n F ms =
      ms.flatMap (fun m => declsOf (nestedName n m.name) (under F m.features) m)
  | [] => rfl
  | m :: ms => by rw [nestedDecls, nestedDecls_eq n F ms]; rfl

mutual
theorem declsOf_length (n : List Byte) (F : Features) : ∀ m, (declsOf n F m).length = m.nodes
  | .mk _ _ nested _ _ _ _ _ => by
    rw [declsOf, MsgProto.nodes, List.length_cons, nestedDecls_length n F nested]; omega
theorem nestedDecls_length (n : List Byte) (F : Features) :
    ∀ ms, (nestedDecls n F ms).length = MsgProto.nodes.nodesAll ms
  | [] => rfl
  | m :: ms => by
    rw [nestedDecls, MsgProto.nodes.nodesAll, List.length_append, declsOf_length _ _ m,
      nestedDecls_length n F ms]
end

/-- What the messages of a list of declarations add to the counts. -/
def Counter.plus (c : Counter) (ds : List Decl) : Counter where
  files := c.files
  messages := c.messages + ds.length
  fields := c.fields + (ds.map fun d => d.msg.fields.length + d.msg.extensions.length).sum
  oneofs := c.oneofs + (ds.map fun d => d.msg.oneofs.length).sum
  enums := c.enums + (ds.map fun d => d.msg.enums.length).sum

theorem Counter.plus_append (c : Counter) (a b : List Decl) :
    c.plus (a ++ b) = (c.plus a).plus b := by
  simp [Counter.plus, Nat.add_assoc]

theorem Counter.plus_perm (c : Counter) {a b : List Decl} (h : a.Perm b) :
    c.plus a = c.plus b := by
  simp only [Counter.plus, Counter.mk.injEq, true_and]
  refine ⟨by rw [h.length_eq], ?_, ?_, ?_⟩ <;>
    (congr 1; exact (h.map _).sum_nat)

theorem nodes_eq (m : MsgProto) : m.nodes = 1 + MsgProto.nodes.nodesAll m.nested := by
  cases m; rfl

theorem nodesAll_sum : ∀ ms : List MsgProto,
    MsgProto.nodes.nodesAll ms = (ms.map MsgProto.nodes).sum
  | [] => rfl
  | m :: ms => by rw [MsgProto.nodes.nodesAll, nodesAll_sum ms]; simp

/-- Any way to name the messages gives the same counts. -/
def sub (m : MsgProto) : List Decl := declsOf [] {} m

/-- What does not depend on names and features. -/
def Decl.Same (a b : List Decl) : Prop := a.map (·.msg) = b.map (·.msg)

mutual
theorem declsOf_msgs (n n' : List Byte) (F F' : Features) :
    ∀ m, (declsOf n F m).map (·.msg) = (declsOf n' F' m).map (·.msg)
  | .mk _ _ nested _ _ _ _ _ => by
    rw [declsOf, declsOf, List.map_cons, List.map_cons, nestedDecls_msgs n n' F F' nested]
theorem nestedDecls_msgs (n n' : List Byte) (F F' : Features) :
    ∀ ms, (nestedDecls n F ms).map (·.msg) = (nestedDecls n' F' ms).map (·.msg)
  | [] => rfl
  | m :: ms => by
    rw [nestedDecls, nestedDecls, List.map_append, List.map_append,
      nestedDecls_msgs n n' F F' ms,
      declsOf_msgs (nestedName n m.name) (nestedName n' m.name) (under F m.features)
        (under F' m.features) m]
end

theorem Counter.plus_same (c : Counter) {a b : List Decl}
    (h : a.map (·.msg) = b.map (·.msg)) : c.plus a = c.plus b := by
  have key : ∀ (g : MsgProto → Nat) (l : List Decl), l.map (fun d => g d.msg) =
      (l.map (·.msg)).map g := by intro g l; simp [List.map_map, Function.comp_def]
  simp only [Counter.plus, Counter.mk.injEq, true_and]
  have hl : a.length = b.length := by
    have := congrArg List.length h
    simpa using this
  refine ⟨by rw [hl], ?_, ?_, ?_⟩
  · rw [key (fun m => m.fields.length + m.extensions.length) a,
      key (fun m => m.fields.length + m.extensions.length) b, h]
  · rw [key (fun m => m.oneofs.length) a, key (fun m => m.oneofs.length) b, h]
  · rw [key (fun m => m.enums.length) a, key (fun m => m.enums.length) b, h]

theorem countLoop_eq : ∀ (fuel : Nat) (ms : List MsgProto) (c : Counter),
    (ms.map MsgProto.nodes).sum ≤ fuel →
    countLoop fuel ms { c with messages := c.messages + ms.length } =
      .ok (c.plus (ms.flatMap sub))
  | fuel, [], c, _ => by
    cases fuel <;> simp [countLoop, Counter.plus]
  | 0, m :: ms, c, h => by
    have := nodes_eq m
    simp at h
    omega
  | fuel + 1, m :: ms, c, h => by
    rw [countLoop]
    have hs : (m.nested.map MsgProto.nodes).sum + 1 = m.nodes := by
      rw [nodes_eq, nodesAll_sum]; omega
    have hr : ((m.nested.reverse ++ ms).map MsgProto.nodes).sum ≤ fuel := by
      simp only [List.map_append, List.sum_append_nat, List.map_reverse, List.sum_reverse_nat]
      simp only [List.map_cons, List.sum_cons] at h
      omega
    have ih := countLoop_eq fuel (m.nested.reverse ++ ms)
      { c with
        enums := c.enums + m.enums.length
        oneofs := c.oneofs + m.oneofs.length
        fields := c.fields + (m.fields.length + m.extensions.length)
        messages := c.messages + 1 } hr
    have e1 : c.messages + (m :: ms).length + m.nested.length =
        c.messages + 1 + (m.nested.reverse ++ ms).length := by simp; omega
    simp only [e1]
    simp only at ih
    rw [ih]
    congr 1
    have hp : ((m :: ms).flatMap sub).Perm
        (⟨[], m, {}⟩ :: (nestedDecls [] {} m.nested ++ ms.flatMap sub)) := by
      rw [List.flatMap_cons, sub, declsOf_eq]; simp
    rw [Counter.plus_perm c hp]
    have h2 : ((m.nested.reverse ++ ms).flatMap sub).Perm
        (m.nested.flatMap sub ++ ms.flatMap sub) := by
      rw [List.flatMap_append]
      exact List.Perm.append_right _ ((List.reverse_perm _).flatMap_right _)
    rw [Counter.plus_perm _ h2]
    have h3 : (m.nested.flatMap sub ++ ms.flatMap sub).map (·.msg) =
        (nestedDecls [] {} m.nested ++ ms.flatMap sub).map (·.msg) := by
      rw [List.map_append, List.map_append, nestedDecls_eq]
      congr 1
      rw [List.map_flatMap, List.map_flatMap]
      congr 1
      funext x
      exact declsOf_msgs _ _ _ _ x
    rw [Counter.plus_same _ h3]
    simp only [Counter.plus, List.length_cons, List.map_cons, List.sum_cons, Counter.mk.injEq]
    refine ⟨trivial, ?_, ?_, ?_, ?_⟩ <;> omega

theorem countMessage_eq (c : Counter) (n : List Byte) (F : Features) (m : MsgProto) :
    countMessage c m = .ok (c.plus (declsOf n F m)) := by
  rw [countMessage]
  have h := countLoop_eq m.nodes [m] c (by simp)
  simp only [List.length_cons, List.length_nil, List.flatMap_cons, List.flatMap_nil,
    List.append_nil] at h
  rw [h, sub, Counter.plus_same c (declsOf_msgs [] n {} F m)]

theorem countMessages_eq (name : MsgProto → List Byte) (F : MsgProto → Features) :
    ∀ (ms : List MsgProto) (c : Counter),
    countMessages ms c = .ok (c.plus (ms.flatMap fun m => declsOf (name m) (F m) m))
  | [], c => by simp [countMessages, Counter.plus]
  | m :: ms, c => by
    show (countMessage c m).bind (countMessages ms) = _
    rw [countMessage_eq c (name m) (F m) m]
    show countMessages ms _ = _
    rw [countMessages_eq name F ms, List.flatMap_cons, Counter.plus_append]

theorem countFile_eq (c : Counter) (f : FileProto) :
    countFile c f = .ok { c.plus (fileDecls f) with
      files := c.files + 1
      enums := c.enums + (fileEnums f).length
      fields := (c.plus (fileDecls f)).fields + f.extensions.length } := by
  show (countMessages f.messages { c with files := c.files + 1 }).bind _ = _
  rw [countMessages_eq (fun m => qualified f.package m.name)
    (fun m => under (fileFeatures f) m.features)]
  show Res.ok _ = _
  congr 1
  have : (fileEnums f).length =
      ((fileDecls f).map fun d => d.msg.enums.length).sum + f.enums.length := by
    rw [fileEnums, List.length_append, List.length_map, List.length_flatMap]
    congr 2
    apply List.map_congr_left
    intro d _
    rw [Decl.enums, List.length_map]
  simp only [Counter.plus, fileDecls, Counter.mk.injEq] at this ⊢
  refine ⟨trivial, trivial, trivial, trivial, ?_⟩
  omega

theorem countFiles_eq : ∀ (fs : List FileProto) (c : Counter),
    countFiles fs c = .ok
      { files := c.files + fs.length
        messages := c.messages + (decls fs).length
        fields := c.fields + (fieldDecls fs).length
        oneofs := c.oneofs + ((decls fs).map fun d => d.msg.oneofs.length).sum
        enums := c.enums + (enumDecls fs).length }
  | [], c => by simp [countFiles, decls, enumDecls, fieldDecls]
  | f :: fs, c => by
    show (countFile c f).bind (countFiles fs) = _
    rw [countFile_eq]
    show countFiles fs _ = _
    rw [countFiles_eq fs]
    congr 1
    simp only [Counter.plus, Counter.mk.injEq, decls, enumDecls, fieldDecls, List.flatMap_cons,
      List.length_append, List.length_cons, List.map_append, List.sum_append_nat,
      List.flatMap_append, List.length_flatMap]
    refine ⟨?_, ?_, ?_, ?_, ?_⟩ <;> omega

end HppProto
