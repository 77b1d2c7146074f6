import Verif.Proofs.Plugin

/-!
# Proofs about the headers of a response, their includes and descriptor sets
-/

namespace HppProto.Plugin
open Spec.Plugin

/-! ## The response -/

theorem partsOf_eq (f : File) : partsOf f = parts f := by
  unfold partsOf parts
  have m : decide (hasPart f .msg) = true := decide_eq_true trivial
  have p : decide (hasPart f .pb) = true := decide_eq_true trivial
  have g : decide (hasPart f .glz) = true := decide_eq_true trivial
  simp only [List.filter_cons, m, p, g, if_true, List.filter_nil]
  by_cases h1 : f.messages = [] <;> by_cases h2 : f.services = [] <;> simp [hasPart, h1, h2]

/-- What holds of the files if they are accepted. -/
structure Accepted (files : List File) : Prop where
  named : ∀ f ∈ files, f.name ≠ []
  nodup : (files.map (·.name)).Nodup
  exist : ∀ f ∈ files, ∀ d ∈ f.deps, ∃ g ∈ files, g.name = d
  acyclic : ¬ ∃ a, Props.ImportsIndirectly (files.map fun f => ⟨f.name, f.deps⟩) a a
  spaces : ∀ f ∈ files, (namespaceOf f).isSome
  distinct : Lex.validateNames ((files.filter (·.messages ≠ [])).map fun f => (namespaceOf f).getD []) = true

theorem generate_ok {E : Env} {other : Bool} {files : List File} {want : List (List Byte)}
    (h : (generate E other files want).failed = false) :
    Accepted files ∧ requested E files want = some (generate E other files want).files := by
  unfold generate at h ⊢
  split at h
  · next hc =>
    rw [if_pos hc]
    simp only [Bool.and_eq_true, List.all_eq_true] at hc
    obtain ⟨⟨⟨h1, _⟩, h3⟩, h4⟩ := hc
    obtain ⟨a, b, c, d⟩ := (Props.C48_pool_links _).1 h1
    refine ⟨⟨?_, ?_, ?_, d, h3, h4⟩, ?_⟩
    · intro f hf
      exact a _ (List.mem_map.2 ⟨f, hf, rfl⟩)
    · rw [List.map_map] at b
      exact b
    · intro f hf x hx
      obtain ⟨g, hg, e⟩ := c _ (List.mem_map.2 ⟨f, hf, rfl⟩) x hx
      obtain ⟨g', hg', rfl⟩ := List.mem_map.1 hg
      exact ⟨g', hg', e⟩
    · cases hr : requested E files want with
      | none => rw [hr] at h; cases h
      | some hs => rfl
  · cases h

theorem generate_failed {E : Env} {other : Bool} {files : List File} {want : List (List Byte)}
    (h : (generate E other files want).failed = true) : (generate E other files want).files = [] := by
  unfold generate at h ⊢
  split at h
  · next hc =>
    rw [if_pos hc]
    cases hr : requested E files want with
    | none => rfl
    | some hs => rw [hr] at h; cases h
  · next hc => rw [if_neg hc]

theorem find_some {files : List File} {n : List Byte} {f : File} (h : find files n = some f) : f ∈ files ∧ f.name = n := by
  unfold find at h
  exact ⟨List.mem_of_find?_eq_some h, by simpa using List.find?_some h⟩

theorem find_mem {files : List File} {f : File} (hd : (files.map (·.name)).Nodup) (hf : f ∈ files) : find files f.name = some f := by
  unfold find
  induction files with
  | nil => cases hf
  | cons g l ih =>
    rw [List.map_cons, List.nodup_cons] at hd
    rw [List.find?_cons]
    rcases List.mem_cons.1 hf with rfl | hf
    · simp
    · have : (g.name == f.name) = false := by
        rw [beq_eq_false_iff_ne]
        intro e
        exact hd.1 (by rw [e]; exact List.mem_map.2 ⟨f, hf, rfl⟩)
      rw [this]
      exact ih hd.2 hf

theorem name_inj {files : List File} (hd : (files.map (·.name)).Nodup) {f g : File} (hf : f ∈ files) (hg : g ∈ files)
    (e : f.name = g.name) : f = g := by
  have h1 := find_mem hd hf
  have h2 := find_mem hd hg
  rw [e, h2] at h1
  exact (Option.some.inj h1).symm

theorem requested_spec {E : Env} {files : List File} : ∀ {want : List (List Byte)} {hs : List Header},
    requested E files want = some hs →
    ∃ fs : List File, fs.map (·.name) = want ∧ (∀ f ∈ fs, f ∈ files) ∧
      (fs.flatMap fun f => (parts f).map fun q => header E files f q) = hs.map some
  | [], hs, h => by
    cases h
    exact ⟨[], rfl, by simp, rfl⟩
  | n :: ns, hs, h => by
    unfold requested at h
    cases hf : find files n with
    | none => rw [hf] at h; cases h
    | some f =>
      cases ho : outputs E files f with
      | none => simp [hf, ho] at h
      | some os =>
        cases hr : requested E files ns with
        | none => simp [hf, ho, hr] at h
        | some rest =>
          simp [hf, ho, hr] at h
          obtain ⟨fs, h1, h2, h3⟩ := requested_spec hr
          have ⟨hm, hn⟩ := find_some hf
          refine ⟨f :: fs, by simp [hn, h1], ?_, ?_⟩
          · intro g hg
            rcases List.mem_cons.1 hg with rfl | hg
            · exact hm
            · exact h2 g hg
          · unfold outputs at ho
            have := mapM_map ho
            rw [List.flatMap_cons, h3, ← h, List.map_append, ← this, partsOf_eq]

theorem header_spec {E : Env} {files : List File} {f : File} {q : Part} {h : Header} (hh : header E files f q = some h) :
    h.path = outName f.name q ∧ h.part = q ∧
    (included f q).mapM (fun x => generatedInclude E.dir x.1 x.2) = some h.includes ∧
    (q = .desc → h.literal = Lex.stringLiteral (E.bytes f.name) ∧ h.set = dependencyNames files files.length f) ∧
    (q = .service → serviceStructs E.types f f.services = some h.services) := by
  unfold header at hh
  cases hi : (included f q).mapM (fun x => generatedInclude E.dir x.1 x.2) with
  | none => simp [hi] at hh
  | some incs =>
    rw [hi] at hh
    simp only [Option.bind_eq_bind, Option.bind_some] at hh
    split at hh
    · cases hh
    · split at hh
      · cases hh
        exact ⟨rfl, rfl, rfl, fun _ => ⟨rfl, rfl⟩, fun h => (by cases h)⟩
      · rw [Option.map_eq_some_iff] at hh
        obtain ⟨ss, h1, rfl⟩ := hh
        exact ⟨rfl, rfl, rfl, fun h => (by cases h), fun _ => h1⟩
      · next h1 h2 =>
        cases hh
        exact ⟨rfl, rfl, rfl, fun h => absurd h h1, fun h => absurd h h2⟩

/-- The headers of a response come from requested files. -/
theorem from_request {E : Env} {other : Bool} {files : List File} {want : List (List Byte)}
    (hf : (generate E other files want).failed = false) {h : Header} (hh : h ∈ (generate E other files want).files) :
    ∃ f ∈ files, f.name ∈ want ∧ hasPart f h.part ∧ header E files f h.part = some h ∧ IsHeader f.name h.part h.path := by
  obtain ⟨A, hr⟩ := generate_ok hf
  obtain ⟨fs, h1, h2, h3⟩ := requested_spec hr
  have : some h ∈ fs.flatMap fun f => (parts f).map fun q => header E files f q := by
    rw [h3]; exact List.mem_map.2 ⟨h, hh, rfl⟩
  obtain ⟨f, hfs, hm⟩ := List.mem_flatMap.1 this
  obtain ⟨q, hq, e⟩ := List.mem_map.1 hm
  have hs := header_spec e
  obtain ⟨stem, hst⟩ := stem_of_namespace (A.spaces f (h2 f hfs))
  rw [hs.2.1]
  refine ⟨f, h2 f hfs, ?_, ?_, e, stem, hst, ?_⟩
  · rw [← h1]; exact List.mem_map.2 ⟨f, hfs, rfl⟩
  · unfold parts at hq
    simpa using (List.mem_filter.1 hq).2
  · rw [hs.1]; exact outName_isHeader q hst

/-- The headers of a requested file are in the response. -/
theorem in_response {E : Env} {other : Bool} {files : List File} {want : List (List Byte)}
    (hf : (generate E other files want).failed = false) {f : File} (hm : f ∈ files) (hw : f.name ∈ want) {q : Part} (hq : hasPart f q) :
    ∃ h ∈ (generate E other files want).files, h.part = q ∧ header E files f q = some h ∧ IsHeader f.name q h.path := by
  obtain ⟨A, hr⟩ := generate_ok hf
  obtain ⟨fs, h1, h2, h3⟩ := requested_spec hr
  rw [← h1] at hw
  obtain ⟨f', hf', e⟩ := List.mem_map.1 hw
  have := name_inj A.nodup (h2 f' hf') hm e
  subst this
  have : header E files f' q ∈ fs.flatMap fun f => (parts f).map fun q => header E files f q := by
    refine List.mem_flatMap.2 ⟨f', hf', List.mem_map.2 ⟨q, ?_, rfl⟩⟩
    unfold parts
    refine List.mem_filter.2 ⟨by cases q <;> simp, by simpa using hq⟩
  rw [h3] at this
  obtain ⟨h, hh, e⟩ := List.mem_map.1 this
  have hs := header_spec e.symm
  obtain ⟨stem, hst⟩ := stem_of_namespace (A.spaces f' hm)
  exact ⟨h, hh, hs.2.1, e.symm, stem, hst, by rw [hs.1]; exact outName_isHeader q hst⟩

/-! ## Includes -/

theorem last_dot {stem stem' ext ext' : List Byte} (h : stem ++ 0x2e :: ext = stem' ++ 0x2e :: ext')
    (h1 : ∀ b ∈ ext, b ≠ 0x2e) (h2 : ∀ b ∈ ext', b ≠ 0x2e) : stem = stem' ∧ ext = ext' := by
  induction stem generalizing stem' with
  | nil =>
    cases stem' with
    | nil => simpa using h
    | cons a s =>
      exfalso
      simp only [List.nil_append, List.cons_append, List.cons.injEq] at h
      exact h1 0x2e (by rw [h.2]; simp) rfl
  | cons a s ih =>
    cases stem' with
    | nil =>
      exfalso
      simp only [List.nil_append, List.cons_append, List.cons.injEq] at h
      exact h2 0x2e (by rw [← h.2]; simp) rfl
    | cons a' s' =>
      simp only [List.cons_append, List.cons.injEq] at h
      have := ih h.2
      exact ⟨by rw [h.1, this.1], this.2⟩

theorem include_directive {dir name stem inc : List Byte} {q : Part} (h : generatedInclude dir name q = some inc)
    (hn : name = stem ++ b!".proto") (hb : ∀ b ∈ dir ++ name, b ≠ 0x5c) :
    inc = directive dir (stem ++ b!"." ++ word q ++ b!".hpp") := by
  unfold generatedInclude at h
  obtain ⟨stem', ext, h1, h2, _, _, h5⟩ := (Props.C56_include _ _ _ _).1 h
  have e : stem ++ 0x2e :: b!"proto" = stem' ++ 0x2e :: ext := by rw [← h1, hn]; rfl
  obtain ⟨e1, e2⟩ := last_dot e (by decide) h2
  subst e1
  rw [h5]
  have hid : ∀ l : List Byte, (∀ b ∈ l, b ≠ 0x5c) → l.map (fun b => if b = 0x5c then (0x2f : Byte) else b) = l := by
    intro l hl
    rw [List.map_congr_left (g := id), List.map_id]
    intro b hb'
    rw [if_neg (hl b hb')]; rfl
  rw [hid]
  · unfold directive
    rw [suffix_word]
    by_cases hd : dir = []
    · rw [if_pos hd, if_pos hd]
      simp
    · rw [if_neg hd, if_neg hd]
      simp
  · intro b hb'
    rcases List.mem_append.1 hb' with hb' | hb'
    · rcases List.mem_append.1 hb' with hb' | hb'
      · by_cases hd : dir = []
        · rw [if_pos hd] at hb'; cases hb'
        · rw [if_neg hd] at hb'
          rcases List.mem_append.1 hb' with hb' | hb'
          · exact hb b (by simp [hb'])
          · have : b = 0x2f := by simpa using hb'
            rw [this]; decide
      · exact hb b (by rw [hn]; simp [hb'])
    · have : ∀ b ∈ (0x2e :: q.suffix : List Byte), b ≠ 0x5c := by cases q <;> decide
      exact this b hb'

theorem directive_inj {dir p p' : List Byte} (h : directive dir p = directive dir p') : p = p' := by
  unfold directive at h
  have h := List.append_cancel_right h
  have h := List.append_cancel_left h
  by_cases hd : dir = []
  · rwa [if_pos hd, if_pos hd] at h
  · rw [if_neg hd, if_neg hd] at h
    exact List.append_cancel_left h

/-- The order of the headers of a file. -/
def rank : Part → Nat
  | .msg => 0
  | .pb => 1
  | .glz => 1
  | .desc => 0
  | .service => 2

theorem included_cases {f : File} {q p : Part} {n : List Byte} (h : (n, p) ∈ included f q) :
    (n ∈ f.deps ∧ p = if q = .service then .pb else q) ∨ (n = f.name ∧ rank p < rank q ∧ p ≠ .desc) := by
  cases q
  · simp only [included, List.mem_map, List.mem_filter] at h
    obtain ⟨d, ⟨hd, _⟩, e⟩ := h
    cases e
    exact .inl ⟨hd, rfl⟩
  · simp only [included, List.mem_cons, List.mem_map, List.mem_filter] at h
    rcases h with e | ⟨d, ⟨hd, _⟩, e⟩
    · cases e
      exact .inr ⟨rfl, by decide, by decide⟩
    · cases e
      exact .inl ⟨hd, rfl⟩
  · unfold included at h
    simp only at h
    split at h
    · simp only [List.mem_singleton] at h
      cases h
      exact .inr ⟨rfl, by decide, by decide⟩
    · simp only [List.mem_append, List.mem_map, List.mem_singleton] at h
      rcases h with ⟨d, hd, e⟩ | e
      · cases e
        exact .inl ⟨hd, rfl⟩
      · cases e
        exact .inr ⟨rfl, by decide, by decide⟩
  · simp only [included, List.mem_map] at h
    obtain ⟨d, hd, e⟩ := h
    cases e
    exact .inl ⟨hd, rfl⟩
  · simp only [included, List.mem_append, List.mem_map, List.mem_singleton] at h
    rcases h with ⟨d, hd, e⟩ | e
    · cases e
      exact .inl ⟨hd, rfl⟩
    · cases e
      exact .inr ⟨rfl, by decide, by decide⟩

/-! ## Imports -/

theorem head_step {α : Type} {r : α → α → Prop} {a b : α} (h : Relation.TransGen r a b) :
    ∃ c, r a c ∧ (c = b ∨ Relation.TransGen r c b) := by
  induction h with
  | single h => exact ⟨_, h, .inl rfl⟩
  | tail _ h ih =>
    obtain ⟨c, hc, e⟩ := ih
    rcases e with rfl | e
    · exact ⟨_, hc, .inr (.single h)⟩
    · exact ⟨_, hc, .inr (.tail e h)⟩

theorem trans_append {α : Type} {r : α → α → Prop} {a b c : α} (h : Relation.TransGen r a b) (h' : Relation.TransGen r b c) :
    Relation.TransGen r a c := by
  induction h' with
  | single h' => exact .tail h h'
  | tail _ h' ih => exact .tail ih h'

theorem uses_names {files : List File} {f g : File} (h : Relation.TransGen (Uses files) f g) :
    Props.ImportsIndirectly (files.map fun f => ⟨f.name, f.deps⟩) f.name g.name := by
  have one : ∀ {f g : File}, Uses files f g → Props.Imports (files.map fun f => ⟨f.name, f.deps⟩) f.name g.name := by
    rintro f g ⟨h1, _, h3⟩
    exact ⟨⟨f.name, f.deps⟩, List.mem_map.2 ⟨f, h1, rfl⟩, rfl, h3⟩
  induction h with
  | single h => exact .single (one h)
  | tail _ h ih => exact .tail ih (one h)

theorem no_cycle {files : List File} (A : Accepted files) (f : File) : ¬ Relation.TransGen (Uses files) f f :=
  fun h => A.acyclic ⟨_, uses_names h⟩

theorem reaches_mem {files : List File} {f g : File} (hf : f ∈ files) (h : Reaches files f g) : g ∈ files := by
  rcases h with rfl | h
  · exact hf
  · cases h with
    | single h => exact h.2.1
    | tail _ h => exact h.2.1

theorem nodup_length {α : Type} [DecidableEq α] : ∀ (l m : List α), l.Nodup → (∀ x ∈ l, x ∈ m) → l.length ≤ m.length
  | [], _, _, _ => by simp
  | a :: l, m, hd, hs => by
    rw [List.nodup_cons] at hd
    have := nodup_length l (m.erase a) hd.2 (by
      intro x hx
      exact (List.mem_erase_of_ne (fun e : x = a => hd.1 (by rw [← e]; exact hx))).2 (hs x (by simp [hx])))
    have hm := hs a (by simp)
    rw [List.length_erase_of_mem hm] at this
    have := List.length_pos_of_mem hm
    simp only [List.length_cons]
    omega

/-! ## Sorting -/

theorem bytesLe_total : ∀ a b, bytesLe a b = true ∨ bytesLe b a = true
  | [], _ => .inl rfl
  | _ :: _, [] => .inr rfl
  | x :: a, y :: b => by
    unfold bytesLe
    by_cases h1 : x.toNat < y.toNat
    · simp [h1]
    · by_cases h2 : y.toNat < x.toNat
      · simp [h2]
      · simp only [h1, h2, if_false]
        exact bytesLe_total a b

theorem bytesLe_antisymm : ∀ {a b}, bytesLe a b = true → bytesLe b a = true → a = b
  | [], [], _, _ => rfl
  | [], _ :: _, _, h => by cases h
  | _ :: _, [], h, _ => by cases h
  | x :: a, y :: b, h, h' => by
    unfold bytesLe at h h'
    by_cases h1 : x.toNat < y.toNat
    · have h2 : ¬ y.toNat < x.toNat := by omega
      simp [h1, h2] at h'
    · by_cases h2 : y.toNat < x.toNat
      · simp [h1, h2] at h
      · simp only [h1, h2, if_false] at h h'
        have : x = y := BitVec.eq_of_toNat_eq (by omega)
        rw [this, bytesLe_antisymm h h']

theorem bytesLe_trans : ∀ {a b c}, bytesLe a b = true → bytesLe b c = true → bytesLe a c = true
  | [], _, _, _, _ => rfl
  | _ :: _, [], _, h, _ => by cases h
  | _ :: _, _ :: _, [], _, h => by cases h
  | x :: a, y :: b, z :: c, h, h' => by
    unfold bytesLe at h h' ⊢
    by_cases h1 : x.toNat < y.toNat
    · by_cases h2 : y.toNat < z.toNat
      · rw [if_pos (by omega)]
      · by_cases h3 : z.toNat < y.toNat
        · simp [h2, h3] at h'
        · rw [if_pos (by omega)]
    · by_cases h2 : y.toNat < x.toNat
      · simp [h1, h2] at h
      · simp only [h1, h2, if_false] at h
        by_cases h3 : y.toNat < z.toNat
        · rw [if_pos (by omega)]
        · by_cases h4 : z.toNat < y.toNat
          · simp [h3, h4] at h'
          · simp only [h3, h4, if_false] at h'
            rw [if_neg (by omega), if_neg (by omega)]
            exact bytesLe_trans h h'

theorem mem_insertName {x y : List Byte} : ∀ {l}, y ∈ insertName x l ↔ y = x ∨ y ∈ l
  | [] => by simp [insertName]
  | z :: l => by
    unfold insertName
    split
    · simp
    · rw [List.mem_cons, mem_insertName, List.mem_cons]
      constructor
      · rintro (h | h | h)
        · exact .inr (.inl h)
        · exact .inl h
        · exact .inr (.inr h)
      · rintro (h | h | h)
        · exact .inr (.inl h)
        · exact .inl h
        · exact .inr (.inr h)

theorem mem_sortNames {y : List Byte} : ∀ {l}, y ∈ sortNames l ↔ y ∈ l
  | [] => Iff.rfl
  | x :: l => by
    show y ∈ insertName x (sortNames l) ↔ _
    rw [mem_insertName, mem_sortNames, List.mem_cons]

theorem insertName_sorted {x : List Byte} : ∀ {l}, l.Pairwise (fun a b => bytesLe a b = true) →
    (insertName x l).Pairwise (fun a b => bytesLe a b = true)
  | [], _ => by simp [insertName]
  | y :: l, h => by
    unfold insertName
    rw [List.pairwise_cons] at h
    split
    · next hle =>
      rw [List.pairwise_cons, List.pairwise_cons]
      refine ⟨?_, h⟩
      intro z hz
      rcases List.mem_cons.1 hz with rfl | hz
      · exact hle
      · exact bytesLe_trans hle (h.1 z hz)
    · next hle =>
      rw [List.pairwise_cons]
      refine ⟨?_, insertName_sorted h.2⟩
      intro z hz
      rcases mem_insertName.1 hz with rfl | hz
      · exact (bytesLe_total y z).resolve_right hle
      · exact h.1 z hz

theorem sortNames_sorted : ∀ l, (sortNames l).Pairwise (fun a b => bytesLe a b = true)
  | [] => List.Pairwise.nil
  | x :: l => insertName_sorted (sortNames_sorted l)

theorem mem_uniqueNames {v : List Byte} : ∀ {l}, v ∈ uniqueNames l ↔ v ∈ l
  | [] => Iff.rfl
  | [_] => Iff.rfl
  | x :: y :: l => by
    unfold uniqueNames
    split
    · next h =>
      rw [mem_uniqueNames, h]
      simp
    · rw [List.mem_cons, mem_uniqueNames, List.mem_cons, List.mem_cons, List.mem_cons]

theorem uniqueNames_nodup : ∀ {l}, l.Pairwise (fun a b => bytesLe a b = true) → (uniqueNames l).Nodup
  | [], _ => List.nodup_nil
  | [_], _ => by simp [uniqueNames]
  | x :: y :: l, h => by
    have h' := List.pairwise_cons.1 h
    unfold uniqueNames
    split
    · exact uniqueNames_nodup h'.2
    · next hne =>
      rw [List.nodup_cons]
      refine ⟨?_, uniqueNames_nodup h'.2⟩
      rw [mem_uniqueNames]
      intro hm
      rcases List.mem_cons.1 hm with e | hm
      · exact hne e
      · exact hne (bytesLe_antisymm (h'.1 y (by simp)) ((List.pairwise_cons.1 h'.2).1 x hm))

/-! ## Descriptor sets -/

theorem mem_dependencyNames {files : List File} {k : Nat} {f : File} {v : List Byte} :
    v ∈ dependencyNames files (k + 1) f ↔
      v = descriptorName f ∨ ∃ d ∈ f.deps, ∃ g, find files d = some g ∧ v ∈ dependencyNames files k g := by
  rw [dependencyNames, List.mem_append, mem_uniqueNames, mem_sortNames, List.mem_flatMap, List.mem_singleton]
  constructor
  · rintro (⟨g, hg, hv⟩ | h)
    · obtain ⟨d, hd, e⟩ := List.mem_filterMap.1 hg
      exact .inr ⟨d, hd, g, e, hv⟩
    · exact .inl h
  · rintro (h | ⟨d, hd, g, e, hv⟩)
    · exact .inr h
    · exact .inl ⟨g, List.mem_filterMap.2 ⟨d, hd, e⟩, hv⟩

theorem names_reached {files : List File} : ∀ (k : Nat) {f : File} {v : List Byte}, f ∈ files →
    v ∈ dependencyNames files k f → ∃ g, Reaches files f g ∧ v = descriptorName g
  | 0, _, _, _, h => by cases h
  | k + 1, f, v, hf, h => by
    rcases mem_dependencyNames.1 h with h | ⟨d, hd, g, e, hv⟩
    · exact ⟨f, .inl rfl, h⟩
    · have ⟨hg, hn⟩ := find_some e
      obtain ⟨x, hx, hv⟩ := names_reached k hg hv
      have hu : Uses files f g := ⟨hf, hg, by rw [hn]; exact hd⟩
      refine ⟨x, .inr ?_, hv⟩
      rcases hx with rfl | hx
      · exact .single hu
      · exact trans_append (.single hu) hx

theorem reached_names {files : List File} (A : Accepted files) : ∀ (k : Nat) (V : List File) {f g : File}, f ∈ files →
    V.Nodup → (∀ x ∈ V, Relation.TransGen (Uses files) x f) → files.length ≤ k + V.length →
    Reaches files f g → descriptorName g ∈ dependencyNames files k f
  | k, V, f, g, hf, hd, hV, hl, hr => by
    have hfV : f ∉ V := fun h => no_cycle A f (hV f h)
    have hlen : (f :: V).length ≤ files.length := by
      refine nodup_length _ _ (List.nodup_cons.2 ⟨hfV, hd⟩) ?_
      intro x hx
      rcases List.mem_cons.1 hx with rfl | hx
      · exact hf
      · obtain ⟨c, hc, _⟩ := head_step (hV x hx)
        exact hc.1
    simp only [List.length_cons] at hlen
    cases k with
    | zero => omega
    | succ k =>
      rw [mem_dependencyNames]
      rcases hr with rfl | hr
      · exact .inl rfl
      · obtain ⟨c, hc, hcg⟩ := head_step hr
        refine .inr ⟨c.name, hc.2.2, c, find_mem A.nodup hc.2.1, ?_⟩
        refine reached_names A k (f :: V) hc.2.1 (List.nodup_cons.2 ⟨hfV, hd⟩) ?_ (by simp only [List.length_cons]; omega) hcg
        intro x hx
        rcases List.mem_cons.1 hx with rfl | hx
        · exact .single hc
        · exact .tail (hV x hx) hc

theorem set_mem {files : List File} (A : Accepted files) {f : File} (hf : f ∈ files) (v : List Byte) :
    v ∈ dependencyNames files files.length f ↔ ∃ g, Reaches files f g ∧ v = descriptorName g := by
  constructor
  · exact names_reached _ hf
  · rintro ⟨g, hg, rfl⟩
    exact reached_names A _ [] hf List.nodup_nil (by simp) (by simp) hg

theorem pairwise_mem {α : Type} {r : α → α → Prop} {l : List α} (h : l.Pairwise r) {a b : α} (ha : a ∈ l) (hb : b ∈ l) :
    a = b ∨ r a b ∨ r b a := by
  induction h with
  | nil => cases ha
  | cons h1 _ ih =>
    rcases List.mem_cons.1 ha with rfl | ha <;> rcases List.mem_cons.1 hb with rfl | hb
    · exact .inl rfl
    · exact .inr (.inl (h1 _ (by assumption)))
    · exact .inr (.inr (h1 _ (by assumption)))
    · exact ih (by assumption) (by assumption)

theorem descriptorName_inj {files : List File} (A : Accepted files) {f g : File} (hf : f ∈ files) (hg : g ∈ files)
    (hmf : f.messages ≠ []) (hmg : g.messages ≠ []) (e : descriptorName f = descriptorName g) : f = g := by
  have h := A.distinct
  unfold Lex.validateNames at h
  rw [Lex.go_iff, List.flatMap_map, List.pairwise_flatMap] at h
  have hm : ∀ x ∈ files, x.messages ≠ [] → x ∈ files.filter (·.messages ≠ []) := by
    intro x hx hxm
    exact List.mem_filter.2 ⟨hx, by simpa using hxm⟩
  rcases pairwise_mem h.2 (hm f hf hmf) (hm g hg hmg) with h | h | h
  · exact h
  · exfalso
    have := h (descriptorName f) (by simp [Lex.descriptorVariables, descriptorName]) (descriptorName g) (by simp [Lex.descriptorVariables, descriptorName])
    simp [Lex.collide, e] at this
  · exfalso
    have := h (descriptorName g) (by simp [Lex.descriptorVariables, descriptorName]) (descriptorName f) (by simp [Lex.descriptorVariables, descriptorName])
    simp [Lex.collide, e] at this

theorem set_nodup {files : List File} (A : Accepted files) {f : File} (hf : f ∈ files)
    (hm : ∀ g, Reaches files f g → g.messages ≠ []) : (dependencyNames files files.length f).Nodup := by
  cases hl : files.length with
  | zero => exact List.nodup_nil
  | succ k =>
    unfold dependencyNames
    rw [List.nodup_append]
    refine ⟨uniqueNames_nodup (sortNames_sorted _), by simp, ?_⟩
    intro a ha b hb e
    have hb : b = descriptorName f := by simpa using hb
    subst e
    rw [mem_uniqueNames, mem_sortNames, List.mem_flatMap] at ha
    obtain ⟨g, hg, hv⟩ := ha
    obtain ⟨d, hd, e⟩ := List.mem_filterMap.1 hg
    have ⟨hgm, hn⟩ := find_some e
    have hu : Uses files f g := ⟨hf, hgm, by rw [hn]; exact hd⟩
    obtain ⟨x, hx, hxv⟩ := names_reached k hgm hv
    have hfx : Relation.TransGen (Uses files) f x := by
      rcases hx with rfl | hx
      · exact .single hu
      · exact trans_append (.single hu) hx
    have := descriptorName_inj A hf (reaches_mem hf (.inr hfx)) (hm f (.inl rfl)) (hm x (.inr hfx)) (by rw [← hb, hxv])
    subst this
    exact no_cycle A _ hfx

theorem set_last (files : List File) {f : File} (hf : f ∈ files) :
    (dependencyNames files files.length f).getLast? = some (descriptorName f) := by
  cases hl : files.length with
  | zero => rw [List.length_eq_zero_iff] at hl; subst hl; cases hf
  | succ k =>
    unfold dependencyNames
    simp

/-! ## Services -/

theorem methodStructs_spec {types : List Byte → Option (List Byte)} {service : List Byte} :
    ∀ {k : Nat} {ms : List Method} {xs : List MethodStruct}, methodStructs types service k ms = some xs →
    xs.length = ms.length ∧ ∀ (i : Nat) (m : Method) (x : MethodStruct), ms[i]? = some m → xs[i]? = some x → methodStruct types service (k + i) m = some x
  | _, [], xs, h => by
    cases h
    exact ⟨rfl, fun i m x h => by simp at h⟩
  | k, m :: ms, xs, h => by
    unfold methodStructs at h
    cases h1 : methodStruct types service k m with
    | none => simp [h1] at h
    | some y =>
      cases h2 : methodStructs types service (k + 1) ms with
      | none => simp [h1, h2] at h
      | some ys =>
        simp [h1, h2] at h
        subst h
        have ih := methodStructs_spec h2
        refine ⟨by simp [ih.1], ?_⟩
        intro i m' x hm hx
        cases i with
        | zero =>
          simp only [List.getElem?_cons_zero, Option.some.injEq] at hm hx
          rw [← hm, ← hx]
          exact h1
        | succ i =>
          rw [List.getElem?_cons_succ] at hm hx
          have := ih.2 i m' x hm hx
          rwa [show k + 1 + i = k + (i + 1) from by omega] at this

theorem serviceStructs_spec {types : List Byte → Option (List Byte)} {f : File} :
    ∀ {ss : List Service} {xs : List (List Byte × List MethodStruct)}, serviceStructs types f ss = some xs →
    xs.length = (ss.filter (·.methods ≠ [])).length ∧
    ∀ (i : Nat) (s : Service) (x : List Byte × List MethodStruct), (ss.filter (·.methods ≠ []))[i]? = some s → xs[i]? = some x →
      x.1 = s.name ∧ methodStructs types (serviceName f s) 0 s.methods = some x.2
  | [], xs, h => by
    cases h
    exact ⟨rfl, fun i s x h => by simp at h⟩
  | s :: ss, xs, h => by
    unfold serviceStructs at h
    split at h
    · next hm =>
      rw [List.filter_cons, if_neg (by simp [hm])]
      exact serviceStructs_spec h
    · next hm =>
      rw [List.filter_cons, if_pos (by simp [hm])]
      cases h1 : methodStructs types (serviceName f s) 0 s.methods with
      | none => simp [h1] at h
      | some y =>
        cases h2 : serviceStructs types f ss with
        | none => simp [h1, h2] at h
        | some ys =>
          simp [h1, h2] at h
          subst h
          have ih := serviceStructs_spec h2
          refine ⟨by rw [List.length_cons, List.length_cons, ih.1], ?_⟩
          intro i s' x hs hx
          cases i with
          | zero =>
            simp only [List.getElem?_cons_zero, Option.some.injEq] at hs hx
            rw [← hs, ← hx]
            exact ⟨rfl, h1⟩
          | succ i =>
            rw [List.getElem?_cons_succ] at hs hx
            exact ih.2 i s' x hs hx

end HppProto.Plugin
