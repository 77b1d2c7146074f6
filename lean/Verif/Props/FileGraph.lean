import Verif.Proofs.FileGraph

/-!
# C48: the file graph of a descriptor pool

`linkFiles` (`Verif/Model/FileGraph.lean`) is the registration of files and the import check of
`descriptor_pool::init`; `filesAcyclic` is the cycle check alone, over the indices of the files.
-/

namespace HppProto.Props

/-! ## Specification -/

/-- The file called `a` imports the file called `b`. -/
def Imports (files : List PoolFile) (a b : List Byte) : Prop :=
  ∃ f ∈ files, f.name = a ∧ b ∈ f.deps

/-- The file called `a` imports the file called `b`, directly or through other files. -/
def ImportsIndirectly (files : List PoolFile) : List Byte → List Byte → Prop :=
  Relation.TransGen (Imports files)

/-! ## C48 -/

/-- The cycle check, on files given by their position: it succeeds exactly when no file reaches
itself along one or more imports.  A file may import another any number of times. -/
theorem C48_cycle_check (deps : List (List Nat))
    (inside : ∀ ds ∈ deps, ∀ d ∈ ds, d < deps.length) :
    filesAcyclic deps = true ↔
      ¬ ∃ i, Relation.TransGen (fun a b : Nat => ∃ ds, deps[a]? = some ds ∧ b ∈ ds) i i :=
  filesAcyclic_iff inside

private theorem edge_iff {files : List PoolFile} (hd : (files.map PoolFile.name).Nodup)
    {i k : Nat} :
    Edge (files.map fun f => f.deps.filterMap (fileIndex (namesFrom 0 files))) i k ↔
      ∃ f g, files[i]? = some f ∧ files[k]? = some g ∧ g.name ∈ f.deps := by
  unfold Edge
  constructor
  · rintro ⟨ds, h, hk⟩
    rw [List.getElem?_map, Option.map_eq_some_iff] at h
    obtain ⟨f, hf, rfl⟩ := h
    rw [List.mem_filterMap] at hk
    obtain ⟨n, hn, e⟩ := hk
    rw [fileIndex_namesFrom hd] at e
    obtain ⟨_, e⟩ := e
    rw [Nat.sub_zero, Option.map_eq_some_iff] at e
    obtain ⟨g, hg, rfl⟩ := e
    exact ⟨f, g, hf, hg, hn⟩
  · rintro ⟨f, g, hf, hg, hn⟩
    refine ⟨_, by rw [List.getElem?_map, hf]; rfl, ?_⟩
    rw [List.mem_filterMap]
    refine ⟨g.name, hn, ?_⟩
    rw [fileIndex_namesFrom hd]
    exact ⟨by omega, by simp [hg]⟩

private theorem name_inj {files : List PoolFile} (hd : (files.map PoolFile.name).Nodup)
    {f g : PoolFile} {i j : Nat} (hf : files[i]? = some f) (hg : files[j]? = some g)
    (e : f.name = g.name) : i = j := by
  have h1 : fileIndex (namesFrom 0 files) f.name = some i := by
    rw [fileIndex_namesFrom hd]; exact ⟨by omega, by simp [hf]⟩
  have h2 : fileIndex (namesFrom 0 files) f.name = some j := by
    rw [fileIndex_namesFrom hd]; exact ⟨by omega, by simp [hg, e]⟩
  rw [h1] at h2
  exact Option.some.inj h2

/-- Registering the files of a set and checking their imports succeeds exactly when every file has
a name, no two files have the same name, every import names a file of the set, and no file imports
itself, directly or through other files. -/
theorem C48_pool_links (files : List PoolFile) :
    linkFiles files = true ↔
      (∀ f ∈ files, f.name ≠ []) ∧
      (files.map PoolFile.name).Nodup ∧
      (∀ f ∈ files, ∀ d ∈ f.deps, ∃ g ∈ files, g.name = d) ∧
      ¬ ∃ a, ImportsIndirectly files a a := by
  unfold linkFiles
  cases hreg : registerFiles files [] 0 with
  | none =>
    simp only [Bool.false_eq_true, false_iff]
    rintro ⟨h1, h2, _⟩
    have := (registerFiles_spec files [] 0 ([] ++ namesFrom 0 files)).2
      ⟨h1, h2, by simp, rfl⟩
    rw [hreg] at this
    cases this
  | some m =>
    obtain ⟨h1, h2, _, hm⟩ := (registerFiles_spec files [] 0 m).1 hreg
    rw [List.nil_append] at hm
    subst hm
    simp only
    cases hlink : linkDeps (namesFrom 0 files) files with
    | none =>
      simp only [Bool.false_eq_true, false_iff]
      rintro ⟨_, _, h3, _⟩
      have := (linkDeps_spec (namesFrom 0 files) files _).2 ⟨?_, rfl⟩
      · rw [hlink] at this; cases this
      · intro f hf d hd e
        obtain ⟨g, hg, rfl⟩ := h3 f hf d hd
        obtain ⟨k, hk, ek⟩ := List.getElem_of_mem hg
        have : fileIndex (namesFrom 0 files) g.name = some k := by
          rw [fileIndex_namesFrom h2]
          exact ⟨by omega, by simp [hk, ek]⟩
        rw [e] at this; cases this
    | some deps =>
      obtain ⟨h3, rfl⟩ := (linkDeps_spec _ files deps).1 hlink
      simp only
      rw [filesAcyclic_iff]
      · constructor
        · intro hn
          refine ⟨h1, h2, ?_, ?_⟩
          · intro f hf d hd
            cases e : fileIndex (namesFrom 0 files) d with
            | none => exact absurd e (h3 f hf d hd)
            | some k =>
              rw [fileIndex_namesFrom h2] at e
              obtain ⟨_, e⟩ := e
              rw [Option.map_eq_some_iff] at e
              obtain ⟨g, hg, rfl⟩ := e
              exact ⟨g, List.mem_of_getElem? hg, rfl⟩
          · rintro ⟨a, ha⟩
            apply hn
            have key : ∀ {a b}, ImportsIndirectly files a b → ∀ i f, files[i]? = some f →
                f.name = a → ∀ j g, files[j]? = some g → g.name = b →
                Relation.TransGen (Edge (files.map fun f =>
                  f.deps.filterMap (fileIndex (namesFrom 0 files)))) i j := by
              intro a b h
              induction h with
              | single h =>
                intro i f hf hfa j g hg hgb
                obtain ⟨f', hf', e, hb⟩ := h
                obtain ⟨i', hi', e'⟩ := List.getElem_of_mem hf'
                have hf'' : files[i']? = some f' := by rw [List.getElem?_eq_getElem hi', e']
                have : i = i' := name_inj h2 hf hf'' (by rw [hfa, e])
                subst this
                exact .single ((edge_iff h2).2 ⟨f', g, hf'', hg, by rw [hgb]; exact hb⟩)
              | tail _ h ih =>
                intro i f hf hfa j g hg hgb
                obtain ⟨f', hf', e, hb⟩ := h
                obtain ⟨i', hi', e'⟩ := List.getElem_of_mem hf'
                have hf'' : files[i']? = some f' := by rw [List.getElem?_eq_getElem hi', e']
                exact .tail (ih i f hf hfa i' f' hf'' e)
                  ((edge_iff h2).2 ⟨f', g, hf'', hg, by rw [hgb]; exact hb⟩)
            have hmem : ∃ f ∈ files, f.name = a := by
              have : ∀ {a b}, ImportsIndirectly files a b → ∃ f ∈ files, f.name = a := by
                intro a b h
                induction h with
                | single h => obtain ⟨f, hf, e, _⟩ := h; exact ⟨f, hf, e⟩
                | tail _ _ ih => exact ih
              exact this ha
            obtain ⟨f, hf, e⟩ := hmem
            obtain ⟨i, hi, e'⟩ := List.getElem_of_mem hf
            have hf' : files[i]? = some f := by rw [List.getElem?_eq_getElem hi, e']
            exact ⟨i, key ha i f hf' e i f hf' e⟩
        · rintro ⟨_, _, _, hn⟩ ⟨i, hi⟩
          apply hn
          have key : ∀ {i j}, Relation.TransGen (Edge (files.map fun f =>
                f.deps.filterMap (fileIndex (namesFrom 0 files)))) i j →
              ∃ f g, files[i]? = some f ∧ files[j]? = some g ∧
                ImportsIndirectly files f.name g.name := by
            intro i j h
            induction h with
            | single h =>
              obtain ⟨f, g, hf, hg, hd⟩ := (edge_iff h2).1 h
              exact ⟨f, g, hf, hg, .single ⟨f, List.mem_of_getElem? hf, rfl, hd⟩⟩
            | tail _ h ih =>
              obtain ⟨f, g, hf, hg, hp⟩ := ih
              obtain ⟨g', k, hg', hk, hd⟩ := (edge_iff h2).1 h
              rw [hg] at hg'
              cases hg'
              exact ⟨f, k, hf, hk, .tail hp ⟨g, List.mem_of_getElem? hg, rfl, hd⟩⟩
          obtain ⟨f, g, hf, hg, hp⟩ := key hi
          rw [hf] at hg
          cases hg
          exact ⟨f.name, hp⟩
      · intro ds hds d hd
        obtain ⟨f, hf, rfl⟩ := List.mem_map.1 hds
        rw [List.mem_filterMap] at hd
        obtain ⟨n, _, e⟩ := hd
        rw [fileIndex_namesFrom h2] at e
        obtain ⟨_, e⟩ := e
        rw [Nat.sub_zero, Option.map_eq_some_iff] at e
        obtain ⟨g, hg, _⟩ := e
        have := (List.getElem?_eq_some_iff.1 hg).1
        simpa using this

/-- The verdict does not depend on the order of the files. -/
theorem C48_order (files files' : List PoolFile) (perm : files.Perm files') :
    linkFiles files = linkFiles files' := by
  have key : ∀ {a b : List PoolFile}, a.Perm b → linkFiles a = true → linkFiles b = true := by
    intro a b p h
    rw [C48_pool_links] at h ⊢
    obtain ⟨h1, h2, h3, h4⟩ := h
    refine ⟨fun f hf => h1 f (p.mem_iff.2 hf), (p.map _).nodup_iff.1 h2, ?_, ?_⟩
    · intro f hf d hd
      obtain ⟨g, hg, e⟩ := h3 f (p.mem_iff.2 hf) d hd
      exact ⟨g, p.mem_iff.1 hg, e⟩
    · rintro ⟨x, hx⟩
      apply h4
      refine ⟨x, ?_⟩
      have : Imports b = Imports a := by
        funext u v
        apply propext
        constructor
        · rintro ⟨f, hf, e⟩; exact ⟨f, p.mem_iff.2 hf, e⟩
        · rintro ⟨f, hf, e⟩; exact ⟨f, p.mem_iff.1 hf, e⟩
      unfold ImportsIndirectly at hx ⊢
      rwa [this] at hx
  cases h1 : linkFiles files with
  | true => rw [key perm h1]
  | false =>
    cases h2 : linkFiles files' with
    | false => rfl
    | true => rw [key perm.symm h2] at h1; cases h1

/-! ## Examples -/

/-- Four files: a diamond with a repeated import. -/
def diamond : List PoolFile :=
  [⟨b!"a", [b!"b", b!"c", b!"b"]⟩, ⟨b!"b", [b!"d"]⟩, ⟨b!"c", [b!"d"]⟩, ⟨b!"d", []⟩]

example : linkFiles diamond = true := by decide +kernel
example : ∀ ds ∈ [[1, 2, 1], [3], [3], []], ∀ d ∈ ds, d < [[1, 2, 1], [3], [3], []].length := by
  decide
/-- A cycle of two files beside an acyclic part. -/
example : linkFiles (diamond ++ [⟨b!"e", [b!"f", b!"a"]⟩, ⟨b!"f", [b!"e"]⟩]) = false := by
  decide +kernel
/-- A file that imports itself. -/
example : linkFiles [⟨b!"a", [b!"a"]⟩] = false := by decide +kernel
/-- Two files with the same name, a file without a name, an import of an unknown file. -/
example : linkFiles [⟨b!"a", []⟩, ⟨b!"a", []⟩] = false := by decide +kernel
example : linkFiles [⟨[], []⟩] = false := by decide +kernel
example : linkFiles [⟨b!"a", [b!"b"]⟩] = false := by decide +kernel
example : diamond.Perm diamond.reverse := (List.reverse_perm _).symm

end HppProto.Props
