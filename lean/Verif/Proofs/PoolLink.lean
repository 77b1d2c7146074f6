import Verif.Proofs.PoolTree
import Verif.Props.FileGraph

/-! # Descriptor pools: imports -/

namespace HppProto
open Spec

/-- Every import names a file, and no file imports itself, directly or through others. -/
def ImportsOk (fs : List FileProto) : Prop :=
  (∀ f ∈ fs, ∀ d ∈ f.deps, ∃ g ∈ fs, g.name = d) ∧
    ¬ ∃ a, Relation.TransGen (Spec.Imports fs) a a

theorem imports_eq (fs : List FileProto) :
    Props.Imports (fs.map poolFile) = Spec.Imports fs := by
  funext a b
  apply propext
  unfold Props.Imports Spec.Imports
  constructor
  · rintro ⟨f, hf, e, h⟩
    obtain ⟨g, hg, rfl⟩ := List.mem_map.1 hf
    exact ⟨g, hg, e, h⟩
  · rintro ⟨f, hf, e, h⟩
    exact ⟨poolFile f, List.mem_map.2 ⟨f, hf, rfl⟩, e, h⟩

theorem linkFiles_files {fs : List FileProto} (h1 : ∀ f ∈ fs, f.name ≠ [])
    (h2 : (fs.map (·.name)).Nodup) :
    linkFiles (fs.map poolFile) = true ↔ ImportsOk fs := by
  rw [Props.C48_pool_links, Props.ImportsIndirectly, imports_eq]
  constructor
  · rintro ⟨_, _, h3, h4⟩
    refine ⟨fun f hf d hd => ?_, h4⟩
    obtain ⟨g, hg, e⟩ := h3 (poolFile f) (List.mem_map.2 ⟨f, hf, rfl⟩) d hd
    obtain ⟨g', hg', rfl⟩ := List.mem_map.1 hg
    exact ⟨g', hg', e⟩
  · rintro ⟨h3, h4⟩
    refine ⟨?_, by rw [List.map_map]; exact h2, ?_, h4⟩
    · intro f hf
      obtain ⟨g, hg, rfl⟩ := List.mem_map.1 hf
      exact h1 g hg
    · intro f hf d hd
      obtain ⟨g, hg, rfl⟩ := List.mem_map.1 hf
      obtain ⟨g', hg', e⟩ := h3 g hg d hd
      exact ⟨poolFile g', List.mem_map.2 ⟨g', hg', rfl⟩, e⟩

/-- The files of a pool with their imports resolved. -/
def withDeps (p : Pool) : Pool :=
  { p with files := p.files.map fun d =>
      { d with deps := d.proto.deps.filterMap (fileIndex p.fileMap) } }

theorem zipWith_map_right {α β γ : Type} (f : α → β → γ) (g : α → β) : ∀ l : List α,
    l.zipWith f (l.map g) = l.map fun a => f a (g a)
  | [] => rfl
  | a :: l => by simp [zipWith_map_right f g l]

theorem linkPool_sat {p : Pool} {fs : List FileProto} (h : FilesBuilt p fs) :
    (linkPool p).Sat (fun p' => p' = withDeps p ∧ ImportsOk fs) (¬ ImportsOk fs) := by
  have e : (p.files.map fun d => (⟨d.proto.name, d.proto.deps⟩ : PoolFile)) = fs.map poolFile := by
    rw [← h.protos, List.map_map]; rfl
  have hl := linkFiles_files h.ok.named h.ok.names
  have hr : registerFiles (fs.map poolFile) [] 0 = some p.fileMap := by
    rw [registerFiles_spec]
    refine ⟨?_, by rw [List.map_map]; exact h.ok.names, by simp, by rw [h.fileMap]; rfl⟩
    intro f hf
    obtain ⟨g, hg, rfl⟩ := List.mem_map.1 hf
    exact h.ok.named g hg
  unfold linkFiles at hl
  rw [hr] at hl
  simp only at hl
  unfold linkPool
  rw [e]
  cases hd : linkDeps p.fileMap (fs.map poolFile) with
  | none =>
    rw [hd] at hl
    simp only at hl ⊢
    exact ⟨rfl, fun hi => by have := hl.2 hi; cases this⟩
  | some deps =>
    rw [hd] at hl
    simp only at hl ⊢
    split
    · rename_i ha
      refine ⟨?_, hl.1 ha⟩
      obtain ⟨_, rfl⟩ := (linkDeps_spec _ _ _).1 hd
      unfold withDeps
      congr 1
      rw [← h.protos, List.map_map, List.map_map]
      exact zipWith_map_right _ _ _
    · rename_i ha
      exact ⟨rfl, fun hi => ha (hl.2 hi)⟩

/-- The imports of a file descriptor are the files it names. -/
theorem deps_named {p : Pool} {fs : List FileProto} (h : FilesBuilt p fs) (hi : ImportsOk fs) :
    ∀ d ∈ (withDeps p).files, d.deps.map (fun k => (withDeps p).files[k]?.map (·.proto.name)) =
      d.proto.deps.map some := by
  intro x hx
  obtain ⟨d, hd, rfl⟩ := List.mem_map.1 hx
  clear hx
  simp only
  have hnd : ((fs.map poolFile).map PoolFile.name).Nodup := by
    rw [List.map_map]; exact h.ok.names
  have hk : ∀ n ∈ d.proto.deps, ∃ k, fileIndex p.fileMap n = some k ∧
      (withDeps p).files[k]?.map (·.proto.name) = some n := by
    intro n hn
    have hdf : d.proto ∈ fs := by rw [← h.protos]; exact List.mem_map.2 ⟨d, hd, rfl⟩
    obtain ⟨g, hg, rfl⟩ := hi.1 d.proto hdf n hn
    obtain ⟨k, hk, ek⟩ := List.getElem_of_mem hg
    refine ⟨k, ?_, ?_⟩
    · rw [h.fileMap, fileIndex_namesFrom hnd]
      refine ⟨Nat.zero_le _, ?_⟩
      simp [List.getElem?_eq_getElem hk, ek, poolFile]
    · have : ((withDeps p).files.map (·.proto))[k]? = some g := by
        simp only [withDeps, List.map_map, Function.comp_def]
        rw [h.protos, List.getElem?_eq_getElem hk, ek]
      rw [List.getElem?_map, Option.map_eq_some_iff] at this
      obtain ⟨x, hx, rfl⟩ := this
      rw [hx]; rfl
  generalize d.proto.deps = ns at hk
  induction ns with
  | nil => rfl
  | cons n ns ih =>
    obtain ⟨k, h1, h2⟩ := hk n (by simp)
    rw [List.filterMap_cons_some h1, List.map_cons, List.map_cons, h2,
      ih fun m hm => hk m (by simp [hm])]

end HppProto
