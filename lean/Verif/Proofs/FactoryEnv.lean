import Verif.Proofs.FactoryJson
/-! A factory depends only on whether the given files are validated. -/
namespace HppProto
open Spec

theorem create_env {E E' : FactoryEnv} {order : FileMap → FileMap} (ho : ∀ m, (order m).Perm m) {fs : List FileProto}
    (hf : E.float = E'.float) (hv : ∀ f ∈ fs, fileValidated E f = fileValidated E' f) :
    createFactory E order fs = createFactory E' order fs := by
  obtain ⟨fl, c⟩ := E
  obtain ⟨fl', c'⟩ := E'
  obtain rfl : fl = fl' := hf
  unfold createFactory
  cases hp : initPool order fs with
  | ok p =>
    have M := pool_mirrors ho hp
    have hw : ∀ d, wellKnownOf ⟨fl, c⟩ p d = wellKnownOf ⟨fl, c'⟩ p d := by
      intro d
      unfold wellKnownOf
      split
      · rfl
      · split
        · rfl
        · rename_i f hfile
          have : f.proto ∈ fs := by
            have := List.mem_of_getElem? hfile
            obtain ⟨g, hg, e⟩ := List.mem_map.1 (M.files ▸ List.mem_map_of_mem (f := fun f : FileDesc => (f.proto, f.features)) this)
            exact (Prod.mk.inj e).1 ▸ hg
          rw [hv _ this]
    have hr : resolvedMessage ⟨fl, c⟩ p = resolvedMessage ⟨fl, c'⟩ p := by
      funext d
      unfold resolvedMessage
      rw [hw d]
      rfl
    show finishFactory ⟨fl, c⟩ p = finishFactory ⟨fl, c'⟩ p
    unfold finishFactory
    rw [hr]
    rfl
  | err e => rfl
  | ub => rfl
  | throw => rfl
  | stuck => rfl

end HppProto
