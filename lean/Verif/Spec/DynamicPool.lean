import Verif.Model.Dynamic

/-!
# What the descriptor pool guarantees of descriptors

Hypotheses of the theorems about writing and reading dynamic messages, besides the slot layout
(`DynDesc.Ok`).
-/

namespace HppProto

/-- Packed fields are repeated numbers (`descriptor_pool.hpp` 301-319); the key and the value of a map
entry have presence (1226-1228). -/
structure DynDesc.Pooled (D : DynDesc) : Prop where
  packed : ∀ f ∈ D.fields, f.packed = true → f.repeated = true ∧ f.kind.isNum = true
  entryExplicit : D.entry = true → ∀ f ∈ D.fields, f.repeated = false → f.explicit = true

end HppProto
