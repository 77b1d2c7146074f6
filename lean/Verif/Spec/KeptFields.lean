import Verif.Spec.Values
/-!
# Specification: inputs whose kept unknown records have minimal tags, at every level
-/
namespace HppProto.Spec
open HppProto

/-- In the records of a message of type `id`, and `d` levels deep in the messages and groups in it, every
unknown record of a message that keeps unknown fields has a minimal tag. -/
def keptMinimal (C : Cfg) : (d : Nat) → (id : Nat) → List Rec → Prop
  | 0, _, _ => True
  | d + 1, id, rs => ∀ r ∈ rs,
    match fieldKind (C.schema id) (tagNum r.tag), r with
    | some (.msg sub), .len _ _ _ v => ∀ inner, wfAll inner → rawAll inner = v → keptMinimal C d sub inner
    | some (.group sub), .group _ _ body _ => keptMinimal C d sub body
    | some _, _ => True
    | none, r => (C.schema id).unk = .none ∨ minimalTag r

/-- No field of the message type is a closed enum. -/
def noClosedEnum (D : MsgD) : Prop := ∀ n vs, fieldKind D n ≠ some (.scalar (.enum (some vs)))

end HppProto.Spec
