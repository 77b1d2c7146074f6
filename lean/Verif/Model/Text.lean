import Verif.Model.Varint
/-! # Text constants as byte lists -/
namespace HppProto
open Lean

/-- `b!"abc"` is the list of the bytes of the text (a notation of the model, not of the code). -/
macro:max "b!" s:str : term => do
  let bytes := s.getString.toUTF8.toList.map (fun b => Syntax.mkNumLit (toString b.toNat))
  let elems ← bytes.mapM (fun (n : TSyntax `num) => `(BitVec.ofNat 8 $n))
  `([$(elems.toArray),*])

end HppProto
