import Verif.Model.Regions
/-!
# Input followed by padding

Model of `read_binpb` with the option `padded_input`: the archive 1438-1457 of
deserialize.hpp, and the path 831-839 with 499-508 that makes strings and bytes of a message
with non-owning traits point into the input.
-/
namespace HppProto

/-- The archive over a buffer and the bytes after it, 1438-1457 with `basic_in` 192-194: one
region, whose slope begins at its end. `maybe_advance_region` does nothing (166); with no
regions left `Arch.advance` does nothing either. Buffer 1 is the memory of the caller. -/
def padArchive (buf pad : List Byte) : Mems × Arch :=
  ([[], (buf ++ pad).map some], ⟨⟨1, 0, buf.length, buf.length⟩, [], 0⟩)

/-- `read_binpb(msg, buffer, padded_input)` where strings and bytes are copied. -/
def readPadded (C : Cfg) (limit : Nat) (id : Nat) (old : Msg) (buf pad : List Byte) : Res Msg := do
  let (H, s) := padArchive buf pad
  let (_, m) ← (level C (regOps H true) (limit + 1)).msg id ((C.schema id).reset old) s
  .ok m

/-- `deserialize_packed_repeated` 809-829 for a string or bytes view with padded input: the
length, `read_bytes` 499-508 (whose only check is an `assert`) and, for a string, the
validation 836, which reads every byte of the view. The result is the view, as a region.
(`is_utf8` may stop at the first bytes that are not UTF-8; here it reads all.) -/
def readView (C : Cfg) (H : Mems) (utf8 : Bool) (s : Arch) : Res (Arch × Region) := do
  let (s, n) ← (regOps H true).varint .u32 s
  let view : Region := { s.cur with fin := s.cur.beg + n.toNat }
  let s := s.consume n.toNat
  if utf8 then do
    let bs ← H.bytes view n.toNat
    if C.utf8 bs then .ok (s, view) else .err .badMessage
  else .ok (s, view)

end HppProto
