import Verif.Model.Flat
/-!
# Counting varints with 64-bit words

Model of `count_number_of_varints_in_region`, deserialize.hpp 522-552: the bytes whose top
bit is clear are counted eight at a time.
-/
namespace HppProto

/-- Eight bytes copied into a `uint64_t` (539-540, 545-546), on a little-endian target. -/
def word64 (b0 b1 b2 b3 b4 b5 b6 b7 : Byte) : BitVec 64 :=
  b7 ++ b6 ++ b5 ++ b4 ++ b3 ++ b2 ++ b1 ++ b0

/-- `std::popcount`, or the `popcntq` instruction (526-535). -/
def popcount64 (v : BitVec 64) : Nat := (List.range 64).countP (fun i => v.getLsbD i)

/-- `popcount(~v & packed_varint_terminator_mask)` 541, 547, with the mask of line 44. -/
def wordTerms (v : BitVec 64) : Nat := popcount64 (~~~v &&& 0x8080808080808080#64)

/-- The loop 537-542 over whole words. -/
def wordsTerms : List Byte → Nat
  | b0 :: b1 :: b2 :: b3 :: b4 :: b5 :: b6 :: b7 :: rest => wordTerms (word64 b0 b1 b2 b3 b4 b5 b6 b7) + wordsTerms rest
  | _ => 0

/-- The remaining bytes, copied over `UINT64_MAX`, 544-548. -/
def restTerms (bs : List Byte) : Nat :=
  if bs = [] then 0
  else
    let b := fun i => bs.getD i 0xff#8
    wordTerms (word64 (b 0) (b 1) (b 2) (b 3) (b 4) (b 5) (b 6) (b 7))

/-- `count_number_of_varints_in_region` 522-552. -/
def regionTerms (bs : List Byte) : Nat :=
  let whole := bs.length - bs.length % 8
  wordsTerms (bs.take whole) + restTerms (bs.drop whole)

end HppProto
