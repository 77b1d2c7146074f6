import Verif.Model.Popcount
/-!
# Region machine: `basic_in` over overlapping regions

Model of `input_span`, `input_buffer_region` and `basic_in` (deserialize.hpp 49-613) and of
the archives built on it (1415-1503). Memory is explicit: buffer 0 is the reader's own
patch buffer, buffer `i + 1` is the caller's segment `i`. A pointer is a buffer and an
offset. Every byte the code reads goes through `Mems.cell`; a read outside a buffer, or of
a patch byte that was never written, is the outcome `ub`, as is a write outside the patch
buffer or the array of regions.

Simplifications: moving a pointer outside its buffer is not itself an error here (the code
does it freely, e.g. 466, 490), only reading there is; `assert`s are absent, as in builds
with `NDEBUG`; `ptrdiff_t` is unbounded. The branch for constant evaluation and big-endian
targets (314-324) is not modelled.
-/
namespace HppProto

/-- A buffer; `none` is a byte not yet written. -/
abbrev Buf := List (Option Byte)

/-- All buffers that the reader can address. -/
abbrev Mems := List Buf

/-- The byte at an offset of a buffer, if it exists and was written. -/
def Mems.cell (H : Mems) (b : Nat) (i : Int) : Option Byte :=
  if i < 0 then none else ((H.getD b []).getD i.toNat none)

/-- `input_buffer_region` 98-107: begin, end and start of the slope, in one buffer. -/
structure Region where
  buf : Nat
  beg : Int
  fin : Int
  slope : Int
  deriving Repr, DecidableEq

/-- `slope_distance` 106. -/
def Region.slopeDist (r : Region) : Int := r.beg - r.slope

/-- `consume` 76-80. -/
def Region.consume (r : Region) (n : Int) : Region := { r with beg := r.beg + n }

/-- The bytes from the read pointer on, as the parsers of varint.hpp index them. -/
def Mems.view (H : Mems) (r : Region) : Mem := fun i => (H.cell r.buf (r.beg + i)).getD 0#8

/-- May the first `n` bytes from the read pointer be read? -/
def Mems.good (H : Mems) (r : Region) (n : Nat) : Bool :=
  (List.range n).all fun i => (H.cell r.buf (r.beg + i)).isSome

/-- Read `n` bytes at the read pointer. -/
def Mems.bytes (H : Mems) (r : Region) (n : Nat) : Res (List Byte) :=
  if H.good r n then .ok ((List.range n).map (H.view r)) else .ub

/-- The state of `basic_in` 145-147. -/
structure Arch where
  cur : Region
  rest : List Region
  sec : Int
  deriving Repr, DecidableEq

/-- `current.consume(n)`. -/
def Arch.consume (s : Arch) (n : Int) : Arch := { s with cur := s.cur.consume n }

/-- `set_current_region` 152-163: new current region and `size_exclude_current`. -/
def setRegion (sec : Int) (next : Region) : Region × Int :=
  if sec + next.slopeDist > 0 then
    (⟨next.buf, next.beg, next.fin, min next.slope next.fin⟩, sec + next.slopeDist)
  else
    let fin := next.beg + sec
    let slope := min next.slope fin
    (⟨next.buf, next.beg, fin, slope⟩, fin - slope)

/-- The loop of `maybe_advance_region` 165-177, on the regions left. -/
def advanceLoop : (rest : List Region) → (cur : Region) → (sec : Int) → Arch
  | [], cur, sec => ⟨cur, [], sec⟩
  | r :: rs, cur, sec =>
    if cur.slopeDist > 0 then
      advanceLoop rs ((setRegion sec r).1.consume cur.slopeDist) (setRegion sec r).2
    else ⟨cur, r :: rs, sec⟩

/-- `maybe_advance_region` 165-177. -/
def Arch.advance (s : Arch) : Arch := advanceLoop s.rest s.cur s.sec

/-- `region_size` 182. -/
def Arch.size (s : Arch) : Int := s.cur.fin - s.cur.beg

/-- `in_avail` 183-189. -/
def Arch.avail (contig : Bool) (s : Arch) : Int :=
  if contig then s.size else s.sec - s.cur.slopeDist

/-- Bytes that `shift_mix_parse_varint` looks at when it finds no terminator
(varint.hpp 173-253). -/
def MixTy.reach : MixTy → Nat
  | .tag => 5
  | .u32 => 6
  | .w64 | .i32 => 10

/-- An unchecked parse followed by the test `p <= current._end` (258, 281, 595, 605): the
parse looks at the bytes it consumes, or at `reach` bytes when it fails. -/
def checked {α} (H : Mems) (s : Arch) (reach : Nat) (p : Option Nat × α) : Res (Option (Arch × α)) :=
  match p with
  | (some n, v) =>
    if H.good s.cur n then
      if s.cur.beg + n ≤ s.cur.fin then .ok (some (s.consume n, v)) else .ok none
    else .ub
  | (none, _) => if H.good s.cur reach then .ok none else .ub

/-- The same, with `bad_message` on failure. -/
def checkedErr {α} (H : Mems) (s : Arch) (reach : Nat) (p : Option Nat × α) : Res (Arch × α) := do
  match ← checked H s reach p with
  | some x => .ok x
  | none => .err .badMessage

/-- The copy loop 330-336 of `do_deserialize_packed_resize`, for `n` bytes left. -/
def rawLoop (H : Mems) : (fuel : Nat) → (n : Nat) → Arch → Res (Arch × List Byte)
  | 0, _, _ => .stuck
  | fuel + 1, n, s =>
    if n = 0 then .ok (s, [])
    else do
      let s := s.advance
      -- `static_cast<std::size_t>(region_size())`: a negative size becomes a huge one
      let k := if s.size < 0 then n else min n s.size.toNat
      let bs ← H.bytes s.cur k
      let (s, more) ← rawLoop H fuel (n - k) (s.consume k)
      .ok (s, bs ++ more)

/-- The loop 297-302 of `do_deserialize_packed_append_raw`: `n` elements of `size` bytes.
A step that appends nothing repeats for ever (`stuck`). -/
def appendLoop (H : Mems) (size : Nat) : (fuel : Nat) → (n : Nat) → Arch → Res (Arch × List Byte)
  | 0, _, _ => .stuck
  | fuel + 1, n, s =>
    if n = 0 then .ok (s, [])
    else
      let s := s.advance
      let k : Int := min (n : Int) (s.size.tdiv size)
      if k ≤ 0 then .stuck
      else do
        let bs ← H.bytes s.cur (k.toNat * size)
        let (s, more) ← appendLoop H size fuel (n - k.toNat) (s.consume (k.toNat * size : Nat))
        .ok (s, bs ++ more)

/-- `deserialize_packed` 342-357 through the resize path: `n` bytes. -/
def regRaw (H : Mems) (contig : Bool) (n : Nat) (s : Arch) : Res (Arch × List Byte) :=
  if s.avail contig < n then .err .badMessage
  else if contig then do
    let bs ← H.bytes s.cur n
    .ok (s.consume n, bs)
  else rawLoop H (n + 1) n s

/-- `deserialize_packed` 342-357 through the append path: `n` elements of `size` bytes. -/
def regAppend (H : Mems) (contig : Bool) (size n : Nat) (s : Arch) : Res (Arch × List Byte) :=
  if s.avail contig < (n * size : Nat) then .err .badMessage
  else if contig then do
    let bs ← H.bytes s.cur (n * size)
    .ok (s.consume (n * size : Nat), bs)
  else appendLoop H size (n + 1) n s

/-- `count_number_of_varints_in_region` 522-552. -/
def regCount (H : Mems) (r : Region) (n : Nat) : Res Nat := do
  let bs ← H.bytes r n
  .ok (regionTerms bs)

/-- The test of the last byte and the count, 560-564 and 578-583; `n` is positive. -/
def regLast (H : Mems) (r : Region) (n : Nat) (before : Nat) : Res (Option Nat) := do
  match H.cell r.buf (r.beg + (n - 1 : Nat)) with
  | some b =>
    if b.msb then .ok none
    else do
      let c ← regCount H r n
      .ok (some (before + c))
  | none => .ub

/-- The loop 570-585 of `number_of_varints`. -/
def numLoop (H : Mems) : (fuel : Nat) → (n : Int) → (before : Nat) → Arch → Res (Option Nat)
  | 0, _, _, _ => .stuck
  | fuel + 1, n, before, s =>
    if 0 < n ∧ 0 < s.avail false then
      let s := s.advance
      if n > s.size then do
        let c ← regCount H s.cur s.size.toNat
        numLoop H fuel (n - s.size) (before + c) (s.consume s.size)
      else regLast H s.cur n.toNat before
    else .ok none

/-- `number_of_varints` 556-589. -/
def regNum (H : Mems) (contig : Bool) (n : Nat) (s : Arch) : Res (Option Nat) :=
  if n = 0 then .ub -- `current[bytes_count - 1]`; callers exclude it
  else if s.size ≥ n then regLast H s.cur n 0
  else if (n : Int) ≤ s.avail contig ∧ !contig then numLoop H (n + 1) n 0 s
  else .ok none

/-- `parse_packed_varints_in_a_region` 394-410, at most `count` elements. -/
def packedIn (H : Mems) (ty : VarTy) : (count : Nat) → Region → Res (List (BitVec 64))
  | 0, r => if r.fin = r.beg then .ok [] else .err .badMessage
  | count + 1, r =>
    if r.fin = r.beg then .ok []
    else match ty.parse (H.view r) with
    | (some n, v) =>
      if H.good r n then
        if r.beg + n > r.fin then .err .badMessage
        else do
          let vs ← packedIn H ty count (r.consume n)
          .ok (v :: vs)
      else .ub
    | (none, _) => if H.good r ty.mix.reach then .err .badMessage else .ub

/-- Bytes after the last terminator of a byte string, if it has one: 117-122. -/
def afterTerm (bs : List Byte) : Option Nat := bs.reverse.findIdx? (fun b => !b.msb)

/-- `consume_packed_varints` 109-129: how many bytes are taken; 0 stands for the empty
range. `size()` is unsigned, so an end before the begin counts as huge. The slope area is
read completely here, where the code stops at the terminator it looks for. -/
def consumePacked (H : Mems) (r : Region) (max : Nat) : Res Nat :=
  if r.fin < r.beg ∨ (max : Int) ≤ r.fin - r.beg then .ok max
  else if r.fin > r.slope then do
    let bs ← H.bytes { r with beg := r.slope } (r.fin - r.slope).toNat
    match afterTerm bs with
    | none => .ok 0
    | some k => if (k : Int) > r.fin - r.beg then .ok 0 else .ok ((r.fin - r.beg).toNat - k)
  else .ok 0

/-- `parse_packed_varints_in_regions` 413-428. -/
def packedRegions (H : Mems) (ty : VarTy) : (fuel : Nat) → (n c : Nat) → Arch → Res (Arch × List (BitVec 64))
  | 0, _, _, _ => .stuck
  | fuel + 1, n, c, s =>
    if n = 0 then .ok (s, [])
    else do
      let s := s.advance
      let k ← consumePacked H s.cur n
      if k = 0 then .err .badMessage
      else do
        let vs ← packedIn H ty c { s.cur with fin := s.cur.beg + k }
        let (s, more) ← packedRegions H ty fuel (n - k) (c - vs.length) (s.consume k)
        .ok (s, vs ++ more)

/-- `deserialize_packed_varint` 431-441. -/
def regPacked (H : Mems) (contig : Bool) (ty : VarTy) (n c : Nat) (s : Arch) : Res (Arch × List (BitVec 64)) :=
  if contig then do
    let vs ← packedIn H ty c { s.cur with fin := s.cur.beg + n }
    .ok (s.consume n, vs)
  else packedRegions H ty (n + 1) n c s

/-- `deserialize(bool)` 257-263. -/
def regBool (H : Mems) (s : Arch) : Res (Arch × Bool) := checkedErr H s 10 (parseBool (H.view s.cur))

/-- The loop of `deserialize_packed_boolean` 378-391. -/
def regBools (H : Mems) (contig : Bool) : (count : Nat) → Arch → Res (Arch × List Bool)
  | 0, s => .ok (s, [])
  | count + 1, s => do
    let (s, b) ← regBool H (if contig then s else s.advance)
    let (s, bs) ← regBools H contig count s
    .ok (s, b :: bs)

/-- `skip_varint` 443-452. With the end before the begin, `std::find_if` walks off. -/
def regSkipVarint (H : Mems) (s : Arch) : Res Arch :=
  let last := min (s.cur.beg + 10) s.cur.fin
  if last < s.cur.beg then .ub
  else
    let w := (last - s.cur.beg).toNat
    match (List.range w).find? (fun i => !(H.view s.cur i).msb) with
    | some i => if H.good s.cur (i + 1) then .ok (s.consume (i + 1 : Nat)) else .ub
    | none => if H.good s.cur w then .err .badMessage else .ub

/-- `split` 473-497: the first part and the remainder. -/
def regSplit (n : Nat) (s : Arch) : Arch × Arch :=
  let a :=
    if s.cur.fin < s.cur.beg ∨ (n : Int) ≤ s.cur.fin - s.cur.beg then
      let fin := s.cur.beg + n
      let slope := min fin s.cur.slope
      ⟨⟨s.cur.buf, s.cur.beg, fin, slope⟩, s.rest, fin - slope⟩
    else ⟨s.cur, s.rest, n + s.cur.slopeDist⟩
  (a, s.consume n)

/-- The members of `basic_in` over a heap; `contig` is the template parameter
`Contiguous`. -/
def regOps (H : Mems) (contig : Bool) : Ops Arch where
  avail s := s.avail contig
  readTag s := do
    let s := s.advance
    match ← checked H s MixTy.tag.reach (readTag (H.view s.cur)) with
    | some x => .ok x
    | none => .ok (s, 0)
  matchTag s tag := do
    let s := s.advance
    match ← checked H s MixTy.tag.reach (shiftMix .tag (H.view s.cur)) with
    | some (s', res) => if res.toInt = (tag.toNat : Int) then .ok (s', true) else .ok (s, false)
    | none => .ok (s, false)
  varint ty s := checkedErr H s ty.mix.reach (ty.parse (H.view s.cur))
  bool s := regBool H s
  fixed n s := do
    let bs ← H.bytes s.cur n
    .ok (s.consume n, leVal bs)
  skipVarint s := regSkipVarint H s
  skip n s := if s.avail contig < n then .err .badMessage else .ok (s.consume n)
  split n s := .ok (regSplit n s)
  unwind n s := .ok (s.consume (-n))
  raw n s := regRaw H contig n s
  numVarints n s := regNum H contig n s
  packedVarints ty n c s := regPacked H contig ty n c s
  packedBools c s := regBools H contig c s
  peek s := match H.cell s.cur.buf s.cur.beg with
    | some b => .ok b
    | none => .ub

/-! ## Construction of the regions -/

/-- State of the loop of the constructor 196-247: buffers, the array of regions, and the
local variables. -/
structure Ctor where
  patch : Buf
  regs : List Region
  put : Nat
  idx : Nat
  first : Bool
  sec : Int
  deriving Repr, DecidableEq

/-- A default-constructed region (`nullptr`), in no buffer; `none` of the `k` segments. -/
def nullRegion (k : Nat) : Region := ⟨k + 1, 0, 0, 0⟩

/-- `std::copy` into the patch buffer at the write pointer (215, 219, 230). -/
def Ctor.copy (c : Ctor) (bs : Buf) : Res Ctor :=
  if c.put + bs.length ≤ c.patch.length then
    .ok { c with patch := c.patch.take c.put ++ bs ++ c.patch.drop (c.put + bs.length), put := c.put + bs.length }
  else .ub

/-- Overwrite the region at an index. -/
def Ctor.setReg (c : Ctor) (i : Nat) (r : Region) : Res Ctor :=
  if i < c.regs.length then .ok { c with regs := c.regs.set i r } else .ub

/-- The region at an index. -/
def Ctor.reg (c : Ctor) (i : Nat) : Res Region :=
  match c.regs[i]? with
  | some r => .ok r
  | none => .ub

/-- Set the end (`_end`) of a region of the patch buffer to the write pointer (220). -/
def Ctor.setFin (c : Ctor) (i : Nat) : Res Ctor := do
  let r ← c.reg i
  if r.buf = 0 then c.setReg i { r with fin := c.put } else .ub

/-- Set the slope (`_slope_begin`) of a region of the patch buffer to the write pointer
(216, 231). -/
def Ctor.setSlope (c : Ctor) (i : Nat) : Res Ctor := do
  let r ← c.reg i
  if r.buf = 0 then c.setReg i { r with slope := c.put } else .ub

/-- One iteration of the loop 204-234, for the segment at index `j` of the source half of
the array. The array is shared: the segment is read from it at this moment. -/
def Ctor.step (c : Ctor) (segs : List (List Byte)) (j : Nat) : Res Ctor := do
  let segment ← c.reg (segs.length + j)
  let bytes : Buf := ((segs[j]?).getD []).map some
  let size := (segment.fin - segment.beg).toNat
  if segment.buf ≠ j + 1 then .ub
  else if !c.first && size == 0 then .ok c
  else do
    let c := { c with sec := c.sec + size }
    if size ≤ 16 then do
      let c ← if c.first then c.setReg c.idx { (← c.reg c.idx) with buf := 0, beg := c.put } else .ok c
      let c ← c.copy bytes
      let c ← c.setSlope c.idx
      .ok { c with first := false }
    else do
      let c ← if !c.first then do
          let c ← c.copy (bytes.take 16)
          let c ← c.setFin c.idx
          .ok { c with idx := c.idx + 1 }
        else .ok c
      let c ← c.setReg c.idx ⟨j + 1, 0, size, size - 16⟩
      let c := { c with idx := c.idx + 1 }
      let c ← c.setReg c.idx { (← c.reg c.idx) with buf := 0, beg := c.put }
      let c ← c.copy (bytes.drop (size - 16))
      let c ← c.setSlope c.idx
      .ok { c with first := false }

/-- The loop 204-234 from segment `j` on. -/
def Ctor.loop (c : Ctor) (segs : List (List Byte)) : (left : Nat) → (j : Nat) → Res Ctor
  | 0, _ => .ok c
  | left + 1, j => do
    let c ← c.step segs j
    c.loop segs left (j + 1)

/-- The caller's set-up, 1418-1421 and 1478-1489: twice as many regions as segments, the
segments in the second half, and 32 patch bytes for each. -/
def Ctor.init (segs : List (List Byte)) : Ctor :=
  { patch := List.replicate (32 * segs.length) none
    regs := List.replicate segs.length (nullRegion segs.length) ++
      (List.range segs.length).map (fun i => ⟨i + 1, 0, ((segs[i]?).getD []).length, 0⟩)
    put := 0, idx := 0, first := true, sec := 0 }

/-- The rest of the constructor, 235-246: heap and initial archive. -/
def buildArchive (segs : List (List Byte)) : Res (Mems × Arch) := do
  let c ← (Ctor.init segs).loop segs segs.length 0
  let segBufs : Mems := segs.map (fun s => s.map some)
  if segs = [] then .ok (c.patch :: segBufs, ⟨nullRegion 0, [], 0⟩)
  else do
    let c ← c.setFin c.idx
    let c ← c.setSlope c.idx
    let c ← c.copy (List.replicate 16 (some 0#8))
    let r ← c.reg 0
    .ok (c.patch :: segBufs,
      ⟨⟨r.buf, r.beg, r.fin, min r.slope r.fin⟩, (c.regs.take (c.idx + 1)).drop 1, c.sec + r.slopeDist⟩)

/-- `read_binpb` of a sequence of segments: binpb.hpp 233-236 with deserialize.hpp
1477-1503. -/
def readSegments (C : Cfg) (limit : Nat) (id : Nat) (old : Msg) (segs : List (List Byte)) : Res Msg := do
  let (H, s) ← buildArchive segs
  let (_, m) ← (level C (regOps H false) (limit + 1)).msg id ((C.schema id).reset old) s
  .ok m

/-- `read_binpb` of one buffer through the region machine: binpb.hpp 233-236 with
deserialize.hpp 1463-1475. -/
def readContiguous (C : Cfg) (limit : Nat) (id : Nat) (old : Msg) (buf : List Byte) : Res Msg := do
  let (H, s) ← buildArchive [buf]
  let (_, m) ← (level C (regOps H true) (limit + 1)).msg id ((C.schema id).reset old) s
  .ok m

end HppProto
