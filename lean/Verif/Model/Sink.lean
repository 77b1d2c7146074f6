import Verif.Model.Serialize
/-!
# Model of writing to an output sink: `include/hpp_proto/binpb/serialize.hpp` 119-198, 605-673
and of the gRPC sink: `include/hpp_proto/grpc/serialization.hpp` 51-120

A sink is any state machine with the three operations of the `out_sink` concept. The memory
of a chunk is the list of the bytes it held when it was handed out; writing outside of it is
undefined behaviour. Sinks do not look at or move chunks they have handed out before.
-/
namespace HppProto

/-- The `out_sink` concept: `set_message_size`, `next_chunk`, `chunk_size`. -/
structure Sink (σ : Type) where
  setSize : Nat → σ → Res σ
  next : σ → List Byte × σ
  chunkSize : σ → Nat

/-- `serialization_mode`: serialize.hpp 35. -/
inductive Mode where
  | contiguous | adaptive | chunked
  deriving DecidableEq, Repr

/-- State of `chunked_out` (119-126, 178): the sink, the chunks handed out so far (newest
first), and `chunk_remaining_`, the stretch of `rem` bytes from offset `pos` of the newest. -/
structure ChunkSt (σ : Type) where
  sink : σ
  chunks : List (List Byte)
  pos : Nat
  rem : Nat

section
variable {σ : Type} (S : Sink σ)

/-- `chunk_remaining_.empty() ? sink_.next_chunk() : chunk_remaining_`: 144, 182. -/
def ChunkSt.out (st : ChunkSt σ) : ChunkSt σ :=
  if st.rem = 0 then
    let r := S.next st.sink
    ⟨r.2, r.1 :: st.chunks, 0, r.1.length⟩
  else st

/-- `memcpy(out.data(), ...)` and `out.subspan(...)`: 146-147, 184-185, 192-193. -/
def ChunkSt.put (st : ChunkSt σ) (bs : List Byte) : Res (ChunkSt σ) :=
  match st.chunks with
  | [] => if bs = [] then .ok st else .ub
  | c :: cs =>
    match poke c st.pos bs with
    | some c => .ok ⟨st.sink, c :: cs, st.pos + bs.length, st.rem - bs.length⟩
    | none => .ub

/-- `write_all`: 180-197. The Boolean is the return value. The first argument is loop fuel of
the model: every further round has copied at least one byte. -/
def writeLoop : (fuel : Nat) → (data : List Byte) → (st : ChunkSt σ) → Res (Bool × ChunkSt σ)
  | 0, data, st => if data = [] then .ok (true, st) else .stuck
  | fuel + 1, data, st =>
    if data = [] then .ok (true, st)
    else
      let o := st.out S
      if o.rem ≥ data.length then do
        let st ← o.put data
        .ok (true, st)
      else if o.rem = 0 then .ok (false, o)
      else do
        let st ← o.put (data.take o.rem)
        writeLoop fuel (data.drop o.rem) st

/-- `write_all` with enough fuel. -/
def writeAll (data : List Byte) (st : ChunkSt σ) : Res (Bool × ChunkSt σ) := writeLoop S data.length data st

/-- `serialize` of one piece: varints 142-156, everything else 134-140, 158-168 (little-endian
machine). -/
def chunkPiece (p : Piece) (st : ChunkSt σ) : Res (Bool × ChunkSt σ) :=
  match p with
  | .raw bs => writeAll S bs st
  | .varint n =>
    let o := st.out S
    if o.rem ≥ 10 then do
      let st ← o.put (packVarint n)
      .ok (true, st)
    else writeAll S (packVarint n) o

/-- Pieces in order, up to the first one that returns `false`: 172-175. -/
def chunkPieces : List Piece → ChunkSt σ → Res (Bool × ChunkSt σ)
  | [], st => .ok (true, st)
  | p :: ps, st => do
    let (b, st) ← chunkPiece S p st
    if b then chunkPieces ps st else .ok (false, st)

/-- Result of writing to a sink: status (`none` is success), sink, and the chunks it handed
out, oldest first. -/
abbrev SinkRes (σ : Type) := Res (Option Err × σ × List (List Byte))

/-- `serialize_chunked_sink`: 626-635. -/
def chunkedSink (r : SerOut) (s : σ) : Res (Option Err × σ × List (List Byte)) := do
  let (b, st) ← chunkPieces S r.1 ⟨s, [], 0, 0⟩
  if b then
    match r.2 with
    | .ub => .ub
    | .ok _ => .ok (none, st.sink, st.chunks.reverse)
    | .fail => .ok (some .badMessage, st.sink, st.chunks.reverse)
  else .ok (some .badMessage, st.sink, st.chunks.reverse)

/-- `serialize_contiguous_sink`: 614-624. The size of the chunk is not looked at. -/
def contiguousSink (r : SerOut) (s : σ) : SinkRes σ :=
  let c := S.next s
  match r.2, pokePieces r.1 c.1 0 with
  | .ub, _ => .ub
  | _, none => .ub
  | .ok _, some b => .ok (none, c.2, [b])
  | .fail, some b => .ok (some .badMessage, c.2, [b])

/-- `serialize(item, sink, context)`: 637-673, with the mode given by the context. -/
def serializeSink (C : Cfg) (limit : Nat) (mode : Mode) (id : Nat) (m : Msg) (s : σ) :
    Res (Option Err × σ × List (List Byte)) :=
  let n := countMsg C (limit + 1) id m
  if n.2 then .ok (some .badMessage, s, [])
  else do
    let (msgSz, st) ← sizeMsg C (limit + 1) id m ⟨List.replicate n.1 0, 0⟩
    if msgSz ≥ maxMessageSize then .ok (some .valueTooLarge, s, [])
    else do
      let s ← S.setSize msgSz s
      let r := serMsg C st.cache (limit + 1) id m 0
      match mode with
      | .contiguous => contiguousSink S r s
      | .adaptive => if msgSz ≤ S.chunkSize s then contiguousSink S r s else chunkedSink S r s
      | .chunked => chunkedSink S r s

/-- `serialization_mode_for_context<Context>`: 605-612. `opt` is the mode option among the
bases of the context (memory_resource_utils.hpp 131), if any. `isRef` says that `Context` is a
reference type: then `Context::serialization_mode` is ill-formed, the `requires` is false, and
the answer is `contiguous` whatever the options are. -/
def modeForContext (isRef : Bool) (opt : Option Mode) : Mode :=
  if isRef then .contiguous
  else match opt with
    | some m => m
    | none => .contiguous

/-- `write_binpb(msg, sink, option...)`: binpb.hpp 148-183. -/
def writeBinpbSink (C : Cfg) (limit : Nat) (opt : Option Mode) (id : Nat) (m : Msg) (s : σ) : SinkRes σ :=
  serializeSink S C limit (modeForContext false opt) id m s

end

/-! ## gRPC byte buffers -/

/-- `byte_buffer_sink`: grpc/serialization.hpp 93-97. The contents of the slices are the
chunks of the archive. -/
structure BufSink where
  slices : List Nat
  remaining : Nat
  chunk : Nat
  deriving Repr, DecidableEq

/-- `std::numeric_limits<std::size_t>::max()`. -/
def sizeMax : Nat := 2 ^ 64 - 1

/-- `set_message_size`: 64-73. The reservation only matters for its division. -/
def BufSink.setSize (n : Nat) (s : BufSink) : Res BufSink :=
  if n ≠ 0 ∧ s.chunk ≠ sizeMax ∧ s.chunk = 0 then .ub
  else .ok { s with slices := [], remaining := n }

/-- `next_chunk`: 75-85. New slices are modelled as zeroed. -/
def BufSink.next (s : BufSink) : List Byte × BufSink :=
  if s.remaining = 0 then ([], s)
  else
    let n := min s.chunk s.remaining
    (List.replicate n 0, { s with slices := s.slices ++ [n], remaining := s.remaining - n })

/-- The sink operations of `byte_buffer_sink`. -/
def bufSink : Sink BufSink := ⟨BufSink.setSize, BufSink.next, BufSink.chunk⟩

/-- `write_binpb(message, ByteBuffer, ctx)`: 99-114. `decltype(ctx)` is a reference type, so
`is_contiguous` is computed with `isRef`. The result is the status and the buffer: the slices
of the sink (87-90; an empty chunk is not a slice), or the old buffer. -/
def grpcWrite (C : Cfg) (limit : Nat) (opt : Option Mode) (id : Nat) (m : Msg) (buffer : List (List Byte)) :
    Res (Option Err × List (List Byte)) := do
  let isContiguous := modeForContext true opt == .contiguous
  let (st, _, chunks) ← serializeSink bufSink C limit (modeForContext false opt) id m
    ⟨[], 0, if isContiguous then sizeMax else 1024 * 1024⟩
  match st with
  | none => .ok (none, chunks.filter (fun c => !c.isEmpty))
  | some e => .ok (some e, buffer)

end HppProto
