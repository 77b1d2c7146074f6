import Verif.Proofs.BufSink
import Verif.Props.Write
/-!
# Claims C14, C50, C53, C54: output sinks and gRPC buffers

Vocabulary (`Verif/Spec/Chunks.lean`): `handed S s k` are the first `k` chunks that sink `S`
hands out from state `s`, `after S s k` is its state then, `Poured original bytes chunks` says
that the chunks hold `bytes` from their beginning and are otherwise as they were handed out.
`writeBinpbSink S C limit mode id m s` is `write_binpb` to a sink in state `s` with an optional
mode option; its result is the status (`none` for success), the sink afterwards and the chunks
handed out, or `.ub` when memory outside of a chunk is written.
-/
namespace HppProto.Props
open HppProto HppProto.Spec

variable {σ : Type} (S : Sink σ)

/-- C14, chunked mode. Let `bytes` be what `write_binpb` to a container writes. If the sink
hands out non-empty chunks of sufficient total size, the chunks hold exactly `bytes`. If it runs
dry before, the write fails with `bad_message`, and what the chunks hold is a beginning of
`bytes`; nothing else in them changed. -/
theorem C14_chunked (C : Cfg) (hN : numbersOk C) (limit id : Nat) (m : Msg) (buf bytes : List Byte)
    (hl : (wire C limit id m).length < 2 ^ 64) (hw : writeBinpb C limit true id m buf = .ok (none, bytes))
    (s s1 : σ) (hs : S.setSize bytes.length s = .ok s1) :
    (∀ k, (∀ c ∈ handed S s1 k, c ≠ []) → bytes.length ≤ (handed S s1 k).flatten.length →
      ∃ j chunks, writeBinpbSink S C limit (some .chunked) id m s = .ok (none, after S s1 j, chunks) ∧
        Poured (handed S s1 j) bytes chunks) ∧
    (∀ k, (handed S s1 k).flatten.length < bytes.length → (∀ i, k ≤ i → (S.next (after S s1 i)).1 = []) →
      ∃ j chunks part, writeBinpbSink S C limit (some .chunked) id m s = .ok (some .badMessage, after S s1 j, chunks) ∧
        Poured (handed S s1 j) part chunks ∧ part <+: bytes) := by
  obtain ⟨rfl, hd, hu, hmax⟩ := (C09_written_bytes C hN limit id m buf hl).1 bytes hw
  obtain ⟨st, j, chunks, part, e, hp, hpre, hc⟩ := chunked_run (S := S) C hN s1 hd hmax
  have hE : (enc C (limit + 1) id m).length = (wire C limit id m).length := rfl
  have e' : writeBinpbSink S C limit (some .chunked) id m s = .ok (st, after S s1 j, chunks) := by
    rw [writeBinpbSink, sink_run C hN _ s hd hmax hs]; exact e
  constructor
  · intro k hne hroom
    rcases hc with ⟨rfl, rfl, _⟩ | ⟨_, hbad | ⟨hlt, i, hi, htot⟩⟩
    · exact ⟨j, chunks, e', hp⟩
    · exact absurd hu hbad
    · exfalso
      rcases Nat.lt_or_ge i k with h | h
      · exact hne _ (handed_mem s1 h) hi
      · have := handed_mono (S := S) s1 h
        omega
  · intro k hsmall hdry
    rcases hc with ⟨rfl, rfl, _⟩ | ⟨rfl, _⟩
    · exfalso
      have h2 := hp.2.1
      rcases Nat.lt_or_ge j k with h | h
      · have := handed_mono (S := S) s1 (Nat.le_of_lt h); omega
      · rw [handed_dry s1 h hdry] at h2; omega
    · exact ⟨j, chunks, part, e', hp, hpre⟩

/-- C14: in chunked mode no sink, however it chooses its chunks, makes the writer leave a chunk. -/
theorem C14_never_overruns (C : Cfg) (hN : numbersOk C) (limit id : Nat) (m : Msg)
    (hl : (wire C limit id m).length < 2 ^ 64) (s : σ) (hset : ∀ n, ∃ s1, S.setSize n s = .ok s1) :
    ∃ r, writeBinpbSink S C limit (some .chunked) id m s = .ok r := by
  by_cases hd : nests C (limit + 1) id m
  · by_cases hmax : maxMessageSize ≤ (wire C limit id m).length
    · exact ⟨_, sink_too_large C hN .chunked s hd hmax hl⟩
    · have hmax : (wire C limit id m).length < maxMessageSize := by omega
      obtain ⟨s1, hs⟩ := hset (wire C limit id m).length
      obtain ⟨st, j, chunks, part, e, _⟩ := chunked_run (S := S) C hN s1 hd hmax
      exact ⟨_, by rw [writeBinpbSink, sink_run C hN _ s hd hmax hs]; exact e⟩
  · exact ⟨_, sink_too_deep C .chunked s hd⟩

/-- C14: a message that cannot be written to a container cannot be written to a sink either, and
the status is the same, except that a sink may run dry before a refused string is reached (also
`bad_message`). -/
theorem C14_same_errors (C : Cfg) (hN : numbersOk C) (limit id : Nat) (m : Msg) (buf out : List Byte) (e : Err)
    (hl : (wire C limit id m).length < 2 ^ 64) (hw : writeBinpb C limit true id m buf = .ok (some e, out))
    (s : σ) (hset : ∀ n, ∃ s1, S.setSize n s = .ok s1) :
    ∃ s' chunks, writeBinpbSink S C limit (some .chunked) id m s = .ok (some e, s', chunks) := by
  by_cases hd : nests C (limit + 1) id m
  · by_cases hmax : maxMessageSize ≤ (wire C limit id m).length
    · rw [writeBinpb, write_too_large C hN true true buf hd hmax hl] at hw
      injection hw with hw; injection hw with hw _; injection hw with hw; subst hw
      exact ⟨_, _, sink_too_large C hN .chunked s hd hmax hl⟩
    · have hmax : (wire C limit id m).length < maxMessageSize := by omega
      obtain ⟨s1, hs⟩ := hset (wire C limit id m).length
      obtain ⟨st, j, chunks, part, h, _, _, hc⟩ := chunked_run (S := S) C hN s1 hd hmax
      have h' : writeBinpbSink S C limit (some .chunked) id m s = .ok (st, after S s1 j, chunks) := by
        rw [writeBinpbSink, sink_run C hN _ s hd hmax hs]; exact h
      by_cases hu : utf8Ok C isDefault (limit + 1) id m
      · rw [(C09_written_bytes C hN limit id m buf hl).2 hd hu hmax] at hw; cases hw
      · have hb := resize_grow (n := (wire C limit id m).length) buf hmax
        obtain ⟨b', e2, _⟩ := (write_ok C hN true true buf hd hmax hb (by rw [resizeTo_length]; exact Nat.le_refl _)).2 hu
        rw [writeBinpb, e2] at hw
        injection hw with hw; injection hw with hw _; injection hw with hw; subst hw
        rcases hc with ⟨_, _, hu'⟩ | ⟨rfl, _⟩
        · exact absurd hu' hu
        · exact ⟨_, _, h'⟩
  · rw [writeBinpb, write_too_deep C true true buf hd] at hw
    injection hw with hw; injection hw with hw _; injection hw with hw; subst hw
    exact ⟨_, _, sink_too_deep C .chunked s hd⟩

/-- C14, contiguous mode: when the first chunk has room, it holds exactly `bytes`. -/
theorem C14_contiguous (C : Cfg) (hN : numbersOk C) (limit id : Nat) (m : Msg) (buf bytes : List Byte)
    (hl : (wire C limit id m).length < 2 ^ 64) (hw : writeBinpb C limit true id m buf = .ok (none, bytes))
    (s s1 : σ) (hs : S.setSize bytes.length s = .ok s1) (hroom : bytes.length ≤ (S.next s1).1.length) :
    ∃ chunks, writeBinpbSink S C limit (some .contiguous) id m s = .ok (none, after S s1 1, chunks) ∧
      Poured (handed S s1 1) bytes chunks := by
  obtain ⟨rfl, hd, hu, hmax⟩ := (C09_written_bytes C hN limit id m buf hl).1 bytes hw
  obtain ⟨st, chunks, part, e, hp, hpre, hc⟩ := contiguous_run (S := S) C hN s1 hd hmax hroom
  have e' : writeBinpbSink S C limit (some .contiguous) id m s = .ok (st, after S s1 1, chunks) := by
    rw [writeBinpbSink, sink_run C hN _ s hd hmax hs]; exact e
  rcases hc with ⟨rfl, rfl, _⟩ | ⟨_, hbad⟩
  · exact ⟨chunks, e', hp⟩
  · exact absurd hu hbad

/-- C14, adaptive mode, for a sink whose first chunk is at least as large as the message
whenever `chunk_size()` says so: the chunks hold exactly `bytes`. -/
theorem C14_adaptive (C : Cfg) (hN : numbersOk C) (limit id : Nat) (m : Msg) (buf bytes : List Byte)
    (hl : (wire C limit id m).length < 2 ^ 64) (hw : writeBinpb C limit true id m buf = .ok (none, bytes))
    (s s1 : σ) (hs : S.setSize bytes.length s = .ok s1)
    (hsize : bytes.length ≤ S.chunkSize s1 → bytes.length ≤ (S.next s1).1.length)
    (k : Nat) (hne : ∀ c ∈ handed S s1 k, c ≠ []) (hroom : bytes.length ≤ (handed S s1 k).flatten.length) :
    ∃ j chunks, writeBinpbSink S C limit (some .adaptive) id m s = .ok (none, after S s1 j, chunks) ∧
      Poured (handed S s1 j) bytes chunks := by
  obtain ⟨e, hd, hu, hmax⟩ := (C09_written_bytes C hN limit id m buf hl).1 bytes hw
  by_cases h : bytes.length ≤ S.chunkSize s1
  · obtain ⟨chunks, h1, h2⟩ := C14_contiguous S C hN limit id m buf bytes hl hw s s1 hs (hsize h)
    refine ⟨1, chunks, ?_, h2⟩
    subst e
    rw [← h1, writeBinpbSink, writeBinpbSink, sink_run C hN _ s hd hmax hs, sink_run C hN _ s hd hmax hs]
    simp only [modeForContext, Bool.false_eq_true, if_false]
    rw [if_pos h]
  · obtain ⟨j, chunks, h1, h2⟩ := (C14_chunked S C hN limit id m buf bytes hl hw s s1 hs).1 k hne hroom
    refine ⟨j, chunks, ?_, h2⟩
    subst e
    rw [← h1, writeBinpbSink, writeBinpbSink, sink_run C hN _ s hd hmax hs, sink_run C hN _ s hd hmax hs]
    simp only [modeForContext, Bool.false_eq_true, if_false]
    rw [if_neg h]

/-- A sink that hands out the given memory, chunk by chunk, and claims 4096-byte chunks (the
sketch in docs/frontend_apis.md). -/
def listSink : Sink (List (List Byte)) where
  setSize _ s := .ok s
  next
    | [] => ([], [])
    | c :: cs => (c, cs)
  chunkSize _ := 4096

/-- Status and all bytes of the chunks, of a run that is defined. -/
def runOf {σ : Type} : SinkRes σ → Option (Option Err × List Byte)
  | .ok (st, _, chunks) => some (st, chunks.flatten)
  | _ => none

/-- Chunks of 7 bytes are enough for the 39 bytes of the demo message: the hypotheses of
`C14_chunked` and the result, with three bytes of the sixth chunk untouched. -/
example : let s := List.replicate 6 (List.replicate 7 (0xee : Byte))
    (∀ c ∈ handed listSink s 6, c ≠ []) ∧ (wire demoCfg 2 0 demoMsg).length ≤ (handed listSink s 6).flatten.length ∧
    runOf (writeBinpbSink listSink demoCfg 2 (some .chunked) 0 demoMsg s) =
      some (none, wire demoCfg 2 0 demoMsg ++ [0xee, 0xee, 0xee]) :=
  ⟨by decide +kernel, by decide +kernel, by decide +kernel⟩

/-- Four chunks of 7 bytes are not: the write fails after 28 bytes. -/
example : let s := List.replicate 4 (List.replicate 7 (0xee : Byte))
    runOf (writeBinpbSink listSink demoCfg 2 (some .chunked) 0 demoMsg s) =
      some (some .badMessage, (wire demoCfg 2 0 demoMsg).take 28) := by decide +kernel

/-- C53, the part that holds: without a mode option the result is right when the first chunk
has room for the message. Missing: the documented default is adaptive mode, which also works
when it has not; see `C53_default_overruns`. -/
theorem C53_default_partial (C : Cfg) (hN : numbersOk C) (limit id : Nat) (m : Msg) (buf bytes : List Byte)
    (hl : (wire C limit id m).length < 2 ^ 64) (hw : writeBinpb C limit true id m buf = .ok (none, bytes))
    (s s1 : σ) (hs : S.setSize bytes.length s = .ok s1) (hroom : bytes.length ≤ (S.next s1).1.length) :
    ∃ chunks, writeBinpbSink S C limit none id m s = .ok (none, after S s1 1, chunks) ∧
      Poured (handed S s1 1) bytes chunks :=
  C14_contiguous S C hN limit id m buf bytes hl hw s s1 hs hroom

/-- C53 fails: without a mode option, a first chunk smaller than the message is overrun, for every
message and sink. -/
theorem C53_default_overruns (C : Cfg) (hN : numbersOk C) (limit id : Nat) (m : Msg) (buf bytes : List Byte)
    (hl : (wire C limit id m).length < 2 ^ 64) (hw : writeBinpb C limit true id m buf = .ok (none, bytes))
    (s s1 : σ) (hs : S.setSize bytes.length s = .ok s1) (hroom : (S.next s1).1.length < bytes.length) :
    writeBinpbSink S C limit none id m s = .ub := by
  obtain ⟨rfl, hd, hu, hmax⟩ := (C09_written_bytes C hN limit id m buf hl).1 bytes hw
  rw [writeBinpbSink, sink_run C hN _ s hd hmax hs]
  exact contiguous_overrun C hN s1 hd hmax hu hroom

/-- The same sink and message in both modes: the default overruns, the explicit option works. -/
example : let s := List.replicate 6 (List.replicate 7 (0xee : Byte))
    writeBinpbSink listSink demoCfg 2 none 0 demoMsg s = .ub ∧
    runOf (writeBinpbSink listSink demoCfg 2 (some .chunked) 0 demoMsg s) =
      some (none, wire demoCfg 2 0 demoMsg ++ [0xee, 0xee, 0xee]) :=
  ⟨by decide +kernel, by decide +kernel⟩

/-! ## gRPC -/

theorem buf_result {s1 : BufSink} {bytes : List Byte} (hc : 0 < s1.chunk) (hrem : s1.remaining = bytes.length)
    {j : Nat} {chunks : List (List Byte)} (hp : Poured (handed bufSink s1 j) bytes chunks) :
    chunks.flatten = bytes ∧ (∀ c ∈ chunks, c.length ≤ s1.chunk) ∧
    (after bufSink s1 j).slices = s1.slices ++ (chunks.map List.length).filter (fun n => n != 0) := by
  obtain ⟨h1, h2⟩ := bufHanded j s1
  have htot : (handed bufSink s1 j).flatten.length = bytes.length := by have := hp.2.1; omega
  refine ⟨?_, ?_, ?_⟩
  · rw [hp.2.2, ← htot, List.drop_length, List.append_nil]
  · intro c hcm
    have : c.length ∈ chunks.map List.length := List.mem_map_of_mem hcm
    rw [hp.1] at this
    obtain ⟨c', hc', he⟩ := List.mem_map.1 this
    rw [← he]; exact h1 c' hc'
  · rw [hp.1]; exact bufSlices j s1 hc

/-- C50 for `byte_buffer_sink` with any positive chunk size, in chunked and adaptive mode: the
slices together are the contiguous encoding, none is longer than the chunk size, and the sizes of
the slices kept by the sink add up to the announced size. -/
theorem C50_sink (C : Cfg) (hN : numbersOk C) (limit id : Nat) (m : Msg) (buf bytes : List Byte)
    (hl : (wire C limit id m).length < 2 ^ 64) (hw : writeBinpb C limit true id m buf = .ok (none, bytes))
    (s : BufSink) (hc : 0 < s.chunk) (mode : Mode) (hmode : mode ≠ .contiguous) :
    ∃ s' slices, writeBinpbSink bufSink C limit (some mode) id m s = .ok (none, s', slices) ∧
      slices.flatten = bytes ∧ (∀ c ∈ slices, c.length ≤ s.chunk) ∧
      s'.slices = (slices.map List.length).filter (fun n => n != 0) ∧ s'.slices.sum = bytes.length := by
  have hs : bufSink.setSize bytes.length s = .ok { s with slices := [], remaining := bytes.length } := by
    show BufSink.setSize _ _ = _
    rw [BufSink.setSize, if_neg (by omega)]
  obtain ⟨k, hne, hroom⟩ := bufEnough _ { s with slices := [], remaining := bytes.length } rfl hc
  have key : ∃ j chunks, writeBinpbSink bufSink C limit (some mode) id m s = .ok (none,
      after bufSink { s with slices := [], remaining := bytes.length } j, chunks) ∧
      Poured (handed bufSink { s with slices := [], remaining := bytes.length } j) bytes chunks := by
    cases mode with
    | contiguous => exact absurd rfl hmode
    | chunked => exact (C14_chunked bufSink C hN limit id m buf bytes hl hw s _ hs).1 k hne hroom
    | adaptive =>
      refine C14_adaptive bufSink C hN limit id m buf bytes hl hw s _ hs ?_ k hne hroom
      intro h
      show _ ≤ (BufSink.next _).1.length
      rw [bufNext_len]
      exact Nat.le_min.2 ⟨h, Nat.le_refl _⟩
  obtain ⟨j, chunks, e, hp⟩ := key
  obtain ⟨r1, r2, r3⟩ := buf_result (s1 := { s with slices := [], remaining := bytes.length }) hc rfl hp
  have hfil : ∀ l : List Nat, (l.filter (fun n => n != 0)).sum = l.sum := by
    intro l
    induction l with
    | nil => rfl
    | cons a l ih =>
      rw [List.filter_cons]
      split
      · simp [ih]
      · next h => simp at h; simp [ih, h]
  refine ⟨_, chunks, e, r1, r2, by rw [r3, List.nil_append], ?_⟩
  rw [r3, List.nil_append, hfil, ← List.length_flatten, r1]

/-- The demo message through an 8-byte sink: five slices. -/
example : (match writeBinpbSink bufSink demoCfg 2 (some .adaptive) 0 demoMsg ⟨[], 0, 8⟩ with
    | .ok (none, s', slices) => s'.slices == [8, 8, 8, 8, 7] && slices.flatten == wire demoCfg 2 0 demoMsg
    | _ => false) = true := by decide +kernel

/-- C50 for `write_binpb` to a `grpc::ByteBuffer`, with or without mode option: it succeeds
exactly when `write_binpb` to a container does; then the buffer is the encoding (as one slice,
or none when it is empty), otherwise it is untouched. -/
theorem C50_grpc (C : Cfg) (hN : numbersOk C) (limit id : Nat) (m : Msg) (opt : Option Mode) (buffer : List (List Byte))
    (hl : (wire C limit id m).length < 2 ^ 64) :
    (∀ buf bytes, writeBinpb C limit true id m buf = .ok (none, bytes) →
      grpcWrite C limit opt id m buffer = .ok (none, if bytes = [] then [] else [bytes])) ∧
    (∀ buf out e, writeBinpb C limit true id m buf = .ok (some e, out) →
      ∃ e', grpcWrite C limit opt id m buffer = .ok (some e', buffer)) := by
  have hset : ∀ n, bufSink.setSize n ⟨[], 0, sizeMax⟩ = .ok ⟨[], n, sizeMax⟩ := by
    intro n
    show BufSink.setSize _ _ = _
    rw [BufSink.setSize, if_neg (by simp)]
  have unf : ∀ st s' ch, writeBinpbSink bufSink C limit opt id m ⟨[], 0, sizeMax⟩ = .ok (st, s', ch) →
      grpcWrite C limit opt id m buffer = match st with
        | none => .ok (none, ch.filter (fun c => !c.isEmpty))
        | some e => .ok (some e, buffer) := by
    intro st s' ch h
    rw [writeBinpbSink] at h
    rw [grpcWrite]
    simp only [modeForContext, if_true, beq_self_eq_true] at h ⊢
    rw [h]; rfl
  have big : maxMessageSize < sizeMax := by decide
  constructor
  · intro buf bytes hw
    have hs := hset bytes.length
    obtain ⟨e, hd, hu, hmax⟩ := (C09_written_bytes C hN limit id m buf hl).1 bytes hw
    have hlt : bytes.length < maxMessageSize := by rw [e]; exact hmax
    have hfirst : (bufSink.next ⟨[], bytes.length, sizeMax⟩).1.length = bytes.length := by
      show (BufSink.next _).1.length = _
      rw [bufNext_len]; simp only; omega
    have hcont := C14_contiguous bufSink C hN limit id m buf bytes hl hw _ _ hs (by rw [hfirst]; exact Nat.le_refl _)
    have key : ∃ j chunks, writeBinpbSink bufSink C limit opt id m ⟨[], 0, sizeMax⟩ = .ok (none,
        after bufSink ⟨[], bytes.length, sizeMax⟩ j, chunks) ∧
        Poured (handed bufSink ⟨[], bytes.length, sizeMax⟩ j) bytes chunks := by
      obtain ⟨k, hne, hroom⟩ := bufEnough _ ⟨[], bytes.length, sizeMax⟩ rfl (show 0 < sizeMax by decide)
      cases opt with
      | none => obtain ⟨ch, h⟩ := hcont; exact ⟨1, ch, h⟩
      | some mode =>
        cases mode with
        | contiguous => obtain ⟨ch, h⟩ := hcont; exact ⟨1, ch, h⟩
        | chunked => exact (C14_chunked bufSink C hN limit id m buf bytes hl hw _ _ hs).1 k hne hroom
        | adaptive =>
          exact C14_adaptive bufSink C hN limit id m buf bytes hl hw _ _ hs (fun _ => by rw [hfirst]; exact Nat.le_refl _)
            k hne hroom
    obtain ⟨j, chunks, h1, h2⟩ := key
    rw [unf _ _ _ h1]
    simp only
    congr 2
    obtain ⟨r1, _, _⟩ := buf_result (by decide : 0 < sizeMax) rfl h2
    cases j with
    | zero =>
      have hl0 : bytes.length ≤ 0 := h2.2.1
      have hb : bytes = [] := List.length_eq_zero_iff.1 (by omega)
      have hc : chunks.map List.length = [] := h2.1
      rw [List.map_eq_nil_iff] at hc
      simp [hb, hc]
    | succ j =>
      have hdry : ∀ j (s : BufSink), s.remaining = 0 → ∀ c ∈ (handed bufSink s j), c.length = 0 := by
        intro j
        induction j with
        | zero => intro s _ c h; cases h
        | succ j ih =>
          intro s hs c h
          have e2 : BufSink.next s = ([], s) := by rw [BufSink.next, if_pos hs]
          have h : c ∈ (BufSink.next s).1 :: handed bufSink (BufSink.next s).2 j := h
          rw [e2] at h
          rcases List.mem_cons.1 h with rfl | h
          · rfl
          · exact ih s hs c h
      cases chunks with
      | nil => exact absurd h2.1 (by simp [handed])
      | cons c cs =>
        have h21 : c.length :: cs.map List.length = (bufSink.next ⟨[], bytes.length, sizeMax⟩).1.length ::
          (handed bufSink (bufSink.next ⟨[], bytes.length, sizeMax⟩).2 j).map List.length := h2.1
        rw [hfirst] at h21
        injection h21 with hcl hcs
        have hz : ∀ x ∈ cs, x = [] := by
          intro x hx
          have : x.length ∈ cs.map List.length := List.mem_map_of_mem hx
          rw [hcs] at this
          obtain ⟨y, hy, hyl⟩ := List.mem_map.1 this
          have hr : (bufSink.next ⟨[], bytes.length, sizeMax⟩).2.remaining = 0 := by
            show (BufSink.next _).2.remaining = _
            rw [bufNext_rem]; simp only; rw [Nat.min_eq_right (by omega)]; omega
          have := hdry j _ hr y hy
          exact List.length_eq_zero_iff.1 (by omega)
        have hcse : cs.flatten = [] := by
          rw [List.flatten_eq_nil_iff]; exact hz
        rw [List.flatten_cons, hcse, List.append_nil] at r1
        have hf : cs.filter (fun c => !c.isEmpty) = [] := by
          rw [List.filter_eq_nil_iff]; intro x hx; rw [hz x hx]; simp
        rw [List.filter_cons, hf, r1]
        by_cases hb : bytes = []
        · simp [hb]
        · simp [hb]
  · intro buf out e hw
    by_cases hd : nests C (limit + 1) id m
    · by_cases hmax : maxMessageSize ≤ (wire C limit id m).length
      · exact ⟨_, unf _ _ _ (sink_too_large C hN _ _ hd hmax hl)⟩
      · have hmax : (wire C limit id m).length < maxMessageSize := by omega
        have hu : ¬ utf8Ok C isDefault (limit + 1) id m := by
          intro hu
          rw [(C09_written_bytes C hN limit id m buf hl).2 hd hu hmax] at hw; cases hw
        have hs := hset (wire C limit id m).length
        have hfirst : (bufSink.next ⟨[], (wire C limit id m).length, sizeMax⟩).1.length = (wire C limit id m).length := by
          show (BufSink.next _).1.length = _
          rw [bufNext_len]; simp only; omega
        obtain ⟨st, ch, part, h1, _, _, hc1⟩ := contiguous_run (S := bufSink) C hN _ hd hmax (by rw [hfirst]; exact Nat.le_refl _)
        obtain ⟨st2, j, ch2, part2, h2, _, _, hc2⟩ := chunked_run (S := bufSink) C hN
          ⟨[], (wire C limit id m).length, sizeMax⟩ hd hmax
        rcases hc1 with ⟨_, _, hu'⟩ | ⟨rfl, _⟩
        · exact absurd hu' hu
        rcases hc2 with ⟨_, _, hu'⟩ | ⟨rfl, _⟩
        · exact absurd hu' hu
        refine ⟨.badMessage, ?_⟩
        have hrun := sink_run (S := bufSink) C hN (modeForContext false opt) _ hd hmax hs
        simp only at hrun
        rw [h1, h2] at hrun
        cases hm : modeForContext false opt with
        | contiguous => exact unf (some .badMessage) _ _ (by rw [writeBinpbSink, hrun, hm])
        | chunked => exact unf (some .badMessage) _ _ (by rw [writeBinpbSink, hrun, hm])
        | adaptive =>
          by_cases hle : (enc C (limit + 1) id m).length ≤ bufSink.chunkSize ⟨[], (wire C limit id m).length, sizeMax⟩
          · exact unf (some .badMessage) _ _ (by rw [writeBinpbSink, hrun, hm]; simp only; rw [if_pos hle])
          · exact unf (some .badMessage) _ _ (by rw [writeBinpbSink, hrun, hm]; simp only; rw [if_neg hle])
    · exact ⟨_, unf _ _ _ (sink_too_deep C _ _ hd)⟩

example : grpcWrite demoCfg 2 (some .chunked) 0 demoMsg [] = .ok (none, [wire demoCfg 2 0 demoMsg]) := by decide +kernel

/-- C54 fails: chunked mode is asked for, the message is longer than the adapter's 1 MiB chunk
size, and the buffer is still a single slice, for every such message. The context type that
`write_binpb` inspects is a reference, so it always takes the contiguous chunk size. -/
theorem C54_single_slice (C : Cfg) (hN : numbersOk C) (limit id : Nat) (m : Msg) (buf bytes : List Byte)
    (hl : (wire C limit id m).length < 2 ^ 64) (hw : writeBinpb C limit true id m buf = .ok (none, bytes))
    (hbig : 1024 * 1024 < bytes.length) :
    grpcWrite C limit (some .chunked) id m [] = .ok (none, [bytes]) := by
  have := (C50_grpc C hN limit id m (some .chunked) [] hl).1 buf bytes hw
  rw [this, if_neg (by intro h; subst h; simp at hbig)]

/-- There are such messages. -/
example : ∃ m bytes, writeBinpb bytesCfg 100 true 0 m [] = .ok (none, bytes) ∧ 1024 * 1024 < bytes.length := by
  have main : ∀ b : Val, b.str.length = 2 ^ 21 → ∃ m bytes, writeBinpb bytesCfg 100 true 0 m [] = .ok (none, bytes) ∧
      1024 * 1024 < bytes.length := by
    intro b hb
    have hl : (wire bytesCfg 100 0 ⟨[[b].map (fun v => (0, v))], []⟩).length = 2 ^ 21 + 5 := by
      have h1 : (leb (2 ^ 21)).length = 4 := by decide +kernel
      have h2 : (tag 1 2).length = 1 := by decide +kernel
      rw [bytes_wire]
      simp only [List.flatMap_cons, List.flatMap_nil, List.length_append, hb, h1, h2, List.length_nil]
    refine ⟨_, _, (C09_written_bytes bytesCfg ?_ 100 0 _ [] ?_).2 (bytes_nests 100 [b]) ?_ ?_, ?_⟩
    · intro id sd h; simp [bytesCfg] at h; subst h; simp
    · rw [hl]; decide
    · rw [utf8Ok]
      intro p hp e _ k hk _
      simp [bytesCfg] at hp
      subst hp
      simp [kindOf] at hk
      subst hk
      exact ⟨fun _ => rfl, trivial⟩
    · rw [hl]; decide
    · rw [hl]; decide
  exact main (.bytes (List.replicate (2 ^ 21) 0)) List.length_replicate

end HppProto.Props
