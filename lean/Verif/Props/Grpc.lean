import Verif.Proofs.Reactor
import Verif.Props.Regions
/-!
# Claims C68–C70: calls and RPCs through the gRPC adapter

`asyncUnary C reqId req limit id response st reply` (`Verif/Model/GrpcClient.lean`) is a callback
call of a unary method: the request `req` of type `reqId` is written and sent, gRPC ends the call
with status `st` and, if that is OK, the bytes `reply`, which are read into `response`, a message
of type `id`. The result lists the calls of the user's callback.

`serve M C limit id H es` (`Verif/Model/GrpcServer.lean`) is an RPC on the server: `H` is the
user's handler, an arbitrary state machine, and `es` is the schedule, the list of the events that
gRPC reports. Its result is the trace of the RPC. `judge` (`Verif/Spec/Reactor.lean`) is a referee
who reads the trace and names the party who first broke the rules: gRPC, the handler or the
library. `encoding` is what `write_binpb` to an empty container writes.
-/
namespace HppProto.Props
open HppProto HppProto.Spec

/-! ## C68 -/

/-- What the user must observe of a unary call that gRPC ended: the status that the callback gets
and the response afterwards (`none`: its contents are not specified). -/
def unaryOutcome (C : Cfg) (limit id : Nat) (response : Msg) (st : Status) (reply : Packet) : Status × Option Msg :=
  if st ≠ .ok then (st, some response)
  else match reply with
    | .compressed => (.invalidArgument, some response)
    | .slices segs =>
      match readBinpb C limit id response segs.flatten with
      | .ok m => (.ok, some m)
      | _ => (.internal, none)

theorem get_outcome (C : Cfg) (hC : noClosedOneof C) (limit id : Nat) (response : Msg) (reply : Packet) :
    grpcGet C limit id response reply = .ok (unaryOutcome C limit id response .ok reply) := by
  cases reply with
  | compressed => rfl
  | slices segs =>
    rw [unaryOutcome, if_neg (by simp)]
    rw [grpcGet]
    obtain ⟨⟨h1, h2, h3⟩, h4⟩ := segments_agree C limit id response segs
    show (match readSegments C limit id response segs with
      | .ok m => .ok (.ok, some m)
      | .err _ => .ok (.internal, none)
      | .ub => .ub
      | .throw => .throw
      | .stuck => .stuck : Res (Status × Option Msg)) = .ok (match readBinpb C limit id response segs.flatten with
        | .ok m => (.ok, some m)
        | _ => (.internal, none))
    cases h : readSegments C limit id response segs with
    | ok m => rw [(h4 m).1 h]
    | err e =>
      obtain ⟨e', he⟩ := (C16_status C hC limit id response segs).1 ⟨e, h⟩
      rw [he]
    | throw => exact absurd (h3 h) ((noClosed_iff C).1 hC)
    | ub => exact absurd h h1
    | stuck => exact absurd h h2

theorem done_outcome (C : Cfg) (hC : noClosedOneof C) (limit id : Nat) (response : Msg) (st : Status) (reply : Packet)
    (c : UnaryCall) (ha : c.alive = true) (hr : c.response = some response) :
    c.onDone C limit id reply st = .ok { c with
      response := (unaryOutcome C limit id response st reply).2,
      callbacks := c.callbacks ++ [(unaryOutcome C limit id response st reply).1], alive := !c.owned } := by
  obtain ⟨owned, alive, created, request, resp, callbacks, sent⟩ := c
  subst ha hr
  cases st with
  | ok =>
    show (do
      let (rs, m) ← grpcGet C limit id response reply
      .ok { owned := owned, alive := !owned, created := created, request := request, response := m,
            callbacks := callbacks ++ [rs], sent := sent } : Res UnaryCall) = _
    rw [get_outcome C hC]
    rfl
  | _ => rfl

/-- C68. If the request can be written, then whatever status and reply gRPC ends the call with,
the request that is sent is its encoding, the callback is called exactly once, with the status of
the call, or INTERNAL if the reply cannot be read, the response is then the message read (and is
untouched if the call failed), and the reactor is deleted. Missing from the full claim: a request
that cannot be written (see the next theorem); closed-enum members of oneofs in the response,
which make the reader throw (`C18_throws`). -/
theorem C68_callback_partial (C : Cfg) (hN : numbersOk C) (hC : noClosedOneof C) (reqId : Nat) (req : Msg)
    (hl : (wire C 100 reqId req).length < 2 ^ 64) (bytes : List Byte) (hw : encoding C 100 reqId req = some bytes)
    (limit id : Nat) (response : Msg) (st : Status) (reply : Packet) :
    ∃ c, asyncUnary C reqId req limit id response st reply = .ok c ∧ c.sent.map List.flatten = [bytes] ∧
      c.callbacks = [(unaryOutcome C limit id response st reply).1] ∧
      c.response = (unaryOutcome C limit id response st reply).2 ∧ c.alive = false := by
  obtain ⟨e, out, hwr⟩ := C08_no_ub C hN 100 reqId req true [] hl
  have he : e = none ∧ out = bytes := by
    rw [encoding, hwr] at hw
    cases e with
    | none => exact ⟨rfl, by cases hw; rfl⟩
    | some e => cases hw
  obtain ⟨rfl, rfl⟩ := he
  have hp : grpcPut C 100 none reqId req [] = .ok (.ok, if out = [] then [] else [out]) := by
    rw [grpcPut, (C50_grpc C hN 100 reqId req none [] hl).1 [] out hwr]; rfl
  have hd := done_outcome C hC limit id response st reply
    { owned := true, created := true, response := some response, request := (if out = [] then [] else [out]),
      sent := [if out = [] then [] else [out]] } rfl rfl
  have e1 : asyncUnary C reqId req limit id response st reply = .ok
      { owned := true, alive := false, created := true, request := (if out = [] then [] else [out]),
        response := (unaryOutcome C limit id response st reply).2,
        callbacks := [(unaryOutcome C limit id response st reply).1],
        sent := [if out = [] then [] else [out]] } := by
    rw [asyncUnary, UnaryCall.prepare, hp]
    exact hd
  refine ⟨_, e1, ?_, rfl, rfl, rfl⟩
  · show [List.flatten (if out = [] then [] else [out])] = [out]
    by_cases h : out = []
    · subst h; rfl
    · rw [if_neg h]; simp

/-- C68 fails for a request that cannot be written: `async_call` reports the failure through
`OnDone`, which calls the callback and deletes the reactor, and then starts the call on the
deleted reactor, which would be undefined even if the call had been made. With a reactor of the
user, which is not deleted, `start_call()` uses a call that was never made. -/
theorem C68_bad_request (C : Cfg) (hN : numbersOk C) (reqId : Nat) (req : Msg)
    (hl : (wire C 100 reqId req).length < 2 ^ 64) (hw : encoding C 100 reqId req = none)
    (limit id : Nat) (response : Msg) (st : Status) (reply : Packet) :
    (∃ c, UnaryCall.prepare C none 100 reqId req limit id { owned := true, response := some response } = .ok c ∧
      c.callbacks = [.internal] ∧ c.alive = false ∧ ({ c with created := true } : UnaryCall).startCall = .ub) ∧
    asyncUnary C reqId req limit id response st reply = .ub ∧
    asyncReactor C reqId req limit id response st reply = .ub := by
  obtain ⟨e, out, hwr⟩ := C08_no_ub C hN 100 reqId req true [] hl
  have hp : grpcPut C 100 none reqId req [] = .ok (.internal, []) := by
    cases e with
    | none => rw [encoding, hwr] at hw; cases hw
    | some e =>
      obtain ⟨e', h⟩ := (C50_grpc C hN 100 reqId req none [] hl).2 [] out e hwr
      rw [grpcPut, h]; rfl
  have e1 : UnaryCall.prepare C none 100 reqId req limit id { owned := true, response := some response } =
      .ok { owned := true, alive := false, response := some response, callbacks := [.internal] } := by
    rw [UnaryCall.prepare, hp]; rfl
  refine ⟨⟨_, e1, rfl, rfl, rfl⟩, ?_, ?_⟩
  · rw [asyncUnary, UnaryCall.prepare, hp]; rfl
  · rw [asyncReactor, UnaryCall.prepare, hp]; rfl

/-- A reply cut into two slices; one that cannot be read; a call that failed. -/
example : (∃ c, asyncUnary demoCfg 0 demoMsg 2 0 ⟨[], []⟩ .ok (.slices [[0x08], [0x05]]) = .ok c ∧
      c.callbacks = [.ok] ∧ (c.response.map (fun m => (m.slots.headD []).map (fun v => v.2.bits))) = some [5#64]) ∧
    (∃ c, asyncUnary demoCfg 0 demoMsg 2 0 ⟨[], []⟩ .ok (.slices [[0x08]]) = .ok c ∧ c.callbacks = [.internal]) ∧
    (∃ c, asyncUnary demoCfg 0 demoMsg 2 0 ⟨[], []⟩ (.other 14) (.slices []) = .ok c ∧ c.callbacks = [.other 14]) := by
  refine ⟨⟨_, by with_unfolding_all rfl, rfl, by decide +kernel⟩, ⟨_, by with_unfolding_all rfl, rfl⟩, ⟨_, by with_unfolding_all rfl, rfl⟩⟩

/-- A request whose string is not UTF-8. -/
example : encoding demoCfg 100 0 ⟨[[(0, .num 0)], [(0, .bytes [0xff])], [], [], [], []], []⟩ = none ∧
    (encoding demoCfg 100 0 demoMsg).isSome = true := by
  refine ⟨by decide +kernel, by decide +kernel⟩

/-! ## C69 -/

variable {σ : Type} (H : Handler σ)

/-- C69 for unary, client-streaming and server-streaming methods. For every handler and every
schedule, the library is never the first to break the rules: it never finishes an RPC twice,
never starts a read or a write when one is in flight, and starts nothing after the end. If nobody
broke a rule, an RPC that the handler finished or left to the framework has been finished.
Missing from the full claim: methods that stream both ways (the next theorems). -/
theorem C69_rules_partial (M : Method) (hM : M.clientStreaming = false ∨ M.serverStreaming = false) (C : Cfg)
    (limit id : Nat) (es : List Event) (r : Reactor σ) (h : serve M C limit id H es = .ok r) :
    judge M r.trace ≠ .library ∧
    ∀ s, judge M r.trace = .fine s → s.done = true ∨ s.left = true → s.finished = true := by
  have hf : M.fits false = true := by
    rw [Method.fits]; rcases hM with h | h <;> rw [h] <;> simp
  have hg := serve_good hf h (fun hs => by cases hs)
  refine ⟨fun hl => (by rw [hl] at hg; cases hg), ?_⟩
  intro s hs hd
  rw [hs] at hg
  replace hg : settled M false s = true := hg
  simp only [settled, imp, Bool.and_eq_true, Bool.or_eq_true, Bool.not_eq_true'] at hg
  rcases hd with hd | hd
  · rcases hg.1.1.2 with h | h
    · rw [hd] at h; cases h
    · exact h.1
  · rcases hg.1.2 with h | h
    · rw [hd] at h; cases h
    · exact h.1.1

/-- C69 for every method, in particular those that stream both ways: the same if the handler
handles every end of the stream itself and all its replies can be encoded. -/
theorem C69_both_ways_partial (M : Method) (C : Cfg) (hN : numbersOk C) (limit id : Nat) (es : List Event)
    (r : Reactor σ) (h : serve M C limit id H es = .ok r) (hans : .answer false ∉ r.trace)
    (henc : ∀ m ∈ replies r.trace, (wire C limit id m).length < 2 ^ 64 ∧ (encoding C limit id m).isSome = true) :
    judge M r.trace ≠ .library ∧ ∀ s, judge M r.trace = .fine s → s.done = true → s.finished = true := by
  have hf : M.fits true = true := by simp [Method.fits]
  have hg := serve_good hf h (fun _ => ⟨hans, fun m s b hm hp => by
    have hm' : m ∈ replies r.trace := List.mem_filterMap.2 ⟨_, hm, rfl⟩
    obtain ⟨h1, h2⟩ := henc m hm'
    rcases put_encoding hN h1 hp with ⟨rfl, -⟩ | ⟨-, he⟩
    · rfl
    · rw [he] at h2; cases h2⟩)
  refine ⟨fun hl => (by rw [hl] at hg; cases hg), ?_⟩
  intro s hs hd
  rw [hs] at hg
  replace hg : settled M true s = true := hg
  simp only [settled, imp, Bool.and_eq_true, Bool.or_eq_true, Bool.not_eq_true'] at hg
  rcases hg.1.1.2 with h | h
  · rw [hd] at h; cases h
  · exact h.1

/-- A handler for a method that streams both ways, without any optional callback. It starts a
read and writes `reply`; after that it only reads on. -/
def plainHandler (reply : Msg) : Handler Unit where
  start := ((), [.startRead, .write reply])
  readOk _ _ := ((), [.startRead])
  readEof := none
  readCancel := none
  writeOk _ := ((), [])
  writeError := none
  cancel _ := ((), [])
  poke _ _ := ((), [])

/-- C69 fails for methods that stream both ways. The client goes away: the read ends and the
write fails. The handler has no optional callbacks, so the framework finishes the RPC for the
read, and again for the write. -/
theorem C69_finished_twice : ∃ r, serve ⟨true, true⟩ demoCfg 100 0 (plainHandler demoMsg)
      [.readEnd true true, .writeFail true] = .ok r ∧ judge ⟨true, true⟩ r.trace = .library ∧
    (told r.trace).filter (fun t => t = .finish .cancelled) = [.finish .cancelled, .finish .cancelled] := by
  refine ⟨_, by with_unfolding_all rfl, by decide +kernel, by decide +kernel⟩

/-- C69 fails as well for a reply that cannot be encoded: `write` finishes the RPC, and the read
that is still in flight then ends, which finishes it again. -/
theorem C69_bad_reply : ∃ r, serve ⟨true, true⟩ demoCfg 100 0
      (plainHandler ⟨[[(0, .num 0)], [(0, .bytes [0xff])], [], [], [], []], []⟩) [.readEnd false false] = .ok r ∧
    judge ⟨true, true⟩ r.trace = .library ∧
    told r.trace = [.read, .finish .internal, .finish .ok] := by
  refine ⟨_, by with_unfolding_all rfl, by decide +kernel, by decide +kernel⟩

/-- A client-streaming handler that counts the requests and replies at the end. -/
def countHandler : Handler Nat where
  start := (0, [.startRead])
  readOk _ n := (n + 1, [.startRead])
  readEof := some (fun n => (n, [.finishReply ⟨[[(0, .num n)], [], [], [], [], []], []⟩ .ok], true))
  readCancel := none
  writeOk n := (n, [])
  writeError := none
  cancel n := (n, [])
  poke _ n := (n, [])

/-- Two requests and the end of the stream; two requests and a cancellation. Nobody breaks a
rule, and the RPC is over. -/
example : (∃ r, serve ⟨true, false⟩ demoCfg 100 0 countHandler
      [.readOk [], .readOk [], .readEnd false false, .done] = .ok r ∧
      judge ⟨true, false⟩ r.trace = .fine { finished := true, over := true, done := true, acted := true } ∧
      told r.trace = [.read, .read, .read, .finishWith [0x08, 0x02] .ok]) ∧
    (∃ r, serve ⟨true, false⟩ demoCfg 100 0 countHandler [.readOk [], .cancel, .readEnd true true, .done] = .ok r ∧
      judge ⟨true, false⟩ r.trace = .fine { finished := true, over := true, left := true } ∧
      told r.trace = [.read, .read, .finish .cancelled]) := by
  refine ⟨⟨_, by with_unfolding_all rfl, by decide +kernel, by decide +kernel⟩,
    ⟨_, by with_unfolding_all rfl, by decide +kernel, by decide +kernel⟩⟩

/-- A handler of both ways that handles every end. -/
example : ∃ r, serve ⟨true, true⟩ demoCfg 100 0
      { plainHandler demoMsg with
        writeError := some (fun _ => ((), [], true)), readCancel := some (fun _ => ((), [], true)) }
      [.readOk [], .writeFail true, .readEnd true true] = .ok r ∧
    (∃ s, judge ⟨true, true⟩ r.trace = .fine s) ∧ (replies r.trace).length = 1 := by
  refine ⟨_, by with_unfolding_all rfl, ⟨_, by with_unfolding_all rfl⟩, by decide +kernel⟩

/-! ## C70 -/

/-- C70. For every handler and every schedule, every event reaches the handler's callback for it
(`script`), in order, and gRPC is told exactly what the requests of the handler and the events
left to the framework amount to (`due`), in that order: every reply as its encoding, INTERNAL for
a reply that cannot be encoded, and for an event left to the framework CANCELLED if the RPC was
cancelled, otherwise OK at the end of the stream and UNKNOWN after a failed write. -/
theorem C70_told (M : Method) (C : Cfg) (hN : numbersOk C) (limit id : Nat) (es : List Event) (r : Reactor σ)
    (h : serve M C limit id H es = .ok r)
    (hl : ∀ m ∈ replies (script H es), (wire C limit id m).length < 2 ^ 64) :
    r.trace.filter Entry.notCall = script H es ∧ told r.trace = due M C limit id .cancel (script H es) := by
  have hs := serve_script h
  refine ⟨hs, ?_⟩
  rw [← hs, replies_notCall] at hl
  rw [← hs, due_notCall]
  exact paid_serve hN h hl

/-- C69, C70: the hypothesis `serve ... = .ok r` is met. For every handler and every schedule the
reactor gets to the end of the schedule, unless the handler gives a reply of 2^64 bytes or more. -/
theorem C70_runs (M : Method) (C : Cfg) (hN : numbersOk C) (limit id : Nat) (es : List Event)
    (hl : ∀ a, CanAsk H a → ∀ m ∈ replies [.act a], (wire C limit id m).length < 2 ^ 64) :
    ∃ r, serve M C limit id H es = .ok r := serve_total hN hl es

end HppProto.Props
