import Verif.Model.GrpcClient
/-!
Server side of the gRPC adapter (include/hpp_proto/grpc/server.hpp): `ServerRPC` (49-257),
`BasicServerReactor` (260-341) and `ServerReactor` (343-402).

The user's handler is a parameter: any state machine. So is gRPC: a run is driven by a list of
events, the calls that gRPC makes into the reactor, in any order. What the reactor does is
recorded as a trace: the events, what the handler asked for, and the calls into gRPC. Callbacks
of one reactor are taken to run one after the other (a handler that acts from its own threads
does so between them, by `poke`). Metadata, write options and the text of a status are left out.
-/
namespace HppProto

/-- `Method::client_streaming` and `Method::server_streaming`. -/
structure Method where
  clientStreaming : Bool
  serverStreaming : Bool
  deriving Repr, DecidableEq

/-- What a handler can ask of its `ServerRPC`. -/
inductive Act where
  /-- `start_read()`: 100, 198. -/
  | startRead
  /-- `write(reply, ...)`: 130-146, 203-219. -/
  | write (reply : Msg)
  /-- `write(ByteBuffer, ...)`: 148-151, 221-224. -/
  | writeRaw (reply : List (List Byte))
  /-- `finish(status)`: 63, 103, 128, 201. -/
  | finish (s : Status)
  /-- `finish(reply, ..., status)`: 65-79, 105-111, 153-176, 226-250. -/
  | finishReply (reply : Msg) (s : Status)
  /-- `finish(ByteBuffer, ..., status)`: 81-84, 113-116, 178-182, 252-256. -/
  | finishRaw (reply : List (List Byte)) (s : Status)
  deriving Repr

/-- Calls of the reactor into gRPC. -/
inductive Call where
  | startRead
  | startWrite (reply : List (List Byte))
  /-- `Finish(s)`. -/
  | finish (s : Status)
  /-- `StartWriteAndFinish(reply, s)`; for a unary or client-streaming method, `Finish(s)` after
  the reply was put into `*resp_buf_`, which gRPC sends if `s` is OK. -/
  | finishWith (reply : List (List Byte)) (s : Status)
  deriving Repr, DecidableEq

/-- Calls of gRPC into the reactor. `cancelled` is what `context().IsCancelled()` says when the
callback starts, `cancelledLater` what it says at the end of `on_read_done` (306). -/
inductive Event where
  /-- `OnReadDone(true)` with a message in `request_`. -/
  | readOk (request : List (List Byte))
  /-- `OnReadDone(false)`. -/
  | readEnd (cancelled cancelledLater : Bool)
  /-- `OnWriteDone(true)`. -/
  | writeOk
  /-- `OnWriteDone(false)`. -/
  | writeFail (cancelled : Bool)
  /-- `OnCancel()`. -/
  | cancel
  /-- The handler acts on its own. -/
  | poke (n : Nat)
  /-- `OnDone()`. -/
  | done
  deriving Repr, DecidableEq

/-- A line of the trace. -/
inductive Entry where
  | event (e : Event) | act (a : Act) | call (c : Call)
  /-- The answer of a boolean callback; `false` if the handler does not have the callback. -/
  | answer (handled : Bool)
  deriving Repr

/-- A handler class: its state and its callbacks (docs/grpc-adapter.md, "Server Handler Callback
Contract"). Each callback updates the state and makes requests; optional callbacks may be absent
and answer whether the event is fully handled. -/
structure Handler (σ : Type) where
  /-- The constructor. -/
  start : σ × List Act
  readOk : List (List Byte) → σ → σ × List Act
  readEof : Option (σ → σ × List Act × Bool)
  readCancel : Option (σ → σ × List Act × Bool)
  writeOk : σ → σ × List Act
  writeError : Option (σ → σ × List Act × Bool)
  cancel : σ → σ × List Act
  poke : Nat → σ → σ × List Act

/-- The reactor object: the handler in it and the trace so far. -/
structure Reactor (σ : Type) where
  handler : σ
  trace : List Entry

section
variable (M : Method) (C : Cfg) (limit id : Nat)

/-- The last call of `finish(reply, ..., status)`. A client-streaming method has no status
argument: it finishes with the status of the write (110), which is OK here. -/
def finishStatus (s : Status) : Status := if M.clientStreaming && !M.serverStreaming then .ok else s

/-- The calls into gRPC that one request of the handler leads to: 63-83, 100-115, 128-181,
198-255. -/
def Act.calls : Act → Res (List Call)
  | .startRead => .ok [.startRead]
  | .write m => do
    let (st, b) ← grpcPut C limit none id m []
    if st = .ok then .ok [.startWrite b] else .ok [.finish st]
  | .writeRaw b => .ok [.startWrite b]
  | .finish s => .ok [.finish s]
  | .finishReply m s => do
    let (st, b) ← grpcPut C limit none id m []
    if st = .ok then .ok [.finishWith b (finishStatus M s)] else .ok [.finish st]
  | .finishRaw b s => .ok [.finishWith b s]

/-- The requests of a callback, one after the other. -/
def runActs : List Act → List Entry → Res (List Entry)
  | [], t => .ok t
  | a :: as, t => do
    let cs ← a.calls M C limit id
    runActs as (t ++ .act a :: cs.map .call)

variable {σ : Type} (H : Handler σ)

/-- The constructor: 312-321. -/
def Reactor.start : Res (Reactor σ) := do
  let t ← runActs M C limit id H.start.2 []
  .ok ⟨H.start.1, t⟩

/-- A callback without an answer. -/
def Reactor.plain (r : Reactor σ) (f : σ → σ × List Act) : Res (Reactor σ) := do
  let t ← runActs M C limit id (f r.handler).2 r.trace
  .ok ⟨(f r.handler).1, t⟩

/-- A boolean callback, absent or not, and the fallback when the event is not handled:
272-281, 291-307. -/
def Reactor.asked (r : Reactor σ) (f : Option (σ → σ × List Act × Bool)) (fallback : Status) : Res (Reactor σ) :=
  match f with
  | none => .ok ⟨r.handler, r.trace ++ [.answer false, .call (.finish fallback)]⟩
  | some f => do
    let t ← runActs M C limit id (f r.handler).2.1 r.trace
    if (f r.handler).2.2 then .ok ⟨(f r.handler).1, t ++ [.answer true]⟩
    else .ok ⟨(f r.handler).1, t ++ [.answer false, .call (.finish fallback)]⟩

/-- One event: `on_write_done` 266-283, `on_read_done` 285-309, `OnCancel` 336-340, `OnDone`
323-328 (which deletes the reactor). -/
def Reactor.event (e : Event) (r : Reactor σ) : Res (Reactor σ) :=
  let r : Reactor σ := ⟨r.handler, r.trace ++ [.event e]⟩
  match e with
  | .readOk b => r.plain M C limit id (H.readOk b)
  | .readEnd c later =>
    r.asked M C limit id (if c then H.readCancel else H.readEof) (if later then .cancelled else .ok)
  | .writeOk => r.plain M C limit id H.writeOk
  | .writeFail c => r.asked M C limit id H.writeError (if c then .cancelled else .unknown)
  | .cancel => r.plain M C limit id H.cancel
  | .poke n => r.plain M C limit id (H.poke n)
  | .done => .ok r

/-- A whole RPC: the constructor and then the events, in order. -/
def Reactor.run : List Event → Reactor σ → Res (Reactor σ)
  | [], r => .ok r
  | e :: es, r => do
    let r ← r.event M C limit id H e
    Reactor.run es r

/-- From the beginning. -/
def serve (es : List Event) : Res (Reactor σ) := do
  let r ← Reactor.start M C limit id H
  Reactor.run M C limit id H es r

end
end HppProto
