import Verif.Model.GrpcServer
/-!
Client side of the gRPC adapter, streams and blocking calls: `ClientCallbackReactor`
(include/hpp_proto/grpc/client.hpp 138-256) and `Stub::call` (107-118).

The user and gRPC are parameters: a run is driven by a list of steps, in any order, each something the user does with the reactor or something
gRPC does to it. gRPC holds pointers to the members `request_` and `response_`, so what it sends is what is in `request_` when it takes the
message, and not what was there when the write was started. Options of a write other than `set_last_message`, metadata, the text of a
status and threads are left out: steps happen one after the other.
-/
namespace HppProto

/-- What the user does. -/
inductive UserAct where
  /-- `Stub::async_call(context, request, reactor)` (120-130); a method with client streaming has no request here. -/
  | prepare (req : Msg)
  /-- `start_call()` -/
  | startCall
  /-- `start_read()` -/
  | startRead
  /-- `write(req, ...)`, or `write_last(req, ...)` -/
  | write (req : Msg) (last : Bool)
  /-- `write_done()` -/
  | writeDone
  /-- `add_hold()` or `add_multiple_holds(n)` -/
  | hold (n : Nat)
  /-- `remove_hold()` -/
  | unhold
  /-- `get_response(into, ...)` -/
  | get (into : Msg)
  deriving Repr

/-- What gRPC does. -/
inductive GrpcAct where
  /-- It takes the message to be sent out of the buffer that it was given. -/
  | take
  /-- `OnWriteDone(ok)` -/
  | wrote (ok : Bool)
  /-- `OnWritesDoneDone(ok)` -/
  | closed (ok : Bool)
  /-- `OnReadDone(ok)` after `p` was put into the buffer that it was given; if not `ok`, `p` is whatever is left there. -/
  | read (ok : Bool) (p : Packet)
  /-- `OnDone(st)`; for a method without server streaming, after `reply` was put into the buffer that it was given. -/
  | done (st : Status) (reply : Packet)
  deriving Repr

inductive ClientStep where
  | user (a : UserAct) | grpc (e : GrpcAct)
  deriving Repr

/-- Calls of the reactor into gRPC. -/
inductive ClientCall where
  | create | startCall | startRead | startWrite (last : Bool) | writesDone | hold (n : Nat) | unhold
  deriving Repr, DecidableEq

/-- What the user is told. -/
inductive ClientNews where
  /-- The status that `write` returns. -/
  | wrote (st : Status)
  /-- The status that `get_response` returns, and the message (`none`: not specified). -/
  | got (st : Status) (m : Option Msg)
  /-- The reactor itself calls `OnDone`. -/
  | ended (st : Status)
  deriving Repr

/-- The reactor: 138-256. -/
structure StreamCall where
  /-- A factory of gRPC has set `call_`, `reader_`, `writer_` or `stream_` of the base class; they are null before. -/
  created : Bool := false
  /-- `request_` (141). -/
  request : List (List Byte) := []
  /-- `response_` (142). -/
  response : Packet := .slices []
  /-- What gRPC took to send. -/
  taken : List (List (List Byte)) := []
  calls : List ClientCall := []
  news : List ClientNews := []
  deriving Repr

/-- The message types and recursion limits of a method: those of requests and of responses. -/
structure StreamTypes where
  reqId : Nat
  reqLimit : Nat
  resId : Nat
  resLimit : Nat

section
variable (M : Method) (C : Cfg) (T : StreamTypes)

/-- A call into gRPC through the base class, which uses the pointer that the factory set. -/
def StreamCall.call (c : ClientCall) (s : StreamCall) : Res StreamCall :=
  if s.created then .ok { s with calls := s.calls ++ [c] } else .ub

/-- `prepare`: 149-160 (unary), 162-167 (client streaming), 169-180 (server streaming), 182-187 (both ways). `async_call` passes no options,
so the limit is the default 100. -/
def StreamCall.prepare (req : Msg) (s : StreamCall) : Res StreamCall :=
  if M.clientStreaming then .ok { s with created := true, calls := s.calls ++ [.create] }
  else do
    let (st, b) ← grpcPut C 100 none T.reqId req s.request
    if st = .ok then .ok { s with request := b, created := true, calls := s.calls ++ [.create] }
    else .ok { s with request := b, news := s.news ++ [.ended st] }

/-- `write`: 196-206, `write_last`: 216-223. -/
def StreamCall.write (req : Msg) (last : Bool) (s : StreamCall) : Res StreamCall := do
  let (st, b) ← grpcPut C T.reqLimit none T.reqId req s.request
  let s : StreamCall := { s with request := b }
  if st = .ok then
    let s ← s.call (.startWrite last)
    .ok { s with news := s.news ++ [.wrote st] }
  else .ok { s with news := s.news ++ [.wrote st] }

/-- `get_response`: 243-253. -/
def StreamCall.get (into : Msg) (s : StreamCall) : Res StreamCall := do
  let (st, m) ← grpcGet C T.resLimit T.resId into s.response
  .ok { s with news := s.news ++ [.got st m] }

/-- One step. `start_call` 189, `start_read` 190-194, `write_done` 225-229, `add_hold` and `add_multiple_holds` 231-236, `remove_hold`
237-241. -/
def StreamCall.step (s : StreamCall) : ClientStep → Res StreamCall
  | .user (.prepare req) => s.prepare M C T req
  | .user .startCall => s.call .startCall
  | .user .startRead => s.call .startRead
  | .user (.write req last) => s.write C T req last
  | .user .writeDone => s.call .writesDone
  | .user (.hold n) => s.call (.hold n)
  | .user .unhold => s.call .unhold
  | .user (.get into) => s.get C T into
  | .grpc .take => .ok { s with taken := s.taken ++ [s.request] }
  | .grpc (.wrote _) => .ok s
  | .grpc (.closed _) => .ok s
  | .grpc (.read _ p) => .ok { s with response := p }
  | .grpc (.done _ reply) => .ok (if M.serverStreaming then s else { s with response := reply })

/-- A whole call. -/
def StreamCall.run : List ClientStep → StreamCall → Res StreamCall
  | [], s => .ok s
  | e :: es, s => do
    let s ← s.step M C T e
    StreamCall.run es s

end

/-- What a blocking call leaves behind. -/
structure Blocking where
  status : Status
  /-- The response of the user; `none`: not specified. -/
  response : Option Msg
  /-- The requests that gRPC sent. -/
  sent : List (List (List Byte))
  deriving Repr

/-- `Stub::call`: 107-118, with `SerializationTraits::Serialize` and `Deserialize` (serialization.hpp 214-224). What gRPC does is a
parameter: the call ends with status `st` and, if it sent one, the message `reply` of the server. `BlockingUnaryCallImpl` returns the
status of `Serialize` if that fails; it calls `Deserialize` if there is a message, whatever `st` is; and if `st` is OK and there is no
message, or none that can be read, it returns another status, `noMessage`. The context with the recursion limit is the same for
both messages. -/
def blockingCall (C : Cfg) (limit reqId : Nat) (req : Msg) (id : Nat) (response : Msg) (noMessage st : Status) (reply : Option Packet) :
    Res Blocking := do
  let (s, b) ← grpcPut C limit none reqId req []
  if s ≠ .ok then .ok ⟨s, some response, []⟩
  else
    match reply with
    | none => .ok ⟨if st = .ok then noMessage else st, some response, [b]⟩
    | some p => do
      let (r, m) ← grpcGet C limit id response p
      .ok ⟨if st = .ok ∧ r ≠ .ok then noMessage else st, m, [b]⟩

end HppProto
