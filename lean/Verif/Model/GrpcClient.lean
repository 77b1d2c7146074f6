import Verif.Model.Sink
import Verif.Model.Regions
/-!
Client side of the gRPC adapter (include/hpp_proto/grpc/client.hpp, serialization.hpp).

gRPC itself is outside of the model; what it does is a parameter. It is taken to keep its own
promises (grpcpp/support/client_callback.h): after `StartCall` it calls `OnDone` exactly once,
with a status, and if the status is OK with the reply in the response buffer. Deadlines, metadata
and the text of a status are left out.
-/
namespace HppProto

/-- `::grpc::Status`: the codes that the adapter makes itself, and any other code by number. -/
inductive Status where
  | ok | cancelled | unknown | invalidArgument | internal | other (code : Nat)
  deriving Repr, DecidableEq

/-- A `::grpc::ByteBuffer`: its slices, or a buffer whose compression cannot be undone
(`grpc_byte_buffer_reader_init` fails, serialization.hpp 153-162). -/
inductive Packet where
  | slices (s : List (List Byte)) | compressed
  deriving Repr, DecidableEq

/-- `write_binpb(message, buffer, ...)` with its status: serialization.hpp 99-120. -/
def grpcPut (C : Cfg) (limit : Nat) (opt : Option Mode) (id : Nat) (m : Msg) (buffer : List (List Byte)) :
    Res (Status × List (List Byte)) := do
  let (st, b) ← grpcWrite C limit opt id m buffer
  match st with
  | none => .ok (.ok, b)
  | some _ => .ok (.internal, b)

/-- `read_binpb(message, buffer, ...)`: serialization.hpp 181-201. `none`: the contents of the
message are not specified ("not preserved on parse failure"). -/
def grpcGet (C : Cfg) (limit : Nat) (id : Nat) (old : Msg) : Packet → Res (Status × Option Msg)
  | .compressed => .ok (.invalidArgument, some old)
  | .slices segs =>
    match readSegments C limit id old segs with
    | .ok m => .ok (.ok, some m)
    | .err _ => .ok (.internal, none)
    | .ub => .ub
    | .throw => .throw
    | .stuck => .stuck

/-- A reactor of a unary call, with what it did so far. `owned`: it is a `CallbackUnaryCall`
(258-283), which deletes itself; otherwise it belongs to the user. -/
structure UnaryCall where
  owned : Bool
  /-- Not deleted yet. -/
  alive : Bool := true
  /-- gRPC has been given the call (`call_` is set by `ClientCallbackUnaryFactory::Create`). -/
  created : Bool := false
  /-- `request_` (141). -/
  request : List (List Byte) := []
  /-- The message that the user gave for the response; `none`: not specified. -/
  response : Option Msg
  /-- The statuses with which the user's callback (or `OnDone`) was called, in order. -/
  callbacks : List Status := []
  /-- The requests that gRPC was told to send. -/
  sent : List (List (List Byte)) := []
  deriving Repr

/-- `CallbackUnaryCall::OnDone`: 272-282; `reply` is what gRPC left in `response_`. A user's
reactor is taken to do the same except for the deletion. Using a deleted reactor is undefined
behaviour. -/
def UnaryCall.onDone (C : Cfg) (limit id : Nat) (reply : Packet) (st : Status) (c : UnaryCall) : Res UnaryCall :=
  if !c.alive then .ub
  else
    match st, c.response with
    | .ok, some old => do
      let (rs, m) ← grpcGet C limit id old reply
      .ok { c with response := m, callbacks := c.callbacks ++ [rs], alive := !c.owned }
    | .ok, none => .ub
    | st, _ => .ok { c with callbacks := c.callbacks ++ [st], alive := !c.owned }

/-- `ClientCallbackReactor::prepare`, unary: 149-160. When the request cannot be written,
`this->OnDone(result)` runs the callback. `empty` is the response buffer at that time (142); it
is not looked at, since the status is not OK. -/
def UnaryCall.prepare (C : Cfg) (opt : Option Mode) (reqLimit reqId : Nat) (req : Msg) (limit id : Nat)
    (c : UnaryCall) : Res UnaryCall := do
  let (st, b) ← grpcPut C reqLimit opt reqId req c.request
  if st = .ok then .ok { c with request := b, created := true }
  else ({ c with request := b } : UnaryCall).onDone C limit id (.slices []) st

/-- `start_call`: 189, `ClientUnaryReactor::StartCall`, which uses the call that `Create` made. -/
def UnaryCall.startCall (c : UnaryCall) : Res UnaryCall :=
  if !c.alive then .ub
  else if !c.created then .ub
  else .ok { c with sent := c.sent ++ [c.request] }

/-- `Stub::async_call(context, request, response, f, options...)`: 289-303, followed by what gRPC
does after `StartCall`: one call of `OnDone`. `callback_reactor.release()` reads the pointer
only, not the object. The request is written without options (301). -/
def asyncUnary (C : Cfg) (reqId : Nat) (req : Msg) (limit id : Nat) (response : Msg) (st : Status) (reply : Packet) :
    Res UnaryCall := do
  let c : UnaryCall := { owned := true, response := some response }
  let c ← c.prepare C none 100 reqId req limit id
  let c ← c.startCall
  c.onDone C limit id reply st

/-- `Stub::async_call(context, request, reactor)` (120-124) with a reactor of the user, then
`reactor->start_call()`, then what gRPC does. -/
def asyncReactor (C : Cfg) (reqId : Nat) (req : Msg) (limit id : Nat) (response : Msg) (st : Status) (reply : Packet) :
    Res UnaryCall := do
  let c : UnaryCall := { owned := false, response := some response }
  let c ← c.prepare C none 100 reqId req limit id
  let c ← c.startCall
  c.onDone C limit id reply st

end HppProto
