import Verif.Model.GrpcStream
/-!
Server side of the gRPC adapter, what is in the buffers: `ServerRPC` (include/hpp_proto/grpc/server.hpp 49-257) and
`RequestToken` (20-40).

`Verif/Model/GrpcServer.lean` has the handler and the callbacks. Here a run is driven by a list of steps, in any order, each something the
handler does with its `ServerRPC` or with a token, or something gRPC does. gRPC holds pointers to `request_`, `response_` or `*resp_buf_`: what it
sends is what is there when it takes the message, not what was there when the write was started; and a token is such a
pointer, too. Write options, metadata, the text of a status and threads are left out: steps happen one after the other.
-/
namespace HppProto

/-- What a handler does. -/
inductive HandlerAct where
  /-- `start_read()` -/
  | startRead
  /-- `write(reply, ...)` -/
  | write (reply : Msg)
  /-- `write(ByteBuffer, ...)` -/
  | writeRaw (reply : List (List Byte))
  /-- `finish(status)` -/
  | finish (st : Status)
  /-- `finish(reply, ..., status)`; a client-streaming method takes no status here -/
  | finishReply (reply : Msg) (st : Status)
  /-- `finish(ByteBuffer, ..., status)` -/
  | finishRaw (reply : List (List Byte)) (st : Status)
  /-- `token.get(into, ...)` with the token that came with request number `k`, counted from 0 -/
  | get (k : Nat) (into : Msg)
  deriving Repr

/-- What gRPC does. -/
inductive RuntimeAct where
  /-- It takes the message to be sent out of the buffer. -/
  | take
  /-- `OnWriteDone(ok)` -/
  | wrote (ok : Bool)
  /-- `OnReadDone(ok)` after `p` was put into the buffer; if not `ok`, `p` is whatever is left there. -/
  | read (ok : Bool) (p : Packet)
  /-- `OnDone()` -/
  | done
  deriving Repr

inductive ServerStep where
  | handler (a : HandlerAct) | grpc (e : RuntimeAct)
  deriving Repr

/-- Calls of the reactor into gRPC. -/
inductive ServerAsk where
  | startRead | startWrite | finish (st : Status) | writeAndFinish (st : Status)
  deriving Repr, DecidableEq

/-- The reactor with the buffers that gRPC and the tokens point to. -/
structure ServerCall where
  /-- `OnDone` deletes the reactor (323-328), and gRPC frees its buffers. -/
  alive : Bool := true
  /-- `request_` (90, 189), or the request that gRPC holds if there is only one (314-316). -/
  request : Packet := .slices []
  /-- `response_` (122, 190), or `*resp_buf_` (56, 91). -/
  response : List (List Byte) := []
  /-- What gRPC took to send. -/
  taken : List (List (List Byte)) := []
  asks : List ServerAsk := []
  /-- What the calls of `get` gave: the status and the message (`none`: not specified). -/
  got : List (Status × Option Msg) := []
  deriving Repr

section
variable (M : Method) (C : Cfg) (T : StreamTypes)

/-- The call into gRPC that ends an RPC with a reply: `StartWriteAndFinish`, or `Finish` with the reply in `*resp_buf_`. -/
def lastAsk (st : Status) : ServerAsk := if M.serverStreaming then .writeAndFinish st else .finish st

/-- `write`: 130-140, 203-213. -/
def ServerCall.write (m : Msg) (s : ServerCall) : Res ServerCall := do
  let (st, b) ← grpcPut C T.resLimit none T.resId m s.response
  let s : ServerCall := { s with response := b }
  .ok { s with asks := s.asks ++ [if st = .ok then .startWrite else .finish st] }

/-- `finish` with a reply: 65-79, 105-111, 153-176, 226-250. -/
def ServerCall.finishReply (m : Msg) (st' : Status) (s : ServerCall) : Res ServerCall := do
  let (st, b) ← grpcPut C T.resLimit none T.resId m s.response
  let s : ServerCall := { s with response := b }
  .ok { s with asks := s.asks ++ [if st = .ok then lastAsk M (finishStatus M st') else .finish st] }

/-- `RequestToken::get`: 33-37. Every token of a stream has the same pointer, `&request_` (289). -/
def ServerCall.get (into : Msg) (s : ServerCall) : Res ServerCall := do
  let r ← grpcGet C T.reqLimit T.reqId into s.request
  .ok { s with got := s.got ++ [r] }

/-- What a handler does while the reactor lives. `start_read` 100, 198; `write` of bytes 148-151, 221-224; `finish` with a status 63, 103, 128, 201;
with bytes 81-84, 113-116, 178-182, 252-256. -/
def ServerCall.act (s : ServerCall) : HandlerAct → Res ServerCall
  | .startRead => .ok { s with asks := s.asks ++ [.startRead] }
  | .write m => s.write C T m
  | .writeRaw b => .ok { s with response := b, asks := s.asks ++ [.startWrite] }
  | .finish st => .ok { s with asks := s.asks ++ [.finish st] }
  | .finishReply m st => s.finishReply M C T m st
  | .finishRaw b st => .ok { s with response := b, asks := s.asks ++ [lastAsk M st] }
  | .get _ into => s.get C T into

/-- One step; whatever the handler does with a deleted reactor is undefined. -/
def ServerCall.step (s : ServerCall) : ServerStep → Res ServerCall
  | .handler a => if s.alive then s.act M C T a else .ub
  | .grpc .take => .ok { s with taken := s.taken ++ [s.response] }
  | .grpc (.wrote _) => .ok s
  | .grpc (.read _ p) => .ok { s with request := p }
  | .grpc .done => .ok { s with alive := false }

/-- A whole call. -/
def ServerCall.run : List ServerStep → ServerCall → Res ServerCall
  | [], s => .ok s
  | e :: es, s => do
    let s ← s.step M C T e
    ServerCall.run es s

end
end HppProto
