import Verif.Model.GrpcServerStream
import Verif.Spec.Reactor
/-!
The rules of a server-side RPC, and what is sent and received in it.

* The handler has at most one read and one write in flight, does not finish while a write is in flight, finishes once, and starts nothing after that. A
  write or a finish whose reply cannot be encoded finishes the RPC. Tokens are used only before `OnDone`.
* gRPC takes a message to be sent once; it reports the end of a read or a write only if one is in flight, the success of a write only if it
  took the message, and `OnDone` once, after the RPC was finished, when nothing is in flight.

These are the rules of grpcpp/support/server_callback.h. Only `encoding` is used of the model.
-/
namespace HppProto.Spec
open HppProto

/-- What everybody knows about an RPC. -/
structure ServerPos where
  reading : Bool := false
  writing : Bool := false
  /-- There is a message that gRPC has not taken yet. -/
  unsent : Bool := false
  finished : Bool := false
  over : Bool := false
  /-- The number of requests that the handler was given. -/
  tokens : Nat := 0
  deriving Repr, DecidableEq

section
variable (M : Method) (C : Cfg) (T : StreamTypes)

/-- Is a reply sent that is given along with a status? A stream sends it in any case, other methods only if the status is OK. -/
def sends (st : Status) : Bool := M.serverStreaming || st == .ok

/-- The position after a step; `none`: the step breaks the rules. -/
def ServerPos.next (s : ServerPos) : ServerStep → Option ServerPos
  | .handler .startRead =>
    if M.clientStreaming && !s.reading && !s.finished && !s.over then some { s with reading := true } else none
  | .handler (.write m) =>
    if M.serverStreaming && !s.writing && !s.finished && !s.over then
      match encoding C T.resLimit T.resId m with
      | some _ => some { s with writing := true, unsent := true }
      | none => some { s with finished := true }
    else none
  | .handler (.writeRaw _) =>
    if M.serverStreaming && !s.writing && !s.finished && !s.over then some { s with writing := true, unsent := true } else none
  | .handler (.finish st) =>
    if !s.writing && !s.finished && !s.over then some { s with finished := true, unsent := !M.serverStreaming && st == .ok } else none
  | .handler (.finishReply m st) =>
    if !s.writing && !s.finished && !s.over && (!M.clientStreaming || M.serverStreaming || st == .ok) then
      match encoding C T.resLimit T.resId m with
      | some _ => some { s with finished := true, unsent := sends M st }
      | none => some { s with finished := true }
    else none
  | .handler (.finishRaw _ st) =>
    if !s.writing && !s.finished && !s.over then some { s with finished := true, unsent := sends M st } else none
  | .handler (.get k _) => if k < s.tokens && !s.over then some s else none
  | .grpc .take => if s.unsent && !s.over then some { s with unsent := false } else none
  | .grpc (.wrote ok) => if s.writing && (!ok || !s.unsent) then some { s with writing := false, unsent := false } else none
  | .grpc (.read ok _) => if s.reading then some { s with reading := false, tokens := s.tokens + (if ok then 1 else 0) } else none
  | .grpc .done => if s.finished && !s.reading && !s.writing && !s.over then some { s with over := true } else none

/-- The position at the end; `none`: a step broke the rules. -/
def serverPos : List ServerStep → ServerPos → Option ServerPos
  | [], s => some s
  | e :: es, s => (s.next M C T e).bind (serverPos es)

/-- A handler of a method without client streaming has its only request from the beginning. -/
def serverStart : ServerPos := { tokens := if M.clientStreaming then 0 else 1 }

/-- The handler and gRPC keep the rules. -/
def obeys (es : List ServerStep) : Prop := (serverPos M C T es (serverStart M)).isSome = true

/-- The messages to be sent that one step amounts to: what a reply encodes to. A method without server streaming that is finished with OK and
without a reply sends an empty message. -/
def sendsNow : ServerStep → List (List Byte)
  | .handler (.write m) => (encoding C T.resLimit T.resId m).toList
  | .handler (.writeRaw b) => [b.flatten]
  | .handler (.finish st) => if !M.serverStreaming && st == .ok then [[]] else []
  | .handler (.finishReply m st) => if sends M st then (encoding C T.resLimit T.resId m).toList else []
  | .handler (.finishRaw b st) => if sends M st then [b.flatten] else []
  | _ => []

/-- The replies that the handler gives to be sent. -/
def replyMsgs : List ServerStep → List Msg
  | [] => []
  | .handler (.write m) :: es => m :: replyMsgs es
  | .handler (.finishReply m _) :: es => m :: replyMsgs es
  | _ :: es => replyMsgs es

/-- The request that a step brings. -/
def brings : ServerStep → List Packet
  | .grpc (.read true p) => [p]
  | _ => []

/-- The requests of an RPC, in order; `q` is the only one of a method without client streaming. -/
def arrived (q : Packet) (es : List ServerStep) : List Packet := (if M.clientStreaming then [] else [q]) ++ es.flatMap brings

/-- Does the handler have a request such that it has started no read since? `b`: before these steps. -/
def stillThere (b : Bool) : List ServerStep → Bool
  | [] => b
  | .handler .startRead :: es => stillThere false es
  | .grpc (.read true _) :: es => stillThere true es
  | _ :: es => stillThere b es

/-- The call into gRPC that a step amounts to. -/
def dueStep : ServerStep → List ServerAsk
  | .handler .startRead => [.startRead]
  | .handler (.write m) => if (encoding C T.resLimit T.resId m).isSome then [.startWrite] else [.finish .internal]
  | .handler (.writeRaw _) => [.startWrite]
  | .handler (.finish st) => [.finish st]
  | .handler (.finishReply m st) =>
    if (encoding C T.resLimit T.resId m).isSome then [if M.serverStreaming then .writeAndFinish st else .finish st] else [.finish .internal]
  | .handler (.finishRaw _ st) => [if M.serverStreaming then .writeAndFinish st else .finish st]
  | _ => []

end
end HppProto.Spec
