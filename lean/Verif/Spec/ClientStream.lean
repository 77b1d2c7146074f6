import Verif.Model.GrpcStream
import Verif.Spec.Reactor
/-!
The rules of a client-side RPC, and what is sent and received in it.

* The user calls `async_call` once, first. At most one read is in flight, and at most one write (`write_done` counts as a write). Nothing is
  written after `write_last` or `write_done`. Nothing is started after `OnDone`, except by writes that fail. `get_response` is not called while a read is in flight.
* gRPC takes a message to be sent once, after `start_call`; it reports the end of a read or a write only if one is in flight, the success of a
  write only if it took the message, and `OnDone` once, after `start_call`, when nothing is in flight and nothing holds the call.

These are the rules of grpcpp/support/client_callback.h and of docs/grpc-adapter.md 195-197. Only `encoding` is used of the model: a message
that cannot be encoded is not written.
-/
namespace HppProto.Spec
open HppProto

/-- What everybody knows about a call. -/
structure ClientPos where
  made : Bool := false
  started : Bool := false
  reading : Bool := false
  writing : Bool := false
  /-- There is a message that gRPC has not taken yet. -/
  unsent : Bool := false
  /-- The last message has been written. -/
  closed : Bool := false
  holds : Nat := 0
  over : Bool := false
  deriving Repr, DecidableEq

section
variable (M : Method) (C : Cfg) (T : StreamTypes)

/-- The position after a step; `none`: the step breaks the rules. -/
def ClientPos.next (s : ClientPos) : ClientStep → Option ClientPos
  | .user (.prepare _) =>
    if !s.made then some { s with made := true, unsent := !M.clientStreaming } else none
  | .user .startCall => if s.made && !s.started && !s.over then some { s with started := true } else none
  | .user .startRead => if M.serverStreaming && s.made && !s.reading && !s.over then some { s with reading := true } else none
  | .user (.write m last) =>
    if M.clientStreaming then
      match encoding C T.reqLimit T.reqId m with
      | none => some s
      | some _ =>
        if s.made && !s.writing && !s.closed && !s.over then some { s with writing := true, unsent := true, closed := last } else none
    else none
  | .user .writeDone =>
    if M.clientStreaming && s.made && !s.writing && !s.closed && !s.over then some { s with writing := true, closed := true } else none
  | .user (.hold n) => if s.made && !s.over then some { s with holds := s.holds + n } else none
  | .user .unhold => if s.made && !s.over && 0 < s.holds then some { s with holds := s.holds - 1 } else none
  | .user (.get _) => if !s.reading then some s else none
  | .grpc .take => if s.started && s.unsent && !s.over then some { s with unsent := false } else none
  | .grpc (.wrote ok) =>
    if s.writing && (!ok || !s.unsent) then some { s with writing := false, unsent := false } else none
  | .grpc (.closed _) => if s.writing && s.closed && !s.unsent then some { s with writing := false } else none
  | .grpc (.read _ _) => if s.reading then some { s with reading := false } else none
  | .grpc (.done _ _) =>
    if s.started && !s.reading && !s.writing && s.holds == 0 && !s.over then some { s with over := true } else none

/-- The position at the end; `none`: a step broke the rules. -/
def clientPos : List ClientStep → ClientPos → Option ClientPos
  | [], s => some s
  | e :: es, s => (s.next M C T e).bind (clientPos es)

/-- The user and gRPC keep the rules. -/
def keepsRules (es : List ClientStep) : Prop := (clientPos M C T es {}).isSome = true

/-- The encodings of the messages that the user sends and that can be encoded, in order. -/
def requests : List ClientStep → List (List Byte)
  | [] => []
  | .user (.prepare m) :: es =>
    (if M.clientStreaming then [] else (encoding C 100 T.reqId m).toList) ++ requests es
  | .user (.write m _) :: es => (encoding C T.reqLimit T.reqId m).toList ++ requests es
  | _ :: es => requests es

/-- The messages that the user gives to be sent, with their limits. -/
def messages : List ClientStep → List (Nat × Msg)
  | [] => []
  | .user (.prepare m) :: es => if M.clientStreaming then messages es else (100, m) :: messages es
  | .user (.write m _) :: es => (T.reqLimit, m) :: messages es
  | _ :: es => messages es

/-- Every request that is given to `async_call` can be encoded. -/
def requestsFit (es : List ClientStep) : Prop :=
  M.clientStreaming = false → ∀ m, ClientStep.user (.prepare m) ∈ es → (encoding C 100 T.reqId m).isSome = true

/-- The message that was received last: by a read, or at the end of a call whose response is a single message. -/
def received : List ClientStep → Option Packet → Option Packet
  | [], p => p
  | .grpc (.read ok q) :: es, _ => received es (if ok then some q else none)
  | .grpc (.done st q) :: es, p => received es (if M.serverStreaming then p else if st = .ok then some q else none)
  | _ :: es, p => received es p

/-- The calls into gRPC that a step amounts to. -/
def asked : ClientStep → List ClientCall
  | .user (.prepare _) => [.create]
  | .user .startCall => [.startCall]
  | .user .startRead => [.startRead]
  | .user (.write m last) => if (encoding C T.reqLimit T.reqId m).isSome then [.startWrite last] else []
  | .user .writeDone => [.writesDone]
  | .user (.hold n) => [.hold n]
  | .user .unhold => [.unhold]
  | _ => []

end
end HppProto.Spec
