import Verif.Model.Plugin
import Verif.Model.Outcome
import Verif.Spec.Cpp

/-!
# Stubs, services and the way of a call from one to the other

Model of the constructor of `Stub` and of `Stub::grpc_method` (`include/hpp_proto/grpc/client.hpp`
31-58, 63-100), and of `CallbackService` with the choice of the handlers
(`include/hpp_proto/grpc/server.hpp` 41-50, 343-420), for the structs that the generator writes for
the methods of a service (`MethodStruct`, `Verif/Model/Plugin.lean`).

Of gRPC itself the model has what it does with the methods: a server does not start if two methods
are registered under one name, and a call goes to the method that is registered under the name the
client sends.  Channels, hosts, statistics and generic services are left out.
-/

namespace HppProto.Routes
open HppProto.Plugin (MethodStruct)

/-- `::grpc::internal::RpcMethod::RpcType`. -/
inductive RpcKind where
  | normal | clientStreaming | serverStreaming | bidiStreaming
  deriving DecidableEq, Repr

/-- `static_cast<RpcType>(Method::rpc_type)` (`client.hpp` 95, `server.hpp` 412); no other numbers
are values of the enumeration. -/
def castKind : Nat → Res RpcKind
  | 0 => .ok .normal
  | 1 => .ok .clientStreaming
  | 2 => .ok .serverStreaming
  | 3 => .ok .bidiStreaming
  | _ => .ub

/-- `Method::method_name`, as gRPC reads a `const char *`: what the compiler makes of the literal, up
to the first NUL.  A text that is no literal does not compile (`stuck`). -/
def methodName (y : MethodStruct) : Res (List Byte) :=
  match Spec.Cpp.stringLiteral (Spec.Cpp.source (y.path ++ b!";")) with
  | some (bytes, _) => .ok (bytes.takeWhile (· ≠ 0))
  | none => .stuck

/-! ## The client -/

/-- A `GrpcMethod` (`client.hpp` 66-74). -/
structure GrpcMethod where
  name : Option (List Byte)
  kind : RpcKind
  deriving DecidableEq, Repr

/-- `grpc_methods_[method.ordinal].set(...)` (`client.hpp` 70-73, 94-95). -/
def setMethod (a : List GrpcMethod) (y : MethodStruct) : Res (List GrpcMethod) := do
  let name ← methodName y
  let kind ← castKind y.rpcType
  if y.ordinal < a.length then .ok (a.set y.ordinal { name := some name, kind := kind }) else .ub

/-- The fold over the methods in the constructor (`client.hpp` 92-98). -/
def setMethods : List MethodStruct → List GrpcMethod → Res (List GrpcMethod)
  | [], a => .ok a
  | y :: ys, a => do
    let a ← setMethod a y
    setMethods ys a

/-- The constructor of `Stub<ServiceMethods>` (`client.hpp` 78, 90-99): `grpc_methods_`. -/
def stub (ys : List MethodStruct) : Res (List GrpcMethod) :=
  setMethods ys (List.replicate ys.length { name := none, kind := .normal })

/-- `grpc_method<Method>()` (`client.hpp` 83-87). -/
def grpcMethod (a : List GrpcMethod) (y : MethodStruct) : Res GrpcMethod :=
  match a[y.ordinal]? with
  | some g => .ok g
  | none => .ub

/-! ## The server -/

/-- A method in a `::grpc::Service`: name and kind of the `RpcRawCallbackServiceMethod`, the kind of
calls that its `MethodHandler` is for, and what `handle` gives for the method. -/
structure Registered (η : Type) where
  name : List Byte
  kind : RpcKind
  handlerKind : RpcKind
  handler : η

/-- The specialisation of `ServerReactor` that is chosen, and with it the `MethodHandler`
(`server.hpp` 343-402): `CallbackUnaryHandler`, `CallbackClientStreamingHandler`,
`CallbackServerStreamingHandler`, `CallbackBidiHandler`. -/
def handlerFor : RpcKind → RpcKind
  | .clientStreaming => .clientStreaming
  | .serverStreaming => .serverStreaming
  | .bidiStreaming => .bidiStreaming
  | .normal => .normal

/-- `add_method` (`server.hpp` 406-415); `overload` says whether `Derived` has a `handle` for the
method, and what it gives. -/
def addMethod {η : Type} (overload : MethodStruct → Option η) (y : MethodStruct) : Res (List (Registered η)) :=
  match overload y with
  | none => .ok []
  | some h => do
    let name ← methodName y
    let kind ← castKind y.rpcType
    .ok [{ name := name, kind := kind, handlerKind := handlerFor kind, handler := h }]

/-- The constructor of `CallbackService` (`server.hpp` 419-421). -/
def addMethods {η : Type} (overload : MethodStruct → Option η) : List MethodStruct → Res (List (Registered η))
  | [] => .ok []
  | y :: ys => do
    let a ← addMethod overload y
    let rest ← addMethods overload ys
    .ok (a ++ rest)

/-- The methods of all services of a server, each with its structs and its `handle` functions. -/
def allMethods {η : Type} : List (List MethodStruct × (MethodStruct → Option η)) → Res (List (Registered η))
  | [] => .ok []
  | x :: xs => do
    let a ← addMethods x.2 x.1
    let rest ← allMethods xs
    .ok (a ++ rest)

/-- `ServerBuilder::BuildAndStart` with these services: `none` if a name is there twice. -/
def startServer {η : Type} (xs : List (List MethodStruct × (MethodStruct → Option η))) :
    Res (Option (List (Registered η))) := do
  let rs ← allMethods xs
  .ok (if (rs.map (·.name)).Nodup then some rs else none)

/-- The method that a call with this name goes to; `none` is the status `UNIMPLEMENTED`. -/
def route {η : Type} (rs : List (Registered η)) (name : List Byte) : Option (Registered η) :=
  rs.find? fun r => r.name == name

end HppProto.Routes
