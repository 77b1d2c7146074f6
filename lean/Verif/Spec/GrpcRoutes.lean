import Verif.Model.GrpcRoutes
import Verif.Spec.Plugin

/-!
# Which handler answers a call

In terms of the schema: a call of a method is answered by the handler of the service with the same
package and name, for the method with the same name.
-/

namespace HppProto.Spec.Routes
open HppProto.Plugin HppProto.Routes

/-- The structs that the generator writes for service `s` of file `f`. -/
def GeneratedFor (f : File) (s : Service) (ys : List MethodStruct) : Prop :=
  ∃ types, methodStructs types (serviceName f s) 0 s.methods = some ys

/-- Names as `protoc` allows them: no dot in the name of a service, no slash in the name of a method,
no NUL anywhere. -/
def PlainNames (f : File) (s : Service) : Prop :=
  (∀ b ∈ f.package, b ≠ 0) ∧ (∀ b ∈ s.name, b ≠ 0 ∧ b ≠ 0x2e) ∧
  ∀ m ∈ s.methods, ∀ b ∈ m.name, b ≠ 0 ∧ b ≠ 0x2f

/-- The kind of calls of a method. -/
def kindOfCalls (m : Method) : RpcKind :=
  match m.clientStreaming, m.serverStreaming with
  | false, false => .normal
  | true, false => .clientStreaming
  | false, true => .serverStreaming
  | true, true => .bidiStreaming

/-- A service of a server: where it is declared, what was generated for it, and its handlers. -/
structure Offered (η : Type) where
  file : File
  service : Service
  structs : List MethodStruct
  overload : MethodStruct → Option η

/-- Method `m'` of `x` has package, service name and method name of method `m` of service `s` of file
`f`, and handler `h`. -/
def Answers {η : Type} (x : Offered η) (f : File) (s : Service) (m m' : Method) (h : η) : Prop :=
  x.file.package = f.package ∧ x.service.name = s.name ∧ m'.name = m.name ∧
  ∃ (j : Nat) (y : MethodStruct), x.service.methods[j]? = some m' ∧ x.structs[j]? = some y ∧ x.overload y = some h

/-- No service is there twice, and no service has two methods of one name. -/
def NoRepetition {η : Type} (xs : List (Offered η)) : Prop :=
  xs.Pairwise (fun x x' => ¬(x.file.package = x'.file.package ∧ x.service.name = x'.service.name)) ∧
  ∀ x ∈ xs, (x.service.methods.map (·.name)).Nodup

end HppProto.Spec.Routes
