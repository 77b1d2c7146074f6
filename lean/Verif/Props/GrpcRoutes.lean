import Verif.Proofs.GrpcRoutes

/-!
# C152: a call reaches the handler of the method with the same name

Client and server may be generated from different versions of the files: `f`, `s` and `ys` are the
file, the service and the structs the client was compiled with, `xs` what the server offers.
-/

namespace HppProto.Props
open HppProto.Plugin HppProto.Spec.Plugin HppProto.Routes HppProto.Spec.Routes

/-- The structs in every header of an answer to a request without errors are those meant by
`GeneratedFor`. -/
theorem C152_generated (E : Env) (other : Bool) (files : List File) (want : List (List Byte))
    (hf : (generate E other files want).failed = false) :
    ∀ h ∈ (generate E other files want).files, h.part = .service →
      ∃ f ∈ files, IsHeader f.name .service h.path ∧
        ∀ (i : Nat) (x : List Byte × List MethodStruct), h.services[i]? = some x →
          ∃ s, (f.services.filter (·.methods ≠ []))[i]? = some s ∧ x.1 = s.name ∧ GeneratedFor f s x.2 := by
  intro h hh hq
  obtain ⟨f, hm, _, _, he, hi⟩ := from_request hf hh
  rw [hq] at hi he
  have hsp := serviceStructs_spec ((header_spec he).2.2.2.2 rfl)
  refine ⟨f, hm, hi, ?_⟩
  intro i x hx
  have hl : i < h.services.length := (List.getElem?_eq_some_iff.mp hx).1
  rw [hsp.1] at hl
  have hs := List.getElem?_eq_getElem hl
  obtain ⟨hn, hms⟩ := hsp.2 i _ x hs hx
  exact ⟨_, hs, hn, _, hms⟩

/-- The server starts.  The stub can be made.  A call of the client's method `m` through the stub has
the path and the kind of `m`.  It reaches exactly the handler that the server has for the method with
the same package, service name and method name, in whatever place that method is there; if the server
has none, it reaches no handler at all. -/
theorem C152_reaches {η : Type} (xs : List (Offered η))
    (hx : ∀ x ∈ xs, GeneratedFor x.file x.service x.structs ∧ PlainNames x.file x.service)
    (hn : NoRepetition xs)
    (f : File) (s : Service) (ys : List MethodStruct) (hg : GeneratedFor f s ys) (hp : PlainNames f s) :
    ∃ table, startServer (xs.map fun x => (x.structs, x.overload)) = .ok (some table) ∧
    ∃ st, stub ys = .ok st ∧
    ∀ (k : Nat) (m : Method) (y : MethodStruct), s.methods[k]? = some m → ys[k]? = some y →
      grpcMethod st y = .ok { name := some (callPath f s m), kind := kindOfCalls m } ∧
      (∀ h, (∃ r, route table (callPath f s m) = some r ∧ r.handler = h) ↔
        ∃ x ∈ xs, ∃ m', Answers x f s m m' h) ∧
      (∀ r, route table (callPath f s m) = some r →
        ∃ x ∈ xs, ∃ m', Answers x f s m m' r.handler ∧ r.kind = kindOfCalls m' ∧ r.handlerKind = kindOfCalls m') := by
  have hd := all_distinct hx hn
  have hstart : startServer (xs.map fun x => (x.structs, x.overload)) = .ok (some (xs.flatMap entries)) := by
    unfold startServer
    rw [allMethods_spec xs hx]
    show Res.ok (if _ then _ else _) = _
    rw [if_pos (by unfold List.Nodup; rw [List.pairwise_map]; exact hd)]
  have hfs := facts hg hp
  obtain ⟨st, hst, _, _, hget⟩ := setMethods_spec
    (P := fun y => { name := some (callPath f s (named y.name)), kind := kindOfStruct y }) ys
    (List.replicate ys.length { name := none, kind := .normal }) 0
    (fun i y hy => by
      have hl : i < s.methods.length := by
        have := (List.getElem?_eq_some_iff.mp hy).1
        omega
      have hf := hfs.2 i _ y (List.getElem?_eq_getElem hl) hy
      exact ⟨by rw [hf.ordinal]; omega, _, hf.path, hf.cast, by rw [callPath_named _ _ s.methods[i], hf.name]⟩)
    (by simp)
  refine ⟨_, hstart, st, hst, ?_⟩
  intro k m y hm hy
  have hf := hfs.2 k m y hm hy
  have hreach : ∀ r, route (xs.flatMap entries) (callPath f s m) = some r →
      ∃ x ∈ xs, ∃ m', Answers x f s m m' r.handler ∧ r.kind = kindOfCalls m' ∧ r.handlerKind = kindOfCalls m' := by
    intro r hr
    obtain ⟨hr, e⟩ := (route_iff hd).mp hr
    obtain ⟨x, hxm, hrx⟩ := List.mem_flatMap.mp hr
    obtain ⟨j, m', y', hm', hy', ho, e', hk, hk'⟩ := mem_entries (hx x hxm).1 (hx x hxm).2 hrx
    rw [e'] at e
    have := path_inj (hx x hxm).2 hp (List.mem_of_getElem? hm') (List.mem_of_getElem? hm) e
    exact ⟨x, hxm, m', ⟨this.1, this.2.1, this.2.2, j, y', hm', hy', ho⟩, hk, hk'⟩
  refine ⟨?_, ?_, hreach⟩
  · unfold grpcMethod
    have := hget k y hy
    rw [Nat.zero_add] at this
    rw [hf.ordinal, this]
    simp only [hf.name, hf.kind, ← callPath_named]
  · intro h
    constructor
    · rintro ⟨r, hr, rfl⟩
      obtain ⟨x, hxm, m', ha, _⟩ := hreach r hr
      exact ⟨x, hxm, m', ha⟩
    · rintro ⟨x, hxm, m', ⟨e1, e2, e3, j, y', hm', hy', ho⟩⟩
      have hmem := entries_mem (hx x hxm).1 (hx x hxm).2 hm' hy' ho
      refine ⟨_, (route_iff hd).mpr ⟨List.mem_flatMap.mpr ⟨x, hxm, hmem⟩, ?_⟩, rfl⟩
      show callPath x.file x.service m' = callPath f s m
      unfold callPath
      rw [e1, e2, e3]

/-- A service that is there twice, with a handler for some method, keeps the server from starting. -/
theorem C152_twice {η : Type} (x x' : Offered η)
    (hx : GeneratedFor x.file x.service x.structs ∧ PlainNames x.file x.service)
    (hx' : GeneratedFor x'.file x'.service x'.structs ∧ PlainNames x'.file x'.service)
    (m m' : Method) (h h' : η) (ha : Answers x x.file x.service m m h) (ha' : Answers x' x.file x.service m m' h') :
    startServer ([x, x'].map fun x => (x.structs, x.overload)) = .ok none := by
  obtain ⟨_, _, _, j, y, hm, hy, ho⟩ := ha
  obtain ⟨e1, e2, e3, j', y', hm', hy', ho'⟩ := ha'
  have h1 := entries_mem hx.1 hx.2 hm hy ho
  have h2 := entries_mem hx'.1 hx'.2 hm' hy' ho'
  have e : callPath x'.file x'.service m' = callPath x.file x.service m := by
    unfold callPath
    rw [e1, e2, e3]
  unfold startServer
  rw [allMethods_spec [x, x'] (by
    intro z hz
    simp only [List.mem_cons, List.not_mem_nil, or_false] at hz
    rcases hz with rfl | rfl
    · exact hx
    · exact hx')]
  show Res.ok (if _ then _ else _) = _
  rw [if_neg]
  intro hnd
  simp only [List.flatMap_cons, List.flatMap_nil, List.append_nil, List.map_append] at hnd
  rw [List.nodup_append] at hnd
  exact hnd.2.2 _ (List.mem_map_of_mem h1) _ (List.mem_map_of_mem h2) e.symm

/-! ## A server with a newer version of a service -/

namespace RoutesExample

def types : List Byte → Option (List Byte) := fun n => some n

/-- The client knows methods `A` and `B`. -/
def oldService : Service :=
  { name := b!"S", methods := [{ name := b!"A", input := b!".M", output := b!".M" },
                               { name := b!"B", input := b!".M", output := b!".M", serverStreaming := true }] }

/-- The server has `B` in the first place, a new method `C`, and no `A`. -/
def newService : Service :=
  { name := b!"S", methods := [{ name := b!"B", input := b!".M", output := b!".M", serverStreaming := true },
                               { name := b!"C", input := b!".M", output := b!".M" }] }

def file : File := { name := b!"f.proto", package := b!"p" }

def structsOf (s : Service) : List MethodStruct := (methodStructs types (serviceName file s) 0 s.methods).getD []

/-- The server, with handlers that say which method they are for. -/
def offered : Offered (List Byte) := ⟨file, newService, structsOf newService, fun y => some y.name⟩

example : GeneratedFor file oldService (structsOf oldService) := ⟨types, by decide +kernel⟩
example : GeneratedFor file newService (structsOf newService) := ⟨types, by decide +kernel⟩
example : PlainNames file oldService ∧ PlainNames file newService := by
  unfold PlainNames; decide +kernel
example : NoRepetition [offered] :=
  ⟨by simp, by intro x hx; rw [List.mem_singleton.mp hx]; decide +kernel⟩
example : (structsOf newService).length = 2 := by decide +kernel

/-- `B` reaches `B`, although it has another place; `A` reaches nothing, although there is a method in
its place. -/
example : (match startServer [(structsOf newService, offered.overload)] with
    | .ok (some t) => some ((route t b!"/p.S/B").map (·.handler), (route t b!"/p.S/A").map (·.handler))
    | _ => none) = some (some b!"B", none) := by decide +kernel

end RoutesExample
end HppProto.Props
