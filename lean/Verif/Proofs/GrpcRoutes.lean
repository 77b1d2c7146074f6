import Verif.Spec.GrpcRoutes
import Verif.Props.Plugin
import Verif.Props.Lexical

/-! Lemmas for `Verif/Props/GrpcRoutes.lean`. -/

namespace HppProto.Routes
open HppProto.Plugin HppProto.Spec.Plugin HppProto.Spec.Routes

/-- A method with the given name. -/
def named (n : List Byte) : Method := { name := n, input := [], output := [] }

theorem callPath_named (f : File) (s : Service) (m : Method) : callPath f s m = callPath f s (named m.name) := rfl

def kindOfStruct (y : MethodStruct) : RpcKind :=
  match y.clientStreaming, y.serverStreaming with
  | false, false => .normal
  | true, false => .clientStreaming
  | false, true => .serverStreaming
  | true, true => .bidiStreaming

theorem callPath_no_nul {f : File} {s : Service} {n : List Byte} (hp : ∀ b ∈ f.package, b ≠ 0)
    (hs : ∀ b ∈ s.name, b ≠ 0) (hn : ∀ b ∈ n, b ≠ 0) : ∀ b ∈ callPath f s (named n), b ≠ 0 := by
  intro b hb
  have e : callPath f s (named n) =
      b!"/" ++ (if f.package = [] then [] else f.package ++ b!".") ++ s.name ++ b!"/" ++ n := rfl
  rw [e] at hb
  simp only [List.mem_append] at hb
  rcases hb with (((hb | hb) | hb) | hb) | hb
  · revert b; decide
  · split at hb
    · simp at hb
    · rcases List.mem_append.mp hb with hb | hb
      · exact hp b hb
      · rw [List.mem_singleton.mp hb]; decide
  · exact hs b hb
  · revert b; decide
  · exact hn b hb

/-- What is known of a generated struct. -/
theorem struct_facts {types : List Byte → Option (List Byte)} {f : File} {s : Service} {k : Nat} {m : Method}
    {y : MethodStruct} (h : methodStruct types (serviceName f s) k m = some y) :
    y.name = m.name ∧ y.ordinal = k ∧ kindOfStruct y = kindOfCalls m ∧ castKind y.rpcType = .ok (kindOfStruct y) ∧
    (∀ rest, Spec.Cpp.stringLiteral (Spec.Cpp.source (y.path ++ rest)) = some (callPath f s m, Spec.Cpp.source rest)) := by
  unfold methodStruct at h
  cases h1 : resolvedType types m.input with
  | none => simp [h1] at h
  | some a =>
    cases h2 : resolvedType types m.output with
    | none => simp [h1, h2] at h
    | some b =>
      simp only [h1, h2, Option.bind_eq_bind, Option.bind_some, Option.some.injEq] at h
      subst h
      refine ⟨rfl, rfl, rfl, ?_, ?_⟩
      · unfold kindOfStruct
        cases m.clientStreaming <;> cases m.serverStreaming <;> rfl
      · intro rest
        rw [Props.C44_string_literals]
        congr 2
        unfold serviceName callPath
        by_cases hp : f.package = []
        · rw [if_pos hp, if_pos hp]; simp
        · rw [if_neg hp, if_neg hp]; simp

/-- A generated struct in its place. -/
structure Facts (f : File) (s : Service) (k : Nat) (m : Method) (y : MethodStruct) : Prop where
  name : y.name = m.name
  ordinal : y.ordinal = k
  kind : kindOfStruct y = kindOfCalls m
  cast : castKind y.rpcType = .ok (kindOfStruct y)
  path : methodName y = .ok (callPath f s m)

theorem facts {f : File} {s : Service} {ys : List MethodStruct} (hg : GeneratedFor f s ys) (hp : PlainNames f s) :
    ys.length = s.methods.length ∧
    ∀ (k : Nat) (m : Method) (y : MethodStruct), s.methods[k]? = some m → ys[k]? = some y → Facts f s k m y := by
  obtain ⟨types, hg⟩ := hg
  have hs := methodStructs_spec hg
  refine ⟨hs.1, ?_⟩
  intro k m y hm hy
  obtain ⟨h1, h2, h3, h4, h5⟩ := struct_facts (hs.2 k m y hm hy)
  refine ⟨h1, by omega, h3, h4, ?_⟩
  unfold methodName
  rw [h5]
  simp only
  congr 1
  have hn : ∀ b ∈ callPath f s m, b ≠ 0 := by
    rw [callPath_named]
    exact callPath_no_nul hp.1 (fun b hb => (hp.2.1 b hb).1)
      (fun b hb => (hp.2.2 m (List.mem_of_getElem? hm) b hb).1)
  have : ∀ l : List Byte, (∀ b ∈ l, b ≠ 0) → l.takeWhile (· ≠ 0) = l := by
    intro l hl
    induction l with
    | nil => rfl
    | cons a l ih =>
      rw [List.takeWhile_cons, if_pos (by simpa using hl a (by simp)), ih (fun b hb => hl b (by simp [hb]))]
  exact this _ hn

/-- The same, for a struct anywhere in the list. -/
theorem facts_mem {f : File} {s : Service} {ys : List MethodStruct} (hg : GeneratedFor f s ys) (hp : PlainNames f s)
    {y : MethodStruct} (hy : y ∈ ys) : ∃ k m, s.methods[k]? = some m ∧ ys[k]? = some y ∧ Facts f s k m y := by
  obtain ⟨k, hk⟩ := List.getElem?_of_mem hy
  have hf := facts hg hp
  have hl : k < ys.length := (List.getElem?_eq_some_iff.mp hk).1
  have hl' : k < s.methods.length := by omega
  exact ⟨k, s.methods[k], by simp [hl'], hk, hf.2 k _ y (by simp [hl']) hk⟩

/-! ## The client -/

theorem setMethods_spec {P : MethodStruct → GrpcMethod} :
    ∀ (ys : List MethodStruct) (a : List GrpcMethod) (k : Nat),
    (∀ i y, ys[i]? = some y → y.ordinal = k + i ∧
      ∃ n, methodName y = .ok n ∧ castKind y.rpcType = .ok (P y).kind ∧ (P y).name = some n) →
    k + ys.length ≤ a.length →
    ∃ b, setMethods ys a = .ok b ∧ b.length = a.length ∧ (∀ i, i < k → b[i]? = a[i]?) ∧
      ∀ i y, ys[i]? = some y → b[k + i]? = some (P y)
  | [], a, k, _, _ => ⟨a, rfl, rfl, fun _ _ => rfl, fun i y h => by simp at h⟩
  | y :: ys, a, k, h, hl => by
    obtain ⟨ho, n, hn, hk, hpn⟩ := h 0 y rfl
    simp only [List.length_cons] at hl
    have hset : setMethod a y = .ok (a.set k (P y)) := by
      unfold setMethod
      rw [hn, hk]
      show (if y.ordinal < a.length then _ else _) = _
      rw [if_pos (by omega), ho, Nat.add_zero, ← hpn]
    obtain ⟨b, hb, hbl, hb1, hb2⟩ := setMethods_spec (P := P) ys (a.set k (P y)) (k + 1)
      (fun i z hz => by
        have := h (i + 1) z (by simpa using hz)
        refine ⟨by omega, this.2⟩)
      (by simp; omega)
    refine ⟨b, ?_, by simpa using hbl, ?_, ?_⟩
    · unfold setMethods
      rw [hset]
      exact hb
    · intro i hi
      rw [hb1 i (by omega), List.getElem?_set_ne (by omega)]
    · intro i z hz
      cases i with
      | zero =>
        simp only [List.getElem?_cons_zero, Option.some.injEq] at hz
        subst hz
        rw [Nat.add_zero, hb1 k (by omega), List.getElem?_set_self (by omega)]
      | succ i =>
        have := hb2 i z (by simpa using hz)
        rw [← this]
        congr 1
        omega

/-! ## The server -/

theorem addMethods_spec {η : Type} {f : File} {s : Service} {overload : MethodStruct → Option η} :
    ∀ (ys : List MethodStruct),
    (∀ y ∈ ys, methodName y = .ok (callPath f s (named y.name)) ∧ castKind y.rpcType = .ok (kindOfStruct y)) →
    addMethods overload ys = .ok (ys.filterMap fun y => (overload y).map fun h =>
      ⟨callPath f s (named y.name), kindOfStruct y, kindOfStruct y, h⟩)
  | [], _ => rfl
  | y :: ys, h => by
    have ih := addMethods_spec (overload := overload) ys (fun z hz => h z (by simp [hz]))
    obtain ⟨h1, h2⟩ := h y (by simp)
    have hh : ∀ k, handlerFor k = k := by intro k; cases k <;> rfl
    unfold addMethods addMethod
    rw [ih]
    cases ho : overload y with
    | none => simp only [List.filterMap_cons, ho, Option.map_none]; rfl
    | some v =>
      simp only [List.filterMap_cons, ho, Option.map_some, h1, h2]
      show Res.ok _ = _
      simp [hh]

/-- The methods of an offered service. -/
def entries {η : Type} (x : Offered η) : List (Registered η) :=
  x.structs.filterMap fun y => (x.overload y).map fun h =>
    ⟨callPath x.file x.service (named y.name), kindOfStruct y, kindOfStruct y, h⟩

theorem allMethods_spec {η : Type} : ∀ (xs : List (Offered η)),
    (∀ x ∈ xs, GeneratedFor x.file x.service x.structs ∧ PlainNames x.file x.service) →
    allMethods (xs.map fun x => (x.structs, x.overload)) = .ok (xs.flatMap entries)
  | [], _ => rfl
  | x :: xs, h => by
    have ih := allMethods_spec xs (fun z hz => h z (by simp [hz]))
    obtain ⟨hg, hp⟩ := h x (by simp)
    have ha := addMethods_spec (f := x.file) (s := x.service) (overload := x.overload) x.structs
      (fun y hy => by
        obtain ⟨k, m, _, _, hf⟩ := facts_mem hg hp hy
        refine ⟨?_, hf.cast⟩
        rw [hf.path, callPath_named, hf.name])
    simp only [List.map_cons, allMethods, ih, ha]
    rfl

theorem mem_entries {η : Type} {x : Offered η} (hg : GeneratedFor x.file x.service x.structs)
    (hp : PlainNames x.file x.service) {r : Registered η} (hr : r ∈ entries x) :
    ∃ (k : Nat) (m : Method) (y : MethodStruct), x.service.methods[k]? = some m ∧ x.structs[k]? = some y ∧ x.overload y = some r.handler ∧
      r.name = callPath x.file x.service m ∧ r.kind = kindOfCalls m ∧ r.handlerKind = kindOfCalls m := by
  unfold entries at hr
  obtain ⟨y, hy, he⟩ := List.mem_filterMap.mp hr
  obtain ⟨k, m, hm, hk, hf⟩ := facts_mem hg hp hy
  cases ho : x.overload y with
  | none => simp [ho] at he
  | some v =>
    simp only [ho, Option.map_some, Option.some.injEq] at he
    subst he
    exact ⟨k, m, y, hm, hk, ho, by rw [callPath_named _ _ m, hf.name], hf.kind, hf.kind⟩

theorem entries_mem {η : Type} {x : Offered η} (hg : GeneratedFor x.file x.service x.structs)
    (hp : PlainNames x.file x.service) {k : Nat} {m : Method} {y : MethodStruct} {h : η}
    (hm : x.service.methods[k]? = some m) (hy : x.structs[k]? = some y) (ho : x.overload y = some h) :
    (⟨callPath x.file x.service m, kindOfCalls m, kindOfCalls m, h⟩ : Registered η) ∈ entries x := by
  have hf := (facts hg hp).2 k m y hm hy
  unfold entries
  refine List.mem_filterMap.mpr ⟨y, List.mem_of_getElem? hy, ?_⟩
  simp only [ho, Option.map_some, Option.some.injEq]
  rw [hf.name, hf.kind, callPath_named _ _ m]

/-- Paths determine package, service and method. -/
theorem path_inj {f f' : File} {s s' : Service} {m m' : Method} (hp : PlainNames f s) (hp' : PlainNames f' s')
    (hm : m ∈ s.methods) (hm' : m' ∈ s'.methods) (e : callPath f s m = callPath f' s' m') :
    f.package = f'.package ∧ s.name = s'.name ∧ m.name = m'.name :=
  Props.C104_paths f f' s s' m m' (fun b hb => (hp.2.1 b hb).2) (fun b hb => (hp'.2.1 b hb).2)
    (fun b hb => (hp.2.2 m hm b hb).2) (fun b hb => (hp'.2.2 m' hm' b hb).2) e

theorem entries_distinct {η : Type} {x : Offered η} (hg : GeneratedFor x.file x.service x.structs)
    (hp : PlainNames x.file x.service) (hn : (x.service.methods.map (·.name)).Nodup) :
    (entries x).Pairwise (fun r r' => r.name ≠ r'.name) := by
  unfold entries
  rw [List.pairwise_filterMap]
  have hnames : x.structs.map (·.name) = x.service.methods.map (·.name) := by
    have hf := facts hg hp
    apply List.ext_getElem?
    intro i
    rw [List.getElem?_map, List.getElem?_map]
    by_cases hi : i < x.structs.length
    · have hi' : i < x.service.methods.length := by omega
      rw [List.getElem?_eq_getElem hi, List.getElem?_eq_getElem hi']
      simp only [Option.map_some, Option.some.injEq]
      exact (hf.2 i _ _ (by simp [hi']) (by simp [hi])).name
    · rw [List.getElem?_eq_none (by omega), List.getElem?_eq_none (by omega)]
      rfl
  rw [← hnames] at hn
  unfold List.Nodup at hn
  rw [List.pairwise_map] at hn
  refine List.Pairwise.imp_of_mem ?_ hn
  intro y y' hy hy' hne r hr r' hr' e
  obtain ⟨_, m, hm, _, hf⟩ := facts_mem hg hp hy
  obtain ⟨_, m', hm', _, hf'⟩ := facts_mem hg hp hy'
  cases ho : x.overload y with
  | none => simp [ho] at hr
  | some v =>
    cases ho' : x.overload y' with
    | none => simp [ho'] at hr'
    | some v' =>
      simp only [ho, Option.map_some, Option.some.injEq] at hr
      simp only [ho', Option.map_some, Option.some.injEq] at hr'
      subst hr
      subst hr'
      simp only [hf.name, hf'.name, ← callPath_named] at e
      have := path_inj hp hp (List.mem_of_getElem? hm) (List.mem_of_getElem? hm') e
      exact hne (by rw [hf.name, hf'.name]; exact this.2.2)

theorem all_distinct {η : Type} {xs : List (Offered η)}
    (hx : ∀ x ∈ xs, GeneratedFor x.file x.service x.structs ∧ PlainNames x.file x.service)
    (hn : NoRepetition xs) : (xs.flatMap entries).Pairwise (fun r r' => r.name ≠ r'.name) := by
  rw [List.pairwise_flatMap]
  refine ⟨fun x h => entries_distinct (hx x h).1 (hx x h).2 (hn.2 x h), ?_⟩
  refine List.Pairwise.imp_of_mem ?_ hn.1
  intro x x' h h' hne r hr r' hr' e
  obtain ⟨_, m, _, hm, _, _, e1, _⟩ := mem_entries (hx x h).1 (hx x h).2 hr
  obtain ⟨_, m', _, hm', _, _, e2, _⟩ := mem_entries (hx x' h').1 (hx x' h').2 hr'
  rw [e1, e2] at e
  have := path_inj (hx x h).2 (hx x' h').2 (List.mem_of_getElem? hm) (List.mem_of_getElem? hm') e
  exact hne ⟨this.1, this.2.1⟩

theorem route_iff {η : Type} : ∀ {rs : List (Registered η)}, rs.Pairwise (fun r r' => r.name ≠ r'.name) →
    ∀ {n : List Byte} {r : Registered η}, route rs n = some r ↔ r ∈ rs ∧ r.name = n
  | [], _, n, r => by simp [route]
  | a :: rs, h, n, r => by
    rw [List.pairwise_cons] at h
    have ih := @route_iff η rs h.2 n r
    unfold route at ih ⊢
    rw [List.find?_cons]
    by_cases e : a.name = n
    · have : (a.name == n) = true := by simpa using e
      simp only [this, Option.some.injEq, List.mem_cons]
      constructor
      · intro hr; subst hr; exact ⟨Or.inl rfl, e⟩
      · rintro ⟨hr | hr, hn⟩
        · exact hr.symm
        · exact absurd (e.trans hn.symm) (h.1 r hr)
    · have : (a.name == n) = false := by simpa using e
      simp only [this, ih, List.mem_cons]
      constructor
      · rintro ⟨h1, h2⟩; exact ⟨Or.inr h1, h2⟩
      · rintro ⟨h1 | h1, h2⟩
        · subst h1; exact absurd h2 e
        · exact ⟨h1, h2⟩

end HppProto.Routes
