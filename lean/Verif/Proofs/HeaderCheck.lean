import Verif.Proofs.HeaderUses

/-! # Checking concrete schemas -/

namespace HppProto.Gen
open HppProto Schema

/-- `Part`, computed. -/
def partCheck (n : Name) : Bool := decide (n ≠ []) && !n.contains 0x2e

theorem partCheck_iff {n : Name} : partCheck n = true ↔ Part n := by
  simp [partCheck, Part]

namespace Schema

/-- `Ok`, computed. -/
def check (P : Schema) : Bool :=
  (List.range P.messages.length).all (fun m => (P.msg m).path.all partCheck) &&
  (List.range P.messages.length).all (fun m => (List.range P.messages.length).all fun k =>
    decide ((P.msg m).path = (P.msg k).path → m = k)) &&
  (List.range P.messages.length).all (fun m => match (P.msg m).parent with
    | none => decide ((P.msg m).path ≠ [] ∧ (P.msg m).path.dropLast = P.package (P.msg m).file)
    | some p => decide (p < m ∧ (P.msg p).file = (P.msg m).file ∧ (P.msg p).entry = false ∧ (P.msg m).path ≠ [] ∧
        (P.msg m).path.dropLast = (P.msg p).path)) &&
  (List.range P.messages.length).all (fun m => (List.range P.messages.length).all fun k =>
    !(P.msg k).path.isPrefixOf (P.msg m).path || decide (k = m) || match (P.msg m).parent with
      | none => false
      | some p => (P.msg k).path.isPrefixOf (P.msg p).path) &&
  (List.range P.messages.length).all (fun m => !(P.msg m).entry || match (P.fieldsOf m)[1]? with
    | none => false
    | some v => match (P.field v).kind with
      | .message t => !(P.msg t).entry
      | _ => true) &&
  (List.range P.fields.length).all (fun i => (match (P.field i).parent with
    | none => true
    | some m => decide (m < P.messages.length)) && match (P.field i).kind with
      | .scalar => true
      | .message t => decide (t < P.messages.length)
      | .enum o path => decide (path ≠ []) && path.all partCheck && match o with
        | none => (List.range P.messages.length).all fun m => !(P.msg m).path.isPrefixOf path
        | some o => decide (o < P.messages.length ∧ (P.msg o).entry = false ∧ (P.msg o).hasEnums = true ∧
            path.dropLast = (P.msg o).path))

theorem ok_of_check {P : Schema} (h : P.check = true) : P.Ok := by
  unfold check at h
  simp only [Bool.and_eq_true] at h
  obtain ⟨⟨⟨⟨⟨h1, h2⟩, h3⟩, h4⟩, h5⟩, h6⟩ := h
  simp only [List.all_eq_true, List.mem_range] at h1 h2 h3 h4 h5 h6
  have last : ∀ {p q : List Name}, p ≠ [] → p.dropLast = q → ∃ n, p = q ++ [n] := by
    intro p q h e
    rcases List.eq_nil_or_concat p with rfl | ⟨r, n, rfl⟩
    · exact absurd rfl h
    · refine ⟨n, ?_⟩
      rw [List.concat_eq_append, List.dropLast_concat] at e
      rw [List.concat_eq_append, e]
  refine ⟨?_, ?_, ?_, ?_, ?_, ?_, ?_, ?_, ?_⟩
  · intro m hm n hn
    exact partCheck_iff.mp (h1 m hm n hn)
  · intro m hm k hk
    exact of_decide_eq_true (h2 m hm k hk)
  · intro m hm hp
    have := h3 m hm
    rw [hp] at this
    have := of_decide_eq_true this
    exact last this.1 this.2
  · intro m hm p hp
    have := h3 m hm
    rw [hp] at this
    obtain ⟨a, b, c, d, e⟩ := of_decide_eq_true this
    exact ⟨a, b, c, last d e⟩
  · intro m hm k hk hw
    have := h4 m hm k hk
    have hw' : (P.msg k).path.isPrefixOf (P.msg m).path = true := List.isPrefixOf_iff_prefix.mpr hw
    simp only [hw', Bool.not_true, Bool.false_or, Bool.or_eq_true, decide_eq_true_eq] at this
    rcases this with h | h
    · exact .inl h
    · cases hp : (P.msg m).parent with
      | none => simp [hp] at h
      | some p =>
        simp only [hp] at h
        exact .inr ⟨p, rfl, List.isPrefixOf_iff_prefix.mp h⟩
  · intro m hm he
    have := h5 m hm
    simp only [he, Bool.not_true, Bool.false_or] at this
    cases hv : (P.fieldsOf m)[1]? with
    | none => simp [hv] at this
    | some v =>
      refine ⟨v, rfl, ?_⟩
      intro t ht
      simpa [hv, ht] using this
  · intro i hi m hm
    have := h6 i hi
    simp only [hm, Bool.and_eq_true, decide_eq_true_eq] at this
    exact this.1
  · intro i hi t ht
    have := h6 i hi
    simp only [ht, Bool.and_eq_true, decide_eq_true_eq] at this
    exact this.2
  · intro i hi o path hk
    have := h6 i hi
    simp only [hk, Bool.and_eq_true, List.all_eq_true, decide_eq_true_eq] at this
    obtain ⟨_, ⟨a, b⟩, c⟩ := this
    refine ⟨a, fun n hn => partCheck_iff.mp (b n hn), ?_⟩
    cases o with
    | none =>
      intro m hm hw
      simp only [List.all_eq_true, List.mem_range] at c
      have := c m hm
      rw [List.isPrefixOf_iff_prefix.mpr hw] at this
      cases this
    | some o =>
      obtain ⟨c1, c2, c3, c4⟩ := of_decide_eq_true c
      exact ⟨c1, c2, c3, last a c4⟩

/-- What is mentioned, computed. -/
def mentionList (P : Schema) : List (Nat × Kind) :=
  (List.range P.fields.length).flatMap fun i => match (P.field i).parent with
    | none => []
    | some m => match (P.field i).kind with
      | .message t => if (P.msg m).entry then [] else if (P.msg t).entry then (match (P.fieldsOf t)[1]? with
        | some v => [(m, (P.field v).kind)]
        | none => []) else [(m, .message t)]
      | k => [(m, k)]

theorem mention_mem {P : Schema} {m : Nat} {k : Kind} (h : P.Mentions m k) : (m, k) ∈ P.mentionList := by
  rcases h with ⟨h1, h2, h3, h4⟩ | ⟨h1, h2, h3, h4, h5, h6, h7⟩
  · refine List.mem_flatMap.mpr ⟨_, List.mem_range.mpr h1, ?_⟩
    rw [h2, h3]
    cases k with
    | message t => simp [h4 t rfl]
    | _ => exact List.mem_cons_self
  · refine List.mem_flatMap.mpr ⟨_, List.mem_range.mpr h1, ?_⟩
    simp [h2, h3, h4, h5, h6, h7]

/-- `TypeIn`, computed. -/
def typeInCheck (P : Schema) (y : Nat) : Kind → Bool
  | .scalar => false
  | .enum none _ => false
  | .enum (some o) _ => (P.msg y).path.isPrefixOf (P.msg o).path
  | .message t => (P.msg y).path.isPrefixOf (P.msg t).path

theorem typeIn_check {P : Schema} {y : Nat} {k : Kind} (h : P.TypeIn y k) : P.typeInCheck y k = true := by
  cases k with
  | scalar => exact h.elim
  | message t => exact List.isPrefixOf_iff_prefix.mpr h
  | enum o p =>
    cases o with
    | none => exact h.elim
    | some o => exact List.isPrefixOf_iff_prefix.mpr h

instance {P : Schema} {x y : Nat} : Decidable (P.Siblings x y) := by unfold Siblings; infer_instance

/-- What a message needs, computed. -/
def needList (P : Schema) (x : Nat) : List Nat :=
  (List.range P.messages.length).filter fun y => decide (P.Siblings x y) && P.mentionList.any fun mk =>
    (P.msg x).path.isPrefixOf (P.msg mk.1).path && P.typeInCheck y mk.2

theorem need_mem {P : Schema} {x y : Nat} (h : P.Needs x y) : y ∈ P.needList x := by
  obtain ⟨h2, m, k, h3, h4, h5⟩ := h
  refine List.mem_filter.mpr ⟨List.mem_range.mpr h2.2.1, ?_⟩
  simp only [Bool.and_eq_true, List.any_eq_true, decide_eq_true_eq]
  exact ⟨h2, (m, k), mention_mem h4, List.isPrefixOf_iff_prefix.mpr h3, typeIn_check h5⟩

/-- A message all of whose needs are settled. -/
theorem settled_of {P : Schema} {x : Nat} (h : ∀ y ∈ P.needList x, P.Settled y) : P.Settled x :=
  ⟨x, fun y hy => h y (need_mem hy)⟩

/-- Messages each of which needs another one of them. -/
theorem not_settled {P : Schema} {S : Nat → Prop} (h : ∀ x, S x → ∃ y, S y ∧ P.Needs x y) : ∀ x, S x → ¬ P.Settled x := by
  intro x hx hs
  induction hs with
  | intro x _ ih =>
    obtain ⟨y, hy, hn⟩ := h x hx
    exact ih y hn hy

end Schema
end HppProto.Gen
