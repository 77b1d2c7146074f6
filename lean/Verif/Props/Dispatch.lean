import Verif.Proofs.Dispatch
import Verif.Model.Schema
/-!
# Claim C27: field dispatch

`dispatchField ms n` is the index that `reverse_indices::dispatch` passes to its handler for
field number `n`, where `ms` are the members of the message type; `some none` stands for
"no such field", `none` for "handler not called".
-/
namespace HppProto.Props
open HppProto

/-- The member declares field number `n`. -/
def declares (n : BitVec 32) : MetaD → Bool
  | .field m => m == n
  | .oneof ns => ns.contains n

/-- Members as the generator lists them (hpp_generator.cpp 1601-1616): with proper numbers,
and at the end possibly the storage of unknown fields, which has the number 2^32 − 1. -/
def generated (ms : List MetaD) : Prop :=
  ∃ fields, (ms = fields ∨ ms = fields ++ [.field 0xffffffff#32]) ∧ ∀ m ∈ fields, declares 0xffffffff#32 m = false

theorem numbers_of {m : MetaD} (h : declares 0xffffffff#32 m = false) : m.numbers = match m with | .field n => [n] | .oneof ns => ns := by
  cases m with
  | field n => simp [declares] at h; simp [MetaD.numbers, h]
  | oneof ns =>
    simp only [declares] at h
    simp only [MetaD.numbers]
    induction ns with
    | nil => rfl
    | cons n ns ih =>
      simp only [List.contains_eq_mem, List.mem_cons, not_or, decide_eq_false_iff_not] at h ih
      rw [List.flatMap_cons, ih h.2, if_pos (by simpa [bne_iff_ne] using Ne.symm h.1)]; rfl

theorem find_members (n : BitVec 32) (hn : n ≠ 0xffffffff#32) (tail : List MetaD) (ht : tail = [] ∨ tail = [.field 0xffffffff#32]) :
    ∀ (fields : List MetaD) (i : Nat), (∀ m ∈ fields, declares 0xffffffff#32 m = false) →
    (fieldNumbers (fields ++ tail)).length ≤ (fieldIndices i (fields ++ tail)).length ∧
    (((fieldNumbers (fields ++ tail)).zip (fieldIndices i (fields ++ tail))).find? (fun p => n == p.1)).map Prod.snd =
      ((fields ++ tail).findIdx? (declares n)).map (· + i)
  | [], i, _ => by
    rcases ht with rfl | rfl
    · exact ⟨Nat.le_refl _, rfl⟩
    · simp [fieldNumbers, MetaD.numbers, fieldIndices, List.findIdx?_cons, declares, Ne.symm hn]
  | .field m :: fields, i, h => by
    obtain ⟨h1, h2⟩ := find_members n hn tail ht fields (i + 1) (fun x hx => h x (by simp [hx]))
    have e := numbers_of (h (.field m) (by simp))
    simp only [fieldNumbers] at h1 h2 ⊢
    simp only [List.cons_append, List.flatMap_cons, e, fieldIndices, List.nil_append, List.zip_cons_cons, List.find?_cons, List.findIdx?_cons, declares,
      List.length_cons]
    refine ⟨by omega, ?_⟩
    by_cases hm : n = m
    · simp [hm]
    · simp only [beq_eq_false_iff_ne.2 hm, beq_eq_false_iff_ne.2 (Ne.symm hm), Bool.false_eq_true, if_false]
      rw [h2, Option.map_map]
      congr 1
      funext x
      simp only [Function.comp]; omega
  | .oneof ns :: fields, i, h => by
    obtain ⟨h1, h2⟩ := find_members n hn tail ht fields (i + 1) (fun x hx => h x (by simp [hx]))
    have e := numbers_of (h (.oneof ns) (by simp))
    simp only [fieldNumbers] at h1 h2 ⊢
    simp only [List.cons_append, List.flatMap_cons, e, fieldIndices, List.findIdx?_cons]
    rw [List.zip_append (by simp), List.find?_append]
    refine ⟨by rw [List.length_append, List.length_append, List.length_replicate]; omega, ?_⟩
    have hz : ∀ ns : List (BitVec 32), ((ns.zip (List.replicate ns.length i)).find? (fun p => n == p.1)) = if ns.contains n then some (n, i) else none := by
      intro ns
      induction ns with
      | nil => rfl
      | cons x ns ih =>
        rw [List.length_cons, List.replicate_succ, List.zip_cons_cons, List.find?_cons]
        by_cases hx : n = x
        · simp [hx]
        · simp [hx, beq_eq_false_iff_ne.2 hx, ih]
    rw [hz]
    by_cases hm : ns.contains n = true
    · rw [if_pos hm, if_pos (show declares n (.oneof ns) = true from hm)]; simp
    · rw [if_neg hm, if_neg (show ¬ declares n (.oneof ns) = true from hm), Option.none_or, h2, Option.map_map]
      congr 1
      funext x
      simp only [Function.comp]; omega

/-- C27. For every list of members and every number: the handler is called with the index of
the (first) member that declares the number, or with "no such field" if none does. -/
theorem C27_dispatch (ms : List MetaD) (hg : generated ms) (n : BitVec 32) (hn : n ≠ 0xffffffff#32) :
    dispatchField ms n = some (ms.findIdx? (declares n)) := by
  obtain ⟨fields, hms, hf⟩ := hg
  obtain ⟨tail, rfl, ht⟩ : ∃ tail, ms = fields ++ tail ∧ (tail = [] ∨ tail = [.field 0xffffffff#32]) := by
    rcases hms with rfl | rfl
    · exact ⟨[], by simp, .inl rfl⟩
    · exact ⟨_, rfl, .inr rfl⟩
  obtain ⟨h1, h2⟩ := find_members n hn tail ht fields 0 hf
  rw [dispatch_find _ h1, h2]
  simp

def metaOf : SlotD → MetaD
  | .field n _ _ => .field n
  | .oneof alts => .oneof (alts.map Prod.fst)

/-- The members of a type of the schema model, with or without storage of unknown fields. -/
def metasOf (D : MsgD) (storage : Bool) : List MetaD :=
  D.slots.map metaOf ++ if storage then [.field 0xffffffff#32] else []

/-- C27, for the model of the reader: its search for the member of a field number is what the lookup
table of the code does. -/
theorem C27_reader_dispatch (D : MsgD) (storage : Bool) (hD : D.find 0xffffffff#32 = none) (n : BitVec 32) (hn : n ≠ 0xffffffff#32) :
    dispatchField (metasOf D storage) n = some (D.find n) := by
  have hdec : ∀ (k : BitVec 32) sd, declares k (metaOf sd) = sd.hasNumber k := by
    intro k sd
    cases sd with
    | field n kd c => simp [declares, metaOf, SlotD.hasNumber]
    | oneof alts =>
      simp only [declares, metaOf, SlotD.hasNumber, List.contains_eq_any_beq, List.any_map]
      congr 1
      funext a
      simp [Function.comp, Bool.beq_comm, BEq.comm]
  rw [C27_dispatch]
  · simp only [metasOf]
    rw [List.findIdx?_append, List.findIdx?_map]
    have : (List.findIdx? (declares n) (if storage then [MetaD.field 0xffffffff#32] else [])) = none := by
      cases storage <;> simp [List.findIdx?_cons, declares, Ne.symm hn]
    rw [this]
    simp only [Option.map_none, Option.or_none, MsgD.find]
    congr 2
    funext sd
    exact hdec n sd
  · refine ⟨D.slots.map metaOf, ?_, ?_⟩
    · unfold metasOf
      cases storage
      · exact .inl (by simp)
      · exact .inr rfl
    · intro m hm
      obtain ⟨sd, hsd, rfl⟩ := List.mem_map.1 hm
      rw [hdec]
      unfold MsgD.find at hD
      rw [List.findIdx?_eq_none_iff] at hD
      exact hD sd hsd
  · exact hn

/-- The example of the comment in the code (371-391): numbers 1, oneof {4, 9}, 20. -/
example :
    let ms := [MetaD.field 1, .oneof [4, 9], .field 20, .field 0xffffffff#32]
    generated ms ∧ dispatchMask ms = 7 ∧ lookupTable ms = [(1, 0), (9, 1), (4, 1), (20, 2)] ∧
    dispatchField ms 9 = some (some 1) ∧ dispatchField ms 12 = some none := by
  refine ⟨⟨[.field 1, .oneof [4, 9], .field 20], .inr rfl, ?_⟩, by decide, by decide, by decide, by decide⟩
  intro m hm
  simp at hm
  rcases hm with rfl | rfl | rfl <;> decide

/-- The order matters: with the storage of unknown fields before another member, numbers are
dispatched to the wrong member. -/
theorem C27_storage_first :
    dispatchField [MetaD.field 0xffffffff#32, .field 5] 5 = some (some 0) ∧
    [MetaD.field 0xffffffff#32, .field 5].findIdx? (declares 5) = some 1 := by decide

end HppProto.Props
