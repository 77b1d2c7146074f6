import Verif.Proofs.FieldIter

/-!
# C139-C141: iterators over repeated fields and over the fields of a message
-/

namespace HppProto.Props
open HppProto.Iter HppProto.Iter.Spec

/-- Two fields: a list of three elements, and one of two. Reference 0 is to the first, 1 to the second, 2 a copy of 0. -/
def iterState : Iter.St Nat :=
  { refs := fun r => if r = 0 ∨ r = 2 then some 0 else if r = 1 then some 1 else none
    lists := fun l => if l = 0 then [10, 20, 30] else if l = 1 then [7, 8] else [] }

/-! ## C139 -/

/-- C139. An iterator from `begin()` that was moved by any increments, decrements, additions and subtractions, staying in the range,
is at the position they add up to: `*it` and `it[k]` are the elements there, differences and comparisons of two such
iterators are those of their positions, and the one at the size is `end()`. The size is a 32-bit number (`storage.hpp` 43-48). -/
theorem C139_random_access {V : Type} (asserts : Bool) (s : Iter.St V) (r l : Nat) (hr : s.refs r = some l)
    (hn : (s.lists l).length < 2 ^ 32) (ms ns : List Move) (p q : Nat)
    (hp : position (s.lists l).length 0 ms = some p) (hq : position (s.lists l).length 0 ns = some q) :
    ∃ b e it jt, Iter.begin s r = .ok b ∧ Iter.finish s r = .ok e ∧ b.walk ms = .ok it ∧ b.walk ns = .ok jt ∧
      it.diff jt = .ok (p - q) ∧ it.cmp asserts jt = .ok (compare p q) ∧ it.eq asserts jt = .ok (decide (p = q)) ∧
      it.eq asserts e = .ok (decide (p = (s.lists l).length)) ∧
      (∀ h : p < (s.lists l).length, it.deref asserts s = .ok (s.lists l)[p]) ∧
      (∀ (k : Int) (i : Nat) (h : i < (s.lists l).length), p + k = i → it.subscript asserts s k = .ok (s.lists l)[i]) := by
  obtain ⟨hp1, hp2⟩ := walk_ok hn r ms 0 p (Nat.zero_le _) hp
  obtain ⟨hq1, hq2⟩ := walk_ok hn r ns 0 q (Nat.zero_le _) hq
  refine ⟨⟨some r, 0⟩, ⟨some r, BitVec.ofNat 64 (s.lists l).length⟩, ⟨some r, BitVec.ofNat 64 p⟩, ⟨some r, BitVec.ofNat 64 q⟩,
    by simp only [Iter.begin, hr], by simp only [finish, hr], hp2, hq2, ?_, ?_, ?_, ?_, fun h => deref_ok asserts hr hn h, ?_⟩
  · simp only [It.diff, toInt_small (show p < 2 ^ 63 by omega), toInt_small (show q < 2 ^ 63 by omega), signed]
    rw [if_pos (by omega)]
  · simp only [It.cmp, bne_self_eq_false, Bool.and_false, Bool.false_eq_true, if_false,
      toNat_small (show p < 2 ^ 63 by omega), toNat_small (show q < 2 ^ 63 by omega)]
  · simp only [It.eq, bne_self_eq_false, Bool.and_false, Bool.false_eq_true, if_false]
    congr 1
    rw [Bool.eq_iff_iff]
    simp only [beq_iff_eq, decide_eq_true_eq, BitVec.toNat_eq, toNat_small (show p < 2 ^ 63 by omega),
      toNat_small (show q < 2 ^ 63 by omega)]
  · simp only [It.eq, bne_self_eq_false, Bool.and_false, Bool.false_eq_true, if_false]
    congr 1
    rw [Bool.eq_iff_iff]
    simp only [beq_iff_eq, decide_eq_true_eq, BitVec.toNat_eq, toNat_small (show p < 2 ^ 63 by omega),
      toNat_small (show (s.lists l).length < 2 ^ 63 by omega)]
  · intro k i hi hk
    have := move_ok hn hp1 r (.add k) (by simp only [distance]; omega)
    simp only [It.move, distance, hk] at this
    simp only [It.subscript, this, Got.bind]
    exact deref_ok asserts hr hn hi

/-- C139, loops: `for (auto x : ref)` visits every element once and in order, and ends. -/
theorem C139_range_for {V : Type} (asserts : Bool) (s : Iter.St V) (r l : Nat) (hr : s.refs r = some l)
    (hn : (s.lists l).length < 2 ^ 32) : rangeFor asserts s ((s.lists l).length + 1) r = .ok (s.lists l) := by
  simp only [rangeFor, Iter.begin, finish, hr, Got.bind]
  have := visit_ok asserts hr hn (s.lists l).length 0 ((s.lists l).length + 1) (by omega) (by omega)
  simpa using this

example : position 3 0 [.add 3, .dec, .sub 2, .inc, .inc] = some 2 ∧ position 3 0 [.inc] = some 1 ∧
    (It.walk ⟨some 0, 0⟩ [.add 3, .dec, .sub 2, .inc, .inc]).bind (It.deref true iterState) = .ok 30 ∧
    rangeFor true iterState 4 0 = .ok [10, 20, 30] := by decide +kernel

/-! ## C140 -/

/-- C140, where an element is an lvalue (repeated numbers): `std::copy` into a field writes the elements, and erasing with
`std::remove_if` leaves the elements for which the predicate is false, in order. Missing: strings, bytes, enums and messages
(`C140_proxies`). -/
theorem C140_numbers_partial {V : Type} (src dst : List V) (p : V → Bool) :
    (src.length ≤ dst.length → copyAll .lvalue src dst = src ++ dst.drop src.length) ∧
    eraseRemove .lvalue p dst = dst.filter fun v => !p v := by
  refine ⟨fun h => copyLoop_lvalue src src.length 0 dst (by omega) h rfl, ?_⟩
  simp only [eraseRemove]
  rw [removeLoop_lvalue p dst.length 0 0 dst (by omega) (by omega)]
  simp

/-- C140 for strings, bytes, enums and messages: assignment through an iterator changes nothing, `std::copy` does nothing, and
erasing with `std::remove_if` keeps the first elements, as many as should have been kept. -/
theorem C140_proxies {V : Type} (src dst : List V) (p : V → Bool) :
    copyAll .proxy src dst = dst ∧ eraseRemove .proxy p dst = dst.take (dst.filter fun v => !p v).length := by
  refine ⟨copyLoop_proxy src src.length 0 dst, ?_⟩
  simp only [eraseRemove]
  rw [removeLoop_proxy p dst.length 0 0 dst (by omega)]
  simp

/-- C140 fails: the names `a`, `b` and `c` without `a` become `a` and `b`. -/
theorem C140_statement_false :
    ¬ ∀ (k : Elem) (p : String → Bool) (l : List String), eraseRemove k p l = l.filter fun v => !p v :=
  fun h => absurd (h .proxy (· == "a") ["a", "b", "c"]) (by decide +kernel)

example : eraseRemove .lvalue (· == 2) [2, 1, 2, 3] = [1, 3] ∧ eraseRemove .proxy (· == 2) [2, 1, 2, 3] = [2, 1] ∧
    copyAll .lvalue [1, 2] [5, 6, 7] = [1, 2, 7] ∧ copyAll .proxy [1, 2] [5, 6, 7] = [5, 6, 7] := by decide +kernel

/-! ## C141 -/

/-- C141. As long as the reference object an iterator came from is neither destroyed nor assigned to, the iterator is at the same position of
the same field, whatever else happens: other references come and go, and the list is changed, also grown or shrunk.
Missing: the lifetime of the reference object itself (`C141_reference_destroyed`, `C141_reference_assigned`). -/
theorem C141_stable_partial {V : Type} (asserts : Bool) (s s' : Iter.St V) (r l i : Nat) (os : List (Op V)) (hr : s.refs r = some l)
    (h : runOps s os = .ok s') (ht : ∀ o ∈ os, ¬ touches r o) (hn : (s'.lists l).length < 2 ^ 32) :
    s'.lists l = os.foldl (listAfter l) (s.lists l) ∧
    (∀ hi : i < (s'.lists l).length, It.deref asserts s' ⟨some r, BitVec.ofNat 64 i⟩ = .ok (s'.lists l)[i]) := by
  obtain ⟨h1, h2⟩ := runOps_keeps os s s' h hr ht
  exact ⟨h2, fun hi => deref_ok asserts h1 hn hi⟩

example : ∃ s', runOps iterState [.append 0 40, .make 3 1, .destroy 2, .setAt 0 1 21, .assign 3 0, .shrink 1 1] = .ok s' ∧
    It.deref true s' ⟨some 0, 1⟩ = .ok 21 ∧ It.deref true s' ⟨some 0, 3⟩ = .ok 40 := ⟨_, rfl, rfl, rfl⟩

/-- C141 fails when the reference object is destroyed, although the message and its elements live: in
`auto it = message.typed_ref_by_name<repeated_string_field_mref>("f")->begin();` it is a temporary. -/
theorem C141_reference_destroyed {V : Type} (asserts : Bool) (s : Iter.St V) (r l : Nat) (hr : s.refs r = some l) :
    ∃ s' it, Iter.begin s r = .ok it ∧ Op.run s (.destroy r) = .ok s' ∧ s'.lists = s.lists ∧ It.deref asserts s' it = .ub := by
  refine ⟨{ s with refs := fun q => if q = r then none else s.refs q }, ⟨some r, 0⟩, by simp only [Iter.begin, hr],
    by simp only [Op.run, hr], rfl, ?_⟩
  simp [It.deref, It.spot, Got.bind]

/-- C141 fails when another reference is assigned to the object: the iterator goes on in the other field. -/
theorem C141_reference_assigned : ∃ s', runOps iterState [.assign 0 1] = .ok s' ∧ s'.lists 0 = [10, 20, 30] ∧
    It.deref true s' ⟨some 0, 0⟩ = .ok 7 := ⟨_, rfl, rfl, rfl⟩

/-- C141 fails for iterators from two references to the same field: comparing them, as in a loop from the `begin()` of one to the `end()` of the
other, fails an `assert`; without asserts it is fine. -/
theorem C141_two_references {V : Type} (s : Iter.St V) (r q l : Nat) (hr : s.refs r = some l) (hq : s.refs q = some l) (hne : r ≠ q) :
    ∃ b e, Iter.begin s r = .ok b ∧ Iter.finish s q = .ok e ∧ b.eq true e = .abort ∧ b.cmp true e = .abort ∧
      ((s.lists l).length < 2 ^ 32 → b.eq false e = .ok (decide (s.lists l = []))) := by
  refine ⟨⟨some r, 0⟩, ⟨some q, BitVec.ofNat 64 (s.lists l).length⟩, by simp only [Iter.begin, hr], by simp only [finish, hq], ?_, ?_, ?_⟩
  · simp [It.eq, hne]
  · simp [It.cmp, hne]
  · intro hn
    simp only [It.eq, Bool.false_and, Bool.false_eq_true, if_false]
    congr 1
    rw [Bool.eq_iff_iff]
    simp only [beq_iff_eq, decide_eq_true_eq, BitVec.toNat_eq, toNat_small (show (s.lists l).length < 2 ^ 63 by omega)]
    rw [← List.length_eq_zero_iff]
    exact eq_comm

/-- C141 for the view that `fields()` returns: it may be destroyed before its iterators, but the message reference may not. A view of
the fields of a temporary reference, as in `auto v = message.cref().fields();`, cannot be used at all. -/
theorem C141_fields_view {V : Type} (asserts : Bool) (s : Iter.St V) (r l : Nat) (hr : s.refs r = some l) :
    ∃ v, fields s r = .ok v ∧ v.begin = ⟨some r, 0⟩ ∧ v.finish s = Iter.finish s r ∧
      ∀ s', Op.run s (.destroy r) = .ok s' → v.finish s' = .ub ∧ It.deref asserts s' v.begin = .ub := by
  refine ⟨⟨r⟩, by simp only [fields, hr], rfl, rfl, fun s' h => ?_⟩
  simp only [Op.run, hr] at h
  cases h
  simp [FieldsView.finish, finish, FieldsView.begin, It.deref, It.spot, Got.bind]

/-- C141 fails as stated. -/
theorem C141_statement_false :
    ¬ ∀ (s s' : Iter.St Nat) (r i : Nat) (l : Nat) (os : List (Op Nat)), s.refs r = some l → runOps s os = .ok s' →
      (hi : i < (s'.lists l).length) → It.deref false s' ⟨some r, BitVec.ofNat 64 i⟩ = .ok (s'.lists l)[i] := by
  intro h
  have := h iterState _ 0 0 0 [.destroy 0] rfl rfl (by decide +kernel)
  exact absurd this (by decide +kernel)

end HppProto.Props
