import Verif.Spec.FieldIter

/-! # Lemmas on iterators -/

namespace HppProto.Iter
open Spec
variable {V : Type}

theorem toInt_small {k : Nat} (h : k < 2 ^ 63) : (BitVec.ofNat 64 k).toInt = k := by
  rw [BitVec.toInt_eq_toNat_cond, BitVec.toNat_ofNat]
  split <;> omega

theorem ofInt_small {k : Int} (h0 : 0 ≤ k) : BitVec.ofInt 64 k = BitVec.ofNat 64 k.toNat := by
  obtain ⟨n, rfl⟩ := Int.eq_ofNat_of_zero_le h0
  simp

theorem toNat_small {k : Nat} (h : k < 2 ^ 63) : (BitVec.ofNat 64 k).toNat = k := by
  simp only [BitVec.toNat_ofNat]
  omega

/-- A move within the range. -/
theorem move_ok {n p : Nat} (hn : n < 2 ^ 32) (hp : p ≤ n) (r : Nat) (m : Move)
    (h : 0 ≤ (p : Int) + distance m ∧ (p : Int) + distance m ≤ n) :
    It.move ⟨some r, BitVec.ofNat 64 p⟩ m = .ok ⟨some r, BitVec.ofNat 64 ((p : Int) + distance m).toNat⟩ := by
  have hs : (BitVec.ofNat 64 p).toInt = p := toInt_small (by omega)
  cases m with
  | inc =>
    simp only [It.move, It.inc, distance] at h ⊢
    congr 2
    apply BitVec.eq_of_toNat_eq
    have h1 : BitVec.toNat (1 : BitVec 64) = 1 := rfl
    simp only [BitVec.toNat_add, BitVec.toNat_ofNat, h1]
    omega
  | dec =>
    simp only [It.move, It.dec, distance] at h ⊢
    congr 2
    apply BitVec.eq_of_toNat_eq
    have h1 : BitVec.toNat (1 : BitVec 64) = 1 := rfl
    simp only [BitVec.toNat_sub, BitVec.toNat_ofNat, h1]
    omega
  | add k =>
    simp only [distance] at h
    simp only [It.move, It.add, hs, signed, distance]
    rw [if_pos (by omega)]
    simp only [Got.bind]
    rw [ofInt_small h.1]
  | sub k =>
    simp only [distance] at h
    simp only [It.move, It.sub, hs, signed, distance]
    rw [if_pos (by omega)]
    simp only [Got.bind]
    rw [ofInt_small (by omega)]
    rfl

theorem walk_ok {n : Nat} (hn : n < 2 ^ 32) (r : Nat) : ∀ (ms : List Move) (p q : Nat), p ≤ n →
    position n p ms = some q → q ≤ n ∧ It.walk ⟨some r, BitVec.ofNat 64 p⟩ ms = .ok ⟨some r, BitVec.ofNat 64 q⟩
  | [], p, q, hp, h => by cases h; exact ⟨hp, rfl⟩
  | m :: ms, p, q, hp, h => by
    simp only [position] at h
    split at h
    · rename_i hc
      have := walk_ok hn r ms _ q (by omega) h
      refine ⟨this.1, ?_⟩
      simp only [It.walk, move_ok hn hp r m hc, Got.bind]
      exact this.2
    · cases h

theorem spot_ok {s : St V} {r l p : Nat} (b : Bool) (hr : s.refs r = some l) (hn : (s.lists l).length < 2 ^ 32)
    (hp : p < (s.lists l).length) : It.spot b s ⟨some r, BitVec.ofNat 64 p⟩ = .ok (l, p) := by
  have h : (BitVec.ofNat 64 p).toNat = p := toNat_small (by omega)
  simp only [It.spot, hr, h, hp, if_true]

theorem deref_ok {s : St V} {r l p : Nat} (b : Bool) (hr : s.refs r = some l) (hn : (s.lists l).length < 2 ^ 32)
    (hp : p < (s.lists l).length) : It.deref b s ⟨some r, BitVec.ofNat 64 p⟩ = .ok (s.lists l)[p] := by
  simp only [It.deref, spot_ok b hr hn hp, Got.bind, List.getElem?_eq_getElem hp]

theorem visit_ok {s : St V} {r l : Nat} (b : Bool) (hr : s.refs r = some l) (hn : (s.lists l).length < 2 ^ 32) :
    ∀ (k p rounds : Nat), p + k = (s.lists l).length → k < rounds →
    visit b s rounds ⟨some r, BitVec.ofNat 64 p⟩ ⟨some r, BitVec.ofNat 64 (s.lists l).length⟩ =
      .ok ((s.lists l).drop p) := by
  intro k
  induction k with
  | zero =>
    intro p rounds hp hk
    obtain ⟨m, rfl⟩ : ∃ m, rounds = m + 1 := ⟨rounds - 1, by omega⟩
    have hp' : p = (s.lists l).length := by omega
    rw [hp']
    simp [visit, It.eq, Got.bind]
  | succ k ih =>
    intro p rounds hp hk
    obtain ⟨m, rfl⟩ : ∃ m, rounds = m + 1 := ⟨rounds - 1, by omega⟩
    have hlt : p < (s.lists l).length := by omega
    have hne : (BitVec.ofNat 64 p == BitVec.ofNat 64 (s.lists l).length) = false := by
      rw [beq_eq_false_iff_ne]
      intro h
      have := congrArg BitVec.toNat h
      simp only [BitVec.toNat_ofNat] at this
      omega
    have hinc : It.inc ⟨some r, BitVec.ofNat 64 p⟩ = ⟨some r, BitVec.ofNat 64 (p + 1)⟩ := by
      simp only [It.inc]
      congr 1
      apply BitVec.eq_of_toNat_eq
      simp [BitVec.toNat_add]
    have hd : (s.lists l).drop p = (s.lists l)[p] :: (s.lists l).drop (p + 1) := List.drop_eq_getElem_cons hlt
    have hv := ih (p + 1) m (by omega) (by omega)
    rw [hd]
    simp only [visit, It.eq, bne_self_eq_false, Bool.and_false, Bool.false_eq_true, if_false, hne, Got.bind,
      deref_ok b hr hn hlt, hinc, hv]

/-! ## Writing -/

theorem copyLoop_proxy (src : List V) : ∀ (n i : Nat) (l : List V), copyLoop .proxy src n i l = l
  | 0, _, _ => rfl
  | n + 1, i, l => by simp only [copyLoop, assignElem]; exact copyLoop_proxy src n (i + 1) l

theorem copyLoop_lvalue (src : List V) : ∀ (n i : Nat) (l : List V), i + n = src.length → src.length ≤ l.length →
    l.take i = src.take i → copyLoop .lvalue src n i l = src ++ l.drop src.length
  | 0, i, l, hi, hl, ht => by
    have : i = src.length := by omega
    subst this
    rw [List.take_length] at ht
    simp only [copyLoop]
    conv => lhs; rw [← List.take_append_drop src.length l, ht]
  | n + 1, i, l, hi, hl, ht => by
    have hlt : i < src.length := by omega
    simp only [copyLoop, assignElem, List.getElem?_eq_getElem hlt]
    rw [copyLoop_lvalue src n (i + 1) (l.set i src[i]) (by omega) (by simpa using hl)]
    · rw [List.drop_set_of_lt (by omega)]
    · rw [List.take_add_one, List.take_add_one, List.take_set_of_le (by omega), ht]
      simp [List.getElem?_set, hlt, show i < l.length by omega]

theorem removeLoop_proxy (p : V → Bool) : ∀ (n i r : Nat) (l : List V), i + n = l.length →
    removeLoop .proxy p n i r l = (l, r + ((l.drop i).filter fun v => !p v).length)
  | 0, i, r, l, h => by
    rw [List.drop_eq_nil_of_le (by omega)]
    rfl
  | n + 1, i, r, l, h => by
    have hlt : i < l.length := by omega
    rw [List.drop_eq_getElem_cons hlt]
    simp only [removeLoop, List.getElem?_eq_getElem hlt, assignElem, ite_self]
    cases hp : p l[i]
    · simp only [Bool.false_eq_true, if_false]
      rw [removeLoop_proxy p n (i + 1) (r + 1) l (by omega)]
      simp only [List.filter_cons, hp, Bool.not_false, if_true, List.length_cons]
      congr 1; omega
    · simp only [if_true]
      rw [removeLoop_proxy p n (i + 1) r l (by omega)]
      simp only [List.filter_cons, hp, Bool.not_true, Bool.false_eq_true, if_false]

theorem removeLoop_lvalue (p : V → Bool) : ∀ (n i r : Nat) (l : List V), i + n = l.length → r ≤ i →
    (removeLoop .lvalue p n i r l).1.take (removeLoop .lvalue p n i r l).2 =
      l.take r ++ (l.drop i).filter fun v => !p v
  | 0, i, r, l, h, hr => by
    rw [List.drop_eq_nil_of_le (by omega)]
    simp [removeLoop]
  | n + 1, i, r, l, h, hr => by
    have hlt : i < l.length := by omega
    rw [List.drop_eq_getElem_cons hlt]
    simp only [removeLoop, List.getElem?_eq_getElem hlt, assignElem]
    cases hp : p l[i]
    · simp only [Bool.false_eq_true, if_false]
      by_cases hri : r = i
      · subst hri
        rw [if_pos rfl, removeLoop_lvalue p n (r + 1) (r + 1) l (by omega) (by omega)]
        simp only [List.filter_cons, hp, Bool.not_false, if_true, List.take_add_one, List.getElem?_eq_getElem hlt,
          Option.toList_some, List.append_assoc, List.singleton_append]
      · rw [if_neg hri, removeLoop_lvalue p n (i + 1) (r + 1) (l.set r l[i]) (by simp; omega) (by omega),
          List.drop_set_of_lt (by omega), List.take_add_one, List.take_set_of_le (by omega)]
        rw [List.getElem?_set_self (by omega)]
        simp only [List.filter_cons, hp, Bool.not_false, if_true, Option.toList_some, List.append_assoc, List.singleton_append]
    · simp only [if_true]
      rw [removeLoop_lvalue p n (i + 1) r l (by omega) (by omega)]
      simp only [List.filter_cons, hp, Bool.not_true, Bool.false_eq_true, if_false]

/-! ## Lifetimes -/

theorem run_refs {s s' : St V} {o : Op V} {r l : Nat} (h : o.run s = .ok s') (hr : s.refs r = some l)
    (ht : ¬ touches r o) : s'.refs r = some l := by
  cases o <;> simp only [Op.run, touches] at h ht <;> (try split at h) <;> cases h <;> simp_all
  · intro e; subst e; simp_all
  · intro e; subst e; simp_all
  · intro e; exact absurd e.symm ht
  · exact fun e => ht e.symm

theorem run_list {s s' : St V} {o : Op V} (h : o.run s = .ok s') (l : Nat) :
    s'.lists l = listAfter l (s.lists l) o := by
  cases o <;> simp only [Op.run, listAfter] at h ⊢ <;> (try split at h) <;> cases h <;> (try rfl) <;>
    (dsimp only; grind)

theorem runOps_keeps {r l : Nat} : ∀ (os : List (Op V)) (s s' : St V), runOps s os = .ok s' → s.refs r = some l →
    (∀ o ∈ os, ¬ touches r o) → s'.refs r = some l ∧ s'.lists l = os.foldl (listAfter l) (s.lists l)
  | [], s, s', h, hr, _ => by cases h; exact ⟨hr, rfl⟩
  | o :: os, s, s', h, hr, ht => by
    simp only [runOps] at h
    cases hc : o.run s with
    | ok t =>
      rw [hc] at h
      have h1 := run_refs hc hr (ht o (List.mem_cons_self ..))
      have h2 := run_list hc l
      have := runOps_keeps os t s' h h1 fun o' ho' => ht o' (List.mem_cons_of_mem _ ho')
      rw [h2] at this
      exact this
    | abort => rw [hc] at h; cases h
    | ub => rw [hc] at h; cases h

end HppProto.Iter
