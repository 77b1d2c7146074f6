import Verif.Spec.FiniteMap
/-! # Proofs about `flat_map` under operation histories -/
namespace HppProto
open Spec

section order
variable {α : Type} {lt : α → α → Bool} (w : StrictWeak lt)
include w

theorem StrictWeak.asymm {a b : α} (h : lt a b = true) : lt b a = false := by
  cases h' : lt b a
  · rfl
  · have := w.trans _ _ _ h h'; rw [w.irrefl] at this; cases this

theorem same_refl (a : α) : same lt a a = true := by simp [same, w.irrefl]
omit w in
theorem same_symm {a b : α} (h : same lt a b = true) : same lt b a = true := by
  simp only [same, Bool.and_eq_true, Bool.not_eq_true'] at *; exact ⟨h.2, h.1⟩
omit w in
theorem same_iff {a b : α} : same lt a b = true ↔ lt a b = false ∧ lt b a = false := by simp [same]

theorem lt_congr_left {a b c : α} (h : same lt a b = true) : lt a c = lt b c := by
  obtain ⟨h1, h2⟩ := same_iff.1 h
  cases h3 : lt b c
  · exact w.incomp _ _ _ h1 h3
  · cases h4 : lt a c
    · rw [w.incomp _ _ _ h2 h4] at h3; cases h3
    · rfl

theorem lt_congr_right {a b c : α} (h : same lt a b = true) : lt c a = lt c b := by
  obtain ⟨h1, h2⟩ := same_iff.1 h
  cases h3 : lt c b
  · exact w.incomp _ _ _ h3 h2
  · cases h4 : lt c a
    · rw [w.incomp _ _ _ h4 h1] at h3; cases h3
    · rfl

theorem same_congr {a b c : α} (h : same lt a b = true) : same lt a c = same lt b c := by
  simp only [same, lt_congr_left w h, lt_congr_right w h]

theorem lt_of_lt_of_le {a b c : α} (h : lt a b = true) (h' : lt c b = false) : lt a c = true := by
  cases h1 : lt a c
  · rw [w.incomp _ _ _ h1 h'] at h; cases h
  · rfl

theorem lt_of_le_of_lt {a b c : α} (h : lt b a = false) (h' : lt b c = true) : lt a c = true := by
  cases h1 : lt a c
  · rw [w.incomp _ _ _ h h1] at h'; cases h'
  · rfl

theorem not_same_of_lt {a b : α} (h : lt a b = true) : same lt a b = false := by simp [same, h]
theorem not_same_of_gt {a b : α} (h : lt b a = true) : same lt a b = false := by simp [same, h]
end order

/-- `std::partition_point` finds the border. -/
theorem partitionPoint_spec {α : Type} (p : α → Bool) (l : List α) (fuel first len : Nat) (hf : len ≤ fuel)
    (hl : first + len ≤ l.length)
    (hp : ∀ i j x y, first ≤ i → i ≤ j → j < first + len → l[i]? = some x → l[j]? = some y → p y = true → p x = true) :
    first ≤ partitionPoint p l fuel first len ∧ partitionPoint p l fuel first len ≤ first + len ∧
    (∀ j x, first ≤ j → j < partitionPoint p l fuel first len → l[j]? = some x → p x = true) ∧
    (∀ j x, partitionPoint p l fuel first len ≤ j → j < first + len → l[j]? = some x → p x = false) := by
  induction fuel generalizing first len with
  | zero =>
    have : len = 0 := by omega
    subst this
    refine ⟨Nat.le_refl _, Nat.le_refl _, fun j x h1 h2 => ?_, fun j x h1 h2 => ?_⟩
    · simp only [partitionPoint] at h2; omega
    · simp only [partitionPoint] at h1; omega
  | succ fuel ih =>
    by_cases h0 : len = 0
    · subst h0
      have e : partitionPoint p l (fuel + 1) first 0 = first := by simp [partitionPoint]
      rw [e]
      exact ⟨Nat.le_refl _, Nat.le_refl _, fun j x h1 h2 => by omega, fun j x h1 h2 => by omega⟩
    · have hlt : first + len / 2 < l.length := by omega
      have hx : l[first + len / 2]? = some l[first + len / 2] := List.getElem?_eq_getElem hlt
      generalize l[first + len / 2] = x at hx
      rw [partitionPoint, if_neg h0]
      simp only [hx]
      cases hpx : p x
      · simp only [Bool.false_eq_true, if_false]
        obtain ⟨a1, a2, a3, a4⟩ := ih first (len / 2) (by omega) (by omega) (fun i j x y h1 h2 h3 => hp i j x y h1 h2 (by omega))
        refine ⟨a1, by omega, a3, fun j y h1 h2 h3 => ?_⟩
        by_cases hj : j < first + len / 2
        · exact a4 j y h1 hj h3
        · cases hpy : p y
          · rfl
          · have := hp (first + len / 2) j x y (by omega) (by omega) h2 hx h3 hpy
            rw [hpx] at this; cases this
      · simp only [if_true]
        obtain ⟨a1, a2, a3, a4⟩ := ih (first + len / 2 + 1) (len - len / 2 - 1) (by omega) (by omega)
          (fun i j x y h1 h2 h3 => hp i j x y (by omega) h2 (by omega))
        refine ⟨by omega, by omega, fun j y h1 h2 h3 => ?_, fun j y h1 h2 h3 => a4 j y h1 (by omega) h3⟩
        by_cases hj : first + len / 2 < j
        · exact a3 j y (by omega) h2 h3
        · exact hp j (first + len / 2) y x h1 (by omega) (by omega) h3 hx hpx

section map
variable {α β : Type} {lt : α → α → Bool}

/-- Entries of the map. -/
def ofEntries (e : List (α × β)) : FlatMap α β := ⟨e.map (·.1), e.map (·.2)⟩

/-- The value of the first entry with the key. -/
def lookup (lt : α → α → Bool) : List (α × β) → FinMap α β
  | [], _ => none
  | (k, v) :: e, x => if same lt x k then some v else lookup lt e x

/-- Sorted entries. -/
def SortedE (lt : α → α → Bool) (e : List (α × β)) : Prop := StrictlySorted lt (e.map (·.1))

theorem SortedE_iff {e : List (α × β)} : SortedE lt e ↔ e.Pairwise fun a b => lt a.1 b.1 = true := List.pairwise_map

theorem lookup_append (e1 e2 : List (α × β)) (x : α) :
    lookup lt (e1 ++ e2) x = (lookup lt e1 x).or (lookup lt e2 x) := by
  induction e1 with
  | nil => rfl
  | cons p e ih =>
    obtain ⟨k, v⟩ := p
    simp only [List.cons_append, lookup]
    split
    · rfl
    · exact ih

theorem lookup_none {e : List (α × β)} {x : α} (h : ∀ p ∈ e, same lt x p.1 = false) : lookup lt e x = none := by
  induction e with
  | nil => rfl
  | cons p e ih =>
    obtain ⟨k, v⟩ := p
    simp only [lookup, h (k, v) (by simp)]
    exact ih fun q hq => h q (by simp [hq])

theorem lookup_mem {e : List (α × β)} {x : α} {v : β} (h : lookup lt e x = some v) :
    ∃ k, (k, v) ∈ e ∧ same lt x k = true := by
  induction e with
  | nil => cases h
  | cons p e ih =>
    obtain ⟨k, u⟩ := p
    simp only [lookup] at h
    split at h
    · next hs => injection h with h; subst h; exact ⟨k, by simp, hs⟩
    · obtain ⟨k', h1, h2⟩ := ih h; exact ⟨k', by simp [h1], h2⟩

theorem lookup_of_mem {e : List (α × β)} {k k' : α} {v : β} (hm : (k', v) ∈ e) (hs : same lt k k' = true) :
    lookup lt e k ≠ none := by
  induction e with
  | nil => cases hm
  | cons p e ih =>
    obtain ⟨a, b⟩ := p
    simp only [lookup]
    split
    · simp
    · next hne =>
      rcases List.mem_cons.1 hm with h | h
      · injection h with h _; subst h; exact absurd hs hne
      · exact ih h

theorem insertIdx_split {δ : Type} (l1 l2 : List δ) (x : δ) : (l1 ++ l2).insertIdx l1.length x = l1 ++ x :: l2 := by
  induction l1 with
  | nil => rfl
  | cons a l ih => simp [ih]

theorem eraseIdx_split {δ : Type} (l1 l2 : List δ) (x : δ) : (l1 ++ x :: l2).eraseIdx l1.length = l1 ++ l2 := by
  induction l1 with
  | nil => rfl
  | cons a l ih => simp [ih]

theorem set_split {δ : Type} (l1 l2 : List δ) (x y : δ) : (l1 ++ x :: l2).set l1.length y = l1 ++ y :: l2 := by
  induction l1 with
  | nil => rfl
  | cons a l ih => simp [ih]

variable (w : StrictWeak lt)
include w

/-- A search from position `e0.length` on, all of whose earlier keys are smaller. -/
theorem partition_split {e0 e : List (α × β)} (hs : SortedE lt (e0 ++ e)) (k : α) (h0 : ∀ p ∈ e0, lt p.1 k = true) :
    ∃ e1 e2, e0 ++ e = e1 ++ e2 ∧ e0.length ≤ e1.length ∧
      partitionPoint (fun x => lt x k) ((e0 ++ e).map (·.1)) e.length e0.length e.length = e1.length ∧
      (∀ p ∈ e1, lt p.1 k = true) ∧ (∀ p ∈ e2, lt p.1 k = false) := by
  have hs' := SortedE_iff.1 hs
  have key := partitionPoint_spec (fun x => lt x k) ((e0 ++ e).map (·.1)) e.length e0.length e.length (Nat.le_refl _)
    (by simp) (fun i j x y h1 h2 h3 hx hy hp => by
      rcases Nat.eq_or_lt_of_le h2 with rfl | h2
      · rw [hx] at hy; injection hy with hy; subst hy; exact hp
      · have hi : i < ((e0 ++ e).map (·.1)).length := (List.getElem?_eq_some_iff.1 hx).1
        have hj : j < ((e0 ++ e).map (·.1)).length := (List.getElem?_eq_some_iff.1 hy).1
        have := List.pairwise_iff_getElem.1 hs i j hi hj h2
        rw [(List.getElem?_eq_some_iff.1 hx).2, (List.getElem?_eq_some_iff.1 hy).2] at this
        exact w.trans _ _ _ this hp)
  generalize partitionPoint (fun x => lt x k) ((e0 ++ e).map (·.1)) e.length e0.length e.length = r at key
  obtain ⟨k1, k2, k3, k4⟩ := key
  refine ⟨(e0 ++ e).take r, (e0 ++ e).drop r, (List.take_append_drop _ _).symm, ?_, ?_, ?_, ?_⟩
  · simp; omega
  · simp; omega
  · intro p hp
    obtain ⟨j, hj, rfl⟩ := List.getElem_of_mem hp
    rw [List.getElem_take]
    have hj' : j < r := by simp at hj; omega
    have hl : j < (e0 ++ e).length := by simp at hj ⊢; omega
    by_cases hj0 : j < e0.length
    · rw [List.getElem_append_left hj0]; exact h0 _ (List.getElem_mem _)
    · exact k3 j _ (by omega) hj' (by rw [List.getElem?_map, List.getElem?_eq_getElem hl]; rfl)
  · intro p hp
    obtain ⟨j, hj, rfl⟩ := List.getElem_of_mem hp
    rw [List.getElem_drop]
    have hl : r + j < (e0 ++ e).length := by simp at hj ⊢; omega
    exact k4 (r + j) _ (by omega) (by simpa using hl) (by rw [List.getElem?_map, List.getElem?_eq_getElem hl]; rfl)

/-- `lower_bound` splits the entries. -/
theorem lowerBound_split {e : List (α × β)} (hs : SortedE lt e) (k : α) :
    ∃ e1 e2, e = e1 ++ e2 ∧ (ofEntries e).lowerBound lt k = e1.length ∧
      (∀ p ∈ e1, lt p.1 k = true) ∧ (∀ p ∈ e2, lt p.1 k = false) := by
  obtain ⟨e1, e2, h1, _, h2, h3⟩ := partition_split w (e0 := []) (e := e) hs k (fun _ h => by cases h)
  refine ⟨e1, e2, h1, ?_, h3⟩
  rw [FlatMap.lowerBound, ← h2]; simp [ofEntries]

omit w in
theorem absentAt_split (e1 e2 : List (α × β)) (k : α) :
    (ofEntries (e1 ++ e2)).absentAt lt k e1.length = match e2 with | [] => true | p :: _ => lt k p.1 := by
  unfold FlatMap.absentAt
  cases e2 with
  | nil => simp [ofEntries]
  | cons p e => simp [ofEntries]

/-- Where a key is or belongs. -/
inductive Place (lt : α → α → Bool) (e : List (α × β)) (k : α) : Prop
  | absent (e1 e2 : List (α × β)) (he : e = e1 ++ e2) (hl : (ofEntries e).lowerBound lt k = e1.length)
      (ha : (ofEntries e).absentAt lt k e1.length = true)
      (h1 : ∀ p ∈ e1, lt p.1 k = true) (h2 : ∀ p ∈ e2, lt k p.1 = true)
  | present (e1 e2 : List (α × β)) (k' : α) (v' : β) (he : e = e1 ++ (k', v') :: e2)
      (hl : (ofEntries e).lowerBound lt k = e1.length) (ha : (ofEntries e).absentAt lt k e1.length = false)
      (hk : same lt k k' = true) (h1 : ∀ p ∈ e1, lt p.1 k = true) (h2 : ∀ p ∈ e2, lt k p.1 = true)

theorem place {e : List (α × β)} (hs : SortedE lt e) (k : α) : Place lt e k := by
  obtain ⟨e1, e2, he, hl, h1, h2⟩ := lowerBound_split w hs k
  have hab := absentAt_split (lt := lt) e1 e2 k
  have hp : e2.Pairwise fun a b => lt a.1 b.1 = true := by
    have := SortedE_iff.1 hs; rw [he] at this; exact (List.pairwise_append.1 this).2.1
  cases e2 with
  | nil => exact .absent e1 [] he hl (by rw [he]; exact hab) h1 (fun _ h => by cases h)
  | cons p e2 =>
    obtain ⟨k', v'⟩ := p
    have hp' := List.pairwise_cons.1 hp
    cases hk : lt k k'
    · have hsm : same lt k k' = true := same_iff.2 ⟨hk, h2 (k', v') (by simp)⟩
      refine .present e1 e2 k' v' he hl (by rw [he, hab]; exact hk) hsm h1 (fun p hp => ?_)
      rw [lt_congr_left w hsm]; exact hp'.1 p hp
    · refine .absent e1 ((k', v') :: e2) he hl (by rw [he, hab]; exact hk) h1 (fun p hp => ?_)
      rcases List.mem_cons.1 hp with rfl | hp
      · exact hk
      · exact w.trans _ _ _ hk (hp'.1 p hp)

/-- Entries around a key. -/
theorem sorted_insert {e1 e2 : List (α × β)} {k : α} {v : β} (hs : SortedE lt (e1 ++ e2))
    (h1 : ∀ p ∈ e1, lt p.1 k = true) (h2 : ∀ p ∈ e2, lt k p.1 = true) : SortedE lt (e1 ++ (k, v) :: e2) := by
  rw [SortedE_iff] at *
  obtain ⟨a, b, c⟩ := List.pairwise_append.1 hs
  refine List.pairwise_append.2 ⟨a, List.pairwise_cons.2 ⟨h2, b⟩, fun x hx y hy => ?_⟩
  rcases List.mem_cons.1 hy with rfl | hy
  · exact h1 x hx
  · exact c x hx y hy

theorem lookup_none_around {e1 e2 : List (α × β)} {k x : α} (hx : same lt x k = true)
    (h1 : ∀ p ∈ e1, lt p.1 k = true) (h2 : ∀ p ∈ e2, lt k p.1 = true) : 
    lookup lt e1 x = none ∧ lookup lt e2 x = none := by
  refine ⟨lookup_none fun p hp => ?_, lookup_none fun p hp => ?_⟩
  · rw [same_congr w hx]; exact not_same_of_gt w (h1 p hp)
  · rw [same_congr w hx]; exact not_same_of_lt w (h2 p hp)

theorem lookup_insert {e1 e2 : List (α × β)} {k : α} {v : β} (h1 : ∀ p ∈ e1, lt p.1 k = true) :
    lookup lt (e1 ++ (k, v) :: e2) = FinMap.put lt (lookup lt (e1 ++ e2)) k v := by
  funext x
  simp only [lookup_append, FinMap.put, lookup]
  cases hx : same lt x k
  · rfl
  · simp only [if_true]
    rw [lookup_none (e := e1)]; rfl
    intro p hp
    rw [same_congr w hx]; exact not_same_of_gt w (h1 p hp)

theorem lookup_absent {e1 e2 : List (α × β)} {k : α} (h1 : ∀ p ∈ e1, lt p.1 k = true) (h2 : ∀ p ∈ e2, lt k p.1 = true) :
    lookup lt (e1 ++ e2) k = none := by
  obtain ⟨a, b⟩ := lookup_none_around w (same_refl w k) h1 h2
  rw [lookup_append, a, b]; rfl

theorem lookup_present {e1 e2 : List (α × β)} {k k' : α} {v' : β} (hk : same lt k k' = true)
    (h1 : ∀ p ∈ e1, lt p.1 k = true) : lookup lt (e1 ++ (k', v') :: e2) k = some v' := by
  rw [lookup_append, lookup_none (e := e1) (fun p hp => not_same_of_gt w (h1 p hp))]
  simp [lookup, hk]

/-- The value at a present key can be replaced. -/
theorem lookup_replace {e1 e2 : List (α × β)} {k k' : α} {v v' : β} (hk : same lt k k' = true)
    (h1 : ∀ p ∈ e1, lt p.1 k = true) :
    lookup lt (e1 ++ (k', v) :: e2) = FinMap.put lt (lookup lt (e1 ++ (k', v') :: e2)) k v := by
  funext x
  have hsx : same lt x k' = same lt x k := by
    cases h : same lt x k
    · cases h' : same lt x k'
      · rfl
      · rw [same_congr w h', same_symm hk] at h; cases h
    · rw [same_congr w h, hk]
  simp only [lookup_append, FinMap.put, lookup, hsx]
  cases hx : same lt x k
  · rfl
  · simp only [if_true]
    rw [lookup_none (e := e1)]; rfl
    intro p hp
    rw [same_congr w hx]; exact not_same_of_gt w (h1 p hp)

omit w in
theorem sorted_replace {e1 e2 : List (α × β)} {k : α} {v v' : β} (hs : SortedE lt (e1 ++ (k, v) :: e2)) :
    SortedE lt (e1 ++ (k, v') :: e2) := by
  unfold SortedE at *; simpa using hs

/-- The map has these entries, sorted, and they are the finite map `f`. -/
def Holds (lt : α → α → Bool) (m : FlatMap α β) (f : FinMap α β) : Prop :=
  ∃ e, m = ofEntries e ∧ SortedE lt e ∧ lookup lt e = f

omit w in
theorem insertAt_split (e1 e2 : List (α × β)) (k : α) (v : β) :
    (ofEntries (e1 ++ e2)).insertAt e1.length k v = ofEntries (e1 ++ (k, v) :: e2) := by
  have a := insertIdx_split (e1.map (·.1)) (e2.map (·.1)) k
  have b := insertIdx_split (e1.map (·.2)) (e2.map (·.2)) v
  simp only [List.length_map] at a b
  simp [FlatMap.insertAt, ofEntries, a, b]

omit w in
theorem setVal_split (e1 e2 : List (α × β)) (k : α) (v v' : β) :
    (ofEntries (e1 ++ (k, v') :: e2)).setVal e1.length v = ofEntries (e1 ++ (k, v) :: e2) := by
  have b := set_split (e1.map (·.2)) (e2.map (·.2)) v' v
  simp only [List.length_map] at b
  simp [FlatMap.setVal, ofEntries, b]

omit w in
theorem eraseAt_split (e1 e2 : List (α × β)) (k : α) (v : β) :
    (ofEntries (e1 ++ (k, v) :: e2)).eraseAt e1.length = ofEntries (e1 ++ e2) := by
  have a := eraseIdx_split (e1.map (·.1)) (e2.map (·.1)) k
  have b := eraseIdx_split (e1.map (·.2)) (e2.map (·.2)) v
  simp only [List.length_map] at a b
  simp [FlatMap.eraseAt, ofEntries, a, b]

/-- Everything `try_emplace` does. -/
theorem tryEmplace_spec {e : List (α × β)} (hs : SortedE lt e) (k : α) (v : β) :
    ∃ e1 e2 k' v', (ofEntries e).tryEmplace lt k v = (ofEntries (e1 ++ (k', v') :: e2), e1.length, !(lookup lt e k).isSome) ∧
      SortedE lt (e1 ++ (k', v') :: e2) ∧ lookup lt (e1 ++ (k', v') :: e2) = FinMap.putNew lt (lookup lt e) k v ∧
      same lt k k' = true ∧ (∀ p ∈ e1, lt p.1 k = true) ∧ (∀ p ∈ e2, lt k p.1 = true) ∧
      (lookup lt e k = none → v' = v ∧ e.length < (e1 ++ (k', v') :: e2).length) ∧
      (lookup lt e k ≠ none → e = e1 ++ (k', v') :: e2) := by
  cases place w hs k with
  | absent e1 e2 he hl ha h1 h2 =>
    subst he
    have hn := lookup_absent w h1 h2
    refine ⟨e1, e2, k, v, ?_, sorted_insert w hs h1 h2, ?_, same_refl w k, h1, h2, fun _ => ⟨rfl, by simp⟩, fun h => absurd hn h⟩
    · simp only [FlatMap.tryEmplace, hl, ha, if_true, insertAt_split, hn]; rfl
    · rw [FinMap.putNew, hn]; exact lookup_insert w h1
  | present e1 e2 k' v' he hl ha hk h1 h2 =>
    subst he
    have hn := lookup_present w hk h1 (v' := v') (e2 := e2)
    refine ⟨e1, e2, k', v', ?_, hs, ?_, hk, h1, h2, fun h => (by rw [hn] at h; cases h), fun _ => rfl⟩
    · simp only [FlatMap.tryEmplace, hl, ha, hn]; rfl
    · rw [FinMap.putNew, hn]; rfl

theorem putNew_put {f : FinMap α β} {k : α} {u v : β} : FinMap.put lt (FinMap.putNew lt f k u) k v = FinMap.put lt f k v := by
  funext x
  simp only [FinMap.put, FinMap.putNew]
  cases h : same lt x k
  · cases (f k).isSome
    · simp [FinMap.put, h]
    · rfl
  · rfl

theorem indexAssign_holds {e : List (α × β)} (hs : SortedE lt e) (dflt : β) (k : α) (v : β) :
    Holds lt ((ofEntries e).indexAssign lt dflt k v) (FinMap.put lt (lookup lt e) k v) := by
  obtain ⟨e1, e2, k', v', h1, h2, h3, h4, h5, h6, _, _⟩ := tryEmplace_spec w hs k dflt
  refine ⟨e1 ++ (k', v) :: e2, ?_, sorted_replace h2, ?_⟩
  · simp only [FlatMap.indexAssign, h1, setVal_split]
  · rw [lookup_replace w h4 h5 (v' := v'), h3, putNew_put w]

theorem insertOrAssign_holds {e : List (α × β)} (hs : SortedE lt e) (k : α) (v : β) :
    Holds lt ((ofEntries e).insertOrAssign lt k v) (FinMap.put lt (lookup lt e) k v) := by
  obtain ⟨e1, e2, k', v', h1, h2, h3, h4, h5, h6, h7, h8⟩ := tryEmplace_spec w hs k v
  cases hl : lookup lt e k with
  | none =>
    refine ⟨_, ?_, h2, ?_⟩
    · simp only [FlatMap.insertOrAssign, h1, hl, Option.isSome, Bool.not_false, Bool.not_true, if_false]; rfl
    · rw [h3, FinMap.putNew, hl]; rfl
  | some u =>
    refine ⟨e1 ++ (k', v) :: e2, ?_, sorted_replace h2, ?_⟩
    · simp only [FlatMap.insertOrAssign, h1, hl, Option.isSome, Bool.not_false, Bool.not_true, if_true, setVal_split]
    · rw [lookup_replace w h4 h5 (v' := v'), h3, putNew_put w]

/-- What a hinted insertion must yield. -/
def HintRes (lt : α → α → Bool) (e : List (α × β)) (k : α) (v : β) (r : FlatMap α β × Nat) : Prop :=
  ∃ e1 e2 k' v', r = (ofEntries (e1 ++ (k', v') :: e2), e1.length) ∧
    SortedE lt (e1 ++ (k', v') :: e2) ∧ lookup lt (e1 ++ (k', v') :: e2) = FinMap.putNew lt (lookup lt e) k v ∧
    same lt k k' = true ∧ (∀ p ∈ e1, lt p.1 k = true) ∧
    (lookup lt e k = none → v' = v ∧ e.length < (e1 ++ (k', v') :: e2).length) ∧
    (lookup lt e k ≠ none → e = e1 ++ (k', v') :: e2)

/-- Result of a hinted insertion. -/
theorem tryEmplaceHint_spec {e : List (α × β)} (hs : SortedE lt e) (h : Nat) (hh : h ≤ e.length) (k : α) (v : β) :
    HintRes lt e k v ((ofEntries e).tryEmplaceHint lt h k v) := by
  have fall : HintRes lt e k v (((ofEntries e).tryEmplace lt k v).1, ((ofEntries e).tryEmplace lt k v).2.1) := by
    obtain ⟨e1, e2, k', v', h1, h2, h3, h4, h5, h6, h7⟩ := tryEmplace_spec w hs k v
    exact ⟨e1, e2, k', v', by rw [h1], h2, h3, h4, h5, h7⟩
  -- the key is found at a position
  have found : ∀ e1 k' v' e2, e = e1 ++ (k', v') :: e2 → same lt k k' = true →
      HintRes lt e k v (ofEntries e, e1.length) := by
    intro e1 k' v' e2 he hk
    have h1 : ∀ p ∈ e1, lt p.1 k = true := fun p hp => by
      have := SortedE_iff.1 hs; rw [he] at this
      rw [lt_congr_right w hk]
      exact (List.pairwise_append.1 this).2.2 p hp (k', v') (by simp)
    have hn := lookup_present w hk h1 (v' := v') (e2 := e2)
    rw [← he] at hn
    refine ⟨e1, e2, k', v', by rw [← he], he ▸ hs, ?_, hk, h1, fun h => (by rw [hn] at h; cases h), fun _ => he⟩
    rw [FinMap.putNew, hn, ← he]; rfl
  -- the key is inserted at the hint
  have ins : ∀ e1 e2, e = e1 ++ e2 → (∀ p ∈ e1, lt p.1 k = true) → (∀ p ∈ e2, lt k p.1 = true) →
      HintRes lt e k v ((ofEntries e).insertAt e1.length k v, e1.length) := by
    intro e1 e2 he h1 h2
    have hn := lookup_absent w h1 h2
    rw [← he] at hn
    refine ⟨e1, e2, k, v, by rw [he, insertAt_split], sorted_insert w (he ▸ hs) h1 h2, ?_, same_refl w k, h1,
      fun _ => ⟨rfl, by rw [he]; simp⟩, fun h => absurd hn h⟩
    rw [FinMap.putNew, hn, he]; exact lookup_insert w h1
  have hsplit : e = e.take h ++ e.drop h := (List.take_append_drop _ _).symm
  have hlen : (e.take h).length = h := by simp; omega
  generalize e.take h = a at hsplit hlen
  generalize e.drop h = b at hsplit
  have hpa := SortedE_iff.1 hs
  rw [hsplit] at hpa
  have hpw := List.pairwise_append.1 hpa
  -- key at the hint
  have hkey : (ofEntries e).keys[h]? = (b.head?).map (·.1) := by
    rw [hsplit]; simp only [ofEntries, List.map_append]
    rw [List.getElem?_append_right (by simp; omega)]
    rw [List.length_map, hlen, Nat.sub_self]
    cases b <;> rfl
  have habs : (ofEntries e).absentAt lt k h = match b with | [] => true | p :: _ => lt k p.1 := by
    rw [hsplit, ← hlen]; exact absentAt_split a b k
  have h2of : (ofEntries e).absentAt lt k h = true → ∀ p ∈ b, lt k p.1 = true := by
    intro hab p hp
    rw [habs] at hab
    cases b with
    | nil => cases hp
    | cons q b =>
      rcases List.mem_cons.1 hp with rfl | hp
      · exact hab
      · exact w.trans _ _ _ hab ((List.pairwise_cons.1 hpw.2.1).1 p hp)
  -- not at the hint
  have tail : HintRes lt e k v
      (if h ≠ 0 then
        match (ofEntries e).keys[h - 1]? with
        | none => (ofEntries e, h)
        | some prev =>
          if FlatMap.equivKeys lt k prev then (ofEntries e, h - 1)
          else if lt prev k && (ofEntries e).absentAt lt k h then ((ofEntries e).insertAt h k v, h)
          else (((ofEntries e).tryEmplace lt k v).1, ((ofEntries e).tryEmplace lt k v).2.1)
      else if (ofEntries e).absentAt lt k h then ((ofEntries e).insertAt h k v, h)
      else (((ofEntries e).tryEmplace lt k v).1, ((ofEntries e).tryEmplace lt k v).2.1)) := by
    by_cases h0 : h ≠ 0
    · rw [if_pos h0]
      have hane : a ≠ [] := by intro h'; subst h'; simp at hlen; omega
      obtain ⟨a', ⟨kp, vp⟩, ha'⟩ : ∃ a' q, a = a' ++ [q] := ⟨_, _, (List.dropLast_concat_getLast hane).symm⟩
      have hprev : (ofEntries e).keys[h - 1]? = some kp := by
        rw [hsplit, ha']; simp only [ofEntries, List.map_append, List.append_assoc]
        rw [ha', List.length_append] at hlen
        have : h - 1 = (a'.map (·.1)).length := by simp at hlen ⊢; omega
        rw [this]; simp
      simp only [hprev]
      by_cases heq : FlatMap.equivKeys lt k kp = true
      · rw [if_pos heq]
        have hl : a'.length = h - 1 := by rw [ha'] at hlen; simp at hlen; omega
        have := found a' kp vp b (by rw [hsplit, ha']; simp) heq
        rw [hl] at this; exact this
      · rw [if_neg heq]
        by_cases hc : (lt kp k && (ofEntries e).absentAt lt k h) = true
        · rw [if_pos hc]
          rw [Bool.and_eq_true] at hc
          have := ins a b hsplit (fun p hp => by
            rw [ha'] at hp
            rcases List.mem_append.1 hp with hp | hp
            · have hpa := hpw.1; rw [ha'] at hpa
              exact w.trans _ _ _ ((List.pairwise_append.1 hpa).2.2 p hp (kp, vp) (by simp)) hc.1
            · rw [List.mem_singleton.1 hp]; exact hc.1) (h2of hc.2)
          rw [hlen] at this; exact this
        · rw [if_neg hc]; exact fall
    · rw [if_neg h0]
      have ha0 : a = [] := by rw [← List.length_eq_zero_iff]; omega
      by_cases hc : (ofEntries e).absentAt lt k h = true
      · rw [if_pos hc]
        have := ins a b hsplit (fun p hp => by rw [ha0] at hp; cases hp) (h2of hc)
        rw [hlen] at this; exact this
      · rw [if_neg hc]; exact fall
  unfold FlatMap.tryEmplaceHint
  simp only [hkey]
  cases hb : (b.head?).map (·.1) with
  | some x =>
    obtain ⟨⟨k', v'⟩, hp, rfl⟩ := Option.map_eq_some_iff.1 hb
    obtain ⟨b', hb'⟩ := List.head?_eq_some_iff.1 hp
    by_cases heq : FlatMap.equivKeys lt k k' = true
    · simp only [heq, if_true]
      have := found a k' v' b' (by rw [hsplit, hb']) heq
      rw [hlen] at this; exact this
    · simp only [heq]; exact tail
  | none => exact tail

theorem insertOrAssignHint_holds {e : List (α × β)} (hs : SortedE lt e) (h : Nat) (hh : h ≤ e.length) (k : α) (v : β) :
    Holds lt ((ofEntries e).insertOrAssignHint lt h k v) (FinMap.put lt (lookup lt e) k v) := by
  obtain ⟨e1, e2, k', v', h1, h2, h3, h4, h5, h7, h8⟩ := tryEmplaceHint_spec w hs h hh k v
  cases hl : lookup lt e k with
  | none =>
    refine ⟨_, ?_, h2, ?_⟩
    · simp only [FlatMap.insertOrAssignHint, h1]
      rw [if_neg]
      have := (h7 hl).2
      simp only [ofEntries, List.length_map]; omega
    · rw [h3, FinMap.putNew, hl]; rfl
  | some u =>
    have he := h8 (by rw [hl]; simp)
    refine ⟨e1 ++ (k', v) :: e2, ?_, sorted_replace h2, ?_⟩
    · simp only [FlatMap.insertOrAssignHint, h1]
      rw [if_pos (by rw [he]), setVal_split]
    · rw [lookup_replace w h4 h5 (v' := v'), h3, putNew_put w]

theorem tryEmplaceThrow_eq {e : List (α × β)} (hs : SortedE lt e) (k : α) : (ofEntries e).tryEmplaceThrow lt k = ofEntries e := by
  cases place w hs k with
  | absent e1 e2 he hl ha h1 h2 =>
    simp only [FlatMap.tryEmplaceThrow, hl, ha, if_true, FlatMap.insertAtThrow]
    subst he
    have a := insertIdx_split (e1.map (·.1)) (e2.map (·.1)) k
    have b := eraseIdx_split (e1.map (·.1)) (e2.map (·.1)) k
    simp only [List.length_map] at a b
    simp [ofEntries, a, b]
  | present e1 e2 k' v' he hl ha hk h1 h2 =>
    simp only [FlatMap.tryEmplaceThrow, hl, ha]; rfl

/-- `find` on sorted entries. -/
theorem find_spec {e : List (α × β)} (hs : SortedE lt e) (k : α) :
    (lookup lt e k = none ∧ (ofEntries e).find lt k = e.length) ∨
    (∃ e1 k' v' e2, e = e1 ++ (k', v') :: e2 ∧ same lt k k' = true ∧ (ofEntries e).find lt k = e1.length ∧
      lookup lt e k = some v' ∧ (∀ p ∈ e1, lt p.1 k = true) ∧ (∀ p ∈ e2, lt k p.1 = true)) := by
  cases place w hs k with
  | absent e1 e2 he hl ha h1 h2 =>
    left
    refine ⟨by rw [he]; exact lookup_absent w h1 h2, ?_⟩
    simp only [FlatMap.find, hl, ha, if_true]; simp [ofEntries]
  | present e1 e2 k' v' he hl ha hk h1 h2 =>
    right
    refine ⟨e1, k', v', e2, he, hk, ?_, by rw [he]; exact lookup_present w hk h1, h1, h2⟩
    simp only [FlatMap.find, hl, ha]; rfl

theorem at_eq {e : List (α × β)} (hs : SortedE lt e) (k : α) : (ofEntries e).at? lt k = lookup lt e k := by
  rcases find_spec w hs k with ⟨h1, h2⟩ | ⟨e1, k', v', e2, he, _, h2, h3, _⟩
  · rw [FlatMap.at?, h2, h1]; simp [ofEntries]
  · rw [FlatMap.at?, h2, h3, he]; simp [ofEntries]

theorem contains_eq {e : List (α × β)} (hs : SortedE lt e) (k : α) : (ofEntries e).contains lt k = (lookup lt e k).isSome := by
  rcases find_spec w hs k with ⟨h1, h2⟩ | ⟨e1, k', v', e2, he, _, h2, h3, _⟩
  · rw [FlatMap.contains, h2, h1]; simp [ofEntries]
  · rw [FlatMap.contains, h2, h3, he]; simp [ofEntries]

omit w in
theorem foldl_remove (ks : List α) (f : FinMap α β) (x : α) :
    (ks.foldl (fun f k => FinMap.remove lt f k) f) x = if ks.any (fun k => same lt x k) then none else f x := by
  induction ks generalizing f with
  | nil => rfl
  | cons k ks ih =>
    rw [List.foldl_cons, ih]
    simp only [List.any_cons, FinMap.remove]
    by_cases h : same lt x k = true <;> by_cases h' : (ks.any fun k => same lt x k) = true <;> simp [h, h']

/-- Removing a stretch of entries removes their keys. -/
theorem lookup_erase {e1 e2 e3 : List (α × β)} (hs : SortedE lt (e1 ++ e2 ++ e3)) :
    lookup lt (e1 ++ e3) = (e2.map (·.1)).foldl (fun f k => FinMap.remove lt f k) (lookup lt (e1 ++ e2 ++ e3)) := by
  funext x
  rw [foldl_remove]
  have hp := SortedE_iff.1 hs
  obtain ⟨h12, _, h3⟩ := List.pairwise_append.1 hp
  obtain ⟨_, _, h4⟩ := List.pairwise_append.1 h12
  cases hx : (e2.map (·.1)).any (fun k => same lt x k)
  · have hn : lookup lt e2 x = none := lookup_none fun p hp => by
      have := List.any_eq_false.1 hx p.1 (List.mem_map_of_mem hp); simpa using this
    simp only [lookup_append, hn]; cases lookup lt e1 x <;> simp
  · obtain ⟨k, hk, hxk⟩ := List.any_eq_true.1 hx
    obtain ⟨p, hp, rfl⟩ := List.mem_map.1 hk
    have := lookup_none_around w hxk (e1 := e1) (e2 := e3) (fun q hq => h4 q hq p hp)
      (fun q hq => h3 p (List.mem_append_right _ hp) q hq)
    rw [lookup_append, this.1, this.2]; rfl

omit w in
theorem sorted_erase {e1 e2 e3 : List (α × β)} (hs : SortedE lt (e1 ++ e2 ++ e3)) : SortedE lt (e1 ++ e3) := by
  rw [SortedE_iff] at *
  obtain ⟨h12, h3, h⟩ := List.pairwise_append.1 hs
  exact List.pairwise_append.2 ⟨(List.pairwise_append.1 h12).1, h3, fun a ha b hb => h a (List.mem_append_left _ ha) b hb⟩

theorem eraseRange_holds {e : List (α × β)} (hs : SortedE lt e) {i j : Nat} (hij : i ≤ j) (hj : j ≤ e.length) :
    Holds lt ((ofEntries e).eraseRange i j)
      (((e.map (·.1)).drop i |>.take (j - i)).foldl (fun f k => FinMap.remove lt f k) (lookup lt e)) := by
  have he : e = e.take i ++ (e.drop i).take (j - i) ++ e.drop j := by
    conv => lhs; rw [← List.take_append_drop i e, ← List.take_append_drop (j - i) (e.drop i)]
    rw [List.drop_drop, show i + (j - i) = j by omega, List.append_assoc]
  refine ⟨e.take i ++ e.drop j, ?_, ?_, ?_⟩
  · simp [FlatMap.eraseRange, ofEntries, List.map_take, List.map_drop]
  · exact sorted_erase (e2 := (e.drop i).take (j - i)) (by rw [← he]; exact hs)
  · rw [lookup_erase w (e2 := (e.drop i).take (j - i)) (by rw [← he]; exact hs), ← he]
    simp [List.map_take, List.map_drop]

theorem eraseAt_eq_range (m : FlatMap α β) (i : Nat) : m.eraseAt i = m.eraseRange i (i + 1) := by
  simp [FlatMap.eraseAt, FlatMap.eraseRange, List.eraseIdx_eq_take_drop_succ]

theorem eraseKey_holds {e : List (α × β)} (hs : SortedE lt e) (k : α) :
    Holds lt ((ofEntries e).eraseKey lt k).1 (FinMap.remove lt (lookup lt e) k) ∧
      ((ofEntries e).eraseKey lt k).2 = if (lookup lt e k).isSome then 1 else 0 := by
  rcases find_spec w hs k with ⟨h1, h2⟩ | ⟨e1, k', v', e2, he, hk, h2, h3, h4, h5⟩
  · have hE : (ofEntries e).eraseKey lt k = (ofEntries e, 0) := by
      unfold FlatMap.eraseKey
      rw [if_neg (by rw [h2]; simp [ofEntries])]
    rw [hE, h1]
    refine ⟨⟨e, rfl, hs, ?_⟩, rfl⟩
    funext x
    simp only [FinMap.remove]
    cases hx : same lt x k
    · rfl
    · simp only [if_true]
      cases hl : lookup lt e x with
      | none => rfl
      | some v =>
        obtain ⟨k'', hm, hs'⟩ := lookup_mem hl
        rw [same_congr w hx] at hs'
        exact absurd h1 (lookup_of_mem hm hs')
  · have hE : (ofEntries e).eraseKey lt k = (ofEntries (e1 ++ e2), 1) := by
      unfold FlatMap.eraseKey
      rw [if_pos (by rw [h2, he]; simp [ofEntries]), h2, he, eraseAt_split]
    rw [hE, h3]
    refine ⟨⟨e1 ++ e2, rfl, ?_, ?_⟩, rfl⟩
    · exact sorted_erase (e2 := [(k', v')]) (by rw [← List.append_cons]; exact he ▸ hs)
    · rw [lookup_erase w (e2 := [(k', v')]) (by rw [← List.append_cons]; exact he ▸ hs), ← List.append_cons, ← he]
      funext x
      simp only [List.map_cons, List.map_nil, List.foldl_cons, List.foldl_nil, FinMap.remove]
      have : same lt x k' = same lt x k := by
        cases h : same lt x k
        · cases h' : same lt x k'
          · rfl
          · rw [same_congr w h', same_symm hk] at h; cases h
        · rw [same_congr w h, hk]
      rw [this]

theorem insertRange_holds (l : List (α × β)) {e : List (α × β)} (hs : SortedE lt e) :
    Holds lt ((ofEntries e).insertRange lt l) (FinMap.putAll lt (lookup lt e) l) := by
  induction l generalizing e with
  | nil => exact ⟨e, rfl, hs, rfl⟩
  | cons p l ih =>
    obtain ⟨k, v⟩ := p
    obtain ⟨e1, e2, k', v', h1, h2, h3, _⟩ := tryEmplace_spec w hs k v
    simp only [FlatMap.insertRange, FinMap.putAll, h1, ← h3]
    exact ih h2

theorem insertSorted_holds (l : List (α × β)) (hl : StrictlySorted lt (l.map (·.1))) {e0 e : List (α × β)}
    (hs : SortedE lt (e0 ++ e)) (h0 : ∀ p ∈ l, ∀ q ∈ e0, lt q.1 p.1 = true) :
    Holds lt ((ofEntries (e0 ++ e)).insertSorted lt e0.length l) (FinMap.putAll lt (lookup lt (e0 ++ e)) l) := by
  induction l generalizing e0 e with
  | nil => exact ⟨_, rfl, hs, rfl⟩
  | cons p l ih =>
    obtain ⟨k, v⟩ := p
    have hl' := List.pairwise_cons.1 hl
    have hkl : ∀ p ∈ l, lt k p.1 = true := fun p hp => hl'.1 p.1 (List.mem_map_of_mem hp)
    obtain ⟨e1, e2, he, hle, hpp, hp1, hp2⟩ := partition_split w hs k (h0 (k, v) (by simp))
    have hlen : (ofEntries (e0 ++ e)).keys.length - e0.length = e.length := by simp [ofEntries]
    simp only [FlatMap.insertSorted, FinMap.putAll, hlen]
    rw [show (ofEntries (e0 ++ e)).keys = (e0 ++ e).map (·.1) from rfl, hpp]
    by_cases hab : (ofEntries (e0 ++ e)).absentAt lt k e1.length = true
    · rw [if_pos hab]
      obtain ⟨f1, f2, k', v', t1, t2, t3, t4, t5, t6, t7, t8⟩ := tryEmplace_spec w hs k v
      simp only [t1, ← t3]
      have := ih hl'.2 (e0 := f1 ++ [(k', v')]) (e := f2) (by simpa using t2) (fun p hp q hq => by
        rcases List.mem_append.1 hq with hq | hq
        · exact w.trans _ _ _ (t5 q hq) (hkl p hp)
        · rw [List.mem_singleton.1 hq, ← lt_congr_left w t4]; exact hkl p hp)
      simpa using this
    · rw [if_neg hab]
      have hab' : (ofEntries (e1 ++ e2)).absentAt lt k e1.length = false := by rw [← he]; simpa using hab
      rw [absentAt_split] at hab'
      cases e2 with
      | nil => cases hab'
      | cons q e2 =>
        obtain ⟨k', v'⟩ := q
        have hk : same lt k k' = true := same_iff.2 ⟨hab', hp2 (k', v') (by simp)⟩
        have hlk := lookup_present w hk hp1 (v' := v') (e2 := e2)
        have hpn : FinMap.putNew lt (lookup lt (e0 ++ e)) k v = lookup lt (e0 ++ e) := by
          rw [he, FinMap.putNew, hlk]; rfl
        rw [hpn]
        have := ih hl'.2 (e0 := e1 ++ [(k', v')]) (e := e2) (by rw [he] at hs; simpa using hs) (fun p hp q hq => by
          rcases List.mem_append.1 hq with hq | hq
          · exact w.trans _ _ _ (hp1 q hq) (hkl p hp)
          · rw [List.mem_singleton.1 hq, ← lt_congr_left w hk]; exact hkl p hp)
        rw [he]
        simpa using this

theorem step_holds (dflt : β) {m : FlatMap α β} {f : FinMap α β} (h : Holds lt m f) (op : MapOp α β) (hok : opOk lt m.keys op) :
    Holds lt (m.step lt dflt op) (finStep lt m.keys f op) := by
  obtain ⟨e, rfl, hs, rfl⟩ := h
  have hkl : (ofEntries e).keys.length = e.length := by simp [ofEntries]
  cases op with
  | emplace k v =>
    obtain ⟨e1, e2, k', v', h1, h2, h3, _⟩ := tryEmplace_spec w hs k v
    exact ⟨_, by simp only [FlatMap.step, h1], h2, h3⟩
  | emplaceThrow k => exact ⟨e, tryEmplaceThrow_eq w hs k, hs, rfl⟩
  | emplaceHint h k v =>
    obtain ⟨e1, e2, k', v', h1, h2, h3, _⟩ := tryEmplaceHint_spec w hs h (hkl ▸ hok) k v
    exact ⟨_, by simp only [FlatMap.step, h1], h2, h3⟩
  | insertOrAssign k v => exact insertOrAssign_holds w hs k v
  | insertOrAssignHint h k v => exact insertOrAssignHint_holds w hs h (hkl ▸ hok) k v
  | indexAssign k v => exact indexAssign_holds w hs dflt k v
  | eraseKey k => exact (eraseKey_holds w hs k).1
  | eraseAt i =>
    have hi : i < e.length := hkl ▸ hok
    have := eraseRange_holds w hs (i := i) (j := i + 1) (by omega) (by omega)
    rw [← eraseAt_eq_range w, Nat.add_sub_cancel_left] at this
    exact this
  | eraseRange i j => exact eraseRange_holds w hs hok.1 (hkl ▸ hok.2)
  | insertRange l => exact insertRange_holds w l hs
  | insertSorted l => exact insertSorted_holds w l hok (e0 := []) hs (fun _ _ _ h => by cases h)
  | clear => exact ⟨[], rfl, List.Pairwise.nil, rfl⟩

end map
end HppProto
