import Verif.Model.RepeatedMemory
/-!
Lemmas on the memory of repeated fields: what each function does to the field it is called on, and that it leaves blocks of other
fields alone.
-/
namespace HppProto
namespace RepSt
variable {V : Type}

theorem poke_fields (s : RepSt V) (i k : Nat) (x : Option V) : (s.poke i k x).fields = s.fields := by
  unfold poke; split <;> rfl

theorem poke_length (s : RepSt V) (i k : Nat) (x : Option V) : (s.poke i k x).blocks.length = s.blocks.length := by
  unfold poke; split <;> simp

theorem poke_cells (s : RepSt V) (i k : Nat) (x : Option V) (p : Option Nat) :
    (s.poke i k x).cells p = if p = (s.fields i).block then (s.cells p).set k x else s.cells p := by
  unfold poke
  cases hb : (s.fields i).block with
  | none =>
    cases p with
    | none => simp [cells]
    | some b => simp
  | some b =>
    cases p with
    | none => simp [cells]
    | some b' =>
      simp only [cells, List.getD_eq_getElem?_getD, List.getElem?_modify, Option.some.injEq]
      by_cases e : b = b'
      · subst e
        simp only [if_true]
        cases s.blocks[b]? <;> simp
      · have e' : ¬ b' = b := fun h => e h.symm
        simp [e, e']

theorem pokes_fields (l : List (Option V)) : ∀ (s : RepSt V) (i k : Nat), (s.pokes i k l).fields = s.fields := by
  induction l with
  | nil => exact fun _ _ _ => rfl
  | cons x l ih => intro s i k; rw [pokes, ih, poke_fields]

theorem pokes_length (l : List (Option V)) : ∀ (s : RepSt V) (i k : Nat), (s.pokes i k l).blocks.length = s.blocks.length := by
  induction l with
  | nil => exact fun _ _ _ => rfl
  | cons x l ih => intro s i k; rw [pokes, ih, poke_length]

theorem pokes_cells (l : List (Option V)) : ∀ (s : RepSt V) (i k : Nat) (p : Option Nat),
    k + l.length ≤ (s.cells (s.fields i).block).length →
    (s.pokes i k l).cells p =
      if p = (s.fields i).block then (s.cells p).take k ++ l ++ (s.cells p).drop (k + l.length) else s.cells p := by
  induction l with
  | nil =>
    intro s i k p _
    simp [pokes]
  | cons x l ih =>
    intro s i k p h
    simp only [List.length_cons] at h
    rw [pokes, ih _ _ _ _ (by rw [poke_fields, poke_cells, if_pos rfl, List.length_set]; omega), poke_fields, poke_cells]
    by_cases e : p = (s.fields i).block
    · simp only [e, if_true, List.length_cons]
      rw [List.take_add_one, List.drop_set_of_lt (by omega)]
      rw [List.take_set_of_le (by omega), List.getElem?_set_self (by omega)]
      simp [Nat.add_assoc, Nat.add_comm 1]
    · simp [e]

theorem fill_eq (x : Option V) : ∀ (n : Nat) (s : RepSt V) (i k : Nat), s.fill i x k n = s.pokes i k (List.replicate n x) := by
  intro n
  induction n with
  | zero => exact fun _ _ _ => rfl
  | succ n ih => intro s i k; rw [fill, ih]; rfl

theorem copyLoop_eq : ∀ (n : Nat) (s : RepSt V) (i : Nat) (p : Option Nat) (src k : Nat),
    p ≠ (s.fields i).block ∨ k ≤ src → src + n ≤ (s.cells p).length →
    s.copyLoop i p src k n = s.pokes i k (((s.cells p).drop src).take n) := by
  intro n
  induction n with
  | zero => intro s i p src k _ _; simp [copyLoop, pokes]
  | succ n ih =>
    intro s i p src k h1 h2
    have hd : (s.cells p).drop src = (s.cells p)[src] :: (s.cells p).drop (src + 1) := List.drop_eq_getElem_cons (by omega)
    have hg : (s.cells p).getD src none = (s.cells p)[src] := by
      rw [List.getD_eq_getElem?_getD, List.getElem?_eq_getElem (by omega)]; rfl
    rw [copyLoop, hg, hd, List.take_succ_cons, pokes, ih]
    · congr 1
      rw [poke_cells]
      split
      · rename_i e
        rcases h1 with h1 | h1
        · exact absurd e h1
        · rw [List.drop_set_of_lt (by omega)]
      · rfl
    · rw [poke_fields]
      rcases h1 with h1 | h1
      · exact .inl h1
      · exact .inr (by omega)
    · rw [poke_cells]
      split
      · rw [List.length_set]; omega
      · omega

/-- Pointers are valid, and blocks are as large as the capacity says. -/
structure Good (s : RepSt V) : Prop where
  size : ∀ i, (s.fields i).size ≤ (s.fields i).cap
  cap : ∀ i, (s.fields i).cap ≤ (s.cells (s.fields i).block).length
  valid : ∀ i b, (s.fields i).block = some b → b < s.blocks.length

/-- No two fields share a block. -/
def Apart (s : RepSt V) : Prop := ∀ i j b, (s.fields i).block = some b → (s.fields j).block = some b → i = j

theorem read_length {s : RepSt V} (g : Good s) (i : Nat) : (s.read i).length = (s.fields i).size := by
  rw [read, List.length_take]
  have := g.size i
  have := g.cap i
  omega

/-- An operation on field `i` that makes it `l`. -/
structure Eff (s t : RepSt V) (i : Nat) (l : List (Option V)) : Prop where
  good : Good t
  len : s.blocks.length ≤ t.blocks.length
  same : ∀ k, k ≠ i → t.fields k = s.fields k
  frame : ∀ p, (∀ b, p = some b → b < s.blocks.length) → p ≠ (s.fields i).block → t.cells p = s.cells p
  ptr : (t.fields i).block = none ∨ (t.fields i).block = (s.fields i).block ∨
    ∃ b, (t.fields i).block = some b ∧ s.blocks.length ≤ b
  read : t.read i = l

theorem Eff.trans {s t u : RepSt V} {i : Nat} {l l' : List (Option V)} (a : Eff s t i l) (b : Eff t u i l') : Eff s u i l' where
  good := b.good
  len := Nat.le_trans a.len b.len
  same := fun k hk => (b.same k hk).trans (a.same k hk)
  frame := fun p h1 h2 => by
    cases p with
    | none => rfl
    | some b' =>
      have := h1 b' rfl
      refine (b.frame _ (fun c hc => Nat.lt_of_lt_of_le (h1 c hc) a.len) fun e => ?_).trans (a.frame _ h1 h2)
      rcases a.ptr with q | q | ⟨c, q, hc⟩
      · rw [q] at e; cases e
      · exact h2 (e.trans q)
      · rw [q] at e; obtain rfl := Option.some.inj e; omega
  ptr := by
    rcases b.ptr with q | q | ⟨c, q, hc⟩
    · exact .inl q
    · rcases a.ptr with r | r | ⟨c, r, hc⟩
      · exact .inl (q.trans r)
      · exact .inr (.inl (q.trans r))
      · exact .inr (.inr ⟨c, q.trans r, hc⟩)
    · exact .inr (.inr ⟨c, q, Nat.le_trans a.len hc⟩)
  read := b.read

/-- Fields that do not share the block keep their contents. -/
theorem Eff.other {s t : RepSt V} {i : Nat} {l : List (Option V)} (e : Eff s t i l) (g : Good s) {j : Nat} (hj : j ≠ i)
    (h : (s.fields j).block = none ∨ (s.fields j).block ≠ (s.fields i).block) : t.read j = s.read j := by
  unfold RepSt.read
  rw [e.same j hj]
  rcases h with h | h
  · rw [h]; rfl
  · rw [e.frame _ (fun b hb => g.valid j b hb) h]

/-- Fields stay apart. -/
theorem Eff.apart {s t : RepSt V} {i : Nat} {l : List (Option V)} (e : Eff s t i l) (g : Good s) (a : Apart s) : Apart t := by
  have key : ∀ j b, j ≠ i → (t.fields i).block = some b → (t.fields j).block = some b → False := by
    intro j b hj h1 h2
    rw [e.same j hj] at h2
    rcases e.ptr with q | q | ⟨c, q, hc⟩
    · rw [q] at h1; cases h1
    · exact hj (a j i b h2 (q ▸ h1))
    · rw [q] at h1
      obtain rfl := Option.some.inj h1
      have := g.valid j _ h2
      omega
  intro j k b h1 h2
  by_cases hj : j = i
  · by_cases hk : k = i
    · rw [hj, hk]
    · exact (key k b hk (hj ▸ h1) h2).elim
  · by_cases hk : k = i
    · exact (key j b hj (hk ▸ h2) h1).elim
    · rw [e.same j hj] at h1
      rw [e.same k hk] at h2
      exact a j k b h1 h2

theorem pokes_good {s : RepSt V} (g : Good s) (i k : Nat) (l : List (Option V)) (h : k + l.length ≤ (s.cells (s.fields i).block).length) :
    Good (s.pokes i k l) where
  size := fun j => by rw [pokes_fields]; exact g.size j
  cap := fun j => by
    rw [pokes_fields, pokes_cells _ _ _ _ _ h]
    have := g.cap j
    split
    · rename_i e
      rw [e] at this ⊢
      simp only [List.length_append, List.length_take, List.length_drop]
      omega
    · exact this
  valid := fun j b hb => by rw [pokes_fields] at hb; rw [pokes_length]; exact g.valid j b hb

theorem pokes_eff {s : RepSt V} (g : Good s) (i k : Nat) (l : List (Option V)) (h : k + l.length ≤ (s.fields i).size) :
    Eff s (s.pokes i k l) i ((s.read i).take k ++ l ++ (s.read i).drop (k + l.length)) := by
  have h1 := g.size i
  have h2 := g.cap i
  have h3 : k + l.length ≤ (s.cells (s.fields i).block).length := by omega
  refine ⟨pokes_good g i k l h3, by rw [pokes_length]; exact Nat.le_refl _, fun j _ => by rw [pokes_fields], fun p _ hp => ?_,
    .inr (.inl (by rw [pokes_fields])), ?_⟩
  · rw [pokes_cells _ _ _ _ _ h3, if_neg hp]
  · unfold read
    rw [pokes_fields, pokes_cells _ _ _ _ _ h3, if_pos rfl]
    have hk : ((s.cells (s.fields i).block).take k ++ l).length = k + l.length := by
      rw [List.length_append, List.length_take]; omega
    rw [List.take_append, hk, List.take_of_length_le (by rw [hk]; exact h), List.take_take, Nat.min_eq_left (by omega), List.drop_take]

theorem reserve_eff {s : RepSt V} (g : Good s) (i n : Nat) : Eff s (s.reserve i n) i (s.read i) ∧
    n ≤ ((s.reserve i n).fields i).cap ∧ ((s.reserve i n).fields i).size = (s.fields i).size := by
  unfold reserve
  by_cases hc : (s.fields i).cap < n
  · rw [if_pos hc]
    have h1 := g.size i
    have h2 := g.cap i
    obtain ⟨c, hcd⟩ : ∃ c, c = (s.cells (s.fields i).block).take (s.fields i).size ++ List.replicate (n - (s.fields i).size) none :=
      ⟨_, rfl⟩
    have hl : c.length = n := by
      rw [hcd, List.length_append, List.length_take, List.length_replicate]; omega
    have hr : c.take (s.fields i).size = s.read i := by
      rw [hcd, List.take_append_of_le_length (by rw [List.length_take]; omega), List.take_take, Nat.min_self]; rfl
    rw [← hcd]
    have old : ∀ p : Option Nat, (∀ b, p = some b → b < s.blocks.length) →
        cells ⟨s.blocks ++ [c], fun k => if k = i then ⟨some s.blocks.length, n, (s.fields i).size⟩ else s.fields k⟩ p = s.cells p := by
      intro p hp
      cases p with
      | none => rfl
      | some b =>
        have := hp b rfl
        simp only [cells, List.getD_eq_getElem?_getD]
        rw [List.getElem?_append_left this]
    have new : cells ⟨s.blocks ++ [c], fun k => if k = i then ⟨some s.blocks.length, n, (s.fields i).size⟩ else s.fields k⟩
        (some s.blocks.length) = c := by
      simp [cells, List.getD_eq_getElem?_getD]
    refine ⟨⟨⟨?_, ?_, ?_⟩, ?_, fun k hk => if_neg hk, fun p hp _ => old p hp, .inr (.inr ⟨s.blocks.length, ?_, Nat.le_refl _⟩), ?_⟩,
      ?_, ?_⟩
    · intro j
      by_cases e : j = i
      · simp only [e, if_true]; omega
      · simp only [e, if_false]; exact g.size j
    · intro j
      by_cases e : j = i
      · simp only [e, if_true]; rw [new, hl]; exact Nat.le_refl _
      · simp only [e, if_false]
        rw [old _ (fun b hb => g.valid j b hb)]
        exact g.cap j
    · intro j b hb
      rw [List.length_append]
      by_cases e : j = i
      · simp only [e, if_true] at hb
        obtain rfl := Option.some.inj hb
        simp
      · simp only [e, if_false] at hb
        have := g.valid j b hb
        omega
    · rw [List.length_append]; omega
    · simp only [if_true]
    · simp only [read, if_true]
      rw [new, hr]; rfl
    · simp only [if_true]; exact Nat.le_refl _
    · simp only [if_true]
  · rw [if_neg hc]
    exact ⟨⟨g, Nat.le_refl _, fun _ _ => rfl, fun _ _ _ => rfl, .inr (.inl rfl), rfl⟩, by omega, rfl⟩

/-- A change of the size within the capacity. -/
theorem size_eff {s : RepSt V} (g : Good s) (i n : Nat) (h : n ≤ (s.fields i).cap) :
    Eff s (s.put i { s.fields i with size := n }) i ((s.cells (s.fields i).block).take n) where
  good := by
    constructor
    · intro j
      by_cases e : j = i
      · simp [put, e]; exact h
      · simp only [put, e, if_false]; exact g.size j
    · intro j
      by_cases e : j = i
      · simp [put, e]; exact g.cap i
      · simp only [put, e, if_false]; exact g.cap j
    · intro j b hb
      by_cases e : j = i
      · simp [put, e] at hb; exact g.valid i b hb
      · simp only [put, e, if_false] at hb; exact g.valid j b hb
  len := Nat.le_refl _
  same := fun k hk => by simp [put, hk]
  frame := fun _ _ _ => rfl
  ptr := .inr (.inl (by simp [put]))
  read := by simp [read, put]; rfl

theorem resize_eff {K : RepKind V} {s : RepSt V} (g : Good s) (i n : Nat) :
    Eff s (s.resize K i n) i ((s.read i).take n ++ List.replicate (n - (s.fields i).size) K.fresh) ∧
    ((s.resize K i n).fields i).size = n ∧ (n ≤ (s.fields i).cap → ((s.resize K i n).fields i).block = (s.fields i).block) := by
  have step : ∃ t, t = (if (s.fields i).cap < n then s.reserve i n else s) ∧ Eff s t i (s.read i) ∧ n ≤ (t.fields i).cap ∧
      (t.fields i).size = (s.fields i).size ∧ (n ≤ (s.fields i).cap → (t.fields i).block = (s.fields i).block) := by
    refine ⟨_, rfl, ?_⟩
    by_cases hc : (s.fields i).cap < n
    · rw [if_pos hc]
      obtain ⟨a, b, c⟩ := reserve_eff g i n
      exact ⟨a, b, c, fun h => by omega⟩
    · rw [if_neg hc]
      exact ⟨⟨g, Nat.le_refl _, fun _ _ => rfl, fun _ _ _ => rfl, .inr (.inl rfl), rfl⟩, by omega, rfl, fun _ => rfl⟩
  obtain ⟨t, ht, et, hcap, hsize, hblock⟩ := step
  have hr : s.resize K i n = (t.pokes i (s.fields i).size (List.replicate (n - (s.fields i).size) K.fresh)).put i
      { (t.pokes i (s.fields i).size (List.replicate (n - (s.fields i).size) K.fresh)).fields i with size := n } := by
    rw [← fill_eq, ht]; rfl
  have c1 := et.good.cap i
  have c2 := et.good.size i
  have hl : (s.fields i).size + (List.replicate (n - (s.fields i).size) K.fresh).length ≤ (t.cells (t.fields i).block).length := by
    simp only [List.length_replicate]; omega
  have gp := pokes_good et.good i (s.fields i).size (List.replicate (n - (s.fields i).size) K.fresh) hl
  have ez := size_eff gp i n (by rw [pokes_fields]; exact hcap)
  have ep : Eff t (t.pokes i (s.fields i).size (List.replicate (n - (s.fields i).size) K.fresh)) i
      ((t.pokes i (s.fields i).size (List.replicate (n - (s.fields i).size) K.fresh)).read i) :=
    ⟨gp, by rw [pokes_length]; exact Nat.le_refl _, fun j _ => by rw [pokes_fields],
      fun p _ hp => by rw [pokes_cells _ _ _ _ _ hl, if_neg hp], .inr (.inl (by rw [pokes_fields])), rfl⟩
  rw [hr]
  refine ⟨?_, by simp [put], fun h => by simp only [put, if_true, pokes_fields]; exact hblock h⟩
  have e := (et.trans ep).trans ez
  have hx : ((t.pokes i (s.fields i).size (List.replicate (n - (s.fields i).size) K.fresh)).cells
      ((t.pokes i (s.fields i).size (List.replicate (n - (s.fields i).size) K.fresh)).fields i).block).take n =
      (s.read i).take n ++ List.replicate (n - (s.fields i).size) K.fresh := by
    have hread : (t.cells (t.fields i).block).take (s.fields i).size = s.read i := by
      have := et.read
      rw [read, hsize] at this
      exact this
    rw [pokes_fields, pokes_cells _ _ _ _ _ hl, if_pos rfl, hread]
    have hlen := read_length g i
    simp only [List.take_append, List.length_append, List.length_replicate, hlen]
    rw [List.take_of_length_le (l := List.replicate _ _) (by simp)]
    have : n - ((s.fields i).size + (n - (s.fields i).size)) = 0 := by omega
    rw [this]
    simp
  rwa [hx] at e

/-- `write` and the assignment in `push_back`. -/
theorem poke_eff {s : RepSt V} (g : Good s) (i k : Nat) (x : Option V) (h : k < (s.fields i).size) :
    Eff s (s.poke i k x) i ((s.read i).set k x) := by
  have e := pokes_eff g i k [x] (by simpa using (show k + 1 ≤ _ by omega))
  have : (s.read i).take k ++ [x] ++ (s.read i).drop (k + [x].length) = (s.read i).set k x := by
    rw [List.set_eq_take_append_cons_drop, if_pos (by rw [read_length g]; exact h)]
    simp
  rw [this] at e
  exact e

/-- `resize(size() + 1)` and an assignment. -/
theorem push_eff {K : RepKind V} {s : RepSt V} (g : Good s) (i : Nat) (x : Option V) :
    Eff s ((s.resize K i ((s.fields i).size + 1)).poke i (s.fields i).size x) i (s.read i ++ [x]) := by
  obtain ⟨e1, h1, -⟩ := resize_eff (K := K) g i ((s.fields i).size + 1)
  have e2 := poke_eff e1.good i (s.fields i).size x (by omega)
  have hl := read_length g i
  have : ((s.resize K i ((s.fields i).size + 1)).read i).set (s.fields i).size x = s.read i ++ [x] := by
    rw [e1.read, List.take_of_length_le (by omega), show (s.fields i).size + 1 - (s.fields i).size = 1 by omega, ← hl]
    simp
  rw [this] at e2
  exact e1.trans e2

/-- `resize` and assignments to all elements. -/
theorem assign_eff {K : RepKind V} {s : RepSt V} (g : Good s) (i : Nat) (l : List (Option V)) :
    Eff s ((s.resize K i l.length).pokes i 0 l) i l := by
  obtain ⟨e1, h1, -⟩ := resize_eff (K := K) g i l.length
  have e2 := pokes_eff e1.good i 0 l (by omega)
  have hl := read_length e1.good i
  rw [List.drop_of_length_le (by omega)] at e2
  simpa using e1.trans e2

/-- A larger block: the old ones stay as they are. -/
theorem resize_grown {K : RepKind V} {s : RepSt V} (g : Good s) (i n : Nat) (hc : (s.fields i).cap < n) (p : Option Nat)
    (hp : ∀ b, p = some b → b < s.blocks.length) : (s.resize K i n).cells p = s.cells p := by
  have e2 := reserve_eff g i n
  have hb : ((s.reserve i n).fields i).block = some s.blocks.length := by simp [reserve, hc]
  have hl : (s.fields i).size + (List.replicate (n - (s.fields i).size) K.fresh).length ≤
      ((s.reserve i n).cells ((s.reserve i n).fields i).block).length := by
    have := e2.1.good.cap i
    have := e2.2.1
    have := g.size i
    simp only [List.length_replicate]; omega
  unfold resize
  simp only [hc, if_true, fill_eq]
  show ((s.reserve i n).pokes i (s.fields i).size (List.replicate (n - (s.fields i).size) K.fresh)).cells _ = _
  rw [pokes_cells _ _ _ _ _ hl, if_neg]
  · unfold reserve
    rw [if_pos hc]
    cases p with
    | none => rfl
    | some b =>
      have := hp b rfl
      simp only [cells, List.getD_eq_getElem?_getD]
      rw [List.getElem?_append_left this]
  · rw [hb]
    intro hbb
    have := hp _ hbb
    omega

/-- The elements of a field stay where they were, also when it moves. -/
theorem resize_old {K : RepKind V} {s : RepSt V} (g : Good s) (i n : Nat) (hn : (s.fields i).size ≤ n) :
    ((s.resize K i n).cells (s.fields i).block).take (s.fields i).size = s.read i := by
  obtain ⟨e1, h1, h2⟩ := resize_eff (K := K) g i n
  by_cases hc : n ≤ (s.fields i).cap
  · have hb := h2 hc
    have hr := e1.read
    have hl := read_length g i
    unfold RepSt.read at hr
    rw [hb, h1] at hr
    have : ((s.resize K i n).cells (s.fields i).block).take (s.fields i).size =
        (((s.resize K i n).cells (s.fields i).block).take n).take (s.fields i).size := by
      rw [List.take_take, Nat.min_eq_left hn]
    rw [this, hr]
    change ((s.read i).take n ++ _).take _ = _
    rw [List.take_of_length_le (l := s.read i) (by omega), List.take_append_of_le_length (by omega), List.take_of_length_le (by omega)]
  · rw [resize_grown g i n (by omega) _ fun b hb => g.valid i b hb]; rfl

/-- A smaller field: the block stays as it is. -/
theorem resize_shrunk {K : RepKind V} {s : RepSt V} (i n : Nat) (g : Good s) (hn : n ≤ (s.fields i).size) (p : Option Nat) :
    (s.resize K i n).cells p = s.cells p := by
  have : ¬ (s.fields i).cap < n := by have := g.size i; omega
  unfold resize
  simp only [this, if_false, fill_eq, show n - (s.fields i).size = 0 by omega]
  rfl

end RepSt
end HppProto
