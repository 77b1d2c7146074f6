import Verif.Model.FileGraph

/-! Helper lemmas for `Verif/Props/FileGraph.lean`. -/

namespace HppProto

/-! ### Counting -/

theorem nodup_length_le : ∀ (n : Nat) (l : List Nat), l.Nodup → (∀ x ∈ l, x < n) → l.length ≤ n
  | 0, l, _, hb => by
    cases l with
    | nil => simp
    | cons a t => exact absurd (hb a (by simp)) (by omega)
  | n + 1, l, hd, hb => by
    by_cases h : n ∈ l
    · have h1 := nodup_length_le n (l.erase n) (hd.erase n) (by
        intro x hx
        have h2 := (hd.mem_erase_iff).1 hx
        have := hb x h2.2
        omega)
      rw [List.length_erase_of_mem h] at h1
      omega
    · have := nodup_length_le n l hd (by
        intro x hx
        have h2 := hb x hx
        have : x ≠ n := fun e => h (e ▸ hx)
        omega)
      omega

theorem nodup_full {n : Nat} {l : List Nat} (hd : l.Nodup) (hb : ∀ x ∈ l, x < n)
    (hl : l.length = n) {d : Nat} (h : d < n) : d ∈ l := by
  refine Classical.byContradiction fun hn => ?_
  have := nodup_length_le n (d :: l) (List.nodup_cons.2 ⟨hn, hd⟩) (by
    intro x hx
    rcases List.mem_cons.1 hx with rfl | h'
    · exact h
    · exact hb x h')
  simp at this
  omega

/-- A walk through fewer than its number of vertices meets one of them twice. -/
theorem walk_repeats (n : Nat) (f : Nat → Nat) (hf : ∀ k, f k < n) :
    ∃ a b, a < b ∧ f a = f b := by
  refine Classical.byContradiction fun hn => ?_
  have hd : ((List.range (n + 1)).map f).Nodup := by
    rw [List.nodup_iff_pairwise_ne, List.pairwise_map]
    refine List.Pairwise.imp ?_ (List.pairwise_lt_range (n := n + 1))
    intro a b hab e
    exact hn ⟨a, b, hab, e⟩
  have := nodup_length_le n _ hd (by
    intro x hx
    obtain ⟨k, _, rfl⟩ := List.mem_map.1 hx
    exact hf k)
  simp at this
  omega

/-! ### Edges -/

/-- File `i` imports file `d`. -/
def Edge (deps : List (List Nat)) (i d : Nat) : Prop := ∃ ds, deps[i]? = some ds ∧ d ∈ ds

/-- Number of imports of `d` in files outside `V`. -/
def edgesOut (deps : List (List Nat)) (V : List Nat) (d : Nat) : Nat :=
  ((List.range deps.length).map fun i =>
    if i ∈ V then 0 else (deps.getD i []).count d).sum

theorem sum_map_update : ∀ (l : List Nat) (f g : Nat → Nat) (x c : Nat), l.Nodup → x ∈ l →
    (∀ i ∈ l, i ≠ x → f i = g i) → f x = g x + c → (l.map f).sum = (l.map g).sum + c
  | [], _, _, _, _, _, hx, _, _ => by simp at hx
  | a :: l, f, g, x, c, hd, hx, hfg, hc => by
    have hd' := List.nodup_cons.1 hd
    simp only [List.map_cons, List.sum_cons]
    by_cases e : a = x
    · subst e
      have : l.map f = l.map g := by
        apply List.map_congr_left
        intro i hi
        exact hfg i (by simp [hi]) (fun e => hd'.1 (e ▸ hi))
      rw [this, hc]; omega
    · have hx' : x ∈ l := by
        rcases List.mem_cons.1 hx with h | h
        · exact absurd h.symm e
        · exact h
      rw [sum_map_update l f g x c hd'.2 hx' (fun i hi => hfg i (by simp [hi])) hc,
        hfg a (by simp) e]
      omega

theorem edgesOut_step {deps : List (List Nat)} {V : List Nat} {x : Nat} (hx : x < deps.length)
    (hV : x ∉ V) (d : Nat) :
    edgesOut deps V d = edgesOut deps (V ++ [x]) d + (deps.getD x []).count d := by
  unfold edgesOut
  apply sum_map_update _ _ _ x _ List.nodup_range (by simpa using hx)
  · intro i _ hi
    simp [hi]
  · simp [hV]

theorem sum_map_eq_zero {l : List Nat} {f : Nat → Nat} :
    (l.map f).sum = 0 ↔ ∀ i ∈ l, f i = 0 := by
  induction l with
  | nil => simp
  | cons a t ih => simp [ih]

theorem edgesOut_zero {deps : List (List Nat)} {V : List Nat} {d : Nat} :
    edgesOut deps V d = 0 ↔ ∀ i, Edge deps i d → i ∈ V := by
  unfold edgesOut
  rw [sum_map_eq_zero]
  constructor
  · rintro h i ⟨ds, hi, hd⟩
    have hl : i < deps.length := (List.getElem?_eq_some_iff.1 hi).1
    have := h i (by simpa using hl)
    refine Classical.byContradiction fun hV => ?_
    rw [if_neg hV] at this
    rw [List.count_eq_zero] at this
    apply this
    simpa [List.getD_eq_getElem?_getD, hi] using hd
  · intro h i hi
    by_cases hV : i ∈ V
    · simp [hV]
    · rw [if_neg hV, List.count_eq_zero]
      intro hd
      apply hV
      apply h
      have hl : i < deps.length := by simpa using hi
      refine ⟨deps[i], by simp [hl], ?_⟩
      simpa [List.getD_eq_getElem?_getD, hl] using hd

/-! ### The counters -/

theorem getD_set_nat (l : List Nat) (i j v : Nat) (hi : i < l.length) :
    (l.set i v).getD j 0 = if i = j then v else l.getD j 0 := by
  simp only [List.getD_eq_getElem?_getD, List.getElem?_set]
  by_cases h : i = j
  · subst h; simp [hi]
  · simp [h]

theorem addEdges_spec : ∀ (ds inc : List Nat), (∀ d ∈ ds, d < inc.length) →
    (ds.foldl addEdge inc).length = inc.length ∧
    ∀ d, (ds.foldl addEdge inc).getD d 0 = inc.getD d 0 + ds.count d
  | [], inc, _ => by simp
  | a :: ds, inc, h => by
    have ha := h a (by simp)
    have ih := addEdges_spec ds (addEdge inc a) (by
      intro d hd; simpa [addEdge] using h d (by simp [hd]))
    rw [List.foldl_cons]
    refine ⟨by rw [ih.1]; simp [addEdge], fun d => ?_⟩
    rw [ih.2, addEdge, getD_set_nat _ _ _ _ ha, List.count_cons]
    by_cases e : a = d
    · subst e; simp; omega
    · simp [e]

theorem addAll_spec : ∀ (deps : List (List Nat)) (inc : List Nat),
    (∀ ds ∈ deps, ∀ d ∈ ds, d < inc.length) →
    (deps.foldl (fun inc ds => ds.foldl addEdge inc) inc).length = inc.length ∧
    ∀ d, (deps.foldl (fun inc ds => ds.foldl addEdge inc) inc).getD d 0
      = inc.getD d 0 + (deps.map (List.count d)).sum
  | [], inc, _ => by simp
  | a :: deps, inc, h => by
    have ha := addEdges_spec a inc (h a (by simp))
    have ih := addAll_spec deps (a.foldl addEdge inc) (by
      intro ds hds d hd; rw [ha.1]; exact h ds (by simp [hds]) d hd)
    rw [List.foldl_cons]
    refine ⟨by rw [ih.1, ha.1], fun d => ?_⟩
    rw [ih.2, ha.2]
    simp; omega

theorem incoming_spec {deps : List (List Nat)} (h : ∀ ds ∈ deps, ∀ d ∈ ds, d < deps.length) :
    (incoming deps).length = deps.length ∧
    ∀ d, (incoming deps).getD d 0 = edgesOut deps [] d := by
  have := addAll_spec deps (List.replicate deps.length 0) (by simpa using h)
  unfold incoming
  refine ⟨by rw [this.1]; simp, fun d => ?_⟩
  rw [this.2]
  have h0 : (List.replicate deps.length 0).getD d 0 = 0 := by
    simp only [List.getD_eq_getElem?_getD, List.getElem?_replicate]
    by_cases h : d < deps.length <;> simp [h]
  rw [h0, Nat.zero_add]
  unfold edgesOut
  congr 1
  apply List.ext_getElem
  · simp
  · intro i h1 h2
    simp at h1
    simp [List.getD_eq_getElem?_getD, h1]

/-! ### One step of the search -/

theorem dropEdges_spec (base : Nat → Nat) : ∀ (ds inc P : List Nat),
    (∀ d ∈ ds, d < inc.length) → (∀ d, inc.getD d 0 = base d + ds.count d) → P.Nodup →
    (∀ d ∈ P, d < inc.length) →
    (∀ d, d < inc.length → (d ∈ P ↔ inc.getD d 0 = 0)) →
    ∃ new, (dropEdges ds (inc, P)).2 = P ++ new ∧ (dropEdges ds (inc, P)).1.length = inc.length ∧
      (P ++ new).Nodup ∧ (∀ d ∈ P ++ new, d < inc.length) ∧
      (∀ d, (dropEdges ds (inc, P)).1.getD d 0 = base d) ∧
      (∀ d, d < inc.length → (d ∈ P ++ new ↔ base d = 0))
  | [], inc, P, _, hb, hn, hl, hz => by
    refine ⟨[], by simp [dropEdges], by simp [dropEdges], by simpa using hn, by simpa using hl,
      by simpa [dropEdges] using hb, ?_⟩
    intro d hd
    rw [List.append_nil, hz d hd, hb d]; simp
  | a :: ds, inc, P, hds, hb, hn, hl, hz => by
    have ha := hds a (by simp)
    have hb1 := hb a
    rw [List.count_cons_self] at hb1
    have hdec : decr64 (inc.getD a 0) = inc.getD a 0 - 1 := by
      unfold decr64; rw [if_neg (by omega)]
    have haP : a ∉ P := fun h => by
      have := (hz a ha).1 h; omega
    have hlen : (inc.set a (inc.getD a 0 - 1)).length = inc.length := by simp
    have hget := fun d => getD_set_nat inc a d (inc.getD a 0 - 1) ha
    have hb' : ∀ d, (inc.set a (inc.getD a 0 - 1)).getD d 0 = base d + ds.count d := by
      intro d
      rw [hget]
      by_cases e : a = d
      · subst e; rw [if_pos rfl]; omega
      · rw [if_neg e, hb d, List.count_cons]; simp [e]
    rw [dropEdges]
    simp only [hdec]
    by_cases hc : inc.getD a 0 - 1 = 0
    · rw [if_pos hc]
      obtain ⟨new, h1, h2, h3, h4, h5, h6⟩ := dropEdges_spec base ds
        (inc.set a (inc.getD a 0 - 1)) (P ++ [a])
        (by intro d hd; rw [hlen]; exact hds d (by simp [hd])) hb'
        (by
          rw [List.nodup_append]
          refine ⟨hn, by simp, ?_⟩
          intro x hx y hy e
          rw [List.mem_singleton.1 hy] at e
          exact haP (e ▸ hx))
        (by
          intro d hd
          rw [hlen]
          rcases List.mem_append.1 hd with h | h
          · exact hl d h
          · rw [List.mem_singleton.1 h]; exact ha)
        (by
          intro d hd
          rw [hlen] at hd
          rw [hget]
          by_cases e : a = d
          · subst e; rw [if_pos rfl]; exact ⟨fun _ => hc, fun _ => by simp⟩
          · rw [if_neg e, ← hz d hd]
            simp [Ne.symm e])
      rw [hlen] at h2 h4 h6
      have hA : P ++ [a] ++ new = P ++ (a :: new) := by simp
      rw [hA] at h1 h3 h4 h6
      exact ⟨a :: new, h1, h2, h3, h4, h5, h6⟩
    · rw [if_neg hc]
      obtain ⟨new, h1, h2, h3, h4, h5, h6⟩ := dropEdges_spec base ds
        (inc.set a (inc.getD a 0 - 1)) P
        (by intro d hd; rw [hlen]; exact hds d (by simp [hd])) hb' hn
        (by intro d hd; rw [hlen]; exact hl d hd)
        (by
          intro d hd
          rw [hlen] at hd
          rw [hget]
          by_cases e : a = d
          · subst e; rw [if_pos rfl]; exact ⟨fun h => absurd h haP, fun h => absurd h hc⟩
          · rw [if_neg e, ← hz d hd])
      rw [hlen] at h2 h4 h6
      exact ⟨new, h1, h2, h3, h4, h5, h6⟩

/-! ### The search -/

/-- State of the search after `next` files. -/
structure Searching (deps : List (List Nat)) (inc P : List Nat) (next : Nat) : Prop where
  len : inc.length = deps.length
  nodup : P.Nodup
  range : ∀ d ∈ P, d < deps.length
  le : next ≤ P.length
  count : ∀ d, inc.getD d 0 = edgesOut deps (P.take next) d
  zero : ∀ d, d < deps.length → (d ∈ P ↔ inc.getD d 0 = 0)
  before : ∀ k (h : k < P.length) i, Edge deps i P[k] → i ∈ P.take k

theorem Searching.step {deps : List (List Nat)} (hr : ∀ ds ∈ deps, ∀ d ∈ ds, d < deps.length)
    {inc P : List Nat} {next : Nat} (s : Searching deps inc P next) (h : next < P.length) :
    Searching deps (dropEdges (deps.getD (P.getD next 0) []) (inc, P)).1
      (dropEdges (deps.getD (P.getD next 0) []) (inc, P)).2 (next + 1) := by
  have hx : P.getD next 0 = P[next] := by simp [List.getD_eq_getElem?_getD, h]
  have hxl : P[next] < deps.length := s.range _ (List.getElem_mem h)
  rw [hx]
  have hnot : P[next] ∉ P.take next := by
    have h1 := s.nodup
    rw [← List.take_append_drop next P, List.drop_eq_getElem_cons h, List.nodup_append] at h1
    intro hm
    exact h1.2.2 _ hm P[next] List.mem_cons_self rfl
  have htake : P.take (next + 1) = P.take next ++ [P[next]] := by
    rw [List.take_add_one, List.getElem?_eq_getElem h]; rfl
  obtain ⟨new, h1, h2, h3, h4, h5, h6⟩ := dropEdges_spec
    (edgesOut deps (P.take next ++ [P[next]])) (deps.getD P[next] []) inc P
    (by
      intro d hd
      rw [s.len]
      have : deps.getD P[next] [] = deps[P[next]] := by
        simp [List.getD_eq_getElem?_getD, hxl]
      rw [this] at hd
      exact hr _ (List.getElem_mem hxl) d hd)
    (by intro d; rw [s.count, edgesOut_step hxl hnot])
    s.nodup (by intro d hd; rw [s.len]; exact s.range d hd)
    (by intro d hd; rw [s.len] at hd; exact s.zero d hd)
  rw [s.len] at h2 h4 h6
  rw [h1]
  have hle := s.le
  have ht : (P ++ new).take (next + 1) = P.take next ++ [P[next]] := by
    rw [List.take_append_of_le_length (by omega), htake]
  refine ⟨h2, h3, h4, by simp; omega, ?_, ?_, ?_⟩
  · intro d; rw [h5, ht]
  · intro d hd; rw [h6 d hd, h5]
  · intro k hk i hi
    by_cases hkP : k < P.length
    · rw [List.take_append_of_le_length (by omega)]
      apply s.before k hkP
      rwa [List.getElem_append_left hkP] at hi
    · have hm : (P ++ new)[k] ∈ P ++ new := List.getElem_mem hk
      have := (h6 _ (h4 _ hm)).1 hm
      rw [edgesOut_zero] at this
      have := this i hi
      rw [← htake] at this
      have hsub : List.Sublist (P.take (next + 1)) ((P ++ new).take k) := by
        have : (P ++ new).take (next + 1) = P.take (next + 1) :=
          List.take_append_of_le_length (by omega)
        rw [← this]
        exact (List.take_prefix_take_left (by omega)).sublist
      exact hsub.subset this

theorem visitFiles_spec {deps : List (List Nat)} (hr : ∀ ds ∈ deps, ∀ d ∈ ds, d < deps.length) :
    ∀ (fuel : Nat) (inc P : List Nat) (next : Nat), Searching deps inc P next →
      deps.length < fuel + next →
      ∃ inc' P', Searching deps inc' P' P'.length ∧
        visitFiles deps fuel (inc, P) next next = P'.length
  | 0, inc, P, next, s, hf => by
    have h1 := nodup_length_le deps.length P s.nodup s.range
    have h2 := s.le
    omega
  | fuel + 1, inc, P, next, s, hf => by
    rw [visitFiles]
    by_cases h : next < P.length
    · rw [if_pos h]
      exact visitFiles_spec hr fuel _ _ (next + 1) (s.step hr h) (by omega)
    · have e : next = P.length := by have := s.le; omega
      rw [if_neg h]
      subst e
      exact ⟨inc, P, s, rfl⟩

theorem searching_start {deps : List (List Nat)}
    (hr : ∀ ds ∈ deps, ∀ d ∈ ds, d < deps.length) :
    Searching deps (incoming deps)
      ((List.range (incoming deps).length).filter fun i => (incoming deps).getD i 0 == 0) 0 := by
  obtain ⟨hl, hc⟩ := incoming_spec hr
  refine ⟨hl, List.nodup_range.filter _, ?_, by omega, by simpa using hc, ?_, ?_⟩
  · intro d hd
    have := (List.mem_filter.1 hd).1
    rw [hl] at this
    simpa using this
  · intro d hd
    rw [List.mem_filter, hl]
    simp [hd]
  · intro k hk i hi
    have hm := List.getElem_mem hk
    have := (List.mem_filter.1 hm).2
    rw [hc] at this
    simp only [beq_iff_eq] at this
    rw [edgesOut_zero] at this
    exact absurd (this i hi) (by simp)

/-! ### Cycles -/

theorem Searching.no_cycle {deps : List (List Nat)} {inc P : List Nat} {next : Nat}
    (s : Searching deps inc P next) {i d : Nat}
    (h : Relation.TransGen (Edge deps) i d) :
    ∀ k (hk : k < P.length), P[k] = d → i ∈ P.take k := by
  induction h with
  | single h =>
    intro k hk e
    exact s.before k hk _ (e ▸ h)
  | @tail b c _ h ih =>
    intro k hk e
    have hb := s.before k hk b (e ▸ h)
    obtain ⟨j, hj, e'⟩ := List.getElem_of_mem hb
    rw [List.length_take] at hj
    rw [List.getElem_take] at e'
    have := ih j (by omega) e'
    exact (List.take_prefix_take_left (by omega : j ≤ k)).sublist.subset this

/-- Every element of a non-empty finite set has a predecessor in the set: there is a cycle. -/
theorem cycle_of_predecessors {deps : List (List Nat)} (U : Nat → Prop) (x : Nat) (hx : U x)
    (hb : ∀ d, U d → d < deps.length) (hp : ∀ d, U d → ∃ i, U i ∧ Edge deps i d) :
    ∃ i, Relation.TransGen (Edge deps) i i := by
  let f : Nat → { d // U d } := fun k => Nat.rec ⟨x, hx⟩
    (fun _ d => ⟨Classical.choose (hp d.1 d.2), (Classical.choose_spec (hp d.1 d.2)).1⟩) k
  have hf : ∀ k, Edge deps (f (k + 1)).1 (f k).1 := fun k =>
    (Classical.choose_spec (hp (f k).1 (f k).2)).2
  have hpath : ∀ a m, Relation.TransGen (Edge deps) (f (a + m + 1)).1 (f a).1 := by
    intro a m
    induction m with
    | zero => exact .single (hf a)
    | succ m ih =>
      exact Relation.TransGen.trans (.single (hf (a + m + 1))) ih
  obtain ⟨a, b, hab, e⟩ := walk_repeats deps.length (fun k => (f k).1) (fun k => hb _ (f k).2)
  refine ⟨(f a).1, ?_⟩
  have := hpath a (b - a - 1)
  rw [show a + (b - a - 1) + 1 = b from by omega] at this
  rw [show (f b).1 = (f a).1 from e.symm] at this
  exact this

theorem Edge.range {deps : List (List Nat)} {i d : Nat} (h : Edge deps i d) : i < deps.length := by
  obtain ⟨ds, h, _⟩ := h
  exact (List.getElem?_eq_some_iff.1 h).1

theorem edge_path_range {deps : List (List Nat)} {i d : Nat}
    (h : Relation.TransGen (Edge deps) i d) : i < deps.length := by
  induction h with
  | single h => exact h.range
  | tail _ _ ih => exact ih

theorem filesAcyclic_iff {deps : List (List Nat)}
    (hr : ∀ ds ∈ deps, ∀ d ∈ ds, d < deps.length) :
    filesAcyclic deps = true ↔ ¬ ∃ i, Relation.TransGen (Edge deps) i i := by
  unfold filesAcyclic
  simp only
  obtain ⟨inc, P, s, e⟩ := visitFiles_spec hr (deps.length + 1) _ _ 0 (searching_start hr)
    (by omega)
  rw [e, beq_iff_eq]
  constructor
  · rintro hl ⟨i, hi⟩
    have hall : ∀ d, d < deps.length → d ∈ P := fun d hd => nodup_full s.nodup s.range hl hd
    have hil : i < deps.length := edge_path_range hi
    obtain ⟨k, hk, ek⟩ := List.getElem_of_mem (hall i hil)
    have hm := s.no_cycle hi k hk ek
    have h1 := s.nodup
    rw [← List.take_append_drop k P, List.drop_eq_getElem_cons hk, List.nodup_append] at h1
    exact h1.2.2 _ hm P[k] List.mem_cons_self ek.symm
  · intro hn
    refine Classical.byContradiction fun hl => hn ?_
    have hle := nodup_length_le deps.length P s.nodup s.range
    have hex : ∃ d, d < deps.length ∧ d ∉ P := by
      refine Classical.byContradiction fun hc => hl ?_
      have hall : ∀ d, d < deps.length → d ∈ P := fun d hd =>
        Classical.byContradiction fun h => hc ⟨d, hd, h⟩
      have := List.nodup_range (n := deps.length)
      have h2 : ∀ (l m : List Nat), l.Nodup → (∀ x ∈ l, x ∈ m) → l.length ≤ m.length := by
        intro l
        induction l with
        | nil => simp
        | cons a t ih =>
          intro m hd hm
          have hd' := List.nodup_cons.1 hd
          have := ih (m.erase a) hd'.2 (by
            intro x hx
            have hxa : x ≠ a := fun e => hd'.1 (e ▸ hx)
            exact (List.mem_erase_of_ne hxa).2 (hm x (by simp [hx])))
          rw [List.length_erase_of_mem (hm a (by simp))] at this
          have : 0 < m.length := List.length_pos_iff.2 (List.ne_nil_of_mem (hm a (by simp)))
          simp
          omega
      have h3 := h2 _ P this (by intro x hx; exact hall x (by simpa using hx))
      simp at h3
      omega
    obtain ⟨x, hx, hxP⟩ := hex
    refine cycle_of_predecessors (fun d => d < deps.length ∧ d ∉ P) x ⟨hx, hxP⟩
      (fun d h => h.1) ?_
    rintro d ⟨hd, hdP⟩
    have hnz : edgesOut deps P d ≠ 0 := by
      intro h0
      apply hdP
      rw [s.zero d hd, s.count, List.take_length]
      exact h0
    rw [Ne, edgesOut_zero] at hnz
    simp only [Classical.not_forall] at hnz
    obtain ⟨i, hi, hiP⟩ := hnz
    exact ⟨i, ⟨hi.range, hiP⟩, hi⟩

/-! ### Names -/

theorem fileIndex_none {m : FileMap} {n : List Byte} :
    fileIndex m n = none ↔ ∀ e ∈ m, e.1 ≠ n := by
  simp [fileIndex]

/-- The map of a list of files: every name with its position. -/
def namesFrom (i : Nat) : List PoolFile → FileMap
  | [] => []
  | f :: fs => (f.name, i) :: namesFrom (i + 1) fs

theorem mem_namesFrom : ∀ {fs : List PoolFile} {i : Nat} {e : List Byte × Nat},
    e ∈ namesFrom i fs → ∃ f ∈ fs, e.1 = f.name
  | [], _, _, h => by simp [namesFrom] at h
  | f :: fs, i, e, h => by
    rcases List.mem_cons.1 h with rfl | h
    · exact ⟨f, by simp, rfl⟩
    · obtain ⟨g, hg, e'⟩ := mem_namesFrom h
      exact ⟨g, by simp [hg], e'⟩

theorem registerFiles_spec : ∀ (fs : List PoolFile) (m : FileMap) (i : Nat) (r : FileMap),
    registerFiles fs m i = some r ↔
      (∀ f ∈ fs, f.name ≠ []) ∧ (fs.map PoolFile.name).Nodup ∧
      (∀ f ∈ fs, ∀ e ∈ m, e.1 ≠ f.name) ∧ r = m ++ namesFrom i fs
  | [], m, i, r => by simp [registerFiles, namesFrom, eq_comm]
  | f :: fs, m, i, r => by
    rw [registerFiles]
    by_cases h : f.name.isEmpty || (fileIndex m f.name).isSome
    · rw [if_pos h]
      simp only [reduceCtorEq, false_iff]
      rintro ⟨h1, _, h3, _⟩
      rw [Bool.or_eq_true] at h
      rcases h with h | h
      · exact h1 f (by simp) (by simpa using h)
      · have : fileIndex m f.name = none := fileIndex_none.2 (h3 f (by simp))
        rw [this] at h; simp at h
    · rw [if_neg h, registerFiles_spec fs]
      simp only [Bool.or_eq_true, not_or, Bool.not_eq_true, Option.isSome_eq_false_iff,
        Option.isNone_iff_eq_none] at h
      obtain ⟨hne, hnone⟩ := h
      rw [fileIndex_none] at hnone
      have hne' : f.name ≠ [] := by
        intro e; rw [e] at hne; simp at hne
      simp only [List.mem_cons, List.map_cons, List.nodup_cons, List.mem_append,
        namesFrom]
      constructor
      · rintro ⟨h1, h2, h3, h4⟩
        refine ⟨?_, ⟨?_, h2⟩, ?_, by rw [h4]; simp⟩
        · rintro g (rfl | hg)
          · exact hne'
          · exact h1 g hg
        · intro hm
          obtain ⟨g, hg, e⟩ := List.mem_map.1 hm
          exact h3 g hg (f.name, i) (Or.inr (Or.inl rfl)) e.symm
        · rintro g (rfl | hg)
          · exact hnone
          · exact fun e he => h3 g hg e (Or.inl he)
      · rintro ⟨h1, ⟨h2, h2'⟩, h3, h4⟩
        refine ⟨fun g hg => h1 g (Or.inr hg), h2', ?_, by rw [h4]; simp⟩
        intro g hg e he
        rcases he with he | rfl | he
        · exact h3 g (Or.inr hg) e he
        · intro e
          exact h2 (List.mem_map.2 ⟨g, hg, e.symm⟩)
        · simp at he

theorem fileIndex_namesFrom : ∀ {fs : List PoolFile} {i : Nat} {n : List Byte} {k : Nat},
    (fs.map PoolFile.name).Nodup →
    (fileIndex (namesFrom i fs) n = some k ↔ i ≤ k ∧ (fs[k - i]?).map PoolFile.name = some n)
  | [], i, n, k, _ => by simp [namesFrom, fileIndex]
  | f :: fs, i, n, k, hd => by
    rw [List.map_cons, List.nodup_cons] at hd
    have ih := fileIndex_namesFrom (fs := fs) (i := i + 1) (n := n) (k := k) hd.2
    unfold fileIndex at ih ⊢
    rw [namesFrom, List.find?_cons]
    by_cases e : f.name = n
    · have : (f.name == n) = true := by simp [e]
      simp only [this, Option.map_some, Option.some.injEq]
      constructor
      · rintro rfl; simp [e]
      · rintro ⟨h1, h2⟩
        refine Classical.byContradiction fun hne => hd.1 ?_
        rw [show k - i = (k - i - 1) + 1 from by omega, List.getElem?_cons_succ,
          Option.map_eq_some_iff] at h2
        obtain ⟨g, hg, hn⟩ := h2
        exact List.mem_map.2 ⟨g, List.mem_of_getElem? hg, by rw [hn, e]⟩
    · have : (f.name == n) = false := by simp [e]
      simp only [this]
      rw [ih]
      constructor
      · rintro ⟨h1, h2⟩
        refine ⟨by omega, ?_⟩
        rw [show k - i = (k - (i + 1)) + 1 from by omega, List.getElem?_cons_succ]
        exact h2
      · rintro ⟨h1, h2⟩
        have : k ≠ i := by
          rintro rfl
          simp at h2
          exact e h2
        refine ⟨by omega, ?_⟩
        rw [show k - i = (k - (i + 1)) + 1 from by omega, List.getElem?_cons_succ] at h2
        exact h2

theorem linkDeps_spec (m : FileMap) : ∀ (fs : List PoolFile) (r : List (List Nat)),
    linkDeps m fs = some r ↔
      (∀ f ∈ fs, ∀ d ∈ f.deps, fileIndex m d ≠ none) ∧
      r = fs.map fun f => f.deps.filterMap (fileIndex m)
  | [], r => by simp [linkDeps, eq_comm]
  | f :: fs, r => by
    rw [linkDeps]
    by_cases h : (f.deps.map (fileIndex m)).any Option.isNone
    · rw [if_pos h]
      simp only [reduceCtorEq, false_iff]
      rintro ⟨h1, _⟩
      rw [List.any_map, List.any_eq_true] at h
      obtain ⟨d, hd, hn⟩ := h
      exact h1 f (by simp) d hd (by simpa using hn)
    · rw [if_neg h]
      have h' : ∀ d ∈ f.deps, fileIndex m d ≠ none := by
        intro d hd hn
        apply h
        rw [List.any_map, List.any_eq_true]
        exact ⟨d, hd, by simp [hn]⟩
      have e1 : (f.deps.map (fileIndex m)).filterMap id = f.deps.filterMap (fileIndex m) := by
        rw [List.filterMap_map]; rfl
      rw [e1, Option.map_eq_some_iff]
      constructor
      · rintro ⟨rest, hr, rfl⟩
        obtain ⟨h1, h2⟩ := (linkDeps_spec m fs rest).1 hr
        refine ⟨?_, by rw [h2]; simp⟩
        intro g hg
        rcases List.mem_cons.1 hg with rfl | hg
        · exact h'
        · exact h1 g hg
      · rintro ⟨h1, rfl⟩
        exact ⟨_, (linkDeps_spec m fs _).2 ⟨fun g hg => h1 g (by simp [hg]), rfl⟩, by simp⟩

end HppProto
