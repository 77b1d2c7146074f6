import Verif.Proofs.FlatSort
/-!
# Claims C40, C41 and C52: `flat_map`

`Spec.finStep` says what each operation does to a mathematical finite map; positions given to
`erase` and hints refer to the sorted keys. `at?` is `find`/`at`: the value found, if any.
-/
namespace HppProto.Props
open HppProto Spec

section
variable {α β : Type} (lt : α → α → Bool) (dflt : β)

/-- Calls within their preconditions. -/
def mapLegal (m : FlatMap α β) : List (MapOp α β) → Prop
  | [] => True
  | op :: ops => opOk lt m.keys op ∧ mapLegal (m.step lt dflt op) ops

/-- The finite map after a history; `m` supplies the sorted keys the positions refer to. -/
def finRun (m : FlatMap α β) (f : FinMap α β) : List (MapOp α β) → FinMap α β
  | [] => f
  | op :: ops => finRun (m.step lt dflt op) (finStep lt m.keys f op) ops

/-- What the interface of the map shows is the finite map `f`. -/
structure MapShows (m : FlatMap α β) (f : FinMap α β) : Prop where
  /-- keys are strictly sorted, hence distinct -/
  sorted : StrictlySorted lt m.keys
  /-- one value for each key -/
  paired : m.vals.length = m.keys.length
  /-- `at` and `find` yield the value of the key, or that there is none -/
  found : ∀ k, m.at? lt k = f k
  /-- `contains` -/
  present : ∀ k, m.contains lt k = (f k).isSome
  /-- iteration visits exactly the keys of the map, with their values -/
  entries : ∀ (i : Nat) k v, m.keys[i]? = some k → m.vals[i]? = some v → f k = some v
  complete : ∀ k v, f k = some v → ∃ (i : Nat) (k' : α), m.keys[i]? = some k' ∧ m.vals[i]? = some v ∧ same lt k k' = true

end

theorem shows_of_holds {α β : Type} {lt : α → α → Bool} (w : StrictWeak lt) {m : FlatMap α β} {f : FinMap α β} (h : Holds lt m f) :
    MapShows lt m f := by
  obtain ⟨e, rfl, hs, rfl⟩ := h
  refine ⟨hs, by simp [ofEntries], at_eq w hs, contains_eq w hs, fun i k v hk hv => ?_, fun k v hv => ?_⟩
  · simp only [ofEntries, List.getElem?_map] at hk hv
    obtain ⟨p, hp, rfl⟩ := Option.map_eq_some_iff.1 hk
    rw [hp] at hv
    simp only [Option.map_some, Option.some.injEq] at hv
    subst hv
    obtain ⟨hi, hp⟩ := List.getElem?_eq_some_iff.1 hp
    have hsplit : e = e.take i ++ p :: e.drop (i + 1) := by rw [← hp]; simp
    obtain ⟨k, v⟩ := p
    rw [hsplit] at hs ⊢
    refine lookup_present w (same_refl w k) fun q hq => ?_
    exact (List.pairwise_append.1 (SortedE_iff.1 hs)).2.2 q hq (k, v) (by simp)
  · obtain ⟨k', hm, hsm⟩ := lookup_mem hv
    obtain ⟨i, hi, he⟩ := List.getElem_of_mem hm
    refine ⟨i, k', ?_, ?_, hsm⟩ <;> simp [ofEntries, List.getElem?_eq_getElem hi, he]

/-- After every history of legal calls on an empty map, the map shows the finite map with the same
history. A call whose mapped value throws while being constructed leaves it unchanged. -/
theorem C40_history {α β : Type} {lt : α → α → Bool} (w : StrictWeak lt) (dflt : β) (ops : List (MapOp α β))
    (hl : mapLegal lt dflt FlatMap.clear ops) :
    MapShows lt (FlatMap.run lt dflt FlatMap.clear ops) (finRun lt dflt FlatMap.clear (fun _ => none) ops) := by
  have h0 : Holds lt (FlatMap.clear : FlatMap α β) (fun _ => none) := ⟨[], rfl, List.Pairwise.nil, rfl⟩
  generalize (FlatMap.clear : FlatMap α β) = m at *
  generalize (fun _ => none : FinMap α β) = f at *
  induction ops generalizing m f with
  | nil => exact shows_of_holds w h0
  | cons op ops ih => exact ih _ hl.2 _ (step_holds w dflt h0 op hl.1)

/-- What calls report: `try_emplace` (and `emplace`, `insert`) whether it inserted and a position that holds
the key; the hinted form such a position; `erase(key)` the number of entries removed. -/
theorem C40_results {α β : Type} {lt : α → α → Bool} (w : StrictWeak lt) (dflt : β) (ops : List (MapOp α β))
    (hl : mapLegal lt dflt FlatMap.clear ops) (k : α) (v : β) :
    let m := FlatMap.run lt dflt FlatMap.clear ops
    (m.tryEmplace lt k v).2.2 = !m.contains lt k ∧
    (∃ k', (m.tryEmplace lt k v).1.keys[(m.tryEmplace lt k v).2.1]? = some k' ∧ same lt k k' = true) ∧
    (∀ h, h ≤ m.keys.length → ∃ k', (m.tryEmplaceHint lt h k v).1.keys[(m.tryEmplaceHint lt h k v).2]? = some k' ∧
      same lt k k' = true) ∧
    (m.eraseKey lt k).2 = (if m.contains lt k then 1 else 0) := by
  have key : ∀ (ops : List (MapOp α β)) m f, Holds lt m f → mapLegal lt dflt m ops → ∃ f', Holds lt (FlatMap.run lt dflt m ops) f' := by
    intro ops
    induction ops with
    | nil => intro m f h _; exact ⟨f, h⟩
    | cons op ops ih => intro m f h hl; exact ih _ _ (step_holds w dflt h op hl.1) hl.2
  obtain ⟨f, e, he, hs, _⟩ := key ops FlatMap.clear (fun _ => none) ⟨[], rfl, List.Pairwise.nil, rfl⟩ hl
  simp only [he, contains_eq w hs]
  refine ⟨?_, ?_, fun h hh => ?_, (eraseKey_holds w hs k).2⟩
  · obtain ⟨e1, e2, k', v', h1, _⟩ := tryEmplace_spec w hs k v
    rw [h1]
  · obtain ⟨e1, e2, k', v', h1, _, _, h4, _⟩ := tryEmplace_spec w hs k v
    exact ⟨k', by rw [h1]; exact key_at e1 (k', v') e2, h4⟩
  · obtain ⟨e1, e2, k', v', h1, _, _, h4, _⟩ := tryEmplaceHint_spec w hs h (by simpa [ofEntries] using hh) k v
    exact ⟨k', by rw [h1]; exact key_at e1 (k', v') e2, h4⟩

/-- `lower_bound`, `upper_bound` and `equal_range` on a sorted map: the keys before `lower_bound(k)` are
smaller than `k` and the others are not; the keys from `upper_bound(k)` on are greater and the others are
not; `equal_range(k)` is the pair of both. -/
theorem C40_bounds {α β : Type} {lt : α → α → Bool} (w : StrictWeak lt) (m : FlatMap α β) (hs : StrictlySorted lt m.keys) (k : α) :
    (∀ (i : Nat) x, m.keys[i]? = some x → (i < m.lowerBound lt k ↔ lt x k = true)) ∧
    (∀ (i : Nat) x, m.keys[i]? = some x → (m.upperBound lt k ≤ i ↔ lt k x = true)) ∧
    m.equalRange lt k = (m.lowerBound lt k, m.upperBound lt k) ∧ m.upperBound lt k ≤ m.keys.length := by
  have mono : ∀ (i j : Nat) x y, i ≤ j → m.keys[i]? = some x → m.keys[j]? = some y → lt y x = false := by
    intro i j x y hij hx hy
    rcases Nat.eq_or_lt_of_le hij with rfl | hij
    · rw [hx] at hy; injection hy with hy; subst hy; exact w.irrefl _
    · obtain ⟨hi, rfl⟩ := List.getElem?_eq_some_iff.1 hx
      obtain ⟨hj, rfl⟩ := List.getElem?_eq_some_iff.1 hy
      exact StrictWeak.asymm w (List.pairwise_iff_getElem.1 hs i j hi hj hij)
  have lo := partitionPoint_spec (fun e => lt e k) m.keys m.keys.length 0 m.keys.length (Nat.le_refl _) (by simp)
    (fun i j x y _ hij _ hx hy hp => lt_of_le_of_lt w (mono i j x y hij hx hy) hp)
  have mono2 : ∀ (i j : Nat) x y, i ≤ j → m.keys[i]? = some x → m.keys[j]? = some y → (!lt k y) = true → (!lt k x) = true := by
    intro i j x y hij hx hy hp
    cases h : lt k x
    · rfl
    · rw [lt_of_lt_of_le w h (mono i j x y hij hx hy)] at hp; cases hp
  have up := partitionPoint_spec (fun e => !lt k e) m.keys m.keys.length 0 m.keys.length (Nat.le_refl _) (by simp)
    (fun i j x y _ hij _ hx hy hp => mono2 i j x y hij hx hy hp)
  obtain ⟨_, l2, l3, l4⟩ := lo
  obtain ⟨_, u2, u3, u4⟩ := up
  have hlow : ∀ (i : Nat) x, m.keys[i]? = some x → (i < m.lowerBound lt k ↔ lt x k = true) := by
    intro i x hx
    have hi : i < m.keys.length := (List.getElem?_eq_some_iff.1 hx).1
    refine ⟨fun h => l3 i x (Nat.zero_le _) h hx, fun h => ?_⟩
    rcases Nat.lt_or_ge i (m.lowerBound lt k) with h' | h'
    · exact h'
    · rw [l4 i x h' (by omega) hx] at h; cases h
  have hup : ∀ (i : Nat) x, m.keys[i]? = some x → (m.upperBound lt k ≤ i ↔ lt k x = true) := by
    intro i x hx
    have hi : i < m.keys.length := (List.getElem?_eq_some_iff.1 hx).1
    refine ⟨fun h => ?_, fun h => ?_⟩
    · have := u4 i x h (by omega) hx; simpa using this
    · rcases Nat.lt_or_ge i (m.upperBound lt k) with h' | h'
      · have := u3 i x (Nat.zero_le _) h' hx; rw [h] at this; cases this
      · exact h'
  refine ⟨hlow, hup, ?_, by simpa [FlatMap.upperBound] using u2⟩
  unfold FlatMap.equalRange
  simp only
  refine Prod.ext rfl ?_
  simp only
  have l2' : m.lowerBound lt k ≤ m.keys.length := by simpa [FlatMap.lowerBound] using l2
  have u2' : m.upperBound lt k ≤ m.keys.length := by simpa [FlatMap.upperBound] using u2
  obtain ⟨r1, r2, r3, r4⟩ := partitionPoint_spec (fun e => !lt k e) m.keys (m.keys.length - m.lowerBound lt k) (m.lowerBound lt k)
    (m.keys.length - m.lowerBound lt k) (Nat.le_refl _) (by omega) (fun i j x y _ hij _ hx hy hp => mono2 i j x y hij hx hy hp)
  generalize partitionPoint (fun e => !lt k e) m.keys (m.keys.length - m.lowerBound lt k) (m.lowerBound lt k)
    (m.keys.length - m.lowerBound lt k) = r at *
  have hle : m.lowerBound lt k ≤ m.upperBound lt k := by
    rcases Nat.lt_or_ge (m.upperBound lt k) (m.lowerBound lt k) with h | h
    · have hi : m.upperBound lt k < m.keys.length := by omega
      have a := (hlow _ _ (List.getElem?_eq_getElem hi)).1 h
      have b := (hup _ _ (List.getElem?_eq_getElem hi)).1 (Nat.le_refl _)
      rw [StrictWeak.asymm w a] at b; cases b
    · exact h
  rcases Nat.lt_trichotomy r (m.upperBound lt k) with h | h | h
  · have hi : r < m.keys.length := by omega
    have a := r4 r _ (Nat.le_refl _) (by omega) (List.getElem?_eq_getElem hi)
    have b := (hup r _ (List.getElem?_eq_getElem hi)).2 (by simpa using a)
    omega
  · exact h
  · have hi : m.upperBound lt k < m.keys.length := by omega
    have a := r3 _ _ hle h (List.getElem?_eq_getElem hi)
    have b := (hup _ _ (List.getElem?_eq_getElem hi)).1 (Nat.le_refl _)
    simp [b] at a

/-- Building from a range: the keys are strictly sorted, each entry is one of the pairs, and every
key of the range is there. The map obtained obeys `MapShows`, so further histories may start from it. -/
theorem C41_range {α β : Type} {lt : α → α → Bool} (w : StrictWeak lt) (l : List (α × β)) :
    let m := FlatMap.ofRange lt l
    StrictlySorted lt m.keys ∧ m.vals.length = m.keys.length ∧
    (∀ (i : Nat) k v, m.keys[i]? = some k → m.vals[i]? = some v → (k, v) ∈ l) ∧
    (∀ k v, (k, v) ∈ l → m.contains lt k = true) ∧
    (∀ k v, m.at? lt k = some v → ∃ k', (k', v) ∈ l ∧ same lt k k' = true) := by
  obtain ⟨e, he, hs, hm, hc⟩ := ofRange_spec w l
  simp only [he]
  refine ⟨hs, by simp [ofEntries], fun i k v hk hv => ?_, fun k v hkv => ?_, fun k v hv => ?_⟩
  · simp only [ofEntries, List.getElem?_map] at hk hv
    obtain ⟨p, hp, rfl⟩ := Option.map_eq_some_iff.1 hk
    rw [hp] at hv
    simp only [Option.map_some, Option.some.injEq] at hv
    subst hv
    exact hm p (List.mem_of_getElem? hp)
  · obtain ⟨q, hq, hsm⟩ := hc (k, v) hkv
    rw [contains_eq w hs]
    cases h : lookup lt e k with
    | none => exact absurd h (lookup_of_mem (v := q.2) hq hsm)
    | some _ => rfl
  · rw [at_eq w hs] at hv
    obtain ⟨k', a, b⟩ := lookup_mem hv
    exact ⟨k', hm _ a, b⟩

/-- Reverse iteration with `rbegin`/`rend` visits the entries from the last to the first. -/
theorem C52_reverse_partial {α β : Type} (e : List (α × β)) :
    FlatMap.reversed ⟨e.map (·.1), e.map (·.2)⟩ = some e.reverse := by
  have key : ∀ (n : Nat), n ≤ e.length →
      FlatMap.reverseWalk ⟨e.map (·.1), e.map (·.2)⟩ n n 0 = some (e.take n).reverse := by
    intro n
    induction n with
    | zero => intro _; rfl
    | succ n ih =>
      intro hn
      have hlt : n < e.length := by omega
      rw [FlatMap.reverseWalk, if_neg (by omega), if_neg (by omega), Nat.add_sub_cancel]
      simp only [List.getElem?_map, List.getElem?_eq_getElem hlt, Option.map_some]
      rw [ih (by omega), Option.map_some]
      rw [show e.take (n + 1) = e.take n ++ [e[n]] from (List.take_append_getElem hlt).symm, List.reverse_append]; rfl
  have := key e.length (Nat.le_refl _)
  simpa [FlatMap.reversed] using this

/-- With `crbegin`/`crend` the same loop runs off the front of every non-empty map. -/
theorem C52_const_reverse_runs_off {α β : Type} (m : FlatMap α β) (h : m.keys ≠ []) : m.creversed = none := by
  have hl : 0 < m.keys.length := List.length_pos_iff.2 h
  unfold FlatMap.creversed
  obtain ⟨n, hn⟩ : ∃ n, m.keys.length = n + 1 := ⟨m.keys.length - 1, by omega⟩
  rw [hn, FlatMap.reverseWalk, if_neg (by omega), if_pos rfl]

/-! ## Cases -/

theorem nat_strictWeak : StrictWeak (fun a b : Nat => decide (a < b)) :=
  ⟨fun a => by simp, fun a b c => by simp only [decide_eq_true_eq]; omega, fun a b c => by simp only [decide_eq_false_iff_not]; omega⟩

def mapDemo : List (MapOp Nat Nat) :=
  [.emplace 5 50, .emplaceHint 1 3 30, .insertOrAssign 5 51, .emplaceThrow 4, .insertOrAssignHint 0 9 90, .indexAssign 7 70,
   .insertRange [(2, 20), (3, 31)], .insertSorted [(1, 10), (6, 60), (9, 91)], .eraseKey 5, .eraseAt 0, .eraseRange 1 2]

example : mapLegal (fun a b : Nat => decide (a < b)) 0 FlatMap.clear mapDemo := by
  simp only [mapLegal, mapDemo, opOk, StrictlySorted]; decide

example : (FlatMap.run (fun a b : Nat => decide (a < b)) 0 FlatMap.clear mapDemo).keys = [2, 6, 7, 9] := by decide +kernel

example : finRun (fun a b : Nat => decide (a < b)) 0 FlatMap.clear (fun _ => none) mapDemo 6 = some 60 := by decide +kernel

example : (FlatMap.ofRange (fun a b : Nat => decide (a < b)) [(4, 1), (2, 2), (4, 3), (9, 4), (1, 5), (2, 6), (7, 7)]).keys =
    [1, 2, 4, 7, 9] := by decide +kernel

example : (FlatMap.mk [1] [2] : FlatMap Nat Nat).keys ≠ [] := by decide

end HppProto.Props
