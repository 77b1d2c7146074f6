import Verif.Model.Dispatch
/-! The lookup table is a stable bucket sort of the field numbers. -/
namespace HppProto

/-- Number of elements in bucket `b`. -/
def bcount {α} (f : α → Nat) (l : List α) (b : Nat) : Nat := (l.filter (fun x => f x == b)).length

theorem bcount_cons {α} (f : α → Nat) (x : α) (l b) : bcount f (x :: l) b = bcount f l b + if f x = b then 1 else 0 := by
  unfold bcount
  rw [List.filter_cons]
  by_cases h : f x = b <;> simp [h]

theorem bcount_append {α} (f : α → Nat) (l l' : List α) (b) : bcount f (l ++ l') b = bcount f l b + bcount f l' b := by
  simp [bcount]

/-- First position of bucket `b`. -/
def boff {α} (f : α → Nat) (l : List α) : Nat → Nat
  | 0 => 0
  | b + 1 => boff f l b + bcount f l b

theorem boff_mono {α} (f : α → Nat) (l : List α) {b c : Nat} (h : b < c) : boff f l b + bcount f l b ≤ boff f l c := by
  induction c with
  | zero => omega
  | succ c ih =>
    by_cases e : b = c
    · subst e; exact Nat.le_refl _
    · have := ih (by omega); simp only [boff]; omega

theorem boff_cons {α} (f : α → Nat) (x : α) (l) (b) : boff f (x :: l) b = boff f l b + if f x < b then 1 else 0 := by
  induction b with
  | zero => simp [boff]
  | succ b ih =>
    simp only [boff, ih, bcount_cons]
    by_cases h1 : f x < b
    · simp [h1, Nat.ne_of_lt h1, show f x < b + 1 by omega]; omega
    · by_cases h2 : f x = b
      · simp [h1, h2]; omega
      · simp [h1, h2, show ¬ f x < b + 1 by omega]

theorem boff_total {α} (f : α → Nat) (l : List α) {k} (h : ∀ x ∈ l, f x < k) : boff f l k = l.length := by
  induction l with
  | nil =>
    clear h
    induction k with
    | zero => rfl
    | succ k ih => simp only [boff, ih]; simp [bcount]
  | cons x l ih => rw [boff_cons, ih (fun y hy => h y (by simp [hy])), if_pos (h x (by simp))]; rfl

theorem getD_set {α} (l : List α) (i j : Nat) (v d : α) (hi : i < l.length) : (l.set i v).getD j d = if j = i then v else l.getD j d := by
  simp only [List.getD_eq_getElem?_getD, List.getElem?_set, hi]
  by_cases h : i = j
  · subst h; simp
  · simp [h, Ne.symm h]

theorem occurrences {f : BitVec 32 → Nat} {k} : ∀ (nums : List (BitVec 32)) (a : List Nat), a.length = k → (∀ n ∈ nums, f n < k) →
    (nums.foldl (fun a n => a.set (f n) (a.getD (f n) 0 + 1)) a).length = k ∧
    ∀ b, (nums.foldl (fun a n => a.set (f n) (a.getD (f n) 0 + 1)) a).getD b 0 = a.getD b 0 + bcount f nums b
  | [], a, h, _ => by simp [bcount, h]
  | n :: nums, a, h, hf => by
    have hn := hf n (by simp)
    obtain ⟨h1, h2⟩ := occurrences nums (a.set (f n) (a.getD (f n) 0 + 1)) (by simp [h]) (fun m hm => hf m (by simp [hm]))
    refine ⟨h1, fun b => ?_⟩
    rw [List.foldl_cons, h2, getD_set _ _ _ _ _ (by omega), bcount_cons]
    by_cases e : b = f n
    · subst e; simp; omega
    · simp [e, Ne.symm e]

theorem partialSum_length (acc) (l : List Nat) : (partialSum acc l).length = l.length := by
  induction l generalizing acc with
  | nil => rfl
  | cons x l ih => simp [partialSum, ih]

theorem partialSum_get {g : Nat → Nat} {h : Nat → Nat} (hh : ∀ b, h (b + 1) = h b + g b) : ∀ (l : List Nat) (s acc : Nat), acc = h s →
    (∀ b, b < l.length → l.getD b 0 = g (s + b)) → ∀ b, b ≤ l.length → (acc :: partialSum acc l).getD b 0 = h (s + b)
  | [], s, acc, ha, _, b, hb => by simp at hb; subst hb; simp [ha]
  | x :: l, s, acc, ha, hg, 0, _ => by simp [ha]
  | x :: l, s, acc, ha, hg, b + 1, hb => by
    have := partialSum_get hh l (s + 1) (acc + x) (by
      have := hg 0 (by simp)
      simp at this
      rw [hh, ha, this]) (fun b hb' => by
        have := hg (b + 1) (by simpa using hb')
        rw [show s + 1 + b = s + (b + 1) by omega, ← this]; simp) b (by simpa using hb)
    rw [show s + (b + 1) = s + 1 + b by omega, ← this]
    simp [partialSum]

section
variable {mask : Nat}

theorem masked_le (mask : Nat) (n : BitVec 32) : maskedNum mask n < mask + 1 := Nat.lt_succ_of_le Nat.and_le_right

theorem offsets_get (nums : List (BitVec 32)) {b : Nat} (hb : b ≤ mask + 1) :
    (tableOffsets mask nums).getD b 0 = boff (maskedNum mask) nums b := by
  obtain ⟨h1, h2⟩ := occurrences (f := maskedNum mask) (k := mask + 1) nums (List.replicate (mask + 1) 0) (by simp) (fun n _ => masked_le mask n)
  have := partialSum_get (g := bcount (maskedNum mask) nums) (h := boff (maskedNum mask) nums) (fun b => rfl) _ 0 0 rfl
    (fun b _ => by
      rw [h2 b, Nat.zero_add]
      have : (List.replicate (mask + 1) 0).getD b 0 = 0 := by simp [List.getD_eq_getElem?_getD, List.getElem?_replicate]; split <;> rfl
      rw [this, Nat.zero_add]) b (by rw [h1]; exact hb)
  rw [Nat.zero_add] at this
  exact this

theorem offsets_length (nums : List (BitVec 32)) : (tableOffsets mask nums).length = mask + 2 := by
  obtain ⟨h1, h2⟩ := occurrences (f := maskedNum mask) (k := mask + 1) nums (List.replicate (mask + 1) 0) (by simp) (fun n _ => masked_le mask n)
  show (partialSum 0 _).length + 1 = _
  rw [partialSum_length, h1]

/-- Filling, from the elements `pre` already placed. -/
theorem fill_spec (all : List (BitVec 32 × Nat)) : ∀ (rest pre : List (BitVec 32 × Nat)) (nums : List (BitVec 32)) (indices counts : List Nat)
    (t : List (BitVec 32 × Nat)), all = pre ++ rest → rest = nums.zip indices → nums.length ≤ indices.length →
    counts.length = mask + 1 → t.length = all.length →
    (∀ b ≤ mask, counts.getD b 0 = boff (fun p => maskedNum mask p.1) all b + bcount (fun p => maskedNum mask p.1) pre b) →
    (∀ b ≤ mask, ∀ j < bcount (fun p => maskedNum mask p.1) pre b,
      t.getD (boff (fun p => maskedNum mask p.1) all b + j) (0, 0) = (pre.filter (fun p => maskedNum mask p.1 == b)).getD j (0, 0)) →
    ∀ b ≤ mask, ∀ j < bcount (fun p => maskedNum mask p.1) all b,
      (fillTable mask nums indices counts t).getD (boff (fun p => maskedNum mask p.1) all b + j) (0, 0) =
        (all.filter (fun p => maskedNum mask p.1 == b)).getD j (0, 0)
  | rest, pre, [], indices, counts, t, ha, hr, _, _, _, _, ht => by
    simp at hr; subst hr; simp at ha; subst ha
    exact ht
  | rest, pre, n :: nums, [], counts, t, ha, hr, hl, hcl, htl, hc, ht => by simp at hl
  | rest, pre, n :: nums, i :: indices, counts, t, ha, hr, hl, hcl, htl, hc, ht => by
    simp only [List.zip_cons_cons] at hr
    subst hr
    have hb : maskedNum mask n ≤ mask := Nat.le_of_lt_succ (masked_le mask n)
    have hcn := hc _ hb
    have hcount : bcount (fun p : BitVec 32 × Nat => maskedNum mask p.1) pre (maskedNum mask n) <
        bcount (fun p => maskedNum mask p.1) all (maskedNum mask n) := by
      rw [ha, bcount_append, bcount_cons, if_pos rfl]; omega
    have hpos : counts.getD (maskedNum mask n) 0 < t.length := by
      rw [htl, hcn, ← boff_total (fun p : BitVec 32 × Nat => maskedNum mask p.1) all (k := mask + 1) (fun x _ => masked_le mask _)]
      have := boff_mono (fun p : BitVec 32 × Nat => maskedNum mask p.1) all (b := maskedNum mask n) (c := mask + 1) (by omega)
      omega
    rw [fillTable]
    simp only [List.tail_cons, List.headD_cons]
    refine fill_spec all (nums.zip indices) (pre ++ [(n, i)]) nums indices _ _ (by simp [ha]) rfl (by simpa using hl)
      (by simp [hcl]) (by simp [htl]) ?_ ?_
    · intro b hb'
      rw [getD_set _ _ _ _ _ (by omega), bcount_append, bcount_cons]
      have := hc b hb'
      by_cases e : b = maskedNum mask n
      · subst e; simp [bcount] at this ⊢; omega
      · simp [e, Ne.symm e, bcount] at this ⊢; omega
    · intro b hb' j hj
      rw [getD_set _ _ _ _ _ hpos]
      rw [bcount_append, bcount_cons, show bcount (fun p : BitVec 32 × Nat => maskedNum mask p.1) [] b = 0 from rfl] at hj
      by_cases e : b = maskedNum mask n
      · subst e
        simp only [if_true] at hj
        rw [hcn, List.filter_append]
        have hf : List.filter (fun p => maskedNum mask p.1 == maskedNum mask n) [(n, i)] = [(n, i)] := by simp
        rw [hf]
        by_cases ej : j = bcount (fun p : BitVec 32 × Nat => maskedNum mask p.1) pre (maskedNum mask n)
        · rw [if_pos (by omega), ej]
          simp [List.getD_eq_getElem?_getD, bcount]
        · have hj' : j < bcount (fun p : BitVec 32 × Nat => maskedNum mask p.1) pre (maskedNum mask n) := by
            omega
          rw [if_neg (by omega), ht _ hb' j hj']
          simp only [List.getD_eq_getElem?_getD]
          rw [List.getElem?_append_left (by exact hj')]
      · simp only [if_neg (Ne.symm e)] at hj
        replace hj : j < bcount (fun p : BitVec 32 × Nat => maskedNum mask p.1) pre b := by omega
        have hj2 : j < bcount (fun p : BitVec 32 × Nat => maskedNum mask p.1) all b := by
          rw [ha, bcount_append]; omega
        rw [List.filter_append]
        have hf : List.filter (fun p => maskedNum mask p.1 == b) [(n, i)] = [] := by simp [Ne.symm e]
        rw [hf, List.append_nil, ← ht b hb' j hj]
        rw [if_neg]
        rw [hcn]
        rcases Nat.lt_or_gt_of_ne e with h | h
        · have := boff_mono (fun p : BitVec 32 × Nat => maskedNum mask p.1) all h
          omega
        · have := boff_mono (fun p : BitVec 32 × Nat => maskedNum mask p.1) all h
          omega

theorem scan_find (table : List (BitVec 32 × Nat)) (n : BitVec 32) : ∀ (l : List (BitVec 32 × Nat)) (s : Nat),
    (∀ j < l.length, table.getD (s + j) (0, 0) = l.getD j (0, 0)) →
    scanTable table n l.length s = (l.find? (fun p => n == p.1)).map Prod.snd
  | [], _, _ => rfl
  | p :: l, s, h => by
    have h0 := h 0 (by simp)
    simp at h0
    rw [List.length_cons, scanTable]
    simp only [List.getD_eq_getElem?_getD, h0]
    rw [List.find?_cons]
    by_cases e : n = p.1
    · simp [e]
    · simp only [if_neg e, beq_eq_false_iff_ne.2 e]
      exact scan_find table n l (s + 1) (fun j hj => by
        have := h (j + 1) (by simpa using hj)
        rw [show s + 1 + j = s + (j + 1) by omega, this]; simp)

/-- The first entry with the number, in order of declaration. -/
theorem dispatch_find (ms : List MetaD) (hl : (fieldNumbers ms).length ≤ (fieldIndices 0 ms).length) (n : BitVec 32) :
    dispatchField ms n = some ((((fieldNumbers ms).zip (fieldIndices 0 ms)).find? (fun p => n == p.1)).map Prod.snd) := by
  unfold dispatchField
  simp only
  have hm := masked_le (dispatchMask ms) n
  have hf : (List.range (dispatchMask ms + 1)).find? (fun b => maskedNum (dispatchMask ms) n == b) = some (maskedNum (dispatchMask ms) n) := by
    have : (List.range (dispatchMask ms + 1)).find? (fun b => maskedNum (dispatchMask ms) n == b) ≠ none := by
      intro h
      rw [List.find?_eq_none] at h
      exact h (maskedNum (dispatchMask ms) n) (by simpa using hm) (by simp)
    obtain ⟨b, hb⟩ := Option.ne_none_iff_exists'.1 this
    have := List.find?_some hb
    simp at this
    rw [hb, this]
  rw [hf]
  simp only
  generalize hmask : dispatchMask ms = mask at *
  have hall : ∀ b, boff (fun p : BitVec 32 × Nat => maskedNum mask p.1) ((fieldNumbers ms).zip (fieldIndices 0 ms)) b =
      boff (maskedNum mask) (fieldNumbers ms) b ∧ bcount (fun p : BitVec 32 × Nat => maskedNum mask p.1) ((fieldNumbers ms).zip (fieldIndices 0 ms)) b
        = bcount (maskedNum mask) (fieldNumbers ms) b := by
    have hc : ∀ b, bcount (fun p : BitVec 32 × Nat => maskedNum mask p.1) ((fieldNumbers ms).zip (fieldIndices 0 ms)) b
        = bcount (maskedNum mask) (fieldNumbers ms) b := by
      intro b
      have := List.map_fst_zip hl
      unfold bcount
      conv => rhs; rw [← this, List.filter_map, List.length_map]
      rfl
    intro b
    refine ⟨?_, hc b⟩
    induction b with
    | zero => rfl
    | succ b ih => simp only [boff, ih, hc]
  have hz : ((fieldNumbers ms).zip (fieldIndices 0 ms)).length = (fieldNumbers ms).length := by simp [List.length_zip]; omega
  have spec := fill_spec (mask := mask) ((fieldNumbers ms).zip (fieldIndices 0 ms)) _ [] (fieldNumbers ms) (fieldIndices 0 ms)
    ((tableOffsets mask (fieldNumbers ms)).dropLast) (List.replicate (fieldNumbers ms).length (0, 0)) rfl rfl hl
    (by simp [offsets_length]) (by simp [hz])
    (by
      intro b hb
      rw [(hall b).1, ← offsets_get (mask := mask) _ (by omega)]
      have : b < (tableOffsets mask (fieldNumbers ms)).length - 1 := by rw [offsets_length]; omega
      simp only [List.getD_eq_getElem?_getD, List.getElem?_dropLast, if_pos this]
      rfl)
    (by intro b _ j hj; simp [bcount] at hj)
  have htab : lookupTable ms = fillTable mask (fieldNumbers ms) (fieldIndices 0 ms)
      ((tableOffsets mask (fieldNumbers ms)).dropLast) (List.replicate (fieldNumbers ms).length (0, 0)) := by
    unfold lookupTable; rw [hmask]; rfl
  rw [htab]
  have h2 := spec (maskedNum mask n) (by omega)
  rw [offsets_get _ (by omega), offsets_get _ (by omega)]
  have hd : boff (maskedNum mask) (fieldNumbers ms) (maskedNum mask n + 1) - boff (maskedNum mask) (fieldNumbers ms) (maskedNum mask n) =
      (((fieldNumbers ms).zip (fieldIndices 0 ms)).filter (fun p => maskedNum mask p.1 == maskedNum mask n)).length := by
    have h3 := (hall (maskedNum mask n)).2
    simp only [boff]
    rw [Nat.add_sub_cancel_left, ← h3]
    rfl
  rw [hd, scan_find _ n _ _ (by
    intro j hj
    rw [← h2 j hj, (hall _).1])]
  congr 2
  rw [List.find?_filter]
  congr 1
  funext p
  by_cases e : n = p.1
  · simp [e]
  · simp [e]

end
end HppProto
