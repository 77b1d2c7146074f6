import Verif.Spec.Sequence
/-! # Proofs about the arena vector -/
namespace HppProto
open Spec

variable {γ : Type} {sz : Nat} {dflt : Option γ} {dec : List (BitVec 8) → γ}

/-- Memory that existed before the vector is as it was. -/
def Foreign (H0 : Heap γ) (h : Heap γ) : Prop := H0.length ≤ h.length ∧ ∀ b, b < H0.length → h[b]? = H0[b]?

/-- The vector uses block `blk`, number `b`. -/
structure Mat (H0 : Heap γ) (s : Arena γ) (b : Nat) (blk : List (Option γ)) : Prop where
  foreign : Foreign H0 s.heap
  data : s.data = some b
  mine : H0.length ≤ b
  block : s.heap[b]? = some blk
  len : blk.length = s.cap
  pos : 0 < s.cap

theorem Mat.put {H0 : Heap γ} {s b blk} (h : Mat H0 s b blk) (off : Nat) (cs : List (Option γ)) (hl : off + cs.length ≤ s.cap) :
    ∃ s', s.put off cs = some s' ∧ Mat H0 s' b (blk.take off ++ cs ++ blk.drop (off + cs.length)) ∧
      s'.viewPtr = s.viewPtr ∧ s'.viewSize = s.viewSize ∧ s'.cap = s.cap := by
  have hb : b < s.heap.length := by
    rcases Nat.lt_or_ge b s.heap.length with h1 | h1
    · exact h1
    · have := h.block; rw [List.getElem?_eq_none h1] at this; cases this
  refine ⟨{ s with heap := s.heap.set b (blk.take off ++ cs ++ blk.drop (off + cs.length)) }, ?_, ?_, rfl, rfl, rfl⟩
  · simp only [Arena.put, h.data, Heap.write, h.block, h.len, if_pos hl, Option.map_some]
  · refine ⟨⟨by simpa using h.foreign.1, fun c hc => ?_⟩, h.data, h.mine, ?_, ?_, h.pos⟩
    · show (s.heap.set _ _)[c]? = _
      rw [List.getElem?_set_ne (by have := h.mine; omega)]
      exact h.foreign.2 c hc
    · show (s.heap.set _ _)[b]? = _
      rw [List.getElem?_set_self hb]
    · have := h.len
      simp only [List.length_append, List.length_take, List.length_drop]; omega

/-- Obtaining a new block and filling its start. -/
theorem fresh_put {H0 : Heap γ} {s : Arena γ} (hf : Foreign H0 s.heap) {n : Nat} (hsz : 0 < sz) (hn : n * sz < 2 ^ 64)
    (hp : 0 < n) (cs : List (Option γ)) (hl : cs.length ≤ n) :
    ∃ s', ((s.alloc sz n).1.useBlock (s.alloc sz n).2 n).put 0 cs = some s' ∧
      Mat H0 s' s.heap.length (cs ++ List.replicate (n - cs.length) none) ∧ s'.cap = n := by
  have e : n * sz % 2 ^ 64 / sz = n := by rw [Nat.mod_eq_of_lt hn, Nat.mul_div_cancel _ hsz]
  have m : Mat H0 ((s.alloc sz n).1.useBlock (s.alloc sz n).2 n) s.heap.length (List.replicate n none) := by
    refine ⟨⟨?_, fun c hc => ?_⟩, rfl, hf.1, ?_, ?_, hp⟩
    · simp only [Arena.alloc, Arena.useBlock, List.length_append]; have := hf.1; omega
    · simp only [Arena.alloc, Arena.useBlock]
      rw [List.getElem?_append_left (by have := hf.1; omega)]
      exact hf.2 c hc
    · simp only [Arena.alloc, Arena.useBlock, e]
      rw [List.getElem?_append_right (Nat.le_refl _)]; simp
    · simp [Arena.useBlock]
  obtain ⟨s', h1, h2, _, _, h5⟩ := m.put 0 cs (by simpa [Arena.useBlock] using hl)
  refine ⟨s', h1, ?_, h5⟩
  simpa using h2

/-- The vector holds `l`. -/
structure ArenaInv (H0 : Heap γ) (s : Arena γ) (l : List (Option γ)) (stored : Bool) : Prop where
  foreign : Foreign H0 s.heap
  contents : s.contents = some l
  size : s.viewSize = l.length
  room : (stored = false ∧ s.cap = 0 ∧ s.data = none) ∨
    (stored = true ∧ ∃ b blk, Mat H0 s b blk ∧ s.viewPtr = some (b, 0) ∧ l = blk.take l.length ∧ l.length ≤ s.cap)

theorem ArenaInv.congr {H0 : Heap γ} {s l l' stored} (h : ArenaInv H0 s l stored) (e : l = l') : ArenaInv H0 s l' stored := e ▸ h

theorem contents_of_mat {H0 : Heap γ} {s b blk} (h : Mat H0 s b blk) {n : Nat} (hn : n ≤ s.cap) :
    (s.setView n).contents = some (blk.take n) := by
  have hv : (s.setView n).viewPtr = some (b, 0) := by simp only [Arena.setView, h.data]; rfl
  have hb : (s.setView n).heap[b]? = some blk := h.block
  simp only [Arena.contents, hv, Heap.read, hb, List.drop_zero]
  rw [if_pos (by show 0 + n ≤ _; have := h.len; omega)]; rfl

theorem inv_of_mat {H0 : Heap γ} {s b blk} (h : Mat H0 s b blk) {n : Nat} (hn : n ≤ s.cap) :
    ArenaInv H0 (s.setView n) (blk.take n) true := by
  have hlen : (blk.take n).length = n := by have := h.len; simp; omega
  refine ⟨h.foreign, contents_of_mat h hn, hlen.symm, .inr ⟨rfl, b, blk, ?_, ?_, ?_, ?_⟩⟩
  · exact ⟨h.foreign, h.data, h.mine, h.block, h.len, h.pos⟩
  · simp only [Arena.setView, h.data]; rfl
  · rw [hlen]
  · rw [hlen]; exact hn

/-- A view already at the start of the used block. -/
theorem inv_of_mat' {H0 : Heap γ} {s b blk} (h : Mat H0 s b blk) {n : Nat} (hn : n ≤ s.cap)
    (hv : s.viewPtr = some (b, 0)) (hz : s.viewSize = n) : ArenaInv H0 s (blk.take n) true := by
  have : s.setView n = s := by
    obtain ⟨a, p, z, d, c⟩ := s
    have hd : d = some b := h.data
    subst hd
    simp only at hv hz
    subst hv hz
    rfl
  rw [← this]; exact inv_of_mat h hn

theorem take_append_len {α : Type _} {l r : List α} {n : Nat} (h : n = l.length) : (l ++ r).take n = l := by
  subst h; simp

theorem empty_of_unstored {H0 : Heap γ} {s l} (h : ArenaInv H0 s l false) (n : Nat) (hn : n = 0) : 
    ArenaInv H0 (s.setView n) [] false := by
  subst hn
  rcases h.room with ⟨_, h1, h2⟩ | ⟨h1, _⟩
  · refine ⟨h.foreign, ?_, rfl, .inl ⟨rfl, h1, h2⟩⟩
    simp only [Arena.contents, Arena.setView, h2]; simp
  · cases h1

theorem resize_inv {H0 : Heap γ} {s l stored} (h : ArenaInv H0 s l stored) (hsz : 0 < sz) (n : Nat) (hn : n * sz < 2 ^ 64) :
    ∃ s', s.resize sz dflt n = some s' ∧
      ArenaInv H0 s' (l.take n ++ List.replicate (n - l.length) dflt) (stored || n != 0) := by
  unfold Arena.resize
  by_cases hc : s.cap < n
  · rw [if_pos hc]
    simp only [h.contents]
    have hcells : (if s.viewSize < n then l ++ List.replicate (n - s.viewSize) dflt else l.take n) =
        l.take n ++ List.replicate (n - l.length) dflt := by
      rw [h.size]
      split
      · rw [List.take_of_length_le (by omega)]
      · rw [show n - l.length = 0 by omega]; simp
    rw [hcells]
    have hlen : (l.take n ++ List.replicate (n - l.length) dflt).length = n := by simp; omega
    obtain ⟨s', h1, h2, h3⟩ := fresh_put h.foreign hsz hn (by omega) (l.take n ++ List.replicate (n - l.length) dflt) (by omega)
    refine ⟨s'.setView n, by rw [h1]; rfl, ?_⟩
    have := inv_of_mat h2 (n := n) (by omega)
    rw [take_append_len hlen.symm] at this
    have e : (stored || n != 0) = true := by simp; omega
    rw [e]; exact this
  · rw [if_neg hc]
    rcases h.room with ⟨r1, r2, r3⟩ | ⟨r1, b, blk, m, r3, r4, r5⟩
    · have hn0 : n = 0 := by omega
      subst hn0
      subst r1
      rw [if_neg (by omega)]
      refine ⟨_, rfl, ?_⟩
      simpa using empty_of_unstored h 0 rfl
    · have hbl := m.len
      by_cases hv : s.viewSize < n
      · rw [if_pos hv]
        obtain ⟨s', h1, h2, _, _, h5⟩ := m.put s.viewSize (List.replicate (n - s.viewSize) dflt) (by simp; omega)
        refine ⟨s'.setView n, by rw [h1]; rfl, ?_⟩
        have := inv_of_mat h2 (n := n) (by omega)
        rw [h.size] at this hv
        rw [r1, Bool.true_or]
        refine this.congr (Eq.symm ?_)
        rw [← r4, List.take_of_length_le (l := l) (by omega), take_append_len (by simp; omega)]
      · rw [if_neg hv]
        refine ⟨_, rfl, ?_⟩
        have := inv_of_mat m (n := n) (by omega)
        rw [r1, Bool.true_or]
        refine this.congr (Eq.symm ?_)
        rw [h.size] at hv
        rw [show n - l.length = 0 by omega]
        simp only [List.replicate_zero, List.append_nil]
        rw [r4, List.take_take, Nat.min_eq_left (by omega)]

theorem source_cells {H0 : Heap γ} {s l stored} (h : ArenaInv H0 s l stored) {r : Src γ} (hr : sourceOk l r = true) :
    r.cells s = some (source l r) := by
  cases r with
  | ext l => rfl
  | own i n =>
    have : i + n ≤ l.length := by simpa [sourceOk] using hr
    simp only [Src.cells, h.size, if_pos this, h.contents, Option.map_some]; rfl

theorem assign_inv {H0 : Heap γ} {s l stored} (h : ArenaInv H0 s l stored) (hsz : 0 < sz) {r : Src γ} (hr : sourceOk l r = true)
    (hn : (source l r).length * sz < 2 ^ 64) :
    ∃ s', s.assign sz r = some s' ∧ ArenaInv H0 s' (source l r) (stored || (source l r).length != 0) := by
  have hc := source_cells h hr
  generalize hc' : source l r = c at *
  simp only [Arena.assign, hc, Arena.assignWithSize]
  by_cases hcap : s.cap < c.length
  · rw [if_pos hcap]
    obtain ⟨s', h1, h2, h3⟩ := fresh_put h.foreign hsz hn (by omega) c (Nat.le_refl _)
    rw [List.take_length]
    refine ⟨s'.setView c.length, by rw [h1]; rfl, ?_⟩
    have := inv_of_mat h2 (n := c.length) (by omega)
    rw [take_append_len rfl] at this
    have e : (stored || c.length != 0) = true := by
      rw [bne_iff_ne.2 (show c.length ≠ 0 by omega), Bool.or_true]
    rw [e]; exact this
  · rw [if_neg hcap]
    rcases h.room with ⟨r1, r2, r3⟩ | ⟨r1, b, blk, m, r3, r4, r5⟩
    · have h0 : c = [] := by rw [← List.length_eq_zero_iff]; omega
      subst h0 r1
      have hi := empty_of_unstored h 0 rfl
      by_cases hs : r.sameData = true
      · rw [if_neg (by simp [hs])]; exact ⟨_, rfl, hi⟩
      · rw [if_pos (by simp [hs])]
        simp only [Arena.put, r3]
        exact ⟨_, rfl, hi⟩
    · have hbl := m.len
      rw [r1, Bool.true_or]
      by_cases hs : r.sameData = true
      · rw [if_neg (by simp [hs])]
        refine ⟨_, rfl, ?_⟩
        have := inv_of_mat m (n := c.length) (by omega)
        refine this.congr (Eq.symm ?_)
        cases r with
        | ext _ => cases hs
        | own i n =>
          have hi : i = 0 := by simpa [Src.sameData] using hs
          have : i + n ≤ l.length := by simpa [sourceOk] using hr
          subst hi
          rw [← hc']
          simp only [source, List.drop_zero]
          rw [List.length_take, Nat.min_eq_left (by omega), r4, List.take_take, Nat.min_eq_left (by omega)]
      · rw [if_pos (by simp [hs])]
        obtain ⟨s', h1, h2, _, _, h5⟩ := m.put 0 c (by omega)
        refine ⟨s'.setView c.length, by rw [h1]; rfl, ?_⟩
        have := inv_of_mat h2 (n := c.length) (by omega)
        refine this.congr (Eq.symm ?_)
        simp

/-- Growing by `k` elements: the old elements stay, and there is room behind them. -/
theorem grow {H0 : Heap γ} {s l stored} (h : ArenaInv H0 s l stored) (hsz : 0 < sz) (k : Nat)
    (hn : (l.length + k) * sz < 2 ^ 64) (c : List (Option γ)) (hck : c.length = k) :
    ∃ s1 s2, s.assignWithSize sz s.whole (s.viewSize + k) = some s1 ∧ s1.put s.viewSize c = some s2 ∧
      ArenaInv H0 s2 (l ++ c) (stored || l.length + k != 0) := by
  subst hck
  have hw : s.whole.cells s = some l := by
    have := source_cells h (r := s.whole) (by simp [Arena.whole, sourceOk, h.size])
    rw [this]; simp [source, Arena.whole, h.size]
  simp only [Arena.assignWithSize, hw]
  rw [h.size]
  by_cases hcap : s.cap < l.length + c.length
  · rw [if_pos hcap, List.take_of_length_le (by omega)]
    obtain ⟨s', h1, h2, h3⟩ := fresh_put h.foreign hsz hn (by omega) l (by omega)
    obtain ⟨s2, p1, p2, p3, p4, p5⟩ := Mat.put (s := s'.setView (l.length + c.length)) (b := s.heap.length)
      (blk := l ++ List.replicate (l.length + c.length - l.length) none)
      ⟨h2.foreign, h2.data, h2.mine, h2.block, h2.len, h2.pos⟩ l.length c (by show _ ≤ s'.cap; omega)
    refine ⟨_, s2, by rw [h1]; rfl, p1, ?_⟩
    have hv : s2.viewPtr = some (s.heap.length, 0) := by rw [p3]; simp only [Arena.setView, h2.data]; rfl
    have hz : s2.viewSize = l.length + c.length := by rw [p4]; rfl
    have hc2 : s2.cap = l.length + c.length := by rw [p5]; exact h3
    have := inv_of_mat' p2 (n := l.length + c.length) (by omega) hv hz
    have e : (stored || l.length + c.length != 0) = true := by
      rw [bne_iff_ne.2 (show l.length + c.length ≠ 0 by omega), Bool.or_true]
    rw [e]
    refine this.congr (Eq.symm ?_)
    rw [take_append_len (by simp)]; simp
  · rw [if_neg hcap]
    have hs : s.whole.sameData = true := rfl
    rw [if_neg (by simp [hs])]
    rcases h.room with ⟨r1, r2, r3⟩ | ⟨r1, b, blk, m, r3, r4, r5⟩
    · have hl0 : l = [] := by rw [← List.length_eq_zero_iff]; omega
      have hc0 : c = [] := by rw [← List.length_eq_zero_iff]; omega
      subst hl0 hc0 r1
      refine ⟨_, _, rfl, ?_, empty_of_unstored h 0 rfl⟩
      simp only [Arena.put, Arena.setView, r3]; rfl
    · have hbl := m.len
      obtain ⟨s2, p1, p2, p3, p4, p5⟩ := Mat.put (s := s.setView (l.length + c.length)) (b := b) (blk := blk)
        ⟨m.foreign, m.data, m.mine, m.block, m.len, m.pos⟩ l.length c (by show _ ≤ s.cap; omega)
      refine ⟨_, s2, rfl, p1, ?_⟩
      have hv : s2.viewPtr = some (b, 0) := by rw [p3]; simp only [Arena.setView, m.data]; rfl
      have hz : s2.viewSize = l.length + c.length := by rw [p4]; rfl
      have hc2 : s2.cap = s.cap := by rw [p5]; rfl
      have := inv_of_mat' p2 (n := l.length + c.length) (by omega) hv hz
      rw [r1, Bool.true_or]
      refine this.congr (Eq.symm ?_)
      rw [← r4, take_append_len (by simp)]

theorem rawElems_length (n : Nat) (bs : List (BitVec 8)) : (rawElems sz dec n bs).length = n := by
  induction n generalizing bs with
  | zero => rfl
  | succ n ih => simp [rawElems, ih]

theorem reserve_inv {H0 : Heap γ} {s l stored} (h : ArenaInv H0 s l stored) (hsz : 0 < sz) (n : Nat) (hn : n * sz < 2 ^ 64)
    (hok : stored = true ∨ n = 0 ∨ l.length ≤ n) :
    ∃ s', s.reserve sz n = some s' ∧ ArenaInv H0 s' l (stored || n != 0) := by
  unfold Arena.reserve
  by_cases hc : s.cap < n
  · have hl : l.length ≤ n := by
      rcases h.room with ⟨r1, r2, r3⟩ | ⟨r1, b, blk, m, r3, r4, r5⟩
      · subst r1; simp at hok; omega
      · omega
    rw [if_pos hc]
    simp only [h.contents]
    rw [List.take_of_length_le hl]
    obtain ⟨s', h1, h2, h3⟩ := fresh_put h.foreign hsz hn (by omega) l hl
    refine ⟨s'.setView s.viewSize, by rw [h1]; rfl, ?_⟩
    have := inv_of_mat h2 (n := s.viewSize) (by rw [h.size]; omega)
    rw [take_append_len h.size] at this
    have e : (stored || n != 0) = true := by simp; omega
    rw [e]; exact this
  · rw [if_neg hc]
    refine ⟨s, rfl, ?_⟩
    rcases h.room with ⟨r1, r2, r3⟩ | ⟨r1, b, blk, m, r3, r4, r5⟩
    · have : n = 0 := by omega
      subst this; simpa using h
    · subst r1; simpa using h

theorem step_inv {H0 : Heap γ} {s l stored} (h : ArenaInv H0 s l stored) (hsz : 0 < sz) {op : ArenaOp γ}
    (hok : seqOk sz dflt dec l stored op = true) :
    ∃ s', s.step sz dflt dec op = some s' ∧
      ArenaInv H0 s' (seqStep sz dflt dec l op) (seqStored sz dflt dec l stored op) := by
  simp only [seqOk, Bool.and_eq_true, decide_eq_true_eq] at hok
  obtain ⟨hn, hok⟩ := hok
  cases op with
  | resize n =>
    have hl : (l.take n ++ List.replicate (n - l.length) dflt).length = n := by simp; omega
    simp only [seqNeeds, seqStep] at hn
    rw [hl] at hn
    have := resize_inv (dflt := dflt) h hsz n hn
    simp only [seqStored, seqNeeds, seqStep, Arena.step]
    rw [hl]; exact this
  | pushBack v =>
    simp only [seqNeeds, seqStep, List.length_append, List.length_singleton] at hn
    obtain ⟨s1, s2, a, b, c⟩ := grow h hsz 1 hn [v] rfl
    refine ⟨s2, ?_, by simpa [seqStep, seqStored, seqNeeds] using c⟩
    simp only [Arena.step, Arena.emplaceBack, a, b]
  | clear =>
    refine ⟨_, rfl, ?_⟩
    exact ⟨h.foreign, rfl, rfl, .inl ⟨rfl, rfl, rfl⟩⟩
  | assign r =>
    exact assign_inv h hsz hok hn
  | append r =>
    simp only [seqNeeds, seqStep, List.length_append] at hn
    obtain ⟨s1, s2, a, b, c⟩ := grow h hsz _ hn (source l r) rfl
    refine ⟨s2, ?_, by simpa only [seqStep, seqStored, seqNeeds, List.length_append] using c⟩
    simp only [Arena.step, Arena.append, source_cells h hok, a, b]
  | reserve n =>
    apply reserve_inv h hsz n hn
    simpa [or_assoc] using hok
  | appendRaw bs =>
    simp only [seqNeeds, seqStep, List.length_append, rawElems_length] at hn
    have hm : bs.length % sz = 0 := by simpa using hok
    have e : (bs.length + sz - 1) / sz = bs.length / sz := by
      obtain ⟨q, hq⟩ := Nat.dvd_of_mod_eq_zero hm
      rw [hq, Nat.mul_div_cancel_left _ hsz, show sz * q + sz - 1 = (sz - 1) + sz * q by omega,
        Nat.add_mul_div_left _ _ hsz, Nat.div_eq_of_lt (by omega)]
      omega
    obtain ⟨s1, s2, a, b, c⟩ := grow h hsz _ hn (rawElems sz dec (bs.length / sz) bs) (rawElems_length _ _)
    refine ⟨s2, ?_, by simpa only [seqStep, seqStored, seqNeeds, List.length_append, rawElems_length] using c⟩
    simp only [Arena.step, Arena.appendRaw, a, e, b]

theorem contents_size {s : Arena γ} {l} (h : s.contents = some l) : s.viewSize = l.length := by
  unfold Arena.contents at h
  split at h
  · by_cases h0 : s.viewSize = 0
    · rw [if_pos h0] at h; injection h with e; subst e; exact h0
    · rw [if_neg h0] at h; cases h
  · next b off _ =>
    unfold Heap.read at h
    split at h
    · cases h
    · next blk _ =>
      by_cases h0 : off + s.viewSize ≤ blk.length
      · rw [if_pos h0] at h; injection h with e; rw [← e]; simp; omega
      · rw [if_neg h0] at h; cases h

theorem run_inv' {H0 : Heap γ} (hsz : 0 < sz) (ops : List (ArenaOp γ)) {s l stored} (h : ArenaInv H0 s l stored)
    (hok : seqLegal sz dflt dec l stored ops = true) :
    ∃ s', s.run sz dflt dec ops = some s' ∧ ∃ st, ArenaInv H0 s' (seqRun sz dflt dec l ops) st := by
  induction ops generalizing s l stored with
  | nil => exact ⟨s, rfl, _, h⟩
  | cons op ops ih =>
    simp only [seqLegal, Bool.and_eq_true] at hok
    obtain ⟨s1, e1, h1⟩ := step_inv h hsz hok.1
    obtain ⟨s', e2, h2⟩ := ih h1 hok.2
    exact ⟨s', by simp only [Arena.run, e1, Option.bind_some, e2], h2⟩

end HppProto
