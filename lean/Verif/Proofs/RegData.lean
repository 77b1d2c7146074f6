import Verif.Proofs.RegSim
import Verif.Proofs.Popcount
/-! # Simulation of the contiguous archive by the region machine: longer data -/
namespace HppProto
open Spec

variable {H : Mems} {tot : List Byte} {contig : Bool} {G : Ghost} {s : Arch} {f : Flat} {T : Prop}
  {r : Region} {L p n : Nat}

theorem slice_append (tot : List Byte) (p a b : Nat) :
    (tot.drop p).take (a + b) = (tot.drop p).take a ++ (tot.drop (p + a)).take b := by
  rw [List.take_add, List.drop_drop]

theorem slice_length {tot : List Byte} {p a : Nat} (h : p + a ≤ tot.length) : ((tot.drop p).take a).length = a := by
  simp; omega

theorem consume_zero (s : Arch) : s.consume 0 = s := by
  simp [Arch.consume, Region.consume]

/-- A state as its own past. -/
theorem On.self (h : Win H tot contig s r L) (hp : (p : Int) = L + (s.cur.beg - r.beg)) (hl : (n : Int) = s.left) :
    On H tot contig ⟨s, p, p + n, s.sec⟩ s r L p n :=
  ⟨h, hp, hl, rfl, Int.le_refl _, Nat.le_refl _, by simp [consume_zero]⟩

theorem On.reghost {G' : Ghost} (h : On H tot contig G' s r L p n) : On H tot contig ⟨s, p, p + n, s.sec⟩ s r L p n :=
  On.self h.at_ h.pos h.left

/-! ## Raw bytes -/

theorem raw_live : ∀ (fuel N : Nat) {s r L p n}, N < fuel → On H tot false G s r L p n → N ≤ n →
    ∃ s', rawLoop H fuel N s = .ok (s', (tot.drop p).take N) ∧ ∃ r' L', On H tot false G s' r' L' (p + N) (n - N)
  | 0, N, s, r, L, p, n, h0, _, _ => by omega
  | fuel + 1, N, s, r, L, p, n, hf, h, hN => by
    unfold rawLoop
    by_cases h0 : N = 0
    · subst h0
      rw [if_pos rfl]
      exact ⟨s, by simp, r, L, h⟩
    · rw [if_neg h0]
      obtain ⟨r1, L1, h1, hb⟩ := h.advance
      obtain ⟨b1, b2⟩ := h1.win_slope hb
      have hfl := h1.at_.finLe
      simp only
      have hsz : 0 < s.advance.size := by
        unfold Arch.size
        rcases h1.shape with f | f <;> omega
      rw [if_neg (by omega)]
      obtain ⟨k, hk⟩ : ∃ k, k = min N s.advance.size.toNat := ⟨_, rfl⟩
      rw [← hk]
      have hk1 : s.advance.cur.beg + k ≤ r1.fin := by unfold Arch.size at hk hsz; omega
      rw [(h1.bytes hk1).1]
      obtain ⟨s', e, r', L', h2⟩ := raw_live fuel (N - k) (by omega) (h1.consume (k := k) (by omega)) (by omega)
      refine ⟨s', ?_, r', L', ?_⟩
      · show Res.bind _ _ = _
        simp only [Res.bind]
        show Res.bind _ _ = _
        rw [e]
        simp only [Res.bind]
        rw [show N = k + (N - k) by omega, slice_append, show k + (N - k) - k = N - k by omega]
      · rw [show p + N = p + k + (N - k) by omega, show n - N = n - k - (N - k) by omega]
        exact h2

theorem sim_raw {N : Nat} {D} (h : R H tot contig G s f) :
    Sim T (fun b c => b.2 = c.2 ∧ R H tot contig G b.1 c.1) D (fun _ => False)
      ((regOps H contig).raw N s) (flatOps.raw N f) := by
  obtain ⟨r, L, p, n, h, rfl⟩ := h
  have hlen := flatAt_length h.bound
  show Sim _ _ _ _ (regRaw H contig N s)
    (if N ≤ (flatAt tot p n).rest.length then Res.ok ((flatAt tot p n).consume N, (flatAt tot p n).rest.take N) else .err .badMessage)
  unfold regRaw
  rw [hlen, h.avail]
  by_cases hn : N ≤ n
  · rw [if_pos hn, if_neg (by omega), flatAt_consume hn h.bound]
    have e : (flatAt tot p n).rest.take N = (tot.drop p).take N := by
      simp only [flatAt, List.take_take, Nat.min_eq_left hn]
    rw [e]
    cases contig with
    | true =>
      rw [if_pos rfl, (h.bytes (k := N) (by have h5 := h.shape; simp only [Bool.true_eq_false, false_and, or_false] at h5; omega)).1]
      exact Sim.ok ⟨rfl, r, L, _, _, h.consume hn, rfl⟩
    | false =>
      obtain ⟨s', e, r', L', h2⟩ := raw_live (N + 1) N (by omega) h hn
      rw [if_neg (by simp), e]
      exact Sim.ok ⟨rfl, r', L', _, _, h2, rfl⟩
  · rw [if_neg hn, if_pos (by omega)]
    exact Sim.err

/-! ## Splitting -/

theorem split_live (h : On H tot contig G s r L p n) (hf : s.cur.beg ≤ s.cur.fin) {N : Nat} (hN : N ≤ n) :
    ∃ G', On H tot contig G' (regSplit N s).1 r L p N ∧ (regSplit N s).1.cur.beg = s.cur.beg ∧
      s.cur.beg ≤ (regSplit N s).1.cur.fin := by
  have hp := h.pos
  have hl := h.left
  have hsl := h.at_.slope
  have hfl := h.at_.finLe
  have hbeg := h.at_.beg
  have hlim := h.at_.lim
  have hlay := (lay_facts h.at_.lay).bs
  unfold Arch.left at hl
  unfold regSplit
  simp only
  by_cases hc : s.cur.fin < s.cur.beg ∨ (N : Int) ≤ s.cur.fin - s.cur.beg
  · rw [if_pos hc]
    refine ⟨_, On.self (p := p) (n := N) ⟨h.at_.lay, h.at_.buf, ?_, ?_, ?_, hbeg, ?_, ?_, ?_, ?_⟩ hp ?_, rfl, ?_⟩ <;>
      (try simp only [Arch.left]) <;> (try omega)
    intro hcc
    exact ⟨by omega, (h.at_.ctg hcc).2⟩
  · rw [if_neg hc]
    rcases h.shape with f | ⟨f1, f2, f3, f4, f5, f6⟩
    · omega
    · refine ⟨_, On.self (p := p) (n := N) ⟨h.at_.lay, h.at_.buf, hsl, hfl, h.at_.finGe, hbeg, ?_, ?_, ?_, ?_⟩ hp ?_, rfl, hf⟩ <;>
        (try simp only [Arch.left, Region.slopeDist]) <;> (try omega)
      · exact .inr ⟨f4, by omega, f2⟩
      · intro hcc; rw [f1] at hcc; cases hcc

/-! ## Packed varints -/

theorem memOf_eq {v : List Byte} {i : Nat} (hi : i < v.length) : memOf v i = v[i] := by
  simp [memOf, List.getD_eq_getElem?_getD, List.getElem?_eq_getElem hi]

/-- A byte string that ends with a terminator starts with a run of bytes ending with one. -/
theorem endsTerm_len {v : List Byte} (h : endsTerm v) (h0 : v ≠ []) : ∃ k, varintLen (memOf v) v.length = some k := by
  cases e : varintLen (memOf v) v.length with
  | some k => exact ⟨k, rfl⟩
  | none =>
    have hp := List.length_pos_iff.2 h0
    have h1 := varintLen_none.1 e (v.length - 1) (by omega)
    have h2 := (endsTerm_last h0).1 h
    exact absurd (h2.symm.trans h1) (by simp)

/-- A parse of a byte string that ends with a terminator sees only that string. -/
theorem parse_within (ty : VarTy) {v : List Byte} (he : endsTerm v) (h0 : v ≠ []) {g : Mem}
    (hg : ∀ i, i < v.length → g i = memOf v i) :
    (∃ k x, 1 ≤ k ∧ k ≤ v.length ∧ ty.parse g = (some k, x) ∧ ty.parse (memOf v) = (some k, x)) ∨
    (∃ x x', ty.mix.maxLen ≤ v.length ∧ ty.parse g = (none, x) ∧ ty.parse (memOf v) = (none, x')) := by
  obtain ⟨k, hk⟩ := endsTerm_len he h0
  obtain ⟨⟨k1, k2, k3⟩, k4⟩ := varintLen_some.1 hk
  by_cases hm : k ≤ ty.mix.maxLen
  · left
    have h1 := varintLen_mono hk hm
    refine ⟨k, (ty.parse (memOf v)).2, k1, k4, ?_, ?_⟩
    · rw [parse_congr ty (g := memOf v) (fun i hi => (hg i (by omega)).symm) h1]
      apply Prod.ext
      · rw [parse_fst, h1]
      · rfl
    · apply Prod.ext
      · rw [parse_fst, h1]
      · rfl
  · right
    have hn : ∀ g' : Mem, (∀ i, i < v.length → g' i = memOf v i) → varintLen g' ty.mix.maxLen = none := by
      intro g' hg'
      cases e : varintLen g' ty.mix.maxLen with
      | none => rfl
      | some j =>
        obtain ⟨⟨j1, j2, j3⟩, j4⟩ := varintLen_some.1 e
        have := k2 (j - 1) (by omega)
        rw [hg' (j - 1) (by omega), this] at j3
        cases j3
    refine ⟨(ty.parse g).2, (ty.parse (memOf v)).2, by omega, ?_, ?_⟩
    · apply Prod.ext
      · rw [parse_fst, hn g hg]
      · rfl
    · apply Prod.ext
      · rw [parse_fst, hn _ (fun _ _ => rfl)]
      · rfl

def ofOpt {α} : Option α → Res α
  | some a => .ok a
  | none => .err .badMessage

theorem packedIn_eq (ty : VarTy) : ∀ (c : Nat) (r : Region) (v : List Byte),
    (∀ i (hi : i < v.length), H.cell r.buf (r.beg + i) = some v[i]) → r.fin = r.beg + v.length → endsTerm v →
    packedIn H ty c r = ofOpt (rdPacked ty c v)
  | 0, r, v, hv, hf, he => by
    unfold packedIn rdPacked
    cases v with
    | nil => rw [if_pos (by simpa using hf), if_pos (by simp)]; rfl
    | cons a b => rw [if_neg (by simp at hf; omega), if_neg (by simp)]; rfl
  | c + 1, r, v, hv, hf, he => by
    unfold packedIn rdPacked
    by_cases h0 : v = []
    · subst h0
      rw [if_pos (by simpa using hf), if_pos (by simp)]; rfl
    · have hp := List.length_pos_iff.2 h0
      rw [if_neg (show ¬ r.fin = r.beg by omega), if_neg (show ¬ v.isEmpty = true by simpa using h0)]
      have hg : ∀ i, i < v.length → H.view r i = memOf v i := by
        intro i hi
        rw [memOf_eq hi]
        simp [Mems.view, hv i hi]
      have good : ∀ k, k ≤ v.length → H.good r k = true := by
        intro k hk
        rw [good_iff]
        intro i hi
        rw [hv i (by omega)]; rfl
      rcases parse_within ty he h0 hg with ⟨k, x, k1, k2, e1, e2⟩ | ⟨x, x', k2, e1, e2⟩
      · have er : rdVarint ty v = some (k, x) := by unfold rdVarint; rw [e2]; simp [k2]
        rw [e1, er]
        simp only
        rw [if_pos (good k k2), if_neg (by omega)]
        have ih := packedIn_eq ty c (r.consume k) (v.drop k) (by
          intro i hi
          have hi' : i < v.length - k := by simpa using hi
          have := hv (k + i) (by omega)
          simp only [Region.consume, List.getElem_drop]
          rw [← this]
          congr 1
          omega) (by simp only [Region.consume, List.length_drop]; omega)
          (by rw [← List.take_append_drop k v] at he; exact endsTerm_suffix he)
        rw [ih]
        cases rdPacked ty c (v.drop k) <;> rfl
      · have er : rdVarint ty v = none := by unfold rdVarint; rw [e2]
        rw [e1, er]
        simp only
        rw [reach_eq, if_pos (good _ k2)]
        rfl

theorem packedIn_safe (ty : VarTy) : ∀ (c : Nat) (r : Region), r.beg ≤ r.fin →
    (∀ x : Int, r.beg ≤ x → x < r.fin + 10 → (H.cell r.buf x).isSome) → Out T (fun _ => True) (packedIn H ty c r)
  | 0, r, _, _ => by
    unfold packedIn
    split
    · exact Out.ok trivial
    · exact Out.err
  | c + 1, r, hb, hg => by
    unfold packedIn
    split
    · exact Out.ok trivial
    · rename_i hne
      have hm := mix_le ty
      have good : ∀ k : Nat, k ≤ 10 → H.good r k = true := by
        intro k hk
        rw [good_iff]
        intro i hi
        exact hg _ (by omega) (by omega)
      rcases hx : ty.parse (H.view r) with ⟨o, v⟩
      have ho : o = varintLen (H.view r) ty.mix.maxLen := by rw [← parse_fst, hx]
      cases o with
      | none =>
        simp only
        rw [reach_eq, if_pos (good _ hm)]
        exact Out.err
      | some k =>
        have hk := (varintLen_some.1 ho.symm).2
        simp only
        rw [if_pos (good k (by omega))]
        split
        · exact Out.err
        · refine (packedIn_safe ty c (r.consume k) ?_ ?_).bind (fun b _ _ => Out.ok trivial)
          · simp only [Region.consume]; omega
          · intro x h1 h2
            simp only [Region.consume] at h1 h2
            exact hg x (by omega) h2

/-- Cutting packed data after a terminator. -/
theorem rdPacked_split (ty : VarTy) : ∀ (c : Nat) (a b : List Byte), endsTerm a →
    rdPacked ty c (a ++ b) = (rdPacked ty c a).bind (fun vs => (rdPacked ty (c - vs.length) b).map (vs ++ ·))
  | 0, a, b, he => by
    cases a with
    | nil => simp [rdPacked]
    | cons x y => simp [rdPacked]
  | c + 1, a, b, he => by
    by_cases h0 : a = []
    · subst h0
      rw [List.nil_append]
      have : rdPacked ty (c + 1) [] = some [] := by simp [rdPacked]
      rw [this]
      simp
    · rw [rdPacked, rdPacked, if_neg (by simp [h0]), if_neg (by simpa using h0)]
      rcases parse_within ty he h0 (g := memOf (a ++ b)) (fun i hi => mem_append_left hi) with
        ⟨k, x, k1, k2, e1, e2⟩ | ⟨x, x', k2, e1, e2⟩
      · have er : rdVarint ty a = some (k, x) := by unfold rdVarint; rw [e2]; simp [k2]
        have er2 : rdVarint ty (a ++ b) = some (k, x) := by unfold rdVarint; rw [e1]; simp; omega
        rw [er, er2]
        simp only
        rw [List.drop_append_of_le_length k2, rdPacked_split ty c (a.drop k) b
          (by rw [← List.take_append_drop k a] at he; exact endsTerm_suffix he)]
        cases rdPacked ty c (a.drop k) with
        | none => rfl
        | some vs =>
          simp only [Option.bind_some, Option.map_some, List.length_cons, Nat.add_sub_add_right]
          cases rdPacked ty (c - vs.length) b <;> simp
      · have er : rdVarint ty a = none := by unfold rdVarint; rw [e2]
        have er2 : rdVarint ty (a ++ b) = none := by unfold rdVarint; rw [e1]
        rw [er, er2]
        rfl

/-- Ten continuation bytes in a row are not packed varints. -/
theorem rdPacked_run (ty : VarTy) : ∀ (c : Nat) (l : List Byte) (j : Nat), j + 10 ≤ l.length →
    (∀ i, j ≤ i → i < j + 10 → (memOf l i).msb = true) → rdPacked ty c l = none
  | 0, l, j, h, _ => by
    unfold rdPacked
    rw [if_neg]
    intro e
    simp at e
    subst e
    simp at h
  | c + 1, l, j, h, hm => by
    unfold rdPacked
    rw [if_neg (by intro e; simp at e; subst e; simp at h)]
    cases e : rdVarint ty l with
    | none => rfl
    | some kv =>
      obtain ⟨k, v⟩ := kv
      simp only
      obtain ⟨bs, more, rfl, hk, hv, -⟩ := rdVarint_iff.1 e
      have h10 := isVarint_le hv
      have hp := isVarint_pos hv
      have := mix_le ty
      have ht : (memOf (bs ++ more) (bs.length - 1)).msb = false := by
        rw [mem_append_left (by omega)]
        exact (varintLen_some.1 hv).1.2.2
      have hkj : k ≤ j := by
        apply Nat.le_of_not_lt
        intro hlt
        rw [hm (bs.length - 1) (by omega) (by omega)] at ht
        cases ht
      rw [rdPacked_run ty c _ (j - k) (by simp only [List.length_drop]; omega) ?_]
      · rfl
      · intro i h1 h2
        have := hm (i + k) (by omega) (by omega)
        have e : memOf ((bs ++ more).drop k) i = memOf (bs ++ more) (i + k) := by
          simp only [memOf, List.getD_eq_getElem?_getD, List.getElem?_drop]
          rw [Nat.add_comm]
        rw [e]
        exact this

theorem afterTerm_none {bs : List Byte} (h : afterTerm bs = none) : ∀ i, i < bs.length → (memOf bs i).msb = true := by
  intro i hi
  unfold afterTerm at h
  rw [List.findIdx?_eq_none_iff] at h
  have := h bs[i] (by simp)
  rw [memOf_eq hi]
  simpa using this

theorem afterTerm_some {bs : List Byte} {k} (h : afterTerm bs = some k) :
    k < bs.length ∧ endsTerm (bs.take (bs.length - k)) ∧ bs.take (bs.length - k) ≠ [] := by
  unfold afterTerm at h
  rw [List.findIdx?_eq_some_iff_getElem] at h
  obtain ⟨h1, h2, -⟩ := h
  have h1' : k < bs.length := by simpa using h1
  have hl : (bs.take (bs.length - k)).length = bs.length - k := by simp
  have hne : bs.take (bs.length - k) ≠ [] := by
    intro e; rw [e] at hl; simp at hl; omega
  refine ⟨h1', (endsTerm_last hne).2 ?_, hne⟩
  rw [hl, List.getD_eq_getElem?_getD, List.getElem?_take_of_lt (by omega), List.getElem?_eq_getElem (by omega)]
  rw [List.getElem_reverse] at h2
  have e : bs.length - 1 - k = bs.length - k - 1 := by omega
  simp only [e] at h2
  simpa using h2

/-- The bytes of the current region as a byte string. -/
theorem On.cells (h : On H tot contig G s r L p n) {k : Nat} (hk : s.cur.beg + k ≤ r.fin) :
    ∀ i (hi : i < ((tot.drop p).take k).length), H.cell s.cur.buf (s.cur.beg + i) = some ((tot.drop p).take k)[i] := by
  intro i hi
  have hb := (h.bytes hk).2
  rw [slice_length hb] at hi
  have hbeg := h.at_.beg
  have hc := (lay_facts h.at_.lay).cov ((s.cur.beg - r.beg).toNat + i) (by omega)
  have e : r.beg + (((s.cur.beg - r.beg).toNat + i : Nat) : Int) = s.cur.beg + i := by omega
  have e2 : L + ((s.cur.beg - r.beg).toNat + i) = p + i := by have := h.pos; omega
  rw [e, e2, ← h.at_.buf, List.getElem?_eq_getElem (by omega)] at hc
  rw [hc]
  simp

/-- Packed varints inside the current region. -/
theorem On.packedIn (h : On H tot contig G s r L p n) (ty : VarTy) (c : Nat) {k : Nat} (hk : s.cur.beg + k ≤ r.fin)
    (he : endsTerm ((tot.drop p).take k)) :
    HppProto.packedIn H ty c { s.cur with fin := s.cur.beg + k } = ofOpt (rdPacked ty c ((tot.drop p).take k)) :=
  packedIn_eq ty c _ _ (h.cells hk) (by simp only [slice_length (h.bytes hk).2]) he

/-- What `consume_packed_varints` takes from a region, when the read position is before the
slope. -/
theorem On.consumePacked (h : On H tot contig G s r L p n) (hb : s.cur.beg ≤ s.cur.slope) {N : Nat}
    (hN : s.cur.fin < s.cur.beg + N) :
    (HppProto.consumePacked H s.cur N = .ok 0 ∧ (s.cur.fin ≤ s.cur.slope ∨
        ∀ i, (s.cur.slope - s.cur.beg).toNat ≤ i → i < (s.cur.fin - s.cur.beg).toNat → (memOf (tot.drop p) i).msb = true)) ∨
    ∃ k : Nat, HppProto.consumePacked H s.cur N = .ok k ∧ 1 ≤ k ∧ s.cur.beg + k ≤ s.cur.fin ∧ endsTerm ((tot.drop p).take k) := by
  obtain ⟨b1, b2⟩ := h.win_slope hb
  have hfl := h.at_.finLe
  unfold HppProto.consumePacked
  rw [if_neg (by omega)]
  by_cases hs : s.cur.fin > s.cur.slope
  · rw [if_pos hs]
    obtain ⟨d, hd⟩ : ∃ d : Nat, s.cur.slope = s.cur.beg + d := ⟨(s.cur.slope - s.cur.beg).toNat, by omega⟩
    obtain ⟨w, hw⟩ : ∃ w : Nat, s.cur.fin = s.cur.slope + w := ⟨(s.cur.fin - s.cur.slope).toNat, by omega⟩
    have hdn : d ≤ n := by
      have hl := h.left
      have := h.at_.sec
      unfold Arch.left at hl
      omega
    have h2 := h.consume hdn
    have eb : ({ s.cur with beg := s.cur.slope } : Region) = (s.consume d).cur := by
      simp only [Arch.consume, Region.consume, hd]
    rw [eb, show (s.cur.fin - s.cur.slope).toNat = w by omega,
      (h2.bytes (k := w) (by simp only [Arch.consume, Region.consume]; omega)).1]
    have hb2 := (h2.bytes (k := w) (by simp only [Arch.consume, Region.consume]; omega)).2
    have hlen := slice_length hb2
    show (Res.bind _ _ = _ ∧ _) ∨ ∃ k, Res.bind _ _ = _ ∧ _
    simp only [Res.bind]
    cases ha : afterTerm ((tot.drop (p + d)).take w) with
    | none =>
      left
      refine ⟨rfl, .inr fun i h1 h2 => ?_⟩
      have := afterTerm_none ha (i - d) (by rw [hlen]; omega)
      unfold memOf at this ⊢
      rw [List.getD_eq_getElem?_getD, List.getElem?_take_of_lt (by omega), List.getElem?_drop] at this
      rw [List.getD_eq_getElem?_getD, List.getElem?_drop]
      rw [show p + d + (i - d) = p + i by omega] at this
      exact this
    | some k =>
      obtain ⟨a1, a2, a3⟩ := afterTerm_some ha
      rw [hlen] at a1 a2 a3
      right
      simp only
      refine ⟨(s.cur.fin - s.cur.beg).toNat - k, ?_, ?_, ?_, ?_⟩
      · rw [if_neg (by omega)]
      · omega
      · omega
      · rw [show (s.cur.fin - s.cur.beg).toNat - k = d + (w - k) by omega, slice_append]
        rw [List.take_take, Nat.min_eq_left (by omega)] at a2 a3
        rcases a2 with e | ⟨i, t, e, ht⟩
        · exact absurd e a3
        · rw [e]
          exact .inr ⟨(tot.drop p).take d ++ i, t, by simp, ht⟩
  · rw [if_neg hs]
    left
    exact ⟨rfl, .inl (by omega)⟩

theorem packed_live (ty : VarTy) : ∀ (fuel N c : Nat) {s r L p n}, N < fuel → On H tot false G s r L p n → N ≤ n →
    endsTerm ((tot.drop p).take N) →
    (∃ vs s', rdPacked ty c ((tot.drop p).take N) = some vs ∧ packedRegions H ty fuel N c s = .ok (s', vs) ∧
      ∃ r' L', On H tot false G s' r' L' (p + N) (n - N)) ∨
    (rdPacked ty c ((tot.drop p).take N) = none ∧ packedRegions H ty fuel N c s = .err .badMessage)
  | 0, N, c, s, r, L, p, n, h0, _, _, _ => by omega
  | fuel + 1, N, c, s, r, L, p, n, hf, h, hN, he => by
    unfold packedRegions
    by_cases h0 : N = 0
    · subst h0
      rw [if_pos rfl]
      left
      exact ⟨[], s, by cases c <;> simp [rdPacked], rfl, r, L, h⟩
    · rw [if_neg h0]
      obtain ⟨r1, L1, h1, hb⟩ := h.advance
      obtain ⟨b1, b2⟩ := h1.win_slope hb
      have hfl := h1.at_.finLe
      by_cases hsz : s.advance.cur.beg + N ≤ s.advance.cur.fin
      · have e1 : consumePacked H s.advance.cur N = .ok N := by unfold consumePacked; rw [if_pos (by omega)]
        have e2 := h1.packedIn ty c (k := N) (by omega) he
        show (∃ vs s', _ ∧ Res.bind _ _ = _ ∧ _) ∨ (_ ∧ Res.bind _ _ = _)
        rw [e1]
        simp only [Res.bind]
        rw [if_neg h0]
        show (∃ vs s', _ ∧ Res.bind _ _ = _ ∧ _) ∨ (_ ∧ Res.bind _ _ = _)
        rw [e2]
        cases e3 : rdPacked ty c ((tot.drop p).take N) with
        | none => right; exact ⟨rfl, rfl⟩
        | some vs =>
          left
          obtain ⟨fuel, rfl⟩ : ∃ k, fuel = k + 1 := ⟨fuel - 1, by omega⟩
          refine ⟨vs, s.advance.consume N, rfl, ?_, r1, L1, h1.consume hN⟩
          simp only [ofOpt, Res.bind, Nat.sub_self]
          show Res.bind _ _ = _
          rw [packedRegions, if_pos rfl]
          simp [Res.bind]
      · have hA : s.advance.cur.fin = s.advance.cur.slope + 16 ∧ s.advance.cur.slope = r1.slope := by
          rcases h1.shape with f | f <;> omega
        show (∃ vs s', _ ∧ Res.bind _ _ = _ ∧ _) ∨ (_ ∧ Res.bind _ _ = _)
        rcases h1.consumePacked hb (N := N) (by omega) with ⟨e1, e2⟩ | ⟨k, e1, k1, k2, k3⟩
        · right
          rw [e1]
          simp only [Res.bind]
          refine ⟨?_, rfl⟩
          rcases e2 with e2 | e2
          · omega
          · refine rdPacked_run ty c _ (s.advance.cur.slope - s.advance.cur.beg).toNat ?_ ?_
            · rw [slice_length (by have := h.bound; omega)]; omega
            · intro i i1 i2
              have := e2 i i1 (by omega)
              unfold memOf at this ⊢
              rw [List.getD_eq_getElem?_getD] at this ⊢
              rw [List.getElem?_take_of_lt (by omega)]
              exact this
        · rw [e1]
          simp only [Res.bind]
          rw [if_neg (by omega)]
          show (∃ vs s', _ ∧ Res.bind _ _ = _ ∧ _) ∨ (_ ∧ Res.bind _ _ = _)
          rw [h1.packedIn ty c (k := k) (by omega) k3]
          have hkN : k ≤ N := by omega
          have hsl : (tot.drop p).take N = (tot.drop p).take k ++ (tot.drop (p + k)).take (N - k) := by
            rw [← slice_append, show k + (N - k) = N by omega]
          rw [hsl] at he ⊢
          rw [rdPacked_split ty c _ _ k3]
          cases e3 : rdPacked ty c ((tot.drop p).take k) with
          | none => right; exact ⟨rfl, rfl⟩
          | some vs =>
            simp only [ofOpt, Res.bind, Option.bind_some]
            rcases packed_live ty fuel (N - k) (c - vs.length) (by omega) (h1.consume (k := k) (by omega)) (by omega)
              (endsTerm_suffix he) with ⟨ws, s', e4, e5, r', L', h5⟩ | ⟨e4, e5⟩
            · left
              refine ⟨vs ++ ws, s', by rw [e4]; rfl, ?_, r', L', ?_⟩
              · show Res.bind _ _ = _
                rw [e5]; rfl
              · rw [show p + N = p + k + (N - k) by omega, show n - N = n - k - (N - k) by omega]
                exact h5
            · right
              refine ⟨by rw [e4]; rfl, ?_⟩
              show Res.bind _ _ = _
              rw [e5]; rfl

/-- Packed data that crosses the limit inside a region. -/
theorem packed_over (ty : VarTy) : ∀ (fuel N c : Nat) {s r L p n}, N < fuel → On H tot false G s r L p n → n < N →
    endsTerm ((tot.drop p).take N) → p + N ≤ tot.length → (N ≤ 16 ∨ (s.cur.beg ≤ s.cur.slope ∧ s.cur.beg + N ≤ s.cur.fin)) →
    Out T (fun b => DE H tot false 0 b.1) (packedRegions H ty fuel N c s)
  | 0, N, c, s, r, L, p, n, h0, _, _, _, _, _ => by omega
  | fuel + 1, N, c, s, r, L, p, n, hf, h, hN, he, ht, hk => by
    unfold packedRegions
    rw [if_neg (by omega)]
    obtain ⟨r1, L1, h1, hb⟩ := h.advance
    obtain ⟨b1, b2⟩ := h1.win_slope hb
    have hfl := h1.at_.finLe
    by_cases hsz : s.advance.cur.beg + N ≤ s.advance.cur.fin
    · have e1 : consumePacked H s.advance.cur N = .ok N := by unfold consumePacked; rw [if_pos (by omega)]
      show Out _ _ (Res.bind _ _)
      rw [e1]
      simp only [Res.bind]
      rw [if_neg (by omega)]
      show Out _ _ (Res.bind _ _)
      rw [h1.packedIn ty c (k := N) (by omega) he]
      cases e3 : rdPacked ty c ((tot.drop p).take N) with
      | none => exact Out.err
      | some vs =>
        obtain ⟨fuel, rfl⟩ : ∃ k, fuel = k + 1 := ⟨fuel - 1, by omega⟩
        simp only [ofOpt, Res.bind, Nat.sub_self]
        show Out _ _ (Res.bind _ _)
        rw [packedRegions, if_pos rfl]
        exact Out.ok (h1.cross hN hsz).2.2.2.1
    · have hN16 : N ≤ 16 := by
        rcases hk with hk | ⟨hk1, hk2⟩
        · exact hk
        · rw [advance_stop (by unfold Region.slopeDist; omega)] at hsz; omega
      have hcut : s.advance.cur.fin = s.advance.cur.beg + n := by
        rcases h1.shape with f | f <;> omega
      show Out _ _ (Res.bind _ _)
      rcases h1.consumePacked hb (N := N) (by omega) with ⟨e1, -⟩ | ⟨k, e1, k1, k2, k3⟩
      · rw [e1]
        simp only [Res.bind]
        rw [if_pos trivial]
        exact Out.err
      · rw [e1]
        simp only [Res.bind]
        rw [if_neg (by omega)]
        show Out _ _ (Res.bind _ _)
        rw [h1.packedIn ty c (k := k) (by omega) k3]
        have hsl : (tot.drop p).take N = (tot.drop p).take k ++ (tot.drop (p + k)).take (N - k) := by
          rw [← slice_append, show k + (N - k) = N by omega]
        rw [hsl] at he
        cases e3 : rdPacked ty c ((tot.drop p).take k) with
        | none => exact Out.err
        | some vs =>
          simp only [ofOpt, Res.bind]
          refine (packed_over ty fuel (N - k) (c - vs.length) (by omega) (h1.consume (k := k) (by omega)) (by omega)
            (endsTerm_suffix he) (by omega) (.inl (by omega))).bind (fun b _ hb => Out.ok hb)

/-- The number of varints as the contiguous archive computes it. -/
def numOf (v : List Byte) : Option Nat := if (v.getD (v.length - 1) 0).msb then none else some (countTerm v)

theorem flat_num {N : Nat} (hN : N ≠ 0) (hb : p + n ≤ tot.length) :
    flatOps.numVarints N (flatAt tot p n) = .ok (if N ≤ n then numOf ((tot.drop p).take N) else none) := by
  show (if N = 0 then Res.ub
    else if N ≤ (flatAt tot p n).rest.length then
      (if ((flatAt tot p n).rest.getD (N - 1) 0).msb then .ok none else .ok (some (countTerm ((flatAt tot p n).rest.take N))))
    else .ok none) = _
  rw [if_neg hN, flatAt_length hb]
  by_cases h : N ≤ n
  · rw [if_pos h, if_pos h]
    unfold numOf
    have hl : ((tot.drop p).take N).length = N := slice_length (by omega)
    have e1 : (flatAt tot p n).rest.take N = (tot.drop p).take N := by
      simp only [flatAt, List.take_take, Nat.min_eq_left h]
    have e2 : (flatAt tot p n).rest.getD (N - 1) 0 = ((tot.drop p).take N).getD (((tot.drop p).take N).length - 1) 0 := by
      rw [hl, List.getD_eq_getElem?_getD, List.getD_eq_getElem?_getD]
      simp only [flatAt]
      rw [List.getElem?_take_of_lt (by omega), List.getElem?_take_of_lt (by omega)]
    rw [e1, e2]
    split <;> rfl
  · rw [if_neg h, if_neg h]

theorem On.regLast (h : On H tot contig G s r L p n) {N before : Nat} (h0 : N ≠ 0) (hk : s.cur.beg + N ≤ r.fin) :
    HppProto.regLast H s.cur N before = .ok ((numOf ((tot.drop p).take N)).map (before + ·)) := by
  have hb := (h.bytes hk)
  have hl := slice_length hb.2
  unfold HppProto.regLast
  rw [h.cells hk (N - 1) (by omega)]
  unfold numOf
  have e : ((tot.drop p).take N).getD (((tot.drop p).take N).length - 1) 0 = ((tot.drop p).take N)[N - 1]'(by omega) := by
    rw [List.getD_eq_getElem?_getD, List.getElem?_eq_getElem (by omega)]
    simp only [hl]
    rfl
  rw [e]
  simp only
  split
  · rfl
  · show Res.bind _ _ = _
    unfold regCount
    simp only [regionTerms_eq]
    show Res.bind (Res.bind _ _) _ = _
    rw [hb.1]
    rfl

theorem num_loop : ∀ (fuel N before : Nat) {s r L p n}, N < fuel → N ≠ 0 → On H tot false G s r L p n → N ≤ n →
    numLoop H fuel N before s = .ok ((numOf ((tot.drop p).take N)).map (before + ·))
  | 0, N, before, s, r, L, p, n, h0, _, _, _ => by omega
  | fuel + 1, N, before, s, r, L, p, n, hf, h0, h, hN => by
    unfold numLoop
    rw [if_pos (by rw [h.avail]; omega)]
    obtain ⟨r1, L1, h1, hb⟩ := h.advance
    obtain ⟨b1, b2⟩ := h1.win_slope hb
    have hfl := h1.at_.finLe
    have hsz : 0 < s.advance.size := by
      unfold Arch.size
      rcases h1.shape with f | f <;> omega
    simp only
    obtain ⟨k, hk⟩ : ∃ k : Nat, s.advance.size = k := ⟨s.advance.size.toNat, by omega⟩
    rw [hk]
    have hk1 : s.advance.cur.beg + k ≤ r1.fin := by unfold Arch.size at hk; omega
    by_cases hlt : (N : Int) > k
    · rw [if_pos hlt]
      show Res.bind _ _ = _
      unfold regCount
      simp only [regionTerms_eq]
      show Res.bind (Res.bind _ _) _ = _
      rw [show ((k : Int)).toNat = k by omega, (h1.bytes hk1).1]
      simp only [Res.bind]
      rw [show (N : Int) - k = ((N - k : Nat) : Int) by omega,
        num_loop fuel (N - k) _ (by omega) (by omega) (h1.consume (k := k) (by omega)) (by omega)]
      have hsl : (tot.drop p).take N = (tot.drop p).take k ++ (tot.drop (p + k)).take (N - k) := by
        rw [← slice_append, show k + (N - k) = N by omega]
      have hb2 := h.bound
      have l1 := slice_length (tot := tot) (p := p) (a := k) (by omega)
      have l2 := slice_length (tot := tot) (p := p + k) (a := N - k) (by omega)
      rw [hsl]
      unfold numOf
      have e : ((tot.drop p).take k ++ (tot.drop (p + k)).take (N - k)).getD
          (((tot.drop p).take k ++ (tot.drop (p + k)).take (N - k)).length - 1) 0 =
          ((tot.drop (p + k)).take (N - k)).getD (((tot.drop (p + k)).take (N - k)).length - 1) 0 := by
        rw [List.getD_eq_getElem?_getD, List.getD_eq_getElem?_getD, List.getElem?_append_right (by simp only [List.length_append]; omega)]
        congr 2
        simp only [List.length_append]
        omega
      rw [e, countTerm_append]
      split
      · rfl
      · simp only [Option.map_some]
        congr 2
        omega
    · rw [if_neg hlt, show ((N : Int)).toNat = N by omega]
      exact h1.regLast h0 (by omega)

/-- `number_of_varints`: as on the contiguous archive, or more bytes are wanted than are
left while the region has them. -/
theorem num_live (h : On H tot contig G s r L p n) {N : Nat} (h0 : N ≠ 0) :
    (N ≤ n ∧ regNum H contig N s = .ok (numOf ((tot.drop p).take N))) ∨
    (n < N ∧ (regNum H contig N s = .ok none ∨
      (contig = false ∧ s.cur.beg + N ≤ s.cur.fin ∧ p + N ≤ tot.length ∧ regNum H contig N s = .ok (numOf ((tot.drop p).take N))))) := by
  have hfl := h.at_.finLe
  have key : s.cur.beg + N ≤ s.cur.fin → regNum H contig N s = .ok (numOf ((tot.drop p).take N)) ∧ p + N ≤ tot.length := by
    intro hs
    refine ⟨?_, (h.bytes (k := N) (by omega)).2⟩
    unfold regNum
    rw [if_neg h0, if_pos (by unfold Arch.size; omega), h.regLast h0 (by omega)]
    cases numOf ((tot.drop p).take N) <;> simp
  by_cases hs : s.cur.beg + N ≤ s.cur.fin
  · by_cases hn : N ≤ n
    · exact .inl ⟨hn, (key hs).1⟩
    · right
      refine ⟨by omega, .inr ⟨?_, hs, (key hs).2, (key hs).1⟩⟩
      rcases h.shape with f | f
      · omega
      · exact f.1
  · by_cases hn : N ≤ n
    · left
      refine ⟨hn, ?_⟩
      have hc : contig = false := by
        rcases h.shape with f | f
        · omega
        · exact f.1
      subst hc
      unfold regNum
      rw [if_neg h0, if_neg (by unfold Arch.size; omega), if_pos (by rw [h.avail]; exact ⟨by omega, rfl⟩),
        num_loop (N + 1) N 0 (by omega) h0 h hn]
      cases numOf ((tot.drop p).take N) <;> simp
    · right
      refine ⟨by omega, .inl ?_⟩
      unfold regNum
      rw [if_neg h0, if_neg (by unfold Arch.size; omega), if_neg (by rw [h.avail]; omega)]

theorem numOf_some {v : List Byte} {c} (h0 : v ≠ []) (h : numOf v = some c) : endsTerm v ∧ c = countTerm v := by
  unfold numOf at h
  split at h
  · cases h
  · rename_i hm
    cases h
    exact ⟨(endsTerm_last h0).2 (by simpa using hm), rfl⟩

/-- Number of elements and packed elements, as `readPackedElems` runs them. -/
def packedVs {σ} (O : Ops σ) (ty : VarTy) (N : Nat) (s : σ) : Res (σ × List (BitVec 64)) := do
  match ← O.numVarints N s with
  | some c => O.packedVarints ty N c s
  | none => .err .badMessage

theorem slice_ne {N : Nat} (h0 : N ≠ 0) (hb : p + N ≤ tot.length) : (tot.drop p).take N ≠ [] := by
  intro e
  have := slice_length hb
  rw [e] at this
  simp at this
  omega

theorem sim_packed (ty : VarTy) {N : Nat} (h0 : N ≠ 0) (h : R H tot contig G s f) :
    Sim T (fun b c => b.2 = c.2 ∧ R H tot contig G b.1 c.1) (fun b => DE H tot contig 0 b.1) (fun _ => False)
      (packedVs (regOps H contig) ty N s) (packedVs flatOps ty N f) := by
  obtain ⟨r, L, p, n, h, rfl⟩ := h
  unfold packedVs
  rw [flat_num h0 h.bound]
  show Sim _ _ _ _ (Res.bind (regNum H contig N s) _) (Res.bind (Res.ok _) _)
  have hbd := h.bound
  rcases num_live h h0 with ⟨hn, e⟩ | ⟨hn, e⟩
  · rw [e, if_pos hn]
    simp only [Res.bind]
    cases ec : numOf ((tot.drop p).take N) with
    | none => exact Sim.err
    | some c =>
      obtain ⟨he, rfl⟩ := numOf_some (slice_ne h0 (by omega)) ec
      show Sim _ _ _ _ (regPacked H contig ty N _ s) (match rdPacked ty _ ((flatAt tot p n).rest.take N) with
        | some vs => Res.ok ((flatAt tot p n).consume N, vs)
        | none => .err .badMessage)
      have e1 : (flatAt tot p n).rest.take N = (tot.drop p).take N := by
        simp only [flatAt, List.take_take, Nat.min_eq_left hn]
      rw [e1]
      unfold regPacked
      cases contig with
      | true =>
        rw [if_pos rfl, h.packedIn ty _ (k := N) (by have h5 := h.shape; simp only [Bool.true_eq_false, false_and, or_false] at h5; omega) he]
        cases rdPacked ty (countTerm ((tot.drop p).take N)) ((tot.drop p).take N) with
        | none => exact Sim.err
        | some vs => exact Sim.ok ⟨rfl, r, L, _, _, h.consume hn, flatAt_consume hn hbd⟩
      | false =>
        rw [if_neg (by simp)]
        rcases packed_live ty (N + 1) N (countTerm ((tot.drop p).take N)) (by omega) h hn he with
          ⟨vs, s', e2, e3, r', L', h3⟩ | ⟨e2, e3⟩
        · rw [e2, e3]
          exact Sim.ok ⟨rfl, r', L', _, _, h3, flatAt_consume hn hbd⟩
        · rw [e2, e3]
          exact Sim.err
  · rw [if_neg (by omega)]
    refine Sim.dead ?_ (by intro c hc; cases hc)
    rcases e with e | ⟨rfl, hs, ht, e⟩
    · rw [e]; exact Out.err
    · rw [e]
      simp only [Res.bind]
      cases ec : numOf ((tot.drop p).take N) with
      | none => exact Out.err
      | some c =>
        obtain ⟨he, rfl⟩ := numOf_some (slice_ne h0 ht) ec
        refine packed_over ty (N + 1) N _ (by omega) h hn he ht ?_
        by_cases hb : s.cur.beg ≤ s.cur.slope
        · exact .inr ⟨hb, hs⟩
        · left
          rcases h.shape with f | f <;> omega

/-- Packed elements after a length that crossed the limit. -/
theorem ds_packed (ty : VarTy) {N : Nat} (h0 : N ≠ 0) (h : DS H tot contig G s) (hf : s.cur.beg ≤ s.cur.fin) :
    Out T (fun b => DE H tot contig 0 b.1) (packedVs (regOps H contig) ty N s) := by
  have h' := h
  obtain ⟨⟨r, L, h, hl, h1, h2⟩, hq, hlim⟩ := h
  obtain ⟨c1, c2, c3, c4, c5, c6⟩ := h.crossed hl hf
  subst c4
  have hb := h.beg
  unfold packedVs
  show Out _ _ (Res.bind (regNum H false N s) _)
  by_cases hs : s.cur.beg + N ≤ s.cur.fin
  · have good := h.good (k := N) (by omega)
    have e : ∃ o, regNum H false N s = .ok o := by
      unfold regNum
      rw [if_neg h0, if_pos (by unfold Arch.size; omega)]
      unfold regLast
      have := good_iff.1 good (N - 1) (by omega)
      obtain ⟨b, hb⟩ := Option.isSome_iff_exists.1 this
      rw [hb]
      simp only
      split
      · exact ⟨_, rfl⟩
      · refine ⟨some (0 + regionTerms ((List.range N).map (H.view s.cur))), ?_⟩
        show Res.bind (Res.bind (H.bytes s.cur N) _) _ = _
        rw [bytes_eq good]
        rfl
    obtain ⟨o, e⟩ := e
    rw [e]
    simp only [Res.bind]
    cases o with
    | none => exact Out.err
    | some c =>
      show Out _ _ (packedRegions H ty (N + 1) N c s)
      unfold packedRegions
      rw [if_neg h0]
      obtain ⟨r', L', a, b, d, e', g, i⟩ := Win.advance_dead rfl c1 h hl (h2 c1)
      have hneg : s.advance.left < 0 := by rw [b]; exact hl
      obtain ⟨l1, l2, l3⟩ := a.last e'
      have hneg2 := hneg
      unfold Arch.left at hneg2
      have ek : consumePacked H s.advance.cur N = .ok N := by unfold consumePacked; rw [if_pos (by omega)]
      show Out _ _ (Res.bind _ _)
      rw [ek]
      simp only [Res.bind]
      rw [if_neg h0]
      refine (packedIn_safe (T := T) ty c { s.advance.cur with fin := s.advance.cur.beg + N } (by simp only; omega) ?_).bind (fun vs _ _ => ?_)
      · intro x x1 x2
        simp only at x1 x2
        rw [a.buf]
        have := a.beg
        exact (lay_facts a.lay).ok x (by omega) (by omega)
      · obtain ⟨N, rfl⟩ : ∃ k, N = k + 1 := ⟨N - 1, by omega⟩
        rw [Nat.sub_self, packedRegions, if_pos rfl]
        have := a.beg
        refine Out.ok ⟨r', L', a.consume (by omega), by rw [consume_left]; omega, fun _ => ?_, fun hne => absurd e' hne⟩
        simp only [Arch.consume, Region.consume]
        omega
  · have e : regNum H false N s = .ok none := by
      unfold regNum
      rw [if_neg h0, if_neg (by unfold Arch.size; omega), if_neg (by have := h'.1.avail; omega)]
    rw [e]
    exact Out.err

/-! ## Packed booleans -/

theorem flat_bools (c : Nat) (f : Flat) : flatOps.packedBools (c + 1) f =
    (flatOps.bool f >>= fun x => flatOps.packedBools c x.1 >>= fun y => .ok (y.1, x.2 :: y.2)) := by
  show (match rdPackedBools (c + 1) f.rest with
    | some (n, bs) => Res.ok (f.consume n, bs)
    | none => .err .badMessage) = Res.bind (match rdBool f.rest with
    | some (n, v) => Res.ok (f.consume n, v)
    | none => .err .badMessage) (fun x => Res.bind (match rdPackedBools c x.1.rest with
      | some (n, bs) => Res.ok (x.1.consume n, bs)
      | none => .err .badMessage) (fun y => .ok (y.1, x.2 :: y.2)))
  rw [rdPackedBools]
  cases e : rdBool f.rest with
  | none => rfl
  | some nb =>
    obtain ⟨k, b⟩ := nb
    simp only [Res.bind]
    have e2 : (f.consume k).rest = f.rest.drop k := rfl
    rw [e2]
    cases rdPackedBools c (f.rest.drop k) with
    | none => rfl
    | some nb2 =>
      obtain ⟨j, bs⟩ := nb2
      simp only [Option.map_some]
      congr 2
      simp only [Flat.consume, List.take_add, List.reverse_append, List.append_assoc, List.drop_drop]

theorem regBools_succ (c : Nat) (s : Arch) : regBools H contig (c + 1) s =
    (regBool H (if contig then s else s.advance) >>= fun x => regBools H contig c x.1 >>= fun y => .ok (y.1, x.2 :: y.2)) := rfl

theorem de_bools {c : Nat} (h : DE H tot false 0 s) : Out T (fun b => DE H tot false 0 b.1) (regBools H false c s) := by
  cases c with
  | zero => exact Out.ok h
  | succ c =>
    rw [regBools_succ]
    have : regBool H s.advance = .err .badMessage := dl_bool (contig := false) h.advance.1
    show Out _ _ (Res.bind (regBool H s.advance) _)
    rw [this]
    exact Out.err

theorem sim_bools_seg : ∀ (c : Nat) {s f}, R H tot false G s f →
    Sim T (fun b c => b.2 = c.2 ∧ R H tot false G b.1 c.1) (fun b => DE H tot false 0 b.1) (fun _ => False)
      (regBools H false c s) (flatOps.packedBools c f)
  | 0, s, f, h => by
    have e : flatOps.packedBools 0 f = .ok (f, []) := by
      show Res.ok (f.consume 0, []) = _
      simp [Flat.consume]
    rw [e]
    exact Sim.ok ⟨rfl, h⟩
  | c + 1, s, f, h => by
    rw [regBools_succ, flat_bools]
    obtain ⟨r, L, p, n, h, rfl⟩ := h
    obtain ⟨r, L, h, hb⟩ := h.advance
    obtain ⟨b1, b2⟩ := h.win_slope hb
    have hbeg := h.at_.beg
    have hv : RV H tot false G 0 5 s.advance (flatAt tot p n) := ⟨r, L, p, n, h, rfl, by omega, by omega, b2⟩
    refine (sim_bool hv).bind (fun b d _ _ hq => ?_) (fun b _ hd => ?_) (fun _ _ h => h.elim)
    · refine (sim_bools_seg c hq.2).bind (fun b2 d2 _ _ hq2 => ?_) (fun b2 _ hd2 => ?_) (fun _ _ h => h.elim)
      · exact Sim.ok ⟨by rw [hq.1, hq2.1], hq2.2⟩
      · exact Out.ok hd2
    · exact (de_bools hd.1).bind (fun b2 _ hd2 => Out.ok hd2)

theorem countTerm_take_le (l : List Byte) (n : Nat) : countTerm (l.take n) ≤ countTerm l := by
  rw [← List.take_append_drop n l, countTerm_append]
  rw [List.take_append_drop]
  omega

theorem countTerm_pos {l : List Byte} (h : 0 < countTerm l) : ∃ k, varintLen (memOf l) l.length = some k := by
  cases e : varintLen (memOf l) l.length with
  | some k => exact ⟨k, rfl⟩
  | none =>
    have h1 := varintLen_none.1 e
    have : countTerm l = 0 := by
      unfold countTerm
      rw [List.countP_eq_zero]
      intro a ha
      obtain ⟨i, hi, rfl⟩ := List.mem_iff_getElem.1 ha
      have := h1 i hi
      rw [memOf_eq hi] at this
      simp [this]
    omega

/-- In contiguous input booleans are read without moving to the next region; the number of
terminators counted before keeps the reads inside the region. -/
theorem sim_bools_ctg : ∀ (c : Nat) {s r L p n N}, On H tot true G s r L p n → N ≤ n → c ≤ countTerm ((tot.drop p).take N) →
    Sim T (fun b c => b.2 = c.2 ∧ R H tot true G b.1 c.1) (fun b => DE H tot true 0 b.1) (fun _ => False)
      (regBools H true c s) (flatOps.packedBools c (flatAt tot p n))
  | 0, s, r, L, p, n, N, h, _, _ => by
    have e : flatOps.packedBools 0 (flatAt tot p n) = .ok (flatAt tot p n, []) := by
      show Res.ok ((flatAt tot p n).consume 0, []) = _
      simp [Flat.consume]
    rw [e]
    exact Sim.ok ⟨rfl, r, L, p, n, h, rfl⟩
  | c + 1, s, r, L, p, n, N, h, hN, hc => by
    rw [regBools_succ, flat_bools, flat_bool]
    have hbd := h.bound
    have hlen := flatAt_length hbd
    have hcut : s.cur.fin = s.cur.beg + n ∧ s.cur.beg + n ≤ r.fin := by
      rcases h.shape with f | f
      · exact f
      · cases f.1
    have hfs := (lay_facts h.at_.lay).fs
    obtain ⟨k, hk⟩ := countTerm_pos (l := (tot.drop p).take N) (by omega)
    have hlN := slice_length (tot := tot) (p := p) (a := N) (by omega)
    rw [hlN] at hk
    have hkN := (varintLen_some.1 hk).2
    have hsame : ∀ i, i < n → H.view s.cur i = memOf (flatAt tot p n).rest i := by
      intro i hi
      rw [flatAt_mem hi]
      exact h.view (by omega)
    have hmem : ∀ i, i < N → memOf ((tot.drop p).take N) i = memOf (flatAt tot p n).rest i := by
      intro i hi
      simp only [memOf, flatAt, List.getD_eq_getElem?_getD]
      rw [List.getElem?_take_of_lt hi, List.getElem?_take_of_lt (by omega)]
    have hkf := varintLen_congr (fun i hi => hmem i (by omega)) hk
    show Sim _ _ _ _ (checkedErr H s 10 (parseBool (H.view s.cur)) >>= _) _
    by_cases h10 : k ≤ 10
    · have e1 := varintLen_mono hkf h10
      have e2 := parseBool_congr (g := memOf (flatAt tot p n).rest) (g' := H.view s.cur) (fun i hi => (hsame i (by omega)).symm) e1
      rw [e2]
      have e3 : (parseBool (memOf (flatAt tot p n).rest)) = (some k, (parseBool (memOf (flatAt tot p n).rest)).2) := by
        apply Prod.ext
        · rw [(parseBool_spec _).1, e1]
        · rfl
      rw [e3]
      simp only [checkedErr, checked, Flat.checked]
      rw [if_pos (h.at_.good (by omega)), if_pos (by omega), hlen, if_pos (by omega), flatAt_consume (by omega) hbd]
      have hct : countTerm ((tot.drop p).take k) = 1 := by
        have h1 : isVarint N ((tot.drop p).take k) := by
          have := (isVarint_take (l := (tot.drop p).take N) (k := N) hk (by omega)).1
          rwa [List.take_take, Nat.min_eq_left hkN] at this
        exact countTerm_varint h1
      have hsl : (tot.drop p).take N = (tot.drop p).take k ++ (tot.drop (p + k)).take (N - k) := by
        rw [← slice_append, show k + (N - k) = N by omega]
      rw [hsl, countTerm_append, hct] at hc
      show Sim _ _ _ _ (Res.bind (Res.ok _) _) (Res.bind (Res.ok _) _)
      simp only [Res.bind]
      refine (sim_bools_ctg c (h.consume (k := k) (by omega)) (N := N - k) (by omega) (by omega)).bind
        (fun b2 d2 _ _ hq2 => ?_) (fun b2 _ hd2 => ?_) (fun _ _ h => h.elim)
      · exact Sim.ok ⟨by rw [hq2.1], hq2.2⟩
      · exact Out.ok hd2
    · have hnone : ∀ g : Mem, (∀ i, i < n → g i = memOf (flatAt tot p n).rest i) → varintLen g 10 = none := by
        intro g hg
        cases e : varintLen g 10 with
        | none => rfl
        | some j =>
          obtain ⟨⟨j1, j2, j3⟩, j4⟩ := varintLen_some.1 e
          have := (varintLen_some.1 hkf).1.2.1 (j - 1) (by omega)
          rw [hg (j - 1) (by omega), this] at j3
          cases j3
      have e1 : parseBool (H.view s.cur) = (none, (parseBool (H.view s.cur)).2) := by
        apply Prod.ext
        · rw [(parseBool_spec _).1, hnone _ hsame]
        · rfl
      have e2 : parseBool (memOf (flatAt tot p n).rest) = (none, (parseBool (memOf (flatAt tot p n).rest)).2) := by
        apply Prod.ext
        · rw [(parseBool_spec _).1, hnone _ (fun _ _ => rfl)]
        · rfl
      rw [e1, e2]
      simp only [checkedErr, checked, Flat.checked]
      rw [if_pos (h.at_.good (by omega))]
      exact Sim.err

/-- Number of elements and packed booleans, as `readPackedElems` runs them. -/
def packedBs {σ} (O : Ops σ) (N : Nat) (s : σ) : Res (σ × List Bool) := do
  match ← O.numVarints N s with
  | some c => O.packedBools c s
  | none => .err .badMessage

theorem sim_packedBools {N : Nat} (h0 : N ≠ 0) (h : R H tot contig G s f) :
    Sim T (fun b c => b.2 = c.2 ∧ R H tot contig G b.1 c.1) (fun b => DE H tot contig 0 b.1) (fun _ => False)
      (packedBs (regOps H contig) N s) (packedBs flatOps N f) := by
  have hR := h
  obtain ⟨r, L, p, n, h, rfl⟩ := h
  unfold packedBs
  rw [flat_num h0 h.bound]
  show Sim _ _ _ _ (Res.bind (regNum H contig N s) _) (Res.bind (Res.ok _) _)
  have hbd := h.bound
  rcases num_live h h0 with ⟨hn, e⟩ | ⟨hn, e⟩
  · rw [e, if_pos hn]
    simp only [Res.bind]
    cases ec : numOf ((tot.drop p).take N) with
    | none => exact Sim.err
    | some c =>
      obtain ⟨he, rfl⟩ := numOf_some (slice_ne h0 (by omega)) ec
      cases contig with
      | true => exact sim_bools_ctg _ h hn (Nat.le_refl _)
      | false => exact sim_bools_seg _ hR
  · rw [if_neg (by omega)]
    refine Sim.dead ?_ (by intro c hc; cases hc)
    rcases e with e | ⟨rfl, hs, ht, e⟩
    · rw [e]; exact Out.err
    · rw [e]
      simp only [Res.bind]
      cases ec : numOf ((tot.drop p).take N) with
      | none => exact Out.err
      | some c =>
        obtain ⟨he, rfl⟩ := numOf_some (slice_ne h0 ht) ec
        have S := sim_bools_seg (T := T) (countTerm ((tot.drop p).take N)) hR
        refine ⟨S.1, fun b hb => ?_⟩
        rcases S.2.2 b hb with ⟨d, hd, -⟩ | hd
        · -- as many booleans cannot be inside the limit
          exfalso
          have hd' : (match rdPackedBools (countTerm ((tot.drop p).take N)) (flatAt tot p n).rest with
            | some (n', bs) => Res.ok ((flatAt tot p n).consume n', bs)
            | none => .err .badMessage) = Res.ok d := hd
          cases er : rdPackedBools (countTerm ((tot.drop p).take N)) (flatAt tot p n).rest with
          | none => rw [er] at hd'; cases hd'
          | some kb =>
            obtain ⟨k, bs⟩ := kb
            obtain ⟨vs, v1, v2, ⟨more, v3⟩, -, -⟩ := rdPackedBools_iff.1 er
            have c1 := countTerm_flatten v2
            have c2 : countTerm (flatAt tot p n).rest = countTerm vs.flatten + countTerm more := by rw [v3, countTerm_append]
            have hsl : (tot.drop p).take N = (flatAt tot p n).rest ++ (tot.drop (p + n)).take (N - n) := by
              simp only [flatAt]
              rw [← slice_append, show n + (N - n) = N by omega]
            have hpos : 0 < countTerm ((tot.drop (p + n)).take (N - n)) := by
              rw [hsl] at he
              exact endsTerm_pos (endsTerm_suffix he) (slice_ne (by omega) (by omega))
            rw [hsl, countTerm_append] at v1
            omega
        · exact hd

theorem ds_packedBools {N : Nat} (h0 : N ≠ 0) (h : DS H tot contig G s) (hf : s.cur.beg ≤ s.cur.fin) :
    Out T (fun b => DE H tot contig 0 b.1) (packedBs (regOps H contig) N s) := by
  have h' := h
  obtain ⟨⟨r, L, h, hl, h1, h2⟩, hq, hlim⟩ := h
  obtain ⟨c1, c2, c3, c4, c5, c6⟩ := h.crossed hl hf
  subst c4
  have hb := h.beg
  unfold packedBs
  show Out _ _ (Res.bind (regNum H false N s) _)
  have e : ∃ o, regNum H false N s = .ok o := by
    unfold regNum
    rw [if_neg h0]
    by_cases hs : s.cur.beg + N ≤ s.cur.fin
    · have good := h.good (k := N) (by omega)
      rw [if_pos (by unfold Arch.size; omega)]
      unfold regLast
      have := good_iff.1 good (N - 1) (by omega)
      obtain ⟨b, hb⟩ := Option.isSome_iff_exists.1 this
      rw [hb]
      simp only
      split
      · exact ⟨_, rfl⟩
      · refine ⟨some (0 + regionTerms ((List.range N).map (H.view s.cur))), ?_⟩
        show Res.bind (Res.bind (H.bytes s.cur N) _) _ = _
        rw [bytes_eq good]
        rfl
    · rw [if_neg (by unfold Arch.size; omega), if_neg (by have := h'.1.avail; omega)]
      exact ⟨_, rfl⟩
  obtain ⟨o, e⟩ := e
  rw [e]
  simp only [Res.bind]
  cases o with
  | none => exact Out.err
  | some c => exact de_bools h'.1

end HppProto
