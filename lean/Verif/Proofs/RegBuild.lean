import Verif.Proofs.RegField
/-! # The constructor of the region machine lays its regions over the input -/
namespace HppProto
open Spec

/-- The regions built so far: as in `Lay`, but the last one is still open and ends at the
write pointer `put`; `D` input bytes are covered. -/
def Growing (H : Mems) (put : Nat) (tot : List Byte) (D : Nat) : Nat → List Region → Prop
  | _, [] => False
  | L, r :: rs => match rs with
    | [] => r.buf = 0 ∧ 0 ≤ r.beg ∧ r.beg ≤ r.slope ∧ r.slope = put ∧ (L : Int) + (r.slope - r.beg) = D ∧
        ∀ i : Nat, r.beg + i < r.slope → H.cell 0 (r.beg + i) = tot[L + i]?
    | r' :: rs' => (r.buf = 0 → r.fin ≤ put) ∧ r.beg ≤ r.slope ∧ r.fin = r.slope + 16 ∧ (L : Int) + (r.fin - r.beg) ≤ D ∧
        Covers H tot L r ∧ r'.beg < r'.slope ∧ (rs' = [] → r'.beg + 16 ≤ r'.slope) ∧
        Growing H put tot D (L + (r.slope - r.beg).toNat) rs

/-- A later state of the memory. -/
def Later (H H' : Mems) (put : Nat) : Prop :=
  ∀ (b : Nat) (i : Int), (b = 0 → i < put) → H'.cell b i = H.cell b i

theorem Covers.later {H H' : Mems} {put : Nat} (hl : Later H H' put) {tot L r} (h : Covers H tot L r) (hf : r.buf = 0 → r.fin ≤ put) :
    Covers H' tot L r := by
  intro i hi
  rw [hl _ _ (fun e => by have := hf e; omega)]
  exact h i hi

theorem Growing.tail {H H' : Mems} {put put' : Nat} {tot D D'} (hl : Later H H' put) (hp : put ≤ put') (hD : D ≤ D') {r r1 : Region} {tl : List Region}
    (hb : r1.beg = r.beg) (hs : r.slope ≤ r1.slope)
    (ht : ∀ L, Growing H put tot D L [r] → Growing H' put' tot D' L (r1 :: tl)) :
    ∀ (pre : List Region) (L : Nat), Growing H put tot D L (pre ++ [r]) → Growing H' put' tot D' L (pre ++ r1 :: tl)
  | [], L, h => ht L h
  | [a], L, h => by
    obtain ⟨h1, h2, h3, h4, h5, h6, h7, h8⟩ := h
    exact ⟨fun e => by have := h1 e; omega, h2, h3, by omega, h5.later hl h1, by omega, fun _ => by have := h7 rfl; omega, ht _ h8⟩
  | a :: b :: pre, L, h => by
    obtain ⟨h1, h2, h3, h4, h5, h6, h7, h8⟩ := h
    exact ⟨fun e => by have := h1 e; omega, h2, h3, by omega, h5.later hl h1, h6, fun e => by simp at e,
      Growing.tail hl hp hD hb hs ht (b :: pre) _ h8⟩

theorem Growing.last {H : Mems} {put : Nat} {tot D} {r : Region} :
    ∀ (pre : List Region) (L : Nat), Growing H put tot D L (pre ++ [r]) → ∃ L', Growing H put tot D L' [r]
  | [], L, h => ⟨L, h⟩
  | [_], _, h => ⟨_, h.2.2.2.2.2.2.2⟩
  | _ :: b :: pre, _, h => Growing.last (b :: pre) _ h.2.2.2.2.2.2.2

theorem Growing.lay {H H' : Mems} {put : Nat} {tot D} (hl : Later H H' put) (hD : D = tot.length) {r r1 : Region}
    (hb : r1.beg = r.beg) (hs : r.slope ≤ r1.slope) (ht : ∀ L, Growing H put tot D L [r] → Lay H' tot L r1 []) :
    ∀ (pre : List Region) (L : Nat), Growing H put tot D L (pre ++ [r]) →
      ∃ a rs, pre ++ [r1] = a :: rs ∧ Lay H' tot L a rs
  | [], L, h => ⟨r1, [], rfl, ht L h⟩
  | [a], L, h => by
    obtain ⟨h1, h2, h3, h4, h5, h6, h7, h8⟩ := h
    exact ⟨a, [r1], rfl, h2, h3, by omega, h5.later hl h1, by omega, fun _ => by have := h7 rfl; omega, ht _ h8⟩
  | a :: b :: pre, L, h => by
    obtain ⟨h1, h2, h3, h4, h5, h6, h7, h8⟩ := h
    obtain ⟨b', rs, e, hlay⟩ := Growing.lay hl hD hb hs ht (b :: pre) _ h8
    have e' : b = b' ∧ pre ++ [r1] = rs := by simpa using e
    obtain ⟨rfl, rfl⟩ := e'
    exact ⟨a, b :: (pre ++ [r1]), rfl, h2, h3, by omega, h5.later hl h1, h6, fun e => by simp at e, hlay⟩

/-! ## Copying -/

/-- The memory while the constructor runs. -/
def Ctor.heap (c : Ctor) (segs : List (List Byte)) : Mems := c.patch :: segs.map (fun s => s.map some)

/-- The patch buffer after a copy. -/
def Ctor.copied (c : Ctor) (bs : Buf) : Ctor :=
  { c with patch := c.patch.take c.put ++ bs ++ c.patch.drop (c.put + bs.length), put := c.put + bs.length }

theorem copy_eq {c : Ctor} {bs : Buf} (h : c.put + bs.length ≤ c.patch.length) : c.copy bs = .ok (c.copied bs) := if_pos h

theorem copied_length {c : Ctor} {bs : Buf} (h : c.put + bs.length ≤ c.patch.length) :
    (c.copied bs).patch.length = c.patch.length := by
  simp only [Ctor.copied, List.length_append, List.length_take, List.length_drop]
  omega

theorem copied_old {c : Ctor} {bs : Buf} {segs} (h : c.put + bs.length ≤ c.patch.length) :
    Later (c.heap segs) ((c.copied bs).heap segs) c.put := by
  intro b i hi
  unfold Mems.cell
  split
  · rfl
  · cases b with
    | succ b => rfl
    | zero =>
      have := hi rfl
      simp only [Ctor.heap, Ctor.copied, List.getD_cons_zero]
      rw [List.append_assoc, List.getD_eq_getElem?_getD, List.getD_eq_getElem?_getD, List.getElem?_append_left (by
        rw [List.length_take]; omega), List.getElem?_take_of_lt (by omega)]

theorem copied_new {c : Ctor} {bs : Buf} {segs} (h : c.put + bs.length ≤ c.patch.length) {i : Int} (h1 : (c.put : Int) ≤ i)
    (h2 : i < c.put + bs.length) : ((c.copied bs).heap segs).cell 0 i = bs.getD (i - c.put).toNat none := by
  unfold Mems.cell
  rw [if_neg (by omega)]
  simp only [Ctor.heap, Ctor.copied, List.getD_cons_zero]
  have hl : (c.patch.take c.put).length = c.put := by rw [List.length_take]; omega
  rw [List.append_assoc, List.getD_eq_getElem?_getD, List.getD_eq_getElem?_getD, List.getElem?_append_right (by omega), hl,
    List.getElem?_append_left (by omega)]
  congr 2
  omega

theorem later_trans {A B C : Mems} {p q : Nat} (h1 : Later A B p) (h2 : Later B C q) (hpq : p ≤ q) : Later A C p := by
  intro b i hi
  rw [h2 b i (fun e => by have := hi e; omega), h1 b i hi]

theorem getD_map_some {l : List Byte} {i : Nat} : (l.map some).getD i none = l[i]? := by
  rw [List.getD_eq_getElem?_getD, List.getElem?_map]
  cases l[i]? <;> rfl

/-- The cells of segment `j`. -/
theorem cell_segment {c : Ctor} {segs : List (List Byte)} {j : Nat} {e : List Byte} (he : segs[j]? = some e) {i : Int} (h0 : 0 ≤ i) :
    (c.heap segs).cell (j + 1) i = e[i.toNat]? := by
  unfold Mems.cell
  rw [if_neg (by omega)]
  simp only [Ctor.heap, List.getD_cons_succ]
  rw [show (segs.map (fun s => s.map some)).getD j [] = e.map some by
    rw [List.getD_eq_getElem?_getD, List.getElem?_map, he]; rfl, getD_map_some]

/-! ## The array of regions -/

theorem reg_eq {c : Ctor} {i : Nat} {r : Region} (h : c.regs[i]? = some r) : c.reg i = .ok r := by
  unfold Ctor.reg; rw [h]

theorem setReg_eq {c : Ctor} {i : Nat} {r : Region} (h : i < c.regs.length) : c.setReg i r = .ok { c with regs := c.regs.set i r } :=
  if_pos h

theorem setSlope_eq {c : Ctor} {i : Nat} {r : Region} (h : c.regs[i]? = some r) (hb : r.buf = 0) :
    c.setSlope i = .ok { c with regs := c.regs.set i { r with slope := c.put } } := by
  obtain ⟨hi, -⟩ := List.getElem?_eq_some_iff.1 h
  unfold Ctor.setSlope
  rw [reg_eq h]
  show (if r.buf = 0 then _ else _) = _
  rw [if_pos hb, setReg_eq hi]

theorem setFin_eq {c : Ctor} {i : Nat} {r : Region} (h : c.regs[i]? = some r) (hb : r.buf = 0) :
    c.setFin i = .ok { c with regs := c.regs.set i { r with fin := c.put } } := by
  obtain ⟨hi, -⟩ := List.getElem?_eq_some_iff.1 h
  unfold Ctor.setFin
  rw [reg_eq h]
  show (if r.buf = 0 then _ else _) = _
  rw [if_pos hb, setReg_eq hi]

theorem take_set {α} {l : List α} {i : Nat} {x : α} (h : i < l.length) : (l.set i x).take (i + 1) = l.take i ++ [x] := by
  rw [List.set_eq_take_append_cons_drop, if_pos h, List.take_append, List.take_of_length_le (by rw [List.length_take]; omega)]
  rw [List.length_take, show i + 1 - min i l.length = 1 by omega]
  rfl

theorem take_set_of_le {α} {l : List α} {i k : Nat} {x : α} (h : k ≤ i) : (l.set i x).take k = l.take k := by
  rw [List.take_set, List.set_eq_of_length_le (by rw [List.length_take]; omega)]

/-! ## The loop -/

/-- The state of the constructor after `j` segments with `D` bytes. -/
structure Building (segs : List (List Byte)) (j D : Nat) (c : Ctor) : Prop where
  len : c.regs.length = 2 * segs.length
  plen : c.patch.length = 32 * segs.length
  src : ∀ i, j ≤ i → ∀ e, segs[i]? = some e → c.regs[segs.length + i]? = some ⟨i + 1, 0, e.length, 0⟩
  sec : c.sec = D
  first : c.first = decide (j = 0)
  start : j = 0 → c.idx = 0 ∧ c.put = 0
  run : j ≠ 0 → c.idx + 1 ≤ 2 * j ∧ c.put + 16 ≤ 32 * j ∧ Growing (c.heap segs) c.put segs.flatten D 0 (c.regs.take (c.idx + 1))

theorem Building.init (segs : List (List Byte)) : Building segs 0 0 (Ctor.init segs) := by
  refine ⟨?_, ?_, ?_, rfl, rfl, fun _ => ⟨rfl, rfl⟩, fun h => absurd rfl h⟩
  · simp [Ctor.init]; omega
  · simp [Ctor.init]
  · intro i _ e he
    obtain ⟨hi, -⟩ := List.getElem?_eq_some_iff.1 he
    simp only [Ctor.init]
    rw [List.getElem?_append_right (by simp), List.length_replicate, Nat.add_sub_cancel_left, List.getElem?_map,
      List.getElem?_range hi, Option.map_some, he]
    rfl

/-- The bytes of segment `j` in the whole input. -/
theorem flatten_get {segs : List (List Byte)} {j : Nat} {e : List Byte} (he : segs[j]? = some e) :
    (segs.take j).flatten.length + e.length ≤ segs.flatten.length ∧ (segs.take (j + 1)).flatten.length = (segs.take j).flatten.length + e.length ∧
    ∀ i, i < e.length → segs.flatten[(segs.take j).flatten.length + i]? = e[i]? := by
  obtain ⟨hj, ej⟩ := List.getElem?_eq_some_iff.1 he
  have h1 : segs.take (j + 1) = segs.take j ++ [e] := by rw [List.take_add_one, he]; rfl
  have h2 : segs.flatten = (segs.take j).flatten ++ (e ++ (segs.drop (j + 1)).flatten) := by
    conv => lhs; rw [← List.take_append_drop (j + 1) segs, h1]
    simp
  refine ⟨?_, ?_, fun i hi => ?_⟩
  · rw [h2]; simp
  · rw [h1]; simp
  · rw [h2, List.getElem?_append_right (by omega), Nat.add_sub_cancel_left, List.getElem?_append_left hi]

theorem ok_bind {α β} (a : α) (k : α → Res β) : (Res.ok a >>= k) = k a := rfl

/-- Open a region of the patch buffer at the write pointer and copy bytes into it. -/
theorem patch_start {P : Buf} {Rs : List Region} {p i : Nat} {b : Bool} {z : Int} {bs : Buf} {r : Region} (hr : Rs[i]? = some r)
    (hp : p + bs.length ≤ P.length) :
    ((⟨P, Rs, p, i, b, z⟩ : Ctor).reg i >>= fun r => (⟨P, Rs, p, i, b, z⟩ : Ctor).setReg i ⟨0, p, r.fin, r.slope⟩ >>= fun c =>
      c.copy bs >>= fun c => c.setSlope c.idx >>= fun c => Res.ok ({ c with first := false } : Ctor)) =
    .ok ⟨((⟨P, Rs, p, i, b, z⟩ : Ctor).copied bs).patch, Rs.set i ⟨0, p, r.fin, (p + bs.length : Nat)⟩, p + bs.length, i, false, z⟩ := by
  obtain ⟨hi, -⟩ := List.getElem?_eq_some_iff.1 hr
  rw [reg_eq hr, ok_bind, setReg_eq hi, ok_bind, copy_eq (by exact hp), ok_bind]
  simp only [Ctor.copied]
  rw [setSlope_eq (r := ⟨0, p, r.fin, r.slope⟩) (by simp [hi]) rfl, ok_bind]
  simp only [List.set_set]

/-- Copy bytes into the open region. -/
theorem patch_more {P : Buf} {Rs : List Region} {p i : Nat} {b : Bool} {z : Int} {bs : Buf} {r : Region} (hr : Rs[i]? = some r)
    (hb : r.buf = 0) (hp : p + bs.length ≤ P.length) :
    ((⟨P, Rs, p, i, b, z⟩ : Ctor).copy bs >>= fun c => c.setSlope c.idx >>= fun c => Res.ok ({ c with first := false } : Ctor)) =
    .ok ⟨((⟨P, Rs, p, i, b, z⟩ : Ctor).copied bs).patch, Rs.set i { r with slope := (p + bs.length : Nat) }, p + bs.length, i, false, z⟩ := by
  rw [copy_eq (by exact hp), ok_bind]
  simp only [Ctor.copied]
  rw [setSlope_eq hr hb, ok_bind]

/-- A region of the patch buffer that was just opened. -/
theorem growing_start {c : Ctor} {segs : List (List Byte)} {tot : List Byte} {bs : List Byte} {x : Int} {D : Nat}
    (hp : c.put + bs.length ≤ c.patch.length) (hb : ∀ i, i < bs.length → tot[D + i]? = bs[i]?) :
    Growing ((c.copied (bs.map some)).heap segs) (c.put + bs.length) tot (D + bs.length) D [⟨0, c.put, x, (c.put + bs.length : Nat)⟩] := by
  refine ⟨rfl, by simp only; omega, by simp only; omega, rfl, by simp only; omega, fun i hi => ?_⟩
  simp only at hi ⊢
  rw [copied_new (by rw [List.length_map]; exact hp) (by omega) (by rw [List.length_map]; omega), getD_map_some, hb i (by omega)]
  congr 1; omega

/-- Further bytes in an open region. -/
theorem growing_more {c : Ctor} {segs : List (List Byte)} {tot : List Byte} {bs : List Byte} {r : Region} {D L : Nat}
    (hp : c.put + bs.length ≤ c.patch.length) (hb : ∀ i, i < bs.length → tot[D + i]? = bs[i]?)
    (h : Growing (c.heap segs) c.put tot D L [r]) {x : Int} :
    Growing ((c.copied (bs.map some)).heap segs) (c.put + bs.length) tot (D + bs.length) L
      [⟨r.buf, r.beg, x, (c.put + bs.length : Nat)⟩] := by
  obtain ⟨h1, h2, h3, h4, h5, h6⟩ := h
  refine ⟨h1, h2, by simp only; omega, rfl, by simp only; omega, fun i hi => ?_⟩
  simp only at hi ⊢
  by_cases hlt : r.beg + i < r.slope
  · rw [copied_old (by rw [List.length_map]; exact hp) 0 _ (fun _ => by omega)]
    exact h6 i hlt
  · rw [copied_new (by rw [List.length_map]; exact hp) (by omega) (by rw [List.length_map]; omega), getD_map_some]
    have e := hb (r.beg + i - c.put).toNat (by omega)
    rw [← e]
    congr 1; omega

/-- The region of a segment, followed by an open region with its last sixteen bytes. -/
theorem growing_segment {H : Mems} {tot e : List Byte} {put D j : Nat} {r : Region} (h16 : 16 < e.length)
    (hc : ∀ i : Int, 0 ≤ i → H.cell (j + 1) i = e[i.toNat]?) (hb : ∀ i, i < e.length → tot[D + i]? = e[i]?)
    (hr : r.beg + 16 = r.slope)
    (h : Growing H put tot (D + e.length) (D + (e.length - 16)) [r]) :
    Growing H put tot (D + e.length) D [⟨j + 1, 0, e.length, e.length - 16⟩, r] := by
  refine ⟨(fun e => by cases e), by simp only; omega, by simp only; omega, by simp only; omega, fun i hi => ?_, by omega, fun _ => by omega, ?_⟩
  · simp only at hi ⊢
    rw [hc _ (by omega), hb i (by omega)]
    congr 1; omega
  · simp only
    rw [show ((e.length : Int) - 16 - 0).toNat = e.length - 16 by omega]
    exact h

/-- A region for a segment longer than sixteen bytes, then an open region with its end. -/
theorem segment_start {segs : List (List Byte)} {P : Buf} {Rs : List Region} {p i j D : Nat} {b : Bool} {z : Int} {e tot : List Byte}
    (he : segs[j]? = some e) (hi : i + 1 < Rs.length) (h16 : 16 < e.length) (hp : p + 16 ≤ P.length)
    (hb : ∀ i, i < e.length → tot[D + i]? = e[i]?) :
    ∃ P' x, ((⟨P, Rs, p, i, b, z⟩ : Ctor).setReg i ⟨j + 1, 0, e.length, e.length - 16⟩ >>= fun c =>
      (⟨c.patch, c.regs, c.put, c.idx + 1, c.first, c.sec⟩ : Ctor).reg (c.idx + 1) >>= fun r =>
      (⟨c.patch, c.regs, c.put, c.idx + 1, c.first, c.sec⟩ : Ctor).setReg (c.idx + 1) ⟨0, c.put, r.fin, r.slope⟩ >>= fun c =>
      c.copy ((e.map some).drop (e.length - 16)) >>= fun c => c.setSlope c.idx >>= fun c => Res.ok ({ c with first := false } : Ctor)) =
    .ok ⟨P', (Rs.set i ⟨j + 1, 0, e.length, e.length - 16⟩).set (i + 1) ⟨0, p, x, (p + 16 : Nat)⟩, p + 16, i + 1, false, z⟩ ∧
    P'.length = P.length ∧ Later (P :: segs.map (fun s => s.map some)) (P' :: segs.map (fun s => s.map some)) p ∧
    Growing (P' :: segs.map (fun s => s.map some)) (p + 16) tot (D + e.length) D
      [⟨j + 1, 0, e.length, e.length - 16⟩, ⟨0, p, x, (p + 16 : Nat)⟩] := by
  rw [setReg_eq (by simp only; omega), ok_bind]
  simp only
  obtain ⟨r1, hr1⟩ : ∃ r1, (Rs.set i ⟨j + 1, 0, e.length, e.length - 16⟩)[i + 1]? = some r1 :=
    ⟨_, List.getElem?_eq_getElem (by rw [List.length_set]; omega)⟩
  have hl : ((e.map some).drop (e.length - 16)).length = 16 := by rw [List.length_drop, List.length_map]; omega
  have hl' : (e.drop (e.length - 16)).length = 16 := by rw [List.length_drop]; omega
  have hp' : p + ((e.map some).drop (e.length - 16)).length ≤ P.length := by omega
  have := patch_start (b := b) (z := z) hr1 hp'
  rw [hl] at this
  refine ⟨_, _, this, copied_length (by exact hp'), copied_old (c := ⟨P, Rs.set i ⟨j + 1, 0, e.length, e.length - 16⟩, p, i + 1, b, z⟩) (segs := segs) (by exact hp'), ?_⟩
  refine growing_segment h16 (fun k hk => cell_segment (c := Ctor.copied ⟨P, _, p, i + 1, b, z⟩ _) he hk) hb (by simp only; omega) ?_
  have g := growing_start (c := ⟨P, Rs.set i ⟨j + 1, 0, e.length, e.length - 16⟩, p, i + 1, b, z⟩) (segs := segs) (x := r1.fin) (tot := tot)
    (bs := e.drop (e.length - 16)) (D := D + (e.length - 16)) (by simp only; omega) (fun k hk => by
      rw [List.getElem?_drop, Nat.add_assoc]
      exact hb _ (by omega))
  rw [hl', List.map_drop, show D + (e.length - 16) + 16 = D + e.length by omega] at g
  exact g

theorem building_step {segs : List (List Byte)} {j D : Nat} {c : Ctor} {e : List Byte} (h : Building segs j D c) (he : segs[j]? = some e)
    (hD : D = (segs.take j).flatten.length) : ∃ c', c.step segs j = .ok c' ∧ Building segs (j + 1) (D + e.length) c' := by
  obtain ⟨hj, -⟩ := List.getElem?_eq_some_iff.1 he
  have hsrc := h.src j (Nat.le_refl _) e he
  have eb : ((segs[j]?).getD []).map some = e.map some := by rw [he]; rfl
  obtain ⟨F1, F2, F3⟩ := flatten_get he
  rw [← hD] at F1 F2 F3
  unfold Ctor.step
  rw [reg_eq hsrc, eb, ok_bind]
  simp only [show ((e.length : Int) - 0).toNat = e.length by omega]
  rw [if_neg (by simp)]
  obtain ⟨P, Rs, p, i, b, z⟩ := c
  obtain ⟨h1, h2, h3, h4, h5, h6, h7⟩ := h
  simp only at h1 h2 h3 h4 h5 h6 h7 ⊢
  subst h4 h5
  have hsec : (D : Int) + (e.length : Nat) = ((D + e.length : Nat) : Int) := by omega
  by_cases h0 : j = 0
  · subst h0
    obtain ⟨rfl, rfl⟩ := h6 rfl
    have hD0 : D = 0 := by rw [hD]; rfl
    subst hD0
    rw [if_neg (by simp)]
    obtain ⟨r0, hr0⟩ : ∃ r0, Rs[0]? = some r0 := ⟨_, List.getElem?_eq_getElem (by omega)⟩
    by_cases hs : e.length ≤ 16
    · rw [if_pos hs, if_pos (by simp)]
      have hp : 0 + (e.map some).length ≤ P.length := by rw [List.length_map]; omega
      refine ⟨_, patch_start hr0 hp, ?_⟩
      refine ⟨by simpa using h1, by rw [copied_length (by exact hp)]; exact h2, ?_, hsec, by simp, fun h => by omega, fun _ => ⟨by simp only; omega, ?_, ?_⟩⟩
      · intro k hk e' he'
        simp only
        rw [List.getElem?_set_ne (by omega)]
        exact h3 k (by omega) e' he'
      · rw [List.length_map]; simp only; omega
      · simp only
        rw [take_set (by omega)]
        have := growing_start (c := ⟨P, Rs, 0, 0, true, 0⟩) (segs := segs) (x := r0.fin) (tot := segs.flatten) (bs := e) (D := 0) (by simp only; omega) F3
        rw [List.length_map]
        exact this
    · rw [if_neg hs, if_neg (by simp), ok_bind]
      obtain ⟨P', x, g1, g2, g3, g4⟩ := segment_start (segs := segs) (P := P) (Rs := Rs) (p := 0) (i := 0) (j := 0) (D := 0)
        (b := decide (0 = 0)) (z := ((0 : Nat) : Int) + (e.length : Nat)) he (by omega) (by omega) (by omega) F3
      refine ⟨_, g1, ?_⟩
      refine ⟨by simpa using h1, by rw [g2]; exact h2, ?_, hsec, by simp, fun h => by omega, fun _ => ⟨by simp only; omega, by simp only; omega, ?_⟩⟩
      · intro k hk e' he'
        simp only
        rw [List.getElem?_set_ne (by omega), List.getElem?_set_ne (by omega)]
        exact h3 k (by omega) e' he'
      · simp only
        rw [take_set (by rw [List.length_set]; omega), take_set (by omega)]
        exact g4
  · obtain ⟨k1, k2, k3⟩ := h7 (by omega)
    have hdec : decide (j = 0) = false := by simp [h0]
    simp only [hdec]
    obtain ⟨r, hr⟩ : ∃ r, Rs[i]? = some r := ⟨_, List.getElem?_eq_getElem (by omega)⟩
    have hsplit : Rs.take (i + 1) = Rs.take i ++ [r] := by rw [List.take_add_one, hr]; rfl
    rw [hsplit] at k3
    by_cases hz : e.length = 0
    · rw [if_pos (by simp [hz])]
      refine ⟨_, rfl, ⟨h1, h2, fun k hk => h3 k (by omega), by simp only; omega, by simp [h0], fun h => by omega, fun _ => ⟨by simp only; omega, by simp only; omega, ?_⟩⟩⟩
      simp only
      rw [hsplit, hz, Nat.add_zero]
      exact k3
    · rw [if_neg (by simp [hz])]
      obtain ⟨L0, hlast⟩ := k3.last
      have hb0 : r.buf = 0 := hlast.1
      have hslope : r.slope = p := hlast.2.2.2.1
      have hbeg : r.beg ≤ r.slope := hlast.2.2.1
      by_cases hs : e.length ≤ 16
      · rw [if_pos hs, if_neg (by simp), ok_bind]
        have hp : p + (e.map some).length ≤ P.length := by rw [List.length_map]; omega
        refine ⟨_, patch_more hr hb0 hp, ?_⟩
        refine ⟨by simpa using h1, by rw [copied_length (by exact hp)]; exact h2, ?_, hsec, by simp, fun h => by omega, fun _ => ⟨by simp only; omega, ?_, ?_⟩⟩
        · intro k hk e' he'
          simp only
          rw [List.getElem?_set_ne (by omega)]
          exact h3 k (by omega) e' he'
        · rw [List.length_map]; simp only; omega
        · simp only
          rw [take_set (by omega), List.length_map]
          refine Growing.tail (copied_old (c := ⟨P, Rs, p, i, decide (j = 0), D⟩) (segs := segs) (by exact hp)) (put' := p + e.length) (D' := D + e.length) (D := D)
            (by simp only; omega) (by omega) (r := r) (r1 := { r with slope := (p + e.length : Nat) }) rfl (by simp only; omega) ?_ _ _ k3
          intro L hL
          exact growing_more (c := ⟨P, Rs, p, i, decide (j = 0), D⟩) (segs := segs) (by simp only; rw [List.length_map] at hp; exact hp) F3 hL
      · rw [if_neg hs, if_pos (by simp)]
        have hl : ((e.map some).take 16).length = 16 := by rw [List.length_take, List.length_map]; omega
        have hl' : (e.take 16).length = 16 := by rw [List.length_take]; omega
        have hp : p + ((e.map some).take 16).length ≤ P.length := by omega
        rw [copy_eq (by exact hp), ok_bind]
        simp only [Ctor.copied]
        rw [setFin_eq hr hb0, ok_bind, ok_bind]
        simp only [hl]
        have hlen : (P.take p ++ (e.map some).take 16 ++ P.drop (p + 16)).length = P.length := by
          rw [List.length_append, List.length_append, List.length_take, List.length_drop, hl]; omega
        obtain ⟨P', x, g1, g2, g3, g4⟩ := segment_start (segs := segs) (P := P.take p ++ (e.map some).take 16 ++ P.drop (p + 16))
          (Rs := Rs.set i { r with fin := (p + 16 : Nat) }) (p := p + 16) (i := i + 1) (j := j) (D := D)
          (b := false) (z := (D : Int) + (e.length : Nat)) he (by rw [List.length_set]; omega) (by omega) (by omega) F3
        refine ⟨_, g1, ?_⟩
        refine ⟨by simpa using h1, by rw [g2, hlen]; exact h2, ?_, hsec, by simp, fun h => by omega, fun _ => ⟨by simp only; omega, by simp only; omega, ?_⟩⟩
        · intro k hk e' he'
          simp only
          rw [List.getElem?_set_ne (by omega), List.getElem?_set_ne (by omega), List.getElem?_set_ne (by omega)]
          exact h3 k (by omega) e' he'
        · simp only
          rw [take_set (by rw [List.length_set, List.length_set]; omega), take_set (by rw [List.length_set]; omega), take_set (by omega)]
          have hcp : (⟨P, Rs, p, i, decide (j = 0), D⟩ : Ctor).copied ((e.map some).take 16) =
            ⟨P.take p ++ (e.map some).take 16 ++ P.drop (p + 16), Rs, p + 16, i, decide (j = 0), D⟩ := by simp only [Ctor.copied, hl]
          have lat := copied_old (c := ⟨P, Rs, p, i, decide (j = 0), D⟩) (segs := segs) (by exact hp)
          have old := later_trans lat (by rw [hcp]; exact g3) (by simp only; omega)
          rw [List.append_assoc, List.append_assoc]
          refine Growing.tail old (put' := p + 16 + 16) (D' := D + e.length) (D := D) (by simp only; omega) (by omega) (r := r)
            (r1 := { r with fin := (p + 16 : Nat) }) rfl (by simp only; omega) ?_ _ _ k3
          intro L hL
          have more := growing_more (c := ⟨P, Rs, p, i, decide (j = 0), D⟩) (segs := segs) (bs := e.take 16) (tot := segs.flatten)
            (by simp only; omega) (fun k hk => by
              rw [List.getElem?_take_of_lt (by omega)]; exact F3 k (by omega)) hL (x := 0)
          rw [List.map_take, hcp, hl'] at more
          obtain ⟨m1, m2, m3, m4, m5, m6⟩ := more
          obtain ⟨q1, q2, q3, q4, q5, q6⟩ := hL
          simp only at m1 m2 m3 m4 m5 m6 q1 q2 q3 q4 q5 q6
          refine ⟨fun _ => by simp only; omega, by simp only; omega, by simp only; omega, by simp only; omega, ?_, by simp only; omega, (fun e => by cases e), ?_⟩
          · intro k hk
            simp only at hk ⊢
            have := g3 0 (r.beg + k) (fun _ => by omega)
            rw [hb0, this]
            exact m6 k (by omega)
          · simp only
            rw [show L + (r.slope - r.beg).toNat = D by omega]
            exact g4

theorem building_loop {segs : List (List Byte)} : ∀ (left j : Nat) (c : Ctor), j + left = segs.length →
    Building segs j (segs.take j).flatten.length c →
    ∃ c', c.loop segs left j = .ok c' ∧ Building segs segs.length segs.flatten.length c'
  | 0, j, c, hj, h => ⟨c, rfl, by
      rw [Nat.add_zero] at hj
      rw [hj, List.take_length] at h
      exact h⟩
  | left + 1, j, c, hj, h => by
    obtain ⟨e, he⟩ : ∃ e, segs[j]? = some e := ⟨_, List.getElem?_eq_getElem (by omega)⟩
    obtain ⟨c1, hc1, h1⟩ := building_step h he rfl
    rw [← (flatten_get he).2.1] at h1
    obtain ⟨c2, hc2, h2⟩ := building_loop left (j + 1) c1 (by omega) h1
    refine ⟨c2, ?_, h2⟩
    show (c.step segs j >>= fun c => c.loop segs left (j + 1)) = _
    rw [hc1, ok_bind, hc2]

/-- What the constructor leaves behind. -/
structure Built (segs : List (List Byte)) (H : Mems) (s : Arch) : Prop where
  heap : ∃ patch, H = patch :: segs.map (fun s => s.map some) ∧ patch.length = 32 * segs.length
  lay : Lay H segs.flatten 0 s.cur s.rest
  sec : s.sec = segs.flatten.length - (s.cur.slope - s.cur.beg)
  one : segs.length = 1 → s.rest.length ≤ 1 ∧ ∀ r, s.rest = [r] → r.slope - r.beg ≤ 16

theorem build_ok {segs : List (List Byte)} (hne : segs ≠ []) : ∃ H s, buildArchive segs = .ok (H, s) ∧ Built segs H s := by
  obtain ⟨c, hc, hB⟩ := building_loop segs.length 0 (Ctor.init segs) (by omega) (Building.init segs)
  have hn : segs.length ≠ 0 := by
    intro h; exact hne (List.length_eq_zero_iff.1 h)
  unfold buildArchive
  rw [hc, ok_bind, if_neg hne]
  obtain ⟨P, Rs, p, i, b, z⟩ := c
  obtain ⟨h1, h2, h3, h4, h5, h6, h7⟩ := hB
  obtain ⟨k1, k2, k3⟩ := h7 hn
  simp only at h1 h2 h3 h4 h5 h6 k1 k2 k3 ⊢
  subst h4
  obtain ⟨r, hr⟩ : ∃ r, Rs[i]? = some r := ⟨_, List.getElem?_eq_getElem (by omega)⟩
  have hsplit : Rs.take (i + 1) = Rs.take i ++ [r] := by rw [List.take_add_one, hr]; rfl
  rw [hsplit] at k3
  obtain ⟨L0, hlast⟩ := k3.last
  have hb0 : r.buf = 0 := hlast.1
  have hi : i < Rs.length := by omega
  rw [setFin_eq hr hb0, ok_bind]
  simp only
  rw [setSlope_eq (r := { r with fin := p }) (by simp [hi]) hb0, ok_bind]
  simp only [List.set_set]
  have hp : p + (List.replicate 16 (some 0#8)).length ≤ P.length := by rw [List.length_replicate]; omega
  rw [copy_eq (by exact hp), ok_bind]
  have hslope : r.slope = p := hlast.2.2.2.1
  have hbeg : r.beg ≤ r.slope := hlast.2.2.1
  obtain ⟨a, rs, ea, hlay⟩ := Growing.lay (copied_old (c := ⟨P, Rs.set i ⟨r.buf, r.beg, p, p⟩, p, i, b, segs.flatten.length⟩) (segs := segs)
    (bs := List.replicate 16 (some 0#8)) (by exact hp)) (D := segs.flatten.length) rfl (r := r)
    (r1 := ⟨r.buf, r.beg, p, p⟩) rfl (by simp only; omega) (by
      intro L hL
      obtain ⟨q1, q2, q3, q4, q5, q6⟩ := hL
      simp only at q4 q5 q6
      refine ⟨by simp only; omega, rfl, by simp only; omega, fun k hk => ?_, fun k hk => ?_⟩
      · simp only at hk ⊢
        rw [copied_old (c := ⟨P, Rs.set i ⟨r.buf, r.beg, p, p⟩, p, i, b, segs.flatten.length⟩) (by exact hp) r.buf _ (fun _ => by simp only; omega), hb0]
        exact q6 k (by omega)
      · simp only
        rw [hb0, copied_new (by exact hp) (by simp only; omega) (by simp only [List.length_replicate]; omega),
          List.getD_eq_getElem?_getD, List.getElem?_replicate, if_pos (by simp only; omega)]
        rfl) _ _ k3
  have e1 : (Rs.set i ⟨r.buf, r.beg, p, p⟩).take (i + 1) = a :: rs := by rw [take_set hi, ea]
  have e0 : (Rs.set i ⟨r.buf, r.beg, p, p⟩)[0]? = some a := by
    have := List.getElem?_take_of_lt (l := Rs.set i ⟨r.buf, r.beg, p, p⟩) (i := 0) (j := i + 1) (by omega)
    rw [← this, e1]; rfl
  rw [reg_eq (r := a) (by exact e0), ok_bind]
  have F := lay_facts hlay
  have hmin : min a.slope a.fin = a.slope := by have := F.sf; omega
  refine ⟨_, _, rfl, ⟨_, rfl, ?_⟩, ?_, ?_, ?_⟩
  · rw [copied_length (by exact hp)]; exact h2
  · simp only [Ctor.copied]
    rw [e1, hmin]
    exact hlay
  · simp only [Region.slopeDist, Ctor.copied, hmin]; omega
  · intro h1'
    simp only [Ctor.copied]
    rw [e1]
    have hlen : (a :: rs).length ≤ 2 := by rw [← ea, List.length_append, List.length_take]; simp only [List.length_singleton]; omega
    refine ⟨by simpa using hlen, fun r' er => ?_⟩
    simp only [List.drop_succ_cons, List.drop_zero] at er
    subst er
    have : r' = ⟨r.buf, r.beg, p, p⟩ := by
      have := congrArg List.getLast? ea
      simpa using this.symm
    subst this
    have := hlast.2.1
    simp only; omega

/-- The reader starts at the beginning of the input. -/
theorem Built.start {segs : List (List Byte)} {H : Mems} {s : Arch} {contig : Bool} (h : Built segs H s)
    (hc : contig = true → segs.length = 1) : ∃ G, RV H segs.flatten contig G 0 11 s ⟨[], segs.flatten⟩ := by
  obtain ⟨-, lay, sec, one⟩ := h
  have F := lay_facts lay
  refine ⟨⟨s, 0, segs.flatten.length, s.sec⟩, s.cur, 0, 0, segs.flatten.length, ⟨⟨lay, rfl, ?_, Int.le_refl _, ?_, Int.le_refl _, ?_, ?_, ?_, ?_⟩,
    ?_, ?_, ?_, Int.le_refl _, Nat.le_refl _, ?_⟩, ?_, ?_, ?_, ?_⟩
  · have := F.sf; omega
  · have := F.bs; have := F.sf; omega
  · have := F.len; have := F.sf; omega
  · cases hr : s.rest with
    | nil =>
      rw [hr] at lay
      obtain ⟨l1, l2, l3, -⟩ := lay
      left; omega
    | cons r' rs =>
      rw [hr] at lay
      obtain ⟨l1, l2, l3, -⟩ := lay
      right
      exact ⟨rfl, by omega, by simp⟩
  · omega
  · intro h1
    obtain ⟨o1, o2⟩ := one (hc h1)
    refine ⟨?_, o1⟩
    cases hr : s.rest with
    | nil =>
      rw [hr] at lay
      obtain ⟨l1, l2, l3, -⟩ := lay
      omega
    | cons r' rs =>
      rw [hr] at lay o1
      have hrs : rs = [] := List.length_eq_zero_iff.1 (by rw [List.length_cons] at o1; omega)
      subst hrs
      have := o2 r' hr
      obtain ⟨l1, l2, l3, l4, l5, l6, m1, m2, m3, m4⟩ := lay
      have := l6 rfl
      omega
  · omega
  · unfold Arch.left; omega
  · simp
  · show s.advance = (s.consume ((0 : Nat) : Int)).advance
    congr 1
    simp [Arch.consume, Region.consume]
  · rw [flatAt, List.take_zero, List.drop_zero, List.take_length]; rfl
  · simp
  · have := F.bs; omega
  · have := F.bs; have := F.sf; omega

end HppProto
