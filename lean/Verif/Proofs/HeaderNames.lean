import Verif.Spec.Header

/-! # Full names and their scopes -/

namespace HppProto.Gen
open HppProto Schema

/-- What follows the first part of a name. -/
def nameTail : List Name → List Byte
  | [] => []
  | p => 0x2e :: fullName p

theorem fullName_nil : fullName [] = [] := rfl

theorem fullName_cons (a : Name) (p : List Name) : fullName (a :: p) = a ++ nameTail p := by
  cases p with
  | nil => simp [fullName, nameTail, List.intercalate, List.intersperse]
  | cons b p => simp [fullName, nameTail, List.intercalate, List.intersperse]

/-- What precedes the parts after `c`. -/
def namePrefix : List Name → List Byte
  | [] => []
  | c => fullName c ++ [0x2e]

theorem fullName_append (c : List Name) {d : List Name} (hd : d ≠ []) : fullName (c ++ d) = namePrefix c ++ fullName d := by
  induction c with
  | nil => rfl
  | cons a c ih =>
    rw [List.cons_append, fullName_cons]
    have e : nameTail (c ++ d) = 0x2e :: fullName (c ++ d) := by
      cases h : c ++ d with
      | nil => simp at h; exact absurd h.2 hd
      | cons x y => rfl
    have e2 : namePrefix (a :: c) = a ++ nameTail c ++ [0x2e] := by
      show fullName (a :: c) ++ [0x2e] = _
      rw [fullName_cons]
    rw [e, ih, e2]
    cases c with
    | nil => simp [namePrefix, nameTail]
    | cons x y => simp [namePrefix, nameTail]

theorem namePrefix_ne {c : List Name} (h : c ≠ []) : namePrefix c = fullName c ++ [0x2e] := by
  cases c with
  | nil => exact absurd rfl h
  | cons _ _ => rfl

theorem fullName_ne {c : List Name} (hc : ∀ n ∈ c, Part n) (h : c ≠ []) : fullName c ≠ [] := by
  cases c with
  | nil => exact absurd rfl h
  | cons a c =>
    rw [fullName_cons]
    have := (hc a (by simp)).1
    cases a with
    | nil => exact absurd rfl this
    | cons _ _ => simp

/-! ## Common beginnings -/

theorem commonLength_append (c s t : List Byte) : commonLength (c ++ s) (c ++ t) = c.length + commonLength s t := by
  induction c with
  | nil => simp
  | cons a c ih => simp [commonLength, ih]; omega

theorem commonLength_self (s : List Byte) : commonLength s s = s.length := by
  induction s with
  | nil => rfl
  | cons a s ih => simp [commonLength, ih]

/-- Texts that end, or go on with a dot. -/
def Stops (s : List Byte) : Prop := s = [] ∨ ∃ r, s = 0x2e :: r

theorem stops_tail (p : List Name) : Stops (nameTail p) := by
  cases p with
  | nil => exact .inl rfl
  | cons _ _ => exact .inr ⟨_, rfl⟩

/-- Two different parts: where they differ. -/
theorem common_parts {x y s t : List Byte} (hx : (0x2e : Byte) ∉ x) (hy : (0x2e : Byte) ∉ y) (ne : x ≠ y) (hs : Stops s)
    (ht : Stops t) : ∃ k, commonLength (x ++ s) (y ++ t) = k ∧ k ≤ x.length ∧ k ≤ y.length ∧ x.take k = y.take k ∧
      (k < x.length ∨ k < y.length) ∧ (k = x.length → k < y.length) := by
  induction x generalizing y with
  | nil =>
    cases y with
    | nil => exact absurd rfl ne
    | cons b y =>
      refine ⟨0, ?_, by simp, by simp, rfl, by simp, by simp⟩
      rcases hs with rfl | ⟨r, rfl⟩
      · rfl
      · have : (0x2e : Byte) ≠ b := fun e => hy (by simp [e])
        rw [List.nil_append, List.cons_append, commonLength, if_neg this]
  | cons a x ih =>
    cases y with
    | nil =>
      refine ⟨0, ?_, by simp, by simp, rfl, by simp, by simp⟩
      rcases ht with rfl | ⟨r, rfl⟩
      · rfl
      · have : a ≠ (0x2e : Byte) := fun e => hx (by simp [e])
        rw [List.nil_append, List.cons_append, commonLength, if_neg this]
    | cons b y =>
      by_cases e : a = b
      · subst e
        obtain ⟨k, h1, h2, h3, h4, h5, h6⟩ := ih (y := y) (fun h => hx (List.mem_cons_of_mem _ h)) (fun h => hy (List.mem_cons_of_mem _ h))
          (fun h => ne (by rw [h]))
        refine ⟨k + 1, ?_, by simp; omega, by simp; omega, by simp [h4], by simp; omega, by simp; omega⟩
        simp [commonLength, h1]
      · exact ⟨0, by simp [commonLength, e], by simp, by simp, rfl, by simp, by simp⟩

theorem lastDot_none {s : List Byte} (h : (0x2e : Byte) ∉ s) : lastDot s = none := by
  induction s with
  | nil => rfl
  | cons a s ih =>
    have : a ≠ (0x2e : Byte) := fun e => h (by simp [e])
    rw [lastDot, ih fun h' => h (List.mem_cons_of_mem _ h')]
    show (if a = 0x2e then some 0 else none) = none
    rw [if_neg this]

theorem lastDot_at (s : List Byte) {t : List Byte} (h : (0x2e : Byte) ∉ t) : lastDot (s ++ 0x2e :: t) = some s.length := by
  induction s with
  | nil => rw [List.nil_append, lastDot, lastDot_none h]; rfl
  | cons a s ih => rw [List.cons_append, lastDot, ih]; rfl

theorem firstDot_none {s : List Byte} (h : (0x2e : Byte) ∉ s) : firstDot s = none := by
  induction s with
  | nil => rfl
  | cons a s ih =>
    have : a ≠ (0x2e : Byte) := fun e => h (by simp [e])
    rw [firstDot, ih fun h' => h (List.mem_cons_of_mem _ h')]
    rw [if_neg this]; rfl

theorem firstDot_at {s : List Byte} (h : (0x2e : Byte) ∉ s) (t : List Byte) : firstDot (s ++ 0x2e :: t) = some s.length := by
  induction s with
  | nil => simp [firstDot]
  | cons a s ih =>
    have : a ≠ (0x2e : Byte) := fun e => h (by simp [e])
    rw [List.cons_append, firstDot, ih fun h' => h (List.mem_cons_of_mem _ h')]
    rw [if_neg this]; rfl

theorem take_part {pre x s : List Byte} {k : Nat} (hk : k ≤ x.length) :
    (pre ++ (x ++ s)).take (pre.length + k) = pre ++ x.take k := by
  rw [List.take_append, List.take_of_length_le (by omega)]
  simp [List.take_append_of_le_length hk]

theorem get_part {pre y s : List Byte} {k : Nat} (hk : k < y.length) (hy : (0x2e : Byte) ∉ y) :
    (pre ++ (y ++ s))[pre.length + k]? ≠ some 0x2e := by
  rw [List.getElem?_append_right (by omega), Nat.add_sub_cancel_left, List.getElem?_append_left hk]
  intro h
  exact hy (List.mem_of_getElem? h)

/-- Scopes of names that part after `c`. -/
theorem shared_split {c p q : List Name} {x y : Name} (hc : ∀ n ∈ c, Part n) (hx : Part x) (hy : Part y) (ne : x ≠ y) :
    sharedScope (fullName (c ++ x :: p)) (fullName (c ++ y :: q)) = (fullName c).length := by
  rw [fullName_append c (by simp), fullName_append c (by simp), fullName_cons, fullName_cons]
  obtain ⟨k, h1, h2, h3, h4, h5, h6⟩ := common_parts hx.2 hy.2 ne (stops_tail p) (stops_tail q)
  have hpos : commonLength (namePrefix c ++ (x ++ nameTail p)) (namePrefix c ++ (y ++ nameTail q)) = (namePrefix c).length + k := by
    rw [commonLength_append, h1]
  unfold sharedScope
  simp only [hpos, List.length_append]
  have e1 : ¬ ((namePrefix c).length + k = (namePrefix c).length + (x.length + (nameTail p).length) ∧
      (namePrefix c).length + k = (namePrefix c).length + (y.length + (nameTail q).length)) := by omega
  rw [if_neg e1]
  have last : ∀ z : List Byte, (0x2e : Byte) ∉ z →
      (match lastDot (namePrefix c ++ z) with | some k => k | none => 0) = (fullName c).length := by
    intro z hz
    cases c with
    | nil => rw [namePrefix, List.nil_append, lastDot_none hz]; rfl
    | cons a c =>
      rw [namePrefix_ne (by simp), List.append_assoc]
      show (match lastDot (fullName (a :: c) ++ 0x2e :: z) with | some k => k | none => 0) = _
      rw [lastDot_at _ hz]
  have hzx : (0x2e : Byte) ∉ x.take k := fun h => hx.2 (List.mem_of_mem_take h)
  split
  · by_cases hl : (namePrefix c).length + (y.length + (nameTail q).length) < (namePrefix c).length + (x.length + (nameTail p).length)
    · simp only [if_pos hl, List.length_append]
      rw [if_neg, take_part h3, ← h4]
      · exact last _ hzx
      · rintro ⟨a, b⟩
        exact get_part (by omega) hx.2 b
    · simp only [if_neg hl, List.length_append]
      rw [if_neg, take_part h2]
      · exact last _ hzx
      · rintro ⟨a, b⟩
        exact get_part (by omega) hy.2 b
  · rename_i h
    cases c with
    | nil => rfl
    | cons a c => rw [namePrefix_ne (by simp)] at h; simp at h

theorem shared_same (s : List Byte) : sharedScope s s = s.length := by
  unfold sharedScope
  rw [commonLength_self]
  simp

theorem commonLength_right (s t : List Byte) : commonLength s (s ++ t) = s.length := by
  have := commonLength_append s [] t
  simp only [List.append_nil] at this
  rw [this]
  cases t <;> simp [commonLength]

theorem commonLength_left (s t : List Byte) : commonLength (s ++ t) s = s.length := by
  have := commonLength_append s t []
  simp only [List.append_nil] at this
  rw [this]
  cases t <;> simp [commonLength]

theorem fullName_inner {c : List Name} (h : c ≠ []) (y : Name) (q : List Name) :
    fullName (c ++ y :: q) = fullName c ++ 0x2e :: fullName (y :: q) := by
  rw [fullName_append c (by simp), namePrefix_ne h]
  simp

theorem shared_right {c q : List Name} (hc : ∀ n ∈ c, Part n) (y : Name) :
    sharedScope (fullName c) (fullName (c ++ y :: q)) = (fullName c).length := by
  by_cases h : c = []
  · subst h
    unfold sharedScope
    simp only [fullName_nil, commonLength]
    split <;> simp
  · rw [fullName_inner h]
    unfold sharedScope
    rw [commonLength_right]
    have := fullName_ne hc h
    have hp : 0 < (fullName c).length := List.length_pos_iff.mpr this
    have hl : ¬ (fullName c ++ 0x2e :: fullName (y :: q)).length < (fullName c).length := by simp
    simp only [if_neg hl, if_pos hp]
    rw [if_neg (by simp), if_pos (by simp)]

theorem shared_left {c q : List Name} (hc : ∀ n ∈ c, Part n) (y : Name) :
    sharedScope (fullName (c ++ y :: q)) (fullName c) = (fullName c).length := by
  by_cases h : c = []
  · subst h
    unfold sharedScope
    have : commonLength (fullName ([] ++ y :: q)) (fullName []) = 0 := by
      rw [fullName_nil]; unfold commonLength; split <;> simp_all
    rw [this]
    simp [fullName_nil]
  · rw [fullName_inner h]
    unfold sharedScope
    rw [commonLength_left]
    have := fullName_ne hc h
    have hp : 0 < (fullName c).length := List.length_pos_iff.mpr this
    have hl : (fullName c).length < (fullName c ++ 0x2e :: fullName (y :: q)).length := by simp
    simp only [if_pos hl, if_pos hp]
    rw [if_neg (by simp), if_pos (by simp)]

/-! ## Up to a dot -/

theorem upToDot_next {c p : List Name} {x : Name} (hx : Part x) :
    upToDot (fullName (c ++ x :: p)) ((fullName c).length + 1) = fullName (c ++ [x]) := by
  have inner : ∀ z : List Byte, (0x2e : Byte) ∉ z → ∀ pre : List Byte,
      (match firstDot (z ++ nameTail p) with
        | some k => (pre ++ (z ++ nameTail p)).take (pre.length + k)
        | none => pre ++ (z ++ nameTail p)) = pre ++ z := by
    intro z hz pre
    cases p with
    | nil => simp [nameTail, firstDot_none hz]
    | cons a p =>
      rw [nameTail, firstDot_at hz]
      · show (pre ++ (z ++ 0x2e :: fullName (a :: p))).take (pre.length + z.length) = pre ++ z
        rw [← List.append_assoc, ← List.length_append, List.take_left]
      · simp
  by_cases h : c = []
  · subst h
    obtain ⟨hx1, hx2⟩ := hx
    cases x with
    | nil => exact absurd rfl hx1
    | cons a x =>
      have := inner x (fun h => hx2 (List.mem_cons_of_mem _ h)) [a]
      simp only [List.nil_append, fullName_cons, fullName_nil, upToDot]
      simp only [nameTail, List.append_nil]
      exact this
  · have e : fullName (c ++ x :: p) = (fullName c ++ [0x2e]) ++ (x ++ nameTail p) := by
      rw [fullName_append c (by simp), namePrefix_ne h, fullName_cons]
    have e' : fullName (c ++ [x]) = (fullName c ++ [0x2e]) ++ x := by
      rw [fullName_append c (by simp), namePrefix_ne h, fullName_cons]
      simp [nameTail]
    rw [e, e', upToDot]
    have := inner x hx.2 (fullName c ++ [0x2e])
    rw [show (fullName c).length + 1 = (fullName c ++ [0x2e]).length by simp, List.drop_left]
    exact this

theorem upToDot_all (s : List Byte) : upToDot s (s.length + 1) = s := by
  unfold upToDot
  rw [List.drop_of_length_le (by omega)]
  rfl

theorem upToLastDot_inner {c : List Name} (h : c ≠ []) {e : Name} (he : Part e) :
    upToLastDot (fullName (c ++ [e])) = fullName c := by
  rw [fullName_inner h, fullName_cons, upToLastDot]
  simp only [nameTail, List.append_nil]
  rw [lastDot_at _ he.2]
  simp

theorem upToLastDot_part {e : Name} (he : Part e) : upToLastDot (fullName [e]) = fullName [e] := by
  rw [fullName_cons, upToLastDot]
  simp only [nameTail, List.append_nil]
  rw [lastDot_none he.2]

/-! ## Names are different -/

theorem part_eq {x y s t : List Byte} (hx : (0x2e : Byte) ∉ x) (hy : (0x2e : Byte) ∉ y) (hs : Stops s) (ht : Stops t)
    (h : x ++ s = y ++ t) : x = y := by
  induction x generalizing y with
  | nil =>
    cases y with
    | nil => rfl
    | cons b y =>
      rcases hs with rfl | ⟨r, rfl⟩
      · simp at h
      · simp at h
        exact absurd (by simp [h.1]) hy
  | cons a x ih =>
    cases y with
    | nil =>
      rcases ht with rfl | ⟨r, rfl⟩
      · simp at h
      · simp at h
        exact absurd (by simp [h.1]) hx
    | cons b y =>
      simp at h
      rw [h.1, ih (fun h => hx (List.mem_cons_of_mem _ h)) (fun h => hy (List.mem_cons_of_mem _ h)) h.2]

theorem fullName_inj {p q : List Name} (hp : ∀ n ∈ p, Part n) (hq : ∀ n ∈ q, Part n) (h : fullName p = fullName q) : p = q := by
  induction p generalizing q with
  | nil =>
    cases q with
    | nil => rfl
    | cons b q => exact absurd h.symm (fullName_ne hq (by simp))
  | cons a p ih =>
    cases q with
    | nil => exact absurd h (fullName_ne hp (by simp))
    | cons b q =>
      rw [fullName_cons, fullName_cons] at h
      have e := part_eq (hp a (by simp)).2 (hq b (by simp)).2 (stops_tail p) (stops_tail q) h
      subst e
      have h := List.append_cancel_left h
      have : p = q := by
        cases p with
        | nil =>
          cases q with
          | nil => rfl
          | cons _ _ => simp [nameTail] at h
        | cons _ _ =>
          cases q with
          | nil => simp [nameTail] at h
          | cons _ _ =>
            simp only [nameTail, List.cons.injEq, true_and] at h
            exact ih (fun n hn => hp n (List.mem_cons_of_mem _ hn)) (fun n hn => hq n (List.mem_cons_of_mem _ hn)) h
      rw [this]

/-- Two paths are equal, one begins with the other, or they part. -/
theorem paths_cases (p q : List Name) : p = q ∨ (∃ y q', q = p ++ y :: q') ∨ (∃ x p', p = q ++ x :: p') ∨
    ∃ c x y p' q', p = c ++ x :: p' ∧ q = c ++ y :: q' ∧ x ≠ y := by
  induction p generalizing q with
  | nil =>
    cases q with
    | nil => exact .inl rfl
    | cons b q => exact .inr (.inl ⟨b, q, rfl⟩)
  | cons a p ih =>
    cases q with
    | nil => exact .inr (.inr (.inl ⟨a, p, rfl⟩))
    | cons b q =>
      by_cases e : a = b
      · subst e
        rcases ih q with rfl | ⟨y, q', rfl⟩ | ⟨x, p', rfl⟩ | ⟨c, x, y, p', q', rfl, rfl, h⟩
        · exact .inl rfl
        · exact .inr (.inl ⟨y, q', rfl⟩)
        · exact .inr (.inr (.inl ⟨x, p', rfl⟩))
        · exact .inr (.inr (.inr ⟨a :: c, x, y, p', q', rfl, rfl, h⟩))
      · exact .inr (.inr (.inr ⟨[], a, b, p, q, rfl, rfl, e⟩))

end HppProto.Gen
