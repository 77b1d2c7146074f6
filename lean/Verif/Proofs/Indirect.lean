import Verif.Spec.Indirect

/-! # Memory and values of `optional_indirect` -/

namespace HppProto.Ind

variable {D : Type} {E : Env D}

/-- Rearranging concatenations. -/
macro "rearrange" : tactic =>
  `(tactic| (refine List.perm_iff_count.mpr fun _ => ?_; simp only [List.count_append, List.count_cons, List.count_nil, List.append_assoc, List.cons_append, List.nil_append] <;> omega))

/-- Memory holds this, each address once, and none that is yet to come. -/
structure Good (m : Mem) (L : List (Nat × Nat)) : Prop where
  perm : m.live.Perm L
  once : (m.live.map Prod.fst).Nodup
  past : ∀ x ∈ m.live, x.1 < m.next

theorem Good.of {m : Mem} {L L' : List (Nat × Nat)} (h : Good m L) (p : L.Perm L') : Good m L' := ⟨h.perm.trans p, h.once, h.past⟩

theorem allocate_spec (a : Nat) {m : Mem} {R : List (Nat × Nat)} (h : Good m R) :
    (∃ p m', allocate E a m = .ok p m' ∧ Good m' ((p, E.key a) :: R)) ∨ ∃ m', allocate E a m = .threw () m' ∧ Good m' R := by
  unfold allocate
  split
  · exact .inr ⟨_, rfl, h.perm, h.once, fun x hx => Nat.lt_succ_of_lt (h.past x hx)⟩
  · refine .inl ⟨_, _, rfl, h.perm.cons _, ?_, ?_⟩
    · simp only [List.map_cons, List.nodup_cons]
      refine ⟨fun hm => ?_, h.once⟩
      obtain ⟨x, hx, e⟩ := List.mem_map.mp hm
      have := h.past x hx
      omega
    · intro x hx
      rcases List.mem_cons.mp hx with rfl | hx
      · exact Nat.lt_succ_self _
      · exact Nat.lt_succ_of_lt (h.past x hx)

theorem free_spec {a p : Nat} {m : Mem} {R : List (Nat × Nat)} (h : Good m ((p, E.key a) :: R)) :
    ∃ m', free E a p m = some m' ∧ Good m' R := by
  unfold free
  have : (p, E.key a) ∈ m.live := h.perm.mem_iff.mpr List.mem_cons_self
  rw [if_pos this]
  refine ⟨_, rfl, ?_, ?_, ?_⟩
  · have := h.perm.erase (p, E.key a)
    simpa using this
  · exact h.once.sublist (List.erase_sublist.map _)
  · exact fun x hx => h.past x (List.mem_of_mem_erase hx)

theorem destroy_spec : ∀ (ls : Links D) {m : Mem} {R : List (Nat × Nat)}, Good m (objects E ls ++ R) →
    ∃ m', destroy E ls m = some m' ∧ Good m' R
  | .nil, m, R, h => ⟨m, rfl, h⟩
  | .empty _ rest, m, R, h => by
    obtain ⟨m', e, g⟩ := destroy_spec rest (R := R) h
    exact ⟨m', by rw [destroy, e], g⟩
  | .full a p d kids rest, m, R, h => by
    rw [objects] at h
    obtain ⟨m1, e1, g1⟩ := destroy_spec rest (R := (p, E.key a) :: objects E kids ++ R) (h.of (by rearrange))
    obtain ⟨m2, e2, g2⟩ := destroy_spec kids (R := (p, E.key a) :: R) (g1.of (by rearrange))
    obtain ⟨m3, e3, g3⟩ := free_spec g2
    exact ⟨m3, by simp [destroy, e1, e2, e3], g3⟩

/-- The number of members. -/
def Links.size : Links D → Nat
  | .nil => 0
  | .empty _ r => r.size + 1
  | .full _ _ _ _ r => r.size + 1

/-- All objects have the members of their type. -/
def Shaped (E : Env D) : Links D → Prop
  | .nil => True
  | .empty _ r => Shaped E r
  | .full _ _ _ k r => k.size = E.arity ∧ Shaped E k ∧ Shaped E r

theorem copyLinks_spec : ∀ (ls : Links D) {m : Mem} {R : List (Nat × Nat)}, Shaped E ls → Good m R →
    (∃ x m', copyLinks E ls m = .ok x m' ∧ x.vals = ls.vals ∧ x.size = ls.size ∧ Shaped E x ∧ Good m' (objects E x ++ R)) ∨
    ∃ m', copyLinks E ls m = .threw () m' ∧ Good m' R
  | .nil, m, R, _, h => .inl ⟨.nil, m, rfl, rfl, rfl, trivial, h⟩
  | .empty a rest, m, R, hs, h => by
    rw [copyLinks]
    rcases copyLinks_spec rest (R := R) hs h with ⟨x, m', e, v, n, s, g⟩ | ⟨m', e, g⟩
    · rw [e]; exact .inl ⟨_, _, rfl, by simp [Links.vals, v], by simp [Links.size, n], s, g⟩
    · rw [e]; exact .inr ⟨_, rfl, g⟩
  | .full a q d kids rest, m, R, hs, h => by
    rw [copyLinks]
    rcases allocate_spec (E := E) (E.select a) h with ⟨p, m1, e, g⟩ | ⟨m1, e, g⟩
    · rw [e]
      dsimp only
      rcases copyLinks_spec kids hs.2.1 g with ⟨x, m2, e, v, n, s, g2⟩ | ⟨m2, e, g2⟩
      · rw [e]
        dsimp only
        rcases copyLinks_spec rest hs.2.2 g2 with ⟨y, m3, e, v', n', s', g3⟩ | ⟨m3, e, g3⟩
        · rw [e]
          refine .inl ⟨_, _, rfl, by simp [Links.vals, v, v'], by simp [Links.size, n'], ⟨n.trans hs.1, s, s'⟩, g3.of ?_⟩
          rw [objects]
          rearrange
        · rw [e]
          dsimp only
          obtain ⟨m4, e4, g4⟩ := destroy_spec (E := E) (.full (E.select a) p d x .nil) (R := R) (g3.of (by simp only [objects]; rearrange))
          rw [e4]
          exact .inr ⟨_, rfl, g4⟩
      · rw [e]
        dsimp only
        obtain ⟨m3, e3, g3⟩ := free_spec (E := E) g2
        rw [e3]
        exact .inr ⟨_, rfl, g3⟩
    · rw [e]
      exact .inr ⟨_, rfl, g⟩

/-- What one owns. -/
def Handle.objects (E : Env D) : Handle D → List (Nat × Nat)
  | .empty _ => []
  | .full a p _ kids => (p, E.key a) :: Ind.objects E kids

/-- Its value. -/
def Handle.val : Handle D → Val D
  | .empty _ => none
  | .full _ _ d kids => some (d, kids.vals)

/-- Its object has the members of its type. -/
def Handle.Shaped (E : Env D) : Handle D → Prop
  | .empty _ => True
  | .full _ _ _ k => k.size = E.arity ∧ Ind.Shaped E k

theorem objects_cons (h : Handle D) (r : Links D) : Ind.objects E (h.cons r) = h.objects E ++ Ind.objects E r := by
  cases h <;> simp [Handle.cons, Ind.objects, Handle.objects]

theorem vals_cons (h : Handle D) (r : Links D) : (h.cons r).vals = .cons h.val r.vals := by
  cases h <;> rfl

theorem size_cons (h : Handle D) (r : Links D) : (h.cons r).size = r.size + 1 := by
  cases h <;> rfl

theorem shaped_cons (h : Handle D) (r : Links D) : Ind.Shaped E (h.cons r) ↔ h.Shaped E ∧ Ind.Shaped E r := by
  cases h <;> simp [Handle.cons, Ind.Shaped, Handle.Shaped, and_assoc]

theorem uncons_cons (h : Handle D) (r : Links D) : (h.cons r).uncons = some (h, r) := by
  cases h <;> rfl

theorem cons_of_uncons {ls : Links D} {h : Handle D} {r : Links D} (e : ls.uncons = some (h, r)) : ls = h.cons r := by
  cases ls <;> simp [Links.uncons] at e <;> (obtain ⟨rfl, rfl⟩ := e; rfl)

theorem exists_cons {ls : Links D} {n : Nat} (e : ls.size = n + 1) : ∃ h r, ls = Handle.cons h r ∧ r.size = n := by
  cases ls with
  | nil => simp [Links.size] at e
  | empty a r => exact ⟨.empty a, r, rfl, by simpa [Links.size] using e⟩
  | full a p d k r => exact ⟨.full a p d k, r, rfl, by simpa [Links.size] using e⟩

theorem reset_spec (h : Handle D) {m : Mem} {R : List (Nat × Nat)} (g : Good m (h.objects E ++ R)) :
    ∃ m', reset E h m = some (.empty h.alloc, m') ∧ Good m' R := by
  cases h with
  | empty a => exact ⟨m, rfl, g⟩
  | full a p d kids =>
    simp only [Handle.objects] at g
    obtain ⟨m1, e1, g1⟩ := destroy_spec (E := E) kids (R := (p, E.key a) :: R) (g.of (by rearrange))
    obtain ⟨m2, e2, g2⟩ := free_spec g1
    exact ⟨m2, by simp [reset, e1, e2, Handle.alloc], g2⟩

/-- A constructor of objects that takes what is in `A` for its own. -/
def Makes (E : Env D) (construct : Mem → Out (D × Links D) Unit) (A : List (Nat × Nat)) (x : D × Vals D) : Prop :=
  ∀ m R, Good m (A ++ R) →
    (∃ kids m', construct m = .ok (x.1, kids) m' ∧ kids.vals = x.2 ∧ kids.size = E.arity ∧ Shaped E kids ∧ Good m' (objects E kids ++ R)) ∨
    ∃ m', construct m = .threw () m' ∧ Good m' (A ++ R)

theorem emplace_spec {h : Handle D} {c : Mem → Out (D × Links D) Unit} {A : List (Nat × Nat)} {x : D × Vals D}
    (hc : Makes E c A x) {m : Mem} {R : List (Nat × Nat)} (g : Good m (h.objects E ++ (A ++ R))) :
    (∃ p kids m', emplace E h c m = .ok (.full h.alloc p x.1 kids) m' ∧ kids.vals = x.2 ∧ kids.size = E.arity ∧ Shaped E kids ∧
      Good m' ((p, E.key h.alloc) :: objects E kids ++ R)) ∨
    ∃ m', emplace E h c m = .threw h m' ∧ Good m' (h.objects E ++ (A ++ R)) := by
  unfold emplace
  rcases allocate_spec (E := E) h.alloc g with ⟨p, m1, e, g1⟩ | ⟨m1, e, g1⟩
  · rw [e]
    dsimp only
    rcases hc m1 ((p, E.key h.alloc) :: h.objects E ++ R) (g1.of (by rearrange)) with ⟨kids, m2, e, v, n, s, g2⟩ | ⟨m2, e, g2⟩
    · rw [e]
      dsimp only
      obtain ⟨m3, e3, g3⟩ := reset_spec (E := E) h (R := (p, E.key h.alloc) :: objects E kids ++ R) (g2.of (by rearrange))
      rw [e3]
      exact .inl ⟨p, kids, m3, rfl, v, n, s, g3⟩
    · rw [e]
      dsimp only
      obtain ⟨m3, e3, g3⟩ := free_spec (E := E) (a := h.alloc) (p := p) (R := h.objects E ++ (A ++ R)) (g2.of (by rearrange))
      rw [e3]
      exact .inr ⟨m3, rfl, g3⟩
  · rw [e]
    exact .inr ⟨m1, rfl, g1⟩

theorem blank_vals (a : Nat) : ∀ n, (blank a n : Links D).vals = Vals.blank n
  | 0 => rfl
  | n + 1 => by simp [blank, Links.vals, Vals.blank, blank_vals a n]

theorem blank_size (a : Nat) : ∀ n, (blank a n : Links D).size = n
  | 0 => rfl
  | n + 1 => by simp [blank, Links.size, blank_size a n]

theorem blank_shaped (a : Nat) : ∀ n, Shaped E (blank a n : Links D)
  | 0 => trivial
  | n + 1 => blank_shaped a n

theorem blank_objects (a : Nat) : ∀ n, objects E (blank a n : Links D) = []
  | 0 => rfl
  | n + 1 => blank_objects a n

theorem makes_new : Makes E (constructNew E) [] (E.initial, Vals.blank E.arity) := by
  intro m R g
  exact .inl ⟨_, m, rfl, blank_vals _ _, blank_size _ _, blank_shaped _ _, by rw [blank_objects]; exact g⟩

theorem makes_copy (d : D) {kids : Links D} (hn : kids.size = E.arity) (hs : Shaped E kids) : Makes E (constructCopy E d kids) [] (d, kids.vals) := by
  intro m R g
  unfold constructCopy
  rcases copyLinks_spec kids hs g with ⟨x, m', e, v, n, s, g'⟩ | ⟨m', e, g'⟩
  · rw [e]; exact .inl ⟨x, m', rfl, v, n.trans hn, s, g'⟩
  · rw [e]; exact .inr ⟨m', rfl, g'⟩

theorem makes_move (d : D) {kids : Links D} (hn : kids.size = E.arity) (hs : Shaped E kids) :
    Makes E (constructMove d kids) (objects E kids) (d, kids.vals) := by
  intro m R g
  exact .inl ⟨kids, m, rfl, rfl, hn, hs, g⟩

theorem drain_objects : ∀ ls : Links D, objects E (drain ls) = []
  | .nil => rfl
  | .empty _ r => drain_objects r
  | .full _ _ _ _ r => drain_objects r

theorem drain_size : ∀ ls : Links D, (drain ls).size = ls.size
  | .nil => rfl
  | .empty _ r => by simp [drain, Links.size, drain_size r]
  | .full _ _ _ _ r => by simp [drain, Links.size, drain_size r]

theorem drain_shaped : ∀ ls : Links D, Shaped E (drain ls)
  | .nil => trivial
  | .empty _ r => drain_shaped r
  | .full _ _ _ _ r => drain_shaped r

theorem take_spec {h : Handle D} {a : Nat} {s : Handle D} (hs : s.Shaped E) (ha : E.key a = E.key s.alloc) {m : Mem}
    {R : List (Nat × Nat)} (g : Good m (h.objects E ++ (s.objects E ++ R))) :
    ∃ x m', take E h a s m = .ok (x, .empty s.alloc) m' ∧ x.val = s.val ∧ x.Shaped E ∧ Good m' (x.objects E ++ R) := by
  unfold take
  obtain ⟨m1, e, g1⟩ := reset_spec h g
  rw [e]
  cases s with
  | empty b => exact ⟨.empty a, m1, rfl, rfl, trivial, g1⟩
  | full b q e src =>
    refine ⟨.full a q e src, m1, rfl, rfl, hs, ?_⟩
    simp only [Handle.objects, Handle.alloc] at g1 ha ⊢
    rw [ha]
    exact g1

theorem take_empty {h : Handle D} {a b : Nat} {m : Mem}
    {R : List (Nat × Nat)} (g : Good m (h.objects E ++ R)) :
    ∃ m', take E h a (.empty b) m = .ok (.empty a, .empty b) m' ∧ Good m' R := by
  unfold take
  obtain ⟨m1, e, g1⟩ := reset_spec h g
  rw [e]
  exact ⟨m1, rfl, g1⟩

theorem moveLinks_spec : ∀ (src dst : Links D) {m : Mem} {R : List (Nat × Nat)}, dst.size = src.size → Shaped E dst → Shaped E src →
    Good m (objects E dst ++ (objects E src ++ R)) →
    (∃ x y m', moveLinks E dst src m = .ok (x, y) m' ∧ x.vals = src.vals ∧ x.size = src.size ∧ y.size = src.size ∧ Shaped E x ∧
      Shaped E y ∧ Good m' (objects E x ++ (objects E y ++ R))) ∨
    ∃ x y m', moveLinks E dst src m = .threw (x, y) m' ∧ (E.alwaysEqual = false ∧ E.propagateMove = false) ∧ x.size = src.size ∧ y.size = src.size ∧ Shaped E x ∧
      Shaped E y ∧ Good m' (objects E x ++ (objects E y ++ R))
  | .nil, dst, m, R, hn, hd, hs, g => by
    cases dst with
    | nil => exact .inl ⟨.nil, .nil, m, by rw [moveLinks], rfl, rfl, rfl, trivial, trivial, g⟩
    | _ => simp [Links.size] at hn
  | .empty b rest, dst, m, R, hn, hd, hs, g => by
    obtain ⟨h, tail, rfl, hn'⟩ := exists_cons hn
    rw [moveLinks, uncons_cons]
    dsimp only
    rw [objects_cons] at g
    rw [shaped_cons] at hd
    obtain ⟨m1, e, g1⟩ := take_empty (E := E) (h := h) (a := if E.propagateMove then b else h.alloc) (b := b)
      (R := objects E tail ++ (objects E rest ++ R)) (g.of (by simp only [objects]; rearrange))
    rw [e]
    dsimp only
    rcases moveLinks_spec rest tail hn' hd.2 hs g1 with ⟨x, y, m2, e, v, n1, n2, s1, s2, g2⟩ | ⟨x, y, m2, e, w, n1, n2, s1, s2, g2⟩
    · rw [e]
      refine .inl ⟨_, _, m2, rfl, ?_, ?_, ?_, ?_, ?_, ?_⟩
      · rw [vals_cons, v]; rfl
      · rw [size_cons, n1]; rfl
      · rw [size_cons, n2]; rfl
      · rw [shaped_cons]; exact ⟨trivial, s1⟩
      · rw [shaped_cons]; exact ⟨trivial, s2⟩
      · rw [objects_cons, objects_cons]; exact g2
    · rw [e]
      refine .inr ⟨_, _, m2, rfl, w, ?_, ?_, ?_, ?_, ?_⟩
      · rw [size_cons, n1]; rfl
      · rw [size_cons, n2]; rfl
      · rw [shaped_cons]; exact ⟨trivial, s1⟩
      · rw [shaped_cons]; exact ⟨trivial, s2⟩
      · rw [objects_cons, objects_cons]; exact g2
  | .full b q e src rest, dst, m, R, hn, hd, hs, g => by
    obtain ⟨h, tail, rfl, hn'⟩ := exists_cons hn
    rw [moveLinks, uncons_cons]
    dsimp only
    rw [objects_cons] at g
    rw [shaped_cons] at hd
    obtain ⟨hs1, hs2, hs3⟩ := hs
    have key : ∀ o, moveOne E (fun kids m => moveLinks E kids src m) h b q e src m = o →
        (∃ x y m', o = .ok (x, y) m' ∧ x.val = some (e, src.vals) ∧ x.Shaped E ∧ y.Shaped E ∧
          Good m' (x.objects E ++ (y.objects E ++ (objects E tail ++ (objects E rest ++ R))))) ∨
        ∃ x y m', o = .threw (x, y) m' ∧ (E.alwaysEqual = false ∧ E.propagateMove = false) ∧ x.Shaped E ∧ y.Shaped E ∧
          Good m' (x.objects E ++ (y.objects E ++ (objects E tail ++ (objects E rest ++ R)))) := by
      intro o ho
      have g' : Good m (h.objects E ++ ((Handle.full b q e src).objects E ++ (objects E tail ++ (objects E rest ++ R)))) :=
        g.of (by simp only [objects, Handle.objects]; rearrange)
      unfold moveOne at ho
      split at ho
      · obtain ⟨x, m1, e1, v, s, g1⟩ := take_spec (E := E) (a := b) (s := .full b q e src) ⟨hs1, hs2⟩ rfl g'
        rw [e1] at ho
        exact .inl ⟨x, _, m1, ho.symm, v, s, trivial, g1⟩
      rename_i hpm
      split at ho
      · rename_i hsame
        have : E.key h.alloc = E.key b := by simpa [Env.same] using hsame
        obtain ⟨x, m1, e1, v, s, g1⟩ := take_spec (E := E) (a := h.alloc) (s := .full b q e src) ⟨hs1, hs2⟩ this g'
        rw [e1] at ho
        exact .inl ⟨x, _, m1, ho.symm, v, s, trivial, g1⟩
      rename_i hsame
      have w : E.alwaysEqual = false ∧ E.propagateMove = false := by
        refine ⟨?_, by simpa using hpm⟩
        cases hq : E.alwaysEqual with
        | false => rfl
        | true => simp [Env.same, Env.key, hq] at hsame
      cases h with
      | full a p d kids =>
        dsimp only at ho
        have hk := hd.1
        rcases moveLinks_spec src kids (R := (p, E.key a) :: (q, E.key b) :: (objects E tail ++ (objects E rest ++ R)))
          (hk.1.trans hs1.symm) hk.2 hs2
          (g.of (by simp only [objects, Handle.objects]; rearrange)) with ⟨x, y, m2, e1, v, n1, n2, s1, s2, g2⟩ | ⟨x, y, m2, e1, _, n1, n2, s1, s2, g2⟩
        · rw [e1] at ho
          refine .inl ⟨_, _, m2, ho.symm, by simp [Handle.val, v], ⟨n1.trans hs1, s1⟩, ⟨n2.trans hs1, s2⟩, g2.of ?_⟩
          simp only [Handle.objects]
          rearrange
        · rw [e1] at ho
          refine .inr ⟨_, _, m2, ho.symm, w, ⟨n1.trans hs1, s1⟩, ⟨n2.trans hs1, s2⟩, g2.of ?_⟩
          simp only [Handle.objects]
          rearrange
      | empty a =>
        dsimp only at ho
        rcases emplace_spec (E := E) (h := .empty a) (makes_move e hs1 hs2) (m := m)
          (R := (q, E.key b) :: (objects E tail ++ (objects E rest ++ R)))
          (g.of (by simp only [objects, Handle.objects]; rearrange)) with ⟨p, kids, m2, e1, v, n, s, g2⟩ | ⟨m2, e1, g2⟩
        · rw [e1] at ho
          refine .inl ⟨_, _, m2, ho.symm, by simp [Handle.val, v], ⟨n, s⟩, ⟨(drain_size src).trans hs1, drain_shaped src⟩, g2.of ?_⟩
          simp only [Handle.objects, drain_objects]
          rearrange
        · rw [e1] at ho
          refine .inr ⟨_, _, m2, ho.symm, w, trivial, ⟨hs1, hs2⟩, g2.of ?_⟩
          simp only [Handle.objects]
          rearrange
    rcases key _ rfl with ⟨x, y, m1, ho, v, s1, s2, g1⟩ | ⟨x, y, m1, ho, w, s1, s2, g1⟩
    · rw [ho]
      dsimp only
      rcases moveLinks_spec rest tail (R := x.objects E ++ (y.objects E ++ R)) hn' hd.2 hs3 (g1.of (by rearrange)) with
        ⟨x', y', m2, e, v', n1, n2, s1', s2', g2⟩ | ⟨x', y', m2, e, w, n1, n2, s1', s2', g2⟩
      · rw [e]
        refine .inl ⟨_, _, m2, rfl, ?_, ?_, ?_, ?_, ?_, ?_⟩
        · rw [vals_cons, v, v']; rfl
        · rw [size_cons, n1]; rfl
        · rw [size_cons, n2]; rfl
        · rw [shaped_cons]; exact ⟨s1, s1'⟩
        · rw [shaped_cons]; exact ⟨s2, s2'⟩
        · rw [objects_cons, objects_cons]; exact g2.of (by rearrange)
      · rw [e]
        refine .inr ⟨_, _, m2, rfl, w, ?_, ?_, ?_, ?_, ?_⟩
        · rw [size_cons, n1]; rfl
        · rw [size_cons, n2]; rfl
        · rw [shaped_cons]; exact ⟨s1, s1'⟩
        · rw [shaped_cons]; exact ⟨s2, s2'⟩
        · rw [objects_cons, objects_cons]; exact g2.of (by rearrange)
    · rw [ho]
      refine .inr ⟨_, _, m1, rfl, w, ?_, ?_, ?_, ?_, ?_⟩
      · rw [size_cons, hn']; rfl
      · rw [size_cons]; rfl
      · rw [shaped_cons]; exact ⟨s1, hd.2⟩
      · rw [shaped_cons]; exact ⟨s2, hs3⟩
      · rw [objects_cons, objects_cons]; exact g1.of (by rearrange)

end HppProto.Ind
