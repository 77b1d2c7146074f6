import Verif.Proofs.Indirect

/-! # Operations of `optional_indirect` on places -/

namespace HppProto.Ind

variable {D : Type} {E : Env D}

theorem moveAssign_spec {h s : Handle D} (hh : h.Shaped E) (hs : s.Shaped E) {m : Mem} {R : List (Nat × Nat)}
    (g : Good m (h.objects E ++ (s.objects E ++ R))) :
    (∃ x y m', moveAssign E h s m = .ok (x, y) m' ∧ x.val = s.val ∧ x.Shaped E ∧ y.Shaped E ∧
      Good m' (x.objects E ++ (y.objects E ++ R))) ∨
    ∃ x y m', moveAssign E h s m = .threw (x, y) m' ∧ (E.alwaysEqual = false ∧ E.propagateMove = false) ∧ x.Shaped E ∧
      y.Shaped E ∧ Good m' (x.objects E ++ (y.objects E ++ R)) := by
  have one : ∀ {y : Links D}, y.size = (s.cons .nil).size → ∃ k, y = Handle.cons k .nil := by
    intro y hy
    rw [size_cons] at hy
    obtain ⟨k, r, rfl, hr⟩ := exists_cons hy
    cases r with
    | nil => exact ⟨k, rfl⟩
    | _ => simp [Links.size] at hr
  have consinj : ∀ {x : Val D} {v w : Vals D} {y : Val D}, Vals.cons x v = Vals.cons y w → x = y := by
    intro x v w y e
    rcases x with _ | ⟨d, k⟩ <;> rcases y with _ | ⟨d', k'⟩ <;> simp [Vals.cons] at e ⊢
    exact ⟨e.1, e.2.1⟩
  unfold moveAssign
  rcases moveLinks_spec (E := E) (s.cons .nil) (h.cons .nil) (m := m) (R := R) (by simp [size_cons])
    ((shaped_cons _ _).mpr ⟨hh, trivial⟩) ((shaped_cons _ _).mpr ⟨hs, trivial⟩)
    (g.of (by simp only [objects_cons, objects]; rearrange)) with ⟨x, y, m', e, v, n1, n2, s1, s2, g'⟩ | ⟨x, y, m', e, w, n1, n2, s1, s2, g'⟩
  · rw [e]
    obtain ⟨x, rfl⟩ := one n1
    obtain ⟨y, rfl⟩ := one n2
    simp only [uncons_cons]
    rw [vals_cons, vals_cons] at v
    exact .inl ⟨x, y, m', rfl, consinj v, ((shaped_cons _ _).mp s1).1, ((shaped_cons _ _).mp s2).1,
      g'.of (by simp only [objects_cons, objects]; rearrange)⟩
  · rw [e]
    obtain ⟨x, rfl⟩ := one n1
    obtain ⟨y, rfl⟩ := one n2
    simp only [uncons_cons]
    exact .inr ⟨x, y, m', rfl, w, ((shaped_cons _ _).mp s1).1, ((shaped_cons _ _).mp s2).1,
      g'.of (by simp only [objects_cons, objects]; rearrange)⟩

theorem swapLinks_spec {x y : Links D} (hn : x.size = y.size) (hx : Shaped E x) (hy : Shaped E y) {m : Mem} {R : List (Nat × Nat)}
    (g : Good m (objects E x ++ (objects E y ++ R))) :
    (∃ x' y' m', swapLinks E x y m = .ok (x', y') m' ∧ x'.vals = y.vals ∧ y'.vals = x.vals ∧ x'.size = y.size ∧ y'.size = y.size ∧
      Shaped E x' ∧ Shaped E y' ∧ Good m' (objects E x' ++ (objects E y' ++ R))) ∨
    ∃ x' y' m', swapLinks E x y m = .threw (x', y') m' ∧ x'.size = y.size ∧ y'.size = y.size ∧ Shaped E x' ∧
      Shaped E y' ∧ Good m' (objects E x' ++ (objects E y' ++ R)) := by
  unfold swapLinks
  rcases moveLinks_spec (E := E) y (drain x) (m := m) (R := objects E x ++ R) ((drain_size x).trans hn) (drain_shaped x) hy
    (g.of (by rw [drain_objects]; rearrange)) with ⟨x', y', m', e, v, n1, n2, s1, s2, g'⟩ | ⟨x', y', m', e, w, n1, n2, s1, s2, g'⟩
  · rw [e]
    dsimp only
    rcases moveLinks_spec (E := E) x y' (m := m') (R := objects E x' ++ R) (n2.trans hn.symm) s2 hx (g'.of (by rearrange)) with
      ⟨y'', t, m2, e2, v2, n3, n4, s3, s4, g2⟩ | ⟨y'', t, m2, e2, w2, n3, n4, s3, s4, g2⟩
    · rw [e2]
      dsimp only
      obtain ⟨m3, e3, g3⟩ := destroy_spec (E := E) t (m := m2) (R := objects E x' ++ (objects E y'' ++ R)) (g2.of (by rearrange))
      rw [e3]
      exact .inl ⟨x', y'', m3, rfl, v, v2, n1, n3.trans hn, s1, s3, g3⟩
    · rw [e2]
      dsimp only
      obtain ⟨m3, e3, g3⟩ := destroy_spec (E := E) t (m := m2) (R := objects E x' ++ (objects E y'' ++ R)) (g2.of (by rearrange))
      rw [e3]
      exact .inr ⟨x', y'', m3, rfl, n1, n3.trans hn, s1, s3, g3⟩
  · rw [e]
    dsimp only
    obtain ⟨m3, e3, g3⟩ := destroy_spec (E := E) x (m := m') (R := objects E x' ++ (objects E y' ++ R)) (g'.of (by rearrange))
    rw [e3]
    exact .inr ⟨x', y', m3, rfl, n1, n2, s1, s2, g3⟩

theorem swapHandles_spec (hE : E.propagateSwap = true → E.alwaysEqual = true) {h s : Handle D} (hh : h.Shaped E) (hs : s.Shaped E)
    {m : Mem} {R : List (Nat × Nat)} (g : Good m (h.objects E ++ (s.objects E ++ R))) :
    (∃ x y m', swapHandles E h s m = .ok (x, y) m' ∧ x.val = s.val ∧ y.val = h.val ∧ x.Shaped E ∧ y.Shaped E ∧
      Good m' (x.objects E ++ (y.objects E ++ R))) ∨
    ∃ x y m', swapHandles E h s m = .threw (x, y) m' ∧ E.alwaysEqual = false ∧ x.Shaped E ∧ y.Shaped E ∧
      Good m' (x.objects E ++ (y.objects E ++ R)) := by
  unfold swapHandles
  dsimp only
  generalize ha : (if E.propagateSwap = true then s.alloc else h.alloc) = a
  generalize hb : (if E.propagateSwap = true then h.alloc else s.alloc) = b
  by_cases hq : E.key h.alloc = E.key s.alloc
  · have ka : E.key a = E.key h.alloc := by rw [← ha]; split <;> simp [hq]
    have kb : E.key b = E.key h.alloc := by rw [← hb]; split <;> simp [hq]
    have ks := hq.symm
    rw [if_pos (by simp [Env.same, ka, kb])]
    refine .inl ⟨_, _, m, rfl, ?_, ?_, ?_, ?_, ?_⟩
    · cases s <;> rfl
    · cases h <;> rfl
    · cases s with
      | empty b => trivial
      | full b q e src => exact hs
    · cases h with
      | empty b => trivial
      | full b q e src => exact hh
    · refine g.of ?_
      cases h with
      | empty a =>
        cases s with
        | empty b => simp [Handle.objects]
        | full b q e src =>
          simp only [Handle.objects, Handle.alloc] at ka ks ⊢
          rw [ka, ks]
          rearrange
      | full a p d kids =>
        cases s with
        | empty b =>
          simp only [Handle.objects, Handle.alloc] at kb ⊢
          rw [kb]
          rearrange
        | full b q e src =>
          simp only [Handle.objects, Handle.alloc] at ka kb ks ⊢
          rw [ka, kb, ks]
          rearrange
  · have hal : E.alwaysEqual = false := by
      cases hal : E.alwaysEqual with
      | false => rfl
      | true => simp [Env.key, hal] at hq
    have hp : E.propagateSwap = false := by
      cases hp : E.propagateSwap with
      | false => rfl
      | true => rw [hE hp] at hal; cases hal
    rw [hp] at ha hb
    simp only [Bool.false_eq_true, if_false] at ha hb
    subst ha hb
    rw [if_neg (by simp [hal, Env.same, hq])]
    cases h with
    | empty a =>
      cases s with
      | empty b => exact .inl ⟨_, _, m, rfl, rfl, rfl, trivial, trivial, g⟩
      | full b q e src =>
        simp only [Handle.alloc]
        rcases emplace_spec (E := E) (h := .empty a) (makes_move e hs.1 hs.2) (m := m) (R := (q, E.key b) :: R)
          (g.of (by simp only [Handle.objects]; rearrange)) with ⟨p, kids, m2, e1, v, n, sh, g2⟩ | ⟨m2, e1, g2⟩
        · rw [e1]
          dsimp only
          obtain ⟨m3, e3, g3⟩ := reset_spec (E := E) (.full b q (E.moved e) (drain src)) (R := (p, E.key a) :: objects E kids ++ R)
            (g2.of (by simp only [Handle.objects, drain_objects, Handle.alloc]; rearrange))
          rw [e3]
          exact .inl ⟨_, _, m3, rfl, by simp [Handle.val, v], rfl, ⟨n, sh⟩, trivial, g3⟩
        · rw [e1]
          exact .inr ⟨_, _, m2, rfl, hal, trivial, hs, g2.of (by simp only [Handle.objects]; rearrange)⟩
    | full a p d kids =>
      cases s with
      | empty b =>
        simp only [Handle.alloc]
        rcases emplace_spec (E := E) (h := .empty b) (makes_move d hh.1 hh.2) (m := m) (R := (p, E.key a) :: R)
          (g.of (by simp only [Handle.objects]; rearrange)) with ⟨q, src, m2, e1, v, n, sh, g2⟩ | ⟨m2, e1, g2⟩
        · rw [e1]
          dsimp only
          obtain ⟨m3, e3, g3⟩ := reset_spec (E := E) (.full a p (E.moved d) (drain kids)) (R := (q, E.key b) :: objects E src ++ R)
            (g2.of (by simp only [Handle.objects, drain_objects, Handle.alloc]; rearrange))
          rw [e3]
          exact .inl ⟨_, _, m3, rfl, rfl, by simp [Handle.val, v], trivial, ⟨n, sh⟩, g3⟩
        · rw [e1]
          exact .inr ⟨_, _, m2, rfl, hal, hh, trivial, g2.of (by simp only [Handle.objects]; rearrange)⟩
      | full b q e src =>
        simp only [Handle.alloc]
        rcases swapLinks_spec (E := E) (x := kids) (y := src) (hh.1.trans hs.1.symm) hh.2 hs.2 (m := m)
          (R := (p, E.key a) :: (q, E.key b) :: R) (g.of (by simp only [Handle.objects]; rearrange)) with
          ⟨x, y, m2, e1, v1, v2, n1, n2, s1, s2, g2⟩ | ⟨x, y, m2, e1, n1, n2, s1, s2, g2⟩
        · rw [e1]
          exact .inl ⟨_, _, m2, rfl, by simp [Handle.val, v1], by simp [Handle.val, v2], ⟨n1.trans hs.1, s1⟩, ⟨n2.trans hs.1, s2⟩,
            g2.of (by simp only [Handle.objects]; rearrange)⟩
        · rw [e1]
          exact .inr ⟨_, _, m2, rfl, hal, ⟨n1.trans hs.1, s1⟩, ⟨n2.trans hs.1, s2⟩, g2.of (by simp only [Handle.objects]; rearrange)⟩

/-! ## Places -/

theorem look_vals : ∀ (F : Links D) (i : Nat) (p : List Nat), F.vals.look i p = (F.look i p).map Handle.val
  | .nil, _, _ => rfl
  | .empty _ _, 0, [] => rfl
  | .empty _ _, 0, _ :: _ => rfl
  | .full _ _ _ _ _, 0, [] => rfl
  | .full _ _ _ kids _, 0, i :: p => by simp only [Links.vals, Vals.look, Links.look, look_vals kids i p]
  | .empty _ r, i + 1, p => by simp only [Links.vals, Vals.look, Links.look, look_vals r i p]
  | .full _ _ _ _ r, i + 1, p => by simp only [Links.vals, Vals.look, Links.look, look_vals r i p]

theorem put_vals (h : Handle D) : ∀ (F : Links D) (i : Nat) (p : List Nat), (F.put h i p).vals = F.vals.put h.val i p
  | .nil, _, _ => rfl
  | .empty _ _, 0, [] => vals_cons _ _
  | .empty _ _, 0, _ :: _ => rfl
  | .full _ _ _ _ _, 0, [] => vals_cons _ _
  | .full _ _ _ kids _, 0, i :: p => by simp only [Links.vals, Vals.put, Links.put, put_vals h kids i p]
  | .empty _ r, i + 1, p => by simp only [Links.vals, Vals.put, Links.put, put_vals h r i p]
  | .full _ _ _ _ r, i + 1, p => by simp only [Links.vals, Vals.put, Links.put, put_vals h r i p]

theorem put_size (h : Handle D) : ∀ (F : Links D) (i : Nat) (p : List Nat), (F.put h i p).size = F.size
  | .nil, _, _ => rfl
  | .empty _ _, 0, [] => size_cons _ _
  | .empty _ _, 0, _ :: _ => rfl
  | .full _ _ _ _ _, 0, [] => size_cons _ _
  | .full _ _ _ kids _, 0, i :: p => rfl
  | .empty _ r, i + 1, p => by simp only [Links.size, Links.put, put_size h r i p]
  | .full _ _ _ _ r, i + 1, p => by simp only [Links.size, Links.put, put_size h r i p]

theorem look_shaped : ∀ (F : Links D) (i : Nat) (p : List Nat) {h : Handle D}, Shaped E F → F.look i p = some h → h.Shaped E
  | .empty _ _, 0, [], h, _, e => by cases e; trivial
  | .full _ _ _ _ _, 0, [], h, hs, e => by cases e; exact ⟨hs.1, hs.2.1⟩
  | .full _ _ _ kids _, 0, i :: p, h, hs, e => look_shaped kids i p hs.2.1 e
  | .empty _ r, i + 1, p, h, hs, e => look_shaped r i p hs e
  | .full _ _ _ _ r, i + 1, p, h, hs, e => look_shaped r i p hs.2.2 e

theorem put_shaped {h : Handle D} (hh : h.Shaped E) : ∀ (F : Links D) (i : Nat) (p : List Nat), Shaped E F → Shaped E (F.put h i p)
  | .nil, _, _, _ => trivial
  | .empty _ _, 0, [], hs => (shaped_cons _ _).mpr ⟨hh, hs⟩
  | .empty _ _, 0, _ :: _, hs => hs
  | .full _ _ _ _ _, 0, [], hs => (shaped_cons _ _).mpr ⟨hh, hs.2.2⟩
  | .full _ _ _ kids _, 0, i :: p, hs => ⟨by rw [put_size]; exact hs.1, put_shaped hh kids i p hs.2.1, hs.2.2⟩
  | .empty _ r, i + 1, p, hs => put_shaped hh r i p hs
  | .full _ _ _ _ r, i + 1, p, hs => ⟨hs.1, hs.2.1, put_shaped hh r i p hs.2.2⟩

theorem frame : ∀ (F : Links D) (i : Nat) (p : List Nat) {h : Handle D}, F.look i p = some h →
    ∃ R, (objects E F).Perm (h.objects E ++ R) ∧ ∀ k : Handle D, (objects E (F.put k i p)).Perm (k.objects E ++ R)
  | .empty _ r, 0, [], h, e => by
    cases e
    exact ⟨objects E r, .refl _, fun k => by rw [Links.put, objects_cons]⟩
  | .full a q d kids r, 0, [], h, e => by
    cases e
    exact ⟨objects E r, by simp [objects, Handle.objects], fun k => by rw [Links.put, objects_cons]⟩
  | .full a q d kids r, 0, i :: p, h, e => by
    obtain ⟨R, h1, h2⟩ := frame kids i p e
    refine ⟨(q, E.key a) :: R ++ objects E r, ?_, fun k => ?_⟩
    · rw [objects]
      refine ((h1.cons _).append_right _).trans ?_
      rearrange
    · rw [Links.put, objects]
      refine (((h2 k).cons _).append_right _).trans ?_
      rearrange
  | .empty _ r, i + 1, p, h, e => frame r i p e
  | .full a q d kids r, i + 1, p, h, e => by
    obtain ⟨R, h1, h2⟩ := frame r i p e
    refine ⟨(q, E.key a) :: objects E kids ++ R, ?_, fun k => ?_⟩
    · rw [objects]
      refine (h1.append_left _).trans ?_
      rearrange
    · rw [Links.put, objects]
      refine ((h2 k).append_left _).trans ?_
      rearrange

theorem look_put_apart (k : Handle D) : ∀ (F : Links D) (i : Nat) (p : List Nat) (j : Nat) (q : List Nat),
    ¬ (i = j ∧ p <+: q) → ¬ (j = i ∧ q <+: p) → (F.put k i p).look j q = F.look j q
  | .nil, _, _, _, _, _, _ => rfl
  | .empty _ _, 0, [], 0, _, h, _ => absurd ⟨rfl, List.nil_prefix⟩ h
  | .empty _ _, 0, [], j + 1, q, _, _ => by cases k <;> rfl
  | .empty _ _, 0, _ :: _, _, _, _, _ => rfl
  | .full _ _ _ _ _, 0, [], 0, _, h, _ => absurd ⟨rfl, List.nil_prefix⟩ h
  | .full _ _ _ _ _, 0, [], j + 1, q, _, _ => by cases k <;> rfl
  | .full _ _ _ _ _, 0, _ :: _, 0, [], _, h => absurd ⟨rfl, List.nil_prefix⟩ h
  | .full _ _ _ kids _, 0, i :: p, 0, j :: q, h1, h2 => by
    rw [Links.put, Links.look, Links.look]
    refine look_put_apart k kids i p j q ?_ ?_
    · rintro ⟨rfl, h⟩; exact h1 ⟨rfl, List.cons_prefix_cons.mpr ⟨rfl, h⟩⟩
    · rintro ⟨rfl, h⟩; exact h2 ⟨rfl, List.cons_prefix_cons.mpr ⟨rfl, h⟩⟩
  | .full _ _ _ _ _, 0, _ :: _, j + 1, q, _, _ => by simp only [Links.put, Links.look]
  | .empty _ _, _ + 1, _, 0, [], _, _ => by simp only [Links.put, Links.look]
  | .empty _ _, _ + 1, _, 0, _ :: _, _, _ => by simp only [Links.put, Links.look]
  | .empty _ r, i + 1, p, j + 1, q, h1, h2 => by
    rw [Links.put, Links.look, Links.look]
    exact look_put_apart k r i p j q (fun h => h1 ⟨by rw [h.1], h.2⟩) (fun h => h2 ⟨by rw [h.1], h.2⟩)
  | .full _ _ _ _ _, _ + 1, _, 0, [], _, _ => by simp only [Links.put, Links.look]
  | .full _ _ _ _ _, _ + 1, _, 0, _ :: _, _, _ => by simp only [Links.put, Links.look]
  | .full _ _ _ _ r, i + 1, p, j + 1, q, h1, h2 => by
    rw [Links.put, Links.look, Links.look]
    exact look_put_apart k r i p j q (fun h => h1 ⟨by rw [h.1], h.2⟩) (fun h => h2 ⟨by rw [h.1], h.2⟩)

theorem vals_put_self : ∀ (v : Vals D) (i : Nat) (p : List Nat) {x : Val D}, v.look i p = some x → v.put x i p = v
  | .none _, 0, [], x, e => by cases e; rfl
  | .some _ _ _, 0, [], x, e => by cases e; rfl
  | .some d kids r, 0, i :: p, x, e => by rw [Vals.put, vals_put_self kids i p e]
  | .none r, i + 1, p, x, e => by rw [Vals.put, vals_put_self r i p e]
  | .some d kids r, i + 1, p, x, e => by rw [Vals.put, vals_put_self r i p e]

theorem vals_put_put : ∀ (v : Vals D) (i : Nat) (p : List Nat) (x y : Val D), (v.put x i p).put y i p = v.put y i p
  | .nil, _, _, _, _ => rfl
  | .none _, 0, [], x, y => by rcases x with _ | ⟨_, _⟩ <;> rfl
  | .none _, 0, _ :: _, x, y => rfl
  | .some _ _ _, 0, [], x, y => by rcases x with _ | ⟨_, _⟩ <;> rfl
  | .some d kids r, 0, i :: p, x, y => by simp only [Vals.put, vals_put_put kids i p x y]
  | .none r, i + 1, p, x, y => by simp only [Vals.put, vals_put_put r i p x y]
  | .some d kids r, i + 1, p, x, y => by simp only [Vals.put, vals_put_put r i p x y]

theorem apart_look {l k : Place} (h : Apart l k) (F : Links D) (x : Handle D) :
    (F.put x l.root l.path).look k.root k.path = F.look k.root k.path := by
  obtain ⟨h1, h2⟩ := h
  refine look_put_apart x F _ _ _ _ ?_ ?_
  · rintro ⟨a, b⟩
    have : l.covers k = true := by simp [Place.covers, a, List.isPrefixOf_iff_prefix.mpr b]
    rw [h1] at this; cases this
  · rintro ⟨a, b⟩
    have : k.covers l = true := by simp [Place.covers, a, List.isPrefixOf_iff_prefix.mpr b]
    rw [h2] at this; cases this

theorem get_vals (F : Links D) (l : Place) : F.vals.get l = (F.look l.root l.path).map Handle.val := look_vals _ _ _

theorem set_vals (F : Links D) (l : Place) (h : Handle D) : (F.put h l.root l.path).vals = F.vals.set l h.val := put_vals _ _ _ _

end HppProto.Ind
