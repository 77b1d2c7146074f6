import Verif.Proofs.IndirectStep

/-! # Programs with `optional_indirect` -/

namespace HppProto.Ind

variable {D : Type} {E : Env D}

/-- The state of programs. -/
structure Inv (E : Env D) (s : Heap D) : Prop where
  good : Good s.mem (objects E s.vars)
  shaped : Shaped E s.vars

theorem inv_start : Inv E (start : Heap D) := ⟨⟨.refl _, .nil, fun _ h => by cases h⟩, trivial⟩

theorem look_of_get {F : Links D} {l : Place} (h : (F.vals.get l).isSome) : ∃ k, F.look l.root l.path = some k := by
  rw [get_vals] at h
  cases e : F.look l.root l.path with
  | none => rw [e] at h; cases h
  | some k => exact ⟨k, rfl⟩

/-- An operation on one place. -/
theorem put1_spec {F : Links D} {l : Place} {h : Handle D} (hl : F.look l.root l.path = some h) (hs : Shaped E F) {m : Mem}
    (g : Good m (objects E F)) : ∃ R, Good m (h.objects E ++ R) ∧ ∀ (x : Handle D) (m' : Mem), x.Shaped E → Good m' (x.objects E ++ R) →
      Inv E ⟨F.put x l.root l.path, m'⟩ := by
  obtain ⟨R, h1, h2⟩ := frame (E := E) F _ _ hl
  exact ⟨R, g.of h1, fun x m' hx gx => ⟨gx.of (h2 x).symm, put_shaped hx _ _ _ hs⟩⟩

/-- An operation on two places. -/
theorem put2_spec {F : Links D} {l k : Place} {h t : Handle D} (hl : F.look l.root l.path = some h)
    (hk : F.look k.root k.path = some t) (ha : Apart l k) (hs : Shaped E F) {m : Mem} (g : Good m (objects E F)) :
    ∃ R, Good m (h.objects E ++ (t.objects E ++ R)) ∧ ∀ (x y : Handle D) (m' : Mem), x.Shaped E → y.Shaped E →
      Good m' (x.objects E ++ (y.objects E ++ R)) → Inv E ⟨(F.put x l.root l.path).put y k.root k.path, m'⟩ := by
  obtain ⟨R1, h1, h2⟩ := frame (E := E) F _ _ hl
  have hk' : (F.put (.empty 0) l.root l.path).look k.root k.path = some t := by rw [apart_look ha]; exact hk
  obtain ⟨R, h3, _⟩ := frame (E := E) _ _ _ hk'
  have hR : R1.Perm (t.objects E ++ R) := (h2 (.empty 0)).symm.trans h3
  refine ⟨R, g.of (h1.trans (hR.append_left _)), ?_⟩
  intro x y m' hx hy gx
  have hk2 : (F.put x l.root l.path).look k.root k.path = some t := by rw [apart_look ha]; exact hk
  obtain ⟨R2, h4, h5⟩ := frame (E := E) _ _ _ hk2
  have : (t.objects E ++ (x.objects E ++ R)).Perm (t.objects E ++ R2) := by
    refine .trans ?_ (h4)
    refine .trans ?_ (h2 x).symm
    refine .trans ?_ (hR.symm.append_left _)
    rearrange
  have hR2 : (x.objects E ++ R).Perm R2 := (List.perm_append_left_iff _).mp this
  refine ⟨gx.of ?_, put_shaped hy _ _ _ (put_shaped hx _ _ _ hs)⟩
  refine .trans ?_ (h5 y).symm
  refine .trans ?_ (hR2.append_left _)
  rearrange

theorem adopt_spec {h : Handle D} (hh : h.Shaped E) (b : Nat) {m : Mem} {R : List (Nat × Nat)} (g : Good m (h.objects E ++ R)) :
    ∃ x m', adopt E h b m = some (x, m') ∧ x.Shaped E ∧ Good m' (x.objects E ++ R) ∧
      (x.val = h.val ∨ (E.propagateCopy = true ∧ E.alwaysEqual = false)) := by
  unfold adopt
  split
  · rename_i hp
    split
    · rename_i hq
      have hq : E.key h.alloc = E.key b := by simpa [Env.same] using hq
      cases h with
      | empty a => exact ⟨_, _, rfl, trivial, g, .inl rfl⟩
      | full a p d kids =>
        refine ⟨_, _, rfl, hh, ?_, .inl rfl⟩
        simp only [Handle.objects, Handle.alloc] at g hq ⊢
        rw [← hq]
        exact g
    · rename_i hq
      obtain ⟨m', e, g'⟩ := reset_spec h g
      rw [e]
      refine ⟨_, _, rfl, trivial, g', .inr ⟨hp, ?_⟩⟩
      cases hal : E.alwaysEqual with
      | false => rfl
      | true => simp [Env.same, Env.key, hal] at hq
  · exact ⟨_, _, rfl, hh, g, .inl rfl⟩

theorem assignFrom_spec {h t : Handle D} (ht : t.Shaped E) {m : Mem} {R : List (Nat × Nat)} (g : Good m (h.objects E ++ R)) :
    (∃ x m', assignFrom E h t m = .ok x m' ∧ x.val = t.val ∧ x.Shaped E ∧ Good m' (x.objects E ++ R)) ∨
    ∃ m', assignFrom E h t m = .threw h m' ∧ Good m' (h.objects E ++ R) := by
  unfold assignFrom
  cases t with
  | empty b =>
    obtain ⟨m', e, g'⟩ := reset_spec h g
    dsimp only
    rw [e]
    exact .inl ⟨_, _, rfl, rfl, trivial, g'⟩
  | full b q d kids =>
    rcases emplace_spec (E := E) (h := h) (makes_copy d ht.1 ht.2) (m := m) (R := R) g with ⟨p, x, m', e, v, n, s, g'⟩ | ⟨m', e, g'⟩
    · dsimp only
      rw [e]
      exact .inl ⟨_, _, rfl, by simp [Handle.val, v], ⟨n, s⟩, g'⟩
    · dsimp only
      rw [e]
      exact .inr ⟨_, rfl, g'⟩

theorem set_self {v : Vals D} {l : Place} {x : Val D} (h : v.get l = some x) : v.set l x = v := vals_put_self _ _ _ h

theorem set_set (v : Vals D) (l : Place) (x y : Val D) : (v.set l x).set l y = v.set l y := vals_put_put _ _ _ _ _

theorem moveAssign_none {h t x y : Handle D} {m m' : Mem} (st : E.Steals) (e : moveAssign E h t m = .ok (x, y) m') : y.val = none := by
  unfold moveAssign at e
  cases t with
  | empty b =>
    rw [show (Handle.empty b).cons (.nil : Links D) = .empty b .nil from rfl] at e
    rw [moveLinks] at e
    rw [show (Handle.cons h .nil).uncons = some (h, .nil) from uncons_cons _ _] at e
    dsimp only at e
    unfold take at e
    cases hr : reset E h m with
    | none => rw [hr] at e; cases e
    | some p =>
      rw [hr] at e
      simp only [moveLinks, uncons_cons] at e
      injection e with e _
      injection e with _ e
      rw [← e]; rfl
  | full b q d src =>
    rw [show (Handle.full b q d src).cons (.nil : Links D) = .full b q d src .nil from rfl] at e
    rw [moveLinks] at e
    rw [show (Handle.cons h .nil).uncons = some (h, .nil) from uncons_cons _ _] at e
    dsimp only at e
    have hm : ∃ a, moveOne E (fun kids m => moveLinks E kids src m) h b q d src m = take E h a (.full b q d src) m := by
      unfold moveOne
      by_cases hp : E.propagateMove = true
      · rw [if_pos hp]; exact ⟨_, rfl⟩
      · have := st.resolve_right hp
        rw [if_neg hp, if_pos (by simp [Env.same, Env.key, this])]
        exact ⟨_, rfl⟩
    obtain ⟨a, hm⟩ := hm
    rw [hm] at e
    unfold take at e
    cases hr : reset E h m with
    | none => rw [hr] at e; cases e
    | some p =>
      rw [hr] at e
      simp only [moveLinks, uncons_cons] at e
      injection e with e _
      injection e with _ e
      rw [← e]; rfl

theorem step_spec (hE : E.propagateSwap = true → E.alwaysEqual = true) {s : Heap D} (h : Inv E s) (op : Op D)
    (ho : Allowed E s.vars.vals op) :
    (∃ s', step E s op = .ok s' ∧ Inv E s' ∧ Effect E s.vars.vals s'.vars.vals op) ∨
    ∃ s', step E s op = .threw s' ∧ Inv E s' ∧ Aborted E s.vars.vals s'.vars.vals op := by
  obtain ⟨F, m⟩ := s
  obtain ⟨g, hs⟩ := h
  dsimp only at g hs ho ⊢
  cases op with
  | declare a => exact .inl ⟨_, rfl, ⟨g, hs⟩, rfl⟩
  | declareCopy k =>
    obtain ⟨t, hk⟩ := look_of_get ho
    have ht := look_shaped (E := E) _ _ _ hs hk
    simp only [step, hk]
    rcases copyLinks_spec (E := E) (t.cons .nil) ((shaped_cons _ _).mpr ⟨ht, trivial⟩) g with ⟨x, m', e, v, n, s, g'⟩ | ⟨m', e, g'⟩
    · rw [e]
      dsimp only
      rw [size_cons] at n
      obtain ⟨x, r, rfl, hr⟩ := exists_cons n
      cases r with
      | nil =>
        rw [uncons_cons]
        refine .inl ⟨_, rfl, ⟨?_, ?_⟩, t.val, ?_, ?_⟩
        · rw [objects_cons]; exact g'.of (by rw [objects_cons]; simp [objects])
        · exact (shaped_cons _ _).mpr ⟨((shaped_cons _ _).mp s).1, hs⟩
        · rw [get_vals, hk]; rfl
        · rw [vals_cons]
          rw [vals_cons, vals_cons] at v
          congr 1
          generalize x.val = a at v
          generalize t.val = b at v
          rcases a with _ | ⟨_, _⟩ <;> rcases b with _ | ⟨_, _⟩ <;> simp [Vals.cons] at v ⊢
          exact ⟨v.1, v.2⟩
      | _ => simp [Links.size] at hr
    · rw [e]
      exact .inr ⟨_, rfl, ⟨g', hs⟩, rfl⟩
  | declareMove k =>
    obtain ⟨t, hk⟩ := look_of_get ho
    have ht := look_shaped (E := E) _ _ _ hs hk
    simp only [step, hk]
    obtain ⟨R, h1, h2⟩ := frame (E := E) F _ _ hk
    refine .inl ⟨_, rfl, ⟨g.of ?_, ?_⟩, t.val, ?_, ?_⟩
    · rw [objects_cons]
      exact h1.trans ((h2 (.empty t.alloc)).symm.append_left _)
    · exact (shaped_cons _ _).mpr ⟨ht, put_shaped (by trivial) _ _ _ hs⟩
    · rw [get_vals, hk]; rfl
    · rw [vals_cons, set_vals]; rfl
  | drop =>
    simp only [step]
    cases hu : F.uncons with
    | none =>
      cases F with
      | nil => exact absurd rfl ho
      | _ => simp [Links.uncons] at hu
    | some p =>
      obtain ⟨t, r⟩ := p
      have := cons_of_uncons hu
      subst this
      rw [objects_cons] at g
      obtain ⟨m', e, g'⟩ := reset_spec t g
      dsimp only
      rw [e]
      exact .inl ⟨_, rfl, ⟨g', ((shaped_cons _ _).mp hs).2⟩, t.val, vals_cons _ _⟩
  | reset l =>
    obtain ⟨t, hl⟩ := look_of_get ho
    obtain ⟨R, h1, h2⟩ := put1_spec hl hs g
    obtain ⟨m', e, g'⟩ := reset_spec t h1
    simp only [step, hl, e, put1]
    refine .inl ⟨_, rfl, h2 (.empty t.alloc) m' (by trivial) g', ?_⟩
    exact set_vals _ _ _
  | emplace l =>
    obtain ⟨t, hl⟩ := look_of_get ho
    have ht := look_shaped (E := E) _ _ _ hs hl
    obtain ⟨R, h1, h2⟩ := put1_spec hl hs g
    simp only [step, hl]
    rcases emplace_spec (E := E) (h := t) makes_new (m := m) (R := R) h1 with ⟨p, x, m', e, v, n, sh, g'⟩ | ⟨m', e, g'⟩
    · rw [e]
      refine .inl ⟨_, rfl, h2 _ m' ⟨n, sh⟩ g', ?_⟩
      show (F.put _ l.root l.path).vals = _
      rw [set_vals, Handle.val, v]
    · rw [e]
      refine .inr ⟨_, rfl, h2 t m' ht g', ?_⟩
      rw [Aborted, set_vals]
      exact set_self (by rw [get_vals, hl]; rfl)
  | write l d =>
    obtain ⟨x, hx⟩ := ho
    obtain ⟨t, hl⟩ := look_of_get (F := F) (l := l) (by rw [hx]; rfl)
    have ht := look_shaped (E := E) _ _ _ hs hl
    obtain ⟨R, h1, h2⟩ := put1_spec hl hs g
    cases t with
    | empty a => rw [get_vals, hl] at hx; cases hx
    | full a p e kids =>
      simp only [step, hl, put1]
      refine .inl ⟨_, rfl, h2 (.full a p d kids) m ht h1, e, kids.vals, ?_, ?_⟩
      · rw [get_vals, hl]; rfl
      · exact set_vals _ _ _
  | copy l k =>
    obtain ⟨hl, hk, hc⟩ := ho
    obtain ⟨x, hl⟩ := look_of_get hl
    obtain ⟨t, hk⟩ := look_of_get hk
    have hx := look_shaped (E := E) _ _ _ hs hl
    simp only [step, hl, hk]
    by_cases hlk : l = k
    · subst hlk
      rw [if_pos rfl]
      refine .inl ⟨_, rfl, ⟨g, hs⟩, x.val, by rw [get_vals, hl]; rfl, ?_⟩
      exact (set_self (by rw [get_vals, hl]; rfl)).symm
    · rw [if_neg hlk]
      obtain ⟨R, h1, h2⟩ := put1_spec hl hs g
      obtain ⟨x', m1, e, hx', g1, hv⟩ := adopt_spec hx t.alloc h1
      rw [e]
      dsimp only
      have hgl : F.vals.get l = some x.val := by rw [get_vals, hl]; rfl
      obtain ⟨t', ht1, ht2⟩ : ∃ t', (F.put x' l.root l.path).look k.root k.path = some t' ∧ t'.val = t.val := by
        rcases hc with hc | hc | hc
        · have hv : x'.val = x.val := by
            rcases hv with hv | ⟨hv1, hv2⟩
            · exact hv
            · rcases hc with hc | hc
              · rw [hc] at hv1; cases hv1
              · rw [hc] at hv2; cases hv2
          have e2 : (F.put x' l.root l.path).vals = F.vals := by
            rw [set_vals, hv]; exact set_self hgl
          have := get_vals (F.put x' l.root l.path) k
          rw [e2, get_vals, hk] at this
          cases e3 : (F.put x' l.root l.path).look k.root k.path with
          | none => rw [e3] at this; cases this
          | some t' =>
            rw [e3] at this
            injection this with this
            exact ⟨t', rfl, this.symm⟩
        · exact absurd hc hlk
        · exact ⟨t, by rw [apart_look hc]; exact hk, rfl⟩
      rw [ht1]
      dsimp only
      have i1 := h2 x' m1 hx' g1
      have hl' : (F.put x' l.root l.path).look l.root l.path = some x' := by
        have hself : ∀ (F : Links D) (i : Nat) (p : List Nat) {a b : Handle D}, F.look i p = some a → (F.put b i p).look i p = some b := by
          intro F
          induction F with
          | nil => intro i p a b h; cases i <;> cases p <;> cases h
          | empty c r ih =>
            intro i p a b h
            cases i with
            | zero =>
              cases p with
              | nil => cases b <;> rfl
              | cons j q => cases h
            | succ i => exact ih i p h
          | full c q d kids r ih1 ih2 =>
            intro i p a b h
            cases i with
            | zero =>
              cases p with
              | nil => cases b <;> rfl
              | cons j q => exact ih1 j q h
            | succ i => exact ih2 i p h
        exact hself _ _ _ hl
      obtain ⟨R', h3, h4⟩ := put1_spec hl' i1.shaped i1.good
      rcases assignFrom_spec (E := E) (h := x') (t := t') (look_shaped _ _ _ i1.shaped ht1) h3 with ⟨y, m2, e2, v, sy, g2⟩ | ⟨m2, e2, g2⟩
      · rw [e2]
        refine .inl ⟨_, rfl, h4 y m2 sy g2, t.val, by rw [get_vals, hk]; rfl, ?_⟩
        dsimp only
        rw [set_vals, set_vals, set_set, v, ht2]
      · rw [e2]
        refine .inr ⟨_, rfl, h4 x' m2 hx' g2, ?_, x'.val, ?_⟩
        · intro hst
          have hv : x'.val = x.val := by
            rcases hv with hv | ⟨hv1, hv2⟩
            · exact hv
            · rcases hst with hc | hc
              · rw [hc] at hv1; cases hv1
              · rw [hc] at hv2; cases hv2
          dsimp only
          rw [set_vals, set_vals, set_set, hv]
          exact set_self hgl
        · dsimp only
          rw [set_vals, set_vals, set_set]
  | move l k =>
    obtain ⟨hl, hk, hc⟩ := ho
    obtain ⟨x, hl⟩ := look_of_get hl
    obtain ⟨t, hk⟩ := look_of_get hk
    have hx := look_shaped (E := E) _ _ _ hs hl
    have ht := look_shaped (E := E) _ _ _ hs hk
    simp only [step, hl, hk]
    by_cases hlk : l = k
    · rw [if_pos hlk]
      exact .inl ⟨_, rfl, ⟨g, hs⟩, by rw [Effect, if_pos hlk]⟩
    · rw [if_neg hlk]
      have hc := hc.resolve_left hlk
      rw [if_neg (by simp [hc.2]), if_neg (by simp [hc.1])]
      obtain ⟨R, h1, h2⟩ := put2_spec hl hk hc hs g
      rcases moveAssign_spec hx ht h1 with ⟨y, z, m1, e, v, s1, s2, g1⟩ | ⟨y, z, m1, e, w, s1, s2, g1⟩
      · rw [e]
        refine .inl ⟨_, rfl, h2 y z m1 s1 s2 g1, ?_⟩
        rw [Effect, if_neg hlk]
        refine ⟨t.val, z.val, by rw [get_vals, hk]; rfl, ?_, fun st => moveAssign_none st e⟩
        dsimp only
        rw [set_vals, set_vals, v]
      · rw [e]
        refine .inr ⟨_, rfl, h2 y z m1 s1 s2 g1, ?_, y.val, z.val, ?_⟩
        · rintro (st | st)
          · rw [w.1] at st; cases st
          · rw [w.2] at st; cases st
        dsimp only
        rw [set_vals, set_vals]
  | swap l k =>
    obtain ⟨hl, hk, hc⟩ := ho
    obtain ⟨x, hl⟩ := look_of_get hl
    obtain ⟨t, hk⟩ := look_of_get hk
    have hx := look_shaped (E := E) _ _ _ hs hl
    have ht := look_shaped (E := E) _ _ _ hs hk
    simp only [step, hl, hk]
    by_cases hlk : l = k
    · rw [if_pos hlk]
      subst hlk
      refine .inl ⟨_, rfl, ⟨g, hs⟩, x.val, x.val, by rw [get_vals, hl]; rfl, by rw [get_vals, hl]; rfl, ?_⟩
      rw [set_set]
      exact (set_self (by rw [get_vals, hl]; rfl)).symm
    · rw [if_neg hlk]
      have hc := hc.resolve_left hlk
      rw [if_neg (by simp [hc.1, hc.2])]
      obtain ⟨R, h1, h2⟩ := put2_spec hl hk hc hs g
      rcases swapHandles_spec hE hx ht h1 with ⟨y, z, m1, e, v1, v2, s1, s2, g1⟩ | ⟨y, z, m1, e, w, s1, s2, g1⟩
      · rw [e]
        refine .inl ⟨_, rfl, h2 y z m1 s1 s2 g1, x.val, t.val, by rw [get_vals, hl]; rfl, by rw [get_vals, hk]; rfl, ?_⟩
        dsimp only
        rw [set_vals, set_vals, v1, v2]
      · rw [e]
        refine .inr ⟨_, rfl, h2 y z m1 s1 s2 g1, w, y.val, z.val, ?_⟩
        dsimp only
        rw [set_vals, set_vals]

/-! ## Without failing allocations nothing throws -/

theorem allocate_calm (hf : ∀ n, E.fails n = false) (a : Nat) (m : Mem) (x : Unit) (m' : Mem) : allocate E a m ≠ .threw x m' := by
  unfold allocate
  rw [hf]
  exact fun h => by cases h

theorem copyLinks_calm (hf : ∀ n, E.fails n = false) : ∀ (L : Links D) (m : Mem) (x : Unit) (m' : Mem), copyLinks E L m ≠ .threw x m'
  | .nil, m, x, m' => fun h => by rw [copyLinks] at h; cases h
  | .empty a rest, m, x, m' => fun h => by
    rw [copyLinks] at h
    split at h
    · cases h
    · rename_i e; exact copyLinks_calm hf _ _ _ _ e
    · cases h
  | .full a p d kids rest, m, x, m' => fun h => by
    rw [copyLinks] at h
    split at h
    · cases h
    · rename_i e; exact allocate_calm hf _ _ _ _ e
    · split at h
      · cases h
      · rename_i e; exact copyLinks_calm hf _ _ _ _ e
      · split at h
        · cases h
        · cases h
        · rename_i e; exact copyLinks_calm hf _ _ _ _ e

theorem emplace_calm (hf : ∀ n, E.fails n = false) {h : Handle D} {c : Mem → Out (D × Links D) Unit}
    (hc : ∀ m x m', c m ≠ .threw x m') (m : Mem) (x : Handle D) (m' : Mem) : emplace E h c m ≠ .threw x m' := by
  intro h
  unfold emplace at h
  split at h
  · cases h
  · rename_i e; exact allocate_calm hf _ _ _ _ e
  · split at h
    · cases h
    · rename_i e; exact hc _ _ _ e
    · split at h <;> cases h

theorem constructNew_calm (m : Mem) (x : Unit) (m' : Mem) : constructNew E m ≠ .threw x m' := fun h => by cases h

theorem constructMove_calm (d : D) (k : Links D) (m : Mem) (x : Unit) (m' : Mem) : constructMove d k m ≠ .threw x m' := fun h => by cases h

theorem constructCopy_calm (hf : ∀ n, E.fails n = false) (d : D) (k : Links D) (m : Mem) (x : Unit) (m' : Mem) :
    constructCopy E d k m ≠ .threw x m' := by
  intro h
  unfold constructCopy at h
  split at h
  · cases h
  · rename_i e; exact copyLinks_calm hf _ _ _ _ e
  · cases h

theorem take_calm (h : Handle D) (a : Nat) (s : Handle D) (m : Mem) (x : Handle D × Handle D) (m' : Mem) : take E h a s m ≠ .threw x m' := by
  intro e
  unfold take at e
  split at e
  · cases e
  · cases s <;> cases e

theorem moveOne_calm (hf : ∀ n, E.fails n = false) {below : Links D → Mem → Out (Links D × Links D) (Links D × Links D)}
    (hb : ∀ k m x m', below k m ≠ .threw x m') (h : Handle D) (b q : Nat) (d : D) (src : Links D) (m : Mem) (x : Handle D × Handle D)
    (m' : Mem) : moveOne E below h b q d src m ≠ .threw x m' := by
  intro e
  unfold moveOne at e
  split at e
  · exact take_calm _ _ _ _ _ _ e
  · split at e
    · exact take_calm _ _ _ _ _ _ e
    · split at e
      · split at e
        · cases e
        · rename_i e'; exact hb _ _ _ _ e'
        · cases e
      · split at e
        · cases e
        · rename_i e'; exact emplace_calm hf (constructMove_calm _ _) _ _ _ e'
        · cases e

theorem moveLinks_calm (hf : ∀ n, E.fails n = false) : ∀ (src dst : Links D) (m : Mem) (x : Links D × Links D) (m' : Mem),
    moveLinks E dst src m ≠ .threw x m'
  | .nil, dst, m, x, m' => fun h => by rw [moveLinks] at h; cases h
  | .empty b rest, dst, m, x, m' => fun h => by
    rw [moveLinks] at h
    split at h
    · cases h
    · split at h
      · cases h
      · rename_i e; exact take_calm _ _ _ _ _ _ e
      · split at h
        · cases h
        · rename_i e; exact moveLinks_calm hf _ _ _ _ _ e
        · cases h
  | .full b q d src rest, dst, m, x, m' => fun h => by
    rw [moveLinks] at h
    split at h
    · cases h
    · split at h
      · cases h
      · rename_i e; exact moveOne_calm hf (fun k m x m' => moveLinks_calm hf src k m x m') _ _ _ _ _ _ _ _ e
      · split at h
        · cases h
        · rename_i e; exact moveLinks_calm hf _ _ _ _ _ e
        · cases h

theorem moveAssign_calm (hf : ∀ n, E.fails n = false) (h s : Handle D) (m : Mem) (x : Handle D × Handle D) (m' : Mem) :
    moveAssign E h s m ≠ .threw x m' := by
  intro e
  unfold moveAssign at e
  split at e
  · cases e
  · rename_i e'; exact moveLinks_calm hf _ _ _ _ _ e'
  · split at e <;> cases e

theorem swapLinks_calm (hf : ∀ n, E.fails n = false) (a b : Links D) (m : Mem) (x : Links D × Links D) (m' : Mem) :
    swapLinks E a b m ≠ .threw x m' := by
  intro e
  unfold swapLinks at e
  split at e
  · cases e
  · rename_i e'; exact moveLinks_calm hf _ _ _ _ _ e'
  · split at e
    · cases e
    · rename_i e'; exact moveLinks_calm hf _ _ _ _ _ e'
    · split at e <;> cases e

theorem swapHandles_calm (hf : ∀ n, E.fails n = false) (h s : Handle D) (m : Mem) (x : Handle D × Handle D) (m' : Mem) :
    swapHandles E h s m ≠ .threw x m' := by
  intro e
  unfold swapHandles at e
  dsimp only at e
  generalize (if E.propagateSwap = true then s.alloc else h.alloc) = a at e
  generalize (if E.propagateSwap = true then h.alloc else s.alloc) = b at e
  split at e
  · cases e
  · cases h <;> cases s <;> dsimp only at e
    · cases e
    · split at e
      · cases e
      · rename_i e'; exact emplace_calm hf (constructMove_calm _ _) _ _ _ e'
      · split at e <;> cases e
    · split at e
      · cases e
      · rename_i e'; exact emplace_calm hf (constructMove_calm _ _) _ _ _ e'
      · split at e <;> cases e
    · split at e
      · cases e
      · rename_i e'; exact swapLinks_calm hf _ _ _ _ _ e'
      · cases e

theorem step_calm (hf : ∀ n, E.fails n = false) (hE : E.propagateSwap = true → E.alwaysEqual = true) {s : Heap D} (h : Inv E s) (op : Op D)
    (ho : Allowed E s.vars.vals op) (s' : Heap D) : step E s op ≠ .threw s' := by
  intro e
  cases op with
  | declare => cases e
  | declareCopy k =>
    simp only [step] at e
    split at e
    · cases e
    · split at e
      · cases e
      · rename_i e'; exact copyLinks_calm hf _ _ _ _ e'
      · split at e <;> cases e
  | declareMove k => simp only [step] at e; split at e <;> cases e
  | drop =>
    simp only [step] at e
    split at e
    · cases e
    · split at e <;> cases e
  | reset l =>
    simp only [step] at e
    split at e
    · cases e
    · split at e <;> cases e
  | emplace l =>
    simp only [step] at e
    split at e
    · cases e
    · unfold put1 at e
      split at e
      · cases e
      · rename_i e'; exact emplace_calm hf constructNew_calm _ _ _ e'
      · cases e
  | write l d => simp only [step] at e; split at e <;> cases e
  | copy l k =>
    simp only [step] at e
    split at e
    · split at e
      · cases e
      · split at e
        · cases e
        · split at e
          · cases e
          · unfold put1 at e
            split at e
            · cases e
            · rename_i e'
              unfold assignFrom at e'
              split at e'
              · exact emplace_calm hf (constructCopy_calm hf _ _) _ _ _ e'
              · split at e' <;> cases e'
            · cases e
    · cases e
  | move l k =>
    rcases step_spec hE h _ ho with ⟨_, e', _⟩ | ⟨_, _, _, _⟩
    · rw [e] at e'; cases e'
    · simp only [step] at e
      obtain ⟨_, _, hc⟩ := ho
      split at e
      · split at e
        · cases e
        · rename_i hlk
          have hc := hc.resolve_left hlk
          rw [if_neg (by simp [hc.2]), if_neg (by simp [hc.1])] at e
          unfold put2 at e
          split at e
          · cases e
          · rename_i e'; exact moveAssign_calm hf _ _ _ _ _ e'
          · cases e
      · cases e
  | swap l k =>
    simp only [step] at e
    split at e
    · split at e
      · cases e
      · split at e
        · cases e
        · unfold put2 at e
          split at e
          · cases e
          · rename_i e'; exact swapHandles_calm hf _ _ _ _ _ e'
          · cases e
    · cases e

theorem reachable_inv (hE : E.propagateSwap = true → E.alwaysEqual = true) {s : Heap D} (h : Reachable E s) : Inv E s := by
  induction h with
  | start => exact inv_start
  | ok _ ha e ih =>
    rcases step_spec hE ih _ ha with ⟨s', e', i, _⟩ | ⟨s', e', _⟩
    · rw [e] at e'; cases e'; exact i
    · rw [e] at e'; cases e'
  | threw _ ha e ih =>
    rcases step_spec hE ih _ ha with ⟨s', e', _⟩ | ⟨s', e', i, _⟩
    · rw [e] at e'; cases e'
    · rw [e] at e'; cases e'; exact i

theorem sameLinks_iff [DecidableEq D] : ∀ x y : Links D, sameLinks x y = true ↔ x.vals = y.vals
  | .nil, .nil => by simp [sameLinks]
  | .nil, .empty _ _ => by simp [sameLinks, Links.vals]
  | .nil, .full _ _ _ _ _ => by simp [sameLinks, Links.vals]
  | .empty _ _, .nil => by simp [sameLinks, Links.vals]
  | .empty _ r, .empty _ s => by simp [sameLinks, Links.vals, sameLinks_iff r s]
  | .empty _ _, .full _ _ _ _ _ => by simp [sameLinks, Links.vals]
  | .full _ _ _ _ _, .nil => by simp [sameLinks, Links.vals]
  | .full _ _ _ _ _, .empty _ _ => by simp [sameLinks, Links.vals]
  | .full _ _ d k r, .full _ _ e l s => by
    simp [sameLinks, Links.vals, sameLinks_iff k l, sameLinks_iff r s, and_assoc]

theorem look_cons (h : Handle D) (F : Links D) : (h.cons F).look 0 [] = some h := by cases h <;> rfl

theorem look_put_self (x : Handle D) : ∀ (F : Links D) (i : Nat) (p : List Nat) {h : Handle D}, F.look i p = some h →
    (F.put x i p).look i p = some x
  | .empty _ r, 0, [], _, _ => look_cons x r
  | .full _ _ _ _ r, 0, [], _, _ => look_cons x r
  | .full _ _ _ kids _, 0, i :: p, _, e => look_put_self x kids i p e
  | .empty _ r, i + 1, p, _, e => look_put_self x r i p e
  | .full _ _ _ _ r, i + 1, p, _, e => look_put_self x r i p e

theorem reset_alloc {h h' : Handle D} {m m' : Mem} (e : reset E h m = some (h', m')) : h'.alloc = h.alloc := by
  cases h with
  | empty a => simp only [reset, Option.some.injEq, Prod.mk.injEq] at e; rw [← e.1]
  | full a p d kids =>
    rw [reset] at e
    cases h1 : destroy E kids m with
    | none => rw [h1] at e; cases e
    | some m1 =>
      rw [h1] at e
      cases h2 : free E a p m1 with
      | none => simp [h2] at e
      | some m2 => simp [h2] at e; rw [← e.1]; rfl

theorem emplace_alloc {h h' : Handle D} {c : Mem → Out (D × Links D) Unit} {m m' : Mem} (e : emplace E h c m = .ok h' m') : h'.alloc = h.alloc := by
  unfold emplace at e
  split at e
  · cases e
  · cases e
  · split at e
    · cases e
    · split at e <;> cases e
    · split at e
      · cases e; rfl
      · cases e

theorem assign_alloc {h t h' : Handle D} {m m' : Mem} (e : assignFrom E h t m = .ok h' m') : h'.alloc = h.alloc := by
  unfold assignFrom at e
  split at e
  · exact emplace_alloc e
  · split at e
    · rename_i e'
      cases e
      exact reset_alloc e'
    · cases e

theorem adopt_alloc {h h' : Handle D} {b : Nat} {m m' : Mem} (e : adopt E h b m = some (h', m')) :
    h'.alloc = if E.propagateCopy then b else h.alloc := by
  unfold adopt at e
  split at e
  · rename_i hp
    rw [if_pos hp]
    split at e
    · split at e <;> cases e <;> rfl
    · cases hr : reset E h m with
      | none => rw [hr] at e; cases e
      | some r => rw [hr] at e; cases e; rfl
  · rename_i hp
    rw [if_neg hp]
    cases e
    rfl

theorem copy_alloc {s s' : Heap D} {l k : Place} {h t : Handle D} (hl : s.vars.look l.root l.path = some h)
    (hk : s.vars.look k.root k.path = some t) (hne : l ≠ k) (e : step E s (.copy l k) = .ok s') :
    ∃ h', s'.vars.look l.root l.path = some h' ∧ h'.alloc = if E.propagateCopy then t.alloc else h.alloc := by
  simp only [step, hl, hk, if_neg hne] at e
  split at e
  · cases e
  · rename_i a m ea
    split at e
    · cases e
    · rename_i t' _
      cases ef : assignFrom E a t' m with
      | bad => rw [ef] at e; cases e
      | threw _ _ => rw [ef] at e; cases e
      | ok h' m' =>
        rw [ef] at e
        cases e
        exact ⟨h', look_put_self h' _ _ _ (look_put_self a _ _ _ hl), (assign_alloc ef).trans (adopt_alloc ea)⟩

end HppProto.Ind
