import Verif.Proofs.HeaderDeps

/-! # The order of the messages of a scope -/

namespace HppProto.Gen
open HppProto Schema

namespace Schema
variable {P : Schema}

theorem okBind {α β : Type} (a : α) (f : α → Res β) : (Res.ok a >>= f) = f a := rfl

/-- The fields of `x` with type `y` are taken for recursive. -/
def Marked (P : Schema) (st : State) (x y : Nat) : Prop :=
  ∀ i < P.fields.length, (P.field i).parent = some x → (P.field i).kind = .message y → st.recursive i = true

/-- The users of messages are known. -/
def Used (P : Schema) (st : State) : Prop :=
  ∀ d, st.usedBy d = (List.range P.fields.length).filter fun i => (P.field i).kind = .message d

/-- Only marks were added. -/
structure MarksOnly (st st' : State) : Prop where
  deps : st'.deps = st.deps
  fwd : st'.fwd = st.fwd
  used : st'.usedBy = st.usedBy
  rec' : ∀ i, st.recursive i = true → st'.recursive i = true

theorem MarksOnly.refl (st : State) : MarksOnly st st := ⟨rfl, rfl, rfl, fun _ h => h⟩

theorem MarksOnly.trans {a b c : State} (h : MarksOnly a b) (g : MarksOnly b c) : MarksOnly a c :=
  ⟨g.deps.trans h.deps, g.fwd.trans h.fwd, g.used.trans h.used, fun i hi => g.rec' i (h.rec' i hi)⟩

theorem MarksOnly.marked {a b : State} (h : MarksOnly a b) {x y : Nat} (m : P.Marked a x y) : P.Marked b x y :=
  fun i hi h1 h2 => h.rec' i (m i hi h1 h2)

theorem MarksOnly.usedBy {a b : State} (h : MarksOnly a b) (m : P.Used a) : P.Used b := by
  intro d; rw [h.used]; exact m d

theorem mark_only (st : State) (is : List Nat) : MarksOnly st (mark st is) :=
  ⟨rfl, rfl, rfl, fun i h => by simp [mark, h]⟩

/-! ## Breaking a cycle -/

theorem owners_spec : ∀ is : List Nat, (P.owners is = .ub ∧ ∃ i ∈ is, (P.field i).parent = none) ∨
    ∃ l, P.owners is = .ok l ∧ ∀ i m, (i, m) ∈ l ↔ i ∈ is ∧ (P.field i).parent = some m
  | [] => .inr ⟨[], rfl, by simp⟩
  | i :: is => by
    cases h : (P.field i).parent with
    | none => exact .inl ⟨by rw [owners, h]; rfl, i, by simp, h⟩
    | some m =>
      rcases owners_spec is with ⟨h1, j, hj, h2⟩ | ⟨l, h1, h2⟩
      · exact .inl ⟨by rw [owners, h, h1]; rfl, j, by simp [hj], h2⟩
      · refine .inr ⟨(i, m) :: l, by rw [owners, h, h1]; rfl, ?_⟩
        intro j k
        simp only [List.mem_cons, Prod.mk.injEq, h2]
        constructor
        · rintro (⟨rfl, rfl⟩ | ⟨a, b⟩)
          · exact ⟨.inl rfl, h⟩
          · exact ⟨.inr a, b⟩
        · rintro ⟨rfl | a, b⟩
          · rw [h] at b; cases b; exact .inl ⟨rfl, rfl⟩
          · exact .inr ⟨a, b⟩

/-- An extension outside of messages has this type. -/
def Outside (P : Schema) (d : Nat) : Prop := ∃ i < P.fields.length, (P.field i).parent = none ∧ (P.field i).kind = .message d

/-- What looking for a container of `d` results in. -/
def Looked (P : Schema) (st : State) (left : List Nat) (d : Nat) (r : Res (State × Option Nat)) : Prop :=
  (r = .ub ∧ P.Outside d) ∨ ∃ st1, MarksOnly st st1 ∧ (∀ x ∈ left, (P.msg x).file = (P.msg d).file → P.Marked st1 x d) ∧
    (r = .ok (st1, none) ∨ ∃ m ∈ left, (P.OnlyRepeated m d ∨ P.HasMapOf m d) ∧ r = .ok (declareAhead st1 m d, some m))

theorem used_mem {st : State} (hu : P.Used st) {d i : Nat} : i ∈ st.usedBy d ↔ i < P.fields.length ∧
    (P.field i).kind = .message d := by
  rw [hu]; simp

theorem breakRepeated_spec (st : State) (hu : P.Used st) (left : List Nat) (d : Nat) :
    P.Looked st left d (P.breakRepeated st left d) := by
  unfold breakRepeated
  rcases owners_spec (P := P) (st.usedBy d) with ⟨h, i, hi, hn⟩ | ⟨l, h, hl⟩
  · rw [h]
    have := (used_mem hu).mp hi
    exact .inl ⟨rfl, i, this.1, hn, this.2⟩
  · rw [h]
    refine .inr ?_
    simp only [okBind]
    generalize hus : l.filter (fun u => (P.msg u.2).file = (P.msg d).file && u.2 ∈ left) = us
    have memus : ∀ i m, (i, m) ∈ us ↔ (i < P.fields.length ∧ (P.field i).kind = .message d ∧ (P.field i).parent = some m) ∧
        (P.msg m).file = (P.msg d).file ∧ m ∈ left := by
      intro i m
      rw [← hus, List.mem_filter, hl, used_mem hu]
      simp [and_assoc]
    refine ⟨mark st (us.map Prod.fst), mark_only _ _, ?_, ?_⟩
    · intro x hx hf i hi h1 h2
      have : (i, x) ∈ us := (memus i x).mpr ⟨⟨hi, h2, h1⟩, hf, hx⟩
      simp only [mark, Bool.or_eq_true]
      right
      simp only [List.contains_iff_mem, List.mem_map]
      exact ⟨(i, x), this, rfl⟩
    · cases hc : P.repeatedFrom us with
      | none => exact .inl rfl
      | some m =>
        right
        have := List.find?_some hc
        simp only [Bool.and_eq_true, List.any_eq_true, List.all_eq_true, decide_eq_true_eq, Bool.or_eq_true] at this
        obtain ⟨⟨⟨⟨i, m'⟩, hu1, rfl⟩, hall⟩, _⟩ := this
        obtain ⟨a, b, c⟩ := (memus _ _).mp hu1
        refine ⟨m', c, .inl ⟨⟨i, a.1, a.2.2, a.2.1⟩, ?_⟩, rfl⟩
        intro j hj h1 h2
        rcases hall (j, m') ((memus _ _).mpr ⟨⟨hj, h2, h1⟩, b, c⟩) with h | h
        · simp at h
        · exact h

theorem breakMap_spec (hP : P.Ok) (st : State) (hu : P.Used st) (left : List Nat) (d : Nat) :
    P.Looked st left d (P.breakMap st left d) := by
  unfold breakMap
  rcases owners_spec (P := P) (st.usedBy d) with ⟨h, i, hi, hn⟩ | ⟨l, h, hl⟩
  · rw [h]
    have := (used_mem hu).mp hi
    exact .inl ⟨rfl, i, this.1, hn, this.2⟩
  · rw [h]
    refine .inr ?_
    simp only [okBind]
    generalize hus : l.filter (fun u => (P.msg u.2).file = (P.msg d).file && (u.2 ∈ left || (P.msg u.2).entry)) = us
    have memus : ∀ i m, (i, m) ∈ us ↔ (i < P.fields.length ∧ (P.field i).kind = .message d ∧ (P.field i).parent = some m) ∧
        (P.msg m).file = (P.msg d).file ∧ (m ∈ left ∨ (P.msg m).entry = true) := by
      intro i m
      rw [← hus, List.mem_filter, hl, used_mem hu]
      simp [and_assoc]
    refine ⟨mark st (us.map Prod.fst), mark_only _ _, ?_, ?_⟩
    · intro x hx hf i hi h1 h2
      have : (i, x) ∈ us := (memus i x).mpr ⟨⟨hi, h2, h1⟩, hf, .inl hx⟩
      simp only [mark, Bool.or_eq_true]
      right
      simp only [List.contains_iff_mem, List.mem_map]
      exact ⟨(i, x), this, rfl⟩
    · cases hc : P.mapFrom left us with
      | none => exact .inl rfl
      | some m =>
        right
        obtain ⟨e, he, h1⟩ := List.exists_of_findSome?_eq_some hc
        split at h1
        · rename_i h2
          simp only [Bool.and_eq_true, List.any_eq_true, decide_eq_true_eq] at h2
          obtain ⟨⟨⟨i, e'⟩, hu1, rfl⟩, hent⟩ := h2
          obtain ⟨a, b, c⟩ := (memus _ _).mp hu1
          cases hp : (P.msg e').parent with
          | none => simp [hp] at h1
          | some owner =>
            simp only [hp] at h1
            split at h1
            · rename_i hin
              cases h1
              exact ⟨_, hin, .inr ⟨e', hP.owner i a.1 e' a.2.2, hent, hp, i, a.1, a.2.2, a.2.1⟩, rfl⟩
            · cases h1
        · cases h1

/-- What looking for containers of several messages results in. -/
def LookedAll (P : Schema) (st : State) (left ds : List Nat) (r : Res (State × Option Nat)) : Prop :=
  (r = .ub ∧ ∃ d ∈ ds, P.Outside d) ∨ ∃ st1, MarksOnly st st1 ∧
    ((r = .ok (st1, none) ∧ ∀ d ∈ ds, ∀ x ∈ left, (P.msg x).file = (P.msg d).file → P.Marked st1 x d) ∨
      ∃ m ∈ left, ∃ d ∈ ds, (P.OnlyRepeated m d ∨ P.HasMapOf m d) ∧
        ((P.msg m).file = (P.msg d).file → P.Marked st1 m d) ∧ r = .ok (declareAhead st1 m d, some m))

theorem breakAny_spec {one : State → Nat → Res (State × Option Nat)} {left : List Nat}
    (h : ∀ st d, P.Used st → P.Looked st left d (one st d)) : ∀ (ds : List Nat) (st : State), P.Used st →
      P.LookedAll st left ds (breakAny one st ds)
  | [], st, _ => .inr ⟨st, .refl st, .inl ⟨rfl, by simp⟩⟩
  | d :: ds, st, hu => by
    rw [breakAny]
    rcases h st d hu with ⟨h1, h2⟩ | ⟨st1, h1, h2, h3 | ⟨m, hm, h4, h3⟩⟩
    · rw [h1]; exact .inl ⟨rfl, d, by simp, h2⟩
    · rw [h3]
      show LookedAll P st left (d :: ds) (breakAny one st1 ds)
      rcases breakAny_spec h ds st1 (h1.usedBy hu) with ⟨a, e, he, b⟩ | ⟨st2, a, b⟩
      · exact .inl ⟨a, e, by simp [he], b⟩
      · refine .inr ⟨st2, h1.trans a, ?_⟩
        rcases b with ⟨b, c⟩ | ⟨m, hm, e, he, c, g, b⟩
        · refine .inl ⟨b, ?_⟩
          intro e he x hx hf
          rcases List.mem_cons.mp he with rfl | he
          · exact a.marked (h2 x hx hf)
          · exact c e he x hx hf
        · exact .inr ⟨m, hm, e, by simp [he], c, g, b⟩
    · rw [h3]
      exact .inr ⟨st1, h1, .inr ⟨m, hm, d, by simp, h4, h2 m hm, rfl⟩⟩

theorem breakContainer_spec (hP : P.Ok) (st : State) (hu : P.Used st) (left : List Nat) :
    P.LookedAll st left left (P.breakContainer st left) := by
  unfold breakContainer
  rcases breakAny_spec (one := fun st d => P.breakRepeated st left d) (left := left)
      (fun st d hu => breakRepeated_spec st hu left d) left st hu with ⟨a, b⟩ | ⟨st1, a, ⟨b, c⟩ | ⟨m, hm, d, hd, c, g, b⟩⟩
  · rw [a]; exact .inl ⟨rfl, b⟩
  · rw [b]
    show LookedAll P st left left (breakAny (fun st d => P.breakMap st left d) st1 left)
    rcases breakAny_spec (one := fun st d => P.breakMap st left d) (left := left)
      (fun st d hu => breakMap_spec hP st hu left d) left st1 (a.usedBy hu) with ⟨a', b'⟩ | ⟨st2, a', b'⟩
    · exact .inl ⟨a', b'⟩
    · exact .inr ⟨st2, a.trans a', b'⟩
  · rw [b]
    exact .inr ⟨st1, a, .inr ⟨m, hm, d, hd, c, g, rfl⟩⟩

/-! ## The loop -/

/-- `y` is declared ahead of `x`, whose fields of that type are taken for recursive. -/
def Ahead (P : Schema) (st : State) (x y : Nat) : Prop := ¬ P.Settled y ∧ y ∈ st.fwd x ∧ P.Marked st x y

/-- The messages of one scope. -/
structure Scope (P : Schema) (ms : List Nat) : Prop where
  nodup : ms.Nodup
  lt : ∀ m ∈ ms, m < P.messages.length
  file : ∀ m ∈ ms, ∀ k ∈ ms, (P.msg m).file = (P.msg k).file
  closed : ∀ m ∈ ms, ∀ k, P.Siblings m k → k ∈ ms

/-- The invariant. -/
structure Inv (P : Schema) (ms : List Nat) (st0 st : State) (left done : List Nat) : Prop where
  perm : (left ++ done).Perm ms
  used : P.Used st
  sub : ∀ x ∈ ms, ∀ y ∈ st.deps x, P.Needs x y
  off : ∀ x, x ∉ ms → st.deps x = st0.deps x ∧ st.fwd x = st0.fwd x
  grow : ∀ i, st0.recursive i = true → st.recursive i = true
  todo : P.Lone → ∀ x ∈ left, ∀ y, P.Needs x y → y ∈ st.deps x ∨ y ∈ done ∨ P.Ahead st x y
  past : P.Lone → ∀ a x b, done = a ++ x :: b → ∀ y, P.Needs x y → y ∈ a ∨ P.Ahead st x y

theorem Inv.marks {ms : List Nat} {st0 st st' : State} {left done : List Nat} (h : Inv P ms st0 st left done)
    (g : MarksOnly st st') : Inv P ms st0 st' left done := by
  have ah : ∀ x y, P.Ahead st x y → P.Ahead st' x y := fun x y ⟨a, b, c⟩ => ⟨a, by rw [g.fwd]; exact b, g.marked c⟩
  refine ⟨h.perm, g.usedBy h.used, by rw [g.deps]; exact h.sub, by rw [g.deps, g.fwd]; exact h.off,
    fun i hi => g.rec' i (h.grow i hi), ?_, ?_⟩
  · intro hl x hx y hy
    rw [g.deps]
    rcases h.todo hl x hx y hy with r | r | r
    · exact .inl r
    · exact .inr (.inl r)
    · exact .inr (.inr (ah x y r))
  · intro hl a x b e y hy
    rcases h.past hl a x b e y hy with r | r
    · exact .inl r
    · exact .inr (ah x y r)

theorem Inv.reorder {ms : List Nat} {st0 st : State} {left left' done : List Nat} (h : Inv P ms st0 st left done)
    (g : left.Perm left') : Inv P ms st0 st left' done :=
  ⟨(g.symm.append_right done).trans h.perm, h.used, h.sub, h.off, h.grow, fun hl x hx => h.todo hl x (g.mem_iff.mpr hx), h.past⟩

theorem Inv.mem_left {ms : List Nat} {st0 st : State} {left done : List Nat} (h : Inv P ms st0 st left done) {x : Nat}
    (hx : x ∈ left) : x ∈ ms := h.perm.mem_iff.mp (by simp [hx])

theorem Inv.move {ms : List Nat} {st0 st : State} {left left' done : List Nat} {x : Nat} (h : Inv P ms st0 st left done)
    (g : left.Perm (x :: left')) (hx : P.Lone → ∀ y, P.Needs x y → y ∈ done ∨ P.Ahead st x y) :
    Inv P ms st0 st left' (done ++ [x]) := by
  have h' := h.reorder g
  refine ⟨?_, h'.used, h'.sub, h'.off, h'.grow, ?_, ?_⟩
  · refine List.Perm.trans ?_ h'.perm
    rw [← List.append_assoc]
    exact (List.perm_append_singleton x (left' ++ done))
  · intro hl z hz y hy
    rcases h'.todo hl z (by simp [hz]) y hy with r | r | r
    · exact .inl r
    · exact .inr (.inl (by simp [r]))
    · exact .inr (.inr r)
  · intro hl a z b e y hy
    rcases List.eq_nil_or_concat b with rfl | ⟨b', w, rfl⟩
    · have := List.append_inj' e rfl
      obtain ⟨rfl, e2⟩ := this
      cases e2
      exact hx hl y hy
    · rw [List.concat_eq_append, ← List.cons_append, ← List.append_assoc] at e
      have := List.append_inj' e rfl
      exact h.past hl a z b' this.1 y hy

theorem pass_spec {ms : List Nat} {st0 st : State} : ∀ (l pre done : List Nat), Inv P ms st0 st (pre ++ l) done →
    Inv P ms st0 st (pre ++ (pass st.deps l done).1) (pass st.deps l done).2 ∧
      ((pass st.deps l done).1.length < l.length ∨
        (pass st.deps l done = (l, done) ∧ ∀ m ∈ l, ∃ y ∈ st.deps m, y ∉ done))
  | [], pre, done, h => ⟨h, .inr ⟨rfl, by simp⟩⟩
  | m :: l, pre, done, h => by
    obtain ⟨h1, h2⟩ := pass_spec l (pre ++ [m]) done (by simpa using h)
    rw [pass]
    rcases hp : pass st.deps l done with ⟨l1, d1⟩
    rw [hp] at h1 h2
    simp only at h1 h2 ⊢
    split
    · rename_i hall
      simp only [List.all_eq_true, decide_eq_true_eq] at hall
      constructor
      · refine h1.move (x := m) ?_ ?_
        · rw [List.append_assoc]
          exact List.perm_middle
        · intro hl y hy
          rcases h1.todo hl m (by simp) y hy with r | r | r
          · exact .inl (hall y r)
          · exact .inl r
          · exact .inr r
      · left
        rcases h2 with h2 | ⟨h2, _⟩
        · simp; omega
        · cases h2; simp
    · rename_i hall
      constructor
      · simpa using h1
      · rcases h2 with h2 | ⟨h2, h3⟩
        · left; simp; omega
        · cases h2
          refine .inr ⟨rfl, ?_⟩
          intro k hk
          rcases List.mem_cons.mp hk with rfl | hk
          · simpa using hall
          · exact h3 k hk

/-- When nothing moves, what is left is part of a cycle. -/
theorem stall {ms : List Nat} {st0 st : State} {left done : List Nat} (hs : Scope P ms) (h : Inv P ms st0 st left done)
    (hn : ∀ m ∈ left, ∃ y ∈ st.deps m, y ∉ done) : ∀ x, P.Settled x → x ∉ left := by
  intro x hx
  induction hx with
  | intro x _ ih =>
    intro hl
    obtain ⟨y, hy, hd⟩ := hn x hl
    have need := h.sub x (h.mem_left hl) y hy
    have : y ∈ ms := hs.closed x (h.mem_left hl) y need.1
    have : y ∈ left ++ done := h.perm.mem_iff.mpr this
    rcases List.mem_append.mp this with hy' | hy'
    · exact ih y need hy'
    · exact hd hy'

theorem Inv.ahead {ms : List Nat} {st0 st : State} {left done : List Nat} {m d : Nat} (h : Inv P ms st0 st left done)
    (hm : m ∈ left) (hd : P.Lone → P.Needs m d → d ∈ done ∨ (¬ P.Settled d ∧ P.Marked st m d)) :
    Inv P ms st0 (declareAhead st m d) left done := by
  have ah : ∀ x y, P.Ahead st x y → P.Ahead (declareAhead st m d) x y := by
    rintro x y ⟨a, b, c⟩
    refine ⟨a, ?_, c⟩
    simp only [declareAhead, put]
    split
    · rename_i e; subst e
      split
      · exact b
      · exact List.mem_cons_of_mem _ b
    · exact b
  refine ⟨h.perm, h.used, ?_, ?_, h.grow, ?_, ?_⟩
  · intro x hx y hy
    apply h.sub x hx
    simp only [declareAhead, put] at hy
    split at hy
    · rename_i e; subst e; exact (List.mem_filter.mp hy).1
    · exact hy
  · intro x hx
    have : x ≠ m := fun e => hx (e ▸ h.mem_left hm)
    simp only [declareAhead, put, if_neg this]
    exact h.off x hx
  · intro hl x hx y hy
    rcases h.todo hl x hx y hy with r | r | r
    · by_cases e : x = m
      · subst e
        by_cases e' : y = d
        · subst e'
          rcases hd hl hy with r | ⟨r, r'⟩
          · exact .inr (.inl r)
          · refine .inr (.inr ⟨r, ?_, r'⟩)
            simp only [declareAhead, put, if_true]
            split <;> simp_all
        · left
          simp only [declareAhead, put, if_true]
          exact List.mem_filter.mpr ⟨r, by simpa using e'⟩
      · left
        simp only [declareAhead, put, if_neg e]
        exact r
    · exact .inr (.inl r)
    · exact .inr (.inr (ah x y r))
  · intro hl a x b e y hy
    rcases h.past hl a x b e y hy with r | r
    · exact .inl r
    · exact .inr (ah x y r)

/-- The number of dependencies. -/
def total (st : State) (ms : List Nat) : Nat := (ms.map fun m => (st.deps m).length).sum

theorem total_le {st st' : State} {ms : List Nat} (h : ∀ m ∈ ms, (st'.deps m).length ≤ (st.deps m).length) :
    total st' ms ≤ total st ms := by
  induction ms with
  | nil => exact Nat.le_refl _
  | cons a ms ih =>
    have := h a (by simp)
    have := ih fun m hm => h m (List.mem_cons_of_mem _ hm)
    simp only [total, List.map_cons, List.sum_cons] at *
    omega

theorem total_lt {st st' : State} {ms : List Nat} (h : ∀ m ∈ ms, (st'.deps m).length ≤ (st.deps m).length) {x : Nat} (hx : x ∈ ms)
    (hlt : (st'.deps x).length < (st.deps x).length) : total st' ms < total st ms := by
  induction ms with
  | nil => cases hx
  | cons a ms ih =>
    have h1 := h a (by simp)
    have h2 := total_le (ms := ms) fun m hm => h m (List.mem_cons_of_mem _ hm)
    rcases List.mem_cons.mp hx with rfl | hx
    · simp only [total, List.map_cons, List.sum_cons] at *
      omega
    · have := ih (fun m hm => h m (List.mem_cons_of_mem _ hm)) hx
      simp only [total, List.map_cons, List.sum_cons] at *
      omega

theorem ahead_le (st : State) (m d x : Nat) : ((declareAhead st m d).deps x).length ≤ (st.deps x).length := by
  simp only [declareAhead, put]
  split
  · rename_i e; subst e; exact List.length_filter_le _ _
  · exact Nat.le_refl _

theorem filter_lt {l : List Nat} {d : Nat} (h : d ∈ l) : (l.filter (· ≠ d)).length < l.length := by
  apply List.length_filter_lt_length_iff_exists.mpr
  exact ⟨d, h, by simp⟩

theorem ahead_lt (st : State) (m d : Nat) (h : d ∈ st.deps m) : ((declareAhead st m d).deps m).length < (st.deps m).length := by
  simp only [declareAhead, put, if_true]
  exact filter_lt h

theorem perm_filter {l : List Nat} (hn : l.Nodup) {m : Nat} (h : m ∈ l) : l.Perm (m :: l.filter (· ≠ m)) := by
  have e : l.erase m = l.filter (· ≠ m) := by
    rw [hn.erase_eq_filter]
    congr 1
    funext a
    by_cases h : a = m <;> simp [h]
  rw [← e]
  exact List.perm_cons_erase h

theorem insertByName_perm (m : Nat) : ∀ l : List Nat, (P.insertByName m l).Perm (m :: l)
  | [] => .refl _
  | k :: t => by
    rw [insertByName]
    split
    · exact .refl _
    · exact ((insertByName_perm m t).cons k).trans (.swap m k t)

theorem byName_perm : ∀ l : List Nat, (P.byName l).Perm l
  | [] => .refl _
  | m :: t => (insertByName_perm m _).trans ((byName_perm t).cons m)

theorem orderLoop_spec (hP : P.Ok) {ms : List Nat} (hs : Scope P ms) (st0 : State) : ∀ (fuel : Nat) (st : State)
    (left done : List Nat), Inv P ms st0 st left done → left.length + total st ms < fuel →
    (P.orderLoop fuel st left done = .ub ∧ ¬ P.ExtensionsSettled) ∨
      ∃ o st', P.orderLoop fuel st left done = .ok (o, st') ∧ Inv P ms st0 st' [] o
  | 0, _, _, _, _, hf => absurd hf (Nat.not_lt_zero _)
  | fuel + 1, st, left, done, h, hf => by
    rw [orderLoop]
    split
    · rename_i e
      subst e
      exact .inr ⟨done, st, rfl, h⟩
    · rename_i hne
      obtain ⟨h1, h2⟩ := pass_spec (P := P) left [] done h
      rcases hp : pass st.deps left done with ⟨left', done'⟩
      rw [hp] at h1 h2
      simp only [List.nil_append] at h1 h2 ⊢
      split
      · rename_i hlt
        exact orderLoop_spec hP hs st0 fuel st left' done' h1 (by omega)
      · rename_i hlt
        rcases h2 with h2 | ⟨h2, hstall⟩
        · exact absurd h2 hlt
        have unsettled := stall hs h hstall
        rcases breakContainer_spec hP st h.used left with ⟨a, d, hd, i, hi, b, c⟩ | ⟨st1, a, ⟨b, c⟩ | ⟨m, hm, d, hd, c, g, b⟩⟩
        · rw [a]
          exact .inl ⟨rfl, fun hx => unsettled d (hx i hi b d c) hd⟩
        · rw [b]
          simp only [okBind]
          have hlast : P.byName left ≠ [] := by
            intro e
            have := (byName_perm (P := P) left).length_eq
            rw [e] at this
            exact hne (List.eq_nil_of_length_eq_zero this.symm)
          obtain ⟨x, hx⟩ : ∃ x, (P.byName left).getLast? = some x :=
            ⟨_, List.getLast?_eq_some_getLast hlast⟩
          rw [hx]
          have xl : x ∈ left := (byName_perm (P := P) left).mem_iff.mp (List.mem_of_getLast? hx)
          have i1 := h.marks a
          have dx : st1.deps x ≠ [] := by
            obtain ⟨y, hy, _⟩ := hstall x xl
            rw [a.deps]
            exact List.ne_nil_of_mem hy
          obtain ⟨d, hd⟩ : ∃ d, (st1.deps x).min? = some d := by
            cases hmin : (st1.deps x).min? with
            | none => exact absurd (List.min?_eq_none_iff.mp hmin) dx
            | some d => exact ⟨d, rfl⟩
          have dmem : d ∈ st1.deps x := List.min?_mem hd
          have hb : P.breakCycle st1 x = .ok (P.markNamed (declareAhead st1 x d) x d) := by
            rw [breakCycle, hd]
          simp only [hb, okBind]
          have i2 := (i1.ahead xl (d := d) (by
            intro _ hn
            have dm : d ∈ left ++ done := h.perm.mem_iff.mpr (hs.closed x (h.mem_left xl) d hn.1)
            rcases List.mem_append.mp dm with dl | dd
            · exact .inr ⟨fun hset => unsettled d hset dl, c d dl x xl (hs.file x (h.mem_left xl) d (h.mem_left dl))⟩
            · exact .inl dd)).marks (mark_only _ _ : MarksOnly _ (P.markNamed (declareAhead st1 x d) x d))
          have i3 := i2.reorder (byName_perm (P := P) left).symm
          apply orderLoop_spec hP hs st0 fuel _ _ done i3
          have e1 : total (P.markNamed (declareAhead st1 x d) x d) ms < total st ms := by
            apply total_lt (x := x)
            · intro m _
              have := ahead_le st1 x d m
              rw [a.deps] at this
              exact this
            · exact h.mem_left xl
            · have := ahead_lt st1 x d dmem
              rw [a.deps] at this
              exact this
          have := (byName_perm (P := P) left).length_eq
          change _ + total (P.markNamed (declareAhead st1 x d) x d) ms < fuel
          omega
        · rw [b]
          simp only [okBind]
          have i1 := h.marks a
          have dl : ¬ P.Settled d := fun hset => unsettled d hset hd
          have hmf : (P.msg m).file = (P.msg d).file := hs.file m (h.mem_left hm) d (h.mem_left hd)
          have i2 := i1.ahead hm (d := d) (fun _ _ => .inr ⟨dl, g hmf⟩)
          have nd : (left ++ done).Nodup := h.perm.nodup_iff.mpr hs.nodup
          have ndl : left.Nodup := (List.nodup_append.mp nd).1
          have i3 := i2.move (x := m) (perm_filter ndl hm) (by
            intro hlone y hy
            by_cases e : y = d
            · subst e
              refine .inr ⟨dl, ?_, g hmf⟩
              simp only [declareAhead, put, if_true]
              split <;> simp_all
            · have set := hlone m d dl c y hy e
              have ym : y ∈ left ++ done := h.perm.mem_iff.mpr (hs.closed m (h.mem_left hm) y hy.1)
              rcases List.mem_append.mp ym with yl | yd
              · exact absurd yl (unsettled y set)
              · exact .inl yd)
          apply orderLoop_spec hP hs st0 fuel _ _ _ i3
          have e1 : total (declareAhead st1 m d) ms ≤ total st ms := by
            apply total_le
            intro k _
            have := ahead_le st1 m d k
            rw [a.deps] at this
            exact this
          have := filter_lt hm
          omega

theorem order_spec (hP : P.Ok) {ms : List Nat} (hs : Scope P ms) (st : State) (hu : P.Used st)
    (hd : ∀ x ∈ ms, ∀ y, y ∈ st.deps x ↔ P.Needs x y) :
    (P.order st ms = .ub ∧ ¬ P.ExtensionsSettled) ∨ ∃ o st', P.order st ms = .ok (o, st') ∧ Inv P ms st st' [] o := by
  unfold order
  apply orderLoop_spec hP hs st
  · refine ⟨?_, hu, fun x hx y => (hd x hx y).mp, fun _ _ => ⟨rfl, rfl⟩, fun _ h => h, ?_, ?_⟩
    · have := List.filter_append_perm (fun m => decide (st.deps m ≠ [])) ms
      refine List.Perm.trans (List.Perm.append_left _ (List.Perm.of_eq ?_)) this
      apply List.filter_congr
      intro x _
      by_cases h : st.deps x = [] <;> simp [h]
    · intro _ x hx y hy
      exact .inl ((hd x (List.mem_filter.mp hx).1 y).mpr hy)
    · intro _ a x b e y hy
      have : x ∈ ms.filter fun m => decide (st.deps m = []) := by rw [e]; simp
      obtain ⟨h1, h2⟩ := List.mem_filter.mp this
      have := (hd x h1 y).mpr hy
      rw [of_decide_eq_true h2] at this
      cases this
  · unfold turns
    have : (ms.filter fun m => decide (st.deps m ≠ [])).length ≤ ms.length := List.length_filter_le _ _
    unfold total
    omega

end Schema
end HppProto.Gen
