import Verif.Proofs.HeaderEmit

/-! # The types a struct uses -/

namespace HppProto.Gen
open HppProto Schema

namespace Schema
variable {P : Schema}

/-- Where a message is relative to another. -/
theorem place (hP : P.Ok) {m o : Nat} (hm : m < P.messages.length) (ho : o < P.messages.length) :
    (P.msg o).file ≠ (P.msg m).file ∨ P.Within o m ∨ (P.Within m o ∧ o ≠ m) ∨
      ∃ x y, P.Siblings x y ∧ P.Within x m ∧ P.Within y o := by
  by_cases hf : (P.msg o).file = (P.msg m).file
  · right
    rcases paths_cases (P.msg m).path (P.msg o).path with h | ⟨y, q, h⟩ | ⟨x, p, h⟩ | ⟨c, x, y, p, q, h1, h2, ne⟩
    · left
      show (P.msg o).path <+: (P.msg m).path
      rw [h]
      exact List.prefix_refl _
    · refine .inr (.inl ⟨⟨_, h.symm⟩, ?_⟩)
      rintro rfl
      have := congrArg List.length h
      simp at this
    · exact .inl ⟨_, h.symm⟩
    · refine .inr (.inr ?_)
      obtain ⟨r, hr, e1⟩ := path_pkg hP m hm
      obtain ⟨s, hs, e2⟩ := path_pkg hP o ho
      rw [hf] at e2
      -- the paths part after the package
      have hc : ∃ c', c = P.package (P.msg m).file ++ c' := by
        have g1 : P.package (P.msg m).file <+: c ++ x :: p := by rw [← h1, e1]; exact ⟨_, rfl⟩
        have g2 : P.package (P.msg m).file <+: c ++ y :: q := by rw [← h2, e2]; exact ⟨_, rfl⟩
        generalize P.package (P.msg m).file = k at g1 g2
        clear h1 h2 e1 e2
        induction k generalizing c with
        | nil => exact ⟨c, rfl⟩
        | cons a k ih =>
          cases c with
          | nil =>
            obtain ⟨u, hu⟩ := g1
            obtain ⟨v, hv⟩ := g2
            simp at hu hv
            exact absurd (hu.1.symm.trans hv.1) ne
          | cons b c =>
            obtain ⟨u, hu⟩ := g1
            obtain ⟨v, hv⟩ := g2
            simp at hu hv
            obtain ⟨c', hc'⟩ := ih (c := c) ⟨u, by simpa using hu.2⟩ ⟨v, by simpa using hv.2⟩
            exact ⟨c', by rw [← hu.1, hc']; rfl⟩
      obtain ⟨c', rfl⟩ := hc
      obtain ⟨x', hx', ex, fx⟩ := enclosing hP m hm (c' ++ [x]) p (by simp) (by rw [h1]; simp)
      obtain ⟨y', hy', ey, fy⟩ := enclosing hP o ho (c' ++ [y]) q (by simp) (by rw [h2, hf]; simp)
      rw [hf] at ey
      refine ⟨x', y', sib_of_paths hP hx' hy' (by rw [fx, fy, hf]) ne (c := P.package (P.msg m).file ++ c') (by rw [ex]; simp)
        (by rw [ey]; simp), ?_, ?_⟩
      · show (P.msg x').path <+: (P.msg m).path
        rw [ex, h1]
        exact ⟨p, by simp⟩
      · show (P.msg y').path <+: (P.msg o).path
        rw [ey, h2]
        exact ⟨q, by simp⟩
  · exact .inl hf

/-- What the members of a struct use is mentioned in the schema. -/
theorem use_mentioned (hP : P.Ok) {st : State} {m i : Nat} (he : (P.msg m).entry = false) (hi : i ∈ P.fieldsOf m) {u : Use}
    (hu : u ∈ P.usesOf st i) : P.Mentions m u.kind ∧ (∀ t, u.kind = .message t → t < P.messages.length ∧ (P.msg t).entry = false) ∧
      (∀ o p, u.kind = .enum (some o) p → o < P.messages.length ∧ (P.msg o).entry = false ∧ (P.msg o).hasEnums = true) ∧
      (u.value = true → ∀ t, u.kind = .message t → (P.field i).kind = .message t ∧ byValue st (P.field i) i t = true) := by
  obtain ⟨h1, h2, h3⟩ := fieldsOf_mem.mp hi
  have en : ∀ j < P.fields.length, ∀ o p, (P.field j).kind = .enum (some o) p →
      o < P.messages.length ∧ (P.msg o).entry = false ∧ (P.msg o).hasEnums = true := by
    intro j hj o p h
    obtain ⟨_, _, a, b, c, _⟩ := hP.enum j hj (some o) p h
    exact ⟨a, b, c⟩
  unfold usesOf at hu
  cases hk : (P.field i).kind with
  | scalar => simp [hk] at hu
  | enum o p =>
    simp only [hk, List.mem_singleton] at hu
    subst hu
    refine ⟨.field h1 h2 hk (by intro t ht; cases ht), (by intro t ht; cases ht), ?_, by intro _ t ht; cases ht⟩
    intro o' p' e
    cases e
    exact en i h1 o' p hk
  | message t =>
    simp only [hk] at hu
    by_cases ht : (P.msg t).entry = true
    · rw [if_pos ht] at hu
      have htl := hP.message i h1 t hk
      obtain ⟨v, hv, hv'⟩ := hP.value t htl ht
      simp only [hv] at hu
      have vmem := fieldsOf_mem.mp (List.mem_of_getElem? hv)
      cases hkv : (P.field v).kind with
      | scalar => simp [hkv] at hu
      | enum o p =>
        simp only [hkv, List.mem_singleton] at hu
        subst hu
        refine ⟨.values h1 h2 he hk ht hv hkv, (by intro t ht; cases ht), ?_, by intro h; cases h⟩
        intro o' p' e
        cases e
        exact en v vmem.1 o' p hkv
      | message w =>
        simp only [hkv, List.mem_singleton] at hu
        subst hu
        refine ⟨.values h1 h2 he hk ht hv hkv, ?_, (by intro o p e; cases e), by intro h; cases h⟩
        intro t' e
        cases e
        exact ⟨hP.message v vmem.1 _ hkv, hv' _ hkv⟩
    · rw [if_neg ht] at hu
      have ht' : (P.msg t).entry = false := by simpa using ht
      simp only [List.mem_singleton] at hu
      subst hu
      refine ⟨.field h1 h2 hk ?_, ?_, (by intro o p e; cases e), ?_⟩
      · intro t' e; cases e; exact ⟨ht', he⟩
      · intro t' e; cases e; exact ⟨hP.message i h1 _ hk, ht'⟩
      · intro hv t' e; cases e; exact ⟨rfl, hv⟩

/-- Every type is declared before it is used. -/
theorem declared_first (hP : P.Ok) (hd : P.Direct) (hn : P.NotEnclosing) {es : List Event} (hg : P.Good [] es) :
    P.DeclaredFirst es := by
  intro a m us b e u hu
  obtain ⟨st, rfl, seen⟩ := hg a m us b e
  rw [List.nil_append] at seen
  obtain ⟨i, hi, hu⟩ := List.mem_flatMap.mp hu
  obtain ⟨men, msgs, enums, _⟩ := use_mentioned hP seen.entry hi hu
  cases hk : u.kind with
  | scalar => trivial
  | enum o p =>
    cases o with
    | none => trivial
    | some o =>
      obtain ⟨h1, h2, h3⟩ := enums o p hk
      show _ ∨ _
      rcases place hP seen.lt h1 with h | h | ⟨h, ne⟩ | ⟨x, y, hs, hx, hy⟩
      · exact .inl h
      · exact .inr (seen.enums o h h3)
      · exact .inr ((seen.inner o h1 h ne h2).2 h3)
      · have ty : P.TypeIn y u.kind := by rw [hk]; exact hy
        rcases seen.met x hx y ⟨hs, m, u.kind, hx, men, ty⟩ with c | ⟨c, _, _⟩
        · exact .inr ((c o h1 hy h2).2 h3)
        · have := hd x y m u.kind hs c hx men ty
          rw [hk] at this; cases this
  | message t =>
    obtain ⟨h1, h2⟩ := msgs t hk
    show _ ∨ _ ∨ _ ∨ _
    rcases place hP seen.lt h1 with h | h | ⟨h, ne⟩ | ⟨x, y, hs, hx, hy⟩
    · exact .inl h
    · rw [hk] at men
      exact .inr (.inl (hn m t men h))
    · exact .inr (.inr (.inr (seen.inner t h1 h ne h2).1))
    · have ty : P.TypeIn y u.kind := by rw [hk]; exact hy
      rcases seen.met x hx y ⟨hs, m, u.kind, hx, men, ty⟩ with c | ⟨c, f, _⟩
      · exact .inr (.inr (.inr (c t h1 hy h2).1))
      · have := hd x y m u.kind hs c hx men ty
        rw [hk] at this
        cases this
        exact .inr (.inr (.inl f))

/-- What an object contains is defined before, or in another file. -/
theorem contained_before (hP : P.Ok) (hp : P.Plain) {es : List Event} (hg : P.Good [] es) {a b : List Event} {m : Nat}
    {us : List Use} (e : es = a ++ .define m us :: b) {u : Use} (hu : u ∈ us) {t : Nat} (hk : u.kind = .message t)
    (hv : u.value = true) : (P.msg t).file ≠ (P.msg m).file ∨ ∃ us, .define t us ∈ a := by
  obtain ⟨st, rfl, seen⟩ := hg a m us b e
  rw [List.nil_append] at seen
  obtain ⟨i, hi, hu⟩ := List.mem_flatMap.mp hu
  obtain ⟨men, msgs, _, val⟩ := use_mentioned hP seen.entry hi hu
  obtain ⟨h1, h2⟩ := msgs t hk
  obtain ⟨g1, g2⟩ := val hv t hk
  obtain ⟨f1, f2, f3⟩ := fieldsOf_mem.mp hi
  have single : (P.field i).repeated = false := by
    unfold byValue at g2
    simp only [Bool.and_eq_true, Bool.not_eq_true'] at g2
    exact g2.1
  have notno : (P.field i).oneof = .no → st.recursive i = true → False := by
    intro ho hr
    unfold byValue at g2
    simp [ho, hr] at g2
  obtain ⟨p1, p2⟩ := hp i f1 m t f2 g1 single
  rcases place hP seen.lt h1 with h | h | ⟨h, ne⟩ | ⟨x, y, hs, hx, hy⟩
  · exact .inl h
  · exact (notno (p1 h) (seen.self i f1 m t f2 g1 seen.entry h2 h)).elim
  · exact .inr (seen.inner t h1 h ne h2).1
  · have ty : P.TypeIn y u.kind := by rw [hk]; exact hy
    rcases seen.met x hx y ⟨hs, m, u.kind, hx, men, ty⟩ with c | ⟨c, f, mk⟩
    · exact .inr (c t h1 hy h2).1
    · obtain ⟨rfl, rfl, ho⟩ := p2 x y hs hx hy c
      exact (notno ho (mk i f1 f2 g1)).elim

theorem defined_pos {es : List Event} {m : Nat} {us : List Use} (h : .define m us ∈ es) : 0 < defined es m :=
  List.countP_pos_iff.mpr ⟨_, h, by simp⟩

/-- A message defined once has one struct. -/
theorem define_once {a b : List Event} {m : Nat} {us us' : List Use} (h1 : defined (a ++ .define m us :: b) m = 1)
    (h : .define m us' ∈ a ++ .define m us :: b) : us' = us ∧ ∀ us'', .define m us'' ∉ a := by
  have e : defined (a ++ .define m us :: b) m = defined a m + 1 + defined b m := by
    simp [defined, List.countP_append]
    omega
  have na : ∀ us'', Event.define m us'' ∉ a := fun us'' h' => by have := defined_pos h'; omega
  have nb : ∀ us'', Event.define m us'' ∉ b := fun us'' h' => by have := defined_pos h'; omega
  rcases List.mem_append.mp h with h | h
  · exact absurd h (na us')
  · rcases List.mem_cons.mp h with h | h
    · cases h; exact ⟨rfl, na⟩
    · exact absurd h (nb us')

theorem finite_of (hP : P.Ok) (hp : P.Plain) {es : List Event} {file : Nat} (hg : P.Good [] es)
    (once : ∀ k < P.messages.length, (P.msg k).file = file → (P.msg k).entry = false → defined es k = 1)
    (none : ∀ k, ¬ (k < P.messages.length ∧ (P.msg k).file = file ∧ (P.msg k).entry = false) → defined es k = 0) :
    Finite es := by
  have one : ∀ m us, .define m us ∈ es → defined es m = 1 ∧ (P.msg m).file = file := by
    intro m us h
    have := defined_pos h
    by_cases hc : m < P.messages.length ∧ (P.msg m).file = file ∧ (P.msg m).entry = false
    · exact ⟨once m hc.1 hc.2.1 hc.2.2, hc.2.1⟩
    · rw [none m hc] at this; omega
  have before : ∀ n, ∀ a m us b, es = a ++ .define m us :: b → a.length ≤ n → ∀ t, ContainsDeep es m t →
      (∀ us, .define t us ∉ es) ∨ ∃ us, .define t us ∈ a := by
    intro n
    induction n with
    | zero =>
      intro a m us b e hn t hc
      have ea : a = [] := List.eq_nil_of_length_eq_zero (by omega)
      subst ea
      have step : ∀ t, Contains es m t → ∀ us, .define t us ∉ es := by
        rintro t ⟨us', hd, u, hu, hk, hv⟩ us'' hd''
        have hdm := one m us' hd
        obtain ⟨rfl, _⟩ := define_once (by rw [← e]; exact hdm.1) (by rw [← e]; exact hd)
        rcases contained_before hP hp hg e hu hk hv with h | ⟨_, h⟩
        · exact h (by rw [(one t us'' hd'').2, hdm.2])
        · cases h
      left
      cases hc with
      | one h => exact step t h
      | @more _ k _ h h' =>
        exfalso
        have : ∃ us, .define k us ∈ es := by
          cases h' with
          | one h => obtain ⟨us, h, _⟩ := h; exact ⟨us, h⟩
          | more h _ => obtain ⟨us, h, _⟩ := h; exact ⟨us, h⟩
        obtain ⟨us, hus⟩ := this
        exact step _ h us hus
    | succ n ih =>
      intro a m us b e hn t hc
      have step : ∀ t, Contains es m t → (∀ us, .define t us ∉ es) ∨ ∃ us, .define t us ∈ a := by
        rintro t ⟨us', hd, u, hu, hk, hv⟩
        have hdm := one m us' hd
        obtain ⟨rfl, _⟩ := define_once (by rw [← e]; exact hdm.1) (by rw [← e]; exact hd)
        rcases contained_before hP hp hg e hu hk hv with h | h
        · exact .inl fun us'' hd'' => h (by rw [(one t us'' hd'').2, hdm.2])
        · exact .inr h
      cases hc with
      | one h => exact step t h
      | @more _ k _ h h' =>
        rcases step k h with hk | ⟨us', hk⟩
        · exfalso
          cases h' with
          | one h => obtain ⟨us, h, _⟩ := h; exact hk us h
          | more h _ => obtain ⟨us, h, _⟩ := h; exact hk us h
        · obtain ⟨a1, a2, rfl⟩ := List.append_of_mem hk
          rcases ih a1 k us' (a2 ++ .define m us :: b) (by rw [e]; simp) (by simp at hn; omega) t h' with r | ⟨us'', r⟩
          · exact .inl r
          · exact .inr ⟨us'', by simp [r]⟩
  intro m hc
  have : ∃ us, .define m us ∈ es := by
    cases hc with
    | one h => obtain ⟨us, h, _⟩ := h; exact ⟨us, h⟩
    | more h _ => obtain ⟨us, h, _⟩ := h; exact ⟨us, h⟩
  obtain ⟨us, hus⟩ := this
  obtain ⟨a, b, e⟩ := List.append_of_mem hus
  have hdm := one m us hus
  obtain ⟨_, na⟩ := define_once (us' := us) (by rw [← e]; exact hdm.1) (by rw [← e]; exact hus)
  rcases before a.length a m us b e (Nat.le_refl _) m hc with h | ⟨us', h⟩
  · exact h us hus
  · exact na us' h

end Schema
end HppProto.Gen
