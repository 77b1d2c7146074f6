import Verif.Spec.IndirectValue
/-! Operations on `indirect` keep memory owned once, and agree with the reference. -/
namespace HppProto.Box
open HppProto.Box.Spec

variable {V : Type} {E : Env V}

structure Holds (E : Env V) (s : St V) (r : Ref V) : Prop where
  back : ∀ i x p, s.vars i = some x → x.obj = some p → ∃ v, s.heap p = some (E.key x.alloc, v)
  inj : ∀ i j x y p, s.vars i = some x → s.vars j = some y → x.obj = some p → y.obj = some p → i = j
  owned : ∀ p b, s.heap p = some b → ∃ i x, s.vars i = some x ∧ x.obj = some p
  fresh : ∀ p, s.tick ≤ p → s.heap p = none
  dead : ∀ i, s.vars i = none ↔ r.vars i = none
  val : ∀ i v, r.vars i = some (some v) → ∃ x p k, s.vars i = some x ∧ x.obj = some p ∧ s.heap p = some (k, v)
  seen : s.seen = r.seen

theorem holds_start : Holds E (St.start (V := V)) Ref.start := by
  constructor <;> simp [St.start, Ref.start]

theorem holds_tick {s : St V} {r : Ref V} (h : Holds E s r) (n : Nat) : Holds E { s with tick := s.tick + n } r := by
  obtain ⟨h1, h2, h3, h4, h5, h6, h7⟩ := h
  exact ⟨h1, h2, h3, fun p hp => h4 p (Nat.le_trans (Nat.le_add_right _ _) hp), h5, h6, h7⟩

theorem holds_forget {s : St V} {r : Ref V} (h : Holds E s r) {i : Nat} (hi : s.vars i ≠ none) : Holds E s (r.set i none) := by
  obtain ⟨h1, h2, h3, h4, h5, h6, h7⟩ := h
  refine ⟨h1, h2, h3, h4, ?_, ?_, h7⟩
  · intro j; simp only [Ref.set, upd]; grind
  · intro j v hj; simp only [Ref.set, upd] at hj; grind

theorem holds_put {s : St V} {r : Ref V} (h : Holds E s r) {i p : Nat} {x : Var} (hi : s.vars i = some x) (hp : x.obj = some p)
    (v : V) : Holds E (s.put p v) (r.set i (some v)) := by
  obtain ⟨h1, h2, h3, h4, h5, h6, h7⟩ := h
  refine ⟨?_, h2, ?_, ?_, ?_, ?_, h7⟩
  · intro j y q hj hq; obtain ⟨w, hw⟩ := h1 j y q hj hq; simp only [St.put, upd]; grind
  · intro q b hq; simp only [St.put, upd] at hq ⊢; grind
  · intro q hq; have := h4 q hq; simp only [St.put, upd]; grind
  · intro j; have := h5 j; simp only [Ref.set, St.put, upd]; grind
  · intro j w hj
    simp only [Ref.set, upd] at hj
    by_cases hji : j = i
    · obtain ⟨u, hu⟩ := h1 i x p hi hp
      simp only [hji, if_true, Option.some.injEq] at hj
      exact ⟨x, p, E.key x.alloc, hji ▸ hi, hp, by simp [St.put, upd, hu, hj]⟩
    · simp only [hji, if_false] at hj
      obtain ⟨y, q, k, hy, hq, hk⟩ := h6 j w hj
      refine ⟨y, q, k, hy, hq, ?_⟩
      have : q ≠ p := fun he => hji (h2 j i y x p hy hi (he ▸ hq) hp)
      simp [St.put, upd, this, hk]

/-- The variable has no object: not alive, or a null pointer. -/
def Empty (s : St V) (i : Nat) : Prop := ∀ x, s.vars i = some x → x.obj = none

theorem holds_new {s : St V} {r : Ref V} (h : Holds E s r) {i a : Nat} (hi : Empty s i) (v : V) :
    Holds E ({ s with heap := upd s.heap s.tick (some (E.key a, v)), tick := s.tick + 2 }.set i ⟨a, some s.tick⟩)
      (r.set i (some v)) := by
  obtain ⟨h1, h2, h3, h4, h5, h6, h7⟩ := h
  have hf : ∀ j y, s.vars j = some y → y.obj ≠ some s.tick := by
    intro j y hj hy; obtain ⟨w, hw⟩ := h1 j y _ hj hy; rw [h4 _ (Nat.le_refl _)] at hw; cases hw
  refine ⟨?_, ?_, ?_, ?_, ?_, ?_, h7⟩
  · intro j y q hj hq
    simp only [St.set, upd] at hj ⊢
    by_cases e : j = i
    · simp only [e, if_true, Option.some.injEq] at hj
      subst hj
      exact ⟨v, by simp [← show s.tick = q from Option.some.inj hq]⟩
    · simp only [e, if_false] at hj
      have : q ≠ s.tick := fun he => hf j y hj (he ▸ hq)
      simp only [this, if_false]
      exact h1 j y q hj hq
  · intro j l y z q hj hl hy hz; simp only [St.set, upd] at hj hl; grind
  · intro q b hq
    simp only [St.set, upd] at hq ⊢
    by_cases hqt : q = s.tick
    · exact ⟨i, ⟨a, some s.tick⟩, by simp, by simp [hqt]⟩
    · simp only [hqt, if_false] at hq
      obtain ⟨j, y, hj, hy⟩ := h3 q b hq
      exact ⟨j, y, by have : j ≠ i := (fun he => by have := hi y (he ▸ hj); rw [hy] at this; cases this)
                      simp [this, hj], hy⟩
  · intro q hq; simp only [St.set, upd] at hq ⊢; have := h4 q; grind
  · intro j; have := h5 j; simp only [Ref.set, St.set, upd]; grind
  · intro j w hj
    simp only [Ref.set, St.set, upd] at hj ⊢
    by_cases hji : j = i
    · simp only [hji, if_true, Option.some.injEq] at hj ⊢
      exact ⟨_, s.tick, E.key a, rfl, rfl, by simp [hj]⟩
    · simp only [hji, if_false] at hj ⊢
      obtain ⟨y, q, k, hy, hq, hk⟩ := h6 j w hj
      exact ⟨y, q, k, hy, hq, by have : q ≠ s.tick := (fun he => hf j y hy (he ▸ hq))
                                 simp [this, hk]⟩

theorem holds_free {s : St V} {r : Ref V} (h : Holds E s r) {i : Nat} {x : Var} (hi : s.vars i = some x) :
    ∃ s', destroy E x s = some s' ∧ s'.vars = s.vars ∧ s'.tick = s.tick ∧
      (∀ j y q, j ≠ i → s.vars j = some y → y.obj = some q → s'.heap q = s.heap q) ∧
      ∀ a, Holds E (s'.set i ⟨a, none⟩) (r.set i none) := by
  obtain ⟨h1, h2, h3, h4, h5, h6, h7⟩ := h
  cases hp : x.obj with
  | none =>
    refine ⟨s, by simp [destroy, hp], rfl, rfl, fun _ _ _ _ _ _ => rfl, fun a => ⟨?_, ?_, ?_, h4, ?_, ?_, h7⟩⟩
    · intro j y q hj hq; simp only [St.set, upd] at hj ⊢; grind
    · intro j l y z q hj hl hy hz; simp only [St.set, upd] at hj hl; grind
    · intro q b hq; obtain ⟨j, y, hj, hy⟩ := h3 q b hq; refine ⟨j, y, ?_, hy⟩; simp only [St.set, upd]; grind
    · intro j; have := h5 j; simp only [Ref.set, St.set, upd]; grind
    · intro j w hj; simp only [Ref.set, St.set, upd] at hj ⊢; have := h6 j w; grind
  | some p =>
    obtain ⟨u, hu⟩ := h1 i x p hi hp
    refine ⟨{ s with heap := upd s.heap p none }, by simp [destroy, hp, hu], rfl, rfl, ?_, fun a => ⟨?_, ?_, ?_, ?_, ?_, ?_, h7⟩⟩
    · intro j y q hji hj hq
      have : q ≠ p := fun he => hji (h2 j i y x p hj hi (he ▸ hq) hp)
      simp [upd, this]
    · intro j y q hj hq
      simp only [St.set, upd] at hj ⊢
      by_cases hji : j = i
      · simp only [hji, if_true, Option.some.injEq] at hj; subst hj; cases hq
      · simp only [hji, if_false] at hj
        have : q ≠ p := fun he => hji (h2 j i y x p hj hi (he ▸ hq) hp)
        simp only [this, if_false]
        exact h1 j y q hj hq
    · intro j l y z q hj hl hy hz; simp only [St.set, upd] at hj hl; grind
    · intro q b hq
      simp only [St.set, upd] at hq ⊢
      by_cases hqp : q = p
      · simp [hqp] at hq
      · simp only [hqp, if_false] at hq
        obtain ⟨j, y, hj, hy⟩ := h3 q b hq
        exact ⟨j, y, by have : j ≠ i := (fun he => by rw [he, hi] at hj; cases hj; rw [hp] at hy; cases hy; exact hqp rfl)
                        simp [this, hj], hy⟩
    · intro q hq; have := h4 q hq; simp only [St.set, upd]; grind
    · intro j; have := h5 j; simp only [Ref.set, St.set, upd]; grind
    · intro j w hj
      simp only [Ref.set, St.set, upd] at hj ⊢
      by_cases hji : j = i
      · simp [hji] at hj
      · simp only [hji, if_false] at hj ⊢
        obtain ⟨y, q, k, hy, hq, hk⟩ := h6 j w hj
        exact ⟨y, q, k, hy, hq, by have : q ≠ p := (fun he => hji (h2 j i y x p hy hi (he ▸ hq) hp))
                                   simp [this, hk]⟩

/-- Two variables exchange their objects; a variable without an object may also be new. -/
theorem holds_exchange {s : St V} {r : Ref V} (h : Holds E s r) {i j : Nat} (hij : i ≠ j) {y : Var} (hj : s.vars j = some y)
    {z w : Option V} (hz : r.vars j = some z) {o : Option Nat} {a b : Nat} (ha : y.obj ≠ none → E.key a = E.key y.alloc)
    (hb : o ≠ none → ∃ x, s.vars i = some x ∧ x.obj = o ∧ E.key b = E.key x.alloc)
    (hn : o = none → Empty s i) (hw : ∀ v, w = some v → r.vars i = some (some v)) :
    Holds E ((s.set i ⟨a, y.obj⟩).set j ⟨b, o⟩) ((r.set i z).set j w) := by
  obtain ⟨h1, h2, h3, h4, h5, h6, h7⟩ := h
  have hji : ¬ j = i := fun e => hij e.symm
  refine ⟨?_, ?_, ?_, h4, ?_, ?_, h7⟩
  · intro l c q hl hq
    simp only [St.set, upd] at hl ⊢
    by_cases e : l = j
    · simp only [e, if_true, Option.some.injEq] at hl
      subst hl
      obtain ⟨x, hx, hxo, hk⟩ := hb (by rw [show o = some q from hq]; simp)
      obtain ⟨v, hv⟩ := h1 i x q hx (hxo.trans hq)
      exact ⟨v, by rw [hv, hk]⟩
    · by_cases e' : l = i
      · simp only [e', hij, if_true, if_false, Option.some.injEq] at hl
        subst hl
        obtain ⟨v, hv⟩ := h1 j y q hj hq
        exact ⟨v, by rw [hv, ← ha (by rw [show y.obj = some q from hq]; simp)]⟩
      · simp only [e, e', if_false] at hl
        exact h1 l c q hl hq
  · intro l m c d q hl hm hc hd
    simp only [St.set, upd] at hl hm
    have hb' : o = some q → ∃ x, s.vars i = some x ∧ x.obj = some q := by
      intro ho; obtain ⟨x, hx, hxo, _⟩ := hb (by rw [ho]; simp); exact ⟨x, hx, hxo.trans ho⟩
    grind
  · intro q b' hq
    obtain ⟨l, c, hl, hc⟩ := h3 q b' hq
    by_cases e : l = j
    · refine ⟨i, ⟨a, y.obj⟩, by simp [St.set, upd, hij], ?_⟩
      rw [e, hj] at hl; cases hl; exact hc
    · by_cases e' : l = i
      · subst e'
        cases ho : o with
        | none => have := hn ho c hl; rw [hc] at this; cases this
        | some q' =>
          obtain ⟨x, hx, hxo, _⟩ := hb (by rw [ho]; simp)
          rw [hl] at hx; cases hx
          exact ⟨j, ⟨b, some q'⟩, by simp [St.set, upd], by simpa [ho, hc] using hxo.symm⟩
      · exact ⟨l, c, by simpa [St.set, upd, e, e'] using hl, hc⟩
  · intro l; have := h5 l; simp only [Ref.set, St.set, upd]; grind
  · intro l v hl
    simp only [Ref.set, St.set, upd] at hl ⊢
    by_cases e : l = j
    · simp only [e, if_true, Option.some.injEq] at hl ⊢
      obtain ⟨x, p, k, hx, hp, hk⟩ := h6 i v (hw v hl)
      cases ho : o with
      | none => have := hn ho x hx; rw [hp] at this; cases this
      | some q' =>
        obtain ⟨x', hx', hxo, _⟩ := hb (by rw [ho]; simp)
        rw [hx] at hx'; cases hx'
        exact ⟨_, p, k, rfl, by simpa [ho, hp] using hxo.symm, hk⟩
    · by_cases e' : l = i
      · simp only [e', hij, if_true, if_false, Option.some.injEq] at hl ⊢
        obtain ⟨y', p, k, hy', hp, hk⟩ := h6 j v (by rw [hz, hl])
        rw [hj] at hy'; cases hy'
        exact ⟨_, p, k, rfl, hp, hk⟩
      · simp only [e, e', if_false] at hl ⊢
        exact h6 l v hl

theorem holds_alloc {s : St V} {r : Ref V} (h : Holds E s r) {i a : Nat} {x : Var} (hi : s.vars i = some x)
    (ha : x.obj ≠ none → E.key a = E.key x.alloc) : Holds E (s.set i ⟨a, x.obj⟩) r := by
  obtain ⟨h1, h2, h3, h4, h5, h6, h7⟩ := h
  refine ⟨?_, ?_, ?_, h4, ?_, ?_, h7⟩
  · intro j y q hj hq
    simp only [St.set, upd] at hj ⊢
    by_cases e : j = i
    · simp only [e, if_true, Option.some.injEq] at hj
      subst hj
      obtain ⟨v, hv⟩ := h1 i x q hi hq
      exact ⟨v, by rw [hv, ← ha (by rw [show x.obj = some q from hq]; simp)]⟩
    · simp only [e, if_false] at hj
      exact h1 j y q hj hq
  · intro l m c d q hl hm hc hd; simp only [St.set, upd] at hl hm; grind
  · intro q b hq
    obtain ⟨l, c, hl, hc⟩ := h3 q b hq
    by_cases e : l = i
    · subst e; rw [hi] at hl; cases hl; exact ⟨l, ⟨a, x.obj⟩, by simp [St.set, upd], hc⟩
    · exact ⟨l, c, by simpa [St.set, upd, e] using hl, hc⟩
  · intro l; have := h5 l; simp only [St.set, upd]; grind
  · intro l v hl
    obtain ⟨y, p, k, hy, hp, hk⟩ := h6 l v hl
    by_cases e : l = i
    · subst e; rw [hi] at hy; cases hy; exact ⟨⟨a, x.obj⟩, p, k, by simp [St.set, upd], hp, hk⟩
    · exact ⟨y, p, k, by simpa [St.set, upd, e] using hy, hp, hk⟩

/-- What an operation returns or throws agrees with the reference, and it is not undefined. -/
def Good (E : Env V) (o : Out V) (r : Bool → Option (Ref V)) : Prop :=
  match o with
  | .done s => ∃ r', r false = some r' ∧ Holds E s r'
  | .threw s => ∃ r', r true = some r' ∧ Holds E s r'
  | .ub => False

theorem good_mono {o : Out V} {f g : Bool → Option (Ref V)} (h : Good E o f) (hfg : ∀ b, f b = g b) : Good E o g := by
  rw [← show f = g from funext hfg]; exact h

/-- Construction: nothing changes if it throws; afterwards the source may lose its value. -/
theorem good_fill {s : St V} {r : Ref V} (h : Holds E s r) {i a : Nat} (hi : Empty s i) (v : V) {k : St V → St V}
    {g : Bool → Option (Ref V)} (ht : ∀ s', Holds E s' r → (∀ j, s'.vars j = s.vars j) → ∃ r', g true = some r' ∧ Holds E s' r')
    (hd : ∀ s', Holds E s' (r.set i (some v)) → (∀ j, j ≠ i → s'.vars j = s.vars j) → ∃ r', g false = some r' ∧ Holds E (k s') r') :
    Good E (fill E i a v s k) g := by
  unfold fill create
  by_cases h1 : E.fails s.tick = true
  · simp only [h1, if_true, Good]
    exact ht _ (holds_tick h 1) (fun _ => rfl)
  · by_cases h2 : E.fails (s.tick + 1) = true
    · simp only [h1, h2, if_true, Good]
      exact ht _ (holds_tick h 2) (fun _ => rfl)
    · simp only [h1, h2, Good]
      exact hd _ (holds_new h hi v) (fun j hj => by simp [St.set, upd, hj])

theorem good_assign {s : St V} {r : Ref V} (h : Holds E s r) {i p : Nat} {x : Var} (hi : s.vars i = some x) (hp : x.obj = some p)
    (old v : V) : Good E (assignAt E p old v s) (fun t => some (r.set i (if t then none else some v))) := by
  unfold assignAt
  have h0 := holds_tick h 1
  by_cases h1 : E.fails s.tick = true
  · simp only [h1, if_true, Good]
    refine ⟨_, rfl, ?_⟩
    have := holds_forget (holds_put h0 (i := i) hi hp (E.torn old v)) (i := i) (by simp [St.put, hi])
    have e : (r.set i (some (E.torn old v))).set i none = r.set i none := by
      simp only [Ref.set, Ref.mk.injEq, and_true]; funext j; simp only [upd]; split <;> rfl
    rw [e] at this
    exact this
  · simp only [h1, Good]
    exact ⟨_, rfl, holds_put h0 (i := i) hi hp v⟩

theorem read_of {s : St V} {x : Var} {p k : Nat} {v : V} (hp : x.obj = some p) (hk : s.heap p = some (k, v)) :
    s.read x = some v := by simp [St.read, hp, hk]

theorem ref_set_set (r : Ref V) (i : Nat) (x y : Option V) : (r.set i x).set i y = r.set i y := by
  simp only [Ref.set, Ref.mk.injEq, and_true]; funext j; simp only [upd]; split <;> rfl

theorem st_set_set (s : St V) (i : Nat) (x y : Var) : (s.set i x).set i y = s.set i y := by
  simp only [St.set, St.mk.injEq, and_true]; funext j; simp only [upd]; split <;> rfl

theorem set_same {s : St V} {i : Nat} {x : Var} (h : s.vars i = some x) : s.set i x = s := by
  cases s
  simp only [St.set, St.mk.injEq, and_true]
  funext j; simp only [upd]; split
  · next e => subst e; exact h.symm
  · rfl

theorem same_iff {a b : Nat} : E.same a b = true ↔ E.key a = E.key b := by simp [Env.same]

theorem same_of_always (h : E.alwaysEqual = true) (a b : Nat) : E.key a = E.key b := by simp [Env.key, h]

theorem ref_live {s : St V} {r : Ref V} (h : Holds E s r) {i : Nat} {z : Option V} (hz : r.vars i = some z) :
    ∃ x, s.vars i = some x := by
  cases hx : s.vars i with
  | none => rw [(h.dead i).mp hx] at hz; cases hz
  | some x => exact ⟨x, rfl⟩

theorem good_copyAssign {s : St V} {r : Ref V} (h : Holds E s r) {i j : Nat} (hij : i ≠ j) {x y : Var} (hi : s.vars i = some x)
    (hj : s.vars j = some y) {v : V} (hv : r.vars j = some (some v)) :
    Good E (copyAssign E i x y s) (fun t => some (r.set i (if t then none else some v))) := by
  obtain ⟨y', q, k, hy', hq, hk⟩ := h.val j v hv
  rw [hj] at hy'; cases hy'
  unfold copyAssign
  by_cases hc : (E.propagateCopy && !E.same x.alloc y.alloc) = true
  · rw [if_pos hc]
    obtain ⟨s', hs', hvars, -, hheap, hall⟩ := holds_free h hi
    simp only [hs']
    have hr : (s'.set i ⟨y.alloc, none⟩).read y = some v :=
      read_of hq (by show s'.heap q = _; rw [hheap j y q (fun e => hij e.symm) hj hq]; exact hk)
    simp only [hr]
    refine good_fill (hall y.alloc) (fun z hz => ?_) v (fun s'' hs'' _ => ⟨_, rfl, by simpa using hs''⟩) (fun s'' hs'' _ => ⟨_, rfl, ?_⟩)
    · simp only [St.set, upd, if_true, Option.some.injEq] at hz; subst hz; rfl
    · rw [ref_set_set] at hs''; simpa using hs''
  · rw [if_neg hc]
    have hkey : E.key (if E.propagateCopy then y.alloc else x.alloc) = E.key x.alloc := by
      by_cases hp : E.propagateCopy = true
      · simp only [hp, Bool.true_and, Bool.not_eq_true', Bool.not_eq_false] at hc
        simp only [hp, if_true]; exact (same_iff.mp hc).symm
      · simp [hp]
    generalize (if E.propagateCopy then y.alloc else x.alloc) = a at hkey ⊢
    have h' := holds_alloc h hi (fun _ => hkey)
    have hi' : (s.set i ⟨a, x.obj⟩).vars i = some ⟨a, x.obj⟩ := by simp [St.set, upd]
    simp only [read_of (s := s.set i ⟨a, x.obj⟩) hq hk]
    cases hx : x.obj with
    | none =>
      simp only [hx] at h' hi'
      refine good_fill h' (fun z hz => by rw [hi'] at hz; cases hz; rfl) v
        (fun s'' hs'' hvv => ⟨_, rfl, by simpa using holds_forget hs'' (i := i) (by rw [hvv, hi']; simp)⟩)
        (fun s'' hs'' _ => ⟨_, rfl, by simpa using hs''⟩)
    | some p =>
      obtain ⟨w, hw⟩ := h.back i x p hi hx
      simp only [hx] at h' hi'
      simp only [read_of (s := s.set i ⟨a, some p⟩) hx hw]
      exact good_assign h' hi' rfl w v

theorem good_moveAssign {s : St V} {r : Ref V} (h : Holds E s r) {i j : Nat} (hij : i ≠ j) {x y : Var} (hi : s.vars i = some x)
    (hj : s.vars j = some y) {z : Option V} (hz : r.vars j = some z) (hm : E.alwaysEqual = true ∨ z ≠ none) :
    Good E (moveAssign E i j x y s) (fun t => some (if t then r.set i none else (r.set i z).set j none)) := by
  have hji : ¬ j = i := fun e => hij e.symm
  unfold moveAssign
  by_cases hc : (E.propagateMove || E.alwaysEqual || E.same x.alloc y.alloc) = true
  · rw [if_pos hc]
    obtain ⟨s', hs', hvars, -, hheap, hall⟩ := holds_free h hi
    simp only [hs', Good]
    refine ⟨_, rfl, ?_⟩
    have hkey : E.key (if E.propagateMove then y.alloc else x.alloc) = E.key y.alloc := by
      by_cases hp : E.propagateMove = true
      · simp [hp]
      · simp only [hp]
        rcases (by simpa [hp] using hc : E.alwaysEqual = true ∨ E.same x.alloc y.alloc = true) with h1 | h1
        · exact same_of_always h1 _ _
        · exact same_iff.mp h1
    have := holds_exchange (hall 0) hij (y := y) (z := z) (w := none) (o := none) (b := y.alloc)
      (by simp [St.set, upd, hji, hvars, hj]) (by simp [Ref.set, upd, hji, hz]) (fun _ => hkey) (fun hh => absurd rfl hh)
      (fun _ c hc' => by simp only [St.set, upd, if_true, Option.some.injEq] at hc'; subst hc'; rfl) (fun v hv => by cases hv)
    rw [st_set_set, ref_set_set] at this
    simpa using this
  · rw [if_neg hc]
    have hae : E.alwaysEqual ≠ true := fun hh => hc (by simp [hh])
    cases z with
    | none => rcases hm with hm | hm; exact absurd hm hae; exact absurd rfl hm
    | some v =>
      obtain ⟨y', q, k, hy', hq, hk⟩ := h.val j v hz
      rw [hj] at hy'; cases hy'
      simp only [hq, read_of hq hk]
      have done : ∀ s' : St V, Holds E s' (r.set i (some v)) → s'.vars j = some y →
          Holds E (s'.put q (E.moved v)) ((r.set i (some v)).set j none) := by
        intro s' hs' hj'
        have := holds_forget (holds_put hs' hj' hq (E.moved v)) (i := j) (by simp [St.put, hj'])
        rwa [ref_set_set] at this
      cases hx : x.obj with
      | none =>
        simp only []
        refine good_fill h (fun c hc' => by rw [hi] at hc'; cases hc'; exact hx) v
          (fun s'' hs'' hvv => ⟨_, rfl, by simpa using holds_forget hs'' (i := i) (by rw [hvv, hi]; simp)⟩)
          (fun s'' hs'' hvv => ⟨_, rfl, by simpa using done s'' hs'' (by rw [hvv j hji, hj])⟩)
      | some p =>
        obtain ⟨w, hw⟩ := h.back i x p hi hx
        simp only [read_of hx hw]
        have ha := good_assign h hi hx w v
        have hv : ∀ o s', assignAt E p w v s = o → (o = .done s' ∨ o = .threw s') → s'.vars = s.vars := by
          intro o s' ho hs'
          unfold assignAt at ho
          split at ho <;> subst ho <;> rcases hs' with hs' | hs' <;> cases hs' <;> rfl
        cases ho : assignAt E p w v s with
        | done s' =>
          rw [ho] at ha
          obtain ⟨r', hr', hh⟩ := ha
          cases hr'
          exact ⟨_, rfl, by simpa using done s' (by simpa using hh) (by rw [hv _ s' ho (.inl rfl), hj])⟩
        | threw s' =>
          rw [ho] at ha
          obtain ⟨r', hr', hh⟩ := ha
          cases hr'
          exact ⟨_, rfl, by simpa using hh⟩
        | ub => rw [ho] at ha; exact ha

theorem good_swap {s : St V} {r : Ref V} (h : Holds E s r) {i j : Nat} (hij : i ≠ j) {x y : Var} (hi : s.vars i = some x)
    (hj : s.vars j = some y) {u z : Option V} (hu : r.vars i = some u) (hz : r.vars j = some z)
    (hs : E.propagateSwap = true → E.alwaysEqual = true) (hm : E.alwaysEqual = true ∨ (u ≠ none ∧ z ≠ none)) :
    Good E (swapVars E i j x y s) (fun t => some (if t then (r.set i none).set j none else (r.set i z).set j u)) := by
  have hji : ¬ j = i := fun e => hij e.symm
  unfold swapVars
  have hsame : ∀ c d, (E.alwaysEqual || E.same c d) = true → E.key c = E.key d := by
    intro c d hcd
    rcases (by simpa using hcd : E.alwaysEqual = true ∨ E.same c d = true) with h1 | h1
    · exact same_of_always h1 _ _
    · exact same_iff.mp h1
  by_cases hc : (E.alwaysEqual || E.same (if E.propagateSwap then y.alloc else x.alloc)
      (if E.propagateSwap then x.alloc else y.alloc)) = true
  · simp only [hc, if_true, Good]
    have hk := hsame _ _ hc
    have hk' : E.key x.alloc = E.key y.alloc := by
      by_cases hp : E.propagateSwap = true
      · simpa [hp] using hk.symm
      · simpa [hp] using hk
    refine ⟨_, rfl, ?_⟩
    have := holds_exchange h hij hj hz (w := u) (o := x.obj) (a := if E.propagateSwap then y.alloc else x.alloc)
      (b := if E.propagateSwap then x.alloc else y.alloc) (fun _ => by split <;> simp [hk'])
      (fun _ => ⟨x, hi, rfl, by split <;> simp [hk']⟩) (fun ho c hc' => by rw [hi] at hc'; cases hc'; exact ho)
      (fun v hv => by rw [hu, hv])
    simpa using this
  · have hae : E.alwaysEqual ≠ true := fun hh => hc (by simp [hh])
    have hp : E.propagateSwap = false := by
      cases hps : E.propagateSwap with
      | false => rfl
      | true => exact absurd (hs hps) hae
    rcases hm with hm | ⟨hu', hz'⟩
    · exact absurd hm hae
    cases u with
    | none => exact absurd rfl hu'
    | some v =>
    cases z with
    | none => exact absurd rfl hz'
    | some w =>
    obtain ⟨x', p, k, hx', hxp, hpk⟩ := h.val i v hu
    rw [hi] at hx'; cases hx'
    obtain ⟨y', q, l, hy', hyq, hql⟩ := h.val j w hz
    rw [hj] at hy'; cases hy'
    simp only [hp] at hc ⊢
    have e : (s.set i ⟨x.alloc, x.obj⟩).set j ⟨y.alloc, y.obj⟩ = s := by
      rw [set_same (s := s) (x := ⟨x.alloc, x.obj⟩) hi, set_same (s := s) (x := ⟨y.alloc, y.obj⟩) hj]
    simp only [Bool.false_eq_true, if_false] at hc ⊢
    rw [if_neg hc, e]
    simp only [hxp, hyq, read_of hxp hpk, read_of hyq hql]
    have h0 := holds_tick h 1
    have put2 : ∀ c d : V, Holds E (({ s with tick := s.tick + 1 }.put p c).put q d) ((r.set i (some c)).set j (some d)) :=
      fun c d => holds_put (holds_put h0 (i := i) (x := x) hi hxp c) (i := j) (x := y) hj hyq d
    by_cases hf : E.fails s.tick = true
    · simp only [hf, if_true, Good]
      refine ⟨_, rfl, ?_⟩
      have h1 := holds_forget (holds_forget (put2 (E.torn v w) (E.torn w v)) (i := i) (by simp [St.put, hi])) (i := j)
        (by simp [St.put, hj])
      have e : ((((r.set i (some (E.torn v w))).set j (some (E.torn w v))).set i none).set j none)
          = (r.set i none).set j none := by
        simp only [Ref.set, Ref.mk.injEq, and_true]; funext l; simp only [upd]; grind
      rw [e] at h1
      simpa using h1
    · simp only [hf, Good]
      exact ⟨_, rfl, by simpa using put2 w v⟩

theorem good_step {s : St V} {r : Ref V} (h : Holds E s r) (op : Op V) {t : Bool} (ht : (r.step E.initial t op).isSome)
    (hs : E.propagateSwap = true → E.alwaysEqual = true) (hm : E.alwaysEqual = true ∨ ¬ r.movesUnspecified op) :
    Good E (step E s op) (fun t => r.step E.initial t op) := by
  cases op with
  | make i a v =>
    simp only [Ref.step] at ht ⊢
    cases hr : r.vars i with
    | some _ => simp [hr] at ht
    | none =>
      have hi := (h.dead i).mpr hr
      simp only [step, hi]
      exact good_fill h (fun x hx => by rw [hi] at hx; cases hx) _ (fun s' hs' _ => ⟨_, rfl, by simpa using hs'⟩)
        (fun s' hs' _ => ⟨_, rfl, by simpa using hs'⟩)
  | copy i j a =>
    simp only [Ref.step] at ht ⊢
    cases hr : r.vars i with
    | some _ => simp [hr] at ht
    | none =>
      have hi := (h.dead i).mpr hr
      cases hj : r.vars j with
      | none => simp [hr, hj] at ht
      | some z =>
        cases z with
        | none => simp [hr, hj] at ht
        | some v =>
          obtain ⟨y, q, k, hy, hq, hk⟩ := h.val j v hj
          simp only [step, hi, hy, read_of hq hk]
          exact good_fill h (fun x hx => by rw [hi] at hx; cases hx) _ (fun s' hs' _ => ⟨_, rfl, by simpa using hs'⟩)
            (fun s' hs' _ => ⟨_, rfl, by simpa using hs'⟩)
  | move i j =>
    simp only [Ref.step] at ht ⊢
    cases hr : r.vars i with
    | some _ => simp [hr] at ht
    | none =>
      have hi := (h.dead i).mpr hr
      cases hj : r.vars j with
      | none => simp [hr, hj] at ht
      | some z =>
        obtain ⟨y, hy⟩ := ref_live h hj
        simp only [step, hi, hy, Good]
        have hij : i ≠ j := fun e => by rw [e, hj] at hr; cases hr
        refine ⟨_, rfl, ?_⟩
        have := holds_exchange h hij hy hj (w := none) (o := none) (a := y.alloc) (b := y.alloc) (fun _ => rfl)
          (fun hh => absurd rfl hh) (fun _ c hc => by rw [hi] at hc; cases hc) (fun v hv => by cases hv)
        simpa using this
  | moveTo i j a =>
    simp only [Ref.step] at ht ⊢
    cases hr : r.vars i with
    | some _ => simp [hr] at ht
    | none =>
      have hi := (h.dead i).mpr hr
      cases hj : r.vars j with
      | none => simp [hr, hj] at ht
      | some z =>
        obtain ⟨y, hy⟩ := ref_live h hj
        have hij : i ≠ j := fun e => by rw [e, hj] at hr; cases hr
        have hji : ¬ j = i := fun e => hij e.symm
        simp only [step, hi, hy]
        by_cases hc : (E.alwaysEqual || E.same a y.alloc) = true
        · rw [if_pos hc]
          have hk : E.key a = E.key y.alloc := by
            rcases (by simpa using hc : E.alwaysEqual = true ∨ E.same a y.alloc = true) with h1 | h1
            · exact same_of_always h1 _ _
            · exact same_iff.mp h1
          refine ⟨_, rfl, ?_⟩
          have := holds_exchange h hij hy hj (w := none) (o := none) (a := a) (b := y.alloc) (fun _ => hk)
            (fun hh => absurd rfl hh) (fun _ c hc => by rw [hi] at hc; cases hc) (fun v hv => by cases hv)
          simpa using this
        · rw [if_neg hc]
          cases hyo : y.obj with
          | none =>
            have hzn : z = none := by
              cases z with
              | none => rfl
              | some v => obtain ⟨y', q, k, hy', hq, _⟩ := h.val j v hj; rw [hy] at hy'; cases hy'; rw [hyo] at hq; cases hq
            subst hzn
            refine good_fill h (fun x hx => by rw [hi] at hx; cases hx) _ (fun s' hs' _ => ⟨_, rfl, by simpa using hs'⟩)
              (fun s' hs' hv => ⟨_, rfl, ?_⟩)
            have hl : s'.vars i ≠ none := by
              intro hh; have := (hs'.dead i).mp hh; simp [Ref.set, upd] at this
            have h1 := holds_forget (holds_forget hs' (i := i) hl) (i := j) (by rw [hv j hji, hy]; simp)
            rw [ref_set_set] at h1
            simpa using h1
          | some q =>
            obtain ⟨v, hv⟩ := h.back j y q hy hyo
            simp only [read_of hyo hv]
            refine good_fill h (fun x hx => by rw [hi] at hx; cases hx) _ (fun s' hs' _ => ⟨_, rfl, by simpa using hs'⟩)
              (fun s' hs' hvv => ⟨_, rfl, ?_⟩)
            have hj' : s'.vars j = some y := by rw [hvv j hji, hy]
            have hl : s'.vars i ≠ none := by
              intro hh; have := (hs'.dead i).mp hh; simp [Ref.set, upd] at this
            have h1 := holds_forget (holds_put hs' hj' hyo (E.moved v)) (i := j) (by simp [St.put, hj'])
            rw [ref_set_set] at h1
            cases z with
            | none =>
              have h2 := holds_forget h1 (i := i) (by simpa [St.put] using hl)
              have e : ((r.set i (some v)).set j none).set i none = (r.set i none).set j none := by
                simp only [Ref.set, Ref.mk.injEq, and_true]; funext l; simp only [upd]; grind
              rw [e] at h2
              simpa using h2
            | some v' =>
              obtain ⟨y', q', k, hy', hq', hk⟩ := h.val j v' hj
              rw [hy] at hy'; cases hy'
              rw [hyo] at hq'; cases hq'
              rw [hv] at hk; cases hk
              simpa using h1
  | assign i j =>
    simp only [Ref.step] at ht ⊢
    cases hr : r.vars i with
    | none => simp [hr] at ht
    | some u =>
      cases hj : r.vars j with
      | none => simp [hr, hj] at ht
      | some z =>
        obtain ⟨x, hx⟩ := ref_live h hr
        obtain ⟨y, hy⟩ := ref_live h hj
        simp only [step, hx, hy]
        by_cases hij : i = j
        · simp only [hij, if_true, Good]; exact ⟨_, rfl, h⟩
        · cases z with
          | none => simp [hr, hj, hij] at ht
          | some v =>
            simp only [hij, if_false]
            exact good_copyAssign h hij hx hy hj
  | set i v =>
    simp only [Ref.step] at ht ⊢
    cases hr : r.vars i with
    | none => simp [hr] at ht
    | some u =>
      obtain ⟨x, hx⟩ := ref_live h hr
      simp only [step, hx]
      cases hxo : x.obj with
      | none =>
        exact good_fill h (fun c hc => by rw [hx] at hc; cases hc; exact hxo) v
          (fun s'' hs'' hvv => ⟨_, rfl, by simpa using holds_forget hs'' (i := i) (by rw [hvv, hx]; simp)⟩)
          (fun s'' hs'' _ => ⟨_, rfl, by simpa using hs''⟩)
      | some p =>
        obtain ⟨w, hw⟩ := h.back i x p hx hxo
        simp only [read_of hxo hw]
        exact good_assign h hx hxo w v
  | moveAssign i j =>
    simp only [Ref.step] at ht ⊢
    cases hr : r.vars i with
    | none => simp [hr] at ht
    | some u =>
      cases hj : r.vars j with
      | none => simp [hr, hj] at ht
      | some z =>
        obtain ⟨x, hx⟩ := ref_live h hr
        obtain ⟨y, hy⟩ := ref_live h hj
        simp only [step, hx, hy]
        by_cases hij : i = j
        · simp only [hij, if_true, Good]; exact ⟨_, rfl, h⟩
        · simp only [hij, if_false]
          refine good_moveAssign h hij hx hy hj (hm.imp_right fun hh e => hh ⟨hij, by rw [hj, e]⟩)
  | poke i v =>
    simp only [Ref.step] at ht ⊢
    cases hr : r.vars i with
    | none => simp [hr] at ht
    | some u =>
      cases u with
      | none => simp [hr] at ht
      | some w =>
        obtain ⟨x, p, k, hx, hp, hk⟩ := h.val i w hr
        simp only [step, hx, hp, read_of hp hk]
        exact good_assign h hx hp w v
  | get i =>
    simp only [Ref.step] at ht ⊢
    cases hr : r.vars i with
    | none => simp [hr] at ht
    | some u =>
      cases u with
      | none => simp [hr] at ht
      | some w =>
        obtain ⟨x, p, k, hx, hp, hk⟩ := h.val i w hr
        simp only [step, hx, read_of hp hk, Good]
        obtain ⟨h1, h2, h3, h4, h5, h6, h7⟩ := h
        exact ⟨_, rfl, h1, h2, h3, h4, h5, h6, by simp [h7]⟩
  | swap i j =>
    simp only [Ref.step] at ht ⊢
    cases hr : r.vars i with
    | none => simp [hr] at ht
    | some u =>
      cases hj : r.vars j with
      | none => simp [hr, hj] at ht
      | some z =>
        obtain ⟨x, hx⟩ := ref_live h hr
        obtain ⟨y, hy⟩ := ref_live h hj
        simp only [step, hx, hy]
        by_cases hij : i = j
        · simp only [hij, if_true, Good]; exact ⟨_, rfl, h⟩
        · simp only [hij, if_false]
          refine good_swap h hij hx hy hr hj hs (hm.imp_right fun hh =>
            ⟨fun e => hh ⟨hij, .inl (by rw [hr, e])⟩, fun e => hh ⟨hij, .inr (by rw [hj, e])⟩⟩)
  | drop i =>
    simp only [Ref.step] at ht ⊢
    cases hr : r.vars i with
    | none => simp [hr] at ht
    | some u =>
      obtain ⟨x, hx⟩ := ref_live h hr
      obtain ⟨s', hs', -, -, -, hall⟩ := holds_free h hx
      simp only [step, hx, hs', Good]
      refine ⟨_, rfl, ?_⟩
      obtain ⟨h1, h2, h3, h4, h5, h6, h7⟩ := hall 0
      simp only [St.set, Ref.set, upd] at h1 h2 h3 h4 h5 h6 h7
      refine ⟨?_, ?_, ?_, h4, ?_, ?_, h7⟩
      · intro j y q hj hq; simp only [upd] at hj; have := h1 j y q; grind
      · intro j l y z q hj hl hy hz; simp only [upd] at hj hl; have := h2 j l y z q; grind
      · intro q b hq; obtain ⟨j, y, hj, hy⟩ := h3 q b hq; refine ⟨j, y, ?_, hy⟩; simp only [upd]; grind
      · intro j; have := h5 j; simp only [upd]; grind
      · intro j w hj; simp only [upd] at hj ⊢; have := h6 j w; grind

theorem holds_run (hs : E.propagateSwap = true → E.alwaysEqual = true) : ∀ (ops : List (Op V)) {s s' : St V} {r r' : Ref V}
    {ts : List Bool}, Holds E s r → run E ops s = some (s', ts) → Ref.run E.initial ops ts r = some r' →
    (E.alwaysEqual = true ∨ ¬ Ref.runMoves E.initial ops ts r) → Holds E s' r' := by
  intro ops
  induction ops with
  | nil =>
    intro s s' r r' ts h h1 h2 _
    simp only [run, Option.some.injEq, Prod.mk.injEq] at h1
    obtain ⟨rfl, rfl⟩ := h1
    simp only [Ref.run, Option.some.injEq] at h2
    exact h2 ▸ h
  | cons o os ih =>
    intro s s' r r' ts h h1 h2 hm
    have key : ∀ (t : Bool) (s1 : St V) (ts' : List Bool), ts = t :: ts' → run E os s1 = some (s', ts') →
        (∀ r1, r.step E.initial t o = some r1 → Good E (step E s o) (fun t => r.step E.initial t o) → Holds E s1 r1) →
        Holds E s' r' := by
      intro t s1 ts' e hr hg
      subst e
      simp only [Ref.run, Option.bind_eq_some_iff] at h2
      obtain ⟨r1, hr1, h2⟩ := h2
      have hgood := good_step h o (t := t) (by rw [hr1]; rfl) hs (hm.imp_right fun hh hx => hh (.inl hx))
      exact ih (hg r1 hr1 hgood) hr h2 (hm.imp_right fun hh hx => hh (.inr ⟨r1, hr1, hx⟩))
    simp only [run] at h1
    cases ho : step E s o with
    | ub => simp [ho] at h1
    | done s1 =>
      simp only [ho, Option.map_eq_some_iff] at h1
      obtain ⟨⟨s2, ts'⟩, hr, he⟩ := h1
      simp only [Prod.mk.injEq] at he
      obtain ⟨rfl, rfl⟩ := he
      refine key false s1 ts' rfl hr (fun r1 hr1 hg => ?_)
      rw [ho] at hg
      obtain ⟨r2, hr2, hh⟩ := hg
      cases hr1.symm.trans hr2; exact hh
    | threw s1 =>
      simp only [ho, Option.map_eq_some_iff] at h1
      obtain ⟨⟨s2, ts'⟩, hr, he⟩ := h1
      simp only [Prod.mk.injEq] at he
      obtain ⟨rfl, rfl⟩ := he
      refine key true s1 ts' rfl hr (fun r1 hr1 hg => ?_)
      rw [ho] at hg
      obtain ⟨r2, hr2, hh⟩ := hg
      cases hr1.symm.trans hr2; exact hh

/-- What is left of the variables when an operation throws. -/
def Kept (E : Env V) (op : Op V) (s s' : St V) : Prop :=
  (∀ i, i ∉ targets op → s'.vars i = s.vars i ∧ ∀ x, s.vars i = some x → s'.read x = s.read x) ∧
  ((E.propagateCopy = true → E.alwaysEqual = true) →
    ∀ i x, s.vars i = some x → x.obj ≠ none → ∃ x', s'.vars i = some x' ∧ x'.obj = x.obj)

theorem kept_same {op : Op V} {s s' : St V} (hv : s'.vars = s.vars) (hh : s'.heap = s.heap) : Kept E op s s' :=
  ⟨fun i _ => ⟨by rw [hv], fun x _ => by simp [St.read, hh]⟩, fun _ i x hx _ => ⟨x, by rw [hv, hx], rfl⟩⟩

theorem fill_threw {i a : Nat} {v : V} {s s' : St V} {k : St V → St V} (h : fill E i a v s k = .threw s') :
    s'.vars = s.vars ∧ s'.heap = s.heap := by
  unfold fill create at h
  split at h
  · next heq => cases h; split at heq
                · cases heq; exact ⟨rfl, rfl⟩
                · split at heq
                  · cases heq; exact ⟨rfl, rfl⟩
                  · cases heq
  · cases h

theorem assign_threw {p : Nat} {old v : V} {s s' : St V} (h : assignAt E p old v s = .threw s') :
    s'.vars = s.vars ∧ ∀ q, q ≠ p → s'.heap q = s.heap q := by
  unfold assignAt at h
  split at h
  · cases h; exact ⟨rfl, fun q hq => by simp [St.put, upd, hq]⟩
  · cases h

theorem kept_assign {s s' : St V} {r : Ref V} (h : Holds E s r) {op : Op V} {i p : Nat} {x : Var} (hi : s.vars i = some x)
    (hp : x.obj = some p) (ht : i ∈ targets op) (hv : s'.vars = s.vars) (hh : ∀ q, q ≠ p → s'.heap q = s.heap q) :
    Kept E op s s' := by
  refine ⟨fun j hj => ⟨by rw [hv], fun y hy => ?_⟩, fun _ j y hy _ => ⟨y, by rw [hv, hy], rfl⟩⟩
  unfold St.read
  cases hq : y.obj with
  | none => rfl
  | some q =>
    have : q ≠ p := fun e => hj (by have := h.inj j i y x p hy hi (e ▸ hq) hp; rw [this]; exact ht)
    simp [hh q this]

theorem kept_step {s s' : St V} {r : Ref V} (h : Holds E s r) (op : Op V) (ho : step E s op = .threw s') : Kept E op s s' := by
  cases op with
  | make i a v =>
    simp only [step] at ho
    split at ho
    · have := fill_threw ho; exact kept_same this.1 this.2
    · cases ho
  | copy i j a =>
    simp only [step] at ho
    split at ho
    · split at ho
      · have := fill_threw ho; exact kept_same this.1 this.2
      · cases ho
    · cases ho
  | move i j => simp only [step] at ho; split at ho <;> cases ho
  | moveTo i j a =>
    simp only [step] at ho
    split at ho
    · split at ho
      · cases ho
      · split at ho
        · split at ho
          · have := fill_threw ho; exact kept_same this.1 this.2
          · cases ho
        · have := fill_threw ho; exact kept_same this.1 this.2
    · cases ho
  | assign i j =>
    simp only [step] at ho
    split at ho
    · next x y hx hy =>
      by_cases hij : i = j
      · simp [hij] at ho
      · simp only [hij, if_false, copyAssign] at ho
        split at ho
        · next hc =>
          obtain ⟨s1, hs1, hvars, -, hheap, -⟩ := holds_free h hx
          simp only [hs1] at ho
          split at ho
          · cases ho
          · obtain ⟨h1, h2⟩ := fill_threw ho
            refine ⟨fun l hl => ?_, fun hE => ?_⟩
            · have hli : l ≠ i := by simpa [targets] using hl
              refine ⟨by rw [h1]; simp [St.set, upd, hli, hvars], fun z hz => ?_⟩
              unfold St.read
              cases hq : z.obj with
              | none => rfl
              | some q => rw [h2]; simp only [St.set, Option.bind_some]; rw [hheap l z q hli hz hq]
            · simp only [Bool.and_eq_true, Bool.not_eq_true'] at hc
              have := same_of_always (hE hc.1) x.alloc y.alloc
              rw [← same_iff, hc.2] at this; cases this
        · generalize (if E.propagateCopy then y.alloc else x.alloc) = a at ho
          have hset : ∀ s'' : St V, (∀ q, some q ≠ x.obj → s''.heap q = s.heap q) →
              s''.vars = (s.set i ⟨a, x.obj⟩).vars → Kept E (.assign i j) s s'' := by
            intro s'' hh hv
            refine ⟨fun l hl => ?_, fun _ l z hz _ => ?_⟩
            · have hli : l ≠ i := by simpa [targets] using hl
              refine ⟨by rw [hv]; simp [St.set, upd, hli], fun z hz => ?_⟩
              unfold St.read
              cases hq : z.obj with
              | none => rfl
              | some q =>
                have : some q ≠ x.obj := fun e => hli (h.inj l i z x q hz hx hq e.symm)
                simp [hh q this]
            · by_cases hli : l = i
              · subst hli; rw [hx] at hz; cases hz
                exact ⟨⟨a, x.obj⟩, by rw [hv]; simp [St.set, upd], rfl⟩
              · exact ⟨z, by rw [hv]; simpa [St.set, upd, hli] using hz, rfl⟩
          split at ho
          · cases ho
          · split at ho
            · next p hp =>
              split at ho
              · obtain ⟨h1, h2⟩ := assign_threw ho
                exact hset s' (fun q hq => h2 q (fun e => hq (by rw [e, hp]))) h1
              · cases ho
            · obtain ⟨h1, h2⟩ := fill_threw ho
              exact hset s' (fun q _ => by rw [h2]; rfl) h1
    · cases ho
  | set i v =>
    simp only [step] at ho
    split at ho
    · next x hx =>
      split at ho
      · next p hp =>
        split at ho
        · obtain ⟨h1, h2⟩ := assign_threw ho
          exact kept_assign h hx hp (by simp [targets]) h1 h2
        · cases ho
      · have := fill_threw ho; exact kept_same this.1 this.2
    · cases ho
  | moveAssign i j =>
    simp only [step] at ho
    split at ho
    · next x y hx hy =>
      by_cases hij : i = j
      · simp [hij] at ho
      · simp only [hij, if_false, moveAssign] at ho
        split at ho
        · split at ho <;> cases ho
        · split at ho
          · split at ho
            · next p hp =>
              split at ho
              · next old _ =>
                split at ho
                · cases ho
                · obtain ⟨h1, h2⟩ := assign_threw ho
                  exact kept_assign h hx hp (by simp [targets]) h1 h2
              · cases ho
            · have := fill_threw ho; exact kept_same this.1 this.2
          · cases ho
    · cases ho
  | poke i v =>
    simp only [step] at ho
    split at ho
    · next x hx =>
      split at ho
      · next p old hp _ =>
        obtain ⟨h1, h2⟩ := assign_threw ho
        exact kept_assign h hx hp (by simp [targets]) h1 h2
      · cases ho
    · cases ho
  | get i => simp only [step] at ho; split at ho; split at ho <;> cases ho; cases ho
  | swap i j =>
    simp only [step] at ho
    split at ho
    · next x y hx hy =>
      by_cases hij : i = j
      · simp [hij] at ho
      · simp only [hij, if_false, swapVars] at ho
        generalize (if E.propagateSwap then y.alloc else x.alloc) = a at ho
        generalize (if E.propagateSwap then x.alloc else y.alloc) = b at ho
        split at ho
        · cases ho
        · split at ho
          · next p v q w hp _ hq _ =>
            split at ho
            · cases ho
              refine ⟨fun l hl => ?_, fun _ l z hz _ => ?_⟩
              · have hl' : l ≠ i ∧ l ≠ j := by simpa [targets] using hl
                refine ⟨by simp [St.put, St.set, upd, hl'], fun z hz => ?_⟩
                unfold St.read
                cases ho : z.obj with
                | none => rfl
                | some o =>
                  have h1 : o ≠ p := fun e => hl'.1 (h.inj l i z x p hz hx (e ▸ ho) hp)
                  have h2 : o ≠ q := fun e => hl'.2 (h.inj l j z y q hz hy (e ▸ ho) hq)
                  simp [St.put, St.set, upd, h1, h2]
              · by_cases hlj : l = j
                · subst hlj; rw [hy] at hz; cases hz
                  exact ⟨⟨b, y.obj⟩, by simp [St.put, St.set, upd], rfl⟩
                · by_cases hli : l = i
                  · subst hli; rw [hx] at hz; cases hz
                    exact ⟨⟨a, x.obj⟩, by simp [St.put, St.set, upd, hlj], rfl⟩
                  · exact ⟨z, by simpa [St.put, St.set, upd, hli, hlj] using hz, rfl⟩
            · cases ho
          · cases ho
    · cases ho
  | drop i => simp only [step] at ho; split at ho; split at ho <;> cases ho; cases ho

theorem noexcept_step {s s' : St V} (op : Op V) (hs : E.propagateSwap = true → E.alwaysEqual = true)
    (hn : declaredNoexcept E op = true) : step E s op ≠ .threw s' := by
  intro ho
  cases op with
  | make i a v => cases hn
  | copy i j a => cases hn
  | moveTo i j a => cases hn
  | assign i j => cases hn
  | set i v => cases hn
  | poke i v => cases hn
  | move i j => simp only [step] at ho; split at ho <;> cases ho
  | get i => simp only [step] at ho; split at ho; split at ho <;> cases ho; cases ho
  | drop i => simp only [step] at ho; split at ho; split at ho <;> cases ho; cases ho
  | moveAssign i j =>
    have hn' : (E.propagateMove || E.alwaysEqual) = true := hn
    simp only [step] at ho
    split at ho
    · split at ho
      · cases ho
      · simp only [moveAssign, hn', Bool.true_or, if_true] at ho
        split at ho <;> cases ho
    · cases ho
  | swap i j =>
    have hn' : E.alwaysEqual = true := by
      rcases (by simpa [declaredNoexcept] using hn : E.alwaysEqual = true ∨ E.propagateSwap = true) with h | h
      · exact h
      · exact hs h
    simp only [step] at ho
    split at ho
    · split at ho
      · cases ho
      · simp only [swapVars, hn', Bool.true_or, if_true] at ho
        cases ho
    · cases ho

/-! ## Allocators -/

/-- What `get_allocator()` gives for each variable. -/
def allocs (s : St V) (k : Nat) : Option Nat := (s.vars k).map Var.alloc

theorem fill_allocs {E : Env V} {i a : Nat} {v : V} {s s' : St V} {k : St V → St V}
    (hk : ∀ t, (k t).vars = t.vars) (h : fill E i a v s k = .done s') :
    ∀ n, (s'.vars n).map Var.alloc = upd (allocs s) i (some a) n := by
  unfold fill create at h
  split at h
  · cases h
  · rename_i p t e
    cases h
    intro n
    rw [hk]
    split at e
    · cases e
    · split at e
      · cases e
      · cases e
        simp only [St.set, upd, allocs]
        grind

theorem assignAt_allocs {E : Env V} {p : Nat} {v w : V} {s s' : St V} (h : assignAt E p v w s = .done s') :
    s'.vars = s.vars := by
  unfold assignAt at h
  split at h <;> cases h
  rfl

theorem destroy_allocs {E : Env V} {b : Var} {s s' : St V} (h : destroy E b s = some s') : s'.vars = s.vars := by
  unfold destroy at h
  split at h
  · cases h; rfl
  · split at h
    · split at h <;> cases h
      rfl
    · cases h

theorem step_allocs (E : Env V) (s s' : St V) (o : Op V) (h : step E s o = .done s') :
    ∀ n, allocs s' n = allocAfter E (allocs s) o n := by
  intro n
  cases o with
  | make i a v =>
    simp only [step] at h
    split at h
    · exact fill_allocs (fun _ => rfl) h n
    · cases h
  | copy i j a =>
    simp only [step] at h
    split at h
    · rename_i y e1 e2
      split at h
      · have := fill_allocs (fun _ => rfl) h n
        simp only [allocs, allocAfter, upd] at this ⊢
        grind
      · cases h
    · cases h
  | move i j =>
    simp only [step] at h
    split at h
    · cases h
      simp only [allocs, allocAfter, upd, St.set]
      grind
    · cases h
  | moveTo i j a =>
    simp only [step] at h
    split at h
    · split at h
      · cases h
        simp only [allocs, allocAfter, upd, St.set]
        grind
      · split at h
        · split at h
          · exact fill_allocs (k := fun s => s.put _ (E.moved _)) (fun _ => rfl) h n
          · cases h
        · exact fill_allocs (fun _ => rfl) h n
    · cases h
  | assign i j =>
    simp only [step] at h
    split at h
    · rename_i x y e1 e2
      split at h
      · cases h
        simp only [allocs, allocAfter]
        grind
      · unfold copyAssign at h
        split at h
        · split at h
          · cases h
          · rename_i t et
            have ht := destroy_allocs et
            dsimp only at h
            split at h
            · cases h
            · have := fill_allocs (fun _ => rfl) h n
              simp only [allocs, allocAfter, upd, St.set] at this ⊢
              grind
        · dsimp only at h
          split at h
          · cases h
          · split at h
            · split at h
              · have := assignAt_allocs h
                simp only [allocs, allocAfter, upd, this, St.set]
                grind
              · cases h
            · have := fill_allocs (fun _ => rfl) h n
              simp only [allocs, allocAfter, upd, St.set] at this ⊢
              grind
    · cases h
  | set i v =>
    simp only [step] at h
    split at h
    · rename_i x e1
      split at h
      · split at h
        · have := assignAt_allocs h
          simp only [allocs, allocAfter, this]
        · cases h
      · have := fill_allocs (fun _ => rfl) h n
        simp only [allocs, allocAfter, upd] at this ⊢
        grind
    · cases h
  | moveAssign i j =>
    simp only [step] at h
    split at h
    · rename_i x y e1 e2
      split at h
      · cases h
        simp only [allocs, allocAfter]
        grind
      · unfold moveAssign at h
        split at h
        · split at h
          · cases h
          · rename_i t et
            have ht := destroy_allocs et
            cases h
            simp only [allocs, allocAfter, upd, St.set, ht]
            grind
        · rename_i hc
          have hp : E.propagateMove = false := by
            cases hp : E.propagateMove <;> simp_all
          split at h
          · split at h
            · split at h
              · split at h
                · rename_i ea
                  cases h
                  have := assignAt_allocs ea
                  simp [allocs, allocAfter, hp, St.put, this]
                · rename_i hno
                  exact absurd h (hno _)
              · cases h
            · have := fill_allocs (k := fun s => s.put _ (E.moved _)) (fun _ => rfl) h n
              simp only [allocs, allocAfter, upd, hp] at this ⊢
              grind
          · cases h
    · cases h
  | poke i v =>
    simp only [step] at h
    split at h
    · split at h
      · have := assignAt_allocs h
        simp only [allocs, allocAfter, this]
      · cases h
    · cases h
  | get i =>
    simp only [step] at h
    split at h
    · split at h
      · cases h; rfl
      · cases h
    · cases h
  | swap i j =>
    simp only [step] at h
    split at h
    · rename_i x y e1 e2
      split at h
      · cases h
        simp only [allocs, allocAfter]
        grind
      · unfold swapVars at h
        dsimp only at h
        generalize ha : (if E.propagateSwap = true then y.alloc else x.alloc) = a at h
        generalize hb : (if E.propagateSwap = true then x.alloc else y.alloc) = b at h
        split at h
        · cases h
          simp only [allocs, allocAfter, upd, St.set]
          grind
        · split at h
          · split at h
            · cases h
            · cases h
              simp only [allocs, allocAfter, upd, St.set, St.put]
              grind
          · cases h
    · cases h
  | drop i =>
    simp only [step] at h
    split at h
    · split at h
      · rename_i et
        have ht := destroy_allocs et
        cases h
        simp only [allocs, allocAfter, upd, ht]
        grind
      · cases h
    · cases h

end HppProto.Box
