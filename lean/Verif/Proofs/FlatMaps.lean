import Verif.Proofs.FlatMap
import Verif.Spec.FlatMaps

namespace HppProto
open Spec

section
variable {α β : Type} {lt : α → α → Bool}

theorem entries_ofEntries (e : List (α × β)) : (ofEntries e).entries = e := by
  unfold FlatMap.entries ofEntries
  induction e with
  | nil => rfl
  | cons p e ih => simp only [List.map_cons, List.zip_cons_cons, ih]

section equal
variable (w : StrictWeak lt) {keq : α → α → Bool} (hk : ∀ a b, keq a b = true ↔ same lt a b = true) {veq : β → β → Bool}
include w hk

theorem sortedE_tail {p : α × β} {e : List (α × β)} (h : SortedE lt (p :: e)) :
    (∀ q ∈ e, lt p.1 q.1 = true) ∧ SortedE lt e := by
  have := List.pairwise_cons.1 (SortedE_iff.1 h)
  exact ⟨this.1, SortedE_iff.2 this.2⟩

theorem agree_of_pairsEqual {d e : List (α × β)} (h : pairsEqual keq veq d e = true) (x : α) :
    agree veq (lookup lt d x) (lookup lt e x) := by
  induction d generalizing e with
  | nil =>
    cases e with
    | nil => trivial
    | cons _ _ => cases h
  | cons p d ih =>
    cases e with
    | nil => cases h
    | cons q e =>
      obtain ⟨k, v⟩ := p
      obtain ⟨l, u⟩ := q
      simp only [pairsEqual, Bool.and_eq_true] at h
      have hs := (hk k l).1 h.1.1
      have : same lt x k = same lt x l := by
        cases h' : same lt x l with
        | true =>
          rw [same_congr w h']
          exact same_symm hs
        | false =>
          cases h'' : same lt x k with
          | false => rfl
          | true =>
            rw [same_congr w h''] at h'
            rw [hs] at h'
            cases h'
      simp only [lookup, this]
      cases same lt x l with
      | true => simpa [agree] using h.1.2
      | false => simpa using ih h.2

theorem pairsEqual_of_agree {d e : List (α × β)} (hd : SortedE lt d) (he : SortedE lt e)
    (h : ∀ x, agree veq (lookup lt d x) (lookup lt e x)) : pairsEqual keq veq d e = true := by
  induction d generalizing e with
  | nil =>
    cases e with
    | nil => rfl
    | cons q e =>
      have := h q.1
      simp [lookup, same_refl w, agree] at this
  | cons p d ih =>
    obtain ⟨k, v⟩ := p
    cases e with
    | nil =>
      have := h k
      simp [lookup, same_refl w, agree] at this
    | cons q e =>
      obtain ⟨l, u⟩ := q
      obtain ⟨hd1, hd2⟩ := sortedE_tail w hk hd
      obtain ⟨he1, he2⟩ := sortedE_tail w hk he
      have absent : ∀ {c : List (α × β)} {y : α}, (∀ q ∈ c, lt y q.1 = true) → lookup lt c y = none := fun hc =>
        lookup_none fun q hq => not_same_of_lt w (hc q hq)
      have hs : same lt k l = true := by
        rw [same_iff]
        constructor
        · cases hc : lt k l with
          | false => rfl
          | true =>
            have := h k
            rw [absent (c := (l, u) :: e) (fun q hq => by
              rcases List.mem_cons.1 hq with rfl | hq
              · exact hc
              · exact w.trans _ _ _ hc (he1 q hq))] at this
            simp [lookup, same_refl w, agree] at this
        · cases hc : lt l k with
          | false => rfl
          | true =>
            have := h l
            rw [absent (c := (k, v) :: d) (fun q hq => by
              rcases List.mem_cons.1 hq with rfl | hq
              · exact hc
              · exact w.trans _ _ _ hc (hd1 q hq))] at this
            simp [lookup, same_refl w, agree] at this
      simp only [pairsEqual, Bool.and_eq_true]
      refine ⟨⟨(hk _ _).2 hs, ?_⟩, ih hd2 he2 fun x => ?_⟩
      · have := h k
        simp only [lookup, same_refl w, hs, if_true] at this
        exact this
      · have hx := h x
        cases h1 : same lt x k with
        | true =>
          rw [absent (c := d) (fun q hq => by rw [lt_congr_left w h1]; exact hd1 q hq),
            absent (c := e) (fun q hq => by rw [lt_congr_left w h1, lt_congr_left w hs]; exact he1 q hq)]
          trivial
        | false =>
          have h2 : same lt x l = false := by
            cases h2 : same lt x l with
            | false => rfl
            | true =>
              rw [same_congr w h2] at h1
              rw [same_symm hs] at h1
              cases h1
          simpa [lookup, h1, h2] using hx

theorem equal_holds {x y : FlatMap α β} {f g : FinMap α β} (hx : Holds lt x f) (hy : Holds lt y g) :
    x.equal keq veq y = true ↔ ∀ k, agree veq (f k) (g k) := by
  obtain ⟨d, rfl, hd, rfl⟩ := hx
  obtain ⟨e, rfl, he, rfl⟩ := hy
  unfold FlatMap.equal
  rw [entries_ofEntries, entries_ofEntries]
  exact ⟨fun h k => agree_of_pairsEqual w hk h k, pairsEqual_of_agree w hk hd he⟩

end equal

/-! ## Order -/

theorem pairLess_total {klt : α → α → Bool} {vlt : β → β → Bool} (hk : StrictTotal klt) (hv : StrictTotal vlt) :
    StrictTotal (pairLess klt vlt) where
  irrefl a := by simp [pairLess, hk.irrefl, hv.irrefl]
  trans a b c h1 h2 := by
    simp only [pairLess, Bool.or_eq_true, Bool.and_eq_true, Bool.not_eq_true'] at *
    have flip : ∀ {x y}, klt x y = true → klt y x = false := by
      intro x y h
      cases h' : klt y x with
      | false => rfl
      | true => have := hk.trans _ _ _ h h'; rw [hk.irrefl] at this; cases this
    rcases hk.total a.1 b.1 with h | h | h
    · rcases hk.total b.1 c.1 with h' | h' | h'
      · exact .inl (hk.trans _ _ _ h h')
      · rw [← h']; exact .inl h
      · rw [h'] at h2; rw [flip h'] at h2; simp at h2
    · rw [h] at h1 ⊢
      rcases h1 with h1 | h1
      · rw [hk.irrefl] at h1; cases h1
      · rcases h2 with h2 | h2
        · exact .inl h2
        · exact .inr ⟨h2.1, hv.trans _ _ _ h1.2 h2.2⟩
    · rw [h, flip h] at h1; simp at h1
  total a b := by
    obtain ⟨k, v⟩ := a
    obtain ⟨l, u⟩ := b
    simp only [pairLess, Bool.or_eq_true, Bool.and_eq_true, Bool.not_eq_true', Prod.mk.injEq]
    rcases hk.total k l with h | rfl | h
    · exact .inl (.inl h)
    · rcases hv.total v u with h | rfl | h
      · exact .inl (.inr ⟨hk.irrefl _, h⟩)
      · exact .inr (.inl ⟨rfl, rfl⟩)
      · exact .inr (.inr (.inr ⟨hk.irrefl _, h⟩))
    · exact .inr (.inr (.inl h))

theorem strictTotal_flip {γ : Type} {less : γ → γ → Bool} (h : StrictTotal less) {a b : γ} (hab : less a b = true) :
    less b a = false := by
  cases h' : less b a with
  | false => rfl
  | true => have := h.trans _ _ _ hab h'; rw [h.irrefl] at this; cases this

theorem lexLess_total {γ : Type} {less : γ → γ → Bool} (h : StrictTotal less) : StrictTotal (lexLess less) where
  irrefl a := by
    induction a with
    | nil => rfl
    | cons x xs ih => simp [lexLess, h.irrefl, ih]
  trans a b c h1 h2 := by
    induction a generalizing b c with
    | nil =>
      cases c with
      | nil => cases b <;> simp [lexLess] at h1 h2
      | cons _ _ => rfl
    | cons x xs ih =>
      cases b with
      | nil => simp [lexLess] at h1
      | cons y ys =>
        cases c with
        | nil => simp [lexLess] at h2
        | cons z zs =>
          simp only [lexLess] at h1 h2 ⊢
          rcases h.total x y with hxy | rfl | hxy
          · rcases h.total y z with hyz | rfl | hyz
            · rw [if_pos (h.trans _ _ _ hxy hyz)]
            · rw [if_pos hxy]
            · rw [if_neg (by simp [strictTotal_flip h hyz]), if_pos hyz] at h2; cases h2
          · rw [if_neg (by simp [h.irrefl]), if_neg (by simp [h.irrefl])] at h1
            rcases h.total x z with hyz | rfl | hyz
            · rw [if_pos hyz]
            · rw [if_neg (by simp [h.irrefl]), if_neg (by simp [h.irrefl])] at h2 ⊢
              exact ih _ _ h1 h2
            · rw [if_neg (by simp [strictTotal_flip h hyz]), if_pos hyz] at h2; cases h2
          · rw [if_neg (by simp [strictTotal_flip h hxy]), if_pos hxy] at h1; cases h1
  total a b := by
    induction a generalizing b with
    | nil =>
      cases b with
      | nil => exact .inr (.inl rfl)
      | cons _ _ => exact .inl rfl
    | cons x xs ih =>
      cases b with
      | nil => exact .inr (.inr rfl)
      | cons y ys =>
        simp only [lexLess]
        rcases h.total x y with hxy | rfl | hxy
        · exact .inl (by rw [if_pos hxy])
        · simp only [h.irrefl, Bool.false_eq_true, if_false]
          rcases ih ys with h' | rfl | h'
          · exact .inl h'
          · exact .inr (.inl rfl)
          · exact .inr (.inr h')
        · exact .inr (.inr (by rw [if_pos hxy]))

theorem pairsEqual_iff {keq : α → α → Bool} {veq : β → β → Bool} (hk : ∀ a b, keq a b = true ↔ a = b)
    (hv : ∀ a b, veq a b = true ↔ a = b) (d e : List (α × β)) : pairsEqual keq veq d e = true ↔ d = e := by
  induction d generalizing e with
  | nil => cases e <;> simp [pairsEqual]
  | cons p d ih =>
    obtain ⟨k, v⟩ := p
    cases e with
    | nil => simp [pairsEqual]
    | cons q e => obtain ⟨l, u⟩ := q; simp [pairsEqual, hk, hv, ih, and_assoc]

/-! ## Several maps -/

theorem ofLists_lookup (lt : α → α → Bool) {ks : List α} {vs : List β} : ofLists lt ks vs = lookup lt (ks.zip vs) := by
  induction ks generalizing vs with
  | nil => cases vs <;> (funext x; rfl)
  | cons k ks ih =>
    cases vs with
    | nil => funext x; rfl
    | cons v vs =>
      funext x
      simp only [ofLists, List.zip_cons_cons, lookup, ih]

/-- Containers hold what the finite map says. -/
def BoxHolds (lt : α → α → Bool) (b : List α × List β) (f : FinMap α β) : Prop := ofLists lt b.1 b.2 = f

theorem holds_lists {m : FlatMap α β} {f : FinMap α β} (h : Holds lt m f) : BoxHolds lt (m.keys, m.vals) f := by
  obtain ⟨e, rfl, hs, rfl⟩ := h
  show ofLists lt _ _ = _
  rw [ofLists_lookup]
  exact congrArg _ (entries_ofEntries e)

theorem holds_of_lists {b : List α × List β} {f : FinMap α β} (h : BoxHolds lt b f) (hs : StrictlySorted lt b.1)
    (hl : b.2.length = b.1.length) : Holds lt ⟨b.1, b.2⟩ f := by
  have h1 : (b.1.zip b.2).map (·.1) = b.1 := List.map_fst_zip (by omega)
  have h2 : (b.1.zip b.2).map (·.2) = b.2 := List.map_snd_zip (by omega)
  refine ⟨b.1.zip b.2, ?_, ?_, ?_⟩
  · rw [ofEntries, h1, h2]
  · unfold SortedE; rw [h1]; exact hs
  · rw [← ofLists_lookup]; exact h

/-- Every map and every container holds what the finite maps say. -/
def WorldHolds (lt : α → α → Bool) (w : MapWorld α β) (f : FinWorld α β) : Prop :=
  (∀ i, Holds lt (w.maps i) (f.maps i)) ∧ ∀ c, BoxHolds lt (w.boxes c) (f.boxes c)

theorem holds_empty : Holds lt (FlatMap.clear : FlatMap α β) (fun _ => none) := ⟨[], rfl, List.Pairwise.nil, rfl⟩

theorem worldHolds_step (sw : StrictWeak lt) (dflt : β) {w : MapWorld α β} {f : FinWorld α β} (h : WorldHolds lt w f)
    (op : WorldOp α β) (ok : worldOpOk lt w op) : WorldHolds lt (w.step lt dflt op) (finWorldStep lt w f op) := by
  obtain ⟨h1, h2⟩ := h
  cases op with
  | on i op =>
    refine ⟨fun k => ?_, h2⟩
    simp only [MapWorld.step, finWorldStep, setAt]
    split
    · exact step_holds sw dflt (h1 i) op ok
    · exact h1 k
  | copy i j =>
    refine ⟨fun k => ?_, h2⟩
    simp only [MapWorld.step, finWorldStep, setAt]
    split
    · exact h1 j
    · exact h1 k
  | move i j =>
    refine ⟨fun k => ?_, h2⟩
    have hij : i ≠ j := ok
    simp only [MapWorld.step, finWorldStep, setAt]
    by_cases hk : k = i
    · rw [if_pos hk, if_neg (by omega), if_pos hk]; exact h1 j
    · rw [if_neg hk, if_neg hk]
      split
      · exact holds_empty
      · exact h1 k
  | swap i j =>
    refine ⟨fun k => ?_, h2⟩
    simp only [MapWorld.step, finWorldStep, setAt]
    by_cases hk : k = i
    · subst hk
      simp only [if_true]
      split
      · rename_i e; subst e; exact h1 k
      · exact h1 j
    · simp only [if_neg hk]
      split
      · exact h1 i
      · exact h1 k
  | extract i c =>
    refine ⟨fun k => ?_, fun k => ?_⟩ <;> simp only [MapWorld.step, finWorldStep, setAt] <;> split
    · exact holds_empty
    · exact h1 k
    · exact holds_lists (h1 i)
    · exact h2 k
  | replace i c =>
    refine ⟨fun k => ?_, fun k => ?_⟩ <;> simp only [MapWorld.step, finWorldStep, setAt] <;> split
    · exact holds_of_lists (h2 c) ok.1 ok.2
    · exact h1 k
    · rfl
    · exact h2 k
  | fill c ks vs =>
    refine ⟨h1, fun k => ?_⟩
    simp only [MapWorld.step, finWorldStep, setAt]
    split
    · rfl
    · exact h2 k

end

end HppProto
