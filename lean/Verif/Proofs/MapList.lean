import Verif.Spec.Fields
/-! Associative containers as lists in key order. -/
namespace HppProto
open Spec

theorem lexLt_irrefl : ∀ l, lexLt l l = false
  | [] => rfl
  | a :: l => by simp [lexLt, lexLt_irrefl l]

theorem lexLt_trans : ∀ {a b c}, lexLt a b = true → lexLt b c = true → lexLt a c = true
  | _, [], _, h, _ => by cases ‹List Nat› <;> simp [lexLt] at h
  | _, _ :: _, [], _, h => by simp [lexLt] at h
  | [], _ :: _, _ :: _, _, _ => rfl
  | x :: a, y :: b, z :: c, h1, h2 => by
    simp only [lexLt, Bool.or_eq_true, decide_eq_true_eq, Bool.and_eq_true, beq_iff_eq] at h1 h2 ⊢
    rcases h1 with h1 | ⟨rfl, h1⟩
    · rcases h2 with h2 | ⟨rfl, h2⟩
      · exact .inl (by omega)
      · exact .inl h1
    · rcases h2 with h2 | ⟨rfl, h2⟩
      · exact .inl h2
      · exact .inr ⟨rfl, lexLt_trans h1 h2⟩

theorem lexLt_total : ∀ {a b}, a ≠ b → lexLt a b = false → lexLt b a = true
  | [], [], h, _ => absurd rfl h
  | [], _ :: _, _, h => by simp [lexLt] at h
  | _ :: _, [], _, _ => rfl
  | x :: a, y :: b, h, h1 => by
    simp only [lexLt, Bool.or_eq_false_iff, decide_eq_false_iff_not, Bool.and_eq_false_imp, beq_iff_eq] at h1
    simp only [lexLt, Bool.or_eq_true, decide_eq_true_eq, Bool.and_eq_true, beq_iff_eq]
    by_cases e : x = y
    · subst e
      exact .inr ⟨rfl, lexLt_total (fun e => h (by rw [e])) (h1.2 rfl)⟩
    · exact .inl (by omega)

theorem lexLt_ne {a b} (h : lexLt a b = true) : a ≠ b := by
  rintro rfl; rw [lexLt_irrefl] at h; cases h

/-- Rank of a list element. -/
abbrev rk (p : Nat × Val) : List Nat := entryRank p.2

/-- In strictly ascending key order. -/
def Asc (l : List (Nat × Val)) : Prop := l.Pairwise (fun a b => lexLt (rk a) (rk b) = true)

/-- The entry with a rank. -/
def look (l : List (Nat × Val)) (k : List Nat) : Option Val := (l.find? (fun p => rk p = k)).map Prod.snd

theorem mem_insertOrAssign {e : Val} {x : Nat × Val} : ∀ {es : List (Nat × Val)}, x ∈ insertOrAssign e es → x ∈ es ∨ x = (0, e)
  | [], h => by simp [insertOrAssign] at h; exact .inr h
  | (a, v) :: es, h => by
    simp only [insertOrAssign] at h
    split at h
    · rcases List.mem_cons.1 h with rfl | h
      · exact .inr rfl
      · exact .inl (List.mem_cons_of_mem _ h)
    · split at h
      · rcases List.mem_cons.1 h with rfl | h
        · exact .inr rfl
        · exact .inl h
      · rcases List.mem_cons.1 h with rfl | h
        · exact .inl List.mem_cons_self
        · rcases mem_insertOrAssign h with h | h
          · exact .inl (List.mem_cons_of_mem _ h)
          · exact .inr h

theorem asc_insert (e : Val) : ∀ {l}, Asc l → Asc (insertOrAssign e l)
  | [], _ => by simp [insertOrAssign, Asc]
  | (a, x) :: l, h => by
    obtain ⟨h1, h2⟩ := List.pairwise_cons.1 h
    simp only [insertOrAssign]
    split
    · rename_i he
      refine List.pairwise_cons.2 ⟨fun b hb => ?_, h2⟩
      have := h1 b hb
      rw [show rk (0, e) = rk (a, x) from he.symm]
      exact this
    · rename_i hne
      split
      · rename_i hlt
        refine List.pairwise_cons.2 ⟨fun b hb => ?_, h⟩
        rcases List.mem_cons.1 hb with rfl | hb
        · exact hlt
        · exact lexLt_trans hlt (h1 b hb)
      · rename_i hlt
        refine List.pairwise_cons.2 ⟨fun b hb => ?_, asc_insert e h2⟩
        rcases mem_insertOrAssign hb with hb | rfl
        · exact h1 b hb
        · exact lexLt_total (fun e => hne e.symm) (by simpa using hlt)

theorem look_cons (p : Nat × Val) (l k) : look (p :: l) k = if rk p = k then some p.2 else look l k := by
  unfold look
  rw [List.find?_cons]
  by_cases h : rk p = k
  · simp [h]
  · simp [h]

theorem look_insert (e : Val) (k) : ∀ {l}, Asc l → look (insertOrAssign e l) k = if entryRank e = k then some e else look l k
  | [], _ => by
    rw [insertOrAssign, look_cons]
  | (a, x) :: l, h => by
    simp only [insertOrAssign]
    split
    · rename_i he
      rw [look_cons, look_cons]
      show (if entryRank e = k then some e else _) = if entryRank e = k then some e else if entryRank x = k then _ else _
      rw [he]
      split <;> rfl
    · rename_i hne
      split
      · rw [look_cons]
      · rw [look_cons, look_cons, look_insert e k (List.pairwise_cons.1 h).2]
        show (if entryRank x = k then _ else _) = if entryRank e = k then _ else if entryRank x = k then _ else _
        by_cases h1 : entryRank x = k
        · rw [if_pos h1, if_neg (fun h2 => hne (h1.trans h2.symm)), if_pos h1]
        · rw [if_neg h1, if_neg h1]

theorem look_mem {l k e} (h : look l k = some e) : ∃ a, (a, e) ∈ l ∧ entryRank e = k := by
  unfold look at h
  rw [Option.map_eq_some_iff] at h
  obtain ⟨p, hp, rfl⟩ := h
  exact ⟨p.1, List.mem_of_find?_eq_some hp, by simpa using List.find?_some hp⟩

theorem look_of_mem : ∀ {l : List (Nat × Val)} {p}, Asc l → p ∈ l → look l (rk p) = some p.2
  | q :: l, p, h, hp => by
    obtain ⟨h1, h2⟩ := List.pairwise_cons.1 h
    rw [look_cons]
    rcases List.mem_cons.1 hp with rfl | hp
    · simp
    · rw [if_neg (lexLt_ne (h1 p hp)), look_of_mem h2 hp]

/-- Sorted lists of untagged entries are determined by their lookups. -/
theorem asc_ext : ∀ {l l' : List (Nat × Val)}, Asc l → Asc l' → (∀ p ∈ l, p.1 = 0) → (∀ p ∈ l', p.1 = 0) →
    (∀ k, look l k = look l' k) → l = l'
  | [], [], _, _, _, _, _ => rfl
  | [], q :: l', _, _, _, _, h => by have := h (rk q); rw [look_cons] at this; simp [look] at this
  | q :: l, [], _, _, _, _, h => by have := h (rk q); rw [look_cons] at this; simp [look] at this
  | p :: l, q :: l', h1, h2, z1, z2, h => by
    obtain ⟨a1, a2⟩ := List.pairwise_cons.1 h1
    obtain ⟨b1, b2⟩ := List.pairwise_cons.1 h2
    have hpq : rk p = rk q := by
      by_cases e : rk p = rk q
      · exact e
      · exfalso
        have hp := h (rk p)
        have hq := h (rk q)
        rw [look_cons, if_pos rfl, look_cons, if_neg (fun h => e h.symm)] at hp
        rw [look_cons, if_neg e, look_cons, if_pos rfl] at hq
        obtain ⟨a, ma, ra⟩ := look_mem hp.symm
        obtain ⟨b, mb, rb⟩ := look_mem hq
        have l1 := b1 _ ma
        have l2 := a1 _ mb
        have := lexLt_trans l1 l2
        rw [show rk (b, q.2) = rk q from rfl, lexLt_irrefl] at this
        cases this
    have hp := h (rk p)
    rw [look_cons, if_pos rfl, look_cons, if_pos hpq.symm] at hp
    have e : p = q := Prod.ext ((z1 p List.mem_cons_self).trans (z2 q List.mem_cons_self).symm) (by simpa using hp)
    subst e
    rw [asc_ext a2 b2 (fun x hx => z1 x (List.mem_cons_of_mem _ hx)) (fun x hx => z2 x (List.mem_cons_of_mem _ hx))]
    intro k
    have := h k
    rw [look_cons, look_cons] at this
    by_cases e : rk p = k
    · subst e
      have no : ∀ l, (∀ a ∈ l, lexLt (rk p) (rk a) = true) → look l (rk p) = none := by
        intro l hl
        unfold look
        rw [Option.map_eq_none_iff, List.find?_eq_none]
        intro x hx he
        exact lexLt_ne (hl x hx) (by simpa [eq_comm] using he)
      rw [no _ a1, no _ b1]
    · rwa [if_neg e, if_neg e] at this

/-- Several entries one after the other. -/
def insertAll (es : List Val) (l : List (Nat × Val)) : List (Nat × Val) := es.foldl (fun l e => insertOrAssign e l) l

theorem asc_insertAll : ∀ (es : List Val) {l}, Asc l → Asc (insertAll es l)
  | [], _, h => h
  | e :: es, _, h => asc_insertAll es (asc_insert e h)

theorem look_insertAll (k) : ∀ (es : List Val) {l}, Asc l →
    look (insertAll es l) k = ((es.filter (fun e => entryRank e = k)).getLast?).or (look l k)
  | [], _, _ => by simp [insertAll]
  | e :: es, l, h => by
    show look (insertAll es (insertOrAssign e l)) k = _
    rw [look_insertAll k es (asc_insert e h), look_insert e k h, List.filter_cons]
    by_cases he : entryRank e = k
    · simp only [he, decide_true, if_true, List.getLast?_cons]
      cases (es.filter (fun e => decide (entryRank e = k))).getLast? <;> rfl
    · simp [he]

theorem zero_insertAll : ∀ (es : List Val) {l : List (Nat × Val)}, (∀ p ∈ l, p.1 = 0) → ∀ p ∈ insertAll es l, p.1 = 0
  | [], _, h => h
  | e :: es, l, h => zero_insertAll es (fun p hp => by
      rcases mem_insertOrAssign hp with hp | rfl
      · exact h p hp
      · rfl)

theorem entryRank_key (a b : Val) : entryRank a = entryRank b ↔ mapKey a = mapKey b := by
  have f : ∀ v, entryRank v = match mapKey v with
      | some (.inl n) => [0, n] | some (.inr l) => 1 :: l.map BitVec.toNat | none => [] := by
    intro v
    cases v with
    | num _ => rfl
    | bytes _ => rfl
    | msg m =>
      simp only [entryRank, Val.entryKey, mapKey]
      cases h : m.get 0 with
      | nil => rfl
      | cons p l => obtain ⟨a, v⟩ := p; cases v <;> rfl
  rw [f, f]
  constructor
  · intro h
    cases ha : mapKey a with
    | none => cases hb : mapKey b with
      | none => rfl
      | some y => cases y <;> simp [ha, hb] at h
    | some x => cases hb : mapKey b with
      | none => cases x <;> simp [ha, hb] at h
      | some y =>
        cases x <;> cases y <;> simp [ha, hb] at h
        · rw [h]
        · rw [(List.map_inj_right (fun a b h => BitVec.eq_of_toNat_eq h)).1 h]
  · intro h; rw [h]

end HppProto
