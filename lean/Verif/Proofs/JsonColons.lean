import Verif.Proofs.JsonRef

/-! # Colons in JSON texts

Between two colons outside of strings there is a brace or a comma. -/

namespace HppProto.Json
open HppProto HppProto.Spec

/-- One character; the state: a colon was seen since the last brace or comma; outside strings, inside, after a backslash. -/
def colonStep : Option (Bool × Nat) → Byte → Option (Bool × Nat)
  | none, _ => none
  | some (b, 0), c =>
    if c = 0x22 then some (b, 1)
    else if c = 0x3a then (if b then none else some (true, 0))
    else if c = 0x7b ∨ c = 0x2c then some (false, 0)
    else some (b, 0)
  | some (b, 1), c => if c = 0x22 then some (b, 0) else if c = 0x5c then some (b, 2) else some (b, 1)
  | some (b, _ + 2), _ => some (b, 1)

def colons (s : Option (Bool × Nat)) (t : List Byte) : Option (Bool × Nat) := t.foldl colonStep s

/-- The text can follow a colon. -/
def Lives (t : List Byte) : Prop := ∀ b, ∃ b', colons (some (b, 0)) t = some (b', 0)

/-- The text can follow a brace or a comma. -/
def LivesFresh (t : List Byte) : Prop := ∃ b', colons (some (false, 0)) t = some (b', 0)

theorem Lives.fresh {t : List Byte} (h : Lives t) : LivesFresh t := h false

theorem Lives.append {s t : List Byte} (h : Lives s) (h' : Lives t) : Lives (s ++ t) := by
  intro b
  obtain ⟨b1, e1⟩ := h b
  obtain ⟨b2, e2⟩ := h' b1
  refine ⟨b2, ?_⟩
  unfold colons at e1 e2 ⊢
  rw [List.foldl_append, e1, e2]

theorem LivesFresh.append {s t : List Byte} (h : LivesFresh s) (h' : Lives t) : LivesFresh (s ++ t) := by
  obtain ⟨b1, e1⟩ := h
  obtain ⟨b2, e2⟩ := h' b1
  refine ⟨b2, ?_⟩
  unfold colons at e1 e2 ⊢
  rw [List.foldl_append, e1, e2]

/-- The text does not change the state. -/
def Still (t : List Byte) : Prop := ∀ b, colons (some (b, 0)) t = some (b, 0)

theorem Still.lives {t : List Byte} (h : Still t) : Lives t := fun b => ⟨b, h b⟩

theorem Still.fresh_append {s t : List Byte} (h : Still s) (h' : LivesFresh t) : LivesFresh (s ++ t) := by
  obtain ⟨b2, e2⟩ := h'
  refine ⟨b2, ?_⟩
  have := h false
  unfold colons at this e2 ⊢
  rw [List.foldl_append, this, e2]

theorem still_chars : ∀ {t : List Byte}, (∀ c ∈ t, c ≠ 0x22 ∧ c ≠ 0x3a ∧ c ≠ 0x7b ∧ c ≠ 0x2c) → Still t
  | [], _ => fun _ => rfl
  | c :: t, h => by
    intro b
    obtain ⟨h1, h2, h3, h4⟩ := h c (by simp)
    have ih := still_chars (t := t) (fun x hx => h x (by simp [hx])) b
    unfold colons at ih ⊢
    rw [List.foldl_cons]
    simp only [colonStep, if_neg h1, if_neg h2]
    rw [if_neg (by exact fun h => h.elim h3 h4), ih]

theorem inside_colons {u : List Byte} (h : Inside u) (b : Bool) (rest : List Byte) :
    colons (some (b, 1)) (u ++ 0x22 :: rest) = colons (some (b, 0)) rest := by
  induction h with
  | nil => simp [colons, colonStep]
  | esc e _ ih =>
    rw [← ih]
    simp [colons, colonStep]
  | @char c s h1 h2 _ ih =>
    rw [← ih]
    unfold colons
    rw [List.cons_append, List.foldl_cons]
    have : colonStep (some (b, 1)) c = some (b, 1) := by simp only [colonStep, if_neg h1, if_neg h2]
    rw [this]

theorem still_str {v t : List Byte} (h : StrLit v t) : Still t := by
  obtain ⟨u, hu, rfl⟩ := h
  intro b
  have := inside_colons (inside_unescape u v hu) b []
  have e : 0x22 :: u ++ [0x22] = 0x22 :: (u ++ 0x22 :: []) := by simp
  rw [e]
  unfold colons at this ⊢
  rw [List.foldl_cons]
  have e2 : colonStep (some (b, 0)) 0x22 = some (b, 1) := by simp [colonStep]
  rw [e2, this]
  rfl

theorem still_ws {a : List Byte} (h : Ws a) : Still a := by
  refine still_chars fun c hc => ?_
  rcases h c hc with rfl | rfl | rfl | rfl <;> decide

theorem digit_still {c : Byte} (h : isDigit c = true) : c ≠ 0x22 ∧ c ≠ 0x3a ∧ c ≠ 0x7b ∧ c ≠ 0x2c := by
  refine ⟨?_, ?_, ?_, ?_⟩ <;> (rintro rfl; revert h; decide)

theorem still_num {t : List Byte} (h : NumText t) : Still t := by
  obtain ⟨sign, whole, frac, exp, rfl, hs, hw, _, hf, he⟩ := h
  refine still_chars fun c hc => ?_
  simp only [List.mem_append] at hc
  rcases hc with ((hc | hc) | hc) | hc
  · rcases hs with rfl | rfl
    · cases hc
    · rw [List.mem_singleton.1 hc]; decide
  · exact digit_still (hw.2 c hc)
  · rcases hf with rfl | ⟨ds, hd, rfl⟩
    · cases hc
    · rcases List.mem_cons.1 hc with rfl | hc
      · decide
      · exact digit_still (hd.2 c hc)
  · rcases he with rfl | ⟨e, s, ds, h1, h2, h3, rfl⟩
    · cases hc
    · simp only [List.cons_append, List.mem_cons, List.mem_append] at hc
      rcases hc with rfl | hc | hc
      · rcases h1 with rfl | rfl <;> decide
      · rcases h2 with rfl | rfl | rfl
        · cases hc
        · rw [List.mem_singleton.1 hc]; decide
        · rw [List.mem_singleton.1 hc]; decide
      · exact digit_still (h3.2 c hc)

theorem lives_reset {c : Byte} (hc : c = 0x7b ∨ c = 0x2c) {t : List Byte} (h : LivesFresh t) : Lives (c :: t) := by
  intro b
  obtain ⟨b', e⟩ := h
  refine ⟨b', ?_⟩
  unfold colons at e ⊢
  rw [List.foldl_cons]
  have : colonStep (some (b, 0)) c = some (false, 0) := by
    rcases hc with rfl | rfl <;> simp [colonStep]
  rw [this, e]

theorem lives_colon {t : List Byte} (h : Lives t) : LivesFresh (0x3a :: t) := by
  obtain ⟨b', e⟩ := h true
  refine ⟨b', ?_⟩
  unfold colons at e ⊢
  rw [List.foldl_cons]
  have : colonStep (some (false, 0)) 0x3a = some (true, 0) := by simp [colonStep]
  rw [this, e]

mutual
theorem lives_spells : ∀ {j : JTree} {t : List Byte}, Spells j t → Lives t
  | _, _, .null => (still_chars (by decide)).lives
  | _, _, .true => (still_chars (by decide)).lives
  | _, _, .false => (still_chars (by decide)).lives
  | _, _, .num h => (still_num h).lives
  | _, _, .str h => (still_str h.1).lives
  | _, _, .arr (t := t) h => by
    have h1 : Lives [0x5b] := (still_chars (by decide)).lives
    have h2 : Lives [0x5d] := (still_chars (by decide)).lives
    exact (h1.append (lives_items h)).append h2
  | _, _, .obj h => (lives_reset (.inl rfl) (lives_members h)).append (still_chars (by decide)).lives
theorem lives_items : ∀ {xs : List JTree} {t : List Byte}, SpellsItems xs t → Lives t
  | _, _, .nil h => (still_ws h).lives
  | _, _, .one ha h hb => ((still_ws ha).lives.append (lives_spells h)).append (still_ws hb).lives
  | _, _, .more ha h hb hr =>
    (((still_ws ha).lives.append (lives_spells h)).append (still_ws hb).lives).append
      (lives_reset (.inr rfl) (lives_items hr).fresh)
theorem lives_members : ∀ {ps : List (JStr × JTree)} {t : List Byte}, SpellsMembers ps t → LivesFresh t
  | _, _, .nil h => (still_ws h).lives.fresh
  | _, _, .one ha h hb => ((still_ws ha).fresh_append (lives_member h)).append (still_ws hb).lives
  | _, _, .more ha h hb hr =>
    (((still_ws ha).fresh_append (lives_member h)).append (still_ws hb).lives).append
      (lives_reset (.inr rfl) (lives_members hr))
theorem lives_member : ∀ {p : JStr × JTree} {t : List Byte}, SpellsMember p t → LivesFresh t
  | _, _, .mk (s := s) (a := a) (b := b) (t := t) hs ha hb h => by
    have e : s ++ a ++ 0x3a :: b ++ t = s ++ (a ++ 0x3a :: (b ++ t)) := by simp
    rw [e]
    exact (still_str hs.1).fresh_append ((still_ws ha).fresh_append (lives_colon ((still_ws hb).lives.append (lives_spells h))))
end

/-- A JSON text has no two colons without a brace or a comma between them. -/
theorem json_colons {j : JTree} {t : List Byte} (h : JsonText j t) : (colons (some (false, 0)) t).isSome = true := by
  obtain ⟨a, u, b, ha, hu, hb, rfl⟩ := h
  obtain ⟨b', e⟩ := (((still_ws ha).lives.append (lives_spells hu)).append (still_ws hb).lives) false
  rw [e]
  rfl

end HppProto.Json
