import Verif.Spec.JsonForm
import Verif.Proofs.Base64
import Verif.Proofs.Decimal
import Verif.Proofs.Lexical
import Verif.Props.Timestamp
import Verif.Props.Duration
import Verif.Props.FieldMask
import Verif.Props.Base64

/-! # JSON texts: lexical facts -/

namespace HppProto.Json
open HppProto HppProto.Spec

/-! ## Plain text -/

theorem plain_nil : Plain [] := by intro c h; cases h

theorem plain_append {a b : List Byte} (ha : Plain a) (hb : Plain b) : Plain (a ++ b) := by
  intro c h
  rcases List.mem_append.1 h with h | h
  · exact ha c h
  · exact hb c h

theorem plain_cons {c : Byte} {b : List Byte} (hc : 0x20 ≤ c.toNat ∧ c ≠ 0x22 ∧ c ≠ 0x5c) (hb : Plain b) :
    Plain (c :: b) := by
  intro x h
  rcases List.mem_cons.1 h with h | h
  · rw [h]; exact hc
  · exact hb x h

theorem digit_plain (c : Byte) (h : isDigit c = true) : 0x20 ≤ c.toNat ∧ c ≠ 0x22 ∧ c ≠ 0x5c := by
  have := Lex.byteAll (fun c => !isDigit c || decide (0x20 ≤ c.toNat ∧ c ≠ 0x22 ∧ c ≠ 0x5c)) (by decide +kernel) c
  simpa [h] using this

theorem digits_plain {t : List Byte} (h : ∀ c ∈ t, isDigit c = true) : Plain t :=
  fun c hc => digit_plain c (h c hc)

theorem unescape_plain : ∀ {v : List Byte}, Plain v → unescape v = some v
  | [], _ => rfl
  | c :: v, h => by
    obtain ⟨h1, h2, h3⟩ := h c (by simp)
    have ih := unescape_plain (v := v) (fun x hx => h x (by simp [hx]))
    rw [unescape.eq_def]
    simp only
    rw [if_neg h3, if_neg (by rintro (h | h); exact h2 h; omega), ih]
    rfl

theorem strLit_plain {v : List Byte} (h : Plain v) : StrLit v (0x22 :: v ++ [0x22]) :=
  ⟨v, unescape_plain h, rfl⟩

theorem spellsStr_plain {v : List Byte} (h : Plain v) : SpellsStr ⟨v, true⟩ (quoted v) :=
  ⟨strLit_plain h, fun _ => ⟨h, rfl⟩⟩

theorem toDec_digits (n : Nat) : ∀ c ∈ toDec n, isDigit c = true := toDecAux_digits 19 n

theorem intText_plain (v : Int) : Plain (intText v) := by
  unfold intText
  split
  · exact plain_cons (by decide) (digits_plain (toDec_digits _))
  · exact digits_plain (toDec_digits _)

theorem base64_plain (bs : List Byte) : Plain (base64Encode bs) := by
  rw [encode_text]
  unfold base64Text
  refine plain_append ?_ ?_
  · intro c h
    obtain ⟨i, _, rfl⟩ := List.mem_map.1 h
    unfold alphabet
    split
    · rename_i h
      have : ∀ i < 26, 0x20 ≤ (BitVec.ofNat 8 (0x41 + i) : Byte).toNat ∧ (BitVec.ofNat 8 (0x41 + i) : Byte) ≠ 0x22 ∧
        (BitVec.ofNat 8 (0x41 + i) : Byte) ≠ 0x5c := by decide +kernel
      exact this i h
    · split
      · rename_i h
        have : ∀ i < 26, 0x20 ≤ (BitVec.ofNat 8 (0x61 + i) : Byte).toNat ∧ (BitVec.ofNat 8 (0x61 + i) : Byte) ≠ 0x22 ∧
          (BitVec.ofNat 8 (0x61 + i) : Byte) ≠ 0x5c := by decide +kernel
        exact this (i - 26) (by omega)
      · split
        · rename_i h
          have : ∀ i < 10, 0x20 ≤ (BitVec.ofNat 8 (0x30 + i) : Byte).toNat ∧ (BitVec.ofNat 8 (0x30 + i) : Byte) ≠ 0x22 ∧
            (BitVec.ofNat 8 (0x30 + i) : Byte) ≠ 0x5c := by decide +kernel
          exact this (i - 52) (by omega)
        · split <;> decide
  · intro c h
    rw [List.eq_of_mem_replicate h]
    decide

theorem nanosDigits_plain (n : Nat) : Plain (nanosDigits n) := by
  unfold nanosDigits
  simp only
  split
  · exact plain_append (plain_append (digits_plain (fixed_digits _ _)) (digits_plain (fixed_digits _ _)))
      (digits_plain (fixed_digits _ _))
  · split
    · exact plain_append (digits_plain (fixed_digits _ _)) (digits_plain (fixed_digits _ _))
    · exact digits_plain (fixed_digits _ _)

theorem timestamp_plain {s n : Int} {t : List Byte} (h : timestampEncode s n = some t) : Plain t := by
  unfold timestampEncode at h
  split at h
  · cases h
  · split at h
    · cases h
    · simp only [Option.some.injEq] at h
      rw [← h]
      have one : ∀ c : Byte, 0x20 ≤ c.toNat ∧ c ≠ 0x22 ∧ c ≠ 0x5c → Plain [c] := fun c hc => plain_cons hc plain_nil
      have fd : ∀ k n, Plain (fixedDigits k n) := fun k n => digits_plain (fixed_digits k n)
      refine plain_append ?_ ?_
      · repeat' first
          | exact fd _ _
          | exact one _ (by decide)
          | apply plain_append
      · split
        · exact plain_append (plain_append (plain_append (fd _ _) (one _ (by decide))) (nanosDigits_plain _))
            (one _ (by decide))
        · exact plain_append (fd _ _) (one _ (by decide))

theorem duration_plain {s n : Int} {t : List Byte} (h : durationEncode s n = some t) : Plain t := by
  unfold durationEncode at h
  split at h
  · cases h
  · simp only [Option.some.injEq] at h
    rw [← h]
    have one : ∀ c : Byte, 0x20 ≤ c.toNat ∧ c ≠ 0x22 ∧ c ≠ 0x5c → Plain [c] := fun c hc => plain_cons hc plain_nil
    refine plain_append (plain_append (plain_append ?_ (digits_plain (toDec_digits _))) ?_) (one _ (by decide))
    · split
      · exact one _ (by decide)
      · exact plain_nil
    · split
      · exact plain_cons (by decide) (nanosDigits_plain _)
      · exact plain_nil

/-! ## Numbers -/

theorem numText_int {v : Int} (h : v.natAbs < 10 ^ 20) : NumText (intText v) := by
  refine ⟨if v < 0 then [0x2d] else [], toDec v.natAbs, [], [], ?_, ?_, ⟨toDecAux_ne _ _, toDec_digits _⟩, ?_,
    .inl rfl, .inl rfl⟩
  · unfold intText
    split <;> simp
  · split
    · exact .inr rfl
    · exact .inl rfl
  · intro hh
    rcases Nat.eq_zero_or_pos v.natAbs with h0 | h0
    · rw [h0]; decide +kernel
    · exact absurd hh (toDecAux_head 19 _ h0 h)

theorem numText_head {t : List Byte} (h : NumText t) : ∃ c u, t = c :: u ∧ (isDigit c = true ∨ c = 0x2d) := by
  obtain ⟨sign, whole, frac, exp, rfl, hs, ⟨hne, hw⟩, -⟩ := h
  rcases hs with rfl | rfl
  · cases whole with
    | nil => exact absurd rfl hne
    | cons c w => exact ⟨c, _, rfl, .inl (hw c (by simp))⟩
  · exact ⟨0x2d, _, rfl, .inr rfl⟩

theorem numText_chars {t : List Byte} (h : NumText t) : ∀ c ∈ t, numChar c = true := by
  obtain ⟨sign, whole, frac, exp, rfl, hs, ⟨_, hw⟩, _, hf, he⟩ := h
  have hd : ∀ c, isDigit c = true → numChar c = true := by intro c h; simp [numChar, h]
  intro c hc
  simp only [List.mem_append] at hc
  rcases hc with ((hc | hc) | hc) | hc
  · rcases hs with rfl | rfl
    · cases hc
    · rw [List.mem_singleton.1 hc]; rfl
  · exact hd c (hw c hc)
  · rcases hf with rfl | ⟨ds, ⟨_, hds⟩, rfl⟩
    · cases hc
    · rcases List.mem_cons.1 hc with rfl | hc
      · rfl
      · exact hd c (hds c hc)
  · rcases he with rfl | ⟨e, s, ds, he, hs, ⟨_, hds⟩, rfl⟩
    · cases hc
    · simp only [List.cons_append, List.mem_cons, List.mem_append] at hc
      rcases hc with rfl | hc | hc
      · rcases he with rfl | rfl <;> rfl
      · rcases hs with rfl | rfl | rfl
        · cases hc
        · rw [List.mem_singleton.1 hc]; rfl
        · rw [List.mem_singleton.1 hc]; rfl
      · exact hd c (hds c hc)

theorem intRange_bounds (signed wide : Bool) :
    -2 ^ 63 ≤ (intRange signed wide).1 ∧ (intRange signed wide).2 < 2 ^ 64 := by
  cases signed <;> cases wide <;> simp [intRange] <;> omega

theorem intRange_small {signed wide : Bool} {v : Int} (h1 : (intRange signed wide).1 ≤ v)
    (h2 : v ≤ (intRange signed wide).2) : v.natAbs < 10 ^ 20 := by
  have := intRange_bounds signed wide
  omega

theorem intForm_iff {signed wide : Bool} {v : BitVec 64} {n : Int} : IntForm signed wide v n ↔
    n = intOf signed v ∧ (intRange signed wide).1 ≤ intOf signed v ∧ intOf signed v ≤ (intRange signed wide).2 := by
  have h1 := v.isLt
  have h2 := v.toInt_lt
  have h3 := v.le_toInt
  cases signed <;> cases wide <;> simp [IntForm, intOf, intRange] <;> omega

theorem ofInt_intOf (signed : Bool) (v : BitVec 64) : BitVec.ofInt 64 (intOf signed v) = v := by
  cases signed <;> simp [intOf]

/-! ## Whitespace and first characters -/

theorem ws_nil : Ws [] := by intro c h; cases h

theorem isWs_iff (c : Byte) : isWs c = true ↔ c = 0x20 ∨ c = 0x09 ∨ c = 0x0a ∨ c = 0x0d := by
  simp [isWs, or_assoc]

theorem skipWs_append {a : List Byte} (h : Ws a) (s : List Byte) : skipWs (a ++ s) = skipWs s := by
  induction a with
  | nil => rfl
  | cons c a ih =>
    have hc : isWs c = true := (isWs_iff c).2 (h c (by simp))
    have := ih (fun x hx => h x (by simp [hx]))
    unfold skipWs at *
    rw [List.cons_append, List.dropWhile_cons_of_pos hc]
    exact this

theorem skipWs_cons {c : Byte} (h : isWs c = false) (s : List Byte) : skipWs (c :: s) = c :: s := by
  unfold skipWs
  rw [List.dropWhile_cons_of_neg (by simp [h])]

theorem skipWs_ws {a : List Byte} (h : Ws a) : skipWs a = [] := by
  have := skipWs_append h []
  simpa [skipWs] using this

theorem ws_line (o : JOpts) (ind : Nat) : Ws (o.line ind) := by
  unfold JOpts.line
  split
  · intro c h
    rcases List.mem_cons.1 h with rfl | h
    · simp
    · rw [List.eq_of_mem_replicate h]; simp
  · exact ws_nil

theorem ws_space (o : JOpts) : Ws o.space := by
  unfold JOpts.space
  split
  · intro c h
    rw [List.mem_singleton.1 h]; simp
  · exact ws_nil

/-- The characters a JSON value can begin with. -/
def JTree.begins : JTree → Byte → Prop
  | .null, c => c = 0x6e
  | .bool b, c => c = if b then 0x74 else 0x66
  | .num _, c => isDigit c = true ∨ c = 0x2d
  | .str _, c => c = 0x22
  | .arr _, c => c = 0x5b
  | .obj _, c => c = 0x7b

theorem spells_head {j : JTree} {t : List Byte} (h : Spells j t) : ∃ c u, t = c :: u ∧ j.begins c := by
  cases h with
  | null => exact ⟨_, _, rfl, rfl⟩
  | true => exact ⟨_, _, rfl, rfl⟩
  | false => exact ⟨_, _, rfl, rfl⟩
  | num h => exact numText_head h
  | str h =>
    obtain ⟨⟨u, _, rfl⟩, _⟩ := h
    exact ⟨_, _, rfl, rfl⟩
  | arr _ => exact ⟨_, _, rfl, rfl⟩
  | obj _ => exact ⟨_, _, rfl, rfl⟩

/-- Neither whitespace nor anything that ends or separates values. -/
def starter (c : Byte) : Bool :=
  !isWs c && c != 0x2c && c != 0x5d && c != 0x7d && c != 0x3a && c != 0 && c != 0x2f

theorem digit_starter {c : Byte} (h : isDigit c = true ∨ c = 0x2d) : starter c = true ∧ c ≠ 0x6e ∧ c ≠ 0x66 ∧ c ≠ 0x74 ∧
    c ≠ 0x22 ∧ c ≠ 0x5b ∧ c ≠ 0x7b := by
  have := Lex.byteAll (fun c => !(isDigit c || c == 0x2d) || (starter c && decide (c ≠ 0x6e ∧ c ≠ 0x66 ∧ c ≠ 0x74 ∧
    c ≠ 0x22 ∧ c ≠ 0x5b ∧ c ≠ 0x7b))) (by decide +kernel) c
  have h' : (isDigit c || c == 0x2d) = true := by simpa using h
  rw [h'] at this
  simpa using this

theorem begins_starter {j : JTree} {c : Byte} (h : j.begins c) : starter c = true := by
  cases j with
  | null => cases h; rfl
  | bool b => cases b <;> cases h <;> rfl
  | num t => exact (digit_starter h).1
  | str s => cases h; rfl
  | arr xs => cases h; rfl
  | obj ms => cases h; rfl

theorem starter_facts {c : Byte} (h : starter c = true) :
    isWs c = false ∧ c ≠ 0x2c ∧ c ≠ 0x5d ∧ c ≠ 0x7d ∧ c ≠ 0x3a ∧ c ≠ 0 ∧ c ≠ 0x2f := by
  unfold starter at h
  simpa [and_assoc] using h

@[simp] theorem look_cons (c : Byte) (s : List Byte) : look (c :: s) = c := rfl
@[simp] theorem look_nil : look [] = 0 := rfl
@[simp] theorem step_cons (c : Byte) (s : List Byte) : step (c :: s) = .ok s := rfl
@[simp] theorem expect_cons (c : Byte) (s : List Byte) : expect c (c :: s) = .ok s := by simp [expect]

@[simp] theorem res_bind_ok {α β : Type} (a : α) (f : α → Res β) : (Res.ok a >>= f) = f a := rfl
@[simp] theorem res_bind_err {α β : Type} (e : Err) (f : α → Res β) : ((Res.err e : Res α) >>= f) = .err e := rfl
@[simp] theorem res_bind_ub {α β : Type} (f : α → Res β) : ((Res.ub : Res α) >>= f) = .ub := rfl
@[simp] theorem res_bind_stuck {α β : Type} (f : α → Res β) : ((Res.stuck : Res α) >>= f) = .stuck := rfl

theorem look_of_ne {s : List Byte} {c : Byte} (h : look s = c) (hc : c ≠ 0) : ∃ u, s = c :: u := by
  cases s with
  | nil => exact absurd h.symm hc
  | cons x u => exact ⟨u, by rw [← h]; rfl⟩

theorem numChar_ws {a : List Byte} (ha : Ws a) {c : Byte} (hc : numChar c = false) (s : List Byte) :
    numChar (look (a ++ c :: s)) = false := by
  cases a with
  | nil => exact hc
  | cons x a =>
    rcases ha x (by simp) with h | h | h | h <;> rw [h] <;> rfl

/-! ## Separated items -/

/-- Items with whitespace around them, separated by commas. -/
inductive Seq {X : Type} (Sp : X → List Byte → Prop) : List X → List Byte → Prop where
  | nil {a} : Ws a → Seq Sp [] a
  | one {x a t b} : Ws a → Sp x t → Ws b → Seq Sp [x] (a ++ t ++ b)
  | more {x y xs a t b r} : Ws a → Sp x t → Ws b → Seq Sp (y :: xs) r →
      Seq Sp (x :: y :: xs) (a ++ t ++ b ++ 0x2c :: r)

theorem seq_of_items : ∀ {xs : List JTree} {t : List Byte}, SpellsItems xs t → Seq Spells xs t
  | _, _, .nil h => .nil h
  | _, _, .one ha h hb => .one ha h hb
  | _, _, .more ha h hb hr => .more ha h hb (seq_of_items hr)

theorem items_of_seq : ∀ {xs : List JTree} {t : List Byte}, Seq Spells xs t → SpellsItems xs t
  | _, _, .nil h => .nil h
  | _, _, .one ha h hb => .one ha h hb
  | _, _, .more ha h hb hr => .more ha h hb (items_of_seq hr)

theorem seq_of_members : ∀ {xs : List (JStr × JTree)} {t : List Byte}, SpellsMembers xs t → Seq SpellsMember xs t
  | _, _, .nil h => .nil h
  | _, _, .one ha h hb => .one ha h hb
  | _, _, .more ha h hb hr => .more ha h hb (seq_of_members hr)

theorem members_of_seq : ∀ {xs : List (JStr × JTree)} {t : List Byte}, Seq SpellsMember xs t → SpellsMembers xs t
  | _, _, .nil h => .nil h
  | _, _, .one ha h hb => .one ha h hb
  | _, _, .more ha h hb hr => .more ha h hb (members_of_seq hr)

theorem spellsStr_head {s : JStr} {t : List Byte} (h : SpellsStr s t) : ∃ u, t = 0x22 :: u := by
  obtain ⟨⟨u, _, rfl⟩, _⟩ := h
  exact ⟨_, rfl⟩

theorem member_head {p : JStr × JTree} {t : List Byte} (h : SpellsMember p t) : ∃ u, t = 0x22 :: u := by
  cases h with
  | mk hs _ _ _ =>
    obtain ⟨u, rfl⟩ := spellsStr_head hs
    exact ⟨_, rfl⟩

/-- The text that the writer makes of items. -/
theorem seq_intercalate {X : Type} {Sp : X → List Byte → Prop} {w w' : List Byte} (hw : Ws w) (hw' : Ws w') :
    ∀ {xs : List X} {ts : List (List Byte)}, All2 Sp xs ts → ∀ {a}, Ws a →
      Seq Sp xs (a ++ List.intercalate (0x2c :: w) ts ++ w')
  | [], [], _, a, ha => by
    have : Ws (a ++ w') := by
      intro c h
      rcases List.mem_append.1 h with h | h
      · exact ha c h
      · exact hw' c h
    simpa [List.intercalate] using Seq.nil (Sp := Sp) this
  | [x], [t], h, a, ha => by
    simpa [List.intercalate] using Seq.one ha h.1 hw'
  | x :: y :: xs, t :: u :: ts, h, a, ha => by
    have ih := seq_intercalate hw hw' (xs := y :: xs) (ts := u :: ts) h.2 hw
    have := Seq.more ha h.1 ws_nil ih
    simpa [List.intercalate, List.intersperse] using this
  | [], _ :: _, h, _, _ => h.elim
  | _ :: _, [], h, _, _ => h.elim
  | [_], _ :: _ :: _, h, _, _ => h.2.elim
  | _ :: _ :: _, [_], h, _, _ => h.2.elim

/-! ## Counting -/

section
variable (G : Glaze)

theorem countLoop_more {stop : Byte} : ∀ {k : Nat} {n : Nat} {s : List Byte} {v : Nat},
    countLoopJson G stop k n s = .ok v → countLoopJson G stop (k + 1) n s = .ok v
  | 0, _, _, _, h => by cases h
  | k + 1, n, s, v, h => by
    rw [countLoopJson] at h ⊢
    have skip : ∀ {r : Res (List Byte)} {n : Nat}, (r >>= fun s => countLoopJson G stop k n s) = .ok v →
        (r >>= fun s => countLoopJson G stop (k + 1) n s) = .ok v := by
      intro r n h
      cases r with
      | ok u => exact countLoop_more h
      | err e => cases h
      | ub => cases h
      | throw => cases h
      | stuck => cases h
    have skip2 : ∀ {r : Res (List Byte)} {g : List Byte → Res (List Byte)} {n : Nat},
        (r >>= fun s => g s >>= fun s => countLoopJson G stop k n s) = .ok v →
        (r >>= fun s => g s >>= fun s => countLoopJson G stop (k + 1) n s) = .ok v := by
      intro r g n h
      cases r with
      | ok u => exact skip h
      | err e => cases h
      | ub => cases h
      | throw => cases h
      | stuck => cases h
    repeat' split at h
    all_goals simp_all

theorem countLoop_cons {stop : Byte} (k n : Nat) (c : Byte) (s : List Byte) :
    countLoopJson G stop (k + 1) n (c :: s) =
      if c = 0x2c then countLoopJson G stop k (n + 1) s
      else if c = 0x2f then G.skipComment (c :: s) >>= countLoopJson G stop k n
      else if c = 0x7b then G.skipObj s >>= countLoopJson G stop k n
      else if c = 0x5b then G.skipArr s >>= countLoopJson G stop k n
      else if c = 0x22 then G.skipStr (c :: s) >>= countLoopJson G stop k n
      else if c = 0 then .err .badMessage
      else if c = stop then .ok n
      else countLoopJson G stop k n s := rfl

/-- Counting `s` from `n` gives `v` within the fuel that `s` provides. -/
def Counts (stop : Byte) (n : Nat) (s : List Byte) (v : Nat) : Prop :=
  ∃ k, k ≤ s.length + 1 ∧ countLoopJson G stop k n s = .ok v

theorem counts_full {stop : Byte} {n v : Nat} {s : List Byte} (h : Counts G stop n s v) :
    countLoopJson G stop (s.length + 1) n s = .ok v := by
  obtain ⟨k, hk, h⟩ := h
  obtain ⟨e, he⟩ : ∃ e, s.length + 1 = k + e := ⟨s.length + 1 - k, by omega⟩
  rw [he]
  clear he hk
  induction e with
  | zero => exact h
  | succ e ih => exact countLoop_more G ih

/-- A text that is passed without counting. -/
def Passes (stop : Byte) (t : List Byte) : Prop :=
  ∀ n rest v, Counts G stop n rest v → Counts G stop n (t ++ rest) v

theorem passes_nil {stop : Byte} : Passes G stop [] := fun _ _ _ h => h

theorem passes_append {stop : Byte} {t u : List Byte} (ht : Passes G stop t) (hu : Passes G stop u) :
    Passes G stop (t ++ u) := by
  intro n rest v h
  rw [List.append_assoc]
  exact ht _ _ _ (hu _ _ _ h)

/-- A character that is just stepped over. -/
def dull (c : Byte) : Bool := c != 0x2c && c != 0x2f && c != 0x7b && c != 0x5b && c != 0x22 && c != 0 && c != 0x5d && c != 0x7d

theorem passes_dull {stop : Byte} (hstop : stop = 0x5d ∨ stop = 0x7d) {c : Byte} (hc : dull c = true) :
    Passes G stop [c] := by
  intro n rest v ⟨k, hk, h⟩
  refine ⟨k + 1, by simp; omega, ?_⟩
  unfold dull at hc
  simp only [bne_iff_ne, Bool.and_eq_true, ne_eq, and_assoc] at hc
  obtain ⟨h1, h2, h3, h4, h5, h6, h7, h8⟩ := hc
  have h9 : c ≠ stop := by rcases hstop with rfl | rfl <;> assumption
  rw [List.singleton_append, countLoop_cons, if_neg h1, if_neg h2, if_neg h3, if_neg h4, if_neg h5, if_neg h6,
    if_neg h9]
  exact h

theorem passes_dulls {stop : Byte} (hstop : stop = 0x5d ∨ stop = 0x7d) : ∀ {t : List Byte},
    (∀ c ∈ t, dull c = true) → Passes G stop t
  | [], _ => passes_nil G
  | c :: t, h => by
    have := passes_append G (passes_dull G hstop (h c (by simp))) (passes_dulls hstop (t := t) (fun x hx => h x (by simp [hx])))
    simpa using this

theorem ws_dull {a : List Byte} (h : Ws a) : ∀ c ∈ a, dull c = true := by
  intro c hc
  rcases h c hc with rfl | rfl | rfl | rfl <;> rfl

theorem num_dull {t : List Byte} (h : NumText t) : ∀ c ∈ t, dull c = true := by
  intro c hc
  have := Lex.byteAll (fun c => !numChar c || dull c) (by decide +kernel) c
  simpa [numText_chars h c hc] using this

variable {G} (L : G.Lawful)
include L

theorem passes_str {stop : Byte} {v t : List Byte} (h : StrLit v t) : Passes G stop t := by
  intro n rest x ⟨k, hk, hc⟩
  refine ⟨k + 1, ?_, ?_⟩
  · obtain ⟨u, _, rfl⟩ := h
    simp; omega
  · have hs := L.skipStr v t rest h
    obtain ⟨u, _, rfl⟩ := h
    rw [countLoopJson]
    simp only [List.cons_append, look_cons] at hs ⊢
    rw [if_neg (by decide), if_neg (by decide), if_neg (by decide), if_neg (by decide), if_pos trivial, hs]
    exact hc

theorem passes_spells {stop : Byte} (hstop : stop = 0x5d ∨ stop = 0x7d) {j : JTree} {t : List Byte}
    (h : Spells j t) : Passes G stop t := by
  cases h with
  | null => exact passes_dulls G hstop (by decide)
  | true => exact passes_dulls G hstop (by decide)
  | false => exact passes_dulls G hstop (by decide)
  | num h => exact passes_dulls G hstop (num_dull h)
  | str h => exact passes_str L h.1
  | @arr xs t h =>
    intro n rest x ⟨k, hk, hc⟩
    refine ⟨k + 1, by simp; omega, ?_⟩
    have hs := L.skipArr xs t rest h
    rw [countLoopJson]
    simp only [List.cons_append, look_cons, List.append_assoc, List.singleton_append] at hs ⊢
    rw [if_neg (by decide), if_neg (by decide), if_neg (by decide), if_pos trivial]
    simp only [step_cons, res_bind_ok, List.nil_append, hs]
    exact hc
  | @obj xs t h =>
    intro n rest x ⟨k, hk, hc⟩
    refine ⟨k + 1, by simp; omega, ?_⟩
    have hs := L.skipObj xs t rest h
    rw [countLoopJson]
    simp only [List.cons_append, look_cons, List.append_assoc, List.singleton_append] at hs ⊢
    rw [if_neg (by decide), if_neg (by decide), if_pos trivial]
    simp only [step_cons, res_bind_ok, List.nil_append, hs]
    exact hc

theorem passes_member {stop : Byte} (hstop : stop = 0x5d ∨ stop = 0x7d) {p : JStr × JTree} {t : List Byte}
    (h : SpellsMember p t) : Passes G stop t := by
  cases h with
  | @mk k x s a b t hs ha hb ht =>
    have h1 := passes_str (stop := stop) L hs.1
    have h2 := passes_dulls G hstop (ws_dull ha)
    have h3 := passes_dull G hstop (c := 0x3a) rfl
    have h4 := passes_dulls G hstop (ws_dull hb)
    have := passes_append G h1 (passes_append G h2 (passes_append G h3 (passes_append G h4 (passes_spells L hstop ht))))
    simpa using this

omit L in
theorem counts_stop {stop : Byte} (hstop : stop = 0x5d ∨ stop = 0x7d) (n : Nat) (rest : List Byte) :
    Counts G stop n (stop :: rest) n := by
  refine ⟨1, by simp, ?_⟩
  rw [countLoopJson]
  rcases hstop with rfl | rfl <;> simp <;> decide

omit L in
/-- Counting items from `n` adds the number of commas. -/
theorem seq_counts {X : Type} {Sp : X → List Byte → Prop} {stop : Byte} (hstop : stop = 0x5d ∨ stop = 0x7d)
    (hpass : ∀ x t, Sp x t → Passes G stop t) (rest : List Byte) :
    ∀ {xs : List X} {t : List Byte}, Seq Sp xs t → ∀ n, Counts G stop (n + 1) (t ++ stop :: rest) (n + max 1 xs.length)
  | _, _, .nil ha, n => passes_dulls G hstop (ws_dull ha) _ _ _ (counts_stop hstop _ rest)
  | _, _, .one (a := a) (t := t) (b := b) ha h hb, n => by
    have := passes_dulls G hstop (ws_dull ha) _ _ _ (hpass _ _ h _ _ _ (passes_dulls G hstop (ws_dull hb) _ _ _
      (counts_stop hstop (n + 1) rest)))
    simpa using this
  | _, _, .more (x := x) (y := y) (xs := xs) (a := a) (t := t) (b := b) (r := r) ha h hb hr, n => by
    have ih := seq_counts hstop hpass rest hr (n + 1)
    have hcomma : Counts G stop (n + 1) (0x2c :: (r ++ stop :: rest)) (n + 1 + max 1 (y :: xs).length) := by
      obtain ⟨k, hk, hc⟩ := ih
      refine ⟨k + 1, by simp at hk ⊢; omega, ?_⟩
      rw [countLoopJson]
      simpa using hc
    have := passes_dulls G hstop (ws_dull ha) _ _ _ (hpass _ _ h _ _ _ (passes_dulls G hstop (ws_dull hb) _ _ _ hcomma))
    have e : n + 1 + max 1 (y :: xs).length = n + max 1 (x :: y :: xs).length := by simp; omega
    rw [e] at this
    simpa using this

omit L in
theorem countJson_seq {X : Type} {Sp : X → List Byte → Prop} {stop : Byte} (hstop : stop = 0x5d ∨ stop = 0x7d)
    (hpass : ∀ x t, Sp x t → Passes G stop t)
    (hhead : ∀ x t, Sp x t → ∃ c u, t = c :: u ∧ starter c = true) (rest : List Byte)
    {xs : List X} {t : List Byte} (h : Seq Sp xs t) : countJson G stop (t ++ stop :: rest) = .ok xs.length := by
  have hws : isWs stop = false := by rcases hstop with rfl | rfl <;> rfl
  have nonempty : ∀ {x : X} {xs : List X} {a t b : List Byte}, Ws a → Sp x t →
      Seq Sp (x :: xs) (a ++ t ++ b) → Seq Sp (x :: xs) (t ++ b) →
      countJson G stop (a ++ t ++ b ++ stop :: rest) = .ok (x :: xs).length := by
    intro x xs a t b ha hx _ h'
    obtain ⟨c, u, rfl, hc⟩ := hhead x t hx
    obtain ⟨f1, f2, f3, f4, _⟩ := starter_facts hc
    have hcnt := counts_full G (seq_counts hstop hpass rest h' 0)
    unfold countJson
    simp only [List.append_assoc, skipWs_append ha, List.cons_append, skipWs_cons f1, look_cons] at hcnt ⊢
    rw [if_neg (by rcases hstop with rfl | rfl <;> assumption)]
    rw [hcnt]
    simp
  cases h with
  | nil ha =>
    unfold countJson
    simp [skipWs_append ha, skipWs_cons hws]
  | @one x a t b ha hx hb => exact nonempty ha hx (.one ha hx hb) (by simpa using Seq.one ws_nil hx hb)
  | @more x y xs a t b r ha hx hb hr =>
    have := nonempty (b := b ++ 0x2c :: r) ha hx (by simpa using Seq.more ha hx hb hr)
      (by simpa using Seq.more ws_nil hx hb hr)
    simpa using this

end

end HppProto.Json
