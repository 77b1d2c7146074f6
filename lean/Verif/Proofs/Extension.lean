import Verif.Model.Extension
import Verif.Proofs.WrittenRecs
import Verif.Props.Merge
/-! Lemmas on extensions and `Any`. -/
namespace HppProto
open Spec Props

theorem extFind_assign {n k : BitVec 32} {data} : ∀ l, extFind k (extAssign n data l) = if k = n then some data else extFind k l
  | [] => by
    by_cases h : k = n
    · subst h; simp [extAssign, extFind]
    · simp only [extAssign, extFind, if_neg h]
      rw [if_neg (fun e => h (BitVec.eq_of_toNat_eq e.symm))]
  | (a, b) :: l => by
    simp only [extAssign]
    by_cases ha : a = n.toNat
    · rw [if_pos ha]
      simp only [extFind, ha]
      by_cases h : k = n
      · subst h; simp
      · rw [if_neg (fun e => h (BitVec.eq_of_toNat_eq e.symm)), if_neg h, if_neg (fun e => h (BitVec.eq_of_toNat_eq e.symm))]
    · rw [if_neg ha]
      simp only [extFind]
      rw [extFind_assign l]
      by_cases h : a = k.toNat
      · rw [if_pos h, if_pos h, if_neg (by rintro rfl; exact ha h)]
      · rw [if_neg h, if_neg h]

theorem assign_keys (n : BitVec 32) (data) : ∀ l, (extAssign n data l).map Prod.fst =
    if n.toNat ∈ l.map Prod.fst then l.map Prod.fst else l.map Prod.fst ++ [n.toNat]
  | [] => by simp [extAssign]
  | (a, b) :: l => by
    simp only [extAssign]
    by_cases ha : a = n.toNat
    · simp [ha]
    · rw [if_neg ha, List.map_cons, assign_keys n data l]
      by_cases h : n.toNat ∈ l.map Prod.fst
      · rw [if_pos h, if_pos (by simp [h])]; rfl
      · rw [if_neg h, if_neg (by simp only [List.map_cons, List.mem_cons, not_or]; exact ⟨fun e => ha e.symm, h⟩)]; rfl

theorem assign_mem {n : BitVec 32} {data u} : ∀ {l}, u ∈ extAssign n data l → u = (n.toNat, data) ∨ u ∈ l
  | [], h => by simp [extAssign] at h; exact .inl h
  | (a, b) :: l, h => by
    simp only [extAssign] at h
    split at h
    · rename_i e
      subst e
      rcases List.mem_cons.1 h with rfl | h
      · exact .inl rfl
      · exact .inr (by simp [h])
    · rcases List.mem_cons.1 h with rfl | h
      · exact .inr (by simp)
      · rcases assign_mem h with rfl | h
        · exact .inl rfl
        · exact .inr (by simp [h])

theorem extFind_in {n : BitVec 32} : ∀ {l : List (Nat × List Byte)}, (extFind n l).isSome = l.any (fun e => e.1 = n.toNat)
  | [] => rfl
  | (a, b) :: l => by
    simp only [extFind, List.any_cons]
    by_cases h : a = n.toNat
    · simp [h]
    · rw [if_neg h, extFind_in (l := l)]; simp [h]

theorem getEntries_append {C : Cfg} {limit ext n} : ∀ (a b : List (Nat × List Byte)) x,
    getEntries C limit ext n (a ++ b) x = (getEntries C limit ext n a x).bind (getEntries C limit ext n b)
  | [], b, x => rfl
  | (k, d) :: a, b, x => by
    simp only [List.cons_append, getEntries]
    split
    · show Res.bind _ _ = Res.bind (Res.bind _ _) _
      cases parseOnto C limit ext x d with
      | ok y => exact getEntries_append a b y
      | _ => rfl
    · exact getEntries_append a b x

theorem getEntries_skip {C : Cfg} {limit ext} {n : BitVec 32} : ∀ {l : List (Nat × List Byte)} {x},
    l.any (fun e => e.1 = n.toNat) = false → getEntries C limit ext n l x = .ok x
  | [], _, _ => rfl
  | (a, b) :: l, x, h => by
    simp only [List.any_cons, Bool.or_eq_false_iff] at h
    simp only [getEntries]
    rw [if_neg (by simpa using h.1)]
    exact getEntries_skip h.2

/-- What a successful `set_to` does. -/
theorem extSet_ok {C : Cfg} (hS : schemaOk C) {limit ow ext n m x m'} (hl : (wire C limit ext x).length < 2 ^ 64)
    (h : extSet C limit ow ext n m x = .ok (none, m')) :
    (wire C limit ext x).length < 2 ^ 31 - 1 ∧ writeBinpb C limit true ext x [] = .ok (none, wire C limit ext x) ∧
    m' = if wire C limit ext x = [] then m
      else if ow then { m with unk := extAssign n (wire C limit ext x) m.unk }
      else { m with unk := m.unk ++ [(n.toNat, wire C limit ext x)] } := by
  unfold extSet at h
  change Res.bind _ _ = _ at h
  cases hw : writeBinpb C limit true ext x [] with
  | ok r =>
    obtain ⟨e, data⟩ := r
    rw [hw] at h
    cases e with
    | some e => simp only [Res.bind] at h; injection h with h; cases h
    | none =>
      obtain ⟨rfl, -, -, hlen⟩ := (C09_written_bytes C (numbers_obj hS) limit ext x [] hl).1 data hw
      refine ⟨hlen, rfl, ?_⟩
      simp only [Res.bind] at h
      by_cases h0 : wire C limit ext x = []
      · rw [if_pos h0]
        rw [if_neg (by simp [h0])] at h
        injection h with h; cases h; rfl
      · rw [if_neg h0]
        rw [if_pos (by simpa using h0)] at h
        split at h
        · rename_i ho; rw [if_pos ho]; injection h with h; cases h; rfl
        · rename_i ho; rw [if_neg ho]; injection h with h; cases h; rfl
  | _ => rw [hw] at h; simp [Res.bind] at h

theorem read_wire {C : Cfg} (hS : schemaOk C) {limit ext x} (hx : objLike false C (limit + 1) ext x)
    (hl : (wire C limit ext x).length < 2 ^ 31 - 1) (old : Msg) :
    readBinpb C limit ext old (wire C limit ext x) = .ok (tidy C (limit + 1) ext x) := by
  have := C10_round_trip_partial C hS limit ext x old [] hx (Nat.lt_trans hl (by decide))
  exact this.1 _ ((C09_written_bytes C (numbers_obj hS) limit ext x [] (Nat.lt_trans hl (by decide))).2
    (nests_obj _ _ _ hx) (utf8_obj _ _ _ hx) hl)

/-- An encoded extension is a fit entry for the storage of a message. -/
theorem ext_unknown {C : Cfg} (hS : schemaOk C) {limit ext n x} {D : MsgD} (he : extensionType (C.schema ext) n)
    (hk : fieldKind D n.toNat = none) (hx : objLike false C (limit + 1) ext x)
    (hl : (wire C limit ext x).length < 2 ^ 31 - 1) (h0 : wire C limit ext x ≠ []) :
    ∃ rs, wire C limit ext x = rawAll rs ∧ unknownRecs D limit rs ∧ ∀ r ∈ rs, tagNum r.tag = n.toNat := by
  obtain ⟨⟨k, card, hs⟩, hu, -⟩ := he
  obtain ⟨h1, h2, h3⟩ := hx
  have hn := number_range hS (id := ext) (sd := .field n k card) (n := n.toNat) (by rw [hs]; simp) (by simp [slotKind])
  rw [hs] at h1 h2
  obtain ⟨s, e⟩ : ∃ s, x.slots = [s] := by
    cases h : x.slots with
    | nil => rw [h] at h1; simp at h1
    | cons s ss => cases ss with
      | nil => exact ⟨s, rfl⟩
      | cons t ts => rw [h] at h1; simp at h1
  have hux : x.unk = [] := by simpa [unkOk, hu] using h3
  have hw : wire C limit ext x = member C isDefault (encode C isDefault limit) (.field n k card) s := by
    show encode C isDefault (limit + 1) ext x = _
    simp [encode, hs, e, hux]
  obtain ⟨rs, a, b⟩ := written_field (written hS limit) hn.2 hn.1 (h2 (.field n k card, s) (by simp [e]))
    (by rw [← hw]; exact Nat.lt_trans hl (by decide))
  refine ⟨rs, by rw [hw, b], ⟨?_, a.1, fun r hr => ?_⟩, fun r hr => (a.2 r hr).1⟩
  · rintro rfl
    rw [hw, ← b] at h0
    exact h0 rfl
  · obtain ⟨c1, c2, c3⟩ := a.2 r hr
    exact ⟨by rw [c1]; omega, by rw [c1]; exact hk, c2, c3⟩

/-! ## Any -/

theorem rfind_none : ∀ {s : List Byte} {i}, rfindSlash s i = none ↔ (0x2f : Byte) ∉ s
  | [], _ => by simp [rfindSlash]
  | c :: s, i => by
    simp only [rfindSlash]
    have ih := rfind_none (s := s) (i := i + 1)
    cases h : rfindSlash s (i + 1) with
    | some j =>
      rw [h] at ih
      simp only [reduceCtorEq, false_iff, Decidable.not_not] at ih ⊢
      exact List.mem_cons_of_mem _ ih
    | none =>
      have := ih.1 h
      by_cases hc : c = 0x2f
      · simp [hc]
      · simp only [if_neg hc, List.mem_cons, not_or, true_iff]
        exact ⟨fun e => hc e.symm, this⟩

theorem rfind_split : ∀ {pre : List Byte} {s : List Byte} {i}, (0x2f : Byte) ∉ s → rfindSlash (pre ++ 0x2f :: s) i = some (i + pre.length)
  | [], s, i, h => by
    simp only [List.nil_append, rfindSlash, rfind_none.2 h]
    simp
  | c :: pre, s, i, h => by
    simp only [List.cons_append, rfindSlash, rfind_split (pre := pre) (s := s) (i := i + 1) h, List.length_cons]
    simp; omega

theorem last_split : ∀ {s : List Byte}, (0x2f : Byte) ∈ s → ∃ pre rest, s = pre ++ 0x2f :: rest ∧ (0x2f : Byte) ∉ rest
  | c :: s, h => by
    by_cases hs : (0x2f : Byte) ∈ s
    · obtain ⟨pre, rest, rfl, h2⟩ := last_split hs
      exact ⟨c :: pre, rest, rfl, h2⟩
    · rcases List.mem_cons.1 h with rfl | h
      · exact ⟨[], s, rfl, hs⟩
      · exact absurd h hs

theorem messageName_eq {name : List Byte} (h : ∀ c ∈ name, c ≠ 0) : messageName name = name := by
  show ((b!"type.googleapis.com/" ++ name).drop 20).takeWhile (· ≠ 0) = name
  rw [show (20 : Nat) = (b!"type.googleapis.com/").length from by decide, List.drop_left]
  have : ∀ l : List Byte, (∀ c ∈ l, c ≠ 0) → l.takeWhile (· ≠ 0) = l := by
    intro l
    induction l with
    | nil => intro _; rfl
    | cons c l ih =>
      intro h
      rw [List.takeWhile_cons_of_pos (by simpa using h c (by simp)), ih (fun x hx => h x (by simp [hx]))]
  exact this name h

end HppProto
