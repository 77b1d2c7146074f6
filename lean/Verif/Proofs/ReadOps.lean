import Verif.Proofs.Reads
/-! Operations of the contiguous archive in terms of consumed bytes. -/
namespace HppProto
open Spec

/-- `s'` is `s` after consuming `bs`. -/
def Adv (s : Flat) (bs : List Byte) (s' : Flat) : Prop :=
  s.rest = bs ++ s'.rest ∧ s'.prev = bs.reverse ++ s.prev

theorem Adv.trans {s t u : Flat} {a b} (h1 : Adv s a t) (h2 : Adv t b u) : Adv s (a ++ b) u := by
  obtain ⟨h1, h1'⟩ := h1
  obtain ⟨h2, h2'⟩ := h2
  exact ⟨by rw [h1, h2, List.append_assoc], by rw [h2', h1', List.reverse_append, List.append_assoc]⟩

theorem Adv.refl (s : Flat) : Adv s [] s := ⟨rfl, rfl⟩

theorem Adv.unique {s t u : Flat} {a} (h1 : Adv s a t) (h2 : Adv s a u) : t = u := by
  obtain ⟨h1, h1'⟩ := h1
  obtain ⟨h2, h2'⟩ := h2
  cases t; cases u
  simp only at h1 h1' h2 h2'
  subst h1'; subst h2'
  rw [h1] at h2
  rw [List.append_cancel_left h2]

theorem Adv.split {s u : Flat} {a b} (h : Adv s (a ++ b) u) : ∃ t, Adv s a t ∧ Adv t b u :=
  ⟨⟨a.reverse ++ s.prev, b ++ u.rest⟩, ⟨by rw [h.1, List.append_assoc], rfl⟩,
    ⟨rfl, by rw [h.2, List.reverse_append, List.append_assoc]⟩⟩

theorem Adv.length {s t : Flat} {a} (h : Adv s a t) : s.rest.length = a.length + t.rest.length := by
  rw [h.1, List.length_append]

theorem Adv.mk (p : List Byte) (a b : List Byte) : Adv ⟨p, a ++ b⟩ a ⟨a.reverse ++ p, b⟩ := ⟨rfl, rfl⟩

theorem consume_adv {s : Flat} {bs more} (h : s.rest = bs ++ more) :
    s.consume bs.length = ⟨bs.reverse ++ s.prev, more⟩ := by
  simp [Flat.consume, h]

theorem adv_iff {s s' : Flat} {bs} : Adv s bs s' ↔ ∃ more, s.rest = bs ++ more ∧ s' = ⟨bs.reverse ++ s.prev, more⟩ := by
  constructor
  · rintro ⟨h1, h2⟩
    exact ⟨s'.rest, h1, by cases s'; simp_all⟩
  · rintro ⟨more, h1, rfl⟩
    exact ⟨h1, rfl⟩

theorem adv_consume {s s' : Flat} {n : Nat} : (n ≤ s.rest.length ∧ s' = s.consume n) ↔ ∃ bs, Adv s bs s' ∧ bs.length = n := by
  constructor
  · rintro ⟨hn, rfl⟩
    refine ⟨s.rest.take n, ⟨by simp [Flat.consume], by simp [Flat.consume]⟩, by simp; omega⟩
  · rintro ⟨bs, h, rfl⟩
    obtain ⟨more, e, rfl⟩ := adv_iff.1 h
    exact ⟨by simp [e], (consume_adv e).symm⟩

theorem ops_avail (s : Flat) : flatOps.avail s = s.rest.length := rfl

theorem ops_readTag {s s' : Flat} {t} (ht : t ≠ 0#32) :
    flatOps.readTag s = .ok (s', t) ↔ ∃ h, Adv s h s' ∧ isTag h t := by
  show (match rdTag s.rest with
    | some (n, t) => Res.ok (s.consume n, t)
    | none => .ok (s, 0)) = _ ↔ _
  constructor
  · intro h
    split at h
    · rename_i n t' e
      cases h
      obtain ⟨bs, more, e1, e2, e3⟩ := rdTag_iff.1 e
      exact ⟨bs, adv_iff.2 ⟨more, e1, by rw [e2, consume_adv e1]⟩, e3⟩
    · cases h; exact absurd rfl ht
  · rintro ⟨h, ha, hb⟩
    obtain ⟨more, e, rfl⟩ := adv_iff.1 ha
    rw [rdTag_iff.2 ⟨h, more, e, rfl, hb⟩]
    simp only [consume_adv e]

theorem ops_readTag_mk {s s' : Flat} {h t} (ha : Adv s h s') (hb : isTag h t) : flatOps.readTag s = .ok (s', t) := by
  show (match rdTag s.rest with
    | some (n, t) => Res.ok (s.consume n, t)
    | none => .ok (s, 0)) = _
  obtain ⟨more, e, rfl⟩ := adv_iff.1 ha
  rw [rdTag_iff.2 ⟨h, more, e, rfl, hb⟩]
  simp only [consume_adv e]

theorem ops_readTag_total (s : Flat) : ∃ s' t, flatOps.readTag s = .ok (s', t) := by
  show ∃ s' t, (match rdTag s.rest with
    | some (n, t) => Res.ok (s.consume n, t)
    | none => .ok (s, 0)) = _
  split
  · exact ⟨_, _, rfl⟩
  · exact ⟨_, _, rfl⟩

theorem rdMatch_some {l : List Byte} {t n} (h : rdMatch l t = some n) :
    ∃ bs more, l = bs ++ more ∧ n = bs.length ∧ isTag bs t ∧ n ≤ 4 := by
  unfold rdMatch at h
  split at h
  · rename_i m e
    split at h
    · rename_i hle
      cases h
      have hl : varintLen (memOf l) 5 = some n := by
        rw [← readTag_fst]
        show (shiftMix .tag (memOf l)).1 = some n
        unfold matchTag at e
        generalize shiftMix .tag (memOf l) = p at e
        obtain ⟨a, b⟩ := p
        cases a with
        | none => simp at e
        | some a =>
          simp only at e
          split at e
          · exact e
          · cases e
      obtain ⟨h1, h2⟩ := isVarint_take hl hle
      have ht : isTag (l.take n) (readTag (memOf (l.take n))).2 := (readTag_iff _ _).2 ⟨h1, rfl⟩
      have := matchTag_append (more := l.drop n) (u := t) ht
      rw [List.take_append_drop, e] at this
      split at this
      · rename_i hh
        rw [hh.1] at ht
        exact ⟨l.take n, l.drop n, (List.take_append_drop n l).symm, h2.symm, ht, by omega⟩
      · cases this
    · cases h
  · cases h

theorem rdMatch_mk {bs more : List Byte} {t u} (h : isTag bs t) :
    rdMatch (bs ++ more) u = if t = u ∧ bs.length ≤ 4 then some bs.length else none := by
  unfold rdMatch
  rw [matchTag_append h]
  by_cases hc : t = u ∧ bs.length ≤ 4
  · simp [hc]
  · simp [hc]

theorem rdMatch_nil (t) : rdMatch [] t = none := by
  cases h : rdMatch [] t with
  | none => rfl
  | some n =>
    obtain ⟨bs, more, e, _, ht, _⟩ := rdMatch_some h
    have := isTag_pos ht
    have := congrArg List.length e
    simp at this; omega

theorem ops_matchTag {s s' : Flat} {t} : flatOps.matchTag s t = .ok (s', true) ↔
    ∃ h, Adv s h s' ∧ isTag h t ∧ h.length ≤ 4 := by
  show (match rdMatch s.rest t with
    | some n => Res.ok (s.consume n, true)
    | none => .ok (s, false)) = _ ↔ _
  constructor
  · intro h
    split at h
    · rename_i n e
      cases h
      obtain ⟨bs, more, e1, e2, e3, e4⟩ := rdMatch_some e
      exact ⟨bs, adv_iff.2 ⟨more, e1, by rw [e2, consume_adv e1]⟩, e3, by omega⟩
    · cases h
  · rintro ⟨h, ha, hb, h4⟩
    obtain ⟨more, e, rfl⟩ := adv_iff.1 ha
    rw [e, rdMatch_mk hb, if_pos ⟨rfl, h4⟩]
    simp only [consume_adv e]

theorem ops_matchTag_false {s s' : Flat} {t} : flatOps.matchTag s t = .ok (s', false) ↔
    rdMatch s.rest t = none ∧ s' = s := by
  show (match rdMatch s.rest t with
    | some n => Res.ok (s.consume n, true)
    | none => .ok (s, false)) = _ ↔ _
  cases h : rdMatch s.rest t <;> simp [eq_comm]

theorem ops_varint {ty : VarTy} {s s' : Flat} {v} : flatOps.varint ty s = .ok (s', v) ↔
    ∃ bs, Adv s bs s' ∧ isVarint ty.mix.maxLen bs ∧ v = (ty.parse (memOf bs)).2 := by
  show (match rdVarint ty s.rest with
    | some (n, v) => Res.ok (s.consume n, v)
    | none => .err .badMessage) = _ ↔ _
  constructor
  · intro h
    split at h
    · rename_i n t' e
      cases h
      obtain ⟨bs, more, e1, e2, e3, e4⟩ := rdVarint_iff.1 e
      exact ⟨bs, adv_iff.2 ⟨more, e1, by rw [e2, consume_adv e1]⟩, e3, e4⟩
    · cases h
  · rintro ⟨h, ha, hb, hc⟩
    obtain ⟨more, e, rfl⟩ := adv_iff.1 ha
    rw [rdVarint_iff.2 ⟨h, more, e, rfl, hb, hc⟩]
    simp only [consume_adv e]

theorem ops_bool {s s' : Flat} {v} : flatOps.bool s = .ok (s', v) ↔
    ∃ bs, Adv s bs s' ∧ isVarint 10 bs ∧ v = (parseBool (memOf bs)).2 := by
  show (match rdBool s.rest with
    | some (n, v) => Res.ok (s.consume n, v)
    | none => .err .badMessage) = _ ↔ _
  constructor
  · intro h
    split at h
    · rename_i n t' e
      cases h
      obtain ⟨bs, more, e1, e2, e3, e4⟩ := rdBool_iff.1 e
      exact ⟨bs, adv_iff.2 ⟨more, e1, by rw [e2, consume_adv e1]⟩, e3, e4⟩
    · cases h
  · rintro ⟨h, ha, hb, hc⟩
    obtain ⟨more, e, rfl⟩ := adv_iff.1 ha
    rw [rdBool_iff.2 ⟨h, more, e, rfl, hb, hc⟩]
    simp only [consume_adv e]

theorem ops_skipVarint {s s' : Flat} : flatOps.skipVarint s = .ok s' ↔
    ∃ bs, Adv s bs s' ∧ isVarint 10 bs := by
  show (match rdSkipVarint 10 s.rest with
    | some n => Res.ok (s.consume n)
    | none => .err .badMessage) = _ ↔ _
  constructor
  · intro h
    split at h
    · rename_i n e
      cases h
      obtain ⟨bs, more, e1, e2, e3⟩ := rdSkipVarint_iff.1 e
      exact ⟨bs, adv_iff.2 ⟨more, e1, by rw [e2, consume_adv e1]⟩, e3⟩
    · cases h
  · rintro ⟨h, ha, hb⟩
    obtain ⟨more, e, rfl⟩ := adv_iff.1 ha
    rw [rdSkipVarint_iff.2 ⟨h, more, e, rfl, hb⟩]
    simp only [consume_adv e]

theorem ops_skip {n : Nat} {s s' : Flat} : flatOps.skip n s = .ok s' ↔ ∃ bs, Adv s bs s' ∧ bs.length = n := by
  rw [← adv_consume]
  show (if n ≤ s.rest.length then Res.ok (s.consume n) else .err .badMessage) = _ ↔ _
  by_cases h : n ≤ s.rest.length <;> simp [h, eq_comm]

theorem take_of_adv {s s' : Flat} {bs} (h : Adv s bs s') : s.rest.take bs.length = bs := by
  rw [h.1, List.take_left]

theorem ops_raw {n : Nat} {s s' : Flat} {bs} : flatOps.raw n s = .ok (s', bs) ↔ Adv s bs s' ∧ bs.length = n := by
  show (if n ≤ s.rest.length then Res.ok (s.consume n, s.rest.take n) else .err .badMessage) = _ ↔ _
  constructor
  · intro h
    split at h
    · rename_i hn
      cases h
      obtain ⟨b, h1, h2⟩ := adv_consume.1 (And.intro hn (Eq.refl (s.consume n)))
      have := take_of_adv h1
      rw [h2] at this
      rw [this]; exact ⟨h1, h2⟩
    · cases h
  · rintro ⟨h1, rfl⟩
    obtain ⟨h2, h3⟩ := adv_consume.2 ⟨bs, h1, rfl⟩
    rw [if_pos h2, take_of_adv h1, h3]

theorem ops_fixed {n : Nat} {s s' : Flat} {v} : flatOps.fixed n s = .ok (s', v) ↔
    ∃ bs, Adv s bs s' ∧ bs.length = n ∧ v = leVal bs := by
  show (if n ≤ s.rest.length then Res.ok (s.consume n, leVal (s.rest.take n)) else .err .badMessage) = _ ↔ _
  constructor
  · intro h
    split at h
    · rename_i hn
      cases h
      obtain ⟨b, h1, h2⟩ := adv_consume.1 (And.intro hn (Eq.refl (s.consume n)))
      have := take_of_adv h1
      rw [h2] at this
      rw [this]; exact ⟨b, h1, h2, rfl⟩
    · cases h
  · rintro ⟨bs, h1, rfl, rfl⟩
    obtain ⟨h2, h3⟩ := adv_consume.2 ⟨bs, h1, rfl⟩
    rw [if_pos h2, take_of_adv h1, h3]

theorem ops_split {n : Nat} {s a b : Flat} : flatOps.split n s = .ok (a, b) ↔
    ∃ bs, Adv s bs b ∧ bs.length = n ∧ a = ⟨s.prev, bs⟩ := by
  show (if n ≤ s.rest.length then Res.ok ((⟨s.prev, s.rest.take n⟩ : Flat), s.consume n) else .ub) = _ ↔ _
  constructor
  · intro h
    split at h
    · rename_i hn
      cases h
      obtain ⟨b, h1, h2⟩ := adv_consume.1 (And.intro hn (Eq.refl (s.consume n)))
      have := take_of_adv h1
      rw [h2] at this
      rw [this]; exact ⟨b, h1, h2, rfl⟩
    · cases h
  · rintro ⟨bs, h1, rfl, rfl⟩
    obtain ⟨h2, h3⟩ := adv_consume.2 ⟨bs, h1, rfl⟩
    rw [if_pos h2, take_of_adv h1, h3]

/-! ## Tags as numbers -/

theorem tagNumber_toNat (t : BitVec 32) : (tagNumber t).toNat = tagNum t := by
  rw [tagNumber, BitVec.toNat_ushiftRight, Nat.shiftRight_eq_div_pow]; rfl

theorem tagType_toNat (t : BitVec 32) : (tagType t).toNat = tagWt t := by
  rw [tagType, BitVec.toNat_and]
  exact Nat.and_two_pow_sub_one_eq_mod t.toNat 3

theorem tagType_eq (t : BitVec 32) (w : WireType) : tagType t = w ↔ tagWt t = w.toNat := by
  rw [← tagType_toNat]
  exact ⟨fun h => by rw [h], fun h => BitVec.eq_of_toNat_eq h⟩

theorem tagNumber_eq (a b : BitVec 32) : tagNumber a = tagNumber b ↔ tagNum a = tagNum b := by
  rw [← tagNumber_toNat, ← tagNumber_toNat]
  exact ⟨fun h => by rw [h], fun h => BitVec.eq_of_toNat_eq h⟩

theorem tagType_varint {t} : tagType t = wtVarint ↔ tagWt t = 0 := tagType_eq t _
theorem tagType_fixed64 {t} : tagType t = wtFixed64 ↔ tagWt t = 1 := tagType_eq t _
theorem tagType_len {t} : tagType t = wtLen ↔ tagWt t = 2 := tagType_eq t _
theorem tagType_sgroup {t} : tagType t = wtSGroup ↔ tagWt t = 3 := tagType_eq t _
theorem tagType_egroup {t} : tagType t = wtEGroup ↔ tagWt t = 4 := tagType_eq t _
theorem tagType_fixed32 {t} : tagType t = wtFixed32 ↔ tagWt t = 5 := tagType_eq t _

theorem ne_zero_of_wt {t : BitVec 32} (h : tagWt t ≠ 0) : t ≠ 0#32 := by
  rintro rfl; exact h rfl

theorem wf_tag : ∀ {r : Rec}, r.wf → isTag r.head r.tag ∧ r.tag ≠ 0#32
  | .varint .., h => by unfold Rec.wf at h; exact ⟨h.1, h.2.1⟩
  | .fixed .., h => by
    unfold Rec.wf at h
    refine ⟨h.1, ne_zero_of_wt ?_⟩
    show tagWt _ ≠ 0
    rcases h.2 with h | h <;> (show tagWt _ ≠ 0; simp only [Rec.tag]; omega)
  | .len .., h => by unfold Rec.wf at h; exact ⟨h.1, ne_zero_of_wt (by simp only [Rec.tag]; omega)⟩
  | .group .., h => by unfold Rec.wf at h; exact ⟨h.1, ne_zero_of_wt (by simp only [Rec.tag]; omega)⟩

/-- Value of a 32-bit length varint. -/
theorem u32_value {bs : List Byte} (h : isVarint 6 bs) :
    (VarTy.u32.parse (memOf bs)).2.toNat = valueOf bs % 2 ^ 32 := by
  rw [parse_plain .u32 _ _ (by simp) h]
  simp only [VarTy.cast]
  rw [BitVec.toNat_setWidth, BitVec.toNat_setWidth, BitVec.toNat_ofNat]
  unfold valueOf
  omega

end HppProto
