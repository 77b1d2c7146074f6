import Verif.Proofs.ReadSkip
/-! Reading one value consumes one record and yields what the relation says. -/
namespace HppProto
open Spec

/-- The reader one level down computes the relation one level down. -/
structure Agrees (l : Level Flat) (S : Sem) : Prop where
  msg : ∀ id m s s' m', l.msg id m s = .ok (s', m') ↔ Adv s s.rest s' ∧ S.msg id m s.rest m'
  grp : ∀ id number m s s' m', l.grp id number m s = .ok (s', m') ↔
    ∃ body tail, wfAll body ∧ endTag number.toNat tail ∧ Adv s (rawAll body ++ tail) s' ∧ S.grp id m body m'
  skip : ∀ {h tag}, isTag h tag → ∀ s s', doSkipField flatOps l tag s = .ok s' ↔ RecAt S.depth h tag s s'
  skipGrp : ∀ number s s', l.skipGrp number s = .ok s' ↔ GroupAt S.depth number s s'
  depth : ∀ id m body m', S.grp id m body m' → depthAll body + 1 ≤ S.depth

/-- A record with the given tag starts at `s`, ends at `s'` and satisfies `P`. -/
def At (h : List Byte) (tag : BitVec 32) (s s' : Flat) (P : Rec → Prop) : Prop :=
  ∃ r : Rec, r.wf ∧ r.tag = tag ∧ r.head = h ∧ Adv s r.payload s' ∧ P r

theorem At.imp {h tag s s'} {P Q : Rec → Prop} (H : At h tag s s' P) (f : ∀ r, r.tag = tag → P r → Q r) :
    At h tag s s' Q := by
  obtain ⟨r, h1, h2, h3, h4, h5⟩ := H
  exact ⟨r, h1, h2, h3, h4, f r h2 h5⟩

theorem At.exists {α} {h tag s s'} {P : α → Rec → Prop} :
    (∃ a, At h tag s s' (P a)) ↔ At h tag s s' (fun r => ∃ a, P a r) := by
  constructor
  · rintro ⟨a, r, h1, h2, h3, h4, h5⟩; exact ⟨r, h1, h2, h3, h4, a, h5⟩
  · rintro ⟨r, h1, h2, h3, h4, a, h5⟩; exact ⟨a, r, h1, h2, h3, h4, h5⟩

section
variable {h : List Byte} {tag : BitVec 32} (ht : isTag h tag) (h0 : tag ≠ 0#32)
include ht

theorem at_len (hw : tagWt tag = 2) {s s' : Flat} {P : Rec → Prop} : At h tag s s' P ↔
    ∃ p v, isVarint 6 p ∧ valueOf p % 2 ^ 32 = v.length ∧ Adv s (p ++ v) s' ∧ P (.len tag h p v) := by
  constructor
  · rintro ⟨r, hr, e1, e2, a, hp⟩
    cases r <;> unfold Rec.wf at hr <;> simp only [Rec.tag, Rec.head] at e1 e2 <;> subst e1 <;> subst e2
    · omega
    · omega
    · simp only [Rec.payload] at a
      exact ⟨_, _, hr.2.2.1, hr.2.2.2, a, hp⟩
    · omega
  · rintro ⟨p, v, h1, h2, a, hp⟩
    exact ⟨.len tag h p v, by unfold Rec.wf; exact ⟨ht, hw, h1, h2⟩, rfl, rfl, by simpa [Rec.payload] using a, hp⟩

theorem at_group (hw : tagWt tag = 3) {s s' : Flat} {P : Rec → Prop} : At h tag s s' P ↔
    ∃ body tail, wfAll body ∧ endTag (tagNum tag) tail ∧ Adv s (rawAll body ++ tail) s' ∧ P (.group tag h body tail) := by
  constructor
  · rintro ⟨r, hr, e1, e2, a, hp⟩
    cases r <;> unfold Rec.wf at hr <;> simp only [Rec.tag, Rec.head] at e1 e2 <;> subst e1 <;> subst e2
    · omega
    · omega
    · omega
    · simp only [Rec.payload] at a
      exact ⟨_, _, hr.2.2.1, hr.2.2.2, a, hp⟩
  · rintro ⟨p, v, h1, h2, a, hp⟩
    exact ⟨.group tag h p v, by unfold Rec.wf; exact ⟨ht, hw, h1, h2⟩, rfl, rfl, by simpa [Rec.payload] using a, hp⟩

theorem at_fixed {n : Nat} (hw : (tagWt tag = 1 ∧ n = 8) ∨ (tagWt tag = 5 ∧ n = 4)) {s s' : Flat} {P : Rec → Prop} :
    At h tag s s' P ↔ ∃ v, v.length = n ∧ Adv s v s' ∧ P (.fixed tag h v) := by
  constructor
  · rintro ⟨r, hr, e1, e2, a, hp⟩
    cases r <;> unfold Rec.wf at hr <;> simp only [Rec.tag, Rec.head] at e1 e2 <;> subst e1 <;> subst e2
    · omega
    · simp only [Rec.payload] at a
      exact ⟨_, by omega, a, hp⟩
    · omega
    · omega
  · rintro ⟨v, h1, a, hp⟩
    exact ⟨.fixed tag h v, by unfold Rec.wf; exact ⟨ht, by omega⟩, rfl, rfl, by simpa [Rec.payload] using a, hp⟩

include h0
theorem at_varint (hw : tagWt tag = 0) {s s' : Flat} {P : Rec → Prop} :
    At h tag s s' P ↔ ∃ v, isVarint 10 v ∧ Adv s v s' ∧ P (.varint tag h v) := by
  constructor
  · rintro ⟨r, hr, e1, e2, a, hp⟩
    cases r <;> unfold Rec.wf at hr <;> simp only [Rec.tag, Rec.head] at e1 e2 <;> subst e1 <;> subst e2
    · simp only [Rec.payload] at a
      exact ⟨_, hr.2.2.2, a, hp⟩
    · omega
    · omega
    · omega
  · rintro ⟨v, h1, a, hp⟩
    exact ⟨.varint tag h v, by unfold Rec.wf; exact ⟨ht, h0, hw, h1⟩, rfl, rfl, by simpa [Rec.payload] using a, hp⟩
end

theorem readBytes_iff (C : Cfg) (u : Bool) {s s' : Flat} {bs} : readBytes C flatOps u s = .ok (s', bs) ↔
    ∃ p v, isVarint 6 p ∧ valueOf p % 2 ^ 32 = v.length ∧ Adv s (p ++ v) s' ∧
      (u && !C.utf8 v) = false ∧ bs = v := by
  unfold readBytes
  rw [res_bind_ok]
  constructor
  · rintro ⟨⟨t, n⟩, h1, h2⟩
    obtain ⟨p, a1, hp, hn⟩ := ops_varint.1 h1
    have hv := u32_value hp
    rw [← hn] at hv
    simp only at h2
    split at h2
    · rename_i hz
      split at h2
      · cases h2
      · rename_i hu
        cases h2
        refine ⟨p, [], hp, ?_, by simpa using a1, by simpa using hu, rfl⟩
        rw [← hv, hz]; rfl
    · rw [res_bind_ok] at h2
      obtain ⟨⟨t', bs'⟩, h3, h4⟩ := h2
      obtain ⟨a2, hl⟩ := ops_raw.1 h3
      simp only at h4
      split at h4
      · cases h4
      · rename_i hu
        cases h4
        exact ⟨p, bs, hp, by rw [← hv, hl], a1.trans a2, by simpa using hu, rfl⟩
  · rintro ⟨p, v, hp, hv, a, hu, rfl⟩
    obtain ⟨t, a1, a2⟩ := a.split
    refine ⟨(t, _), ops_varint.2 ⟨p, a1, hp, rfl⟩, ?_⟩
    have hv' := u32_value hp
    rw [hv] at hv'
    simp only
    split
    · rename_i hz
      rw [hz] at hv'
      have : bs = [] := List.length_eq_zero_iff.1 (by simpa using hv'.symm)
      subst this
      rw [hu]
      simp only [Bool.false_eq_true, if_false]
      rw [(Adv.refl t).unique a2]
    · rw [res_bind_ok]
      refine ⟨(s', bs), ops_raw.2 ⟨a2, hv'.symm⟩, ?_⟩
      simp only [hu, Bool.false_eq_true, if_false]

theorem readScalar_iff (C : Cfg) (sc : Scalar) {h tag} (ht : isTag h tag) (h0 : tag ≠ 0#32) {s s' : Flat} {v} :
    readScalar C flatOps sc tag s = .ok (s', v) ↔ At h tag s s' (fun r => recScalar C sc r = some v) := by
  unfold readScalar
  by_cases hw : tagType tag ≠ sc.wireType
  · rw [if_pos hw]
    constructor
    · intro h; cases h
    · rintro ⟨r, hr, e1, e2, -, hp⟩
      exfalso
      apply hw
      rw [← e1]
      cases r <;> unfold Rec.wf at hr <;> cases sc <;> simp only [recScalar, reduceCtorEq] at hp <;>
        simp only [Rec.tag, Scalar.wireType, tagType_varint, tagType_fixed64, tagType_len, tagType_fixed32]
      · exact hr.2.2.1
      · exact hr.2.2.1
      · exact hr.2.2.1
      · split at hp
        · omega
        · cases hp
      · split at hp
        · omega
        · cases hp
      · exact hr.2.1
  rw [if_neg hw]
  have hw := Classical.not_not.1 hw
  cases sc with
  | varint ty =>
    have w : tagWt tag = 0 := tagType_varint.1 hw
    rw [at_varint ht h0 w]
    simp only [res_bind_ok]
    constructor
    · rintro ⟨⟨t, x⟩, h1, h2⟩
      obtain ⟨bs, a, hv, rfl⟩ := ops_varint.1 h1
      cases h2
      refine ⟨bs, isVarint_mono hv ?_, a, ?_⟩
      · have := isVarint_le hv
        have : ty.mix.maxLen ≤ 10 := by cases ty <;> decide
        omega
      · simp only [recScalar, if_pos (isVarint_le hv)]
    · rintro ⟨bs, hv, a, hp⟩
      simp only [recScalar] at hp
      split at hp
      · rename_i hle
        cases hp
        exact ⟨(s', _), ops_varint.2 ⟨bs, a, isVarint_mono hv hle, rfl⟩, rfl⟩
      · cases hp
  | bool =>
    have w : tagWt tag = 0 := tagType_varint.1 hw
    rw [at_varint ht h0 w]
    simp only [res_bind_ok]
    constructor
    · rintro ⟨⟨t, x⟩, h1, h2⟩
      obtain ⟨bs, a, hv, rfl⟩ := ops_bool.1 h1
      cases h2
      exact ⟨bs, hv, a, rfl⟩
    · rintro ⟨bs, hv, a, hp⟩
      cases hp
      exact ⟨(s', _), ops_bool.2 ⟨bs, a, hv, rfl⟩, rfl⟩
  | enum c =>
    have w : tagWt tag = 0 := tagType_varint.1 hw
    rw [at_varint ht h0 w]
    simp only [res_bind_ok]
    constructor
    · rintro ⟨⟨t, x⟩, h1, h2⟩
      obtain ⟨bs, a, hv, rfl⟩ := ops_varint.1 h1
      cases h2
      exact ⟨bs, hv, a, rfl⟩
    · rintro ⟨bs, hv, a, hp⟩
      cases hp
      exact ⟨(s', _), ops_varint.2 ⟨bs, a, hv, rfl⟩, rfl⟩
  | fixed32 f =>
    have w : tagWt tag = 5 := tagType_fixed32.1 hw
    rw [at_fixed ht (n := 4) (.inr ⟨w, rfl⟩)]
    simp only [res_bind_ok]
    constructor
    · rintro ⟨⟨t, x⟩, h1, h2⟩
      obtain ⟨bs, a, hv, rfl⟩ := ops_fixed.1 h1
      cases h2
      exact ⟨bs, hv, a, by simp only [recScalar, if_pos hv]⟩
    · rintro ⟨bs, hv, a, hp⟩
      simp only [recScalar, if_pos hv] at hp
      cases hp
      exact ⟨(s', _), ops_fixed.2 ⟨bs, a, hv, rfl⟩, rfl⟩
  | fixed64 f =>
    have w : tagWt tag = 1 := tagType_fixed64.1 hw
    rw [at_fixed ht (n := 8) (.inl ⟨w, rfl⟩)]
    simp only [res_bind_ok]
    constructor
    · rintro ⟨⟨t, x⟩, h1, h2⟩
      obtain ⟨bs, a, hv, rfl⟩ := ops_fixed.1 h1
      cases h2
      exact ⟨bs, hv, a, by simp only [recScalar, if_pos hv]⟩
    · rintro ⟨bs, hv, a, hp⟩
      simp only [recScalar, if_pos hv] at hp
      cases hp
      exact ⟨(s', _), ops_fixed.2 ⟨bs, a, hv, rfl⟩, rfl⟩
  | str u =>
    have w : tagWt tag = 2 := tagType_len.1 hw
    rw [at_len ht w]
    simp only [res_bind_ok]
    constructor
    · rintro ⟨⟨t, x⟩, h1, h2⟩
      obtain ⟨p, b, hp, hv, a, hu, rfl⟩ := (readBytes_iff C u).1 h1
      cases h2
      exact ⟨p, x, hp, hv, a, by simp [recScalar, hu]⟩
    · rintro ⟨p, b, hp, hv, a, hr⟩
      simp only [recScalar] at hr
      split at hr
      · cases hr
      · rename_i hu
        cases hr
        exact ⟨(s', b), (readBytes_iff C u).2 ⟨p, b, hp, hv, a, by simpa using hu, rfl⟩, rfl⟩

section
variable {C : Cfg} {l : Level Flat} {S : Sem} (A : Agrees l S)
include A

theorem sized_iff {id m s s' m'} : sized C flatOps l id m s = .ok (s', m') ↔
    ∃ p v, isVarint 6 p ∧ valueOf p % 2 ^ 32 = v.length ∧ Adv s (p ++ v) s' ∧
      ¬ (v = [] ∧ (C.schema id).isEntry = true) ∧ S.msg id m v m' := by
  unfold sized
  rw [res_bind_ok]
  constructor
  · rintro ⟨⟨t, n⟩, h1, h2⟩
    obtain ⟨p, a1, hp, hn⟩ := ops_varint.1 h1
    have hv := u32_value hp
    rw [← hn] at hv
    have av := ops_avail t
    simp only at h2
    split at h2
    · cases h2
    · rename_i hne
      by_cases hlt : (n.toNat : Int) < flatOps.avail t
      · rw [if_pos hlt, res_bind_ok] at h2
        obtain ⟨⟨x, t'⟩, h3, h4⟩ := h2
        obtain ⟨v, a2, hl, rfl⟩ := ops_split.1 h3
        simp only [res_bind_ok] at h4
        obtain ⟨⟨y, m''⟩, h5, h6⟩ := h4
        cases h6
        obtain ⟨-, h7⟩ := (A.msg _ _ _ _ _).1 h5
        refine ⟨p, v, hp, by rw [← hv, hl], a1.trans a2, ?_, h7⟩
        rintro ⟨rfl, he⟩
        exact hne ⟨by simpa using hl.symm, he⟩
      · rw [if_neg hlt] at h2
        by_cases heq : (n.toNat : Int) = flatOps.avail t
        · rw [if_pos heq] at h2
          obtain ⟨a2, h3⟩ := (A.msg _ _ _ _ _).1 h2
          refine ⟨p, t.rest, hp, by rw [← hv]; omega, a1.trans a2, ?_, h3⟩
          rintro ⟨hnil, he⟩
          refine hne ⟨?_, he⟩
          rw [hnil] at av
          simp at av; omega
        · rw [if_neg heq] at h2
          cases h2
  · rintro ⟨p, v, hp, hv, a, hne, hm⟩
    obtain ⟨t, a1, a2⟩ := a.split
    refine ⟨(t, _), ops_varint.2 ⟨p, a1, hp, rfl⟩, ?_⟩
    have hv' := u32_value hp
    rw [hv] at hv'
    have hl := a2.length
    simp only [hv', ops_avail]
    rw [if_neg (by rintro ⟨h1, h2⟩; exact hne ⟨List.length_eq_zero_iff.1 h1, h2⟩)]
    by_cases hlt : (v.length : Int) < t.rest.length
    · rw [if_pos hlt, res_bind_ok]
      refine ⟨(⟨t.prev, v⟩, s'), ops_split.2 ⟨v, a2, rfl, rfl⟩, ?_⟩
      simp only [res_bind_ok]
      refine ⟨(⟨v.reverse ++ t.prev, []⟩, m'), (A.msg _ _ _ _ _).2 ⟨⟨by simp, rfl⟩, hm⟩, rfl⟩
    · rw [if_neg hlt, if_pos (by omega)]
      have hs : s'.rest = [] := List.length_eq_zero_iff.1 (by omega)
      have e : t.rest = v := by rw [a2.1, hs, List.append_nil]
      refine (A.msg _ _ _ _ _).2 ⟨?_, ?_⟩
      · rw [e]; exact a2
      · rw [e]; exact hm

theorem readMsg_iff {k h tag m s s' m'} (ht : isTag h tag) (hk : ∀ sc, k ≠ .scalar sc) :
    readMsg C flatOps l k tag m s = .ok (s', m') ↔ At h tag s s' (fun r => recMsg C S k r m m') := by
  cases k with
  | scalar sc => exact absurd rfl (hk sc)
  | msg id =>
    simp only [readMsg]
    by_cases hw : tagType tag = wtLen
    · rw [if_pos hw, at_len ht (tagType_len.1 hw), sized_iff A]
      simp only [recMsg]
    · simp only [if_neg hw]
      constructor
      · intro h; cases h
      · rintro ⟨r, hr, e1, e2, -, hp⟩
        cases r <;> simp only [recMsg] at hp
        unfold Rec.wf at hr
        rw [← e1] at hw
        exact absurd (tagType_len.2 hr.2.1) hw
  | group id =>
    simp only [readMsg]
    by_cases hw : tagType tag = wtSGroup
    · rw [if_pos hw, at_group ht (tagType_sgroup.1 hw), A.grp, tagNumber_toNat]
      simp only [recMsg]
    · simp only [if_neg hw]
      constructor
      · intro h; cases h
      · rintro ⟨r, hr, e1, e2, -, hp⟩
        cases r <;> simp only [recMsg] at hp
        unfold Rec.wf at hr
        rw [← e1] at hw
        exact absurd (tagType_sgroup.2 hr.2.1) hw

theorem readValue_iff {k h tag old s s' v} (ht : isTag h tag) (h0 : tag ≠ 0#32) :
    readValue C flatOps l k tag old s = .ok (s', v) ↔ At h tag s s' (fun r => recValue C S k old r v) := by
  cases k with
  | scalar sc =>
    simp only [readValue, recValue, res_bind_ok]
    rw [← At.exists]
    constructor
    · rintro ⟨⟨t, w⟩, h1, h2⟩
      cases h2
      exact ⟨w, ((readScalar_iff C sc ht h0).1 h1).imp (fun r _ hr => ⟨hr, rfl⟩)⟩
    · rintro ⟨w, hh⟩
      have hv : v = narrow sc w := by obtain ⟨r, _, _, _, _, _, h⟩ := hh; exact h
      exact ⟨(s', w), (readScalar_iff C sc ht h0).2 (hh.imp (fun r _ hr => hr.1)), by rw [hv]⟩
  | msg id =>
    simp only [readValue, recValue, res_bind_ok]
    rw [← At.exists]
    constructor
    · rintro ⟨⟨t, w⟩, h1, h2⟩
      cases h2
      exact ⟨w, ((readMsg_iff A ht (by simp)).1 h1).imp (fun r _ hr => ⟨hr, rfl⟩)⟩
    · rintro ⟨w, hh⟩
      have hv : v = .msg w := by obtain ⟨r, _, _, _, _, _, h⟩ := hh; exact h
      exact ⟨(s', w), (readMsg_iff A ht (by simp)).2 (hh.imp (fun r _ hr => hr.1)), by rw [hv]⟩
  | group id =>
    simp only [readValue, recValue, res_bind_ok]
    rw [← At.exists]
    constructor
    · rintro ⟨⟨t, w⟩, h1, h2⟩
      cases h2
      exact ⟨w, ((readMsg_iff A ht (by simp)).1 h1).imp (fun r _ hr => ⟨hr, rfl⟩)⟩
    · rintro ⟨w, hh⟩
      have hv : v = .msg w := by obtain ⟨r, _, _, _, _, _, h⟩ := hh; exact h
      exact ⟨(s', w), (readMsg_iff A ht (by simp)).2 (hh.imp (fun r _ hr => hr.1)), by rw [hv]⟩

end
end HppProto
