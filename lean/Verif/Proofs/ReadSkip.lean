import Verif.Proofs.ReadOps
/-! Skipping a record consumes exactly one well-formed record. -/
namespace HppProto
open Spec

/-- An end-group tag for the given field number. -/
def endTag (number : Nat) (tail : List Byte) : Prop := ∃ e, isTag tail e ∧ tagWt e = 4 ∧ tagNum e = number

/-- Records and an end tag, nested at most `d` deep including the group itself. -/
def GroupAt (d : Nat) (number : BitVec 32) (s s' : Flat) : Prop :=
  ∃ body tail, wfAll body ∧ depthAll body + 1 ≤ d ∧ endTag number.toNat tail ∧ Adv s (rawAll body ++ tail) s'

/-- One record with the given tag, nested at most `d` deep. -/
def RecAt (d : Nat) (h : List Byte) (tag : BitVec 32) (s s' : Flat) : Prop :=
  ∃ r : Rec, r.wf ∧ r.tag = tag ∧ r.head = h ∧ r.depth ≤ d ∧ Adv s r.payload s'

theorem skipLen_iff {s s' : Flat} : skipLen flatOps s = .ok s' ↔
    ∃ p v, isVarint 6 p ∧ valueOf p % 2 ^ 32 = v.length ∧ Adv s (p ++ v) s' := by
  unfold skipLen
  rw [res_bind_ok]
  constructor
  · rintro ⟨⟨t, len⟩, h1, h2⟩
    obtain ⟨p, a1, hp, rfl⟩ := ops_varint.1 h1
    obtain ⟨v, a2, hv⟩ := ops_skip.1 h2
    refine ⟨p, v, hp, ?_, a1.trans a2⟩
    rw [hv, u32_value hp]
  · rintro ⟨p, v, hp, hv, a⟩
    obtain ⟨t, a1, a2⟩ := a.split
    refine ⟨(t, _), ops_varint.2 ⟨p, a1, hp, rfl⟩, ops_skip.2 ⟨v, a2, ?_⟩⟩
    rw [u32_value hp, hv]

theorem doSkip_iff (l : Level Flat) (d : Nat)
    (hl : ∀ number s s', l.skipGrp number s = .ok s' ↔ GroupAt d number s s')
    {h : List Byte} {tag : BitVec 32} (ht : isTag h tag) (s s' : Flat) :
    doSkipField flatOps l tag s = .ok s' ↔ RecAt d h tag s s' := by
  have wf0 : ∀ r : Rec, r.wf → r.tag = tag → r.head = h →
      (∃ v, r = .varint tag h v ∧ tagWt tag = 0 ∧ isVarint 10 v) ∨
      (∃ v, r = .fixed tag h v ∧ ((tagWt tag = 1 ∧ v.length = 8) ∨ (tagWt tag = 5 ∧ v.length = 4))) ∨
      (∃ p v, r = .len tag h p v ∧ tagWt tag = 2 ∧ isVarint 6 p ∧ valueOf p % 2 ^ 32 = v.length) ∨
      (∃ body tail, r = .group tag h body tail ∧ tagWt tag = 3 ∧ wfAll body ∧ endTag (tagNum tag) tail) := by
    intro r hr e1 e2
    cases r with
    | varint t h' v =>
      simp only [Rec.tag, Rec.head] at e1 e2; subst e1; subst e2
      unfold Rec.wf at hr
      exact .inl ⟨v, rfl, hr.2.2.1, hr.2.2.2⟩
    | fixed t h' v =>
      simp only [Rec.tag, Rec.head] at e1 e2; subst e1; subst e2
      unfold Rec.wf at hr
      exact .inr (.inl ⟨v, rfl, hr.2⟩)
    | len t h' p v =>
      simp only [Rec.tag, Rec.head] at e1 e2; subst e1; subst e2
      unfold Rec.wf at hr
      exact .inr (.inr (.inl ⟨p, v, rfl, hr.2.1, hr.2.2.1, hr.2.2.2⟩))
    | group t h' body tail =>
      simp only [Rec.tag, Rec.head] at e1 e2; subst e1; subst e2
      unfold Rec.wf at hr
      exact .inr (.inr (.inr ⟨body, tail, rfl, hr.2.1, hr.2.2.1, hr.2.2.2⟩))
  unfold doSkipField
  simp only [tagType_varint, tagType_fixed64, tagType_len, tagType_sgroup, tagType_fixed32]
  by_cases h0 : tag = 0#32
  · rw [if_pos h0]
    constructor
    · intro h; cases h
    · rintro ⟨r, hr, e1, -⟩
      exact absurd (e1.trans h0) (wf_tag hr).2
  rw [if_neg h0]
  constructor
  · intro hs
    by_cases w0 : tagWt tag = 0
    · rw [if_pos w0] at hs
      obtain ⟨v, a, hv⟩ := ops_skipVarint.1 hs
      exact ⟨.varint tag h v, by unfold Rec.wf; exact ⟨ht, h0, w0, hv⟩, rfl, rfl, by simp [Rec.depth],
        by simpa [Rec.payload] using a⟩
    rw [if_neg w0] at hs
    by_cases w2 : tagWt tag = 2
    · rw [if_pos w2] at hs
      obtain ⟨p, v, hp, hv, a⟩ := skipLen_iff.1 hs
      exact ⟨.len tag h p v, by unfold Rec.wf; exact ⟨ht, w2, hp, hv⟩, rfl, rfl, by simp [Rec.depth],
        by simpa [Rec.payload] using a⟩
    rw [if_neg w2] at hs
    by_cases w1 : tagWt tag = 1
    · rw [if_pos w1] at hs
      obtain ⟨v, a, hv⟩ := ops_skip.1 hs
      exact ⟨.fixed tag h v, by unfold Rec.wf; exact ⟨ht, .inl ⟨w1, hv⟩⟩, rfl, rfl, by simp [Rec.depth],
        by simpa [Rec.payload] using a⟩
    rw [if_neg w1] at hs
    by_cases w3 : tagWt tag = 3
    · rw [if_pos w3, hl] at hs
      obtain ⟨body, tail, hb, hd, he, a⟩ := hs
      rw [tagNumber_toNat] at he
      exact ⟨.group tag h body tail, by unfold Rec.wf; exact ⟨ht, w3, hb, he⟩, rfl, rfl, by simpa [Rec.depth] using hd,
        by simpa [Rec.payload] using a⟩
    rw [if_neg w3] at hs
    by_cases w5 : tagWt tag = 5
    · rw [if_pos w5] at hs
      obtain ⟨v, a, hv⟩ := ops_skip.1 hs
      exact ⟨.fixed tag h v, by unfold Rec.wf; exact ⟨ht, .inr ⟨w5, hv⟩⟩, rfl, rfl, by simp [Rec.depth],
        by simpa [Rec.payload] using a⟩
    rw [if_neg w5] at hs
    cases hs
  · rintro ⟨r, hr, e1, e2, hd, a⟩
    rcases wf0 r hr e1 e2 with ⟨v, rfl, w, hv⟩ | ⟨v, rfl, hv⟩ | ⟨p, v, rfl, w, hp, hv⟩ | ⟨body, tail, rfl, w, hb, he⟩
    · rw [if_pos w]
      exact ops_skipVarint.2 ⟨v, by simpa [Rec.payload] using a, hv⟩
    · rcases hv with ⟨w, hv⟩ | ⟨w, hv⟩
      · rw [if_neg (by omega), if_neg (by omega), if_pos w]
        exact ops_skip.2 ⟨v, by simpa [Rec.payload] using a, hv⟩
      · rw [if_neg (by omega), if_neg (by omega), if_neg (by omega), if_neg (by omega), if_pos w]
        exact ops_skip.2 ⟨v, by simpa [Rec.payload] using a, hv⟩
    · rw [if_neg (by omega), if_pos w]
      exact skipLen_iff.2 ⟨p, v, hp, hv, by simpa [Rec.payload] using a⟩
    · rw [if_neg (by omega), if_neg (by omega), if_neg (by omega), if_pos w, hl]
      exact ⟨body, tail, hb, by simpa [Rec.depth] using hd, by rw [tagNumber_toNat]; exact he,
        by simpa [Rec.payload] using a⟩

theorem payload_pos : ∀ {r : Rec}, r.wf → 0 < r.payload.length
  | .varint t h v, hr => by unfold Rec.wf at hr; simp only [Rec.payload]; exact isVarint_pos hr.2.2.2
  | .fixed t h v, hr => by unfold Rec.wf at hr; simp only [Rec.payload]; rcases hr.2 with h | h <;> omega
  | .len t h p v, hr => by
    unfold Rec.wf at hr; simp only [Rec.payload, List.length_append]
    have := isVarint_pos hr.2.2.1; omega
  | .group t h b tl, hr => by
    unfold Rec.wf at hr; simp only [Rec.payload, List.length_append]
    obtain ⟨e, he, -⟩ := hr.2.2.2
    have := isTag_pos he; omega

theorem wf_not_end {r : Rec} (h : r.wf) : tagWt r.tag ≠ 4 := by
  cases r <;> unfold Rec.wf at h <;> simp only [Rec.tag] <;> omega

theorem skipGroupLoop_iff (l : Level Flat) (d : Nat)
    (hs : ∀ {h tag}, isTag h tag → ∀ s s', doSkipField flatOps l tag s = .ok s' ↔ RecAt d h tag s s')
    (number : BitVec 32) : ∀ (fuel : Nat) (s s' : Flat), s.rest.length < fuel →
    (skipGroupLoop flatOps l number fuel s = .ok s' ↔ GroupAt (d + 1) number s s') := by
  intro fuel
  induction fuel with
  | zero => intro s s' h; omega
  | succ fuel ih =>
    intro s s' hf
    rw [skipGroupLoop]
    constructor
    · intro h
      split at h
      · rw [res_bind_ok] at h
        obtain ⟨⟨t, tag⟩, h1, h2⟩ := h
        simp only at h2
        by_cases ht0 : tag = 0#32
        · subst ht0
          rw [if_neg (by rintro ⟨h, -⟩; revert h; decide)] at h2
          split at h2
          · cases h2
          · rw [res_bind_ok] at h2
            obtain ⟨a, h2, -⟩ := h2
            simp [doSkipField] at h2
        obtain ⟨hd, a1, htag⟩ := (ops_readTag ht0).1 h1
        split at h2
        · rename_i he
          cases h2
          refine ⟨[], hd, by unfold wfAll; trivial, by simp [depthAll], ⟨tag, htag, tagType_egroup.1 he.1, ?_⟩, by simpa [rawAll] using a1⟩
          rw [he.2, tagNumber_toNat]
        · split at h2
          · cases h2
          · rw [res_bind_ok] at h2
            obtain ⟨u, h3, h4⟩ := h2
            obtain ⟨r, hr, e1, e2, hdep, a2⟩ := (hs htag _ _).1 h3
            have hl1 := a1.length
            have hl2 := a2.length
            have := isTag_pos htag
            obtain ⟨body, tail, hb, hdb, he, a3⟩ := (ih u s' (by omega)).1 h4
            refine ⟨r :: body, tail, by unfold wfAll; exact ⟨hr, hb⟩, ?_, he, ?_⟩
            · simp only [depthAll]; omega
            · simp only [rawAll, e2, List.append_assoc]
              have := (a1.trans a2).trans a3
              simpa [List.append_assoc] using this
      · cases h
    · rintro ⟨body, tail, hb, hdb, ⟨e, he, hw, hn⟩, a⟩
      have hpos := isTag_pos he
      cases body with
      | nil =>
        simp only [rawAll, List.nil_append] at a
        have hl := a.length
        rw [if_pos (by rw [ops_avail]; omega), res_bind_ok]
        refine ⟨(s', e), ops_readTag_mk a he, ?_⟩
        simp only
        have hnum : number = tagNumber e := BitVec.eq_of_toNat_eq (by rw [tagNumber_toNat, hn])
        rw [if_pos ⟨tagType_egroup.2 hw, hnum⟩]
      | cons r body =>
        unfold wfAll at hb
        simp only [depthAll] at hdb
        simp only [rawAll, List.append_assoc] at a
        obtain ⟨t, a1, a⟩ := a.split
        obtain ⟨u, a2, a3⟩ := a.split
        obtain ⟨htag, -⟩ := wf_tag hb.1
        have hl1 := a1.length
        have hl2 := a2.length
        have := isTag_pos htag
        have := payload_pos hb.1
        rw [if_pos (by rw [ops_avail]; omega), res_bind_ok]
        refine ⟨(t, r.tag), ops_readTag_mk a1 htag, ?_⟩
        simp only
        rw [if_neg (by rintro ⟨h, -⟩; exact wf_not_end hb.1 (tagType_egroup.1 h)),
          if_neg (by rw [ops_avail]; omega), res_bind_ok]
        refine ⟨u, (hs htag _ _).2 ⟨r, hb.1, rfl, rfl, by omega, a2⟩, ?_⟩
        exact (ih u s' (by omega)).2 ⟨body, tail, hb.2, by omega, ⟨e, he, hw, hn⟩, a3⟩

theorem skipGrp_iff (C : Cfg) : ∀ d number s s',
    (level C flatOps d).skipGrp number s = .ok s' ↔ GroupAt d number s s'
  | 0, number, s, s' => by
    constructor
    · intro h; simp [level] at h
    · rintro ⟨_, _, _, h, _⟩; omega
  | d + 1, number, s, s' => by
    show skipGroupLoop flatOps (level C flatOps d) number (fuelOf flatOps s) s = _ ↔ _
    refine skipGroupLoop_iff _ d (fun ht => doSkip_iff _ d (skipGrp_iff C d) ht) number _ _ _ ?_
    simp [fuelOf, ops_avail]

theorem skip_iff (C : Cfg) (d : Nat) {h tag} (ht : isTag h tag) (s s' : Flat) :
    doSkipField flatOps (level C flatOps d) tag s = .ok s' ↔ RecAt d h tag s s' :=
  doSkip_iff _ d (skipGrp_iff C d) ht s s'

/-- The record at a position is unique. -/
theorem rec_unique {r r' : Rec} (hr : r.wf) (hr' : r'.wf) (e1 : r.tag = r'.tag) (e2 : r.head = r'.head)
    {s t t' : Flat} (a : Adv s r.payload t) (a' : Adv s r'.payload t') : t = t' ∧ r.payload = r'.payload := by
  let C : Cfg := ⟨fun _ => ⟨[], .none, false⟩, fun _ => true⟩
  have h1 := (skip_iff C (max r.depth r'.depth) (wf_tag hr).1 s t).2 ⟨r, hr, rfl, rfl, by omega, a⟩
  have h2 := (skip_iff C (max r.depth r'.depth) (wf_tag hr).1 s t').2 ⟨r', hr', e1.symm, e2.symm, by omega, a'⟩
  rw [h1] at h2
  cases h2
  refine ⟨rfl, ?_⟩
  have := a.1.symm.trans a'.1
  exact List.append_cancel_right this

end HppProto
