import Verif.Proofs.ReadLevel
/-! On contiguous input the reader never reaches undefined behaviour and its loops end. -/
namespace HppProto
open Spec

/-- Neither undefined behaviour nor an unfinished loop, and an exception only if `T`. -/
def Res.Fine {α} (T : Prop) (x : Res α) : Prop := x ≠ .ub ∧ x ≠ .stuck ∧ (x = .throw → T)

/-- Some oneof of the schema has a member of closed enum type. -/
def ClosedInOneof (C : Cfg) : Prop :=
  ∃ id alts a, SlotD.oneof alts ∈ (C.schema id).slots ∧ a ∈ alts ∧ a.2.closed = true

variable {T : Prop}

theorem fine_ok {α} (a : α) : (Res.ok a).Fine T := ⟨by simp, by simp, by simp⟩
theorem fine_err {α} (e : Err) : (Res.err e : Res α).Fine T := ⟨by simp, by simp, by simp⟩
theorem fine_throw {α} (h : T) : (Res.throw : Res α).Fine T := ⟨by simp, by simp, fun _ => h⟩

theorem fine_bind {α β} {x : Res α} {f : α → Res β} (h1 : x.Fine T) (h2 : ∀ a, x = .ok a → (f a).Fine T) :
    (x >>= f).Fine T := by
  show (Res.bind x f).Fine T
  cases x with
  | ok a => exact h2 a rfl
  | err e => exact fine_err e
  | ub => exact absurd rfl h1.1
  | throw => exact fine_throw (h1.2.2 rfl)
  | stuck => exact absurd rfl h1.2.1

theorem fine_ite {α} {c : Prop} [Decidable c] {x y : Res α} (h1 : c → x.Fine T) (h2 : ¬c → y.Fine T) :
    (if c then x else y).Fine T := by
  split
  · exact h1 ‹_›
  · exact h2 ‹_›

macro "fineOp" : tactic => `(tactic| (simp only [flatOps]; repeat' split) <;> first | exact fine_ok _ | exact fine_err _)

theorem fine_readTag (s : Flat) : (flatOps.readTag s).Fine T := by fineOp
theorem fine_matchTag (s : Flat) (t) : (flatOps.matchTag s t).Fine T := by fineOp
theorem fine_varint (ty) (s : Flat) : (flatOps.varint ty s).Fine T := by fineOp
theorem fine_bool (s : Flat) : (flatOps.bool s).Fine T := by fineOp
theorem fine_fixed (n) (s : Flat) : (flatOps.fixed n s).Fine T := by fineOp
theorem fine_skipVarint (s : Flat) : (flatOps.skipVarint s).Fine T := by fineOp
theorem fine_skip (n) (s : Flat) : (flatOps.skip n s).Fine T := by fineOp
theorem fine_raw (n) (s : Flat) : (flatOps.raw n s).Fine T := by fineOp
theorem fine_packedVarints (ty n c) (s : Flat) : (flatOps.packedVarints ty n c s).Fine T := by fineOp
theorem fine_packedBools (c) (s : Flat) : (flatOps.packedBools c s).Fine T := by fineOp
theorem fine_numVarints {n} (hn : n ≠ 0) (s : Flat) : (flatOps.numVarints n s).Fine T := by
  simp only [flatOps, if_neg hn]
  repeat' split
  all_goals first | exact fine_ok _ | exact fine_err _

structure FineL (T : Prop) (l : Level Flat) : Prop where
  msg : ∀ id m s, (l.msg id m s).Fine T
  grp : ∀ id n m s, (l.grp id n m s).Fine T
  skipGrp : ∀ n s, (l.skipGrp n s).Fine T

section
variable {C : Cfg} {l : Level Flat} {S : Sem} (F : FineL T l)
include F

theorem fine_doSkip (tag) (s : Flat) : (doSkipField flatOps l tag s).Fine T := by
  unfold doSkipField skipLen
  repeat' split
  all_goals first
    | exact fine_err _
    | exact fine_skipVarint _
    | exact fine_skip _ _
    | exact F.skipGrp _ _
    | exact fine_bind (fine_varint _ _) (fun _ _ => fine_skip _ _)

theorem fine_sized (id m) (s : Flat) : (sized C flatOps l id m s).Fine T := by
  unfold sized
  refine fine_bind (fine_varint _ _) (fun a _ => ?_)
  refine fine_ite (fun _ => fine_err _) (fun _ => fine_ite (fun h => ?_) (fun _ => fine_ite (fun _ => F.msg _ _ _) (fun _ => fine_err _)))
  have av := ops_avail a.1
  refine fine_bind ?_ (fun p _ => fine_bind (F.msg _ _ _) (fun _ _ => fine_ok _))
  have : flatOps.split a.2.toNat a.1 = .ok (⟨a.1.prev, a.1.rest.take a.2.toNat⟩, a.1.consume a.2.toNat) :=
    if_pos (by omega)
  rw [this]; exact fine_ok _

omit F in
theorem fine_readScalar (sc tag) (s : Flat) : (readScalar C flatOps sc tag s).Fine T := by
  unfold readScalar readBytes
  split
  · exact fine_err _
  · cases sc
    · exact fine_bind (fine_varint _ _) (fun _ _ => fine_ok _)
    · exact fine_bind (fine_bool _) (fun _ _ => fine_ok _)
    · exact fine_bind (fine_varint _ _) (fun _ _ => fine_ok _)
    · exact fine_bind (fine_fixed _ _) (fun _ _ => fine_ok _)
    · exact fine_bind (fine_fixed _ _) (fun _ _ => fine_ok _)
    · refine fine_bind (fine_bind (fine_varint _ _) (fun a _ => ?_)) (fun _ _ => fine_ok _)
      refine fine_ite (fun _ => fine_ite (fun _ => fine_err _) (fun _ => fine_ok _)) (fun _ => ?_)
      exact fine_bind (fine_raw _ _) (fun _ _ => fine_ite (fun _ => fine_err _) (fun _ => fine_ok _))

theorem fine_readMsg (k tag m) (s : Flat) : (readMsg C flatOps l k tag m s).Fine T := by
  cases k
  · exact fine_err _
  · simp only [readMsg]; exact fine_ite (fun _ => fine_sized F _ _ _) (fun _ => fine_err _)
  · simp only [readMsg]; exact fine_ite (fun _ => F.grp _ _ _ _) (fun _ => fine_err _)

theorem fine_readValue (k tag old) (s : Flat) : (readValue C flatOps l k tag old s).Fine T := by
  cases k
  · exact fine_bind (fine_readScalar _ _ _) (fun _ _ => fine_ok _)
  · exact fine_bind (fine_readMsg F _ _ _ _) (fun _ _ => fine_ok _)
  · exact fine_bind (fine_readMsg F _ _ _ _) (fun _ _ => fine_ok _)

omit F in
theorem fine_readPacked (mode number sc i m) (s : Flat) : (readPacked flatOps mode number sc i m s).Fine T := by
  unfold readPacked
  refine fine_bind (fine_varint _ _) (fun a _ => fine_ite (fun _ => fine_ok _) (fun h => ?_))
  refine fine_bind ?_ (fun _ _ => fine_ok _)
  have hn : a.2.toNat ≠ 0 := fun e => h (BitVec.eq_of_toNat_eq (by simpa using e))
  cases sc <;> simp only [readPackedElems]
  · refine fine_bind (fine_numVarints hn _) (fun o _ => ?_)
    cases o
    · exact fine_err _
    · exact fine_bind (fine_packedVarints _ _ _ _) (fun _ _ => fine_ok _)
  · refine fine_bind (fine_numVarints hn _) (fun o _ => ?_)
    cases o
    · exact fine_err _
    · exact fine_bind (fine_packedBools _ _) (fun _ _ => fine_ok _)
  · refine fine_bind (fine_numVarints hn _) (fun o _ => ?_)
    cases o
    · exact fine_err _
    · exact fine_bind (fine_packedVarints _ _ _ _) (fun _ _ => fine_ok _)
  · exact fine_ite (fun _ => fine_bind (fine_raw _ _) (fun _ _ => fine_ok _)) (fun _ => fine_err _)
  · exact fine_ite (fun _ => fine_bind (fine_raw _ _) (fun _ _ => fine_ok _)) (fun _ => fine_err _)
  · exact fine_err _

theorem fine_readElem (mode k unique tag i m) (s : Flat) : (readElem C flatOps l mode k unique tag i m s).Fine T := by
  cases k
  · exact fine_bind (fine_readScalar _ _ _) (fun _ _ => fine_ite (fun _ => fine_ok _) (fun _ => fine_ok _))
  · exact fine_bind (fine_sized F _ _ _) (fun _ _ => fine_ite (fun _ => fine_ok _) (fun _ => fine_ok _))
  · exact fine_bind (F.grp _ _ _ _) (fun _ _ => fine_ok _)

omit F in
theorem fine_elemLoop {elem : Msg → Flat → Res (Flat × Msg)} (he : ∀ m s, (elem m s).Fine T) :
    ∀ n m s, (elemLoop flatOps elem n m s).Fine T
  | 0, m, s => fine_ok _
  | 1, m, s => he m s
  | n + 2, m, s => by
    simp only [elemLoop]
    exact fine_bind (he _ _) (fun _ _ => fine_bind (fine_readTag _) (fun _ _ => fine_elemLoop he _ _ _))

end

theorem fine_count {l : Level Flat} {S : Sem} (F : FineL T l) (A : Agrees l S) {h tag} (h0 : tag ≠ 0#32) (ht : isTag h tag) :
    ∀ fuel c (s : Flat), s.rest.length < fuel → (countUnpackedLoop flatOps l tag fuel c s).Fine T
  | 0, c, s, hf => by omega
  | fuel + 1, c, s, hf => by
    simp only [countUnpackedLoop]
    refine fine_bind (fine_doSkip F _ _) (fun t h1 => fine_ite (fun _ => fine_ok _) (fun _ => ?_))
    refine fine_bind (fine_readTag _) (fun p h2 => fine_ite (fun he => ?_) (fun _ => fine_ok _))
    obtain ⟨u, t'⟩ := p
    obtain ⟨r, k1, -, -, -, k5⟩ := (A.skip ht _ _).1 h1
    simp only at he
    subst he
    obtain ⟨h', a, ht'⟩ := (ops_readTag h0).1 h2
    have := k5.length
    have := a.length
    have := payload_pos k1
    exact fine_count F A h0 ht fuel _ u (by omega)

section
variable {C : Cfg} {l : Level Flat} {S : Sem} (F : FineL T l) (A : Agrees l S)
include F A

theorem fine_readRepeated (mode number k unique i m) {h tag} (h0 : tag ≠ 0#32) (ht : isTag h tag) (s : Flat) :
    (readRepeated C flatOps l mode number k unique tag i m s).Fine T := by
  have hl : s.rest.length < fuelOf flatOps s := by have := ops_avail s; unfold fuelOf; omega
  cases k with
  | scalar sc =>
    simp only [readRepeated]
    refine fine_ite (fun _ => fine_readPacked _ _ _ _ _ _) (fun _ => fine_ite (fun _ => fine_err _) (fun _ => ?_))
    exact fine_bind (fine_count F A h0 ht _ _ _ hl) (fun _ _ => fine_elemLoop (fine_readElem F _ _ _ _ _) _ _ _)
  | msg id =>
    simp only [readRepeated]
    refine fine_ite (fun _ => fine_err _) (fun _ => ?_)
    exact fine_bind (fine_count F A h0 ht _ _ _ hl) (fun _ _ => fine_elemLoop (fine_readElem F _ _ _ _ _) _ _ _)
  | group id =>
    simp only [readRepeated]
    refine fine_ite (fun _ => fine_err _) (fun hw => ?_)
    rw [countGroups_eq (Classical.not_not.1 hw) h0]
    exact fine_bind (fine_count F A h0 ht _ _ _ hl) (fun _ _ => fine_elemLoop (fine_readElem F _ _ _ _ _) _ _ _)

omit F A in
theorem fine_readClosed (sc tag) (s : Flat) : (readClosed C flatOps sc tag s).Fine T :=
  fine_bind (fine_readScalar _ _ _) (fun _ _ => fine_ite (fun _ => fine_ok _) (fun _ => fine_ok _))

omit F A in
theorem findAlt_mem {n : BitVec 32} {alts : List (BitVec 32 × Kind)} {j0 j k} :
    findAlt n alts j0 = some (j, k) → ∃ a ∈ alts, a.2 = k := by
  induction alts generalizing j0 with
  | nil => intro h; cases h
  | cons a as ih =>
    intro h
    simp only [findAlt] at h
    split at h
    · cases h; exact ⟨a, List.mem_cons_self, rfl⟩
    · obtain ⟨b, hb, e⟩ := ih h
      exact ⟨b, List.mem_cons_of_mem _ hb, e⟩

theorem fine_readSlot (mode i sd m) {h tag} (h0 : tag ≠ 0#32) (ht : isTag h tag)
    (hsd : sd.hasNumber (tagNumber tag) = true)
    (hT : ∀ alts, sd = .oneof alts → ∀ a ∈ alts, a.2.closed = true → T) (s : Flat) :
    (readSlot C flatOps l mode tag i sd m s).Fine T := by
  have val : ∀ k old (f : Val → Msg), (readValue C flatOps l k tag old s >>= fun p => .ok (p.1, f p.2)).Fine T :=
    fun k old f => fine_bind (fine_readValue F _ _ _ _) (fun _ _ => fine_ok _)
  cases sd with
  | field number k card =>
    cases card with
    | implicit d => exact val k _ (fun v => m.put i [(0, v)])
    | always d =>
      cases k with
      | scalar sc =>
        refine fine_bind (fine_readClosed _ _ _) (fun p _ => ?_)
        obtain ⟨t, x⟩ := p
        cases x
        · exact fine_ok _
        · exact fine_err _
      | msg id => exact val (.msg id) _ (fun v => m.put i [(0, v)])
      | group id => exact val (.group id) _ (fun v => m.put i [(0, v)])
    | optional =>
      cases k with
      | scalar sc =>
        refine fine_bind (fine_readClosed _ _ _) (fun p _ => ?_)
        obtain ⟨t, x⟩ := p
        cases x <;> exact fine_ok _
      | msg id => exact val (.msg id) _ (fun v => m.put i [(0, v)])
      | group id => exact val (.group id) _ (fun v => m.put i [(0, v)])
    | repeated p => exact fine_readRepeated F A _ _ _ _ _ _ h0 ht _
    | map u => exact fine_readRepeated F A _ _ _ _ _ _ h0 ht _
  | oneof alts =>
    have hfa : ∀ (alts : List (BitVec 32 × Kind)) j, alts.any (fun a => a.1 == tagNumber tag) = true →
        findAlt (tagNumber tag) alts j ≠ none := by
      intro alts
      induction alts with
      | nil => simp
      | cons a as ih =>
        intro j h
        simp only [findAlt]
        by_cases e : a.1 = tagNumber tag
        · simp [e]
        · rw [if_neg e]
          rw [List.any_cons] at h
          exact ih _ (by simpa [e] using h)
    simp only [readSlot]
    cases hf : findAlt (tagNumber tag) alts 0 with
    | none => exact absurd hf (hfa alts 0 hsd)
    | some p =>
      obtain ⟨j, k⟩ := p
      cases k with
      | scalar sc =>
        refine fine_bind (fine_readClosed _ _ _) (fun p _ => ?_)
        obtain ⟨t, x⟩ := p
        cases x
        · refine fine_ite (fun hc => fine_throw ?_) (fun _ => fine_ok _)
          obtain ⟨a, ha, he⟩ := findAlt_mem hf
          exact hT alts rfl a ha (by rw [he]; simp only [Bool.and_eq_true] at hc; exact hc.1)
        · exact fine_ok _
      | msg id => exact val (.msg id) _ (fun v => m.put i [(j, v)])
      | group id => exact val (.group id) _ (fun v => m.put i [(j, v)])

omit A F in
theorem fine_skipMatch {l : Level Flat} {S : Sem} (F : FineL T l) (A : Agrees l S) {h tag} (ht : isTag h tag) :
    ∀ fuel (s : Flat), s.rest.length < fuel → (skipMatchLoop flatOps l tag fuel s).Fine T := by
  intro fuel
  induction fuel with
  | zero => intro s h; omega
  | succ fuel ih =>
    intro s hf
    simp only [skipMatchLoop]
    refine fine_bind (fine_matchTag _ _) (fun p h1 => fine_ite (fun hh => ?_) (fun _ => fine_ok _))
    refine fine_bind (fine_doSkip F _ _) (fun u h2 => ?_)
    obtain ⟨t, hit⟩ := p
    simp only at hh h1 h2
    subst hh
    obtain ⟨h', a, -⟩ := ops_matchTag.1 h1
    obtain ⟨r, k1, -, -, -, k5⟩ := (A.skip ht _ _).1 h2
    have := k5.length
    have := a.length
    have := payload_pos k1
    exact ih u (by omega)

theorem fine_readField (D : MsgD) (hT : ∀ alts, SlotD.oneof alts ∈ D.slots → ∀ a ∈ alts, a.2.closed = true → T)
    (m) {h tag} {s0 s : Flat} (a0 : Adv s0 h s) (ht : isTag h tag) :
    (readField C flatOps l D tag m s).Fine T := by
  unfold readField
  refine fine_ite (fun _ => fine_err _) (fun hn => ?_)
  have h0 : tag ≠ 0#32 := by rintro rfl; exact hn rfl
  cases hf : D.find (tagNumber tag) with
  | some i =>
    simp only
    obtain ⟨hi, hp, -⟩ := List.findIdx?_eq_some_iff_getElem.1 hf
    rw [List.getElem?_eq_getElem hi]
    exact fine_readSlot F A _ _ _ _ h0 ht hp (fun alts e => hT alts (e ▸ List.getElem_mem hi)) _
  | none =>
    simp only
    refine fine_ite (fun _ => ?_) (fun _ => fine_err _)
    by_cases hm : D.unk = .none
    · unfold skipField
      rw [if_pos hm]
      exact fine_bind (fine_doSkip F _ _) (fun _ _ => fine_ok _)
    · have fs : (skipFieldsMatchTag flatOps l tag s).Fine T :=
        fine_bind (fine_doSkip F _ _) (fun v _ => fine_skipMatch F A ht _ _ (by
          have := ops_avail v; unfold fuelOf; omega))
      have sub : ∀ s', skipFieldsMatchTag flatOps l tag s = .ok s' → ∃ bs, Adv s bs s' := by
        intro s' hh
        unfold skipFieldsMatchTag at hh
        rw [res_bind_ok] at hh
        obtain ⟨t, h1, h2⟩ := hh
        obtain ⟨r, -, -, -, -, k5⟩ := (A.skip ht _ _).1 h1
        obtain ⟨rs, -, g2, -⟩ := skipMatch_sound A _ _ _ h2
        exact ⟨_, k5.trans g2⟩
      cases hres : skipFieldsMatchTag flatOps l tag s with
      | ok s' =>
        obtain ⟨bs, a⟩ := sub s' hres
        have := (skipField_store (m := m) (m' := m.addUnk D.unk (tagNumber tag) _) hm a0 ht sub).2 ⟨bs, a, hres, rfl⟩
        rw [this]
        exact fine_ok _
      | _ =>
        unfold skipField
        rw [if_neg hm]
        refine fine_bind ?_ (fun u _ => fine_bind fs (fun v hv => by rw [hres] at hv; cases hv))
        have hsz := isTag_size ht
        have hp := a0.2
        have : flatOps.unwind (varintSize 32 tag.toNat) s = .ok ⟨s.prev.drop (varintSize 32 tag.toNat),
            (s.prev.take (varintSize 32 tag.toNat)).reverse ++ s.rest⟩ :=
          if_pos (by rw [hp]; simp; omega)
        rw [this]; exact fine_ok _

theorem fine_msgLoop (D : MsgD) (hT : ∀ alts, SlotD.oneof alts ∈ D.slots → ∀ a ∈ alts, a.2.closed = true → T) : ∀ fuel m (s : Flat), s.rest.length < fuel → (msgLoop C flatOps l D fuel m s).Fine T := by
  intro fuel
  induction fuel with
  | zero => intro m s h; omega
  | succ fuel ih =>
    intro m s hf
    simp only [msgLoop]
    refine fine_ite (fun _ => ?_) (fun _ => fine_ite (fun _ => fine_ok _) (fun _ => fine_err _))
    refine fine_bind (fine_readTag _) (fun p h1 => ?_)
    obtain ⟨t, tag⟩ := p
    by_cases h0 : tag = 0#32
    · subst h0
      have : readField C flatOps l D 0#32 m t = .err .badMessage := if_pos rfl
      simp only [this]
      exact fine_err _
    · obtain ⟨h, a, ht⟩ := (ops_readTag h0).1 h1
      refine fine_bind (fine_readField F A D hT m a ht) (fun q h2 => ?_)
      obtain ⟨r, rs, k1, k2, -⟩ := readField_sound A a ht h2
      have := k2.length
      have : 0 < (rawAll (r :: rs)).length := by
        rw [rawAll_cons]; simp only [List.length_append]
        unfold wfAll at k1
        have := isTag_pos (wf_tag k1.1).1
        omega
      exact ih _ _ (by omega)

theorem fine_grpLoop (D : MsgD) (hT : ∀ alts, SlotD.oneof alts ∈ D.slots → ∀ a ∈ alts, a.2.closed = true → T)
    (number) : ∀ fuel m (s : Flat), s.rest.length < fuel →
    (grpLoop C flatOps l D number fuel m s).Fine T := by
  intro fuel
  induction fuel with
  | zero => intro m s h; omega
  | succ fuel ih =>
    intro m s hf
    simp only [grpLoop]
    refine fine_ite (fun _ => ?_) (fun _ => fine_err _)
    refine fine_bind (fine_readTag _) (fun p h1 => fine_ite (fun _ => fine_ok _) (fun _ => ?_))
    obtain ⟨t, tag⟩ := p
    by_cases h0 : tag = 0#32
    · subst h0
      have : readField C flatOps l D 0#32 m t = .err .badMessage := if_pos rfl
      simp only [this]
      exact fine_err _
    · obtain ⟨h, a, ht⟩ := (ops_readTag h0).1 h1
      refine fine_bind (fine_readField F A D hT m a ht) (fun q h2 => ?_)
      obtain ⟨r, rs, k1, k2, -⟩ := readField_sound A a ht h2
      have := k2.length
      have : 0 < (rawAll (r :: rs)).length := by
        rw [rawAll_cons]; simp only [List.length_append]
        unfold wfAll at k1
        have := isTag_pos (wf_tag k1.1).1
        omega
      exact ih _ _ (by omega)

theorem fine_skipGroupLoop (number) : ∀ fuel (s : Flat), s.rest.length < fuel →
    (skipGroupLoop flatOps l number fuel s).Fine T := by
  intro fuel
  induction fuel with
  | zero => intro s h; omega
  | succ fuel ih =>
    intro s hf
    simp only [skipGroupLoop]
    refine fine_ite (fun _ => ?_) (fun _ => fine_err _)
    refine fine_bind (fine_readTag _) (fun p h1 => fine_ite (fun _ => fine_ok _) (fun _ => fine_ite (fun _ => fine_err _) (fun _ => ?_)))
    obtain ⟨t, tag⟩ := p
    by_cases h0 : tag = 0#32
    · subst h0
      have : doSkipField flatOps l 0#32 t = .err .badMessage := if_pos rfl
      simp only [this]
      exact fine_err _
    · obtain ⟨h, a, ht⟩ := (ops_readTag h0).1 h1
      refine fine_bind (fine_doSkip F _ _) (fun u h2 => ?_)
      obtain ⟨r, k1, -, -, -, k5⟩ := (A.skip ht _ _).1 h2
      have : t.rest.length = _ := k5.length
      have := a.length
      have := payload_pos k1
      exact ih u (by omega)

end

theorem level_fine (C : Cfg) : ∀ d, FineL (ClosedInOneof C) (level C flatOps d)
  | 0 => ⟨fun _ _ _ => fine_err _, fun _ _ _ _ => fine_err _, fun _ _ => fine_err _⟩
  | d + 1 => by
    have F := level_fine C d
    have A := level_agrees C d
    have hl : ∀ s : Flat, s.rest.length < fuelOf flatOps s := fun s => by
      have := ops_avail s; unfold fuelOf; omega
    have hT : ∀ id alts, SlotD.oneof alts ∈ (C.schema id).slots → ∀ a ∈ alts, a.2.closed = true → ClosedInOneof C :=
      fun id alts h a ha hc => ⟨id, alts, a, h, ha, hc⟩
    refine ⟨fun id m s => ?_, fun id n m s => fine_grpLoop F A _ (hT id) _ _ _ _ (hl s), fun n s => fine_skipGroupLoop F A _ _ _ (hl s)⟩
    show (msgBody C flatOps (level C flatOps d) id m s).Fine _
    unfold msgBody
    refine fine_ite (fun hc => ?_) (fun _ => fine_msgLoop F A _ (hT id) _ _ _ (hl s))
    have av := ops_avail s
    cases hs : s.rest with
    | nil => rw [hs] at av; simp at av; omega
    | cons b bs =>
      have hp : flatOps.peek s = .ok b := by
        show (match s.rest with | b :: _ => Res.ok b | [] => .ub) = _
        rw [hs]
      rw [hp]
      exact fine_bind (fine_ok _) (fun _ _ => fine_ite (fun _ => fine_err _) (fun _ => fine_msgLoop F A _ (hT id) _ _ _ (hl s)))

theorem parseOnto_fine (C : Cfg) (limit id m buf) : (parseOnto C limit id m buf).Fine (ClosedInOneof C) :=
  fine_bind ((level_fine C (limit + 1)).msg _ _ _) (fun _ _ => fine_ok _)

end HppProto
