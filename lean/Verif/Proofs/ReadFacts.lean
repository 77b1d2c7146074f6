import Verif.Proofs.ReadLevel
/-! Consequences of the record-by-record relation: records are unique, a record touches only
its own member and the unknown fields. -/
namespace HppProto
open Spec

/-! ### Unique decomposition into records -/

theorem isVarint_unique {k a b x y} (ha : isVarint k a) (hb : isVarint k b) (e : a ++ x = b ++ y) : a = b ∧ x = y := by
  have h1 := isVarint_append (more := x) ha
  have h2 := isVarint_append (more := y) hb
  rw [e, h2] at h1
  exact List.append_inj e (by simpa using h1.symm)

theorem isTag_unique {a b x y t u} (ha : isTag a t) (hb : isTag b u) (e : a ++ x = b ++ y) : a = b ∧ t = u ∧ x = y := by
  obtain ⟨rfl, rfl⟩ := isVarint_unique ha.1 hb.1 e
  exact ⟨rfl, BitVec.eq_of_toNat_eq (ha.2.trans hb.2.symm), rfl⟩

mutual
theorem rec_inj : ∀ {r r' : Rec} {x y}, r.wf → r'.wf → r.head ++ (r.payload ++ x) = r'.head ++ (r'.payload ++ y) →
    r = r' ∧ x = y
  | .varint t h v, r', x, y, hr, hr', e => by
    have hw := wf_tag hr'
    obtain ⟨e1, e2, e3⟩ := isTag_unique (wf_tag hr).1 hw.1 e
    unfold Rec.wf at hr
    cases r' <;> unfold Rec.wf at hr' <;> simp only [Rec.head, Rec.tag, Rec.payload] at e1 e2 e3 <;> subst e1 <;> subst e2
    · obtain ⟨rfl, rfl⟩ := isVarint_unique hr.2.2.2 hr'.2.2.2 e3
      exact ⟨rfl, rfl⟩
    all_goals exfalso; omega
  | .fixed t h v, r', x, y, hr, hr', e => by
    have hw := wf_tag hr'
    obtain ⟨e1, e2, e3⟩ := isTag_unique (wf_tag hr).1 hw.1 e
    unfold Rec.wf at hr
    cases r' <;> unfold Rec.wf at hr' <;> simp only [Rec.head, Rec.tag, Rec.payload] at e1 e2 e3 <;> subst e1 <;> subst e2
    · exfalso; omega
    · obtain ⟨rfl, rfl⟩ := List.append_inj e3 (by omega)
      exact ⟨rfl, rfl⟩
    all_goals exfalso; omega
  | .len t h p v, r', x, y, hr, hr', e => by
    have hw := wf_tag hr'
    obtain ⟨e1, e2, e3⟩ := isTag_unique (wf_tag hr).1 hw.1 e
    unfold Rec.wf at hr
    cases r' <;> unfold Rec.wf at hr' <;> simp only [Rec.head, Rec.tag, Rec.payload] at e1 e2 e3 <;> subst e1 <;> subst e2
    · exfalso; omega
    · exfalso; omega
    · rw [List.append_assoc, List.append_assoc] at e3
      obtain ⟨rfl, e4⟩ := isVarint_unique hr.2.2.1 hr'.2.2.1 e3
      obtain ⟨rfl, rfl⟩ := List.append_inj e4 (by omega)
      exact ⟨rfl, rfl⟩
    · exfalso; omega
  | .group t h b tl, r', x, y, hr, hr', e => by
    have hw := wf_tag hr'
    obtain ⟨e1, e2, e3⟩ := isTag_unique (wf_tag hr).1 hw.1 e
    unfold Rec.wf at hr
    cases r' <;> unfold Rec.wf at hr' <;> simp only [Rec.head, Rec.tag, Rec.payload] at e1 e2 e3 <;> subst e1 <;> subst e2
    · exfalso; omega
    · exfalso; omega
    · exfalso; omega
    · rename_i b' tl'
      obtain ⟨-, w, hb, u, hu, hu4, -⟩ := hr
      obtain ⟨-, -, hb', u', hu', hu4', -⟩ := hr'
      rw [List.append_assoc, List.append_assoc] at e3
      obtain ⟨rfl, e4⟩ := recs_inj hb hb' (.inr ⟨tl, u, x, rfl, hu, hu4⟩) (.inr ⟨tl', u', y, rfl, hu', hu4'⟩) e3
      obtain ⟨rfl, -, rfl⟩ := isTag_unique hu hu' e4
      exact ⟨rfl, rfl⟩
theorem recs_inj : ∀ {rs rs' : List Rec} {x y}, wfAll rs → wfAll rs' → Stop x → Stop y →
    rawAll rs ++ x = rawAll rs' ++ y → rs = rs' ∧ x = y
  | [], [], x, y, _, _, _, _, e => ⟨rfl, e⟩
  | [], r :: rs, x, y, _, h, hx, _, e => by
    exfalso
    unfold wfAll at h
    rw [rawAll_cons] at e
    have ht := (wf_tag h.1).1
    rcases hx with rfl | ⟨tl, u, rest, rfl, hu, hu4⟩
    · have := congrArg List.length e
      have := isTag_pos ht
      simp [rawAll] at *
      omega
    · simp only [rawAll, List.nil_append, List.append_assoc] at e
      obtain ⟨-, rfl, -⟩ := isTag_unique hu ht e
      exact wf_not_end h.1 hu4
  | r :: rs, [], x, y, h, _, _, hy, e => by
    exfalso
    unfold wfAll at h
    rw [rawAll_cons] at e
    have ht := (wf_tag h.1).1
    rcases hy with rfl | ⟨tl, u, rest, rfl, hu, hu4⟩
    · have h1 := congrArg List.length e
      have h2 := isTag_pos ht
      simp only [rawAll, List.length_append, List.length_nil] at h1
      omega
    · simp only [rawAll, List.nil_append, List.append_assoc] at e
      obtain ⟨-, rfl, -⟩ := isTag_unique hu ht e.symm
      exact wf_not_end h.1 hu4
  | r :: rs, r' :: rs', x, y, h, h', hx, hy, e => by
    unfold wfAll at h h'
    rw [rawAll_cons, rawAll_cons, List.append_assoc, List.append_assoc, List.append_assoc, List.append_assoc] at e
    obtain ⟨rfl, e'⟩ := rec_inj h.1 h'.1 e
    obtain ⟨rfl, e''⟩ := recs_inj h.2 h'.2 hx hy e'
    exact ⟨rfl, e''⟩
end

theorem recs_unique {rs rs' : List Rec} (h : wfAll rs) (h' : wfAll rs') (e : rawAll rs = rawAll rs') : rs = rs' :=
  (recs_inj (x := []) (y := []) h h' (.inl rfl) (.inl rfl) (by rw [e])).1

/-! ### A record in terms of the entries of its own member -/

section
variable (C : Cfg) (S : Sem)

/-- One element of a repeated field: entries before and after, diverted enum numbers. -/
def elemEff (k : Kind) (unique : Bool) (r : Rec) (es es' : List (Nat × Val)) (u : List (BitVec 32 × BitVec 64)) : Prop :=
  match k with
  | .scalar sc => ∃ w, recScalar C sc r = some w ∧
      if sc.valid (narrow sc w) then es' = es ++ [(0, narrow sc w)] ∧ u = []
      else es' = es ∧ u = [(tagNumber r.tag, (narrow sc w).bits)]
  | .msg id => ∃ e, recMsg C S k r (C.schema id).default e ∧ u = [] ∧
      es' = if unique then insertOrAssign (.msg e) es else es ++ [(0, .msg e)]
  | .group id => ∃ e, recMsg C S k r (C.schema id).default e ∧ u = [] ∧ es' = es ++ [(0, .msg e)]

def packedEff (number : BitVec 32) (sc : Scalar) (v : List Byte) (es es' : List (Nat × Val))
    (u : List (BitVec 32 × BitVec 64)) : Prop :=
  if v = [] then es' = es ∧ u = []
  else ∃ vs, packedVals sc v = some vs ∧ es' = es ++ (vs.filter sc.valid).map (fun v => (0, v)) ∧
    u = (vs.filter (fun v => !sc.valid v)).map (fun v => (number, v.bits))

def repEff (number : BitVec 32) (k : Kind) (unique : Bool) (r : Rec) (es es' : List (Nat × Val))
    (u : List (BitVec 32 × BitVec 64)) : Prop :=
  match k, r with
  | .scalar sc, .len _ _ _ v => if sc.packable then packedEff number sc v es es' u else elemEff C S k unique r es es' u
  | _, _ => elemEff C S k unique r es es' u

/-- Value that a singular message member is read on top of. -/
def headVal (k : Kind) : List (Nat × Val) → Val
  | (_, v) :: _ => v
  | [] => k.zero C

def altVal (k : Kind) (j : Nat) : List (Nat × Val) → Val
  | (a, v) :: _ => if a = j then v else k.zero C
  | [] => k.zero C

def slotEff (sd : SlotD) (r : Rec) (es es' : List (Nat × Val)) (u : List (BitVec 32 × BitVec 64)) : Prop :=
  match sd with
  | .field number k card =>
    match card with
    | .implicit _ => ∃ v, recValue C S k (headVal C k es) r v ∧ es' = [(0, v)] ∧ u = []
    | .always _ =>
      match k with
      | .scalar sc => ∃ w, recScalar C sc r = some w ∧ sc.valid w = true ∧ es' = [(0, narrow sc w)] ∧ u = []
      | _ => ∃ v, recValue C S k (headVal C k es) r v ∧ es' = [(0, v)] ∧ u = []
    | .optional =>
      match k with
      | .scalar sc => ∃ w, recScalar C sc r = some w ∧
          if sc.valid w then es' = [(0, narrow sc w)] ∧ u = [] else es' = es ∧ u = [(number, w.bits)]
      | _ => ∃ v, recValue C S k (headVal C k es) r v ∧ es' = [(0, v)] ∧ u = []
    | .repeated _ => repEff C S number k false r es es' u
    | .map unique => repEff C S number k unique r es es' u
  | .oneof alts => ∃ j k, findAlt (tagNumber r.tag) alts 0 = some (j, k) ∧
      match k with
      | .scalar sc => ∃ w, recScalar C sc r = some w ∧
          if sc.valid w then (k.closed = true → es.map Prod.fst = [j]) ∧ es' = [(j, narrow sc w)] ∧ u = []
          else es' = es ∧ u = [(tagNumber r.tag, w.bits)]
      | _ => ∃ v, recValue C S k (altVal C k j es) r v ∧ es' = [(j, v)] ∧ u = []

end

/-- Store the diverted enum numbers. -/
def divert (mode : UnkMode) (u : List (BitVec 32 × BitVec 64)) (m : Msg) : Msg :=
  u.foldl (fun m p => m.addUnk mode p.1 (unkEnumRecord p.1 p.2)) m

theorem put_get (m : Msg) (i : Nat) : m.put i (m.get i) = m := by
  cases m with
  | mk slots unk =>
    simp only [MsgOf.put, MsgOf.get, MsgOf.mk.injEq, and_true]
    by_cases h : i < slots.length
    · rw [List.getD_eq_getElem?_getD, List.getElem?_eq_getElem h]
      simp
    · exact List.set_eq_of_length_le (by omega)

theorem divertInvalid_eq (sc : Scalar) (mode number) : ∀ (vs : List Val) (m : Msg), divertInvalid sc mode number vs m =
    divert mode ((vs.filter (fun v => !sc.valid v)).map (fun v => (number, v.bits))) m
  | [], m => rfl
  | v :: vs, m => by
    simp only [divertInvalid]
    rw [divertInvalid_eq sc mode number vs, divertInvalid_eq sc mode number vs]
    by_cases h : sc.valid v = true
    · simp [h]
    · simp only [h, Bool.false_eq_true, if_false, List.filter_cons, Bool.not_false, if_true, List.map_cons]
      rfl

section
variable {C : Cfg} {S : Sem}

theorem elemStep_eff {mode k unique i r m m'} : elemStep C S mode k unique i r m m' ↔
    ∃ es' u, elemEff C S k unique r (m.get i) es' u ∧ m' = divert mode u (m.put i es') := by
  cases k with
  | scalar sc =>
    simp only [elemStep, elemEff]
    constructor
    · rintro ⟨w, h1, rfl⟩
      by_cases hv : sc.valid (narrow sc w) = true
      · exact ⟨_, [], ⟨w, h1, by rw [if_pos hv]; exact ⟨rfl, rfl⟩⟩, by rw [if_pos hv]; rfl⟩
      · exact ⟨_, _, ⟨w, h1, by rw [if_neg hv]; exact ⟨rfl, rfl⟩⟩, by rw [if_neg hv, put_get]; rfl⟩
    · rintro ⟨es', u, ⟨w, h1, h2⟩, rfl⟩
      refine ⟨w, h1, ?_⟩
      split at h2
      · rename_i hv; obtain ⟨rfl, rfl⟩ := h2; rw [if_pos hv]; rfl
      · rename_i hv; obtain ⟨rfl, rfl⟩ := h2; rw [if_neg hv, put_get]; rfl
  | msg id =>
    simp only [elemStep, elemEff]
    constructor
    · rintro ⟨e, h1, rfl⟩
      refine ⟨_, [], ⟨e, h1, rfl, rfl⟩, ?_⟩
      cases unique <;> rfl
    · rintro ⟨es', u, ⟨e, h1, rfl, rfl⟩, rfl⟩
      refine ⟨e, h1, ?_⟩
      cases unique <;> rfl
  | group id =>
    simp only [elemStep, elemEff]
    constructor
    · rintro ⟨e, h1, rfl⟩
      exact ⟨_, [], ⟨e, h1, rfl, rfl⟩, rfl⟩
    · rintro ⟨es', u, ⟨e, h1, rfl, rfl⟩, rfl⟩
      exact ⟨e, h1, rfl⟩

theorem packedStep_eff {mode number sc i v m m'} : packedStep mode number sc i v m m' ↔
    ∃ es' u, packedEff number sc v (m.get i) es' u ∧ m' = divert mode u (m.put i es') := by
  unfold packedStep packedEff
  by_cases hv : v = []
  · simp only [if_pos hv]
    constructor
    · rintro rfl; exact ⟨_, _, ⟨rfl, rfl⟩, by rw [put_get]; rfl⟩
    · rintro ⟨es', u, ⟨rfl, rfl⟩, rfl⟩; rw [put_get]; rfl
  · simp only [if_neg hv]
    constructor
    · rintro ⟨vs, h1, rfl⟩
      exact ⟨_, _, ⟨vs, h1, rfl, rfl⟩, divertInvalid_eq _ _ _ _ _⟩
    · rintro ⟨es', u, ⟨vs, h1, rfl, rfl⟩, rfl⟩
      exact ⟨vs, h1, (divertInvalid_eq _ _ _ _ _).symm⟩

theorem repStep_eff {mode number k unique i r m m'} : repStep C S mode number k unique i r m m' ↔
    ∃ es' u, repEff C S number k unique r (m.get i) es' u ∧ m' = divert mode u (m.put i es') := by
  cases k with
  | scalar sc =>
    cases r with
    | len t h p v =>
      simp only [repStep, repEff]
      split
      · exact packedStep_eff
      · exact elemStep_eff
    | _ => simp only [repStep, repEff]; exact elemStep_eff
  | msg id => cases r <;> simp only [repStep, repEff] <;> exact elemStep_eff
  | group id => cases r <;> simp only [repStep, repEff] <;> exact elemStep_eff

theorem single_eff {m m' : Msg} {mode : UnkMode} {i j : Nat} {P : Val → Prop} :
    (∃ v, P v ∧ m' = m.put i [(j, v)]) ↔
    ∃ (es' : List (Nat × Val)) (u : List (BitVec 32 × BitVec 64)), (∃ v, P v ∧ es' = [(j, v)] ∧ u = []) ∧
      m' = divert mode u (m.put i es') := by
  constructor
  · rintro ⟨v, h, rfl⟩; exact ⟨_, _, ⟨v, h, rfl, rfl⟩, rfl⟩
  · rintro ⟨_, _, ⟨v, h, rfl, rfl⟩, rfl⟩; exact ⟨v, h, rfl⟩

/-- A record reads and changes only the entries of its member, and may divert enum numbers
to the unknown fields. -/
theorem slotStep_eff {mode i sd r m m'} : slotStep C S mode i sd r m m' ↔
    ∃ es' u, slotEff C S sd r (m.get i) es' u ∧ m' = divert mode u (m.put i es') := by
  have hc : ∀ k, curVal C k m i = headVal C k (m.get i) := fun k => rfl
  cases sd with
  | field number k card =>
    cases card with
    | implicit d => simp only [slotStep, slotEff, hc]; exact single_eff
    | always d =>
      cases k with
      | scalar sc =>
        simp only [slotStep, slotEff]
        constructor
        · rintro ⟨w, h1, h2, rfl⟩; exact ⟨_, _, ⟨w, h1, h2, rfl, rfl⟩, rfl⟩
        · rintro ⟨_, _, ⟨w, h1, h2, rfl, rfl⟩, rfl⟩; exact ⟨w, h1, h2, rfl⟩
      | msg id => simp only [slotStep, slotEff, hc]; exact single_eff
      | group id => simp only [slotStep, slotEff, hc]; exact single_eff
    | optional =>
      cases k with
      | scalar sc =>
        simp only [slotStep, slotEff]
        constructor
        · rintro ⟨w, h1, rfl⟩
          by_cases hv : sc.valid w = true
          · exact ⟨_, _, ⟨w, h1, by rw [if_pos hv]; exact ⟨rfl, rfl⟩⟩, by rw [if_pos hv]; rfl⟩
          · exact ⟨_, _, ⟨w, h1, by rw [if_neg hv]; exact ⟨rfl, rfl⟩⟩, by rw [if_neg hv, put_get]; rfl⟩
        · rintro ⟨es', u, ⟨w, h1, h2⟩, rfl⟩
          refine ⟨w, h1, ?_⟩
          split at h2
          · rename_i hv; obtain ⟨rfl, rfl⟩ := h2; rw [if_pos hv]; rfl
          · rename_i hv; obtain ⟨rfl, rfl⟩ := h2; rw [if_neg hv, put_get]; rfl
      | msg id => simp only [slotStep, slotEff, hc]; exact single_eff
      | group id => simp only [slotStep, slotEff, hc]; exact single_eff
    | repeated p => exact repStep_eff
    | map u => exact repStep_eff
  | oneof alts =>
    simp only [slotStep, slotEff]
    constructor
    · rintro ⟨j, k, hf, h⟩
      cases k with
      | scalar sc =>
        obtain ⟨w, h1, h2⟩ := h
        by_cases hv : sc.valid w = true
        · rw [if_pos hv] at h2
          obtain ⟨h2, rfl⟩ := h2
          exact ⟨_, _, ⟨j, _, hf, w, h1, by rw [if_pos hv]; exact ⟨h2, rfl, rfl⟩⟩, rfl⟩
        · rw [if_neg hv] at h2
          subst h2
          exact ⟨_, _, ⟨j, _, hf, w, h1, by rw [if_neg hv]; exact ⟨rfl, rfl⟩⟩, by rw [put_get]; rfl⟩
      | msg id => obtain ⟨v, h1, rfl⟩ := h; exact ⟨_, _, ⟨j, _, hf, v, h1, rfl, rfl⟩, rfl⟩
      | group id => obtain ⟨v, h1, rfl⟩ := h; exact ⟨_, _, ⟨j, _, hf, v, h1, rfl, rfl⟩, rfl⟩
    · rintro ⟨es', u, ⟨j, k, hf, h⟩, rfl⟩
      refine ⟨j, k, hf, ?_⟩
      cases k with
      | scalar sc =>
        obtain ⟨w, h1, h2⟩ := h
        refine ⟨w, h1, ?_⟩
        by_cases hv : sc.valid w = true
        · rw [if_pos hv] at h2 ⊢
          obtain ⟨h2, rfl, rfl⟩ := h2
          exact ⟨h2, rfl⟩
        · rw [if_neg hv] at h2 ⊢
          obtain ⟨rfl, rfl⟩ := h2
          rw [put_get]; rfl
      | msg id => obtain ⟨v, h1, rfl, rfl⟩ := h; exact ⟨v, h1, rfl⟩
      | group id => obtain ⟨v, h1, rfl, rfl⟩ := h; exact ⟨v, h1, rfl⟩

end

end HppProto
