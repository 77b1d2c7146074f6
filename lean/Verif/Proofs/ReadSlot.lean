import Verif.Proofs.ReadPacked
/-! Reading one member consumes one record, or a run of records with one tag. -/
namespace HppProto
open Spec

section
variable {C : Cfg} {l : Level Flat} {S : Sem} (A : Agrees l S)

theorem depth_of_scalar {sc r w} (h : recScalar C sc r = some w) : r.depth = 0 := by
  cases r with
  | group => simp [recScalar] at h
  | _ => rfl

include A in
theorem depth_of_msg {k r m m'} (h : recMsg C S k r m m') : r.depth ≤ S.depth := by
  cases k <;> cases r <;> simp only [recMsg] at h <;> simp only [Rec.depth, Nat.zero_le]
  exact A.depth _ _ _ _ h

include A in
theorem depth_of_elem {mode k unique i r m m'} (h : elemStep C S mode k unique i r m m') : r.depth ≤ S.depth := by
  cases k with
  | scalar sc => obtain ⟨w, hw, -⟩ := h; rw [depth_of_scalar hw]; omega
  | msg id => obtain ⟨e, he, -⟩ := h; exact depth_of_msg A he
  | group id => obtain ⟨e, he, -⟩ := h; exact depth_of_msg A he

/-! ### Elements -/

include A in
theorem readElem_iff {mode k unique i h tag m s s' m'} (ht : isTag h tag) (h0 : tag ≠ 0#32)
    (hw : tagType tag = k.wireType) :
    readElem C flatOps l mode k unique tag i m s = .ok (s', m') ↔
    At h tag s s' (fun r => elemStep C S mode k unique i r m m') := by
  cases k with
  | scalar sc =>
    simp only [readElem, elemStep, res_bind_ok]
    constructor
    · rintro ⟨⟨t, w⟩, h1, h2⟩
      have ha := (readScalar_iff C sc ht h0).1 h1
      simp only at h2
      split at h2
      · rename_i hv
        cases h2
        exact ha.imp (fun r _ hr => ⟨w, hr, by rw [if_pos hv]⟩)
      · rename_i hv
        cases h2
        exact ha.imp (fun r e hr => ⟨w, hr, by rw [if_neg hv, e]⟩)
    · rw [← At.exists]
      rintro ⟨w, hh⟩
      refine ⟨(s', w), (readScalar_iff C sc ht h0).2 (hh.imp (fun r _ hr => hr.1)), ?_⟩
      obtain ⟨r, _, e, _, _, _, h⟩ := hh
      simp only
      split
      · rename_i hv; rw [if_pos hv] at h; rw [h]
      · rename_i hv; rw [if_neg hv, e] at h; rw [h]
  | msg id =>
    have hk : readMsg C flatOps l (.msg id) tag (C.schema id).default s = sized C flatOps l id (C.schema id).default s := by
      simp only [readMsg]; exact if_pos hw
    simp only [readElem, elemStep, res_bind_ok]
    rw [← hk]
    constructor
    · rintro ⟨⟨t, e⟩, h1, h2⟩
      have ha := (readMsg_iff A ht (by simp)).1 h1
      simp only at h2
      split at h2
      · rename_i hu
        cases h2
        exact ha.imp (fun r _ hr => ⟨e, hr, by rw [if_pos hu]⟩)
      · rename_i hu
        cases h2
        exact ha.imp (fun r _ hr => ⟨e, hr, by rw [if_neg hu]⟩)
    · rw [← At.exists]
      rintro ⟨e, hh⟩
      refine ⟨(s', e), (readMsg_iff A ht (by simp)).2 (hh.imp (fun r _ hr => hr.1)), ?_⟩
      obtain ⟨r, _, _, _, _, _, h⟩ := hh
      simp only
      split
      · rename_i hv; rw [if_pos hv] at h; rw [h]
      · rename_i hv; rw [if_neg hv] at h; rw [h]
  | group id =>
    have hk : readMsg C flatOps l (.group id) tag (C.schema id).default s = l.grp id (tagNumber tag) (C.schema id).default s := by
      simp only [readMsg]; exact if_pos hw
    simp only [readElem, elemStep, res_bind_ok]
    rw [← hk]
    constructor
    · rintro ⟨⟨t, e⟩, h1, h2⟩
      have ha := (readMsg_iff A ht (by simp)).1 h1
      cases h2
      exact ha.imp (fun r _ hr => ⟨e, hr, rfl⟩)
    · rw [← At.exists]
      rintro ⟨e, hh⟩
      refine ⟨(s', e), (readMsg_iff A ht (by simp)).2 (hh.imp (fun r _ hr => hr.1)), ?_⟩
      obtain ⟨r, _, _, _, _, _, h⟩ := hh
      rw [h]

/-! ### Runs of elements -/

/-- Elements in sequence. -/
def foldE (E : Rec → Msg → Msg → Prop) : List Rec → Msg → Msg → Prop
  | [], m, m' => m = m'
  | r :: rs, m, m' => ∃ m1, E r m m1 ∧ foldE E rs m1 m'

theorem count_ge {tag} : ∀ fuel c (s : Flat) n, countUnpackedLoop flatOps l tag fuel c s = .ok n → c + 1 ≤ n
  | 0, c, s, n, h => by simp [countUnpackedLoop] at h
  | fuel + 1, c, s, n, h => by
    simp only [countUnpackedLoop] at h
    rw [res_bind_ok] at h
    obtain ⟨t, -, h⟩ := h
    split at h
    · cases h; omega
    · rw [res_bind_ok] at h
      obtain ⟨⟨t1, tg⟩, -, h⟩ := h
      simp only at h
      split at h
      · have := count_ge fuel _ _ _ h; omega
      · cases h; omega

theorem wfAll_iff {rs : List Rec} : wfAll rs ↔ ∀ r ∈ rs, r.wf := by
  induction rs with
  | nil => simp [wfAll]
  | cons r rs ih => unfold wfAll; rw [ih]; simp

theorem rawAll_cons (r : Rec) (rs : List Rec) : rawAll (r :: rs) = r.head ++ r.payload ++ rawAll rs := by
  simp only [rawAll]

theorem rawAll_append (a b : List Rec) : rawAll (a ++ b) = rawAll a ++ rawAll b := by
  induction a with
  | nil => simp [rawAll]
  | cons r rs ih => rw [List.cons_append, rawAll_cons, rawAll_cons, ih]; simp

end

theorem run_sound {l : Level Flat} {S : Sem} (A : Agrees l S) {tag : BitVec 32} (h0 : tag ≠ 0#32)
    {elem : Msg → Flat → Res (Flat × Msg)} {E : Rec → Msg → Msg → Prop}
    (hE : ∀ {h}, isTag h tag → ∀ m s s' m', elem m s = .ok (s', m') ↔ At h tag s s' (E · m m')) : ∀ fuel c n m s s' m' h, isTag h tag → countUnpackedLoop flatOps l tag fuel c s = .ok (c + n) →
    elemLoop flatOps elem n m s = .ok (s', m') →
    ∃ r rs, r.head = h ∧ (∀ x ∈ r :: rs, x.wf ∧ x.tag = tag) ∧ Adv s (r.payload ++ rawAll rs) s' ∧
      foldE E (r :: rs) m m'
  | 0, c, n, m, s, s', m', h, ht, hc, he => by simp [countUnpackedLoop] at hc
  | fuel + 1, c, n, m, s, s', m', h, ht, hc, he => by
    have one : n = 1 → ∃ r rs, r.head = h ∧ (∀ x ∈ r :: rs, x.wf ∧ x.tag = tag) ∧ Adv s (r.payload ++ rawAll rs) s' ∧
      foldE E (r :: rs) m m' := by
      rintro rfl
      obtain ⟨r, h1, h2, h3, h4, h5⟩ := (hE ht _ _ _ _).1 he
      refine ⟨r, [], h3, ?_, by simpa [rawAll] using h4, m', h5, rfl⟩
      intro x hx; simp at hx; subst hx; exact ⟨h1, h2⟩
    simp only [countUnpackedLoop] at hc
    rw [res_bind_ok] at hc
    obtain ⟨t, hsk, hc⟩ := hc
    split at hc
    · injection hc with hc; exact one (by omega)
    · rw [res_bind_ok] at hc
      obtain ⟨⟨t1, tg⟩, hrt, hc⟩ := hc
      simp only at hc
      split at hc
      · rename_i htg
        subst htg
        have hge := count_ge _ _ _ _ hc
        obtain ⟨n', rfl⟩ : ∃ n', n = n' + 2 := ⟨n - 2, by omega⟩
        simp only [elemLoop, res_bind_ok] at he
        obtain ⟨⟨u, m1⟩, he1, ⟨⟨u1, tg'⟩, he2, he3⟩⟩ := he
        obtain ⟨r, h1, h2, h3, h4, h5⟩ := (hE ht _ _ _ _).1 he1
        obtain ⟨q, g1, g2, g3, -, g4⟩ := (A.skip ht _ _).1 hsk
        obtain ⟨rfl, -⟩ := rec_unique h1 g1 (h2.trans g2.symm) (h3.trans g3.symm) h4 g4
        rw [he2] at hrt
        cases hrt
        obtain ⟨h', a', ht'⟩ := (ops_readTag h0).1 he2
        obtain ⟨r', rs, k1, k2, k3, k4⟩ := run_sound A h0 hE fuel (c + 1) (n' + 1) m1 t1 s' m' h' ht'
          (by rw [hc]; congr 1; omega) he3
        refine ⟨r, r' :: rs, h3, ?_, ?_, m1, h5, k4⟩
        · intro x hx
          rcases List.mem_cons.1 hx with rfl | hx
          · exact ⟨h1, h2⟩
          · exact k2 x hx
        · rw [rawAll_cons, k1, List.append_assoc]
          exact h4.trans (a'.trans k3)
      · injection hc with hc; exact one (by omega)

/-- No record with this tag comes next. -/
def noNext (tag : BitVec 32) (s : Flat) : Prop :=
  s.rest = [] ∨ ∀ s1 t, flatOps.readTag s = .ok (s1, t) → t ≠ tag

theorem run_complete {l : Level Flat} {S : Sem} (A : Agrees l S) {tag : BitVec 32}
    {elem : Msg → Flat → Res (Flat × Msg)} {E : Rec → Msg → Msg → Prop}
    (hE : ∀ {h}, isTag h tag → ∀ m s s' m', elem m s = .ok (s', m') ↔ At h tag s s' (E · m m')) (hd : ∀ r m m', E r m m' → r.depth ≤ S.depth) :
    ∀ rs fuel c m s s' m' r, (∀ x ∈ r :: rs, x.wf ∧ x.tag = tag) →
    Adv s (r.payload ++ rawAll rs) s' → foldE E (r :: rs) m m' → noNext tag s' → s.rest.length < fuel →
    countUnpackedLoop flatOps l tag fuel c s = .ok (c + 1 + rs.length) ∧
    elemLoop flatOps elem (rs.length + 1) m s = .ok (s', m')
  | rs, 0, c, m, s, s', m', r, hall, a, hf, hno, hfuel => by omega
  | [], fuel + 1, c, m, s, s', m', r, hall, a, hf, hno, hfuel => by
    obtain ⟨m1, hf1, rfl⟩ := hf
    obtain ⟨hw, rfl⟩ := hall r (by simp)
    simp only [rawAll, List.append_nil] at a
    constructor
    · simp only [countUnpackedLoop, res_bind_ok]
      refine ⟨s', (A.skip (wf_tag hw).1 _ _).2 ⟨r, hw, rfl, rfl, hd _ _ _ hf1, a⟩, ?_⟩
      have av := ops_avail s'
      by_cases hz : flatOps.avail s' = 0
      · rw [if_pos hz]; rfl
      · rw [if_neg hz, res_bind_ok]
        obtain ⟨s1, t, hr⟩ := ops_readTag_total s'
        refine ⟨(s1, t), hr, ?_⟩
        rcases hno with hno | hno
        · rw [hno] at av; exact absurd av hz
        · simp only [if_neg (hno _ _ hr)]; rfl
    · exact (hE (wf_tag hw).1 _ _ _ _).2 ⟨r, hw, rfl, rfl, a, hf1⟩
  | r' :: rs, fuel + 1, c, m, s, s', m', r, hall, a, hf, hno, hfuel => by
    obtain ⟨m1, hf1, hf2⟩ := hf
    obtain ⟨hw, rfl⟩ := hall r (by simp)
    obtain ⟨hw', ht'⟩ := hall r' (by simp)
    obtain ⟨t, a1, a2⟩ := a.split
    rw [rawAll_cons, List.append_assoc] at a2
    obtain ⟨t1, a3, a4⟩ := a2.split
    have hr : flatOps.readTag t = .ok (t1, r.tag) := by rw [← ht']; exact ops_readTag_mk a3 (wf_tag hw').1
    have hlen := a1.length
    have hlen2 := a3.length
    have hpos := payload_pos hw
    have hpos2 := isTag_pos (wf_tag hw').1
    obtain ⟨k1, k2⟩ := run_complete A hE hd rs fuel (c + 1) m1 t1 s' m' r' (fun x hx => hall x (List.mem_cons_of_mem _ hx))
      a4 hf2 hno (by omega)
    constructor
    · simp only [countUnpackedLoop, res_bind_ok]
      refine ⟨t, (A.skip (wf_tag hw).1 _ _).2 ⟨r, hw, rfl, rfl, hd _ _ _ hf1, a1⟩, ?_⟩
      have av := ops_avail t
      rw [if_neg (by rw [av]; omega), res_bind_ok]
      refine ⟨_, hr, ?_⟩
      simp only [if_true]
      rw [k1, List.length_cons]; congr 1; omega
    · simp only [List.length_cons, elemLoop, res_bind_ok]
      exact ⟨(t, m1), (hE (wf_tag hw).1 _ _ _ _).2 ⟨r, hw, rfl, rfl, a1, hf1⟩, (t1, r.tag), hr, k2⟩

theorem countGroups_eq {l : Level Flat} {tag} (hw : tagType tag = wtSGroup) (h0 : tag ≠ 0#32) : ∀ fuel c (s : Flat),
    countGroupsLoop flatOps l tag fuel c s = countUnpackedLoop flatOps l tag fuel c s
  | 0, c, s => rfl
  | fuel + 1, c, s => by
    have e : doSkipField flatOps l tag s = l.skipGrp (tagNumber tag) s := by
      unfold doSkipField
      rw [if_neg h0, hw]; rfl
    simp only [countGroupsLoop, countUnpackedLoop, countGroups_eq hw h0 fuel, e]

/-! ### One member -/

section
variable {C : Cfg} {l : Level Flat} {S : Sem} (A : Agrees l S)

theorem readClosed_iff (sc : Scalar) {h tag} (ht : isTag h tag) (h0 : tag ≠ 0#32) {s s' : Flat} {x} :
    readClosed C flatOps sc tag s = .ok (s', x) ↔ ∃ w, At h tag s s' (fun r => recScalar C sc r = some w) ∧
      x = if sc.valid w then .inl (narrow sc w) else .inr w := by
  unfold readClosed
  rw [res_bind_ok]
  constructor
  · rintro ⟨⟨t, w⟩, h1, h2⟩
    have := (readScalar_iff C sc ht h0).1 h1
    simp only at h2
    split at h2 <;> cases h2 <;> rename_i hv <;> exact ⟨w, this, by simp [hv]⟩
  · rintro ⟨w, h1, rfl⟩
    refine ⟨(s', w), (readScalar_iff C sc ht h0).2 h1, ?_⟩
    by_cases hv : sc.valid w = true <;> simp [hv]

/-- Does the member take a whole run of records at once? -/
def SlotD.runs (tag : BitVec 32) : SlotD → Bool
  | .field _ k (.repeated _) | .field _ k (.map _) =>
    match k with
    | .scalar sc => !(sc.packable && tagType tag == wtLen)
    | _ => true
  | _ => false

include A in
theorem readValue_put {k h tag s s'} {m' : Msg} {f : Val → Msg} {old} (ht : isTag h tag) (h0 : tag ≠ 0#32) :
    (readValue C flatOps l k tag old s >>= fun p => .ok (p.1, f p.2)) = .ok (s', m') ↔
    At h tag s s' (fun r => ∃ v, recValue C S k old r v ∧ m' = f v) := by
  rw [← At.exists, res_bind_ok]
  constructor
  · rintro ⟨⟨t, v⟩, h1, h2⟩
    cases h2
    exact ⟨v, ((readValue_iff A ht h0).1 h1).imp (fun r _ hr => ⟨hr, rfl⟩)⟩
  · rintro ⟨v, hh⟩
    have hm : m' = f v := by obtain ⟨r, _, _, _, _, _, h⟩ := hh; exact h
    exact ⟨(s', v), (readValue_iff A ht h0).2 (hh.imp (fun r _ hr => hr.1)), by rw [hm]⟩

include A in
theorem readSlot_single {mode h tag i sd m s s' m'} (ht : isTag h tag) (h0 : tag ≠ 0#32) (hr : sd.runs tag = false) :
    readSlot C flatOps l mode tag i sd m s = .ok (s', m') ↔
    At h tag s s' (fun r => slotStep C S mode i sd r m m') := by
  have packed : ∀ number k unique, (SlotD.field number k (.map unique)).runs tag = false →
      (readRepeated C flatOps l mode number k unique tag i m s = .ok (s', m') ↔
        At h tag s s' (fun r => repStep C S mode number k unique i r m m')) := by
    intro number k unique hr
    cases k with
    | msg id => simp [SlotD.runs] at hr
    | group id => simp [SlotD.runs] at hr
    | scalar sc =>
      simp only [SlotD.runs, Bool.not_eq_false'] at hr
      simp only [readRepeated]
      rw [if_pos hr]
      rw [Bool.and_eq_true] at hr
      have hw : tagWt tag = 2 := tagType_len.1 (by simpa using hr.2)
      rw [readPacked_iff mode number sc i m ht hw]
      constructor
      · rintro ⟨r, h1, h2, h3, h4, _, _, _, _, rfl, h5⟩
        exact ⟨_, h1, h2, h3, h4, by simp only [repStep]; rw [if_pos hr.1]; exact h5⟩
      · rintro ⟨r, h1, h2, h3, h4, h5⟩
        refine ⟨r, h1, h2, h3, h4, ?_⟩
        cases r with
        | len t h p v => simp only [repStep] at h5; rw [if_pos hr.1] at h5; exact ⟨_, _, _, _, rfl, h5⟩
        | _ => exfalso; unfold Rec.wf at h1; simp only [Rec.tag] at h2; subst h2; omega
  cases sd with
  | field number k card =>
    cases card with
    | implicit d => exact readValue_put (f := fun v => m.put i [(0, v)]) A ht h0
    | always d =>
      cases k with
      | msg id => exact readValue_put (f := fun v => m.put i [(0, v)]) A ht h0
      | group id => exact readValue_put (f := fun v => m.put i [(0, v)]) A ht h0
      | scalar sc =>
        simp only [readSlot, slotStep, res_bind_ok]
        rw [← At.exists]
        constructor
        · rintro ⟨⟨t, x⟩, h1, h2⟩
          obtain ⟨w, ha, rfl⟩ := (readClosed_iff sc ht h0).1 h1
          by_cases hv : sc.valid w = true
          · simp only [if_pos hv] at h2
            cases h2
            exact ⟨w, ha.imp (fun r _ hr => ⟨hr, hv, rfl⟩)⟩
          · simp only [if_neg hv] at h2
            cases h2
        · rintro ⟨w, hh⟩
          obtain ⟨hv, hm⟩ : sc.valid w = true ∧ m' = m.put i [(0, narrow sc w)] := by
            obtain ⟨r, _, _, _, _, _, h⟩ := hh; exact h
          refine ⟨(s', .inl (narrow sc w)), (readClosed_iff sc ht h0).2 ⟨w, hh.imp (fun r _ hr => hr.1), by rw [if_pos hv]⟩, ?_⟩
          rw [hm]
    | optional =>
      cases k with
      | msg id => exact readValue_put (f := fun v => m.put i [(0, v)]) A ht h0
      | group id => exact readValue_put (f := fun v => m.put i [(0, v)]) A ht h0
      | scalar sc =>
        simp only [readSlot, slotStep, res_bind_ok]
        rw [← At.exists]
        constructor
        · rintro ⟨⟨t, x⟩, h1, h2⟩
          obtain ⟨w, ha, rfl⟩ := (readClosed_iff sc ht h0).1 h1
          by_cases hv : sc.valid w = true
          · simp only [if_pos hv] at h2
            cases h2
            exact ⟨w, ha.imp (fun r _ hr => ⟨hr, by rw [if_pos hv]⟩)⟩
          · simp only [if_neg hv] at h2
            cases h2
            exact ⟨w, ha.imp (fun r _ hr => ⟨hr, by rw [if_neg hv]⟩)⟩
        · rintro ⟨w, hh⟩
          have hm : m' = if sc.valid w then m.put i [(0, narrow sc w)]
              else m.addUnk mode number (unkEnumRecord number w.bits) := by
            obtain ⟨r, _, _, _, _, _, h⟩ := hh; exact h
          refine ⟨(s', _), (readClosed_iff sc ht h0).2 ⟨w, hh.imp (fun r _ hr => hr.1), rfl⟩, ?_⟩
          by_cases hv : sc.valid w = true
          · simp only [if_pos hv] at hm ⊢; rw [hm]
          · simp only [if_neg hv] at hm ⊢; rw [hm]
    | repeated p => exact packed number k false hr
    | map u => exact packed number k u hr
  | oneof alts =>
    simp only [readSlot, slotStep]
    cases hfa : findAlt (tagNumber tag) alts 0 with
    | none =>
      simp only [reduceCtorEq, false_iff]
      rintro ⟨r, _, e, _, _, j, k, h, _⟩
      rw [e, hfa] at h; cases h
    | some p =>
      obtain ⟨j, k⟩ := p
      simp only
      cases k with
      | scalar sc =>
        simp only [res_bind_ok]
        constructor
        · rintro ⟨⟨t, x⟩, h1, h2⟩
          obtain ⟨w, ha, rfl⟩ := (readClosed_iff sc ht h0).1 h1
          by_cases hv : sc.valid w = true
          · simp only [if_pos hv] at h2
            split at h2
            · cases h2
            · rename_i hc
              cases h2
              refine ha.imp (fun r e hr => ⟨j, .scalar sc, by rw [e, hfa], w, hr, ?_⟩)
              rw [if_pos hv]
              refine ⟨fun hcl => ?_, rfl⟩
              rw [hcl] at hc
              simpa using hc
          · simp only [if_neg hv] at h2
            cases h2
            refine ha.imp (fun r e hr => ⟨j, .scalar sc, by rw [e, hfa], w, hr, ?_⟩)
            rw [if_neg hv, e]
        · rintro ⟨r, h1, e, h3, h4, j', k', hf', h5⟩
          rw [e, hfa] at hf'
          cases hf'
          obtain ⟨w, hw, h6⟩ := h5
          refine ⟨(s', _), (readClosed_iff sc ht h0).2 ⟨w, ⟨r, h1, e, h3, h4, hw⟩, rfl⟩, ?_⟩
          by_cases hv : sc.valid w = true
          · simp only [if_pos hv] at h6 ⊢
            obtain ⟨h6, rfl⟩ := h6
            rw [if_neg]
            rw [Bool.and_eq_true, not_and]
            intro hc
            rw [h6 hc]; simp
          · simp only [if_neg hv] at h6 ⊢
            rw [h6, e]
      | msg id =>
        simp only
        rw [readValue_put (f := fun v => m.put i [(j, v)]) A ht h0]
        constructor
        · intro hh
          exact hh.imp (fun r e hr => ⟨j, .msg id, by rw [e, hfa], hr⟩)
        · rintro ⟨r, h1, e, h3, h4, j', k', hf', h5⟩
          rw [e, hfa] at hf'
          cases hf'
          exact ⟨r, h1, e, h3, h4, h5⟩
      | group id =>
        simp only
        rw [readValue_put (f := fun v => m.put i [(j, v)]) A ht h0]
        constructor
        · intro hh
          exact hh.imp (fun r e hr => ⟨j, .group id, by rw [e, hfa], hr⟩)
        · rintro ⟨r, h1, e, h3, h4, j', k', hf', h5⟩
          rw [e, hfa] at hf'
          cases hf'
          exact ⟨r, h1, e, h3, h4, h5⟩

/-- On a run, the member takes one element per record. -/
theorem slot_elem {mode i sd r m m'} (hr : sd.runs r.tag = true) (hw : r.wf) :
    ∃ number k card unique, sd = .field number k card ∧
    (slotStep C S mode i sd r m m' ↔ elemStep C S mode k unique i r m m') := by
  have key : ∀ number k unique, (SlotD.field number k (.map unique)).runs r.tag = true →
      (repStep C S mode number k unique i r m m' ↔ elemStep C S mode k unique i r m m') := by
    intro number k unique hr
    cases k with
    | msg id => cases r <;> rfl
    | group id => cases r <;> rfl
    | scalar sc =>
      cases r with
      | len t h p v =>
        unfold Rec.wf at hw
        simp only [SlotD.runs, Rec.tag] at hr
        have e : tagType t = wtLen := tagType_len.2 hw.2.1
        simp [e] at hr
        simp only [repStep]
        rw [if_neg (by simp [hr])]
      | _ => rfl
  cases sd with
  | oneof alts => simp [SlotD.runs] at hr
  | field number k card =>
    cases card with
    | implicit d => simp [SlotD.runs] at hr
    | always d => simp [SlotD.runs] at hr
    | optional => simp [SlotD.runs] at hr
    | repeated p => exact ⟨number, k, _, false, rfl, key number k false hr⟩
    | map u => exact ⟨number, k, _, u, rfl, key number k u hr⟩

/-- Reading a run, as a count and an element loop. -/
theorem readSlot_run {mode tag i sd m} {s : Flat} {x} (hr : sd.runs tag = true) (h0 : tag ≠ 0#32) :
    ∃ k unique, (∀ r m m', r.wf → r.tag = tag → (slotStep C S mode i sd r m m' ↔ elemStep C S mode k unique i r m m')) ∧
    (readSlot C flatOps l mode tag i sd m s = .ok x ↔ tagType tag = k.wireType ∧
      ∃ c, countUnpackedLoop flatOps l tag (fuelOf flatOps s) 0 s = .ok c ∧
        elemLoop flatOps (readElem C flatOps l mode k unique tag i) c m s = .ok x) := by
  have key : ∀ number k unique, (SlotD.field number k (.map unique)).runs tag = true →
      (∀ r m m', r.wf → r.tag = tag →
        (repStep C S mode number k unique i r m m' ↔ elemStep C S mode k unique i r m m')) ∧
      (readRepeated C flatOps l mode number k unique tag i m s = .ok x ↔ tagType tag = k.wireType ∧
      ∃ c, countUnpackedLoop flatOps l tag (fuelOf flatOps s) 0 s = .ok c ∧
        elemLoop flatOps (readElem C flatOps l mode k unique tag i) c m s = .ok x) := by
    intro number k unique hr
    constructor
    · rintro r m m' hw rfl
      obtain ⟨n', k', c', u', e, h⟩ := slot_elem (C := C) (S := S) (mode := mode) (i := i) (m := m) (m' := m') hr hw
      cases k with
      | msg id => cases r <;> rfl
      | group id => cases r <;> rfl
      | scalar sc =>
        cases r with
        | len t h p v =>
          unfold Rec.wf at hw
          simp only [SlotD.runs, Rec.tag] at hr
          have e : tagType t = wtLen := tagType_len.2 hw.2.1
          simp [e] at hr
          simp only [repStep]
          rw [if_neg (by simp [hr])]
        | _ => rfl
    · cases k with
      | msg id =>
        simp only [readRepeated, Kind.wireType]
        by_cases hw : tagType tag = wtLen
        · rw [if_neg (by simp [hw]), res_bind_ok]; simp [hw]
        · rw [if_pos hw]; simp [hw]
      | group id =>
        simp only [readRepeated, Kind.wireType]
        by_cases hw : tagType tag = wtSGroup
        · rw [if_neg (by simp [hw]), countGroups_eq hw h0, res_bind_ok]; simp [hw]
        · rw [if_pos hw]; simp [hw]
      | scalar sc =>
        simp only [SlotD.runs, Bool.not_eq_true'] at hr
        simp only [readRepeated, Kind.wireType]
        rw [if_neg (by simp [hr])]
        by_cases hw : tagType tag = sc.wireType
        · rw [if_neg (by simp [hw]), res_bind_ok]; simp [hw]
        · rw [if_pos hw]; simp [hw]
  cases sd with
  | oneof alts => simp [SlotD.runs] at hr
  | field number k card =>
    cases card with
    | implicit d => simp [SlotD.runs] at hr
    | always d => simp [SlotD.runs] at hr
    | optional => simp [SlotD.runs] at hr
    | repeated p => exact ⟨k, false, key number k false hr⟩
    | map u => exact ⟨k, u, key number k u hr⟩

theorem elem_wireType {mode k unique i r m m'} (h : elemStep C S mode k unique i r m m') (hw : r.wf) :
    tagType r.tag = k.wireType := by
  have msg : ∀ k e e', recMsg C S k r e e' → tagType r.tag = k.wireType := by
    intro k e e' h
    cases k <;> cases r <;> simp only [recMsg] at h <;> unfold Rec.wf at hw <;>
      simp only [Rec.tag, Kind.wireType, tagType_len, tagType_sgroup]
    · exact hw.2.1
    · exact hw.2.1
  cases k with
  | msg id => obtain ⟨e, he, -⟩ := h; exact msg _ _ _ he
  | group id => obtain ⟨e, he, -⟩ := h; exact msg _ _ _ he
  | scalar sc =>
    obtain ⟨w, he, -⟩ := h
    cases r <;> unfold Rec.wf at hw <;> cases sc <;> simp only [recScalar, reduceCtorEq] at he <;>
        simp only [Rec.tag, Kind.wireType, Scalar.wireType, tagType_varint, tagType_fixed64, tagType_len, tagType_fixed32]
    · exact hw.2.2.1
    · exact hw.2.2.1
    · exact hw.2.2.1
    · split at he
      · omega
      · cases he
    · split at he
      · omega
      · cases he
    · exact hw.2.1

end
end HppProto
