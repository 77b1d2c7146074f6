import Verif.Proofs.ReadSlot
/-! The reader computes the record-by-record relation. -/
namespace HppProto
open Spec

theorem wfAll_append {a b : List Rec} : wfAll (a ++ b) ↔ wfAll a ∧ wfAll b := by
  simp only [wfAll_iff, List.mem_append]
  exact ⟨fun h => ⟨fun r hr => h r (.inl hr), fun r hr => h r (.inr hr)⟩,
    fun h r hr => hr.elim (h.1 r) (h.2 r)⟩

theorem unkAppend_twice (k : Nat) (a b : List Byte) : ∀ l, unkAppend k b (unkAppend k a l) = unkAppend k (a ++ b) l
  | [] => by simp [unkAppend]
  | (k', x) :: l => by
    simp only [unkAppend]
    by_cases h : k' = k
    · simp [h, unkAppend]
    · simp [h, unkAppend, unkAppend_twice k a b l]

theorem addUnk_twice (m : Msg) (mode n a b) : (m.addUnk mode n a).addUnk mode n b = m.addUnk mode n (a ++ b) := by
  cases mode <;> simp [MsgOf.addUnk, unkAppend_twice]

section
variable {C : Cfg} {S : Sem} {D : MsgD}

/-- Run state after a list of records. -/
def lastOf (D : MsgD) : Option (BitVec 32) → List Rec → Option (BitVec 32)
  | last, [] => last
  | _, r :: rs => lastOf D (nextRun D r) rs

theorem fold_append : ∀ {a b : List Rec} {last m m'}, fold C S D last (a ++ b) m m' ↔
    ∃ m1, fold C S D last a m m1 ∧ fold C S D (lastOf D last a) b m1 m'
  | [], b, last, m, m' => by simp [fold, lastOf]
  | r :: a, b, last, m, m' => by
    simp only [List.cons_append, fold, lastOf]
    constructor
    · rintro ⟨m1, h1, h2⟩
      obtain ⟨m2, h3, h4⟩ := fold_append.1 h2
      exact ⟨m2, ⟨m1, h1, h3⟩, h4⟩
    · rintro ⟨m2, ⟨m1, h1, h3⟩, h4⟩
      exact ⟨m1, h1, fold_append.2 ⟨m2, h3, h4⟩⟩

theorem fold_last {rs : List Rec} {last m m'} (h : ∀ r rs', rs = r :: rs' → contd last r = false) :
    fold C S D last rs m m' ↔ fold C S D none rs m m' := by
  cases rs with
  | nil => simp [fold]
  | cons r rs =>
    have : contd none r = false := by simp [contd]
    simp only [fold, h r rs rfl, this]

end

/-! ### Runs of unknown records -/

/-- A record that `match_tag` continues with. -/
def Cont (d : Nat) (tag : BitVec 32) (r : Rec) : Prop := r.wf ∧ r.tag = tag ∧ r.head.length ≤ 4 ∧ r.depth ≤ d

theorem skipMatch_sound {l : Level Flat} {S : Sem} (A : Agrees l S) {tag : BitVec 32} : ∀ fuel s s',
    skipMatchLoop flatOps l tag fuel s = .ok s' →
    ∃ rs, (∀ r ∈ rs, Cont S.depth tag r) ∧ Adv s (rawAll rs) s' ∧ rdMatch s'.rest tag = none
  | 0, s, s', h => by simp [skipMatchLoop] at h
  | fuel + 1, s, s', h => by
    simp only [skipMatchLoop, res_bind_ok] at h
    obtain ⟨⟨t, hit⟩, h1, h2⟩ := h
    cases hit with
    | false =>
      simp only [Bool.false_eq_true, if_false] at h2
      cases h2
      obtain ⟨h3, rfl⟩ := ops_matchTag_false.1 h1
      exact ⟨[], by simp, by simpa [rawAll] using Adv.refl _, h3⟩
    | true =>
      simp only [if_true, res_bind_ok] at h2
      obtain ⟨t1, h3, h4⟩ := h2
      obtain ⟨h, a, ht, hl⟩ := ops_matchTag.1 h1
      obtain ⟨r, k1, k2, k3, k4, k5⟩ := (A.skip ht _ _).1 h3
      obtain ⟨rs, g1, g2, g3⟩ := skipMatch_sound A fuel _ _ h4
      refine ⟨r :: rs, ?_, ?_, g3⟩
      · intro x hx
        rcases List.mem_cons.1 hx with rfl | hx
        · exact ⟨k1, k2, by rw [k3]; exact hl, k4⟩
        · exact g1 x hx
      · rw [rawAll_cons, List.append_assoc, k3]
        exact a.trans (k5.trans g2)

theorem skipMatch_complete {l : Level Flat} {S : Sem} (A : Agrees l S) {tag : BitVec 32} : ∀ fuel rs s s',
    (∀ r ∈ rs, Cont S.depth tag r) → Adv s (rawAll rs) s' → rdMatch s'.rest tag = none → s.rest.length < fuel →
    skipMatchLoop flatOps l tag fuel s = .ok s'
  | 0, rs, s, s', _, _, _, h => by omega
  | fuel + 1, [], s, s', _, a, hn, hf => by
    obtain rfl := (Adv.refl s).unique (by simpa [rawAll] using a)
    simp only [skipMatchLoop, res_bind_ok]
    exact ⟨(s, false), ops_matchTag_false.2 ⟨hn, rfl⟩, by simp⟩
  | fuel + 1, r :: rs, s, s', hc, a, hn, hf => by
    obtain ⟨c1, c2, c3, c4⟩ := hc r (by simp)
    rw [rawAll_cons, List.append_assoc] at a
    obtain ⟨t, a1, a2⟩ := a.split
    obtain ⟨t1, a3, a4⟩ := a2.split
    have ht := (wf_tag c1).1
    rw [c2] at ht
    simp only [skipMatchLoop, res_bind_ok]
    refine ⟨(t, true), ops_matchTag.2 ⟨r.head, a1, ht, c3⟩, ?_⟩
    simp only [if_true, res_bind_ok]
    refine ⟨t1, (A.skip ht _ _).2 ⟨r, c1, c2, rfl, c4, a3⟩, ?_⟩
    have := a1.length
    have := a3.length
    have := isTag_pos ht
    exact skipMatch_complete A fuel rs t1 s' (fun x hx => hc x (by simp [hx])) a4 hn (by omega)

theorem skipField_none {l : Level Flat} {tag m} {s s' : Flat} {m'} :
    skipField flatOps l .none tag m s = .ok (s', m') ↔ doSkipField flatOps l tag s = .ok s' ∧ m' = m := by
  unfold skipField
  rw [if_pos rfl, res_bind_ok]
  constructor
  · rintro ⟨t, h1, h2⟩; cases h2; exact ⟨h1, rfl⟩
  · rintro ⟨h1, rfl⟩; exact ⟨s', h1, rfl⟩

theorem skipField_store {l : Level Flat} {mode tag m} {s0 s s' : Flat} {m' h} (hm : mode ≠ .none)
    (a0 : Adv s0 h s) (ht : isTag h tag) (hsub : ∀ s', skipFieldsMatchTag flatOps l tag s = .ok s' → ∃ bs, Adv s bs s') :
    skipField flatOps l mode tag m s = .ok (s', m') ↔
    ∃ bs, Adv s bs s' ∧ skipFieldsMatchTag flatOps l tag s = .ok s' ∧
      m' = m.addUnk mode (tagNumber tag) (h.drop (h.length - varintSize 32 tag.toNat) ++ bs) := by
  have hsz := isTag_size ht
  unfold skipField
  rw [if_neg hm, res_bind_ok]
  generalize varintSize 32 tag.toNat = n at *
  have hp := a0.2
  have hu : flatOps.unwind n s = .ok ⟨s.prev.drop n, h.drop (h.length - n) ++ s.rest⟩ := by
    show (if n ≤ s.prev.length then Res.ok (⟨s.prev.drop n, (s.prev.take n).reverse ++ s.rest⟩ : Flat) else .ub) = _
    rw [if_pos (by rw [hp]; simp; omega)]
    congr 3
    rw [hp, List.take_append_of_le_length (by simpa using hsz), List.take_reverse, List.reverse_reverse]
  have tail : ∀ s1 bs, Adv s bs s1 →
      (flatOps.split (flatOps.avail ⟨s.prev.drop n, h.drop (h.length - n) ++ s.rest⟩ - flatOps.avail s1).toNat
        ⟨s.prev.drop n, h.drop (h.length - n) ++ s.rest⟩ >>= fun p =>
        flatOps.raw (flatOps.avail ⟨s.prev.drop n, h.drop (h.length - n) ++ s.rest⟩ - flatOps.avail s1).toNat p.1 >>= fun q =>
        Res.ok (s1, m.addUnk mode (tagNumber tag) q.2)) =
      Res.ok (s1, m.addUnk mode (tagNumber tag) (h.drop (h.length - n) ++ bs)) := by
    intro s1 bs a
    have hl : (flatOps.avail ⟨s.prev.drop n, h.drop (h.length - n) ++ s.rest⟩ - flatOps.avail s1).toNat =
        (h.drop (h.length - n) ++ bs).length := by
      rw [ops_avail, ops_avail]
      simp only [List.length_append]
      have := a.length
      omega
    rw [hl, res_bind_ok]
    refine ⟨(⟨s.prev.drop n, h.drop (h.length - n) ++ bs⟩, ⟨_, s1.rest⟩),
      ops_split.2 ⟨h.drop (h.length - n) ++ bs, ⟨by rw [a.1, List.append_assoc], rfl⟩, rfl, rfl⟩, ?_⟩
    simp only [res_bind_ok]
    exact ⟨(⟨_, []⟩, h.drop (h.length - n) ++ bs), ops_raw.2 ⟨⟨by simp, rfl⟩, rfl⟩, rfl⟩
  constructor
  · rintro ⟨u, h1, h2⟩
    rw [hu] at h1
    cases h1
    rw [res_bind_ok] at h2
    obtain ⟨s1, h3, h4⟩ := h2
    obtain ⟨bs, a⟩ := hsub s1 h3
    have := tail s1 bs a
    rw [this] at h4
    cases h4
    exact ⟨bs, a, h3, rfl⟩
  · rintro ⟨bs, a, h1, rfl⟩
    refine ⟨_, hu, ?_⟩
    rw [res_bind_ok]
    exact ⟨s', h1, tail s' bs a⟩

/-- What follows a list of records: nothing, or an end-group tag. -/
def Stop (more : List Byte) : Prop := more = [] ∨ ∃ tail e rest, more = tail ++ rest ∧ isTag tail e ∧ tagWt e = 4

theorem stop_noNext {s : Flat} {tag} (h : Stop s.rest) (hw : tagWt tag ≠ 4) : noNext tag s := by
  rcases h with h | ⟨tail, e, rest, h1, h2, h3⟩
  · exact .inl h
  · refine .inr (fun s1 t hr => ?_)
    have : flatOps.readTag s = .ok (⟨_, rest⟩, e) := ops_readTag_mk ⟨h1, rfl⟩ h2
    rw [this] at hr
    cases hr
    rintro rfl
    exact hw h3

theorem stop_noMatch {l : List Byte} {tag} (h : Stop l) (hw : tagWt tag ≠ 4) : rdMatch l tag = none := by
  rcases h with rfl | ⟨tail, e, rest, rfl, h2, h3⟩
  · exact rdMatch_nil tag
  · rw [rdMatch_mk h2, if_neg]
    rintro ⟨rfl, -⟩
    exact hw h3

theorem span_run {p : Rec → Bool} (rs : List Rec) : ∃ rs1 rs2, rs = rs1 ++ rs2 ∧ (∀ r ∈ rs1, p r = true) ∧
    ∀ r rs', rs2 = r :: rs' → p r = false := by
  induction rs with
  | nil => exact ⟨[], [], rfl, by simp, by simp⟩
  | cons r rs ih =>
    by_cases h : p r = true
    · obtain ⟨a, b, e, h1, h2⟩ := ih
      exact ⟨r :: a, b, by rw [e]; rfl, by simpa [h] using h1, h2⟩
    · exact ⟨[], r :: rs, rfl, by simp, fun r' rs' e => by cases e; simpa using h⟩

section
variable {C : Cfg} {l : Level Flat} {S : Sem} (A : Agrees l S) {D : MsgD}

theorem step_known {r : Rec} {cont m m' i sd} (hf : D.find (tagNumber r.tag) = some i) (hs : D.slots[i]? = some sd) :
    step C S D cont r m m' ↔ tagNumber r.tag ≠ 0#32 ∧ slotStep C S D.unk i sd r m m' := by
  unfold step
  rw [hf]
  simp only [hs, Option.some.injEq, exists_eq_left']

theorem step_unknown {r : Rec} {cont m m'} (hf : D.find (tagNumber r.tag) = none) :
    step C S D cont r m m' ↔ tagNumber r.tag ≠ 0#32 ∧ r.depth ≤ S.depth ∧
      m' = m.addUnk D.unk (tagNumber r.tag) (captured cont r) := by
  unfold step
  rw [hf]

/-- A run of known records, in `fold` and element by element. -/
theorem fold_known {tag : BitVec 32} {i sd E} (hf : D.find (tagNumber tag) = some i) (hs : D.slots[i]? = some sd)
    (hn : tagNumber tag ≠ 0#32)
    (hE : ∀ r m m', r.wf → r.tag = tag → (slotStep C S D.unk i sd r m m' ↔ E r m m')) :
    ∀ {rs m m'}, (∀ r ∈ rs, r.wf ∧ r.tag = tag) → (fold C S D none rs m m' ↔ foldE E rs m m')
  | [], m, m', _ => by simp [fold, foldE]
  | r :: rs, m, m', h => by
    obtain ⟨h1, h2⟩ := h r (by simp)
    have hnr : nextRun D r = none := by
      unfold nextRun; rw [h2, hf]; split <;> rfl
    simp only [fold, foldE, hnr]
    refine exists_congr (fun m1 => and_congr ?_ (fold_known hf hs hn hE (fun x hx => h x (by simp [hx]))))
    rw [step_known (by rw [h2]; exact hf) hs, hE r m m1 h1 h2, h2]
    exact ⟨fun h => h.2, fun h => ⟨hn, h⟩⟩

theorem lastOf_known {tag : BitVec 32} {i} (hf : D.find (tagNumber tag) = some i) :
    ∀ {rs : List Rec}, (∀ r ∈ rs, r.tag = tag) → lastOf D none rs = none
  | [], _ => rfl
  | r :: rs, h => by
    have hnr : nextRun D r = none := by
      unfold nextRun; rw [h r (by simp), hf]; split <;> rfl
    simp only [lastOf, hnr]
    exact lastOf_known hf (fun x hx => h x (by simp [hx]))

/-- A run of unknown records is stored as one piece. -/
theorem fold_unknown {tag : BitVec 32} (hf : D.find (tagNumber tag) = none) (hn : tagNumber tag ≠ 0#32)
    (hm : D.unk ≠ .none) : ∀ {rs : List Rec} {m : Msg} {b : List Byte} {m' : Msg}, (∀ r ∈ rs, Cont S.depth tag r) →
    (fold C S D (some tag) rs (m.addUnk D.unk (tagNumber tag) b) m' ↔
      m' = m.addUnk D.unk (tagNumber tag) (b ++ rawAll rs))
  | [], m, b, m', _ => by simp [fold, rawAll, eq_comm]
  | r :: rs, m, b, m', h => by
    obtain ⟨h1, h2, h3, h4⟩ := h r (by simp)
    have hc : contd (some tag) r = true := by simp [contd, h2, h3]
    have hnr : nextRun D r = some tag := by
      unfold nextRun; rw [if_neg hm, h2, hf]
    simp only [fold, hnr, hc, rawAll_cons]
    have cap : captured true r = r.head ++ r.payload := rfl
    constructor
    · rintro ⟨m1, k1, k2⟩
      rw [step_unknown (by rw [h2]; exact hf), h2, cap] at k1
      obtain ⟨-, -, rfl⟩ := k1
      rw [addUnk_twice] at k2
      rw [(fold_unknown hf hn hm (fun x hx => h x (by simp [hx]))).1 k2]
      simp
    · rintro rfl
      refine ⟨(m.addUnk D.unk (tagNumber tag) b).addUnk D.unk (tagNumber tag) (captured true r), ?_, ?_⟩
      · rw [step_unknown (by rw [h2]; exact hf), h2]
        exact ⟨hn, h4, rfl⟩
      · rw [addUnk_twice, fold_unknown hf hn hm (fun x hx => h x (by simp [hx])), cap]
        simp

theorem lastOf_unknown {tag : BitVec 32} (hf : D.find (tagNumber tag) = none) (hm : D.unk ≠ .none) :
    ∀ {rs : List Rec}, (∀ r ∈ rs, r.tag = tag) → lastOf D (some tag) rs = some tag
  | [], _ => rfl
  | r :: rs, h => by
    have hnr : nextRun D r = some tag := by
      unfold nextRun; rw [if_neg hm, h r (by simp), hf]
    simp only [lastOf, hnr]
    exact lastOf_unknown hf hm (fun x hx => h x (by simp [hx]))

theorem contd_match {tag : BitVec 32} {r : Rec} (hw : r.wf) {more} (h : rdMatch (r.head ++ more) tag = none) :
    contd (some tag) r = false := by
  rw [rdMatch_mk (wf_tag hw).1] at h
  split at h
  · cases h
  · rename_i hc
    simp only [contd, Bool.and_eq_false_iff, beq_eq_false_iff_ne, ne_eq, Option.some.injEq, decide_eq_false_iff_not]
    by_cases e : tag = r.tag
    · exact .inr (fun h4 => hc ⟨e.symm, h4⟩)
    · exact .inl e

include A in
theorem readField_sound {tag : BitVec 32} {h : List Byte} {m m1 : Msg} {s0 s s' : Flat} (a0 : Adv s0 h s)
    (ht : isTag h tag) (hr : readField C flatOps l D tag m s = .ok (s', m1)) :
    ∃ r rs, wfAll (r :: rs) ∧ Adv s0 (rawAll (r :: rs)) s' ∧ fold C S D none (r :: rs) m m1 ∧
      ∀ q more, q.wf → s'.rest = q.head ++ more → contd (lastOf D none (r :: rs)) q = false := by
  unfold readField at hr
  split at hr
  · cases hr
  rename_i hn
  have h0 : tag ≠ 0#32 := by rintro rfl; exact hn rfl
  cases hf : D.find (tagNumber tag) with
  | some i =>
    simp only [hf] at hr
    cases hs : D.slots[i]? with
    | none => simp only [hs] at hr; cases hr
    | some sd =>
      simp only [hs] at hr
      cases hruns : sd.runs tag with
      | false =>
        obtain ⟨r, h1, h2, h3, h4, h5⟩ := (readSlot_single A ht h0 hruns).1 hr
        have hall : ∀ x ∈ [r], x.wf ∧ x.tag = tag := by intro x hx; simp at hx; subst hx; exact ⟨h1, h2⟩
        refine ⟨r, [], wfAll_iff.2 (fun x hx => (hall x hx).1), ?_, ?_, ?_⟩
        · rw [rawAll_cons, h3]; simpa [rawAll] using a0.trans h4
        · refine ⟨m1, ?_, rfl⟩
          rw [step_known (by rw [h2]; exact hf) hs, h2]
          exact ⟨hn, h5⟩
        · intro q more _ _
          rw [lastOf_known hf (fun x hx => (hall x hx).2)]; rfl
      | true =>
        obtain ⟨k, u, e1, e2⟩ := readSlot_run (C := C) (l := l) (S := S) (mode := D.unk) (tag := tag) (i := i)
          (m := m) (s := s) (x := (s', m1)) hruns h0
        obtain ⟨hw, c, hc, he⟩ := e2.1 hr
        obtain ⟨r, rs, k1, k2, k3, k4⟩ := run_sound A h0 (E := elemStep C S D.unk k u i)
          (fun ht => fun _ _ _ _ => readElem_iff A ht h0 hw)
          _ 0 c m s s' m1 h ht (by simpa using hc) he
        refine ⟨r, rs, wfAll_iff.2 (fun x hx => (k2 x hx).1), ?_, ?_, ?_⟩
        · rw [rawAll_cons, k1, List.append_assoc]; exact a0.trans k3
        · exact (fold_known hf hs hn e1 k2).2 k4
        · intro q more _ _
          rw [lastOf_known hf (fun x hx => (k2 x hx).2)]; rfl
  | none =>
    simp only [hf] at hr
    split at hr
    · by_cases hm : D.unk = .none
      · rw [hm, skipField_none] at hr
        obtain ⟨h1, rfl⟩ := hr
        obtain ⟨r, k1, k2, k3, k4, k5⟩ := (A.skip ht _ _).1 h1
        have hnr : nextRun D r = none := by unfold nextRun; rw [if_pos hm]
        refine ⟨r, [], wfAll_iff.2 (by simpa using k1), ?_, ?_, ?_⟩
        · rw [rawAll_cons, k3]; simpa [rawAll] using a0.trans k5
        · refine ⟨m1, ?_, rfl⟩
          rw [step_unknown (by rw [k2]; exact hf), k2, hm]
          exact ⟨hn, k4, rfl⟩
        · intro q more _ _
          simp only [lastOf, hnr]; rfl
      · have sub : ∀ s', skipFieldsMatchTag flatOps l tag s = .ok s' →
            ∃ (r : Rec) (rs : List Rec), r.wf ∧ r.tag = tag ∧ r.head = h ∧ r.depth ≤ S.depth ∧ (∀ x ∈ rs, Cont S.depth tag x) ∧
              Adv s (r.payload ++ rawAll rs) s' ∧ rdMatch s'.rest tag = none := by
          intro s' hh
          unfold skipFieldsMatchTag at hh
          rw [res_bind_ok] at hh
          obtain ⟨t, h1, h2⟩ := hh
          obtain ⟨r, k1, k2, k3, k4, k5⟩ := (A.skip ht _ _).1 h1
          obtain ⟨rs, g1, g2, g3⟩ := skipMatch_sound A _ _ _ h2
          exact ⟨r, rs, k1, k2, k3, k4, g1, k5.trans g2, g3⟩
        rw [skipField_store hm a0 ht (fun s' hh => by obtain ⟨_, _, _, _, _, _, _, a, _⟩ := sub s' hh; exact ⟨_, a⟩)] at hr
        obtain ⟨bs, a, h1, h2⟩ := hr
        obtain ⟨r, rs, k1, k2, k3, k4, k5, k6, k7⟩ := sub s' h1
        have hbs : bs = r.payload ++ rawAll rs := by
          have := a.1.symm.trans k6.1
          exact List.append_cancel_right this
        have hnr : nextRun D r = some tag := by unfold nextRun; rw [if_neg hm, k2, hf]
        refine ⟨r, rs, wfAll_iff.2 ?_, ?_, ?_, ?_⟩
        · intro x hx
          rcases List.mem_cons.1 hx with rfl | hx
          · exact k1
          · exact (k5 x hx).1
        · rw [rawAll_cons, k3, List.append_assoc]; exact a0.trans k6
        · have hc : contd none r = false := rfl
          simp only [fold, hc, hnr]
          refine ⟨m.addUnk D.unk (tagNumber tag) (captured false r), ?_, ?_⟩
          · rw [step_unknown (by rw [k2]; exact hf), k2]
            exact ⟨hn, k4, rfl⟩
          · rw [fold_unknown hf hn hm k5, h2, hbs]
            simp only [captured, k3, k2, Bool.false_eq_true, if_false, List.append_assoc]
        · intro q more hq hrest
          simp only [lastOf, hnr]
          rw [lastOf_unknown hf hm (fun x hx => (k5 x hx).2.1)]
          rw [hrest] at k7
          exact contd_match hq k7
    · cases hr

include A in
theorem readField_complete {r : Rec} {rs : List Rec} {m m' : Msg} {s0 s s' : Flat} (hwf : wfAll (r :: rs))
    (a0 : Adv s0 r.head s) (a : Adv s (r.payload ++ rawAll rs) s') (hstop : Stop s'.rest)
    (hf : fold C S D none (r :: rs) m m') :
    ∃ rs1 rs2 m1 t, rs = rs1 ++ rs2 ∧ readField C flatOps l D r.tag m s = .ok (t, m1) ∧
      Adv s (r.payload ++ rawAll rs1) t ∧ Adv t (rawAll rs2) s' ∧ fold C S D none rs2 m1 m' := by
  unfold wfAll at hwf
  obtain ⟨hr, hrs⟩ := hwf
  obtain ⟨ht, h0⟩ := wf_tag hr
  have hne := wf_not_end hr
  have hn : tagNumber r.tag ≠ 0#32 := by
    obtain ⟨m1, h1, -⟩ := hf
    exact h1.1
  unfold readField
  rw [if_neg hn]
  have stop2 : ∀ t rs2, Adv t (rawAll rs2) s' → wfAll rs2 → (∀ q rs', rs2 = q :: rs' → q.tag ≠ r.tag) → noNext r.tag t := by
    intro t rs2 a2 hw2 hq
    cases rs2 with
    | nil =>
      obtain rfl := (Adv.refl t).unique (by simpa [rawAll] using a2)
      exact stop_noNext hstop hne
    | cons q rs' =>
      unfold wfAll at hw2
      rw [rawAll_cons, List.append_assoc] at a2
      obtain ⟨u, a3, -⟩ := a2.split
      refine .inr (fun s1 t' hrt => ?_)
      rw [ops_readTag_mk a3 (wf_tag hw2.1).1] at hrt
      cases hrt
      exact hq q rs' rfl
  cases hfind : D.find (tagNumber r.tag) with
  | some i =>
    simp only
    cases hs : D.slots[i]? with
    | none =>
      exfalso
      obtain ⟨m1, h1, -⟩ := hf
      unfold step at h1
      rw [hfind] at h1
      obtain ⟨-, sd, h1, -⟩ := h1
      rw [hs] at h1; cases h1
    | some sd =>
      simp only
      cases hruns : sd.runs r.tag with
      | false =>
        obtain ⟨m1, h1, h2⟩ := hf
        rw [step_known hfind hs] at h1
        obtain ⟨t, a1, a2⟩ := a.split
        have hnr : nextRun D r = none := by unfold nextRun; rw [hfind]; split <;> rfl
        rw [hnr] at h2
        exact ⟨[], rs, m1, t, rfl, (readSlot_single A ht h0 hruns).2 ⟨r, hr, rfl, rfl, a1, h1.2⟩,
          by simpa [rawAll] using a1, a2, h2⟩
      | true =>
        obtain ⟨rs1, rs2, rfl, g1, g2⟩ := span_run (p := fun q => decide (q.tag = r.tag)) rs
        obtain ⟨hw1, hw2⟩ := wfAll_append.1 hrs
        have hall : ∀ x ∈ r :: rs1, x.wf ∧ x.tag = r.tag := by
          intro x hx
          rcases List.mem_cons.1 hx with rfl | hx
          · exact ⟨hr, rfl⟩
          · exact ⟨wfAll_iff.1 hw1 x hx, by simpa using g1 x hx⟩
        rw [rawAll_append, ← List.append_assoc] at a
        obtain ⟨t, a1, a2⟩ := a.split
        rw [← List.cons_append, fold_append] at hf
        obtain ⟨m1, f1, f2⟩ := hf
        rw [lastOf_known hfind (fun x hx => (hall x hx).2)] at f2
        obtain ⟨k, u, e1, e2⟩ := readSlot_run (C := C) (l := l) (S := S) (mode := D.unk) (tag := r.tag) (i := i)
          (m := m) (s := s) (x := (t, m1)) hruns h0
        have fE := (fold_known hfind hs hn e1 hall).1 f1
        have hw : tagType r.tag = k.wireType := by
          obtain ⟨_, q, -⟩ := fE
          exact elem_wireType q hr
        obtain ⟨c1, c2⟩ := run_complete A (E := elemStep C S D.unk k u i)
          (fun ht => fun _ _ _ _ => readElem_iff A ht h0 hw)
          (fun _ _ _ hq => depth_of_elem A hq) rs1 (fuelOf flatOps s) 0 m s t m1 r hall a1 fE
          (stop2 t rs2 a2 hw2 (fun q rs' e => by simpa using g2 q rs' e))
          (by have := ops_avail s; unfold fuelOf; omega)
        refine ⟨rs1, rs2, m1, t, rfl, e2.2 ⟨hw, _, c1, ?_⟩, a1, a2, f2⟩
        rw [show 0 + 1 + rs1.length = rs1.length + 1 by omega]
        exact c2
  | none =>
    simp only
    have hlen := a.length
    have hpp := payload_pos hr
    rw [List.length_append] at hlen
    rw [if_pos (by have := ops_avail s; omega)]
    obtain ⟨m1, h1, h2⟩ := hf
    rw [step_unknown hfind] at h1
    obtain ⟨-, hd, rfl⟩ := h1
    by_cases hm : D.unk = .none
    · rw [hm]
      obtain ⟨t, a1, a2⟩ := a.split
      have hnr : nextRun D r = none := by unfold nextRun; rw [if_pos hm]
      rw [hnr] at h2
      refine ⟨[], rs, _, t, rfl, skipField_none.2 ⟨(A.skip ht _ _).2 ⟨r, hr, rfl, rfl, hd, a1⟩, rfl⟩,
        by simpa [rawAll] using a1, a2, ?_⟩
      rw [hm] at h2
      exact h2
    · have hnr : nextRun D r = some r.tag := by unfold nextRun; rw [if_neg hm, hfind]
      rw [hnr] at h2
      obtain ⟨rs1, rs2, rfl, g1, g2⟩ := span_run (p := fun q => contd (some r.tag) q) rs
      obtain ⟨hw1, hw2⟩ := wfAll_append.1 hrs
      rw [rawAll_append, ← List.append_assoc] at a
      obtain ⟨t, a1, a2⟩ := a.split
      obtain ⟨v, a3, a4⟩ := a1.split
      have hc0 : ∀ x ∈ rs1, x.tag = r.tag ∧ x.head.length ≤ 4 := by
        intro x hx
        have := g1 x hx
        simp only [contd, Bool.and_eq_true, beq_iff_eq, Option.some.injEq, decide_eq_true_eq] at this
        exact ⟨this.1.symm, this.2⟩
      obtain ⟨m2, f1, f2⟩ := fold_append.1 h2
      have hdepth : ∀ (rs : List Rec) last m m', (∀ x ∈ rs, x.tag = r.tag) → fold C S D last rs m m' →
          ∀ x ∈ rs, x.depth ≤ S.depth := by
        intro rs
        induction rs with
        | nil => simp
        | cons q rs ih =>
          intro last m m' hq hf x hx
          obtain ⟨m1, k1, k2⟩ := hf
          rcases List.mem_cons.1 hx with rfl | hx
          · rw [step_unknown (by rw [hq x (by simp)]; exact hfind)] at k1
            exact k1.2.1
          · exact ih _ _ _ (fun y hy => hq y (by simp [hy])) k2 x hx
      have hcont : ∀ x ∈ rs1, Cont S.depth r.tag x := fun x hx =>
        ⟨wfAll_iff.1 hw1 x hx, (hc0 x hx).1, (hc0 x hx).2, hdepth rs1 _ _ _ (fun y hy => (hc0 y hy).1) f1 x hx⟩
      have hnm : rdMatch t.rest r.tag = none := by
        cases rs2 with
        | nil =>
          obtain rfl := (Adv.refl t).unique (by simpa [rawAll] using a2)
          exact stop_noMatch hstop hne
        | cons q rs' =>
          unfold wfAll at hw2
          have hq := g2 q rs' rfl
          rw [a2.1, rawAll_cons, List.append_assoc, List.append_assoc, rdMatch_mk (wf_tag hw2.1).1, if_neg]
          rintro ⟨e, h4⟩
          simp [contd, e, h4] at hq
      rw [fold_unknown hfind hn hm hcont] at f1
      rw [lastOf_unknown hfind hm (fun x hx => (hc0 x hx).1), fold_last g2] at f2
      have hskip : skipFieldsMatchTag flatOps l r.tag s = .ok t := by
        unfold skipFieldsMatchTag
        rw [res_bind_ok]
        refine ⟨v, (A.skip ht _ _).2 ⟨r, hr, rfl, rfl, hd, a3⟩, ?_⟩
        exact skipMatch_complete A _ rs1 v t hcont a4 hnm (by have := ops_avail v; unfold fuelOf; omega)
      refine ⟨rs1, rs2, m2, t, rfl, (skipField_store hm a0 ht ?_).2 ⟨_, a1, hskip, ?_⟩, a1, a2, f2⟩
      · intro s1 hh
        rw [hskip] at hh; cases hh
        exact ⟨_, a1⟩
      · rw [f1]
        have hc : contd none r = false := rfl
        simp only [captured, hc, Bool.false_eq_true, if_false, List.append_assoc]

/-! ### Message and group loops -/

include A in
theorem msgLoop_iff : ∀ fuel (m : Msg) (s s' : Flat) (m' : Msg), s.rest.length < fuel →
    (msgLoop C flatOps l D fuel m s = .ok (s', m') ↔
      Adv s s.rest s' ∧ ∃ rs, wfAll rs ∧ rawAll rs = s.rest ∧ fold C S D none rs m m') := by
  intro fuel
  induction fuel using Nat.strongRecOn with
  | _ fuel ih =>
  intro m s s' m' hfuel
  obtain ⟨fuel, rfl⟩ : ∃ f, fuel = f + 1 := ⟨fuel - 1, by omega⟩
  have av := ops_avail s
  simp only [msgLoop]
  by_cases hpos : 0 < flatOps.avail s
  · rw [if_pos hpos, res_bind_ok]
    constructor
    · rintro ⟨⟨t, tag⟩, h1, h2⟩
      rw [res_bind_ok] at h2
      obtain ⟨⟨u, m1⟩, h3, h4⟩ := h2
      have htag : tag ≠ 0#32 := by
        rintro rfl
        simp [readField, tagNumber] at h3
      obtain ⟨h, a1, ht⟩ := (ops_readTag htag).1 h1
      obtain ⟨r, rs, k1, k2, k3, k4⟩ := readField_sound A a1 ht h3
      have hl := k2.length
      have hh : 0 < (rawAll (r :: rs)).length := by
        rw [rawAll_cons]; simp only [List.length_append]
        unfold wfAll at k1
        have := isTag_pos (wf_tag k1.1).1
        omega
      obtain ⟨a5, rs2, g1, g2, g3⟩ := (ih fuel (by omega) m1 u s' m' (by omega)).1 h4
      have hrest : s.rest = rawAll (r :: rs ++ rs2) := by
        rw [rawAll_append, g2]; exact k2.1
      refine ⟨?_, r :: rs ++ rs2, wfAll_append.2 ⟨k1, g1⟩, hrest.symm, fold_append.2 ⟨m1, k3, ?_⟩⟩
      · rw [hrest, rawAll_append, g2]
        exact k2.trans a5
      · rw [fold_last]
        · exact g3
        · intro q rs' e
          subst e
          unfold wfAll at g1
          exact k4 q (q.payload ++ rawAll rs') g1.1 (by rw [← g2, rawAll_cons, List.append_assoc])
    · rintro ⟨a, rs, hwf, hraw, hf⟩
      cases rs with
      | nil => simp only [rawAll] at hraw; rw [← hraw] at av; simp at av; omega
      | cons r rs =>
        rw [← hraw, rawAll_cons, List.append_assoc] at a
        obtain ⟨t, a1, a2⟩ := a.split
        have hs' : s'.rest = [] := by
          have := a.length; rw [← hraw, rawAll_cons, List.append_assoc] at this
          exact List.length_eq_zero_iff.1 (by omega)
        obtain ⟨rs1, rs2, m1, u, rfl, h1, h2, h3, h4⟩ := readField_complete A hwf a1 a2 (.inl hs') hf
        unfold wfAll at hwf
        refine ⟨(t, r.tag), ops_readTag_mk a1 (wf_tag hwf.1).1, ?_⟩
        rw [res_bind_ok]
        refine ⟨(u, m1), h1, ?_⟩
        have l1 := a1.length
        have l2 := h2.length
        have hh := isTag_pos (wf_tag hwf.1).1
        have hu : u.rest = rawAll rs2 := by rw [h3.1, hs', List.append_nil]
        exact (ih fuel (by omega) m1 u s' m' (by omega)).2
          ⟨by rw [hu]; exact h3, rs2, (wfAll_append.1 hwf.2).2, hu.symm, h4⟩
  · rw [if_neg hpos]
    have hz : s.rest = [] := List.length_eq_zero_iff.1 (by omega)
    rw [if_pos (by omega)]
    rw [hz]
    constructor
    · intro h
      cases h
      exact ⟨Adv.refl s, [], by simp [wfAll], by simp [rawAll], rfl⟩
    · rintro ⟨a, rs, hwf, hraw, hf⟩
      cases rs with
      | nil => rw [(Adv.refl s).unique a, show m = m' from hf]
      | cons r rs =>
        exfalso
        unfold wfAll at hwf
        have := isTag_pos (wf_tag hwf.1).1
        rw [rawAll_cons] at hraw
        have := congrArg List.length hraw
        simp only [List.length_append, List.length_nil] at this; omega

include A in
theorem grpLoop_iff (number : BitVec 32) : ∀ fuel (m : Msg) (s s' : Flat) (m' : Msg), s.rest.length < fuel →
    (grpLoop C flatOps l D number fuel m s = .ok (s', m') ↔
      ∃ body tail, wfAll body ∧ endTag number.toNat tail ∧ Adv s (rawAll body ++ tail) s' ∧
        fold C S D none body m m') := by
  intro fuel
  induction fuel using Nat.strongRecOn with
  | _ fuel ih =>
  intro m s s' m' hfuel
  obtain ⟨fuel, rfl⟩ : ∃ f, fuel = f + 1 := ⟨fuel - 1, by omega⟩
  have av := ops_avail s
  simp only [grpLoop]
  by_cases hpos : 0 < flatOps.avail s
  · rw [if_pos hpos, res_bind_ok]
    constructor
    · rintro ⟨⟨t, tag⟩, h1, h2⟩
      simp only at h2
      split at h2
      · rename_i he
        cases h2
        have htag : tag ≠ 0#32 := ne_zero_of_wt (by rw [tagType_egroup.1 he.1]; omega)
        obtain ⟨h, a1, ht⟩ := (ops_readTag htag).1 h1
        refine ⟨[], h, by simp [wfAll], ⟨tag, ht, tagType_egroup.1 he.1, ?_⟩, by simpa [rawAll] using a1, rfl⟩
        rw [he.2, tagNumber_toNat]
      · rw [res_bind_ok] at h2
        obtain ⟨⟨u, m1⟩, h3, h4⟩ := h2
        have htag : tag ≠ 0#32 := by
          rintro rfl
          simp [readField, tagNumber] at h3
        obtain ⟨h, a1, ht⟩ := (ops_readTag htag).1 h1
        obtain ⟨r, rs, k1, k2, k3, k4⟩ := readField_sound A a1 ht h3
        have hl := k2.length
        have hh : 0 < (rawAll (r :: rs)).length := by
          rw [rawAll_cons]; simp only [List.length_append]
          unfold wfAll at k1
          have := isTag_pos (wf_tag k1.1).1
          omega
        obtain ⟨body, tail, g1, g2, g3, g4⟩ := (ih fuel (by omega) m1 u s' m' (by omega)).1 h4
        refine ⟨r :: rs ++ body, tail, wfAll_append.2 ⟨k1, g1⟩, g2, ?_, fold_append.2 ⟨m1, k3, ?_⟩⟩
        · rw [rawAll_append, List.append_assoc]
          exact k2.trans g3
        · rw [fold_last]
          · exact g4
          · intro q rs' e
            subst e
            unfold wfAll at g1
            exact k4 q (q.payload ++ rawAll rs' ++ tail ++ s'.rest) g1.1 (by rw [g3.1, rawAll_cons]; simp)
    · rintro ⟨body, tail, hwf, he, a, hf⟩
      cases body with
      | nil =>
        obtain ⟨e, e1, e2, e3⟩ := he
        refine ⟨(s', e), ops_readTag_mk (by simpa [rawAll] using a) e1, ?_⟩
        rw [if_pos ⟨tagType_egroup.2 e2, BitVec.eq_of_toNat_eq (by rw [tagNumber_toNat, e3])⟩]
        rw [show m = m' from hf]
      | cons r rs =>
        rw [rawAll_cons, List.append_assoc, List.append_assoc] at a
        obtain ⟨t, a1, a2⟩ := a.split
        rw [← List.append_assoc] at a2
        obtain ⟨v, a3, a4⟩ := a2.split
        have hstop : Stop v.rest := by
          obtain ⟨e, e1, e2, -⟩ := he
          exact .inr ⟨tail, e, s'.rest, a4.1, e1, e2⟩
        obtain ⟨rs1, rs2, m1, u, rfl, h1, h2, h3, h4⟩ := readField_complete A hwf a1 a3 hstop hf
        unfold wfAll at hwf
        refine ⟨(t, r.tag), ops_readTag_mk a1 (wf_tag hwf.1).1, ?_⟩
        rw [if_neg (fun e => wf_not_end hwf.1 (tagType_egroup.1 e.1)), res_bind_ok]
        refine ⟨(u, m1), h1, ?_⟩
        have l1 := a1.length
        have l2 := h2.length
        have hh := isTag_pos (wf_tag hwf.1).1
        exact (ih fuel (by omega) m1 u s' m' (by omega)).2
          ⟨rs2, tail, (wfAll_append.1 hwf.2).2, he, h3.trans a4, h4⟩
  · rw [if_neg hpos]
    constructor
    · intro h; cases h
    · rintro ⟨body, tail, hwf, he, a, hf⟩
      exfalso
      obtain ⟨e, e1, -⟩ := he
      have := isTag_pos e1
      have := a.length
      rw [List.length_append] at this
      omega

end

theorem depth_of_step {C : Cfg} {l S} (A : Agrees l S) {D cont r m m'} (h : step C S D cont r m m') :
    r.depth ≤ S.depth := by
  have val : ∀ k old v, recValue C S k old r v → r.depth ≤ S.depth := by
    intro k old v h
    cases k with
    | scalar sc => obtain ⟨w, hw, -⟩ := h; rw [depth_of_scalar hw]; omega
    | msg id => obtain ⟨e, he, -⟩ := h; exact depth_of_msg A he
    | group id => obtain ⟨e, he, -⟩ := h; exact depth_of_msg A he
  have rep : ∀ mode number k unique i, repStep C S mode number k unique i r m m' → r.depth ≤ S.depth := by
    intro mode number k unique i h
    cases k with
    | scalar sc =>
      cases r with
      | len => simp [Rec.depth]
      | _ => simp only [repStep] at h; exact depth_of_elem A h
    | msg id => cases r <;> simp only [repStep] at h <;> exact depth_of_elem A h
    | group id => cases r <;> simp only [repStep] at h <;> exact depth_of_elem A h
  obtain ⟨-, h⟩ := h
  split at h
  · obtain ⟨sd, -, h⟩ := h
    cases sd with
    | field number k card =>
      cases card with
      | implicit d => obtain ⟨v, h, -⟩ := h; exact val _ _ _ h
      | always d =>
        cases k with
        | scalar sc => obtain ⟨w, hw, -⟩ := h; rw [depth_of_scalar hw]; omega
        | msg id => obtain ⟨v, h, -⟩ := h; exact val _ _ _ h
        | group id => obtain ⟨v, h, -⟩ := h; exact val _ _ _ h
      | optional =>
        cases k with
        | scalar sc => obtain ⟨w, hw, -⟩ := h; rw [depth_of_scalar hw]; omega
        | msg id => obtain ⟨v, h, -⟩ := h; exact val _ _ _ h
        | group id => obtain ⟨v, h, -⟩ := h; exact val _ _ _ h
      | repeated p => exact rep _ _ _ _ _ h
      | map u => exact rep _ _ _ _ _ h
    | oneof alts =>
      obtain ⟨j, k, -, h⟩ := h
      cases k with
      | scalar sc => obtain ⟨w, hw, -⟩ := h; rw [depth_of_scalar hw]; omega
      | msg id => obtain ⟨v, h, -⟩ := h; exact val _ _ _ h
      | group id => obtain ⟨v, h, -⟩ := h; exact val _ _ _ h
  · exact h.1

theorem depth_of_fold {C : Cfg} {l S} (A : Agrees l S) {D} : ∀ {rs last m m'}, fold C S D last rs m m' →
    depthAll rs ≤ S.depth
  | [], _, _, _, _ => by simp [depthAll]
  | r :: rs, _, _, _, h => by
    obtain ⟨m1, h1, h2⟩ := h
    simp only [depthAll]
    have := depth_of_step A h1
    have := depth_of_fold A h2
    omega

/-- The model of the reader computes the relation. -/
theorem level_agrees (C : Cfg) : ∀ d, Agrees (level C flatOps d) (sem C d)
  | 0 => {
    msg := by intros; simp [level, sem]
    grp := by intros; simp [level, sem]
    skip := fun ht s s' => skip_iff C 0 ht s s'
    skipGrp := fun n s s' => skipGrp_iff C 0 n s s'
    depth := by intro _ _ _ _ h; exact absurd h (by simp [sem]) }
  | d + 1 => {
    msg := by
      intro id m s s' m'
      have A := level_agrees C d
      have hl := ops_avail s
      have hlt : s.rest.length < fuelOf flatOps s := by unfold fuelOf; omega
      show msgBody C flatOps (level C flatOps d) id m s = _ ↔ _
      have e := msgLoop_iff A (D := C.schema id) (C := C) (fuelOf flatOps s) m s s' m' hlt
      have sw : (Adv s s.rest s' ∧ ∃ rs, wfAll rs ∧ rawAll rs = s.rest ∧ fold C (sem C d) (C.schema id) none rs m m') →
          entryHead (C.schema id) s.rest → Adv s s.rest s' ∧ (sem C (d + 1)).msg id m s.rest m' := by
        rintro ⟨a, rs, h1, h2, h3⟩ he
        exact ⟨a, rs, h1, h2, he, h3⟩
      have sw2 : Adv s s.rest s' ∧ (sem C (d + 1)).msg id m s.rest m' →
          (Adv s s.rest s' ∧ ∃ rs, wfAll rs ∧ rawAll rs = s.rest ∧ fold C (sem C d) (C.schema id) none rs m m') ∧
          entryHead (C.schema id) s.rest := by
        rintro ⟨a, rs, h1, h2, he, h3⟩
        exact ⟨⟨a, rs, h1, h2, h3⟩, he⟩
      unfold msgBody
      by_cases hc : (C.schema id).isEntry = true ∧ 0 < flatOps.avail s
      · simp only [if_pos hc]
        cases hs : s.rest with
        | nil => rw [hs] at hl; simp at hl; omega
        | cons b bs =>
          have hp : flatOps.peek s = .ok b := by
            show (match s.rest with | b :: _ => Res.ok b | [] => .ub) = _
            rw [hs]
          rw [hp, res_bind_ok]
          rw [← hs]
          constructor
          · rintro ⟨b', h1, h2⟩
            cases h1
            split at h2
            · cases h2
            · rename_i hb
              refine sw (e.1 h2) (fun _ b' l' el => ?_)
              rw [hs] at el
              cases el
              exact Classical.not_not.1 hb
          · intro h
            obtain ⟨h1, h2⟩ := sw2 h
            refine ⟨b, rfl, ?_⟩
            rw [if_neg (Classical.not_not.2 (h2 hc.1 b bs hs))]
            exact e.2 h1
      · simp only [if_neg hc]
        rw [e]
        constructor
        · intro h
          refine sw h (fun he b l' el => ?_)
          exfalso
          rw [el] at hl
          simp at hl
          exact hc ⟨he, by omega⟩
        · intro h; exact (sw2 h).1
    grp := by
      intro id number m s s' m'
      have A := level_agrees C d
      have hl := ops_avail s
      exact grpLoop_iff A (D := C.schema id) (C := C) number (fuelOf flatOps s) m s s' m' (by unfold fuelOf; omega)
    skip := fun ht s s' => by rw [sem_depth]; exact skip_iff C (d + 1) ht s s'
    skipGrp := fun n s s' => by rw [sem_depth]; exact skipGrp_iff C (d + 1) n s s'
    depth := by
      intro id m body m' h
      have := depth_of_fold (level_agrees C d) h
      rw [sem_depth] at this
      rw [sem_depth]; omega }

/-- Deserialization on top of a message succeeds exactly when the relation holds. -/
theorem parseOnto_iff (C : Cfg) (limit id : Nat) (m m' : Msg) (buf : List Byte) :
    parseOnto C limit id m buf = .ok m' ↔ (sem C (limit + 1)).msg id m buf m' := by
  unfold parseOnto
  rw [res_bind_ok]
  constructor
  · rintro ⟨⟨s, m1⟩, h1, h2⟩
    cases h2
    exact (((level_agrees C (limit + 1)).msg _ _ _ _ _).1 h1).2
  · intro h
    exact ⟨(⟨buf.reverse ++ [], []⟩, m'), ((level_agrees C (limit + 1)).msg _ _ _ _ _).2 ⟨⟨by simp, rfl⟩, h⟩, rfl⟩

theorem readBinpb_eq (C : Cfg) (limit id : Nat) (old : Msg) (buf : List Byte) :
    readBinpb C limit id old buf = parseOnto C limit id (C.schema id).default buf := rfl

end HppProto
