import Verif.Proofs.ReadObject
import Verif.Spec.KeptFields
/-! Whatever is read is an object of the message type: with kept unknown fields. -/
namespace HppProto
open Spec

theorem unkAppend_from {key : Nat} {bs : List Byte} : ∀ {l : List (Nat × List Byte)} {u}, u ∈ unkAppend key bs l →
    u ∈ l ∨ u = (key, bs) ∨ ∃ b, (key, b) ∈ l ∧ u = (key, b ++ bs)
  | [], u, h => by
    simp only [unkAppend, List.mem_singleton] at h
    exact .inr (.inl h)
  | (k, b) :: l, u, h => by
    simp only [unkAppend] at h
    split at h
    · rename_i e
      subst e
      rcases List.mem_cons.1 h with rfl | h
      · exact .inr (.inr ⟨b, by simp, rfl⟩)
      · exact .inl (List.mem_cons_of_mem _ h)
    · rcases List.mem_cons.1 h with rfl | h
      · exact .inl (by simp)
      · rcases unkAppend_from h with h | h | ⟨b', h, e⟩
        · exact .inl (List.mem_cons_of_mem _ h)
        · exact .inr (.inl h)
        · exact .inr (.inr ⟨b', List.mem_cons_of_mem _ h, e⟩)

theorem unknownRecs_one {D : MsgD} {d : Nat} {r : Rec} (hw : r.wf) (h0 : tagNum r.tag ≠ 0)
    (hk : fieldKind D (tagNum r.tag) = none) (hm : minimalTag r) (hd : r.depth ≤ d) : unknownRecs D d [r] := by
  refine ⟨by simp, ⟨hw, trivial⟩, ?_⟩
  intro x hx
  rw [List.mem_singleton.1 hx]
  exact ⟨h0, hk, hm, hd⟩

theorem unknownRecs_cat {D : MsgD} {d : Nat} {a b : List Rec} (ha : unknownRecs D d a) (hb : unknownRecs D d b) :
    unknownRecs D d (a ++ b) :=
  ⟨by simp [ha.1], wfAll_append.2 ⟨ha.2.1, hb.2.1⟩, fun r hr => by
    rcases List.mem_append.1 hr with h | h
    · exact ha.2.2 r h
    · exact hb.2.2 r h⟩

theorem rawAll_one (r : Rec) : rawAll [r] = r.raw := by simp [rawAll, Rec.raw]

/-- One more unknown record is kept. -/
theorem unkOk_add {D : MsgD} {d : Nat} {m : Msg} {r : Rec} (h : unkOk D d m.unk) (hw : r.wf)
    (h0 : tagNum r.tag ≠ 0) (hk : fieldKind D (tagNum r.tag) = none) (hm : minimalTag r) (hd : r.depth ≤ d) :
    unkOk D d (m.addUnk D.unk (tagNumber r.tag) r.raw).unk := by
  have one := unknownRecs_one hw h0 hk hm hd
  unfold unkOk at h ⊢
  cases hu : D.unk with
  | none => rw [hu] at h; exact h
  | bytes =>
    rw [hu] at h
    simp only at h
    show _ ∨ _
    right
    show ∃ rs, unkAppend 0 r.raw m.unk = _ ∧ _
    rcases h with h | ⟨rs, h, hr⟩
    · exact ⟨[r], by rw [h, rawAll_one]; rfl, one⟩
    · refine ⟨rs ++ [r], ?_, unknownRecs_cat hr one⟩
      rw [h, rawAll_append, rawAll_one]
      simp [unkAppend]
  | ext =>
    rw [hu] at h
    simp only at h
    show ((unkAppend _ r.raw m.unk).map Prod.fst).Nodup ∧ ∀ u ∈ unkAppend _ r.raw m.unk, _
    refine ⟨(unkAppend_keys _ _ _ h.1).1, fun u hx => ?_⟩
    rcases unkAppend_from hx with hx | rfl | ⟨b, hx', rfl⟩
    · exact h.2 u hx
    · refine ⟨[r], (rawAll_one r).symm, one, fun x hx => ?_⟩
      rw [List.mem_singleton.1 hx]
      exact (tagNumber_toNat _).symm
    · obtain ⟨rs, e, hr, hn⟩ := h.2 _ hx'
      refine ⟨rs ++ [r], ?_, unknownRecs_cat hr one, fun x hx => ?_⟩
      · simp only at e
        rw [e, rawAll_append, rawAll_one]
      · rcases List.mem_append.1 hx with hx | hx
        · exact hn x hx
        · rw [List.mem_singleton.1 hx]
          exact (tagNumber_toNat _).symm

section
variable {C : Cfg}

theorem outside_nil {k : Kind} (h : ∀ vs, k ≠ .scalar (.enum (some vs))) (r : Rec) : outside k r = [] := by
  cases k with
  | scalar sc =>
    have : ∀ v, allowed sc v = true := by
      intro v
      cases sc with
      | enum c =>
        cases c with
        | none => rfl
        | some vs => exact absurd rfl (h vs)
      | _ => rfl
    simp [outside, this]
  | msg id => rfl
  | group id => rfl

/-- The reading of messages and groups one level down, of records with minimal tags. -/
def minimalSem (C : Cfg) (e : Nat) (S : Sem) : Sem where
  msg id m bs m' := S.msg id m bs m' ∧ ∀ inner, wfAll inner → rawAll inner = bs → keptMinimal C e id inner
  grp id m body m' := S.grp id m body m' ∧ keptMinimal C e id body
  depth := S.depth

theorem kept_fold {S : Sem} {d e id}
    (hU : (C.schema id).unk = .none ∨ noClosedEnum (C.schema id)) (hd : S.depth ≤ d)
    (hS : ∀ r k id m m', r.wf → k = .msg id ∨ k = .group id → recMsg C (minimalSem C e S) k r m m' →
      objLike false C d id m ∨ m = (C.schema id).default → objLike false C d id m')
    (hmap : ∀ n k u, SlotD.field n k (.map u) ∈ (C.schema id).slots → ∃ eid, k = .msg eid)
    (himp : noImplicitClosed (C.schema id)) :
    ∀ {rs last m m'}, wfAll rs → keptMinimal C (e + 1) id rs → fold C S (C.schema id) last rs m m' →
      objLike false C (d + 1) id m → objLike false C (d + 1) id m'
  | [], _, _, _, _, _, h, hm => by cases h; exact hm
  | r :: rs, last, m, m', hw, hmin, h, hm => by
    unfold wfAll at hw
    obtain ⟨m1, ⟨h0, h1⟩, h2⟩ := h
    refine kept_fold hU hd hS hmap himp hw.2 (fun x hx => hmin x (List.mem_cons_of_mem _ hx)) h2 ?_
    have hr := hmin r List.mem_cons_self
    obtain ⟨hlen, hsl, hunk⟩ := hm
    split at h1
    · rename_i i hi
      obtain ⟨sd, hs, h1⟩ := h1
      obtain ⟨es', u, k1, rfl⟩ := slotStep_eff.1 h1
      have hmem : sd ∈ (C.schema id).slots := List.mem_of_getElem? hs
      have hdiv : ∀ (m : Msg), divert (C.schema id).unk u m = m := by
        rcases hU with hU | hU
        · intro m
          rw [hU]
          exact divert_none u m
        · intro m
          cases hk : fieldKind (C.schema id) (tagNum r.tag) with
          | none => rw [← tagNumber_toNat, fieldKind_none, hi] at hk; cases hk
          | some k =>
            have hu := (fieldKind_uses hi hs (k := k)).1 hk
            have ho := slotEff_outside hw.1 hu (fun n vs d e => himp n vs d (e ▸ hmem)) k1
            rw [outside_nil (fun vs e => hU _ vs (e ▸ hk))] at ho
            rw [List.map_eq_nil_iff.1 ho]; rfl
      rw [hdiv]
      have k2 : slotEff C (minimalSem C e S) sd r (m.get i) es' u := by
        refine slotEff_congr (fun k hu m m' hm => ?_) k1
        have hk := (fieldKind_uses hi hs (k := k)).2 hu
        rw [hk] at hr
        cases k with
        | scalar sc => exact hm.elim
        | msg sub =>
          cases r <;> simp only [recMsg] at hm ⊢
          exact ⟨hm.1, hm.2, hr⟩
        | group sub =>
          cases r <;> simp only [recMsg] at hm ⊢
          exact ⟨hm, hr⟩
      have hi : i < m.slots.length := by rw [hlen]; exact (List.getElem?_eq_some_iff.1 hs).1
      have hg : m.slots[i]? = some (m.get i) := by simp [MsgOf.get, hi]
      have hold : slotOk false C (objLike false C d) sd (m.get i) :=
        hsl (sd, m.get i) (List.mem_iff_getElem?.2 ⟨i, List.getElem?_zip_eq_some.2 ⟨hs, hg⟩⟩)
      have good := obj_slotEff (fun k id m m' => hS r k id m m' hw.1) (fun n k u e => hmap n k u (e ▸ hmem)) (fun n vs df e => himp n vs df (e ▸ hmem)) hold k2
      refine ⟨by simpa [MsgOf.put] using hlen, ?_, hunk⟩
      intro p hp
      obtain ⟨j, hj⟩ := List.mem_iff_getElem?.1 hp
      obtain ⟨j1, j2⟩ := List.getElem?_zip_eq_some.1 hj
      simp only [MsgOf.put] at j2
      rw [List.getElem?_set] at j2
      split at j2
      · rename_i e
        subst e
        rw [hs] at j1
        simp only [Option.some.injEq] at j1
        simp only [Option.some.injEq] at j2
        rw [← j1, ← j2]; exact good
      · exact hsl p (List.mem_iff_getElem?.2 ⟨j, List.getElem?_zip_eq_some.2 ⟨j1, j2⟩⟩)
    · rename_i hfi
      obtain ⟨hdep, rfl⟩ := h1
      have hk : fieldKind (C.schema id) (tagNum r.tag) = none := by rw [← tagNumber_toNat, fieldKind_none, hfi]
      rw [hk] at hr
      have hslots : ∀ b, (m.addUnk (C.schema id).unk (tagNumber r.tag) b).slots = m.slots := by
        intro b; cases (C.schema id).unk <;> rfl
      have hr : (C.schema id).unk = .none ∨ minimalTag r := by cases r <;> exact hr
      refine ⟨by rw [hslots]; exact hlen, by rw [hslots]; exact hsl, ?_⟩
      rcases hr with hr | hr
      · rw [show m.addUnk (C.schema id).unk (tagNumber r.tag) (captured (contd last r) r) = m by rw [hr]; rfl]
        exact hunk
      · rw [captured_minimal hr]
        refine unkOk_add hunk hw.1 ?_ hk hr (Nat.le_trans hdep hd)
        intro e
        apply h0
        apply BitVec.eq_of_toNat_eq
        rw [tagNumber_toNat, e]; rfl

theorem kept_sem (hS : schemaOk C) (hU : ∀ id, (C.schema id).unk = .none ∨ noClosedEnum (C.schema id))
    (hI : ∀ id, noImplicitClosed (C.schema id)) {k : Nat}
    (hD : ∀ id, objLike false C (k + 1) id (C.schema id).default) : ∀ e,
    (∀ id m bs m', (minimalSem C e (sem C e)).msg id m bs m' → objLike false C (e + k) id m ∨ m = (C.schema id).default →
      objLike false C (e + k) id m') ∧
    (∀ id m body m', wfAll body → (minimalSem C e (sem C e)).grp id m body m' →
      objLike false C (e + k) id m ∨ m = (C.schema id).default → objLike false C (e + k) id m')
  | 0 => ⟨fun _ _ _ _ h => h.1.elim, fun _ _ _ _ _ h => h.1.elim⟩
  | e + 1 => by
    have ih := kept_sem hS hU hI hD e
    have hR : ∀ r k0 id m m', r.wf → k0 = .msg id ∨ k0 = .group id → recMsg C (minimalSem C e (sem C e)) k0 r m m' →
        objLike false C (e + k) id m ∨ m = (C.schema id).default → objLike false C (e + k) id m' := by
      intro r k0 id m m' hw hk h hm
      rcases hk with rfl | rfl <;> cases r <;> simp only [recMsg] at h
      · exact ih.1 _ _ _ _ h.2 hm
      · unfold Rec.wf at hw
        exact ih.2 _ _ _ _ hw.2.2.1 h hm
    have start : ∀ id m, objLike false C (e + 1 + k) id m ∨ m = (C.schema id).default → objLike false C (e + k + 1) id m := by
      rintro id m (h | rfl)
      · rw [show e + k + 1 = e + 1 + k by omega]; exact h
      · exact objLike_le (by omega) (hD id)
    have hmap : ∀ id n k u, SlotD.field n k (.map u) ∈ (C.schema id).slots → ∃ eid, k = .msg eid := by
      intro id n k u h
      obtain ⟨eid, h1, -⟩ := hS.maps id n k u h
      exact ⟨eid, h1⟩
    have hdep : (sem C e).depth ≤ e + k := by rw [sem_depth]; omega
    refine ⟨?_, ?_⟩
    · rintro id m bs m' ⟨⟨rs, hw, he, -, f⟩, hmin⟩ hm
      rw [show e + 1 + k = e + k + 1 by omega]
      exact kept_fold (hU id) hdep hR (hmap id) (hI id) hw (hmin rs hw he) f (start id m hm)
    · rintro id m body m' hw ⟨f, hmin⟩ hm
      rw [show e + 1 + k = e + k + 1 by omega]
      exact kept_fold (hU id) hdep hR (hmap id) (hI id) hw hmin f (start id m hm)

/-- What is read is an object. -/
theorem readBinpb_obj_kept (hS : schemaOk C) (hU : ∀ id, (C.schema id).unk = .none ∨ noClosedEnum (C.schema id))
    (hI : ∀ id, noImplicitClosed (C.schema id)) {k : Nat}
    (hD : ∀ id, objLike false C (k + 1) id (C.schema id).default) {limit id : Nat} {old m : Msg} {buf : List Byte}
    {rs : List Rec} (hw : wfAll rs) (he : rawAll rs = buf) (hmin : keptMinimal C (limit + 1) id rs)
    (h : readBinpb C limit id old buf = .ok m) : objLike false C (limit + 1 + k) id m := by
  rw [readBinpb_eq] at h
  refine (kept_sem hS hU hI hD (limit + 1)).1 _ _ _ _ ⟨(parseOnto_iff _ _ _ _ _ _).1 h, fun inner hi hr => ?_⟩ (.inr rfl)
  rw [recs_unique hi hw (hr.trans he.symm)]
  exact hmin

end

end HppProto
