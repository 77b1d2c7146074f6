import Verif.Proofs.DynamicFieldRead

/-! Singular fields read by the two readers. Helper lemmas for `Verif/Props/DynamicRead.lean`. -/

namespace HppProto
open Spec

section
variable {T : DynTypes} {utf8 : List Byte → Bool} (hT : ∀ id, (T id).Ok) (hR : T.Readable)

/-! ## Scalars -/

theorem readScalar_cfg (C C' : Cfg) {sc : Scalar} (h : ∀ u, sc ≠ .str u) (tag) (s : Flat) :
    readScalar C flatOps sc tag s = readScalar C' flatOps sc tag s := by
  unfold readScalar
  cases sc <;> first | rfl | exact absurd rfl (h _)

theorem readScalar_num {C : Cfg} {sc : Scalar} (h : ∀ u, sc ≠ .str u) {tag} {s s' : Flat} {v}
    (e : readScalar C flatOps sc tag s = .ok (s', v)) : ∃ x, v = .num x := by
  unfold readScalar at e
  split at e
  · cases e
  · cases sc <;> simp only [res_bind_ok] at e <;>
      first
        | (obtain ⟨⟨t, x⟩, -, h2⟩ := e
           simp only [Res.ok.injEq, Prod.mk.injEq] at h2
           exact ⟨_, h2.2.symm⟩)
        | exact absurd rfl (h _)

theorem valid_open {sc : Scalar} (h : (Kind.scalar sc).closed = false) (v : Val) : sc.valid v = true := by
  unfold Scalar.valid
  cases sc with
  | enum c =>
    cases c with
    | none => rfl
    | some vs => cases h
  | _ => rfl

/-- Reading a singular scalar of a generated message, unless it is a closed enum. -/
theorem readSlot_open {id k j : Nat} {g : List DynField} {f : DynField} {sc : Scalar} {tag : BitVec 32}
    (hg : (groupFields (T id).fields)[k]? = some g) (hj : g[j]? = some f) (hr : f.repeated = false)
    (hk : f.kind = .scalar sc) (hc : f.kind.closed = false)
    (ha : findAlt (tagNumber tag) (g.map fun f => (f.number, f.kind)) 0 = some (j, f.kind))
    (l : Level Flat) (M : Msg) (s : Flat) :
    readSlot (T.cfg utf8) flatOps l .none tag k (staticSlot T T.blank (T id).entry g) M s =
      (readScalar (T.cfg utf8) flatOps sc tag s >>= fun p => .ok (p.1, M.put k [(j, narrow sc p.2)])) := by
  have hv := fun v => valid_open (sc := sc) (by rw [← hk]; exact hc) v
  have hmt : f.kind.msgType = none := by rw [hk]; rfl
  rcases staticSlot_cases (T := T) T.blank (T id).entry (List.mem_of_getElem? hg) with ⟨f', rfl, ho, e⟩ | ⟨-, e⟩
  · have hj0 : j = 0 := by
      cases j with
      | zero => rfl
      | succ j => simp at hj
    subst hj0
    simp only [List.getElem?_cons_zero, Option.some.injEq] at hj
    subst hj
    rw [e]
    simp only [DynField.card, hr, Bool.false_eq_true, if_false, hmt]
    split
    · rw [hk]
      simp only [readSlot, readClosed]
      cases readScalar (T.cfg utf8) flatOps sc tag s <;> simp [bind, Res.bind, hv]
    · split
      · rw [hk]
        simp only [readSlot, readClosed]
        cases readScalar (T.cfg utf8) flatOps sc tag s <;> simp [bind, Res.bind, hv]
      · rw [hk]
        simp only [readSlot, readValue]
        cases readScalar (T.cfg utf8) flatOps sc tag s <;> simp [bind, Res.bind]
  · rw [e]
    simp only [readSlot, ha, hk, readClosed]
    rw [hk] at hc
    cases readScalar (T.cfg utf8) flatOps sc tag s <;> simp [bind, Res.bind, hv, hc]

/-- Reading a singular closed enum of a generated message. -/
theorem readSlot_closed (hR : T.Readable) {id k j : Nat} {g : List DynField} {f : DynField} {sc : Scalar} {tag : BitVec 32}
    (hg : (groupFields (T id).fields)[k]? = some g) (hj : g[j]? = some f) (hr : f.repeated = false)
    (hk : f.kind = .scalar sc) (hc : f.kind.closed = true)
    (ha : findAlt (tagNumber tag) (g.map fun f => (f.number, f.kind)) 0 = some (j, f.kind))
    (l : Level Flat) (M : Msg) (s : Flat) : ∃ thrown : Bool,
    readSlot (T.cfg utf8) flatOps l .none tag k (staticSlot T T.blank (T id).entry g) M s =
      (readScalar (T.cfg utf8) flatOps sc tag s >>= fun p =>
        if sc.valid p.2 then (if thrown then .throw else .ok (p.1, M.put k [(j, narrow sc p.2)]))
        else .ok (p.1, M)) := by
  have hf : f ∈ (T id).fields := mem_of_group (List.mem_of_getElem? hg) (List.mem_of_getElem? hj)
  have hmt : f.kind.msgType = none := by rw [hk]; rfl
  rcases staticSlot_cases (T := T) T.blank (T id).entry (List.mem_of_getElem? hg) with ⟨f', rfl, ho, e⟩ | ⟨-, e⟩
  · have hj0 : j = 0 := by
      cases j with
      | zero => rfl
      | succ j => simp at hj
    subst hj0
    simp only [List.getElem?_cons_zero, Option.some.injEq] at hj
    subst hj
    refine ⟨false, ?_⟩
    obtain ⟨h1, h2⟩ := hR.closed id _ hf hc hr
    have he : (T id).entry = false := by
      cases he : (T id).entry with
      | false => rfl
      | true =>
        obtain ⟨k', v', hfs, -, -, -, -, -, -, -, -, -, c1, c2, -⟩ := hR.entries id he
        rw [hfs] at hf
        simp only [List.mem_cons, List.not_mem_nil, or_false] at hf
        rcases hf with rfl | rfl
        · rw [c1] at hc; cases hc
        · rw [c2] at hc; cases hc
    rw [e]
    simp only [DynField.card, hr, Bool.false_eq_true, if_false, hmt, DynField.must, h2, he, Bool.or_self, h1, if_true]
    rw [hk]
    simp only [readSlot, readClosed]
    cases readScalar (T.cfg utf8) flatOps sc tag s with
    | ok p =>
      simp only [bind, Res.bind]
      cases sc.valid p.2 <;> simp [MsgOf.addUnk]
    | _ => rfl
  · refine ⟨!((M.get k).map Prod.fst == [j]), ?_⟩
    rw [e]
    rw [hk] at hc
    simp only [readSlot, ha, hk, readClosed]
    cases readScalar (T.cfg utf8) flatOps sc tag s with
    | ok p =>
      simp only [bind, Res.bind, hc, Bool.true_and]
      cases sc.valid p.2 <;> simp [MsgOf.addUnk]
    | _ => rfl

include hT

theorem put_num {id k j : Nat} {g : List DynField} {f : DynField} {sc : Scalar}
    {m : DynMsg} {M : Msg} (h : DynReads T id m M)
    (hg : (groupFields (T id).fields)[k]? = some g) (hj : g[j]? = some f) (hr : f.repeated = false)
    (hk : f.kind = .scalar sc) (hs : ∀ u, sc ≠ .str u) (x : BitVec 64) :
    DynReads T id (f.putRead x m) (M.put k [(j, .num x)]) := by
  unfold DynField.putRead
  split
  · next hx =>
    refine h.present hT hg hj hr ?_ (fun he => by simpa [he] using hx)
    unfold cellHolds
    rw [hk]
    cases sc <;> first | exact ⟨x, rfl, rfl⟩ | exact absurd rfl (hs _)
  · next hne =>
    simp only [Bool.or_eq_true, Bool.not_eq_true', not_or, Bool.not_eq_true, Bool.not_eq_false] at hne
    obtain ⟨he, hd⟩ := hne
    have hgf : g = [f] ∧ j = 0 := by
      rcases groupFields_shape _ g (List.mem_of_getElem? hg) with ⟨f', rfl⟩ | ⟨o, ho⟩
      · cases j with
        | zero => simp at hj; subst hj; exact ⟨rfl, rfl⟩
        | succ j => simp at hj
      · have hm := ho f (List.mem_of_getElem? hj)
        have := ((hT id).member_explicit (mem_of_group (List.mem_of_getElem? hg) (List.mem_of_getElem? hj)) hm).2
        rw [he] at this
        cases this
    obtain ⟨rfl, rfl⟩ := hgf
    exact h.reset hT hg hr he hd

theorem put_str {id k j : Nat} {g : List DynField} {f : DynField} {u : Bool}
    {m : DynMsg} {M : Msg} (h : DynReads T id m M)
    (hg : (groupFields (T id).fields)[k]? = some g) (hj : g[j]? = some f) (hr : f.repeated = false)
    (hk : f.kind = .scalar (.str u)) (bs : List Byte) :
    DynReads T id (f.putReadStr bs m) (M.put k [(j, .bytes bs)]) := by
  unfold DynField.putReadStr
  split
  · next hx =>
    refine h.present hT hg hj hr ?_ (fun he => by simpa [he] using hx)
    unfold cellHolds
    rw [hk]
    exact ⟨bs, rfl, rfl⟩
  · next hne =>
    simp only [Bool.or_eq_true, Bool.not_eq_true', not_or, Bool.not_eq_true, Bool.not_eq_false] at hne
    obtain ⟨he, hd⟩ := hne
    have hgf : g = [f] ∧ j = 0 := by
      rcases groupFields_shape _ g (List.mem_of_getElem? hg) with ⟨f', rfl⟩ | ⟨o, ho⟩
      · cases j with
        | zero => simp at hj; subst hj; exact ⟨rfl, rfl⟩
        | succ j => simp at hj
      · have hm := ho f (List.mem_of_getElem? hj)
        have := ((hT id).member_explicit (mem_of_group (List.mem_of_getElem? hg) (List.mem_of_getElem? hj)) hm).2
        rw [he] at this
        cases this
    obtain ⟨rfl, rfl⟩ := hgf
    exact h.reset hT hg hr he hd

omit hT in
/-- Strings. -/
theorem bytes_sim (hu : utf8 [] = true) (u : Bool) (tag) (s : Flat) :
    DynSim (fun p q => p.1 = q.1 ∧ NotBefore s p.1 ∧ p.2 = .bytes q.2)
      (readScalar (T.cfg utf8) flatOps (.str u) tag s) (dynBytes utf8 flatOps u tag s) := by
  unfold readScalar dynBytes
  refine dsim_ite (fun _ => dsim_err _ _) (fun _ => ?_)
  show DynSim _ ((_ >>= _ : Res (Flat × List Byte)) >>= _) _
  have assoc : ∀ {α β γ : Type} (x : Res α) (f : α → Res β) (g : β → Res γ),
      ((x >>= f) >>= g) = (x >>= fun a => f a >>= g) := by
    intro α β γ x f g
    cases x <;> rfl
  simp only [assoc]
  refine dsim_op (fine_varint _ _) ?_
  rintro ⟨s1, n⟩ h1
  dsimp only
  have hu' : (u && !utf8 []) = false := by simp [hu]
  by_cases hn : n = 0
  · simp only [if_pos hn]
    rw [if_neg (show ¬ ((u && !(T.cfg utf8).utf8 []) = true) from by
      show ¬ ((u && !utf8 []) = true)
      rw [hu']; simp)]
    exact dsim_ok ⟨rfl, later_varint h1, rfl⟩
  · simp only [if_neg hn]
    simp only [assoc]
    refine dsim_op (fine_raw _ _) ?_
    rintro ⟨s2, bs⟩ h2
    dsimp only
    show DynSim _ ((if (u && !utf8 bs) = true then _ else _) >>= _) _
    cases (u && !utf8 bs)
    · exact dsim_ok ⟨rfl, (later_varint h1).trans (later_raw h2), rfl⟩
    · exact dsim_err _ _

theorem scalar_sim (hR : T.Readable) (hu : utf8 [] = true) {id k j : Nat} {g : List DynField} {f : DynField} {sc : Scalar} {tag : BitVec 32}
    {m : DynMsg} {M : Msg} (h : DynReads T id m M)
    (hg : (groupFields (T id).fields)[k]? = some g) (hj : g[j]? = some f) (hr : f.repeated = false)
    (hk : f.kind = .scalar sc)
    (ha : findAlt (tagNumber tag) (g.map fun f => (f.number, f.kind)) 0 = some (j, f.kind))
    (l : Level Flat) (dl : DynLevel Flat) (s : Flat) :
    DynSim (Rel T id s)
      (readSlot (T.cfg utf8) flatOps l .none tag k (staticSlot T T.blank (T id).entry g) M s)
      (dynSingular T utf8 flatOps dl f tag m s) := by
  by_cases hs : ∃ u, sc = .str u
  · obtain ⟨u, rfl⟩ := hs
    rw [readSlot_open hg hj hr hk (by rw [hk]; rfl) ha]
    unfold dynSingular
    simp only [hk]
    refine dsim_bind (bytes_sim hu u tag s) ?_
    rintro ⟨s1, v⟩ ⟨s1', bs⟩ ⟨e1, e2, e3⟩
    simp only at e1 e2 e3
    subst e1 e3
    exact dsim_ok ⟨rfl, e2, put_str hT h hg hj hr hk bs⟩
  · have hs : ∀ u, sc ≠ .str u := fun u e => hs ⟨u, e⟩
    have hd : dynSingular T utf8 flatOps dl f tag m s = (readScalar (T.cfg utf8) flatOps sc tag s >>= fun p =>
        match (if sc.valid (narrow sc p.2) then some (narrow sc p.2).bits else none) with
        | some v => .ok (p.1, f.putRead v m)
        | none => .ok (p.1, m)) := by
      unfold dynSingular
      simp only [hk]
      have : dynNum flatOps sc tag s = (readScalar (T.cfg utf8) flatOps sc tag s >>= fun p =>
          .ok (p.1, if sc.valid (narrow sc p.2) then some (narrow sc p.2).bits else none)) := by
        unfold dynNum
        rw [readScalar_cfg skipCfg (T.cfg utf8) hs]
      cases sc <;> first
        | exact absurd rfl (hs _)
        | (simp only [this]
           cases readScalar (T.cfg utf8) flatOps _ tag s <;> rfl)
    rw [hd]
    have key : ∀ (p : Flat × Val), readScalar (T.cfg utf8) flatOps sc tag s = .ok p →
        ∃ x, narrow sc p.2 = .num x ∧ sc.valid (narrow sc p.2) = sc.valid p.2 := by
      rintro ⟨s1, v⟩ e
      obtain ⟨x, rfl⟩ := readScalar_num hs e
      refine ⟨(narrow sc (.num x)).bits, ?_, valid_narrow sc _⟩
      cases sc <;> rfl
    cases hc : f.kind.closed with
    | false =>
      rw [readSlot_open hg hj hr hk hc ha]
      refine dsim_op (fine_readScalar _ _ _) ?_
      intro p hp
      obtain ⟨x, hx, hv⟩ := key p hp
      rw [hv, valid_open (by rw [← hk]; exact hc), hx]
      exact dsim_ok ⟨rfl, later_readScalar hp, put_num hT h hg hj hr hk hs x⟩
    | true =>
      obtain ⟨th, e⟩ := readSlot_closed (utf8 := utf8) hR hg hj hr hk hc ha l M s
      rw [e]
      refine dsim_op (fine_readScalar _ _ _) ?_
      intro p hp
      obtain ⟨x, hx, hv⟩ := key p hp
      rw [hv]
      cases sc.valid p.2 with
      | false => exact dsim_ok ⟨rfl, later_readScalar hp, h⟩
      | true =>
        rw [hx]
        have := put_num hT h hg hj hr hk hs x
        cases th
        · exact dsim_ok ⟨rfl, later_readScalar hp, this⟩
        · exact dsim_throw (x := (p.1, M.put k [(j, .num x)])) ⟨rfl, later_readScalar hp, this⟩

/-! ## Messages -/

omit hT in
theorem entry_groups {k v : DynField} (hk : k.oneof = none) : groupFields [k, v] = [[k], [v]] := by
  simp [groupFields, hk]

/-- The value of a map entry is filled in; a generated entry has it from the start. -/
theorem fill_sim (hR : T.Readable) {id : Nat} {m : DynMsg} {M : Msg} (h : DynReads T id m M)
    (he : (T id).entry = true)
    (hkey : ∀ k v, (T id).fields = [k, v] → k.hasValue m = true) :
    ∃ m', fillEntry T (T id) m = .ok m' ∧ DynReads T id m' M ∧ ∀ f ∈ (T id).fields, f.hasValue m' = true := by
  obtain ⟨k, v, hfs, -, -, hkr, hvr, hko, hvo, hke, hve, hkm, -, -, hnest⟩ := hR.entries id he
  have hk := hkey k v hfs
  have hmv : v ∈ (T id).fields := by rw [hfs]; simp
  have hmk : k ∈ (T id).fields := by rw [hfs]; simp
  have hl := (dynReads_iff.1 h).1
  unfold fillEntry
  simp only [hfs, List.getElem?_cons_succ, List.getElem?_cons_zero, hvr, Bool.false_or]
  by_cases hv : v.hasValue m = true
  · refine ⟨m, by simp [hv], h, fun f hf => ?_⟩
    simp only [List.mem_cons, List.not_mem_nil, or_false] at hf
    rcases hf with rfl | rfl <;> assumption
  · have hg : (groupFields (T id).fields)[1]? = some [v] := by rw [hfs, entry_groups hko]; rfl
    have hinit : M.get 1 = (staticSlot T T.blank (T id).entry [v]).initial := by
      rcases (dynReads_iff.1 h).2.2.2 1 _ hg with ⟨j, f', w, h1, h2, h3, -⟩ | ⟨-, h2⟩ | ⟨f', vs, h1, h2, -⟩
      · rw [List.mem_singleton.1 (List.mem_of_getElem? h1)] at h3
        exact absurd h3 hv
      · rcases h2 with h2 | ⟨f', w, h1, h3, -⟩
        · exact h2
        · cases h1
          rw [hve] at h3
          cases h3
      · cases h1
        rw [hvr] at h2
        cases h2
    -- the value stored
    have main : ∃ c w, v.setAsDefault T m = v.store m (v.layout.ordinal, c) ∧ cellHolds T v.kind c w ∧
        (staticSlot T T.blank (T id).entry [v]).initial = [(0, w)] := by
      unfold DynField.setAsDefault
      simp only [staticSlot, hvo, DynField.card, hvr, he, Bool.false_eq_true, if_false, if_true, DynField.must,
        Bool.or_true]
      cases hkd : v.kind with
      | scalar sc =>
        by_cases hs : ∃ u, sc = .str u
        · obtain ⟨u, rfl⟩ := hs
          refine ⟨.str v.dflt.str, .bytes v.dflt.str, rfl, ⟨_, rfl, rfl⟩, ?_⟩
          simp [Kind.msgType, SlotD.initial, DynField.default, Kind.isStr, hkd]
        · have hs : ∀ u, sc ≠ .str u := fun u e => hs ⟨u, e⟩
          have hn : (Kind.scalar sc).isNum = true := by
            cases sc <;> first | rfl | exact absurd rfl (hs _)
          rw [if_pos hn]
          refine ⟨.num v.dflt.bits, .num v.dflt.bits, rfl, ?_, ?_⟩
          · unfold cellHolds
            cases sc <;> first | exact ⟨_, rfl, rfl⟩ | exact absurd rfl (hs _)
          · simp [Kind.msgType, SlotD.initial, DynField.default, isStr_of_isNum hn, hkd]
      | msg sid =>
        have hb := blank_eq (utf8 := fun _ => true) (hnest sid (by rw [hkd]; rfl))
        refine ⟨.msg (T sid).empty, .msg (T.blank sid), ?_, ⟨_, _, rfl, rfl, ?_⟩, rfl⟩
        · simp [Kind.isNum, Kind.isStr, DynField.emplace, hkd, Kind.msgType]
        · rw [hb]; exact empty_reads hT sid _
      | group sid =>
        have hb := blank_eq (utf8 := fun _ => true) (hnest sid (by rw [hkd]; rfl))
        refine ⟨.msg (T sid).empty, .msg (T.blank sid), ?_, ⟨_, _, rfl, rfl, ?_⟩, rfl⟩
        · simp [Kind.isNum, Kind.isStr, DynField.emplace, hkd, Kind.msgType]
        · rw [hb]; exact empty_reads hT sid _
    obtain ⟨c, w, e1, e2, e3⟩ := main
    refine ⟨v.store m (v.layout.ordinal, c), ?_, ?_, ?_⟩
    · rw [if_neg hv, e1]
    · have := h.present hT hg (j := 0) rfl hvr e2 (fun he => by rw [hve] at he; cases he)
      rw [← e3, ← hinit, put_get] at this
      exact this
    · intro f hf
      simp only [List.mem_cons, List.not_mem_nil, or_false] at hf
      rcases hf with rfl | rfl
      · rw [← hk]
        refine hasValue_congr (storage_store_other ?_ _)
        have a := (hT id).group_slot hg (f := v) (by simp)
        have b := (hT id).group_slot (k := 0) (g := [f]) (by rw [hfs, entry_groups hko]; rfl) (f := f) (by simp)
        omega
      · exact hasValue_stored hT hl hmv hvr c

section
variable {l : Level Flat} {dl : DynLevel Flat} (L : LevelSim T l dl)
include L

omit hT in
theorem sized_sim {id : Nat} {m : DynMsg} {M : Msg} (h : DynReads T id m M) (s : Flat) :
    DynSim (fun p q => Rel T id s p q ∧ ((T id).entry = true →
        ∀ k v, (T id).fields = [k, v] → k.hasValue q.2 = true))
      (sized (T.cfg utf8) flatOps l id M s) (dynSized T flatOps dl id m s) := by
  have hl := (dynReads_iff.1 h).1
  unfold sized dynSized
  refine dsim_op (fine_varint _ _) ?_
  rintro ⟨s1, n⟩ h1
  dsimp only
  have hlt := later_varint h1
  by_cases h0 : n.toNat = 0 ∧ (T id).entry = true
  · rw [if_pos h0, if_pos (show n.toNat = 0 ∧ ((T.cfg utf8).schema id).isEntry = true from h0)]
    exact dsim_err _ _
  · rw [if_neg h0, if_neg (show ¬ (n.toNat = 0 ∧ ((T.cfg utf8).schema id).isEntry = true) from h0)]
    refine dsim_ite (fun hc => ?_) (fun _ => dsim_ite (fun hc => ?_) (fun _ => dsim_err _ _))
    · rw [ops_avail] at hc
      have hn : n.toNat ≤ s1.rest.length := by omega
      have : flatOps.split n.toNat s1 = .ok (⟨s1.prev, s1.rest.take n.toNat⟩, s1.consume n.toNat) := if_pos hn
      rw [this]
      show DynSim _ (l.msg id M _ >>= _) (dl.msg id m _ >>= _)
      have hmsg := (L.msg id m M ⟨s1.prev, s1.rest.take n.toNat⟩ h).imp
        (P' := fun p q => Rel T id ⟨s1.prev, s1.rest.take n.toNat⟩ p q ∧ ((T id).entry = true →
          ∀ k v, (T id).fields = [k, v] → k.hasValue q.2 = true)) (by
        intro x y hy hxy
        refine ⟨hxy, fun he k v hf => ?_⟩
        refine L.key id m _ _ _ he ?_ hl hy k v hf
        have : n.toNat ≠ 0 := fun e => h0 ⟨e, he⟩
        intro e
        have e := congrArg List.length e
        simp only [List.length_take, List.length_nil] at e
        omega)
      refine dsim_bind hmsg ?_
      rintro ⟨s2, M2⟩ ⟨s2', m2⟩ ⟨⟨-, -, e3⟩, e4⟩
      exact dsim_ok ⟨⟨rfl, hlt.trans (later_consume _ _), e3⟩, e4⟩
    · rw [ops_avail] at hc
      refine (L.msg id m M s1 h).imp ?_
      intro x y hy hxy
      refine ⟨⟨hxy.1, hlt.trans hxy.2.1, hxy.2.2⟩, fun he k v hf => ?_⟩
      refine L.key id m _ _ _ he ?_ hl hy k v hf
      have : n.toNat ≠ 0 := fun e => h0 ⟨e, he⟩
      intro e
      rw [e] at hc
      simp at hc
      omega

/-- A message or group read into a message. -/
theorem message_sim (hR : T.Readable) {k : Kind} {id : Nat} (hk : k.msgType = some id) {m : DynMsg} {M : Msg}
    (h : DynReads T id m M) (tag) (s : Flat) :
    DynSim (fun p q => Rel T id s p q ∧ entryComplete T k q.2)
      (readMsg (T.cfg utf8) flatOps l k tag M s) (dynMessage T flatOps dl k tag m s) := by
  cases k with
  | scalar sc => cases hk
  | msg i =>
    cases hk
    unfold readMsg dynMessage
    simp only
    refine dsim_ite (fun _ => ?_) (fun _ => dsim_err _ _)
    have e : sized (T.cfg utf8) flatOps l id M s = (sized (T.cfg utf8) flatOps l id M s >>= fun p => .ok p) := by
      show _ = Res.bind _ _
      cases sized (T.cfg utf8) flatOps l id M s <;> rfl
    rw [e]
    refine dsim_bind (sized_sim L h s) ?_
    rintro ⟨s1, M1⟩ ⟨s1', m1⟩ ⟨⟨e1, e2, e3⟩, e4⟩
    simp only at e1 e2 e3 e4
    subst e1
    dsimp only
    cases he : (T id).entry with
    | false =>
      simp only [Bool.false_eq_true, if_false]
      refine dsim_ok ⟨⟨rfl, e2, e3⟩, ?_⟩
      intro j hj he'
      cases hj
      rw [he] at he'
      cases he'
    | true =>
      simp only [if_true]
      obtain ⟨m2, h1, h2, h3⟩ := fill_sim hT hR e3 he (e4 he)
      rw [h1]
      refine dsim_ok ⟨⟨rfl, e2, h2⟩, ?_⟩
      intro j hj he'
      cases hj
      exact h3
  | group i =>
    cases hk
    unfold readMsg dynMessage
    simp only
    refine dsim_ite (fun _ => ?_) (fun _ => dsim_err _ _)
    refine (L.grp id (tagNumber tag) m M s h).imp ?_
    intro x y _ hxy
    exact ⟨hxy, fun j hj => by cases hj⟩

end

end

end HppProto
