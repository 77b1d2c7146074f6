import Verif.Proofs.DynamicLevel
import Verif.Proofs.DynamicItems
import Verif.Spec.DynamicSame
import Verif.Spec.Object

/-! Helper lemmas for the round trip of dynamic messages (`Verif/Props/DynamicRound.lean`). -/

namespace HppProto
open Spec

/-- What `tidy` does to an embedded message. -/
def tidiedVal (C : Cfg) (d : Nat) (k : Kind) (v : Val) : Val :=
  match k with
  | .scalar _ => v
  | .msg sub | .group sub => .msg (tidy C d sub (v.asMsg (C.schema sub).default))

/-- What `tidy` does to an entry of a member. -/
def tidiedEntry (C : Cfg) (d : Nat) (sd : SlotD) (e : Nat × Val) : Nat × Val :=
  (e.1, match sd with
    | .field _ k (.implicit dflt) => if isDefault k dflt e.2 then dflt else tidiedVal C d k e.2
    | .field _ k _ => tidiedVal C d k e.2
    | .oneof alts => match alts[e.1]? with
      | some (_, k) => tidiedVal C d k e.2
      | none => e.2)

theorem tidy_get {C : Cfg} {d id i : Nat} {M : Msg} {sd : SlotD} (hi : (C.schema id).slots[i]? = some sd)
    (hl : M.slots.length = (C.schema id).slots.length) :
    (tidy C (d + 1) id M).get i = (M.get i).map (tidiedEntry C d sd) := by
  have hi' : i < M.slots.length := by
    rw [hl]
    exact (List.getElem?_eq_some_iff.1 hi).1
  simp only [tidy, MsgOf.get, List.getD_eq_getElem?_getD, List.getElem?_zipWith, hi, List.getElem?_eq_getElem hi',
    Option.getD_some]
  rfl

section
variable {T : DynTypes} {utf8 : List Byte → Bool} (hT : ∀ id, (T id).Ok)
include hT

/-- The value of a singular field, as `tidy` leaves it. -/
theorem tidy_field {id k j d : Nat} {g : List DynField} {f : DynField}
    (hg : (groupFields (T id).fields)[k]? = some g) (hj : g[j]? = some f) (hr : f.repeated = false)
    (hreq : f.required = false) (hent : (T id).entry = true → f.explicit = true) (v : Val) :
    tidiedEntry (T.cfg utf8) d (staticSlot T T.blank (T id).entry g) (j, v) =
      (j, if f.explicit = false ∧ isDefault f.kind f.dflt v = true then f.default
        else tidiedVal (T.cfg utf8) d f.kind v) := by
  have hf : f ∈ (T id).fields := mem_of_group (List.mem_of_getElem? hg) (List.mem_of_getElem? hj)
  rcases staticSlot_cases (T := T) T.blank (T id).entry (List.mem_of_getElem? hg) with ⟨f', rfl, ho, e⟩ | ⟨h, e⟩
  · have hj0 : j = 0 := by
      cases j with
      | zero => rfl
      | succ j => simp at hj
    subst hj0
    simp only [List.getElem?_cons_zero, Option.some.injEq] at hj
    subst hj
    rw [e]
    cases hm : f'.kind.msgType with
    | some sid =>
      have hd := isDefault_message hm f'.dflt v
      cases he : (T id).entry <;>
        simp [DynField.card, hr, hm, hd, tidiedEntry]
    | none =>
      simp only [DynField.card, hr, Bool.false_eq_true, if_false, hm, DynField.must, hreq, Bool.false_or]
      cases hx : f'.explicit with
      | true =>
        cases he : (T id).entry <;> simp [tidiedEntry]
      | false =>
        have he : (T id).entry = false := by
          cases he : (T id).entry with
          | false => rfl
          | true => rw [hent he] at hx; cases hx
        simp only [he, Bool.false_eq_true, if_false, tidiedEntry, isDefault_default, true_and]
  · obtain ⟨o, ho⟩ := h f (List.mem_of_getElem? hj)
    have hx := ((hT id).member_explicit hf ho).2
    rw [e]
    simp only [tidiedEntry, List.getElem?_map, hj, Option.map_some, hx, Bool.true_eq_false, false_and, if_false]

/-- The initial contents of a singular member, as `tidy` leaves them. -/
theorem tidy_initial {id k d : Nat} {g : List DynField}
    (hg : (groupFields (T id).fields)[k]? = some g) (hr : ∀ f ∈ g, f.repeated = false)
    (hm : ∀ f ∈ g, f.must (T id).entry = false) :
    (staticSlot T T.blank (T id).entry g).initial = [] ∨
    ∃ f, g = [f] ∧ f.explicit = false ∧ f.kind.msgType = none ∧
      (staticSlot T T.blank (T id).entry g).initial = [(0, f.default)] := by
  rcases staticSlot_cases (T := T) T.blank (T id).entry (List.mem_of_getElem? hg) with ⟨f, rfl, ho, e⟩ | ⟨h, e⟩
  · have hr := hr f (by simp)
    have hm := hm f (by simp)
    have he : (T id).entry = false := by
      cases he : (T id).entry with
      | false => rfl
      | true => rw [he] at hm; simp [DynField.must] at hm
    rw [e]
    cases hk : f.kind.msgType with
    | some sid =>
      left
      simp only [DynField.card, hr, Bool.false_eq_true, if_false, hk, he]
      rfl
    | none =>
      cases hx : f.explicit with
      | true =>
        left
        simp only [DynField.card, hr, Bool.false_eq_true, if_false, hk, hm, hx, if_true]
        rfl
      | false =>
        right
        refine ⟨f, rfl, hx, hk, ?_⟩
        simp only [DynField.card, hr, Bool.false_eq_true, if_false, hk, hm, hx]
        rfl
  · left
    rw [e]
    rfl

/-- The value of a singular field is one of its kind. -/
theorem slot_val {id k j : Nat} {g : List DynField} {f : DynField} {P : Nat → Msg → Prop}
    (hg : (groupFields (T id).fields)[k]? = some g) (hj : g[j]? = some f) (hr : f.repeated = false) {v : Val}
    (h : slotOk false (T.cfg utf8) P (staticSlot T T.blank (T id).entry g) [(j, v)]) :
    valOk (T.cfg utf8) P f.kind v := by
  rcases staticSlot_cases (T := T) T.blank (T id).entry (List.mem_of_getElem? hg) with ⟨f', rfl, ho, e⟩ | ⟨-, e⟩
  · have : f = f' := List.mem_singleton.1 (List.mem_of_getElem? hj)
    subst this
    rw [e] at h
    simp only [DynField.card, hr, Bool.false_eq_true, if_false] at h
    split at h
    · split at h
      · obtain ⟨w, h1, h2⟩ := h
        cases h1
        exact h2
      · rcases h with h | ⟨w, h1, h2⟩
        · cases h
        · cases h1
          exact h2
    · split at h
      · obtain ⟨w, h1, h2⟩ := h
        cases h1
        exact h2
      · split at h
        · rcases h with h | ⟨w, h1, h2⟩
          · cases h
          · cases h1
            exact h2
        · obtain ⟨w, h1, h2, -⟩ := h
          cases h1
          exact h2
  · rw [e] at h
    rcases h with h | ⟨j', n, k', w, h1, h2, h3⟩
    · cases h
    · cases h1
      simp only [List.getElem?_map, hj, Option.map_some, Option.some.injEq, Prod.mk.injEq] at h2
      rw [h2.2]
      exact h3

/-- The elements of a repeated field. -/
theorem slot_elems {id k : Nat} {f : DynField} {P : Nat → Msg → Prop}
    (hg : (groupFields (T id).fields)[k]? = some [f]) (hr : f.repeated = true) {es : List (Nat × Val)} (d : Nat) :
    (slotOk false (T.cfg utf8) P (staticSlot T T.blank (T id).entry [f]) es →
      ∀ e ∈ es, valOk (T.cfg utf8) P f.kind e.2) ∧
    ∀ e, tidiedEntry (T.cfg utf8) d (staticSlot T T.blank (T id).entry [f]) e =
      (e.1, tidiedVal (T.cfg utf8) d f.kind e.2) := by
  have hf : f ∈ (T id).fields := mem_of_group (List.mem_of_getElem? hg) (by simp)
  have ho := (hT id).singularMembers f hf hr
  have e : ∃ c : Card, (c = .map false ∨ ∃ p, c = .repeated p) ∧
      staticSlot T T.blank (T id).entry [f] = .field f.number f.kind c := by
    simp only [staticSlot, ho, DynField.card, hr, if_true]
    cases f.kind with
    | msg i =>
      dsimp only
      split
      · exact ⟨_, Or.inl rfl, rfl⟩
      · exact ⟨_, Or.inr ⟨_, rfl⟩, rfl⟩
    | scalar sc => exact ⟨_, Or.inr ⟨_, rfl⟩, rfl⟩
    | group i => exact ⟨_, Or.inr ⟨_, rfl⟩, rfl⟩
  obtain ⟨c, hc, e⟩ := e
  rw [e]
  rcases hc with rfl | ⟨p, rfl⟩
  · exact ⟨fun h e he => (h e he).2, fun e => rfl⟩
  · exact ⟨fun h e he => (h e he).2, fun e => rfl⟩

/-- What the round trip relies on, besides `Readable`: no required fields; entry types are types of
repeated message fields. -/
structure RoundTypes (T : DynTypes) : Prop where
  plain : ∀ id, ∀ f ∈ (T id).fields, f.required = false
  maps : T.MapsRepeated

/-- The same value in both. -/
theorem restored_value {id D : Nat} {f : DynField} {m m' : DynMsg} {v : Val}
    (ih : ∀ sid s s' N, f.kind.msgType = some sid → DynHolds T True sid s N →
      objLike false (T.cfg utf8) D sid N → DynReads T sid s' (tidy (T.cfg utf8) D sid N) → RestoredAt T D sid s s')
    (h : holdsValue (DynHolds T True) f m v) (h' : holdsValue (DynReads T) f m' (tidiedVal (T.cfg utf8) D f.kind v))
    (hv : valOk (T.cfg utf8) (objLike false (T.cfg utf8) D) f.kind v) : sameValue (RestoredAt T D) f m m' := by
  have msgCase : ∀ sid, f.kind.msgType = some sid → (∃ s N, f.value m = .msg s ∧ v = .msg N ∧ DynHolds T True sid s N) →
      (∃ s N, f.value m' = .msg s ∧ Val.msg (tidy (T.cfg utf8) D sid (Val.asMsg ((T.cfg utf8).schema sid).default v)) = .msg N ∧
        DynReads T sid s N) → (∃ N, v = .msg N ∧ objLike false (T.cfg utf8) D sid N) →
      ∃ s s', f.value m = .msg s ∧ f.value m' = .msg s' ∧ RestoredAt T D sid s s' := by
    rintro sid hs ⟨s, N, a1, rfl, a3⟩ ⟨s', N', b1, b2, b3⟩ ⟨N'', c1, c2⟩
    cases b2
    cases c1
    exact ⟨s, s', a1, b1, ih _ _ _ _ hs a3 c2 b3⟩
  unfold holdsValue at h h'
  unfold sameValue
  cases hk : f.kind with
  | scalar sc =>
    dsimp only
    rw [hk] at h h'
    cases sc <;> dsimp only [tidiedVal] at h h' <;> obtain ⟨x, h1, h2⟩ := h <;> obtain ⟨x', h3, h4⟩ := h' <;>
      rw [h2] at h4 <;> cases h4 <;> rw [h1, h3]
  | msg sid =>
    rw [hk] at h h' hv
    exact msgCase sid (by rw [hk]; rfl) h h' hv
  | group sid =>
    rw [hk] at h h' hv
    exact msgCase sid (by rw [hk]; rfl) h h' hv

/-- The same elements in both. -/
theorem restored_elems {D : Nat} {f : DynField} {m m' : DynMsg} {vs : List Val}
    (ih : ∀ sid s s' N, f.kind.msgType = some sid → DynHolds T True sid s N →
      objLike false (T.cfg utf8) D sid N → DynReads T sid s' (tidy (T.cfg utf8) D sid N) →
      entryComplete T f.kind s' → RestoredAt T D sid s s')
    (h : holdsList (DynHolds T True) f m vs)
    (h' : holdsList (DynReads T) f m' (vs.map (tidiedVal (T.cfg utf8) D f.kind)))
    (hc : ∀ ss, f.value m' = .msgs ss → ∀ s ∈ ss, entryComplete T f.kind s)
    (hv : ∀ v ∈ vs, valOk (T.cfg utf8) (objLike false (T.cfg utf8) D) f.kind v) :
    sameElems (RestoredAt T D) f m m' := by
  have msgCase : ∀ sid, f.kind.msgType = some sid →
      (∃ ss Ns, f.value m = .msgs ss ∧ vs = Ns.map .msg ∧ ss.length = Ns.length ∧
        ∀ p ∈ ss.zip Ns, DynHolds T True sid p.1 p.2) →
      (∃ ss Ns, f.value m' = .msgs ss ∧
        vs.map (fun v => Val.msg (tidy (T.cfg utf8) D sid (Val.asMsg ((T.cfg utf8).schema sid).default v))) = Ns.map .msg ∧
        ss.length = Ns.length ∧ ∀ p ∈ ss.zip Ns, DynReads T sid p.1 p.2) →
      (∀ v ∈ vs, ∃ N, v = .msg N ∧ objLike false (T.cfg utf8) D sid N) →
      ∃ ss ss', f.value m = .msgs ss ∧ f.value m' = .msgs ss' ∧ ss.length = ss'.length ∧
        ∀ p ∈ ss.zip ss', RestoredAt T D sid p.1 p.2 := by
    rintro sid hs ⟨ss, Ns, a1, rfl, a3, a4⟩ ⟨ss', Ns', b1, b2, b3, b4⟩ c
    have hN : Ns' = Ns.map (tidy (T.cfg utf8) D sid) := by
      have := congrArg (List.map fun v => Val.asMsg ((T.cfg utf8).schema sid).default v) b2
      simp only [List.map_map] at this
      have e1 : Ns'.map ((fun v => Val.asMsg ((T.cfg utf8).schema sid).default v) ∘ Val.msg) = Ns' := by
        have : ((fun v => Val.asMsg ((T.cfg utf8).schema sid).default v) ∘ Val.msg) = (fun (x : Msg) => x) := rfl
        rw [this, List.map_id']
      rw [e1] at this
      exact this.symm
    subst hN
    refine ⟨ss, ss', a1, b1, by rw [a3, b3, List.length_map], ?_⟩
    intro p hp
    obtain ⟨i, hi, rfl⟩ := List.getElem_of_mem hp
    simp only [List.length_zip] at hi
    have hi1 : i < ss.length := by omega
    have hi2 : i < ss'.length := by omega
    have hi3 : i < Ns.length := by omega
    simp only [List.getElem_zip]
    have hmem := List.getElem_mem (l := ss.zip Ns) (n := i) (by simp; omega)
    have hmem' := List.getElem_mem (l := ss'.zip (Ns.map (tidy (T.cfg utf8) D sid))) (n := i) (by simp; omega)
    simp only [List.getElem_zip, List.getElem_map] at hmem hmem'
    obtain ⟨N, c1, c2⟩ := c (.msg Ns[i]) (List.mem_map_of_mem (List.getElem_mem hi3))
    cases c1
    exact ih sid _ _ _ hs (a4 _ hmem) c2 (b4 _ hmem') (hc ss' b1 _ (List.getElem_mem hi2))
  unfold holdsList at h h'
  unfold sameElems
  cases hk : f.kind with
  | scalar sc =>
    dsimp only
    rw [hk] at h h'
    have e : vs.map (tidiedVal (T.cfg utf8) D (.scalar sc)) = vs := List.map_id' vs
    rw [e] at h'
    have inj1 : ∀ a b : List (List Byte), a.map Val.bytes = b.map Val.bytes → a = b :=
      fun a b => List.map_inj_right (fun _ _ e => by cases e; rfl) |>.1
    have inj2 : ∀ a b : List (BitVec 64), a.map (Val.num : BitVec 64 → Val) = b.map .num → a = b :=
      fun a b => List.map_inj_right (fun _ _ e => by cases e; rfl) |>.1
    cases sc <;> dsimp only at h h' <;> obtain ⟨x, h1, h2⟩ := h <;> obtain ⟨x', h3, h4⟩ := h' <;>
      rw [h2] at h4 <;> first
        | (have := inj1 _ _ h4; subst this; rw [h1, h3])
        | (have := inj2 _ _ h4; subst this; rw [h1, h3])
  | msg sid =>
    rw [hk] at h h'
    simp only [hk] at hv
    exact msgCase sid (by rw [hk]; rfl) h h' hv
  | group sid =>
    rw [hk] at h h'
    simp only [hk] at hv
    exact msgCase sid (by rw [hk]; rfl) h h' hv

omit hT in
theorem sent_iff {rel : Nat → DynMsg → Msg → Prop} {f : DynField} {m : DynMsg} {v : Val}
    (hv : f.hasValue m = true) (h : holdsValue rel f m v) :
    f.sent m ↔ ¬ (f.explicit = false ∧ isDefault f.kind f.dflt v = true) := by
  have hw : holdsValue (fun _ _ _ => True) f m v := by
    unfold holdsValue at h ⊢
    split at h
    · exact h
    · exact h
    all_goals
      obtain ⟨s, N, a, b, -⟩ := h
      exact ⟨s, N, a, b, trivial⟩
  unfold DynField.sent
  constructor
  · rintro ⟨-, h2⟩ ⟨h3, h4⟩
    rw [h2 h3 v hw] at h4
    cases h4
  · intro hn
    refine ⟨hv, fun he w h2 => ?_⟩
    cases hm : f.kind.msgType with
    | some sid => exact isDefault_message hm _ _
    | none =>
      have : w = v := by
        unfold holdsValue at h2 hw
        cases hk : f.kind with
        | scalar sc =>
          rw [hk] at h2 hw
          cases sc <;> dsimp only at h2 hw <;> obtain ⟨x, h1, rfl⟩ := h2 <;> obtain ⟨x', h3, rfl⟩ := hw <;>
            rw [h1] at h3 <;> cases h3 <;> rfl
        | msg sid => rw [hk] at hm; cases hm
        | group sid => rw [hk] at hm; cases hm
      subst this
      cases hd : isDefault f.kind f.dflt w with
      | false => rfl
      | true => exact absurd ⟨he, hd⟩ hn

/-- Reading what was written restores the message. -/
theorem restored (hP : ∀ id, (T id).Pooled) (hQ : RoundTypes T) : ∀ (D id : Nat) (m m' : DynMsg) (M : Msg),
    DynHolds T True id m M → objLike false (T.cfg utf8) D id M → DynReads T id m' (tidy (T.cfg utf8) D id M) →
    ((T id).entry = true → ∀ f ∈ (T id).fields, f.hasValue m' = true) → RestoredAt T D id m m'
  | 0, _, _, _, _, _, h, _, _ => h.elim
  | D + 1, id, m, m', M, ⟨hd, h⟩, ho, hr', hent => by
    cases hd with
    | zero => exact h.elim
    | succ hd =>
    obtain ⟨h1, h2, h3, h4⟩ := h
    obtain ⟨o1, o2, -⟩ := ho
    obtain ⟨r1, r2, r3, r4⟩ := dynReads_iff.1 hr'
    refine ⟨r1, fun f hf => ?_⟩
    obtain ⟨g, hg, hfg⟩ := List.mem_flatten.1 ((groupFields_flatten (T id).fields).symm ▸ hf)
    obtain ⟨k, hk, rfl⟩ := List.getElem_of_mem hg
    have hgk : (groupFields (T id).fields)[k]? = some (groupFields (T id).fields)[k] := List.getElem?_eq_getElem hk
    generalize (groupFields (T id).fields)[k] = g at hg hfg hgk
    obtain ⟨j, hj, rfl⟩ := List.getElem_of_mem hfg
    have hgj : g[j]? = some g[j] := List.getElem?_eq_getElem hj
    generalize g[j] = f at hf hfg hgj
    have hslot : ((T.cfg utf8).schema id).slots[k]? = some (staticSlot T T.blank (T id).entry g) := by
      simp [DynTypes.cfg, hgk]
    have hget := tidy_get (d := D) hslot o1
    have hok : slotOk false (T.cfg utf8) (objLike false (T.cfg utf8) D) (staticSlot T T.blank (T id).entry g) (M.get k) := by
      have hkM : k < M.slots.length := by
        rw [h3]; exact hk
      have := List.getElem_mem (l := ((T.cfg utf8).schema id).slots.zip M.slots) (n := k)
        (by rw [List.length_zip, ← o1]; omega)
      rw [List.getElem_zip] at this
      have h5 := o2 _ this
      have e1 : ((T.cfg utf8).schema id).slots[k]'(by rw [← o1]; exact hkM) = staticSlot T T.blank (T id).entry g := by
        have := hslot
        rw [List.getElem?_eq_getElem (by rw [← o1]; exact hkM)] at this
        exact Option.some.inj this
      have e2 : M.slots[k] = M.get k := by
        simp [MsgOf.get, List.getD_eq_getElem?_getD, hkM]
      simp only [e1, e2] at h5
      exact h5
    have H := h4 k g hgk
    have R := r4 k g hgk
    rw [hget] at R
    have hreq : ∀ f ∈ g, f.required = false := fun f hf => hQ.plain id f (mem_of_group hg hf)
    have hexp : ∀ f ∈ g, f.repeated = false → (T id).entry = true → f.explicit = true :=
      fun f hf hr he => (hP id).entryExplicit he f (mem_of_group hg hf) hr
    have dflt : ∀ f ∈ g, f.explicit = false → f.kind.msgType = none → isDefault f.kind f.dflt f.default = true :=
      fun f hf he hm => isDefault_zero hm ((hT id).zeroDefaults f (mem_of_group hg hf) he).1
    have ihs : ∀ sid s s' N, f.repeated = false → f.kind.msgType = some sid → DynHolds T True sid s N →
        objLike false (T.cfg utf8) D sid N → DynReads T sid s' (tidy (T.cfg utf8) D sid N) → RestoredAt T D sid s s' := by
      intro sid s s' N hr hs a b c
      refine restored hP hQ D sid s s' N a b c (fun he => ?_)
      rw [(hQ.maps id f hf sid hs he).1] at hr
      cases hr
    have ihr : ∀ sid s s' N, f.kind.msgType = some sid → DynHolds T True sid s N →
        objLike false (T.cfg utf8) D sid N → DynReads T sid s' (tidy (T.cfg utf8) D sid N) →
        entryComplete T f.kind s' → RestoredAt T D sid s s' := by
      intro sid s s' N hs a b c hc
      exact restored hP hQ D sid s s' N a b c (fun he => hc sid (hQ.maps id f hf sid hs he).2 he)
    have notsent : f.hasValue m = false → ¬ f.sent m := by
      rintro h ⟨h', -⟩
      rw [h] at h'
      cases h'
    rcases H with ⟨j1, f1, v, a1, a2, a3, a4, a5⟩ | ⟨a1, a2⟩ | ⟨f1, vs, rfl, a2, a3, a4⟩
    · -- a field is set
      rw [a5] at R hok
      simp only [List.map_cons, List.map_nil] at R
      rw [tidy_field hT hgk a1 a2 (hreq _ (List.mem_of_getElem? a1)) (hexp _ (List.mem_of_getElem? a1) a2)] at R
      have a4 : holdsValue (DynHolds T True) f1 m v := readsValue_mono (fun _ _ _ h => ⟨_, h⟩) a4
      have hsent := sent_iff a3 a4
      have hrep : ∀ f ∈ g, f.repeated = false := by
        intro f hf
        cases hr : f.repeated with
        | false => rfl
        | true =>
          obtain ⟨j2, hj2, rfl⟩ := List.getElem_of_mem hf
          obtain ⟨e, -⟩ := repeated_slot (utf8 := utf8) hT hgk (List.getElem?_eq_getElem hj2) hr
          have : f1 ∈ g := List.mem_of_getElem? a1
          rw [e] at this
          rw [List.mem_singleton.1 this, hr] at a2
          cases a2
      refine ⟨fun h => (by rw [hrep f hfg] at h; cases h), fun hrf => ?_⟩
      rcases R with ⟨j2, f2, v2, b1, b2, b3, b4, b5, b6⟩ | ⟨b1, b2⟩ | ⟨f2, vs, b1, b2, -⟩
      · -- and set in the other
        simp only [List.cons.injEq, Prod.mk.injEq, and_true] at b6
        obtain ⟨rfl, b6⟩ := b6
        rw [a1] at b1
        cases b1
        have hcond : ¬ (f1.explicit = false ∧ isDefault f1.kind f1.dflt v = true) := by
          intro hc
          rw [if_pos hc] at b6
          have := b5 hc.1
          rw [← b6, dflt f1 (List.mem_of_getElem? a1) hc.1 ?_] at this
          · cases this
          · cases hm : f1.kind.msgType with
            | none => rfl
            | some sid =>
              have := isDefault_message hm f1.dflt v
              rw [hc.2] at this
              cases this
        rw [if_neg hcond] at b6
        have hs1 := hsent.2 hcond
        by_cases hjj : j = j1
        · subst hjj
          rw [a1] at hgj
          cases hgj
          rw [← b6] at b4
          exact ⟨⟨fun _ => hs1, fun _ => b3⟩, fun _ =>
            restored_value (T := T) (id := id) hT (fun sid s s' N => ihs sid s s' N hrf) a4 b4 (slot_val hT hgk a1 a2 hok)⟩
        · have n1 := other_absent (hT id) hgk hgj a1 (fun e => hjj e.symm) hrf a2 a3
          have n2 := other_absent (hT id) hgk hgj a1 (fun e => hjj e.symm) hrf a2 b3
          exact ⟨by rw [n2]; exact ⟨(fun h => by cases h), fun h => absurd h (notsent n1)⟩,
            fun h => absurd h (notsent n1)⟩
      · -- not set in the other
        have hcond : f1.explicit = false ∧ isDefault f1.kind f1.dflt v = true := by
          rcases b2 with b2 | ⟨f2, v2, rfl, c2, c3, c4⟩
          · have hnent : (T id).entry = false := by
              cases he : (T id).entry with
              | false => rfl
              | true =>
                have e1 := hent he f1 (mem_of_group hg (List.mem_of_getElem? a1))
                rw [(b1 f1 (List.mem_of_getElem? a1)).2] at e1
                cases e1
            rcases tidy_initial (d := D) hT hgk hrep
              (fun f hf => by simp [DynField.must, hreq f hf, hnent]) with e | ⟨f2, rfl, c2, c3, e⟩
            · rw [e] at b2
              cases b2
            · rw [e] at b2
              have hf1 : f1 = f2 := List.mem_singleton.1 (List.mem_of_getElem? a1)
              subst hf1
              simp only [List.cons.injEq, Prod.mk.injEq, and_true] at b2
              obtain ⟨-, b2⟩ := b2
              by_cases hc : isDefault f1.kind f1.dflt v = true
              · exact ⟨c2, hc⟩
              · rw [if_neg (fun h => hc h.2)] at b2
                have hv : tidiedVal (T.cfg utf8) D f1.kind v = v := by
                  cases hk : f1.kind with
                  | scalar sc => rfl
                  | msg sid => rw [hk] at c3; cases c3
                  | group sid => rw [hk] at c3; cases c3
                rw [hv] at b2
                rw [b2] at hc
                exact absurd (dflt f1 (by simp) c2 c3) hc
          · have hf1 : f1 = f2 := List.mem_singleton.1 (List.mem_of_getElem? a1)
            subst hf1
            simp only [List.cons.injEq, Prod.mk.injEq, and_true] at c4
            obtain ⟨-, c4⟩ := c4
            refine ⟨c2, ?_⟩
            by_cases hc : isDefault f1.kind f1.dflt v = true
            · exact hc
            · rw [if_neg (fun h => hc h.2)] at c4
              have hm : f1.kind.msgType = none := by
                cases hm : f1.kind.msgType with
                | none => rfl
                | some sid =>
                  have := isDefault_message hm f1.dflt v2
                  rw [c3] at this
                  cases this
              have hv : tidiedVal (T.cfg utf8) D f1.kind v = v := by
                cases hk : f1.kind with
                | scalar sc => rfl
                | msg sid => rw [hk] at hm; cases hm
                | group sid => rw [hk] at hm; cases hm
              rw [hv] at c4
              rw [c4]
              exact c3
        have hn1 : ¬ f1.sent m := fun h => hsent.1 h hcond
        have hn : ¬ f.sent m := by
          by_cases hjj : j = j1
          · subst hjj
            rw [a1] at hgj
            cases hgj
            exact hn1
          · exact notsent (other_absent (hT id) hgk hgj a1 (fun e => hjj e.symm) hrf a2 a3)
        exact ⟨by rw [(b1 f hfg).2]; exact ⟨(fun h => by cases h), fun h => absurd h hn⟩, fun h => absurd h hn⟩
      · have := hrep f2 (by rw [b1]; simp)
        rw [b2] at this
        cases this
    · -- nothing is set
      have hn := notsent (a1 f hfg).2.1
      refine ⟨fun h => (by rw [(a1 f hfg).1] at h; cases h), fun hrf => ⟨?_, fun h => absurd h hn⟩⟩
      refine ⟨fun hv => ?_, fun h => absurd h hn⟩
      exfalso
      rw [a2] at R
      rcases R with ⟨j2, f2, v2, b1, b2, b3, b4, b5, b6⟩ | ⟨b1, b2⟩ | ⟨f2, vs, b1, b2, -⟩
      · rcases tidy_initial (d := D) hT hgk (fun f hf => (a1 f hf).1) (fun f hf => (a1 f hf).2.2 trivial) with
          e | ⟨f3, rfl, c2, c3, e⟩
        · rw [e] at b6
          cases b6
        · have hf2 : f2 = f3 := List.mem_singleton.1 (List.mem_of_getElem? b1)
          subst hf2
          rw [e] at b6
          simp only [List.map_cons, List.map_nil] at b6
          rw [tidy_field hT hgk (j := 0) rfl b2 (hreq _ (by simp)) (hexp _ (by simp) b2)] at b6
          simp only [c2, dflt f2 (by simp) c2 c3, and_self, if_true, List.cons.injEq, Prod.mk.injEq, and_true] at b6
          have := b5 c2
          rw [← b6.2, dflt f2 (by simp) c2 c3] at this
          cases this
      · rw [(b1 f hfg).2] at hv
        cases hv
      · have := (a1 f2 (by rw [b1]; simp)).1
        rw [b2] at this
        cases this
    · -- repeated
      have : f = f1 := List.mem_singleton.1 hfg
      subst this
      refine ⟨fun _ => ?_, fun h => (by rw [a2] at h; cases h)⟩
      obtain ⟨s1, s2⟩ := slot_elems (utf8 := utf8) (P := objLike false (T.cfg utf8) D) (es := M.get k) hT hgk a2 D
      rcases R with ⟨j2, f2, v2, b1, b2, -⟩ | ⟨b1, -⟩ | ⟨f2, vs', b1, b2, b3, -, b5, b6⟩
      · have : f2 = f := List.mem_singleton.1 (List.mem_of_getElem? b1)
        rw [this, a2] at b2
        cases b2
      · have := (b1 f (by simp)).1
        rw [a2] at this
        cases this
      · cases b1
        have e : vs' = vs.map (tidiedVal (T.cfg utf8) D f.kind) := by
          rw [a4, List.map_map] at b6
          have := congrArg (List.map Prod.snd) b6
          simp only [List.map_map, Function.comp_def, s2] at this
          simpa using this.symm
        subst e
        refine restored_elems hT ihr (readsList_mono (fun _ _ _ h => ⟨_, h⟩) a3) b3 b5 ?_
        intro v hv
        exact s1 hok (0, v) (by rw [a4]; exact List.mem_map_of_mem hv)

end

end HppProto
