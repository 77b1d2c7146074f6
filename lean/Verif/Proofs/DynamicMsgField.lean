import Verif.Proofs.DynamicSingular
import Verif.Proofs.DynamicHistory

/-! Message fields and repeated fields read by the two readers. Helper lemmas for
`Verif/Props/DynamicRead.lean`. -/

namespace HppProto
open Spec

section
variable {T : DynTypes} {utf8 : List Byte → Bool} (hT : ∀ id, (T id).Ok) (hR : T.Readable)

/-- The other members of the group are absent. -/
theorem other_absent {D : DynDesc} (hD : D.Ok) {k : Nat} {g : List DynField}
    (hg : (groupFields D.fields)[k]? = some g) {j j' : Nat} {f f' : DynField} (hj : g[j]? = some f)
    (hj' : g[j']? = some f') (hne : j' ≠ j) (hr : f.repeated = false) (hr' : f'.repeated = false) {m : DynMsg}
    (hv : f'.hasValue m = true) : f.hasValue m = false := by
  have hm := List.mem_of_getElem? hg
  have hf := mem_of_group hm (List.mem_of_getElem? hj)
  have hf' := mem_of_group hm (List.mem_of_getElem? hj')
  have hs : f.layout.slot = f'.layout.slot := by
    rw [hD.group_slot hg (List.mem_of_getElem? hj), hD.group_slot hg (List.mem_of_getElem? hj')]
  have hnod : g.Nodup := by
    have := hD.nodup
    rw [← groupFields_flatten D.fields] at this
    exact (List.pairwise_flatten.1 this).1 g hm
  rcases hD.same_slot hf hf' hs with e | ⟨-, hord⟩
  · exfalso
    subst e
    obtain ⟨h1, e1⟩ := List.getElem?_eq_some_iff.1 hj
    obtain ⟨h2, e2⟩ := List.getElem?_eq_some_iff.1 hj'
    exact hne ((List.getElem_inj hnod).1 (e2.trans e1.symm))
  · unfold DynField.hasValue slotHasValue at hv ⊢
    rw [hr'] at hv
    rw [hr]
    simp only [Bool.false_eq_true, if_false, beq_iff_eq] at hv
    simp only [Bool.false_eq_true, if_false, beq_eq_false_iff_ne, ne_eq]
    have : f'.storage m = f.storage m := by unfold DynField.storage; rw [hs]
    rw [← this, hv]
    exact fun e => hord e.symm

theorem holdsValue_msg {f : DynField} {m : DynMsg} {v : Val} {sid : Nat} (hk : f.kind.msgType = some sid)
    (h : holdsValue (DynReads T) f m v) : ∃ s N, f.value m = .msg s ∧ v = .msg N ∧ DynReads T sid s N := by
  unfold holdsValue at h
  cases e : f.kind with
  | scalar sc => rw [e] at hk; cases hk
  | msg i => rw [e] at hk h; cases hk; exact h
  | group i => rw [e] at hk h; cases hk; exact h

theorem isDefault_message {k : Kind} {sid : Nat} (hk : k.msgType = some sid) (d v : Val) : isDefault k d v = false := by
  cases k with
  | scalar sc => cases hk
  | msg i => rfl
  | group i => rfl

/-- The message that a singular message field of a generated message is read into. -/
theorem readSlot_msg {id k j sid : Nat} {g : List DynField} {f : DynField} {tag : BitVec 32}
    (hg : (groupFields (T id).fields)[k]? = some g) (hj : g[j]? = some f) (hr : f.repeated = false)
    (hk : f.kind.msgType = some sid)
    (ha : findAlt (tagNumber tag) (g.map fun f => (f.number, f.kind)) 0 = some (j, f.kind))
    (l : Level Flat) (M : Msg) (s : Flat) {old : Val}
    (hold : M.get k = [] ∧ old = .msg ((T.cfg utf8).schema sid).default ∨
      (∃ v, M.get k = [(j, v)] ∧ old = v) ∨
      (∃ j' v, M.get k = [(j', v)] ∧ j' ≠ j ∧ g.length ≠ 1 ∧ old = .msg ((T.cfg utf8).schema sid).default)) :
    readSlot (T.cfg utf8) flatOps l .none tag k (staticSlot T T.blank (T id).entry g) M s =
      (readMsg (T.cfg utf8) flatOps l f.kind tag (old.asMsg ((T.cfg utf8).schema sid).default) s >>= fun p =>
        .ok (p.1, M.put k [(j, .msg p.2)])) := by
  have hval : ∀ o, readValue (T.cfg utf8) flatOps l f.kind tag o s =
      (readMsg (T.cfg utf8) flatOps l f.kind tag (o.asMsg ((T.cfg utf8).schema sid).default) s >>= fun p =>
        .ok (p.1, .msg p.2)) := by
    intro o
    cases e : f.kind with
    | scalar sc => rw [e] at hk; cases hk
    | msg i => rw [e] at hk; cases hk; rfl
    | group i => rw [e] at hk; cases hk; rfl
  have hz : f.kind.zero (T.cfg utf8) = .msg ((T.cfg utf8).schema sid).default := by
    cases e : f.kind with
    | scalar sc => rw [e] at hk; cases hk
    | msg i => rw [e] at hk; cases hk; rfl
    | group i => rw [e] at hk; cases hk; rfl
  have fin : ∀ o, (readValue (T.cfg utf8) flatOps l f.kind tag o s >>= fun p =>
      Res.ok (p.1, M.put k [(j, p.2)])) =
      (readMsg (T.cfg utf8) flatOps l f.kind tag (o.asMsg ((T.cfg utf8).schema sid).default) s >>= fun p =>
        .ok (p.1, M.put k [(j, .msg p.2)])) := by
    intro o
    rw [hval]
    cases readMsg (T.cfg utf8) flatOps l f.kind tag (o.asMsg ((T.cfg utf8).schema sid).default) s <;> rfl
  rcases staticSlot_cases (T := T) T.blank (T id).entry (List.mem_of_getElem? hg) with ⟨f', rfl, ho, e⟩ | ⟨-, e⟩
  · have hj0 : j = 0 := by
      cases j with
      | zero => rfl
      | succ j => simp at hj
    subst hj0
    simp only [List.getElem?_cons_zero, Option.some.injEq] at hj
    subst hj
    have hcur : curVal (T.cfg utf8) f'.kind M k = old := by
      unfold curVal
      rcases hold with ⟨h1, rfl⟩ | ⟨v, h1, rfl⟩ | ⟨j', v, h1, -, h3, -⟩
      · simp only [h1]; exact hz
      · simp only [h1]
      · exact absurd rfl h3
    rw [e, ← fin, ← hcur]
    simp only [DynField.card, hr, Bool.false_eq_true, if_false, hk]
    cases (T id).entry with
    | true =>
      cases e : f'.kind with
      | scalar sc => rw [e] at hk; cases hk
      | msg i => rfl
      | group i => rfl
    | false =>
      cases e : f'.kind with
      | scalar sc => rw [e] at hk; cases hk
      | msg i => rfl
      | group i => rfl
  · rw [e]
    simp only [readSlot, ha]
    cases e' : f.kind with
    | scalar sc => rw [e'] at hk; cases hk
    | msg i =>
      rw [e'] at fin hz
      rcases hold with ⟨h1, rfl⟩ | ⟨v, h1, rfl⟩ | ⟨j', v, h1, h2, -, rfl⟩
      · rw [← fin]; simp only [h1, hz]
      · rw [← fin]; simp only [h1, if_true]
      · rw [← fin]; simp only [h1, if_neg h2, hz]
    | group i =>
      rw [e'] at fin hz
      rcases hold with ⟨h1, rfl⟩ | ⟨v, h1, rfl⟩ | ⟨j', v, h1, h2, -, rfl⟩
      · rw [← fin]; simp only [h1, hz]
      · rw [← fin]; simp only [h1, if_true]
      · rw [← fin]; simp only [h1, if_neg h2, hz]

include hT

/-- Both readers read into messages that hold the same. -/
theorem target_reads (hR : T.Readable) {id k j sid : Nat} {g : List DynField} {f : DynField} {m : DynMsg} {M : Msg} (h : DynReads T id m M)
    (hg : (groupFields (T id).fields)[k]? = some g) (hj : g[j]? = some f) (hr : f.repeated = false)
    (hk : f.kind.msgType = some sid) :
    ∃ old r N, f.target T sid m = .ok r ∧ DynReads T sid r N ∧
      old.asMsg ((T.cfg utf8).schema sid).default = N ∧
      (M.get k = [] ∧ old = .msg ((T.cfg utf8).schema sid).default ∨
        (∃ v, M.get k = [(j, v)] ∧ old = v) ∨
        (∃ j' v, M.get k = [(j', v)] ∧ j' ≠ j ∧ g.length ≠ 1 ∧ old = .msg ((T.cfg utf8).schema sid).default)) := by
  have absent : f.hasValue m = false → f.target T sid m = .ok (T sid).empty := by
    intro hv
    simp [DynField.target, hv]
  rcases (dynReads_iff.1 h).2.2.2 k _ hg with ⟨j', f', v, h1, h2, h3, h4, -, h5⟩ | ⟨h1, h2⟩ | ⟨f', vs, h1, h2, -⟩
  · by_cases e : j' = j
    · subst e
      rw [hj] at h1
      cases h1
      obtain ⟨s, N, hv, rfl, hN⟩ := holdsValue_msg hk h4
      have := (value_msg_storage hr hk hv).2
      exact ⟨.msg N, s, N, by simp [DynField.target, h3, this], hN, rfl, Or.inr (Or.inl ⟨_, h5, rfl⟩)⟩
    · have hlen : g.length ≠ 1 := by
        intro hl
        have a := (List.getElem?_eq_some_iff.1 h1).1
        have b := (List.getElem?_eq_some_iff.1 hj).1
        omega
      exact ⟨_, _, _, absent (other_absent (hT id) hg hj h1 e hr h2 h3), empty_reads hT sid utf8, rfl,
        Or.inr (Or.inr ⟨j', v, h5, e, hlen, rfl⟩)⟩
  · have hv := (h1 f (List.mem_of_getElem? hj)).2
    rcases h2 with h2 | ⟨f', v, h3, -, h4, -⟩
    · rcases staticSlot_cases (T := T) T.blank (T id).entry (List.mem_of_getElem? hg) with ⟨f', rfl, ho, e⟩ | ⟨-, e⟩
      · have hj0 : j = 0 := by
          cases j with
          | zero => rfl
          | succ j => simp at hj
        subst hj0
        simp only [List.getElem?_cons_zero, Option.some.injEq] at hj
        subst hj
        rw [e] at h2
        simp only [DynField.card, hr, Bool.false_eq_true, if_false, hk] at h2
        cases he : (T id).entry with
        | false =>
          rw [he] at h2
          exact ⟨_, _, _, absent hv, empty_reads hT sid utf8, rfl, Or.inl ⟨h2, rfl⟩⟩
        | true =>
          rw [he] at h2
          obtain ⟨k', v', hfs, -, -, -, -, hko, hvo, -, -, hkm, -, -, hnest⟩ := hR.entries id he
          have hf : f' ∈ (T id).fields := mem_of_group (List.mem_of_getElem? hg) (by simp)
          rw [hfs] at hf
          simp only [List.mem_cons, List.not_mem_nil, or_false] at hf
          rcases hf with rfl | rfl
          · rw [hk] at hkm; cases hkm
          · have hb := blank_eq (utf8 := utf8) (hnest sid hk)
            refine ⟨.msg (T.blank sid), _, _, absent hv, empty_reads hT sid utf8, ?_, Or.inr (Or.inl ⟨_, h2, rfl⟩)⟩
            exact hb
      · rw [e] at h2
        exact ⟨_, _, _, absent hv, empty_reads hT sid utf8, rfl, Or.inl ⟨h2, rfl⟩⟩
    · subst h3
      have : f = f' := List.mem_singleton.1 (List.mem_of_getElem? hj)
      subst this
      rw [isDefault_message hk] at h4
      cases h4
  · subst h1
    have : f = f' := List.mem_singleton.1 (List.mem_of_getElem? hj)
    subst this
    rw [hr] at h2
    cases h2

section
variable {l : Level Flat} {dl : DynLevel Flat} (L : LevelSim T l dl)
include L

theorem msgField_sim (hR : T.Readable) {id k j sid : Nat} {g : List DynField} {f : DynField} {tag : BitVec 32}
    {m : DynMsg} {M : Msg} (h : DynReads T id m M)
    (hg : (groupFields (T id).fields)[k]? = some g) (hj : g[j]? = some f) (hr : f.repeated = false)
    (hk : f.kind.msgType = some sid)
    (ha : findAlt (tagNumber tag) (g.map fun f => (f.number, f.kind)) 0 = some (j, f.kind))
    (s : Flat) :
    DynSim (Rel T id s)
      (readSlot (T.cfg utf8) flatOps l .none tag k (staticSlot T T.blank (T id).entry g) M s)
      (dynSingular T utf8 flatOps dl f tag m s) := by
  obtain ⟨old, r, N, h1, h2, h3, h4⟩ := target_reads (utf8 := utf8) hT hR h hg hj hr hk
  rw [readSlot_msg hg hj hr hk ha l M s h4, h3]
  have hd : dynSingular T utf8 flatOps dl f tag m s = dynMsgField T flatOps dl f sid tag m s := by
    unfold dynSingular
    cases e : f.kind with
    | scalar sc => rw [e] at hk; cases hk
    | msg i => rw [e] at hk; cases hk; rfl
    | group i => rw [e] at hk; cases hk; rfl
  rw [hd]
  unfold dynMsgField
  rw [h1]
  show DynSim _ _ (dynMessage T flatOps dl f.kind tag r s >>= _)
  refine dsim_bind (message_sim hT L hR hk h2 tag s) ?_
  rintro ⟨s1, N1⟩ ⟨s1', r1⟩ ⟨⟨e1, e2, e3⟩, -⟩
  simp only at e1 e2 e3
  subst e1
  refine dsim_ok ⟨rfl, e2, h.present hT hg hj hr ?_ (fun _ => isDefault_message hk _ _)⟩
  unfold cellHolds
  cases e : f.kind with
  | scalar sc => rw [e] at hk; cases hk
  | msg i => rw [e] at hk; cases hk; exact ⟨_, _, rfl, rfl, e3⟩
  | group i => rw [e] at hk; cases hk; exact ⟨_, _, rfl, rfl, e3⟩

end

end

end HppProto
