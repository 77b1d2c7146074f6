import Verif.Spec.FieldAccess
import Verif.Props.Dynamic
import Verif.Props.DynamicClone

/-! Helper lemmas for `Verif/Props/FieldAccess.lean`. -/

namespace HppProto.Access

open Spec

theorem find_some {D : NDesc} {r : Ref} {f : NField} (h : Finds D r f) : D.find r = some f := by
  obtain ⟨pre, post, e, hn, hp⟩ := h
  cases r with
  | byName s =>
    unfold NDesc.find
    rw [e, List.find?_eq_some_iff_append]
    exact ⟨by simpa [Names] using hn, pre, post, rfl, fun g hg => by simpa [Names] using hp g hg⟩
  | byNumber n =>
    unfold NDesc.find
    rw [e, List.find?_eq_some_iff_append]
    exact ⟨by simpa [Names] using hn, pre, post, rfl, fun g hg => by simpa [Names] using hp g hg⟩

theorem find_none {D : NDesc} {r : Ref} (h : ∀ f ∈ D.fields, ¬ Names r f) : D.find r = none := by
  cases r with
  | byName s =>
    unfold NDesc.find
    rw [List.find?_eq_none]
    exact fun f hf => by simpa [Names] using h f hf
  | byNumber n =>
    unfold NDesc.find
    rw [List.find?_eq_none]
    exact fun f hf => by simpa [Names] using h f hf

theorem Spec.Finds.mem {D : NDesc} {r : Ref} {f : NField} (h : Finds D r f) : f ∈ D.fields := by
  obtain ⟨pre, post, e, _⟩ := h
  rw [e]; simp

theorem valueOf_eq (values : List (List Byte × BitVec 64)) (s : List Byte) :
    valueOf values s = values.lookup s := by
  induction values with
  | nil => rfl
  | cons p ps ih =>
    unfold valueOf at ih ⊢
    rw [List.find?_cons, List.lookup_cons]
    by_cases h : p.1 = s
    · subst h; simp
    · have h' : ¬ s = p.1 := fun e => h e.symm
      simp only [beq_eq_false_iff_ne.2 h, beq_eq_false_iff_ne.2 h']
      exact ih

theorem nameOf_eq (values : List (List Byte × BitVec 64)) (v : BitVec 64) :
    nameOf values v = nameFor values v := by
  induction values with
  | nil => rfl
  | cons p ps ih =>
    unfold nameOf nameFor at ih ⊢
    rw [List.find?_cons, List.map_cons, List.lookup_cons]
    by_cases h : p.2 = v
    · subst h; simp
    · have h' : ¬ v = p.2 := fun e => h e.symm
      simp only [beq_eq_false_iff_ne.2 h, beq_eq_false_iff_ne.2 h']
      exact ih

theorem namesLoop_ok (values : List (List Byte × BitVec 64)) : ∀ (ss : List (List Byte)) (vs : List (BitVec 64)),
    ss.mapM (fun s => values.lookup s) = some vs → namesLoop values ss = (vs, true)
  | [], vs, h => by cases h; rfl
  | s :: ss, vs, h => by
    rw [List.mapM_cons] at h
    cases e : values.lookup s with
    | none => rw [e] at h; cases h
    | some v =>
      cases e' : ss.mapM (fun s => values.lookup s) with
      | none => rw [e, e'] at h; cases h
      | some ws =>
        rw [e, e'] at h
        cases h
        unfold namesLoop
        rw [valueOf_eq, e, namesLoop_ok values ss ws e']

theorem namesLoop_fail (values : List (List Byte × BitVec 64)) : ∀ (ss : List (List Byte)),
    ss.mapM (fun s => values.lookup s) = none → (namesLoop values ss).2 = false
  | [], h => by cases h
  | s :: ss, h => by
    rw [List.mapM_cons] at h
    unfold namesLoop
    rw [valueOf_eq]
    cases e : values.lookup s with
    | none => rfl
    | some v =>
      cases e' : ss.mapM (fun s => values.lookup s) with
      | some ws => rw [e, e'] at h; cases h
      | none => exact namesLoop_fail values ss e'

theorem namesOf_eq (values : List (List Byte × BitVec 64)) : ∀ (vs : List (Option (BitVec 64))),
    namesOf values vs = if none ∈ vs then none else some (vs.filterMap (·.map (nameFor values)))
  | [] => rfl
  | none :: vs => by simp [namesOf]
  | some v :: vs => by
    unfold namesOf
    rw [namesOf_eq values vs]
    by_cases h : none ∈ vs
    · simp [h]
    · simp [h, nameOf_eq]

theorem numTy_iff (k : FKind) (t : NumTy) : k.numTy = some t ↔ k ∈ kindsOf t := by
  cases k <;> cases t <;> decide

theorem settable_iff (f : NField) (a : Arg) (h : ¬ Odd f a) :
    settable f a = true ↔ Takes f a := by
  unfold settable
  unfold Odd at h
  unfold Takes
  cases hr : f.field.repeated <;> cases a <;>
    simp only [if_true, Bool.false_eq_true, if_false, argKinds, argIsList, and_true, and_false, iff_false,
      reduceCtorEq, Bool.true_eq_false, List.mem_singleton]
  all_goals first
    | (rw [← numTy_iff]; cases f.fkind <;> simp [settableOne, settableMany]; done)
    | (cases hk : f.fkind <;> simp_all [settableOne, settableMany]; done)
    | (exact absurd (Or.inr ⟨_, rfl⟩) h)

theorem kind_num {k : FKind} {t : NumTy} {kd : Kind} (h : k ∈ kindsOf t) (hf : kindFits k kd = true) :
    kd.isNum = true := by
  unfold kindFits at hf
  split at hf <;> first | rfl | exact absurd hf (by decide) | (cases t <;> simp [kindsOf] at h)

theorem kind_enum {kd : Kind} (hf : kindFits .enum kd = true) : kd.isNum = true := by
  unfold kindFits at hf
  split at hf <;> first | rfl | exact absurd hf (by decide) | (rename_i e; cases e)

theorem kind_str {k : FKind} {kd : Kind} (h : k = .string ∨ k = .bytes) (hf : kindFits k kd = true) :
    kd.isStr = true := by
  unfold kindFits at hf
  split at hf <;> first | rfl | exact absurd hf (by decide) | (simp at h)

theorem kind_msg {kd : Kind} (hf : kindFits .message kd = true) : ∃ id, kd.msgType = some id := by
  cases kd with
  | scalar s => cases s <;> simp [kindFits] at hf
  | msg id => exact ⟨id, rfl⟩
  | group id => exact ⟨id, rfl⟩

theorem chain_follows (T : DynTypes) (depth : Nat) (D : NDesc) : ∀ (cs : List Call) (m : DynMsg),
    Follows (Call.run T depth D) cs m (chain T depth D cs m)
  | [], m => .nil
  | c :: cs, m => by
    unfold chain
    rw [List.foldl_cons]
    have stop : ∀ o, (∀ m', o ≠ .ok m') → cs.foldl (andThen T depth D) o = o := by
      intro o ho
      induction cs with
      | nil => rfl
      | cons c' cs ih =>
        rw [List.foldl_cons]
        cases o with
        | ok m' => exact absurd rfl (ho m')
        | fail e m' => exact ih
        | undefined => exact ih
    show Follows _ _ _ (cs.foldl (andThen T depth D) (c.run T depth D m))
    cases e : c.run T depth D m with
    | ok m' => exact .ok e (chain_follows T depth D cs m')
    | fail er m' => rw [stop _ (by simp)]; exact .fail e
    | undefined => rw [stop _ (by simp)]; exact .undefined e

theorem setMsg_same {T : DynTypes} (hT : ∀ id, (T id).Ok) (hs : ∀ id, (T id).SingleMembers) {grow : Prop}
    {id : Nat} {m : DynMsg} (hw : DynWF T grow id m) {f : DynField} (hf : f ∈ (T id).fields)
    (single : f.repeated = false) {sid : Nat} (kind : f.kind.msgType = some sid) {v : DynMsg}
    (hv : DynWF T grow sid v) :
    ∃ d r, (∀ d', d ≤ d' → f.setMsg T d' v m = some (f.store m (f.layout.ordinal, .msg r))) ∧
      SameValues T sid r v := by
  obtain ⟨hn, hst⟩ := msgType_plain kind
  have key : ∃ old, DynWF T grow sid old ∧ ∀ d, f.setMsg T d v m =
      (cloneMsg T d sid old v).map fun r => f.store m (f.layout.ordinal, .msg r) := by
    by_cases h : f.hasValue m = true
    · have hfit := hw.fits f hf (Or.inr h)
      have hsub := hw.sub f hf (Or.inr h) sid kind
      have hord : (f.storage m).1 = f.layout.ordinal := by
        simpa [DynField.hasValue, slotHasValue, single] using h
      unfold DynField.fits at hfit
      rw [single] at hfit
      simp only [Bool.false_eq_true, if_false] at hfit
      cases e : (f.storage m).2 with
      | msg s => exact ⟨s, hsub s e, fun d => by simp only [DynField.setMsg, kind, h, if_true, e]⟩
      | zero => rw [e, kind] at hfit; simp [hord] at hfit
      | num v => rw [e] at hfit; simp [hn] at hfit
      | str v => rw [e] at hfit; simp [hst] at hfit
      | nums v => rw [e] at hfit; exact hfit.elim
      | strs v => rw [e] at hfit; exact hfit.elim
      | msgs v => rw [e] at hfit; exact hfit.elim
      | torn => rw [e] at hfit; exact hfit.elim
    · exact ⟨_, DynWF.empty hT sid, fun d => by simp [DynField.setMsg, kind, h]⟩
  obtain ⟨old, ho, e⟩ := key
  obtain ⟨d, r, h1, _, h3⟩ := clones_all hT hs hv old ho
  refine ⟨d, r, fun d' hd' => ?_, h3⟩
  rw [e, h1 d' hd']
  rfl

theorem msgsLoop_same {T : DynTypes} (hT : ∀ id, (T id).Ok) (hs : ∀ id, (T id).SingleMembers) {grow : Prop}
    {id : Nat} : ∀ (olds vs : List DynMsg), olds.length = vs.length →
    (∀ m ∈ olds, DynWF T grow id m) → (∀ v ∈ vs, DynWF T grow id v) →
    ∃ d rs, (∀ d', d ≤ d' → msgsLoop T d' id olds (vs.map fun v => (id, v)) = some (rs, true)) ∧
      rs.length = vs.length ∧
      ∀ (i : Nat) (r v : DynMsg), rs[i]? = some r → vs[i]? = some v → SameValues T id r v
  | [], [], _, _, _ => ⟨0, [], by simp [msgsLoop], rfl, by simp⟩
  | [], _ :: _, h, _, _ => by simp at h
  | _ :: _, [], h, _, _ => by simp at h
  | o :: olds, v :: vs, h, ho, hv => by
    obtain ⟨d1, rs, h1, h2, h4⟩ := msgsLoop_same hT hs olds vs (by simpa using h)
      (fun m hm => ho m (List.mem_cons_of_mem _ hm)) (fun m hm => hv m (List.mem_cons_of_mem _ hm))
    obtain ⟨d2, r, g1, _, g3⟩ :=
      clones_all hT hs (hv v (List.mem_cons_self ..)) o (ho o (List.mem_cons_self ..))
    refine ⟨max d1 d2, r :: rs, fun d' hd' => ?_, by simp [h2], ?_⟩
    · rw [List.map_cons]
      unfold msgsLoop
      rw [if_pos rfl, g1 d' (by omega), h1 d' (by omega)]
      rfl
    · intro i x y hx hy
      cases i with
      | zero => simp at hx hy; subst hx; subst hy; exact g3
      | succ i => exact h4 i x y (by simpa using hx) (by simpa using hy)

theorem resizeWith_length {α} (x : α) (n : Nat) (l : List α) : (resizeWith x n l).length = n := by
  unfold resizeWith
  rw [List.length_append, List.length_take, List.length_replicate]
  omega

/-- A repeated field is in no oneof, so the other fields are kept. -/
theorem follow_of_kept {D : DynDesc} (hD : D.Ok) {f : DynField} (hf : f ∈ D.fields)
    (hr : f.repeated = true) {m m' : DynMsg}
    (h : ∀ g ∈ D.fields, g ≠ f → g.hasValue m' = g.hasValue m ∧ g.value m' = g.value m) :
    Props.OthersFollow D f m m' := by
  intro g hg hne
  refine ⟨?_, fun _ => h g hg hne⟩
  rintro ⟨o, ho, _⟩
  rw [hD.singularMembers f hf hr] at ho
  cases ho

end HppProto.Access
