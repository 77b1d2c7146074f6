import Verif.Proofs.JsonSafe
import Verif.Props.DynamicHistory

/-! # Writing any message: nothing undefined -/

namespace HppProto.Json
open HppProto HppProto.Spec HppProto.Props

theorem part_trans {T : DynTypes} {id sid tid : Nat} {m s t : DynMsg} (h : DynPart T id m sid s) (h' : DynPart T sid s tid t) :
    DynPart T id m tid t := by
  induction h' with
  | self => exact h
  | field _ hf hr hk hv ih => exact ih.field hf hr hk hv
  | element _ hf hr hk hv hs ih => exact ih.element hf hr hk hv hs

/-- Map entries whose values are messages have their value, at any depth. -/
def Complete (T : JTypes) (id : Nat) (m : DynMsg) : Prop :=
  ∀ sid s, DynPart T.dyn id m sid s → (T sid).entry = true → ∀ f, (T sid).fields[1]? = some f → ∀ t, f.ty = .msg t →
    f.dyn.hasValue s = true

theorem Complete.part {T : JTypes} {id sid : Nat} {m s : DynMsg} (h : Complete T id m) (hp : DynPart T.dyn id m sid s) :
    Complete T sid s := fun tid t ht => h tid t (part_trans hp ht)

def FineWriter (T : JTypes) (w : JWriter) : Prop :=
  ∀ ind id m, DynWF T.dyn False id m → Complete T id m → Fine (fun _ => True) (w ind id m)

theorem fine_mapRes {α β : Type} {g : α → Res β} : ∀ {xs : List α}, (∀ x ∈ xs, Fine (fun _ => True) (g x)) →
    Fine (fun _ => True) (mapRes g xs)
  | [], _ => trivial
  | x :: xs, h => (h x (by simp)).bind fun _ _ => (fine_mapRes fun y hy => h y (by simp [hy])).bind fun _ _ => trivial

theorem mapM_determinate {α : Type} : ∀ {vs : List (Option α)}, none ∉ vs → ∃ ws, vs.mapM id = some ws
  | [], _ => ⟨[], rfl⟩
  | none :: _, h => absurd (by simp) h
  | some v :: vs, h => by
    obtain ⟨ws, e⟩ := mapM_determinate (vs := vs) (fun hm => h (by simp [hm]))
    exact ⟨v :: ws, by simp [e]⟩

section
variable {T : JTypes} {G : Glaze} {o : JOpts} (hT : ∀ id, (T id).Ok T)
include hT

theorem value_shape {id : Nat} {f : JField} (hf : f ∈ (T id).fields) (hr : f.dyn.repeated = false) {m : DynMsg}
    (h : DynWF T.dyn False id m) :
    (f.dyn.kind.isNum = true → ∃ v, f.dyn.value m = .num v) ∧
    (f.dyn.kind.isStr = true → ∃ bs, f.dyn.value m = .str bs) ∧
    (∀ t, f.dyn.kind.msgType = some t → f.dyn.hasValue m = true → ∃ s, f.dyn.value m = .msg s ∧ DynWF T.dyn False t s) := by
  have hmem : f.dyn ∈ (T.dyn id).fields := dyn_mem (hT id) hf
  have hdef := h.defined (wf_dyn hT) hmem
  refine ⟨fun hk => ?_, fun hk => ?_, fun t hk hv => ?_⟩
  · simp only [DynField.value, hr, hk, Bool.false_eq_true, if_false, if_true, DynField.numValue] at hdef ⊢
    split
    · exact ⟨_, rfl⟩
    · rename_i hc
      rw [if_neg hc] at hdef
      split
      · exact ⟨_, rfl⟩
      · rename_i e
        rw [e] at hdef
        exact absurd rfl hdef
  · have hn : f.dyn.kind.isNum = false := by
      rcases kind_cases f.dyn.kind with ⟨h1, h2, h3⟩ | ⟨h1, h2, h3⟩ | ⟨h1, h2, h3⟩ <;> simp_all
    simp only [DynField.value, hr, hn, hk, Bool.false_eq_true, if_false, if_true, DynField.strValue] at hdef ⊢
    split
    · exact ⟨_, rfl⟩
    · rename_i hc
      rw [if_neg hc] at hdef
      split
      · exact ⟨_, rfl⟩
      · rename_i e
        rw [e] at hdef
        exact absurd rfl hdef
  · obtain ⟨h1, h2⟩ := msgType_plain hk
    have hval : f.dyn.value m = f.dyn.msgValue m := by simp [DynField.value, hr, h1, h2]
    rw [hval] at hdef ⊢
    unfold DynField.msgValue at hdef ⊢
    rw [if_pos hv] at hdef ⊢
    split at hdef
    · rename_i s e
      exact ⟨s, rfl, h.sub _ hmem (.inr hv) t hk s e⟩
    · exact absurd rfl hdef

variable {w : JWriter} (hw : FineWriter T w)
include hw

theorem fine_writeField {id : Nat} {f : JField} (hf : f ∈ (T id).fields) {m : DynMsg} (h : DynWF T.dyn False id m)
    (hc : Complete T id m) (hv : f.dyn.repeated = false → (∃ t, f.ty = .msg t) → f.dyn.hasValue m = true) (ind : Nat) (q : Bool) :
    Fine (fun _ => True) (writeField T G o w ind q f m) := by
  have hmem : f.dyn ∈ (T.dyn id).fields := dyn_mem (hT id) hf
  have htied := (hT id).tied f hf
  unfold JField.tied at htied
  unfold writeField
  split
  · rename_i hr
    have hval : f.dyn.value m = f.dyn.elements m := by simp [DynField.value, hr]
    obtain ⟨e1, e2, e3⟩ := elements_of hT hf hr h
    rw [← hval] at e1 e2 e3
    cases ht : f.ty with
    | msg t =>
      simp only [ht] at htied
      obtain ⟨ss, e, hs⟩ := e3 t htied
      rw [e]
      refine (fine_mapRes fun s hs' => hw _ t s (hs s hs') (hc.part (.element .self hmem hr htied e hs'))).bind fun _ _ => trivial
    | string | bytes =>
      simp only [ht] at htied
      obtain ⟨vs, e⟩ := e2 htied
      rw [e]
      trivial
    | int a b | float a | bool | enum E =>
      simp only [ht] at htied
      obtain ⟨vs, e, hn⟩ := e1 htied
      obtain ⟨ws, hws⟩ := mapM_determinate hn
      rw [e]
      simp only [hws]
      trivial
  · rename_i hr
    replace hr : f.dyn.repeated = false := by simpa using hr
    obtain ⟨e1, e2, e3⟩ := value_shape hT hf hr h
    cases ht : f.ty with
    | msg t =>
      simp only [ht] at htied
      obtain ⟨s, e, hs⟩ := e3 t htied (hv hr ⟨t, ht⟩)
      rw [e]
      exact hw _ t s hs (hc.part (.field .self hmem hr htied e))
    | string | bytes =>
      simp only [ht] at htied
      obtain ⟨vs, e⟩ := e2 htied
      rw [e]
      trivial
    | int a b | float a | bool | enum E =>
      simp only [ht] at htied
      obtain ⟨v, e⟩ := e1 htied
      rw [e]
      trivial

theorem fine_writeMembers {id : Nat} {m : DynMsg} (h : DynWF T.dyn False id m) (hc : Complete T id m) (ind : Nat) :
    ∀ {fs : List JField}, (∀ f ∈ fs, f ∈ (T id).fields) → Fine (fun _ => True) (writeMembers T G o w ind m fs)
  | [], _ => trivial
  | f :: fs, hfs => by
    unfold writeMembers
    split
    · rename_i hv
      exact (fine_writeField hT hw (hfs f (by simp)) h hc (fun _ _ => hv) ind false).bind fun _ _ =>
        (fine_writeMembers h hc ind fun g hg => hfs g (by simp [hg])).bind fun _ _ => trivial
    · exact fine_writeMembers h hc ind fun g hg => hfs g (by simp [hg])

theorem fine_writeEntryLoop {id : Nat} {m : DynMsg} (h : DynWF T.dyn False id m) (hc : Complete T id m) (ind : Nat) :
    ∀ {fs : List JField} (first : Bool), (∀ f ∈ fs, f ∈ (T id).fields) →
      Fine (fun _ => True) (writeEntryLoop T G o w ind m first fs)
  | [], _, _ => trivial
  | f :: fs, first, hfs => by
    unfold writeEntryLoop
    split
    · rename_i hv
      have one : Fine (fun _ => True) (writeEntryField T G o w ind first f m) := by
        unfold writeEntryField
        refine (fine_writeField hT hw (hfs f (by simp)) h hc (fun _ _ => hv) ind first).bind fun _ _ => ?_
        split <;> trivial
      exact one.bind fun _ _ => (fine_writeEntryLoop h hc ind false fun g hg => hfs g (by simp [hg])).bind fun _ _ => trivial
    · exact fine_writeEntryLoop h hc ind first fun g hg => hfs g (by simp [hg])

theorem fine_writeBody (hany : ∀ id, (T id).wk ≠ .any) : FineWriter T (writeBody T G o w) := by
  intro ind id m h hc
  have hD := hT id
  unfold writeBody
  simp only
  split
  · rename_i he
    unfold writeEntry
    obtain ⟨k, v, hfs, _, hv, _⟩ := hD.entries he
    have h1 : (T id).fields[1]? = some v := by rw [hfs]; rfl
    have hvm : v ∈ (T id).fields := by rw [hfs]; simp
    rw [h1]
    simp only
    have loop : Fine (fun _ => True) (writeEntryLoop T G o w ind m true (T id).fields) :=
      fine_writeEntryLoop hT hw h hc ind true fun g hg => hg
    have htied := hD.tied v hvm
    unfold JField.tied at htied
    cases ht : v.ty with
    | msg t =>
      simp only [ht] at htied
      obtain ⟨s, e, _⟩ := (value_shape hT hvm hv h).2.2 t htied (hc id m .self he v h1 t ht)
      rw [e]
      simp only
      split
      · trivial
      · exact loop
    | _ => exact loop
  · split
    · rename_i hwk; exact absurd hwk (hany id)
    · rename_i hwk
      obtain ⟨a, b, hfs, ta, tb, ra, rb, _⟩ := hD.timestamps (.inl hwk)
      have ha : a ∈ (T id).fields := by rw [hfs]; simp
      have hb : b ∈ (T id).fields := by rw [hfs]; simp
      have h1 := hD.tied a ha
      have h2 := hD.tied b hb
      simp only [JField.tied, ta, tb] at h1 h2
      obtain ⟨x, e1⟩ := (value_shape hT ha ra h).1 h1
      obtain ⟨y, e2⟩ := (value_shape hT hb rb h).1 h2
      unfold writeTwo
      rw [hfs]
      simp only [e1, e2]
      split <;> trivial
    · rename_i hwk
      obtain ⟨a, b, hfs, ta, tb, ra, rb, _⟩ := hD.timestamps (.inr hwk)
      have ha : a ∈ (T id).fields := by rw [hfs]; simp
      have hb : b ∈ (T id).fields := by rw [hfs]; simp
      have h1 := hD.tied a ha
      have h2 := hD.tied b hb
      simp only [JField.tied, ta, tb] at h1 h2
      obtain ⟨x, e1⟩ := (value_shape hT ha ra h).1 h1
      obtain ⟨y, e2⟩ := (value_shape hT hb rb h).1 h2
      unfold writeTwo
      rw [hfs]
      simp only [e1, e2]
      split <;> trivial
    · rename_i hwk
      obtain ⟨f, hfs, tf, rf⟩ := hD.masks hwk
      have hf : f ∈ (T id).fields := by rw [hfs]; simp
      have h1 := hD.tied f hf
      simp only [JField.tied, tf] at h1
      obtain ⟨vs, e⟩ := (elements_of hT hf rf h).2.1 h1
      have hval : f.dyn.value m = .strs vs := by simp [DynField.value, rf, e]
      unfold writeMask
      rw [hfs]
      simp only [hval]
      trivial
    · unfold writeAlternative
      split
      · trivial
      · simp only
        split
        · trivial
        · split
          · trivial
          · rename_i f hf
            split
            · rename_i hv
              exact fine_writeField hT hw (List.mem_of_getElem? hf) h hc (fun _ _ => hv) ind false
            · trivial
    · rename_i hwk
      obtain ⟨f, t, hfs, rf, _⟩ := hD.structs hwk
      rw [hfs]
      exact fine_writeField hT hw (by rw [hfs]; simp) h hc (fun h' => by rw [rf] at h'; cases h') ind false
    · rename_i hwk
      obtain ⟨f, t, hfs, rf, _⟩ := hD.lists hwk
      rw [hfs]
      exact fine_writeField hT hw (by rw [hfs]; simp) h hc (fun h' => by rw [rf] at h'; cases h') ind false
    · rename_i hwk
      obtain ⟨f, hfs, _⟩ := hD.wrappers hwk
      rw [hfs]
      simp only [List.getElem?_cons_zero]
      split
      · rename_i hv
        exact fine_writeField hT hw (by rw [hfs]; simp) h hc (fun _ _ => hv) ind false
      · trivial
    · unfold writeObject
      exact (fine_writeMembers hT hw h hc _ fun g hg => hg).bind fun _ _ => trivial

omit hw in
theorem fine_writeLevel (hany : ∀ id, (T id).wk ≠ .any) : ∀ d, FineWriter T (writeLevel T G o d)
  | 0 => fun _ _ _ _ _ => trivial
  | d + 1 => fine_writeBody hT (fine_writeLevel hany d) hany

end

end HppProto.Json
