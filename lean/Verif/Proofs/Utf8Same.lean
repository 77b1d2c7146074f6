import Verif.Proofs.ReadLevel
import Verif.Proofs.Utf8Mono
/-! Reading asks the validator about parts of the input only. -/
namespace HppProto.Utf8Same
open HppProto HppProto.Spec HppProto.Utf8Mono

variable {S : Nat → MsgD} {f g : List Byte → Bool} {Q : List Byte → Prop}

theorem recScalar_mono (G : ∀ v, Q v → f v = true → g v = true) (hQ : ∀ {a b}, a <:+: b → Q b → Q a) {sc : Scalar} {r : Rec}
    {w : Val} (q : Q r.raw) (h : recScalar ⟨S, f⟩ sc r = some w) : recScalar ⟨S, g⟩ sc r = some w := by
  cases r with
  | len t hd p v =>
    have qv : Q v := hQ ⟨hd ++ p, [], by simp [Rec.raw, Rec.head, Rec.payload]⟩ q
    cases sc with
    | str u =>
      cases u
      · exact h
      · cases hf : f v
        · simp [recScalar, hf] at h
        · simpa [recScalar, hf, G v qv hf] using h
    | _ => exact h
  | varint t hd v => cases sc <;> exact h
  | fixed t hd v => cases sc <;> exact h
  | group t hd b tl => cases h

/-- What is read one level down with `f` is read with `g`. -/
structure Below (Q : List Byte → Prop) (A B : Sem) : Prop where
  msg : ∀ {id m bs m'}, Q bs → A.msg id m bs m' → B.msg id m bs m'
  grp : ∀ {id m body m'}, Q (rawAll body) → A.grp id m body m' → B.grp id m body m'
  depth : A.depth = B.depth

section
variable {A B : Sem} (L : Below Q A B) (G : ∀ v, Q v → f v = true → g v = true) (hQ : ∀ {a b}, a <:+: b → Q b → Q a)
include L hQ

theorem recMsg_mono {k r m m'} (q : Q r.raw) (h : recMsg ⟨S, f⟩ A k r m m') : recMsg ⟨S, g⟩ B k r m m' := by
  cases k <;> cases r <;> first
    | exact h
    | exact ⟨h.1, L.msg (hQ ⟨_ ++ _, [], by simp [Rec.raw, Rec.head, Rec.payload]; rfl⟩ q) h.2⟩
    | exact L.grp (hQ ⟨_, _, by simp only [Rec.raw, Rec.head, Rec.payload, List.append_assoc]; rfl⟩ q) h

include G

theorem recValue_mono {k old r v} (q : Q r.raw) (h : recValue ⟨S, f⟩ A k old r v) : recValue ⟨S, g⟩ B k old r v := by
  cases k with
  | scalar sc => obtain ⟨w, h1, h2⟩ := h; exact ⟨w, recScalar_mono G hQ q h1, h2⟩
  | msg id => obtain ⟨w, h1, h2⟩ := h; exact ⟨w, recMsg_mono L hQ q h1, h2⟩
  | group id => obtain ⟨w, h1, h2⟩ := h; exact ⟨w, recMsg_mono L hQ q h1, h2⟩

theorem elem_mono {mode k u i r m m'} (q : Q r.raw) (h : elemStep ⟨S, f⟩ A mode k u i r m m') :
    elemStep ⟨S, g⟩ B mode k u i r m m' := by
  cases k with
  | scalar sc => obtain ⟨w, h1, h2⟩ := h; exact ⟨w, recScalar_mono G hQ q h1, h2⟩
  | msg id => obtain ⟨w, h1, h2⟩ := h; exact ⟨w, recMsg_mono L hQ q h1, h2⟩
  | group id => obtain ⟨w, h1, h2⟩ := h; exact ⟨w, recMsg_mono L hQ q h1, h2⟩

theorem rep_mono {mode n k u i r m m'} (q : Q r.raw) (h : repStep ⟨S, f⟩ A mode n k u i r m m') :
    repStep ⟨S, g⟩ B mode n k u i r m m' := by
  cases k <;> cases r <;> simp only [repStep] at h ⊢ <;> first
    | exact elem_mono L G hQ q h
    | (split
       · rename_i hp
         rwa [if_pos hp] at h
       · rename_i hp
         rw [if_neg hp] at h
         exact elem_mono L G hQ q h)

theorem slot_mono {mode i sd r m m'} (q : Q r.raw) (h : slotStep ⟨S, f⟩ A mode i sd r m m') :
    slotStep ⟨S, g⟩ B mode i sd r m m' := by
  cases sd with
  | field n k card =>
    have V : (∃ v, recValue ⟨S, f⟩ A k (curVal ⟨S, f⟩ k m i) r v ∧ m' = m.put i [(0, v)]) →
        ∃ v, recValue ⟨S, g⟩ B k (curVal ⟨S, g⟩ k m i) r v ∧ m' = m.put i [(0, v)] := by
      rintro ⟨v, h1, h2⟩
      rw [curVal_eq (g := g)] at h1
      exact ⟨v, recValue_mono L G hQ q h1, h2⟩
    cases card with
    | implicit d => exact V h
    | always d =>
      cases k with
      | scalar sc => obtain ⟨w, h1, h2⟩ := h; exact ⟨w, recScalar_mono G hQ q h1, h2⟩
      | msg id => exact V h
      | group id => exact V h
    | optional =>
      cases k with
      | scalar sc => obtain ⟨w, h1, h2⟩ := h; exact ⟨w, recScalar_mono G hQ q h1, h2⟩
      | msg id => exact V h
      | group id => exact V h
    | repeated p => exact rep_mono L G hQ q h
    | map u => exact rep_mono L G hQ q h
  | oneof alts =>
    obtain ⟨j, k, hj, h⟩ := h
    refine ⟨j, k, hj, ?_⟩
    cases k with
    | scalar sc => obtain ⟨w, h1, h2⟩ := h; exact ⟨w, recScalar_mono G hQ q h1, h2⟩
    | msg id => obtain ⟨v, h1, h2⟩ := h; exact ⟨v, recValue_mono L G hQ q h1, h2⟩
    | group id => obtain ⟨v, h1, h2⟩ := h; exact ⟨v, recValue_mono L G hQ q h1, h2⟩

theorem step_mono {D c r m m'} (q : Q r.raw) (h : step ⟨S, f⟩ A D c r m m') : step ⟨S, g⟩ B D c r m m' := by
  refine ⟨h.1, ?_⟩
  have h := h.2
  cases hf : D.find (tagNumber r.tag) with
  | none => rw [hf] at h; exact ⟨L.depth ▸ h.1, h.2⟩
  | some i =>
    rw [hf] at h
    obtain ⟨sd, h1, h2⟩ := h
    exact ⟨sd, h1, slot_mono L G hQ q h2⟩

theorem fold_mono {D} : ∀ {rs last m m'}, Q (rawAll rs) → fold ⟨S, f⟩ A D last rs m m' → fold ⟨S, g⟩ B D last rs m m'
  | [], _, _, _, _, h => h
  | r :: rs, _, _, _, q, ⟨m1, h1, h2⟩ =>
    ⟨m1, step_mono L G hQ (hQ ⟨[], rawAll rs, by simp [rawAll, Rec.raw]⟩ q) h1,
      fold_mono (hQ ⟨r.raw, [], by simp [rawAll, Rec.raw]⟩ q) h2⟩
end

theorem sem_mono (G : ∀ v, Q v → f v = true → g v = true) (hQ : ∀ {a b}, a <:+: b → Q b → Q a) :
    ∀ d, Below Q (sem ⟨S, f⟩ d) (sem ⟨S, g⟩ d)
  | 0 => ⟨fun _ h => h, fun _ h => h, rfl⟩
  | d + 1 =>
    have L := sem_mono G hQ d
    ⟨fun q ⟨rs, h1, h2, h3, h4⟩ => ⟨rs, h1, h2, h3, fold_mono L G hQ (h2 ▸ q) h4⟩, fun q h => fold_mono L G hQ q h, rfl⟩

theorem parseOnto_mono {buf : List Byte} (G : ∀ v, v <:+: buf → f v = true → g v = true) {limit id m m'}
    (h : parseOnto ⟨S, f⟩ limit id m buf = .ok m') : parseOnto ⟨S, g⟩ limit id m buf = .ok m' :=
  (parseOnto_iff _ _ _ _ _ _).2 ((sem_mono (Q := (· <:+: buf)) G (fun a b => a.trans b) _).msg (List.infix_refl _)
    ((parseOnto_iff _ _ _ _ _ _).1 h))

end HppProto.Utf8Same
