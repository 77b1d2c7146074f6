import Verif.Model.Flat
/-! A validator that lets more strings through changes the result of reading only where the
stricter one gave `bad_message`. -/
namespace HppProto.Utf8Mono
open HppProto

/-- `x` is `y`, or the refusal of a string. -/
def Le {α} (x y : Res α) : Prop := x = y ∨ x = .err .badMessage

theorem le_refl {α} (x : Res α) : Le x x := .inl rfl

theorem le_bind {α β} {x y : Res α} {f g : α → Res β} (h : Le x y) (hf : ∀ a, Le (f a) (g a)) :
    Le (x >>= f) (y >>= g) := by
  rcases h with rfl | rfl
  · cases x with
    | ok a => exact hf a
    | err e => exact .inl rfl
    | ub => exact .inl rfl
    | throw => exact .inl rfl
    | stuck => exact .inl rfl
  · exact .inr rfl

theorem le_ite {α} {c : Prop} [Decidable c] {x y x' y' : Res α} (h1 : Le x x') (h2 : Le y y') :
    Le (if c then x else y) (if c then x' else y') := by
  split
  · exact h1
  · exact h2

structure LeL {σ} (l l' : Level σ) : Prop where
  msg : ∀ id m s, Le (l.msg id m s) (l'.msg id m s)
  grp : ∀ id n m s, Le (l.grp id n m s) (l'.grp id n m s)
  skipGrp : ∀ n s, Le (l.skipGrp n s) (l'.skipGrp n s)

variable {σ : Type} {S : Nat → MsgD} {f g : List Byte → Bool} {O : Ops σ}

theorem zero_eq (k : Kind) : k.zero ⟨S, f⟩ = k.zero ⟨S, g⟩ := by
  cases k with
  | scalar sc => cases sc <;> rfl
  | msg id => rfl
  | group id => rfl

theorem curVal_eq (k : Kind) (m : Msg) (i : Nat) : curVal ⟨S, f⟩ k m i = curVal ⟨S, g⟩ k m i := by
  unfold curVal
  rw [zero_eq (f := f) (g := g)]

section
variable (H : ∀ bs, f bs = true → g bs = true)
include H

theorem le_check {α} (u : Bool) (bs : List Byte) (x : Res α) :
    Le (if u && !f bs then .err .badMessage else x) (if u && !g bs then .err .badMessage else x) := by
  cases u
  · exact le_refl _
  · cases hf : f bs
    · exact .inr rfl
    · rw [H bs hf]; exact le_refl _

theorem le_readBytes (u s) : Le (readBytes ⟨S, f⟩ O u s) (readBytes ⟨S, g⟩ O u s) := by
  unfold readBytes
  exact le_bind (le_refl _) fun _ => le_ite (le_check H _ _ _) (le_bind (le_refl _) fun _ => le_check H _ _ _)

theorem le_readScalar (sc tag s) : Le (readScalar ⟨S, f⟩ O sc tag s) (readScalar ⟨S, g⟩ O sc tag s) := by
  unfold readScalar
  refine le_ite (le_refl _) ?_
  cases sc <;> first | exact le_refl _ | exact le_bind (le_readBytes H _ _) fun _ => le_refl _

theorem le_readClosed (sc tag s) : Le (readClosed ⟨S, f⟩ O sc tag s) (readClosed ⟨S, g⟩ O sc tag s) := by
  unfold readClosed
  exact le_bind (le_readScalar H _ _ _) fun _ => le_refl _
end

section
variable {l l' : Level σ} (L : LeL l l')
include L

theorem le_doSkip (tag s) : Le (doSkipField O l tag s) (doSkipField O l' tag s) := by
  unfold doSkipField
  refine le_ite (le_refl _) (le_ite (le_refl _) (le_ite (le_refl _) (le_ite (le_refl _) (le_ite (L.skipGrp _ _) ?_))))
  exact le_refl _

theorem le_skipGroupLoop (n) : ∀ fuel s, Le (skipGroupLoop O l n fuel s) (skipGroupLoop O l' n fuel s)
  | 0, _ => le_refl _
  | fuel + 1, s => by
    simp only [skipGroupLoop]
    refine le_ite (le_bind (le_refl _) fun a => le_ite (le_refl _) (le_ite (le_refl _) ?_)) (le_refl _)
    exact le_bind (le_doSkip L _ _) fun _ => le_skipGroupLoop n fuel _

theorem le_skipMatchLoop (tag) : ∀ fuel s, Le (skipMatchLoop O l tag fuel s) (skipMatchLoop O l' tag fuel s)
  | 0, _ => le_refl _
  | fuel + 1, s => by
    simp only [skipMatchLoop]
    refine le_bind (le_refl _) fun a => le_ite ?_ (le_refl _)
    exact le_bind (le_doSkip L _ _) fun _ => le_skipMatchLoop tag fuel _

theorem le_skipField (mode tag m s) : Le (skipField O l mode tag m s) (skipField O l' mode tag m s) := by
  unfold skipField skipFieldsMatchTag
  refine le_ite (le_bind (le_doSkip L _ _) fun _ => le_refl _) (le_bind (le_refl _) fun u => ?_)
  exact le_bind (le_bind (le_doSkip L _ _) fun _ => le_skipMatchLoop L _ _ _) fun _ => le_refl _

theorem le_count (tag) : ∀ fuel c s, Le (countUnpackedLoop O l tag fuel c s) (countUnpackedLoop O l' tag fuel c s)
  | 0, _, _ => le_refl _
  | fuel + 1, c, s => by
    simp only [countUnpackedLoop]
    refine le_bind (le_doSkip L _ _) fun a => le_ite (le_refl _) (le_bind (le_refl _) fun p => le_ite ?_ (le_refl _))
    exact le_count tag fuel _ _

theorem le_countGroups (tag) : ∀ fuel c s, Le (countGroupsLoop O l tag fuel c s) (countGroupsLoop O l' tag fuel c s)
  | 0, _, _ => le_refl _
  | fuel + 1, c, s => by
    simp only [countGroupsLoop]
    refine le_bind (L.skipGrp _ _) fun a => le_ite (le_refl _) (le_bind (le_refl _) fun p => le_ite ?_ (le_refl _))
    exact le_countGroups tag fuel _ _

theorem le_sized (id m s) : Le (sized ⟨S, f⟩ O l id m s) (sized ⟨S, g⟩ O l' id m s) := by
  unfold sized
  refine le_bind (le_refl _) fun a => le_ite (le_refl _) (le_ite ?_ (le_ite (L.msg _ _ _) (le_refl _)))
  exact le_bind (le_refl _) fun p => le_bind (L.msg _ _ _) fun _ => le_refl _

theorem le_readMsg (k tag m s) : Le (readMsg ⟨S, f⟩ O l k tag m s) (readMsg ⟨S, g⟩ O l' k tag m s) := by
  cases k
  · exact le_refl _
  · exact le_ite (le_sized L _ _ _) (le_refl _)
  · exact le_ite (L.grp _ _ _ _) (le_refl _)

omit L in
theorem le_elemLoop {e e' : Msg → σ → Res (σ × Msg)} (h : ∀ m s, Le (e m s) (e' m s)) :
    ∀ n m s, Le (elemLoop O e n m s) (elemLoop O e' n m s)
  | 0, _, _ => le_refl _
  | 1, m, s => h m s
  | n + 2, m, s => by
    simp only [elemLoop]
    exact le_bind (h _ _) fun _ => le_bind (le_refl _) fun _ => le_elemLoop h _ _ _

variable (H : ∀ bs, f bs = true → g bs = true)
include H

theorem le_readValue (k tag old s) : Le (readValue ⟨S, f⟩ O l k tag old s) (readValue ⟨S, g⟩ O l' k tag old s) := by
  cases k
  · exact le_bind (le_readScalar H _ _ _) fun _ => le_refl _
  · exact le_bind (le_readMsg L _ _ _ _) fun _ => le_refl _
  · exact le_bind (le_readMsg L _ _ _ _) fun _ => le_refl _

theorem le_readElem (mode k unique tag i m s) :
    Le (readElem ⟨S, f⟩ O l mode k unique tag i m s) (readElem ⟨S, g⟩ O l' mode k unique tag i m s) := by
  cases k
  · exact le_bind (le_readScalar H _ _ _) fun _ => le_refl _
  · exact le_bind (le_sized L _ _ _) fun _ => le_refl _
  · exact le_bind (L.grp _ _ _ _) fun _ => le_refl _

theorem le_readRepeated (mode number k unique tag i m s) :
    Le (readRepeated ⟨S, f⟩ O l mode number k unique tag i m s)
      (readRepeated ⟨S, g⟩ O l' mode number k unique tag i m s) := by
  cases k
  · refine le_ite (le_refl _) (le_ite (le_refl _) (le_bind (le_count L _ _ _ _) fun _ => ?_))
    exact le_elemLoop (le_readElem L H _ _ _ _ _) _ _ _
  · refine le_ite (le_refl _) (le_bind (le_count L _ _ _ _) fun _ => ?_)
    exact le_elemLoop (le_readElem L H _ _ _ _ _) _ _ _
  · refine le_ite (le_refl _) (le_bind (le_countGroups L _ _ _ _) fun _ => ?_)
    exact le_elemLoop (le_readElem L H _ _ _ _ _) _ _ _

theorem le_readSlot (mode tag i sd m s) :
    Le (readSlot ⟨S, f⟩ O l mode tag i sd m s) (readSlot ⟨S, g⟩ O l' mode tag i sd m s) := by
  cases sd with
  | field number k card =>
    have V : ∀ β (F : σ × Val → Res β),
        Le (readValue ⟨S, f⟩ O l k tag (curVal ⟨S, f⟩ k m i) s >>= F)
          (readValue ⟨S, g⟩ O l' k tag (curVal ⟨S, g⟩ k m i) s >>= F) := fun β F => by
      rw [curVal_eq (f := f) (g := g)]
      exact le_bind (le_readValue L H _ _ _ _) fun _ => le_refl _
    cases card with
    | implicit d => exact V _ _
    | always d =>
      cases k
      · exact le_bind (le_readClosed H _ _ _) fun _ => le_refl _
      · exact V _ _
      · exact V _ _
    | optional =>
      cases k
      · exact le_bind (le_readClosed H _ _ _) fun _ => le_refl _
      · exact V _ _
      · exact V _ _
    | repeated p => exact le_readRepeated L H _ _ _ _ _ _ _ _
    | map u => exact le_readRepeated L H _ _ _ _ _ _ _ _
  | oneof alts =>
    simp only [readSlot]
    cases findAlt (tagNumber tag) alts 0 with
    | none => exact le_refl _
    | some p =>
      obtain ⟨j, k⟩ := p
      cases k
      · exact le_bind (le_readClosed H _ _ _) fun _ => le_refl _
      · exact le_bind (le_readValue L H _ _ _ _) fun _ => le_refl _
      · exact le_bind (le_readValue L H _ _ _ _) fun _ => le_refl _

theorem le_readField (D tag m s) : Le (readField ⟨S, f⟩ O l D tag m s) (readField ⟨S, g⟩ O l' D tag m s) := by
  unfold readField
  refine le_ite (le_refl _) ?_
  cases D.find (tagNumber tag) with
  | none => exact le_ite (le_skipField L _ _ _ _) (le_refl _)
  | some i =>
    simp only
    cases D.slots[i]? with
    | none => exact le_refl _
    | some sd => exact le_readSlot L H _ _ _ _ _ _

theorem le_msgLoop (D) : ∀ fuel m s, Le (msgLoop ⟨S, f⟩ O l D fuel m s) (msgLoop ⟨S, g⟩ O l' D fuel m s)
  | 0, _, _ => le_refl _
  | fuel + 1, m, s => by
    simp only [msgLoop]
    refine le_ite (le_bind (le_refl _) fun a => le_bind (le_readField L H _ _ _ _) fun _ => ?_) (le_refl _)
    exact le_msgLoop D fuel _ _

theorem le_grpLoop (D n) : ∀ fuel m s, Le (grpLoop ⟨S, f⟩ O l D n fuel m s) (grpLoop ⟨S, g⟩ O l' D n fuel m s)
  | 0, _, _ => le_refl _
  | fuel + 1, m, s => by
    simp only [grpLoop]
    refine le_ite (le_bind (le_refl _) fun a => le_ite (le_refl _) (le_bind (le_readField L H _ _ _ _) fun _ => ?_)) (le_refl _)
    exact le_grpLoop D n fuel _ _

theorem le_msgBody (id m s) : Le (msgBody ⟨S, f⟩ O l id m s) (msgBody ⟨S, g⟩ O l' id m s) := by
  unfold msgBody
  refine le_ite (le_bind (le_refl _) fun _ => le_ite (le_refl _) ?_) ?_ <;> exact le_msgLoop L H _ _ _ _

end

theorem level_le (H : ∀ bs, f bs = true → g bs = true) : ∀ d, LeL (level ⟨S, f⟩ O d) (level ⟨S, g⟩ O d)
  | 0 => ⟨fun _ _ _ => .inl rfl, fun _ _ _ _ => .inl rfl, fun _ _ => .inl rfl⟩
  | d + 1 =>
    have L := level_le H d
    ⟨fun id m s => le_msgBody L H id m s, fun id n m s => le_grpLoop L H _ n _ m s, fun n s => le_skipGroupLoop L n _ s⟩

theorem parseOnto_le (H : ∀ bs, f bs = true → g bs = true) (limit id m buf) :
    Le (parseOnto ⟨S, f⟩ limit id m buf) (parseOnto ⟨S, g⟩ limit id m buf) :=
  le_bind ((level_le H (limit + 1)).msg _ _ _) fun _ => le_refl _

end HppProto.Utf8Mono
