import Verif.Model.Flat
/-! A larger recursion limit changes the result only where the smaller one gave
`value_too_large`. -/
namespace HppProto

/-- `x` is `y`, or the refusal of a recursion scope. -/
def Res.Le {α} (x y : Res α) : Prop := x = y ∨ x = .err .valueTooLarge

theorem le_refl {α} (x : Res α) : x.Le x := .inl rfl

theorem le_bind {α β} {x y : Res α} {f g : α → Res β} (h : x.Le y) (hf : ∀ a, (f a).Le (g a)) :
    (x >>= f).Le (y >>= g) := by
  rcases h with rfl | rfl
  · cases x with
    | ok a => exact hf a
    | err e => exact .inl rfl
    | ub => exact .inl rfl
    | throw => exact .inl rfl
    | stuck => exact .inl rfl
  · exact .inr rfl

theorem le_ite {α} {c : Prop} [Decidable c] {x y x' y' : Res α} (h1 : x.Le x') (h2 : y.Le y') :
    (if c then x else y).Le (if c then x' else y') := by
  split
  · exact h1
  · exact h2

theorem Res.Le.trans {α} {x y z : Res α} (h1 : x.Le y) (h2 : y.Le z) : x.Le z := by
  rcases h1 with rfl | rfl
  · exact h2
  · exact .inr rfl

structure LeL {σ} (l l' : Level σ) : Prop where
  msg : ∀ id m s, (l.msg id m s).Le (l'.msg id m s)
  grp : ∀ id n m s, (l.grp id n m s).Le (l'.grp id n m s)
  skipGrp : ∀ n s, (l.skipGrp n s).Le (l'.skipGrp n s)

section
variable {σ : Type} {C : Cfg} {O : Ops σ} {l l' : Level σ} (L : LeL l l')
include L

theorem le_doSkip (tag s) : (doSkipField O l tag s).Le (doSkipField O l' tag s) := by
  unfold doSkipField
  refine le_ite (le_refl _) (le_ite (le_refl _) (le_ite (le_refl _) (le_ite (le_refl _) (le_ite (L.skipGrp _ _) ?_))))
  exact le_refl _

theorem le_skipGroupLoop (n) : ∀ fuel s, (skipGroupLoop O l n fuel s).Le (skipGroupLoop O l' n fuel s)
  | 0, _ => le_refl _
  | fuel + 1, s => by
    simp only [skipGroupLoop]
    refine le_ite (le_bind (le_refl _) fun a => le_ite (le_refl _) (le_ite (le_refl _) ?_)) (le_refl _)
    exact le_bind (le_doSkip L _ _) fun _ => le_skipGroupLoop n fuel _

theorem le_skipMatchLoop (tag) : ∀ fuel s, (skipMatchLoop O l tag fuel s).Le (skipMatchLoop O l' tag fuel s)
  | 0, _ => le_refl _
  | fuel + 1, s => by
    simp only [skipMatchLoop]
    refine le_bind (le_refl _) fun a => le_ite ?_ (le_refl _)
    exact le_bind (le_doSkip L _ _) fun _ => le_skipMatchLoop tag fuel _

theorem le_skipField (mode tag m s) : (skipField O l mode tag m s).Le (skipField O l' mode tag m s) := by
  unfold skipField skipFieldsMatchTag
  refine le_ite (le_bind (le_doSkip L _ _) fun _ => le_refl _) (le_bind (le_refl _) fun u => ?_)
  exact le_bind (le_bind (le_doSkip L _ _) fun _ => le_skipMatchLoop L _ _ _) fun _ => le_refl _

theorem le_count (tag) : ∀ fuel c s, (countUnpackedLoop O l tag fuel c s).Le (countUnpackedLoop O l' tag fuel c s)
  | 0, _, _ => le_refl _
  | fuel + 1, c, s => by
    simp only [countUnpackedLoop]
    refine le_bind (le_doSkip L _ _) fun a => le_ite (le_refl _) (le_bind (le_refl _) fun p => le_ite ?_ (le_refl _))
    exact le_count tag fuel _ _

theorem le_countGroups (tag) : ∀ fuel c s, (countGroupsLoop O l tag fuel c s).Le (countGroupsLoop O l' tag fuel c s)
  | 0, _, _ => le_refl _
  | fuel + 1, c, s => by
    simp only [countGroupsLoop]
    refine le_bind (L.skipGrp _ _) fun a => le_ite (le_refl _) (le_bind (le_refl _) fun p => le_ite ?_ (le_refl _))
    exact le_countGroups tag fuel _ _

theorem le_sized (id m s) : (sized C O l id m s).Le (sized C O l' id m s) := by
  unfold sized
  refine le_bind (le_refl _) fun a => le_ite (le_refl _) (le_ite ?_ (le_ite (L.msg _ _ _) (le_refl _)))
  exact le_bind (le_refl _) fun p => le_bind (L.msg _ _ _) fun _ => le_refl _

theorem le_readMsg (k tag m s) : (readMsg C O l k tag m s).Le (readMsg C O l' k tag m s) := by
  cases k
  · exact le_refl _
  · exact le_ite (le_sized L _ _ _) (le_refl _)
  · exact le_ite (L.grp _ _ _ _) (le_refl _)

theorem le_readValue (k tag old s) : (readValue C O l k tag old s).Le (readValue C O l' k tag old s) := by
  cases k
  · exact le_refl _
  · exact le_bind (le_readMsg L _ _ _ _) fun _ => le_refl _
  · exact le_bind (le_readMsg L _ _ _ _) fun _ => le_refl _

theorem le_readElem (mode k unique tag i m s) :
    (readElem C O l mode k unique tag i m s).Le (readElem C O l' mode k unique tag i m s) := by
  cases k
  · exact le_refl _
  · exact le_bind (le_sized L _ _ _) fun _ => le_refl _
  · exact le_bind (L.grp _ _ _ _) fun _ => le_refl _

omit L in
theorem le_elemLoop {e e' : Msg → σ → Res (σ × Msg)} (h : ∀ m s, (e m s).Le (e' m s)) :
    ∀ n m s, (elemLoop O e n m s).Le (elemLoop O e' n m s)
  | 0, _, _ => le_refl _
  | 1, m, s => h m s
  | n + 2, m, s => by
    simp only [elemLoop]
    exact le_bind (h _ _) fun _ => le_bind (le_refl _) fun _ => le_elemLoop h _ _ _

theorem le_readRepeated (mode number k unique tag i m s) :
    (readRepeated C O l mode number k unique tag i m s).Le (readRepeated C O l' mode number k unique tag i m s) := by
  cases k
  · refine le_ite (le_refl _) (le_ite (le_refl _) (le_bind (le_count L _ _ _ _) fun _ => ?_))
    exact le_elemLoop (le_readElem L _ _ _ _ _) _ _ _
  · refine le_ite (le_refl _) (le_bind (le_count L _ _ _ _) fun _ => ?_)
    exact le_elemLoop (le_readElem L _ _ _ _ _) _ _ _
  · refine le_ite (le_refl _) (le_bind (le_countGroups L _ _ _ _) fun _ => ?_)
    exact le_elemLoop (le_readElem L _ _ _ _ _) _ _ _

theorem le_readSlot (mode tag i sd m s) :
    (readSlot C O l mode tag i sd m s).Le (readSlot C O l' mode tag i sd m s) := by
  cases sd with
  | field number k card =>
    cases card with
    | implicit d => exact le_bind (le_readValue L _ _ _ _) fun _ => le_refl _
    | always d =>
      cases k
      · exact le_refl _
      · exact le_bind (le_readValue L _ _ _ _) fun _ => le_refl _
      · exact le_bind (le_readValue L _ _ _ _) fun _ => le_refl _
    | optional =>
      cases k
      · exact le_refl _
      · exact le_bind (le_readValue L _ _ _ _) fun _ => le_refl _
      · exact le_bind (le_readValue L _ _ _ _) fun _ => le_refl _
    | repeated p => exact le_readRepeated L _ _ _ _ _ _ _ _
    | map u => exact le_readRepeated L _ _ _ _ _ _ _ _
  | oneof alts =>
    simp only [readSlot]
    cases findAlt (tagNumber tag) alts 0 with
    | none => exact le_refl _
    | some p =>
      obtain ⟨j, k⟩ := p
      cases k
      · exact le_refl _
      · exact le_bind (le_readValue L _ _ _ _) fun _ => le_refl _
      · exact le_bind (le_readValue L _ _ _ _) fun _ => le_refl _

theorem le_readField (D tag m s) : (readField C O l D tag m s).Le (readField C O l' D tag m s) := by
  unfold readField
  refine le_ite (le_refl _) ?_
  cases D.find (tagNumber tag) with
  | none => exact le_ite (le_skipField L _ _ _ _) (le_refl _)
  | some i =>
    simp only
    cases D.slots[i]? with
    | none => exact le_refl _
    | some sd => exact le_readSlot L _ _ _ _ _ _

theorem le_msgLoop (D) : ∀ fuel m s, (msgLoop C O l D fuel m s).Le (msgLoop C O l' D fuel m s)
  | 0, _, _ => le_refl _
  | fuel + 1, m, s => by
    simp only [msgLoop]
    refine le_ite (le_bind (le_refl _) fun a => le_bind (le_readField L _ _ _ _) fun _ => ?_) (le_refl _)
    exact le_msgLoop D fuel _ _

theorem le_grpLoop (D n) : ∀ fuel m s, (grpLoop C O l D n fuel m s).Le (grpLoop C O l' D n fuel m s)
  | 0, _, _ => le_refl _
  | fuel + 1, m, s => by
    simp only [grpLoop]
    refine le_ite (le_bind (le_refl _) fun a => le_ite (le_refl _) (le_bind (le_readField L _ _ _ _) fun _ => ?_)) (le_refl _)
    exact le_grpLoop D n fuel _ _

theorem le_msgBody (id m s) : (msgBody C O l id m s).Le (msgBody C O l' id m s) := by
  unfold msgBody
  refine le_ite (le_bind (le_refl _) fun _ => le_ite (le_refl _) ?_) ?_ <;> exact le_msgLoop L _ _ _ _

end

theorem level_le {σ} (C : Cfg) (O : Ops σ) : ∀ d, LeL (level C O d) (level C O (d + 1))
  | 0 => ⟨fun _ _ _ => .inr rfl, fun _ _ _ _ => .inr rfl, fun _ _ => .inr rfl⟩
  | d + 1 =>
    have L := level_le C O d
    ⟨fun id m s => le_msgBody L id m s, fun id n m s => le_grpLoop L _ n _ m s, fun n s => le_skipGroupLoop L n _ s⟩

theorem parseOnto_le (C : Cfg) {a b : Nat} (h : a ≤ b) (id m buf) :
    (parseOnto C a id m buf).Le (parseOnto C b id m buf) := by
  induction h with
  | refl => exact le_refl _
  | @step b _ ih => exact ih.trans (le_bind ((level_le C flatOps (b + 1)).msg _ _ _) fun _ => le_refl _)

end HppProto
