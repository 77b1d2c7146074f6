import Verif.Model.DynamicRead
/-! Dynamic messages: a validator that lets more strings through changes the result of reading
only where the stricter one gave `illegal_byte_sequence`. -/
namespace HppProto.Utf8Dynamic
open HppProto

/-- `x` is `y`, or the refusal of a string. -/
def Le {α} (x y : Res α) : Prop := x = y ∨ x = .err .illegalByteSequence

theorem le_refl {α} (x : Res α) : Le x x := .inl rfl

theorem le_bind {α β} {x y : Res α} {f g : α → Res β} (h : Le x y) (hf : ∀ a, Le (f a) (g a)) :
    Le (x >>= f) (y >>= g) := by
  rcases h with rfl | rfl
  · cases x with
    | ok a => exact hf a
    | err e => exact .inl rfl
    | ub => exact .inl rfl
    | throw => exact .inl rfl
    | stuck => exact .inl rfl
  · exact .inr rfl

theorem le_ite {α} {c : Prop} [Decidable c] {x y x' y' : Res α} (h1 : Le x x') (h2 : Le y y') :
    Le (if c then x else y) (if c then x' else y') := by
  split
  · exact h1
  · exact h2

structure LeD {σ} (l l' : DynLevel σ) : Prop where
  msg : ∀ id m s, Le (l.msg id m s) (l'.msg id m s)
  grp : ∀ id n m s, Le (l.grp id n m s) (l'.grp id n m s)
  skip : l.skip = l'.skip

variable {σ : Type} {T : DynTypes} {f g : List Byte → Bool} {O : Ops σ} {l l' : DynLevel σ}

theorem le_bytes (H : ∀ bs, f bs = true → g bs = true) (u tag s) : Le (dynBytes f O u tag s) (dynBytes g O u tag s) := by
  unfold dynBytes
  refine le_ite (le_refl _) (le_bind (le_refl _) fun _ => le_ite (le_refl _) (le_bind (le_refl _) fun a => ?_))
  cases u
  · exact le_refl _
  · cases hf : f a.2
    · exact .inr (by simp [hf])
    · exact .inl (by simp [hf, H _ hf])

theorem le_fillLoop {α : Type} {e e' : α → σ → Res (σ × Option α)} (h : ∀ x s, Le (e x s) (e' x s)) :
    ∀ c i vs s, Le (fillLoop O e c i vs s) (fillLoop O e' c i vs s)
  | 0, _, _, _ => le_refl _
  | c + 1, i, vs, s => by
    simp only [fillLoop]
    cases vs[i]? with
    | none => exact le_refl _
    | some x =>
      exact le_bind (h _ _) fun _ => le_ite (le_refl _) (le_bind (le_refl _) fun _ => le_fillLoop h _ _ _ _)

section
variable (L : LeD l l')
include L

theorem count_eq (k tag s) : dynCountElems O l k tag s = dynCountElems O l' k tag s := by
  unfold dynCountElems
  rw [L.skip]

theorem le_sized (id m s) : Le (dynSized T O l id m s) (dynSized T O l' id m s) := by
  unfold dynSized
  refine le_bind (le_refl _) fun a => le_ite (le_refl _) (le_ite ?_ (le_ite (L.msg _ _ _) (le_refl _)))
  exact le_bind (le_refl _) fun p => le_bind (L.msg _ _ _) fun _ => le_refl _

theorem le_message (k tag m s) : Le (dynMessage T O l k tag m s) (dynMessage T O l' k tag m s) := by
  cases k
  · exact le_refl _
  · exact le_ite (le_bind (le_sized L _ _ _) fun _ => le_refl _) (le_refl _)
  · exact le_ite (L.grp _ _ _ _) (le_refl _)

theorem le_msgField (F id tag m s) : Le (dynMsgField T O l F id tag m s) (dynMsgField T O l' F id tag m s) :=
  le_bind (le_refl _) fun _ => le_bind (le_message L _ _ _ _) fun _ => le_refl _

theorem le_msgs (F id tag m s) : Le (dynMsgs T O l F id tag m s) (dynMsgs T O l' F id tag m s) := by
  unfold dynMsgs
  rw [count_eq L]
  refine le_bind (le_refl _) fun _ => le_bind (le_fillLoop (fun x s => ?_) _ _ _ _) fun _ => le_refl _
  exact le_bind (le_message L _ _ _ _) fun _ => le_refl _

theorem nums_eq (F sc tag m s) : dynUnpackedNums O l F sc tag m s = dynUnpackedNums O l' F sc tag m s := by
  unfold dynUnpackedNums
  rw [count_eq L]

variable (H : ∀ bs, f bs = true → g bs = true)
include H

theorem le_strs (F u tag m s) : Le (dynStrs f O l F u tag m s) (dynStrs g O l' F u tag m s) := by
  unfold dynStrs
  rw [count_eq L]
  refine le_bind (le_refl _) fun _ => le_bind (le_fillLoop (fun x s => ?_) _ _ _ _) fun _ => le_refl _
  exact le_bind (le_bytes H _ _ _) fun _ => le_refl _

theorem le_singular (F tag m s) : Le (dynSingular T f O l F tag m s) (dynSingular T g O l' F tag m s) := by
  unfold dynSingular
  cases F.kind with
  | scalar sc =>
    cases sc <;> first | exact le_refl _ | exact le_bind (le_bytes H _ _ _) fun _ => le_refl _
  | msg id => exact le_msgField L _ _ _ _ _
  | group id => exact le_msgField L _ _ _ _ _

theorem le_repeated (F tag m s) : Le (dynRepeated T f O l F tag m s) (dynRepeated T g O l' F tag m s) := by
  unfold dynRepeated
  cases F.kind with
  | scalar sc =>
    cases sc <;> first
      | exact le_strs L H _ _ _ _ _
      | exact le_ite (.inl (nums_eq L _ _ _ _ _)) (le_refl _)
  | msg id => exact le_msgs L _ _ _ _ _
  | group id => exact le_msgs L _ _ _ _ _

theorem le_field (D tag m s) : Le (dynField T f O l D tag m s) (dynField T g O l' D tag m s) := by
  unfold dynField
  refine le_ite (le_refl _) ?_
  cases D.fields.find? (fun f => f.number == tagNumber tag) with
  | none => rw [L.skip]; exact le_refl _
  | some F => exact le_ite (le_repeated L H _ _ _ _) (le_singular L H _ _ _ _)

theorem le_loop (D) : ∀ fuel m s, Le (dynLoop T f O l D fuel m s) (dynLoop T g O l' D fuel m s)
  | 0, _, _ => le_refl _
  | fuel + 1, m, s => by
    simp only [dynLoop]
    refine le_ite (le_bind (le_refl _) fun a => le_bind (le_field L H _ _ _ _) fun _ => ?_) (le_refl _)
    exact le_loop D fuel _ _

theorem le_grpLoop (D n) : ∀ fuel m s, Le (dynGrpLoop T f O l D n fuel m s) (dynGrpLoop T g O l' D n fuel m s)
  | 0, _, _ => le_refl _
  | fuel + 1, m, s => by
    simp only [dynGrpLoop]
    refine le_ite (le_bind (le_refl _) fun a => le_ite (le_refl _) (le_bind (le_field L H _ _ _ _) fun _ => ?_)) (le_refl _)
    exact le_grpLoop D n fuel _ _

theorem le_body (id m s) : Le (dynBody T f O l id m s) (dynBody T g O l' id m s) := by
  unfold dynBody
  refine le_ite (le_bind (le_refl _) fun _ => le_ite (le_refl _) ?_) ?_ <;> exact le_loop L H _ _ _ _

end

theorem level_le (H : ∀ bs, f bs = true → g bs = true) : ∀ d, LeD (dynLevel T f O d) (dynLevel T g O d)
  | 0 => ⟨fun _ _ _ => .inl rfl, fun _ _ _ _ => .inl rfl, rfl⟩
  | d + 1 =>
    have L := level_le H d
    ⟨fun id m s => le_body L H id m s, fun id n m s => le_grpLoop L H _ n _ m s, rfl⟩

theorem read_le (H : ∀ bs, f bs = true → g bs = true) (limit id old buf) :
    Le (dynRead T f limit id old buf) (dynRead T g limit id old buf) :=
  le_bind ((level_le H (limit + 1)).msg _ _ _) fun _ => le_refl _

end HppProto.Utf8Dynamic
