import Verif.Proofs.JsonViews

/-!
# Claim C150: reading JSON into a non-owning message leaves other messages alone
-/

namespace HppProto.Props
open HppProto.JsonViews

/-- Whatever is read, and whether or not it is refused: a message of which the target is no part shows the same values afterwards at
the end of every path, although it may have shared parts with the target. -/
theorem C150_others (doc : Doc) (h : Heap) (target other : Nat) (ht : target < h.next) (live : Live h other)
    (apart : ¬Part h other target) (path : List Nat) (s : Nat) :
    look (readJson doc target h).1 other path s = look h other path s :=
  look_congr path other s fun b ⟨q, hq⟩ =>
    (readJson_inv doc target h ht).2.2 b (live q b hq) fun e => apart ⟨q, e ▸ hq⟩

/-- What the target consists of afterwards is the target and memory that was not in use before; so it shares nothing with other messages. -/
theorem C150_new (doc : Doc) (h : Heap) (target : Nat) (ht : target < h.next) (b : Nat)
    (hb : Part (readJson doc target h).1 target b) : (b = target ∨ h.next ≤ b) ∧ b < (readJson doc target h).1.next := by
  obtain ⟨path, hp⟩ := hb
  obtain ⟨i, k⟩ := readJson_inv doc target h ht
  exact part_new i path target b (.inl rfl) (Nat.lt_of_lt_of_le ht k.1) hp

/-- Nothing that the target held before shows: the result is the same as for a target that was empty. -/
theorem C150_forgets (doc : Doc) (h : Heap) (target : Nat) (o : Obj) :
    readJson doc target (h.put target o) = readJson doc target h := by
  unfold readJson
  congr 1
  simp only [Heap.put, Heap.mk.injEq, and_true]
  funext b
  split <;> simp_all

/-! ## Concrete cases -/

/-- Two messages, at 0 and 1, share the struct at 2 through pointer 7. -/
def sharing : Heap :=
  ⟨fun a => if a = 2 then ⟨fun s => if s = 0 then some 5 else none, fun _ => none⟩
    else if a < 2 then ⟨fun _ => none, fun t => if t = 7 then some 2 else none⟩ else Obj.fresh, 3⟩

theorem sharing_paths : ∀ path b, goTo sharing 1 path = some b → b = 1 ∨ b = 2
  | [], b, h => by cases h; exact .inl rfl
  | t :: path, b, h => by
    by_cases ht : t = 7
    · subst ht
      cases path with
      | nil => cases (show some 2 = some b from h); exact .inr rfl
      | cons u q => cases (show none = some b from h)
    · simp [goTo, sharing, ht] at h

example : (0 < sharing.next) ∧ Live sharing 1 ∧ ¬Part sharing 1 0 := by
  refine ⟨by decide, fun path b h => ?_, fun ⟨path, h⟩ => ?_⟩
  · rcases sharing_paths path b h with rfl | rfl <;> decide
  · rcases sharing_paths path 0 h with h | h <;> cases h

/-- The member is read into new memory, and the other message still shows 5. -/
example : look (readJson (.view 7 (.value 0 9 .done) .done) 0 sharing).1 0 [7] 0 = some 9 ∧
    look (readJson (.view 7 (.value 0 9 .done) .done) 0 sharing).1 1 [7] 0 = some 5 := by decide +kernel

/-- That the target is emptied first is needed: read into as it is, an `indirect_view` would change the other message. -/
example : look (readInto (.view 7 (.value 0 9 .done) .done) 0 sharing).1 1 [7] 0 = some 9 := by decide +kernel

end HppProto.Props
