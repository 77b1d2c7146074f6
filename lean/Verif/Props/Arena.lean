import Verif.Proofs.Arena
/-!
# Claim C39: arena vectors behave like sequences

`Spec.seqRun` is the history of a plain list; `Spec.seqLegal` the precondition of each call.
`Arena.run … = none` stands for an access outside a block.

Missing for the full claim: `reserve n` on a vector that has obtained no storage of its own
yet, with `n` smaller than its size. Then the code leaves a view larger than its
storage (`C39_reserve_overrun`), so the full claim is false of it.
-/
namespace HppProto.Props
open HppProto Spec

/-- From any view `l` of existing memory, every legal history runs without leaving a block, ends
with the contents of the plain sequence, and leaves all memory that existed before untouched. -/
theorem C39_sequence_partial {γ : Type} {sz : Nat} (hsz : 0 < sz) (dflt : Option γ) (dec : List (BitVec 8) → γ)
    (H0 : Heap γ) (ptr : Option (Nat × Nat)) (n : Nat) (l : List (Option γ))
    (hview : (Arena.make H0 ptr n).contents = some l) (ops : List (ArenaOp γ))
    (hlegal : seqLegal sz dflt dec l false ops = true) :
    ∃ s, (Arena.make H0 ptr n).run sz dflt dec ops = some s ∧
      s.contents = some (seqRun sz dflt dec l ops) ∧
      s.viewSize = (seqRun sz dflt dec l ops).length ∧
      ∀ b, b < H0.length → s.heap[b]? = H0[b]? := by
  have hsize := contents_size hview
  have hinv : ArenaInv H0 (Arena.make H0 ptr n) l false :=
    ⟨⟨Nat.le_refl _, fun _ _ => rfl⟩, hview, hsize, .inl ⟨rfl, rfl, rfl⟩⟩
  obtain ⟨s, h1, h2⟩ := run_inv' hsz ops hinv hlegal
  obtain ⟨st, h2⟩ := h2
  exact ⟨s, h1, h2.contents, h2.size, h2.foreign.2⟩

/-- A view of three bytes of existing memory; the vector grows past them, shrinks, appends a
part of itself, takes raw bytes, and is assigned from its own middle. -/
def arenaDemo : List (ArenaOp (BitVec 8)) :=
  [.pushBack (some 9#8), .resize 2, .reserve 10, .append (.own 1 1), .appendRaw [7#8, 8#8], .assign (.own 1 3),
   .resize 5, .clear, .reserve 0, .append (.ext [some 1#8]), .pushBack none]

def arenaHeap : Heap (BitVec 8) := [[some 0#8, some 1#8, some 2#8, some 3#8]]

example : (Arena.make arenaHeap (some (0, 1)) 3).contents = some [some 1#8, some 2#8, some 3#8] := by decide
example : seqLegal 1 none (fun bs => bs.headD 0#8) [some 1#8, some 2#8, some 3#8] false arenaDemo = true := by decide
example : seqRun 1 none (fun bs => bs.headD 0#8) [some 1#8, some 2#8, some 3#8] (arenaDemo.take 7) =
    [some 2#8, some 2#8, some 7#8, none, none] := by decide

/-- The call left out: `reserve n` with `0 < n` less than the size, before the vector has storage
of its own, leaves a view that extends past the storage. -/
theorem C39_reserve_overrun {γ : Type} {sz : Nat} (hsz : 0 < sz) (H0 : Heap γ) (ptr : Option (Nat × Nat)) (m : Nat)
    (l : List (Option γ)) (hview : (Arena.make H0 ptr m).contents = some l) (n : Nat) (hn : 0 < n) (hlt : n < m)
    (hfit : n * sz < 2 ^ 64) (dflt : Option γ) (dec : List (BitVec 8) → γ) :
    ∃ s, (Arena.make H0 ptr m).step sz dflt dec (.reserve n) = some s ∧ s.viewSize = m ∧ s.contents = none := by
  obtain ⟨s', h1, h2, h3⟩ := fresh_put (s := Arena.make H0 ptr m) (H0 := H0) ⟨Nat.le_refl _, fun _ _ => rfl⟩ hsz hfit hn
    (l.take n) (by simp; omega)
  refine ⟨s'.setView m, ?_, rfl, ?_⟩
  · simp only [Arena.step, Arena.reserve]
    rw [if_pos (by exact hn)]
    simp only [hview, h1, Option.map_some]; rfl
  · have hv : (s'.setView m).viewPtr = some (H0.length, 0) := by
      simp only [Arena.setView, h2.data]; rfl
    have hb : (s'.setView m).heap[H0.length]? = some (l.take n ++ List.replicate (n - (l.take n).length) none) := h2.block
    have hlen := h2.len
    simp only [Arena.contents, hv, Heap.read, hb]
    rw [if_neg]
    show ¬ 0 + m ≤ _
    omega

example : ∃ s, (Arena.make arenaHeap (some (0, 1)) 3).step 1 none (fun bs => bs.headD 0#8) (.reserve 2) = some s ∧
    s.viewSize = 3 ∧ s.contents = none :=
  C39_reserve_overrun (by decide) _ _ 3 [some 1#8, some 2#8, some 3#8] (by decide) 2 (by decide) (by decide) (by decide) _ _

end HppProto.Props
