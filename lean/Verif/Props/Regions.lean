import Verif.Proofs.RegFinal
import Verif.Props.Read
import Verif.Proofs.RegAppend
/-!
# Claims C16, C17: segmented input, and the bytes the reader looks at

`readSegments C limit id old segs` is `read_binpb(msg, segments)` and `readContiguous` is
`read_binpb(msg, buffer)`, both run on the machine of overlapping regions of
`Verif/Model/Regions.lean`: pointers are (buffer, offset) pairs, the buffers are the
caller's segments and the patch buffer the reader allocates, and looking at an offset
outside the buffer, or at a byte of the patch buffer never written, gives `.ub`.
`readBinpb` reads the same bytes from a plain list.
-/
namespace HppProto.Props
open HppProto HppProto.Spec

/-! ## C16 -/

/-- C16. However the input is cut into segments (none at all, empty ones, short ones), reading
the segments gives a message exactly when reading their concatenation does, and the same
message. -/
theorem C16_segments (C : Cfg) (limit id : Nat) (old : Msg) (segs : List (List Byte)) (m : Msg) :
    readSegments C limit id old segs = .ok m ↔ readBinpb C limit id old segs.flatten = .ok m :=
  (segments_agree C limit id old segs).2 m

/-- C16. The outcome is of the same class: both give a message or both give an error. (A
closed-enum member in a oneof makes the reader throw, `C18_throws`.) -/
theorem C16_status (C : Cfg) (hC : noClosedOneof C) (limit id : Nat) (old : Msg) (segs : List (List Byte)) :
    (∃ e, readSegments C limit id old segs = .err e) ↔ ∃ e, readBinpb C limit id old segs.flatten = .err e := by
  have hn := (noClosed_iff C).1 hC
  obtain ⟨⟨h1, h2, h3⟩, h4⟩ := segments_agree C limit id old segs
  obtain ⟨f1, f2, f3⟩ := parseOnto_fine C limit id ((C.schema id).reset old) segs.flatten
  change readBinpb C limit id old segs.flatten ≠ _ at f1 f2
  change readBinpb C limit id old segs.flatten = _ → _ at f3
  constructor
  · rintro ⟨e, he⟩
    cases h : readBinpb C limit id old segs.flatten with
    | ok m => rw [(h4 m).2 h] at he; cases he
    | err e => exact ⟨e, rfl⟩
    | throw => exact absurd (f3 h) hn
    | ub => exact absurd h f1
    | stuck => exact absurd h f2
  · rintro ⟨e, he⟩
    cases h : readSegments C limit id old segs with
    | ok m => rw [(h4 m).1 h] at he; cases he
    | err e => exact ⟨e, rfl⟩
    | throw => exact absurd (h3 h) hn
    | ub => exact absurd h h1
    | stuck => exact absurd h h2

/-- C16. In particular any two ways of cutting the same bytes agree. -/
theorem C16_cuts (C : Cfg) (limit id : Nat) (old : Msg) (segs segs' : List (List Byte)) (h : segs.flatten = segs'.flatten) (m : Msg) :
    readSegments C limit id old segs = .ok m ↔ readSegments C limit id old segs' = .ok m := by
  rw [C16_segments, C16_segments, h]

/-- C16. One buffer, read through the regions made for it, gives what reading the bytes of a
list gives. -/
theorem C16_contiguous (C : Cfg) (limit id : Nat) (old : Msg) (buf : List Byte) (m : Msg) :
    readContiguous C limit id old buf = .ok m ↔ readBinpb C limit id old buf = .ok m :=
  (contiguous_agrees C limit id old buf).2 m

/-- C16, packed fields of fixed width in messages with non-owning traits, which are appended
piece by piece from the regions: the loop ends, and gives the bytes of the input or the
error that reading them from a list gives. `R … s f` relates a state of the region machine
to the same position of the list. -/
theorem C16_append {H : Mems} {tot : List Byte} {contig : Bool} {G : Ghost} {s : Arch} {f : Flat}
    (h : R H tot contig G s f) (n size : Nat) (h1 : 0 < size) (h2 : size ≤ 16) :
    regAppend H contig size n s ≠ .ub ∧ regAppend H contig size n s ≠ .stuck ∧
    (∀ bs, (∃ s', regAppend H contig size n s = .ok (s', bs)) ↔ ∃ f', flatOps.raw (n * size) f = .ok (f', bs)) := by
  obtain ⟨a, b, c⟩ := sim_append (T := False) (D := fun _ => False) h1 h2 (N := n) h
  refine ⟨a.1, a.2.1, fun bs => ⟨?_, ?_⟩⟩
  · rintro ⟨s', e⟩
    rcases c _ e with ⟨⟨f', bs'⟩, h1, h2, -⟩ | h
    · cases h2
      exact ⟨f', h1⟩
    · exact h.elim
  · rintro ⟨f', e⟩
    rcases b _ e with ⟨⟨s', bs'⟩, h1, h2, -⟩ | h
    · cases h2
      exact ⟨s', h1⟩
    · exact h.1.elim

/-! ## C17 -/

/-- The memory of the reader: its patch buffer and the segments of the caller. A cell that
can be read is a written byte of the patch buffer or a byte of a segment. -/
theorem readable_cell {patch : Buf} {segs : List (List Byte)} {b : Nat} {i : Int} {x : Byte}
    (h : Mems.cell (patch :: segs.map (fun s => s.map some)) b i = some x) :
    0 ≤ i ∧ ((b = 0 ∧ patch[i.toNat]? = some (some x)) ∨ ∃ k e, b = k + 1 ∧ segs[k]? = some e ∧ e[i.toNat]? = some x) := by
  unfold Mems.cell at h
  split at h
  · cases h
  · refine ⟨by omega, ?_⟩
    cases b with
    | zero =>
      left
      rw [List.getD_cons_zero, List.getD_eq_getElem?_getD] at h
      cases hp : patch[i.toNat]? with
      | none => rw [hp] at h; cases h
      | some y => rw [hp] at h; exact ⟨rfl, congrArg some h⟩
    | succ k =>
      right
      rw [List.getD_cons_succ] at h
      cases hs : segs[k]? with
      | none => rw [show (segs.map (fun s => s.map some)).getD k [] = [] by simp [hs]] at h; simp at h
      | some e =>
        refine ⟨k, e, rfl, hs, ?_⟩
        rwa [show (segs.map (fun s => s.map some)).getD k [] = e.map some by simp [hs], getD_map_some] at h

/-- C17. Whatever the bytes and however they are cut, the constructor succeeds within the
memory it has, 32 bytes of patch buffer for each segment; its memory is that buffer and the
segments (`readable_cell`); and the reader never looks outside it. -/
theorem C17_segments (C : Cfg) (limit id : Nat) (old : Msg) (segs : List (List Byte)) :
    (∃ patch s, buildArchive segs = .ok (patch :: segs.map (fun s => s.map some), s) ∧ patch.length = 32 * segs.length) ∧
    readSegments C limit id old segs ≠ .ub ∧ readSegments C limit id old segs ≠ .stuck := by
  refine ⟨?_, (segments_agree C limit id old segs).1.1, (segments_agree C limit id old segs).1.2.1⟩
  by_cases hs : segs = []
  · subst hs
    exact ⟨[], _, rfl, rfl⟩
  · obtain ⟨H, s, hb, hB⟩ := build_ok hs
    obtain ⟨patch, rfl, hl⟩ := hB.heap
    exact ⟨patch, s, hb, hl⟩

/-- C17 for one buffer. -/
theorem C17_contiguous (C : Cfg) (limit id : Nat) (old : Msg) (buf : List Byte) :
    (∃ patch s, buildArchive [buf] = .ok ([patch, buf.map some], s) ∧ patch.length = 32) ∧
    readContiguous C limit id old buf ≠ .ub ∧ readContiguous C limit id old buf ≠ .stuck := by
  refine ⟨?_, (contiguous_agrees C limit id old buf).1.1, (contiguous_agrees C limit id old buf).1.2.1⟩
  obtain ⟨H, s, hb, hB⟩ := build_ok (segs := [buf]) (by simp)
  obtain ⟨patch, rfl, hl⟩ := hB.heap
  exact ⟨patch, s, hb, hl⟩

/-- The encoding of the demo message, cut into pieces of 1, 0, 20 and the remaining bytes. -/
def demoCut : List (List Byte) :=
  let w := wire demoCfg 2 0 demoMsg
  [w.take 1, [], (w.drop 1).take 20, w.drop 21]

/-- It is read through a patch buffer, a segment and another patch region; cut short by a
byte, it is rejected. -/
example : (match readSegments demoCfg 2 0 ⟨[], []⟩ demoCut with | .ok _ => true | _ => false) = true ∧
    (match buildArchive demoCut with | .ok (_, s) => s.rest.length | _ => 0) = 4 ∧
    (match readSegments demoCfg 2 0 ⟨[], []⟩ demoCut.dropLast with | .err _ => true | _ => false) = true := by decide +kernel

end HppProto.Props
