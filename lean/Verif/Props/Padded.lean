import Verif.Model.Padded
import Verif.Props.Regions
import Verif.Props.Varint
/-!
# Claim C59: input followed by padding

`readPadded C limit id old buf pad` is `read_binpb(msg, buf, padded_input)` where the memory
of the caller holds `buf` and after it the bytes `pad`, and nothing else may be read.
-/
namespace HppProto.Props
open HppProto HppProto.Spec

theorem pad_cell (buf pad : List Byte) (i : Nat) : Mems.cell [[], (buf ++ pad).map some] 1 i = (buf ++ pad)[i]? := by
  unfold Mems.cell
  rw [if_neg (by omega), Int.toNat_natCast]
  show List.getD ((buf ++ pad).map some) i none = _
  rw [getD_map_some]

/-- C59, for messages that own their strings. With sixteen readable bytes after the input,
whatever they are, reading gives what reading without `padded_input` gives, and nothing past
them is looked at. Missing from the full claim: messages whose strings are views, where it
fails (`C59_view_overrun`). -/
theorem C59_padded_partial (C : Cfg) (limit id : Nat) (old : Msg) (buf pad : List Byte) (hp : 16 ≤ pad.length) :
    (∀ m, readPadded C limit id old buf pad = .ok m ↔ readBinpb C limit id old buf = .ok m) ∧
    readPadded C limit id old buf pad ≠ .ub ∧ readPadded C limit id old buf pad ≠ .stuck := by
  have hlay : Lay [[], (buf ++ pad).map some] buf 0 ⟨1, 0, buf.length, buf.length⟩ [] := by
    refine ⟨by simp, rfl, by simp, fun i hi => ?_, fun i hi => ?_⟩
    · simp only [Int.zero_add] at hi ⊢
      rw [pad_cell, List.getElem?_append_left (by omega), Nat.zero_add]
    · simp only
      have := pad_cell buf pad (buf.length + i)
      rw [Int.natCast_add] at this
      rw [this, List.getElem?_eq_getElem (by rw [List.length_append]; omega)]
      rfl
  have hon : On [[], (buf ++ pad).map some] buf true ⟨⟨⟨1, 0, buf.length, buf.length⟩, [], 0⟩, 0, 0 + buf.length, 0⟩
      ⟨⟨1, 0, buf.length, buf.length⟩, [], 0⟩ ⟨1, 0, buf.length, buf.length⟩ 0 0 buf.length :=
    On.self (p := 0) (n := buf.length) ⟨hlay, rfl, by simp, Int.le_refl _, by simp, Int.le_refl _, Int.le_refl _, by simp, by simp, by simp⟩
      (by simp) (by simp [Arch.left])
  have hrv : RV [[], (buf ++ pad).map some] buf true ⟨⟨⟨1, 0, buf.length, buf.length⟩, [], 0⟩, 0, 0 + buf.length, 0⟩ 0 11
      ⟨⟨1, 0, buf.length, buf.length⟩, [], 0⟩ ⟨[], buf⟩ :=
    ⟨_, _, _, _, hon, by simp [flatAt], by simp, by simp only; omega, by simp⟩
  obtain ⟨s1, s2⟩ := final_of_start (C := C) hrv limit id ((C.schema id).reset old)
  exact ⟨s2, s1.1, s1.2.1⟩

/-- The demo message with padding after it that is not even zero. -/
example : (match readPadded demoCfg 2 0 ⟨[], []⟩ (wire demoCfg 2 0 demoMsg) (List.replicate 16 0xff#8) with
    | .ok _ => true | _ => false) = true := by decide +kernel

/-! ## Views -/

/-- The reader at the length of a string field: before it the bytes `pre`, after it `rest`. -/
def atLength (pre rest pad : List Byte) (n : BitVec 32) : Mems × Arch :=
  let buf := pre ++ VarTy.u32.pack (n.setWidth 64) ++ rest
  ((padArchive buf pad).1, (padArchive buf pad).2.consume pre.length)

theorem length_read (pre rest pad : List Byte) (n : BitVec 32) :
    let k := (VarTy.u32.pack (n.setWidth 64)).length
    (regOps (atLength pre rest pad n).1 true).varint .u32 (atLength pre rest pad n).2 =
      .ok (⟨⟨1, (pre.length + k : Nat), (pre.length + k + rest.length : Nat), (pre.length + k + rest.length : Nat)⟩, [], 0⟩, n.setWidth 64) := by
  intro k
  have hc : ∀ i : Nat, Mems.cell (atLength pre rest pad n).1 1 (((pre.length : Nat) : Int) + i) =
      (pre ++ VarTy.u32.pack (n.setWidth 64) ++ rest ++ pad)[pre.length + i]? := by
    intro i
    rw [← Int.natCast_add]
    exact pad_cell _ _ _
  have hi : ∀ i, (h : i < k) → (pre ++ VarTy.u32.pack (n.setWidth 64) ++ rest ++ pad)[pre.length + i]? =
      some ((VarTy.u32.pack (n.setWidth 64))[i]) := by
    intro i h
    rw [List.append_assoc, List.append_assoc, List.getElem?_append_right (by omega), Nat.add_sub_cancel_left,
      List.getElem?_append_left h, List.getElem?_eq_getElem h]
  have hg : startsWith ((atLength pre rest pad n).1.view (atLength pre rest pad n).2.cur) (VarTy.u32.pack (n.setWidth 64)) := by
    intro i h
    show (Mems.cell _ 1 _).getD _ = _
    rw [show (atLength pre rest pad n).2.cur.beg = ((pre.length : Nat) : Int) from Int.zero_add _, hc, hi i h]
    rfl
  rw [reg_varint, parse_pack VarTy.u32 _ (C01_canonical_all n).2.2 _ hg]
  unfold checkedErr checked
  simp only
  rw [if_pos (good_iff.2 (fun i h => by
    show (Mems.cell _ 1 _).isSome
    rw [show (atLength pre rest pad n).2.cur.beg = ((pre.length : Nat) : Int) from Int.zero_add _, hc, hi i h]
    rfl)), if_pos (by simp [atLength, padArchive, Arch.consume, Region.consume]; omega)]
  show Res.ok _ = _
  simp [atLength, padArchive, Arch.consume, Region.consume, k]
  omega

/-- C59, messages with views: when the length is within the input, the view is those bytes
of the input, and the reader goes on after them. -/
theorem C59_view_inside (C : Cfg) (pre rest pad : List Byte) (n : BitVec 32) (hn : n.toNat ≤ rest.length) (utf8 : Bool)
    (hu : utf8 = true → C.utf8 (rest.take n.toNat) = true) :
    ∃ s v, readView C (atLength pre rest pad n).1 utf8 (atLength pre rest pad n).2 = .ok (s, v) ∧
      (atLength pre rest pad n).1.bytes v n.toNat = .ok (rest.take n.toNat) ∧ s.avail true = rest.length - n.toNat := by
  have hb : ∀ s' : Region, s'.buf = 1 → s'.beg = ((pre.length + (VarTy.u32.pack (n.setWidth 64)).length : Nat) : Int) →
      (atLength pre rest pad n).1.bytes s' n.toNat = .ok (rest.take n.toNat) := by
    intro s' h1 h2
    have hc : ∀ i : Nat, i < n.toNat → Mems.cell (atLength pre rest pad n).1 s'.buf (s'.beg + i) = rest[i]? := by
      intro i hi
      rw [h1, h2, ← Int.natCast_add]
      refine (pad_cell _ _ _).trans ?_
      rw [List.append_assoc, List.append_assoc, List.getElem?_append_right (by omega), List.getElem?_append_right (by omega),
        List.getElem?_append_left (by omega)]
      congr 1
      omega
    rw [bytes_eq (good_iff.2 (fun i hi => by rw [hc i hi, List.getElem?_eq_getElem (by omega)]; rfl))]
    congr 1
    apply List.ext_getElem
    · simp; omega
    · intro i h1 h2
      simp only [List.length_map, List.length_range] at h1
      simp only [List.getElem_map, List.getElem_range, Mems.view, List.getElem_take]
      rw [hc i h1, List.getElem?_eq_getElem (by omega)]
      rfl
  have hnn : (n.setWidth 64).toNat = n.toNat := by simp; omega
  unfold readView
  rw [length_read, ok_bind]
  simp only [hnn]
  cases utf8 with
  | false =>
    refine ⟨_, _, rfl, hb _ rfl rfl, ?_⟩
    simp [Arch.avail, Arch.size, Arch.consume, Region.consume]
    omega
  | true =>
    rw [if_pos rfl, hb _ rfl rfl, ok_bind, if_pos (hu rfl)]
    refine ⟨_, _, rfl, hb _ rfl rfl, ?_⟩
    simp [Arch.avail, Arch.size, Arch.consume, Region.consume]
    omega

/-- C59 fails for messages with views: a length that reaches past the padding is accepted at
this point; for a `string` that must be UTF-8 the reader then looks at memory beyond the
padding, and for `bytes` the field is left as a view that ends there. -/
theorem C59_view_overrun (C : Cfg) (pre rest pad : List Byte) (n : BitVec 32) (hn : rest.length + pad.length < n.toNat) :
    readView C (atLength pre rest pad n).1 true (atLength pre rest pad n).2 = .ub ∧
    ∃ s v, readView C (atLength pre rest pad n).1 false (atLength pre rest pad n).2 = .ok (s, v) ∧
      v.buf = 1 ∧ (((atLength pre rest pad n).1.getD 1 []).length : Int) < v.fin := by
  have hnn : (n.setWidth 64).toNat = n.toNat := by simp; omega
  unfold readView
  rw [length_read, ok_bind]
  simp only [hnn]
  constructor
  · rw [if_pos trivial]
    have : (atLength pre rest pad n).1.bytes ⟨1, (pre.length + (VarTy.u32.pack (n.setWidth 64)).length : Nat),
        ((pre.length + (VarTy.u32.pack (n.setWidth 64)).length : Nat) : Int) + n.toNat,
        (pre.length + (VarTy.u32.pack (n.setWidth 64)).length + rest.length : Nat)⟩ n.toNat = .ub := by
      unfold Mems.bytes
      rw [if_neg]
      intro h
      have := good_iff.1 h (rest.length + pad.length) hn
      simp only at this
      rw [← Int.natCast_add, show Mems.cell (atLength pre rest pad n).1 1 _ = _ from pad_cell _ _ _,
        List.getElem?_eq_none (by simp only [List.length_append]; omega)] at this
      cases this
    rw [this]
    rfl
  · refine ⟨_, _, rfl, rfl, ?_⟩
    simp [atLength, padArchive]
    omega

/-- A message `0a 7f`: the length 127 of an empty string, with the sixteen bytes of padding
that the documentation asks for. -/
example : readView demoCfg (atLength [0x0a#8] [] (List.replicate 16 0#8) 127#32).1 true
      (atLength [0x0a#8] [] (List.replicate 16 0#8) 127#32).2 = .ub ∧
    (padArchive [0x0a, 0x7f] (List.replicate 16 0#8)).1 = (atLength [0x0a#8] [] (List.replicate 16 0#8) 127#32).1 ∧
    readBinpb demoCfg 2 0 ⟨[], []⟩ [0x0a, 0x7f] = .err .badMessage := by
  refine ⟨(C59_view_overrun _ _ _ _ _ (by decide)).1, by decide +kernel, by with_unfolding_all rfl⟩

end HppProto.Props
