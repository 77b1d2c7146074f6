import Verif.Model.Serialize
import Verif.Spec.Wire
import Verif.Proofs.VarintParse
/-! Lemmas: the wire specification seen through the items of the writer. -/
namespace HppProto
open Spec (leb)

theorem leb_eq (n : Nat) : leb n = packVarint n := by
  induction n using Nat.strongRecOn with
  | _ n ih =>
    rw [leb]
    split
    · rw [packVarint_small (by assumption)]
    · rw [packVarint_big (by omega), ih _ (by omega)]

theorem leb_pos (n : Nat) : 1 ≤ (leb n).length := by
  rw [leb_eq]; exact List.length_pos_iff.2 (packVarint_ne_nil n)

theorem littleEndian_eq (k n : Nat) : Spec.littleEndian k n = leBytes k n := by
  induction k generalizing n with
  | zero => rfl
  | succ k ih => simp [Spec.littleEndian, leBytes, ih]

theorem leBytes_length (k n : Nat) : (leBytes k n).length = k := by
  induction k generalizing n with
  | zero => rfl
  | succ k ih => simp [leBytes, ih]

theorem varintNumber_eq (ty : VarTy) (v : BitVec 64) : Spec.varintNumber ty v = ty.encodeBits v := by
  cases ty <;> simp [Spec.varintNumber, VarTy.encodeBits, zigzag32_spec, zigzag64_spec]

theorem scalar_bytes (sc : Scalar) (v : Val) : Spec.scalar sc v = piecesBytes (scalarPieces sc v) := by
  cases sc <;> simp [Spec.scalar, piecesBytes, scalarPieces, Piece.bytes, leb_eq, littleEndian_eq, varintNumber_eq]

theorem wireType_toNat (sc : Scalar) : sc.wireType.toNat = Spec.wireTypeOf sc := by
  cases sc <;> rfl

theorem tag_bytes {n : BitVec 32} {wt : WireType} {w : Nat} (hn : n.toNat < 2 ^ 29) (hw : wt.toNat = w) (hw8 : w < 8) :
    Spec.tag n w = (tagPiece n wt).bytes := by
  rw [Spec.tag, leb_eq, tagPiece, Piece.bytes, (makeTag_number hn (by omega)).2.2, hw]

/-- log2 depends on the number only through the bits above the low three. -/
theorem pack_length_low {a w : Nat} (hw : w < 8) : (packVarint (a * 8 + w)).length = (packVarint (a * 8)).length := by
  have key : ∀ v, 128 ≤ v → (packVarint v).length = (packVarint (v / 128)).length + 1 := by
    intro v h; rw [packVarint_big h]; rfl
  by_cases h : a * 8 < 128
  · have : a * 8 + w < 128 := by omega
    rw [packVarint_small h, packVarint_small this]; rfl
  · rw [key _ (by omega), key (a * 8) (by omega)]
    have : (a * 8 + w) / 128 = a * 8 / 128 := by omega
    rw [this]

theorem tagSize_eq {n : BitVec 32} {w : Nat} (hn : n.toNat < 2 ^ 29) (hw8 : w < 8) :
    tagSize n = (Spec.tag n w).length := by
  have e : (n <<< 3).toNat = n.toNat * 8 := by
    rw [BitVec.toNat_shiftLeft, Nat.shiftLeft_eq]; omega
  rw [tagSize, Spec.tag, leb_eq, pack_length_low hw8, e, varintSize_eq (by omega) (by omega)]

namespace Item

/-- Bytes of an item according to the specification. -/
def wire (C : Cfg) (enc : Nat → Msg → List Byte) : Item → List Byte
  | .one n k v => Spec.record C enc n k v
  | .packed n sc vs => Spec.lenRecord n (vs.flatMap (Spec.scalar sc))

def number : Item → BitVec 32
  | .one n _ _ => n
  | .packed n _ _ => n

def nests (C : Cfg) (P : Nat → Msg → Prop) : Item → Prop
  | .one _ k v => Spec.valNests C P k v
  | .packed _ _ _ => True

def utf8 (C : Cfg) (P : Nat → Msg → Prop) : Item → Prop
  | .one _ k v => (k = .scalar (.str true) → C.utf8 v.str = true) ∧ Spec.valNests C P k v
  | .packed _ _ _ => True

/-- A packed item is of a packable scalar. -/
def ok : Item → Prop
  | .one _ _ _ => True
  | .packed _ sc _ => sc.packable = true

end Item

theorem member_items (C : Cfg) (enc) (sd : SlotD) (es) :
    Spec.member C isDefault enc sd es = (slotItems sd es).flatMap (Item.wire C enc) := by
  cases sd with
  | oneof alts =>
    simp only [Spec.member, slotItems, List.flatMap_assoc]
    congr 1; funext e
    cases alts[e.1]? <;> simp [Item.wire]
  | field n k card =>
    have hmap : es.flatMap (fun e => Spec.record C enc n k e.2)
        = (es.map (fun e => Item.one n k e.2)).flatMap (Item.wire C enc) := by
      simp [List.flatMap_map, Item.wire]
    cases card with
    | implicit dflt =>
      simp only [Spec.member, slotItems]
      induction es with
      | nil => rfl
      | cons e es ih =>
        have hm : es.flatMap (fun e => Spec.record C enc n k e.2)
            = (es.map (fun e => Item.one n k e.2)).flatMap (Item.wire C enc) := by
          simp [List.flatMap_map, Item.wire]
        rw [List.flatMap_cons, ih hm]
        by_cases hd : isDefault k dflt e.2 = true
        · simp [hd]
        · simp [hd, Item.wire]
    | always d => simpa [Spec.member, slotItems] using hmap
    | optional => simpa [Spec.member, slotItems] using hmap
    | map u => simpa [Spec.member, slotItems] using hmap
    | repeated p =>
      cases p with
      | false => simpa [Spec.member, slotItems] using hmap
      | true =>
        cases k with
        | msg id => simpa [Spec.member, slotItems] using hmap
        | group id => simpa [Spec.member, slotItems] using hmap
        | scalar sc =>
          simp only [Spec.member, slotItems]
          split
          · cases es with
            | nil => simp
            | cons e es => simp [Item.wire, List.flatMap_map]
          · exact hmap

theorem encode_items (C : Cfg) (d id : Nat) (m : Msg) :
    Spec.encode C isDefault (d + 1) id m =
      (msgItems (C.schema id) m).flatMap (Item.wire C (Spec.encode C isDefault d)) ++ m.unk.flatMap Prod.snd := by
  rw [Spec.encode, msgItems, List.flatMap_assoc]
  congr 2; funext p; exact member_items C _ p.1 p.2

/-- The entry declares a field with this number and kind. -/
def SlotD.owns (n : BitVec 32) (k : Kind) : SlotD → Prop
  | .field n' _ _ => n = n'
  | .oneof alts => (n, k) ∈ alts

theorem mem_slotItems {sd : SlotD} {es} {it : Item} (h : it ∈ slotItems sd es) :
    (∃ n k e, it = .one n k e.2 ∧ e ∈ es ∧ Spec.kindOf sd e.1 = some k ∧
      (∀ n' dflt, sd = .field n' k (.implicit dflt) → isDefault k dflt e.2 = false) ∧
      sd.owns n k) ∨
    (∃ n sc, sd = .field n (.scalar sc) (.repeated true) ∧ sc.packable = true ∧ es ≠ [] ∧
      it = .packed n sc (es.map Prod.snd)) := by
  cases sd with
  | oneof alts =>
    left
    simp only [slotItems, List.mem_flatMap] at h
    obtain ⟨e, he, h⟩ := h
    cases ha : alts[e.1]? with
    | none => simp [ha] at h
    | some nk =>
      obtain ⟨n, k⟩ := nk
      simp only [ha, List.mem_singleton] at h
      exact ⟨n, k, e, h, he, by simp [Spec.kindOf, ha], by simp, List.mem_of_getElem? ha⟩
  | field n k card =>
    have hmap : it ∈ es.map (fun e => Item.one n k e.2) → (∀ dflt, card ≠ .implicit dflt) →
        ∃ n' k' e, it = .one n' k' e.2 ∧ e ∈ es ∧ Spec.kindOf (.field n k card) e.1 = some k' ∧
      (∀ n'' dflt, SlotD.field n k card = .field n'' k' (.implicit dflt) → isDefault k' dflt e.2 = false) ∧
      n' = n := by
      intro h hc
      obtain ⟨e, he, rfl⟩ := List.mem_map.1 h
      refine ⟨n, k, e, rfl, he, rfl, ?_, rfl⟩
      intro n'' dflt hh
      injection hh with _ _ h3
      exact absurd h3 (hc dflt)
    cases card with
    | implicit dflt =>
      left
      simp only [slotItems, List.mem_map, List.mem_filter] at h
      obtain ⟨e, ⟨he, hd⟩, rfl⟩ := h
      refine ⟨n, k, e, rfl, he, rfl, ?_, rfl⟩
      intro n'' dflt' hh
      injection hh with _ _ h3
      injection h3 with h3
      subst h3; simpa using hd
    | always d => exact .inl (hmap (by simpa [slotItems] using h) (by simp))
    | optional => exact .inl (hmap (by simpa [slotItems] using h) (by simp))
    | map u => exact .inl (hmap (by simpa [slotItems] using h) (by simp))
    | repeated p =>
      cases p with
      | false => exact .inl (hmap (by simpa [slotItems] using h) (by simp))
      | true =>
        cases k with
        | msg id => exact .inl (hmap (by simpa [slotItems] using h) (by simp))
        | group id => exact .inl (hmap (by simpa [slotItems] using h) (by simp))
        | scalar sc =>
          simp only [slotItems] at h
          split at h
          · rename_i hp
            cases es with
            | nil => simp at h
            | cons e es =>
              right
              simp at h
              exact ⟨n, sc, rfl, hp, by simp, by simpa using h⟩
          · exact .inl (hmap h (by simp))

theorem items_ok {D : MsgD} {m : Msg} : ∀ it ∈ msgItems D m, it.ok := by
  intro it h
  obtain ⟨p, _, h⟩ := List.mem_flatMap.1 h
  rcases mem_slotItems h with ⟨n, k, e, rfl, _⟩ | ⟨n, sc, _, hp, _, rfl⟩
  · trivial
  · exact hp

theorem items_number {C : Cfg} (hN : Spec.numbersOk C) {id : Nat} {m : Msg} :
    ∀ it ∈ msgItems (C.schema id) m, it.number.toNat < 2 ^ 29 := by
  intro it h
  obtain ⟨p, hp, h⟩ := List.mem_flatMap.1 h
  have hn := hN id p.1 (List.of_mem_zip hp).1
  rcases mem_slotItems h with ⟨n, k, e, rfl, _, _, _, hh⟩ | ⟨n, sc, hsd, _, _, rfl⟩
  · cases hsd : p.1 with
    | field n' k' c => rw [hsd] at hn hh; simp only [SlotD.owns] at hn hh; subst hh; exact hn
    | oneof alts => rw [hsd] at hn hh; exact hn _ hh
  · rw [hsd] at hn; exact hn

/-- An element that is written appears among the items, or inside a packed one. -/
theorem slotItems_of_mem {sd : SlotD} {es} {e : Nat × Val} {k : Kind} (he : e ∈ es)
    (hk : Spec.kindOf sd e.1 = some k)
    (hi : ∀ n dflt, sd = .field n k (.implicit dflt) → isDefault k dflt e.2 = false) :
    (∃ n, Item.one n k e.2 ∈ slotItems sd es) ∨ (∃ sc, k = .scalar sc ∧ sc.packable = true) := by
  cases sd with
  | oneof alts =>
    left
    simp only [Spec.kindOf, Option.map_eq_some_iff] at hk
    obtain ⟨nk, ha, rfl⟩ := hk
    refine ⟨nk.1, ?_⟩
    simp only [slotItems, List.mem_flatMap]
    exact ⟨e, he, by simp [ha]⟩
  | field n k' card =>
    simp only [Spec.kindOf, Option.some.injEq] at hk
    subst hk
    have hmem : Item.one n k' e.2 ∈ es.map (fun e => Item.one n k' e.2) := List.mem_map.2 ⟨e, he, rfl⟩
    cases card with
    | implicit dflt =>
      left
      refine ⟨n, ?_⟩
      simp only [slotItems, List.mem_map, List.mem_filter]
      exact ⟨e, ⟨he, by simp [hi n dflt rfl]⟩, rfl⟩
    | always d => exact .inl ⟨n, by simpa [slotItems] using hmem⟩
    | optional => exact .inl ⟨n, by simpa [slotItems] using hmem⟩
    | map u => exact .inl ⟨n, by simpa [slotItems] using hmem⟩
    | repeated p =>
      cases p with
      | false => exact .inl ⟨n, by simpa [slotItems] using hmem⟩
      | true =>
        cases k' with
        | msg id => exact .inl ⟨n, by simpa [slotItems] using hmem⟩
        | group id => exact .inl ⟨n, by simpa [slotItems] using hmem⟩
        | scalar sc =>
          by_cases hp : sc.packable
          · exact .inr ⟨sc, rfl, hp⟩
          · left; refine ⟨n, ?_⟩
            simp only [slotItems, hp]
            simpa using hmem

theorem isDefault_msg {k : Kind} (hk : ∀ sc, k ≠ .scalar sc) (d v) : isDefault k d v = false := by
  cases k with
  | scalar sc => exact absurd rfl (hk sc)
  | msg _ => rfl
  | group _ => rfl

theorem nests_items (C : Cfg) (d id : Nat) (m : Msg) :
    Spec.nests C (d + 1) id m ↔ ∀ it ∈ msgItems (C.schema id) m, it.nests C (Spec.nests C d) := by
  rw [Spec.nests]
  constructor
  · intro h it hit
    obtain ⟨p, hp, hit⟩ := List.mem_flatMap.1 hit
    rcases mem_slotItems hit with ⟨n, k, e, rfl, he, hk, _, _⟩ | ⟨n, sc, hsd, _, _, rfl⟩
    · exact h p hp e he k hk
    · trivial
  · intro h p hp e he k hk
    cases k with
    | scalar sc => trivial
    | msg i =>
      rcases slotItems_of_mem he hk (fun _ _ _ => rfl) with ⟨n, hm⟩ | ⟨sc, h', _⟩
      · exact h _ (List.mem_flatMap.2 ⟨p, hp, hm⟩)
      · cases h'
    | group i =>
      rcases slotItems_of_mem he hk (fun _ _ _ => rfl) with ⟨n, hm⟩ | ⟨sc, h', _⟩
      · exact h _ (List.mem_flatMap.2 ⟨p, hp, hm⟩)
      · cases h'

theorem utf8_items (C : Cfg) (d id : Nat) (m : Msg) :
    Spec.utf8Ok C isDefault (d + 1) id m ↔
      ∀ it ∈ msgItems (C.schema id) m, it.utf8 C (Spec.utf8Ok C isDefault d) := by
  rw [Spec.utf8Ok]
  constructor
  · intro h it hit
    obtain ⟨p, hp, hit⟩ := List.mem_flatMap.1 hit
    rcases mem_slotItems hit with ⟨n, k, e, rfl, he, hk, hi, _⟩ | ⟨n, sc, hsd, _, _, rfl⟩
    · exact h p hp e he k hk hi
    · trivial
  · intro h p hp e he k hk hi
    rcases slotItems_of_mem he hk hi with ⟨n, hm⟩ | ⟨sc, rfl, hp⟩
    · exact h _ (List.mem_flatMap.2 ⟨p, hp, hm⟩)
    · refine ⟨?_, trivial⟩
      intro hs
      injection hs with hs
      subst hs; cases hp

end HppProto
