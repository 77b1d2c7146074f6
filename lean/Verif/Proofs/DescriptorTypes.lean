import Verif.Model.DescriptorBytes
import Verif.Proofs.ReadObject
/-! The descriptor messages are message types like generated ones. -/
namespace HppProto
open Spec

/-- Scalar types and initial values that occur without presence. -/
def plainValue : Scalar → Val → Bool
  | .str false, .bytes [] => true
  | .varint _, .num x => x == 0
  | .bool, .num x => x == 0 || x == 1
  | .enum none, .num x => x == 0 || x == 1
  | .fixed64 _, .num x => x == 0
  | _, _ => false

/-- Members that occur. -/
def plainSlot : SlotD → Bool
  | .field n k (.implicit v) => (match k with | .scalar sc => plainValue sc v | _ => false) && decide (0 < n.toNat ∧ n.toNat < 1000)
  | .field n k (.always v) => (match k with | .scalar sc => plainValue sc v | _ => false) && decide (0 < n.toNat ∧ n.toNat < 1000)
  | .field n _ .optional => decide (0 < n.toNat ∧ n.toNat < 1000)
  | .field n _ (.repeated _) => decide (0 < n.toNat ∧ n.toNat < 1000)
  | _ => false

def slotNum : SlotD → Nat
  | .field n _ _ => n.toNat
  | .oneof _ => 0

theorem table_plain : descriptorTypes.all (fun sl => sl.all plainSlot && decide (sl.map slotNum).Nodup) = true := by
  decide +kernel

theorem slots_plain (id : Nat) : (∀ sd ∈ (descriptorCfg.schema id).slots, plainSlot sd = true) ∧
    ((descriptorCfg.schema id).slots.map slotNum).Nodup := by
  show (∀ sd ∈ descriptorTypes.getD id [], _) ∧ ((descriptorTypes.getD id []).map slotNum).Nodup
  by_cases h : id < descriptorTypes.length
  · rw [List.getD_eq_getElem?_getD, List.getElem?_eq_getElem h]
    have := List.all_eq_true.1 table_plain _ (List.getElem_mem h)
    simp only [Bool.and_eq_true, List.all_eq_true, decide_eq_true_eq] at this
    exact this
  · rw [List.getD_eq_getElem?_getD, List.getElem?_eq_none (by omega)]
    simp

theorem plainValue_ok {C : Cfg} {sc : Scalar} {v : Val} (h : plainValue sc v = true) : scalarOk C sc v := by
  unfold plainValue at h
  split at h
  · exact ⟨_, rfl, by simp⟩
  · rename_i ty x
    simp only [beq_iff_eq] at h
    subst h
    exact ⟨_, rfl, by cases ty <;> simp [inRange]⟩
  · simp only [Bool.or_eq_true, beq_iff_eq] at h
    rcases h with rfl | rfl
    · exact .inl rfl
    · exact .inr rfl
  · simp only [Bool.or_eq_true, beq_iff_eq] at h
    rcases h with rfl | rfl
    · exact ⟨_, rfl, by simp [inRange], by simp⟩
    · exact ⟨_, rfl, by unfold inRange; decide, by simp⟩
  · exact ⟨_, rfl⟩
  · cases h

theorem slotKind_num {n : Nat} {sd : SlotD} (hp : plainSlot sd = true) (h : (slotKind n sd).isSome) : slotNum sd = n := by
  cases sd with
  | field m k c =>
    simp only [slotKind] at h
    split at h
    · assumption
    · cases h
  | oneof alts => cases hp

theorem descriptor_schemaOk : schemaOk descriptorCfg where
  distinct id n i j a b ha hb h1 h2 := by
    obtain ⟨hp, hn⟩ := slots_plain id
    have e1 := slotKind_num (hp a (List.mem_of_getElem? ha)) h1
    have e2 := slotKind_num (hp b (List.mem_of_getElem? hb)) h2
    have g1 : ((descriptorCfg.schema id).slots.map slotNum)[i]? = some n := by rw [List.getElem?_map, ha, ← e1]; rfl
    have g2 : ((descriptorCfg.schema id).slots.map slotNum)[j]? = some n := by rw [List.getElem?_map, hb, ← e2]; rfl
    have hi : i < ((descriptorCfg.schema id).slots.map slotNum).length := (List.getElem?_eq_some_iff.1 g1).1
    exact (List.getElem?_inj hi hn).1 (g1.trans g2.symm)
  alts id alts h := by have := (slots_plain id).1 _ h; cases this
  oneofs id alts h := by have := (slots_plain id).1 _ h; cases this
  range id n h := by
    unfold Spec.fieldKind at h
    obtain ⟨k, hk⟩ := Option.isSome_iff_exists.1 h
    obtain ⟨sd, hs, hk⟩ := List.exists_of_findSome?_eq_some hk
    have hp := (slots_plain id).1 _ hs
    have e := slotKind_num hp (by rw [hk]; rfl)
    cases sd with
    | oneof alts => cases hp
    | field m k c =>
      simp only [slotNum] at e
      subst e
      cases c with
      | implicit v => simp only [plainSlot, Bool.and_eq_true, decide_eq_true_eq] at hp; omega
      | always v => simp only [plainSlot, Bool.and_eq_true, decide_eq_true_eq] at hp; omega
      | optional => simp only [plainSlot, decide_eq_true_eq] at hp; omega
      | repeated p => simp only [plainSlot, decide_eq_true_eq] at hp; omega
      | map u => cases hp
  maps id n k u h := by have := (slots_plain id).1 _ h; cases this
  entries id h := by cases h
  plain id n k card dflt sub h hc hk := by
    have hp := (slots_plain id).1 _ h
    rcases hc with rfl | rfl <;> rcases hk with rfl | rfl <;> simp [plainSlot] at hp
  defaults id n sc dflt h := by
    have hp := (slots_plain id).1 _ h
    simp only [plainSlot, Bool.and_eq_true] at hp
    exact plainValue_ok hp.1

theorem descriptor_unk (id : Nat) : (descriptorCfg.schema id).unk = .none := rfl

theorem descriptor_implicit (id : Nat) : noImplicitClosed (descriptorCfg.schema id) := by
  intro n vs dflt h
  have hp := (slots_plain id).1 _ h
  simp [plainSlot, plainValue] at hp

/-- A default message is an object of one level. -/
theorem descriptor_default (b : Bool) (id : Nat) : objLike b descriptorCfg 1 id (descriptorCfg.schema id).default := by
  refine ⟨by simp [MsgD.default], ?_, rfl⟩
  intro p hp
  obtain ⟨i, hi⟩ := List.mem_iff_getElem?.1 hp
  obtain ⟨h1, h2⟩ := List.getElem?_zip_eq_some.1 hi
  simp only [MsgD.default, List.getElem?_map, h1, Option.map_some, Option.some.injEq] at h2
  rw [← h2]
  have hpl := (slots_plain id).1 _ (List.mem_of_getElem? h1)
  generalize p.1 = sd at hpl ⊢
  cases sd with
  | oneof alts => cases hpl
  | field m k c =>
    cases c with
    | implicit v =>
      cases k <;> simp [plainSlot] at hpl
      exact ⟨v, rfl, plainValue_ok hpl.1, fun _ _ => rfl⟩
    | always v =>
      cases k <;> simp [plainSlot] at hpl
      exact ⟨v, rfl, plainValue_ok hpl.1⟩
    | optional => exact .inl rfl
    | repeated p => intro e he; cases he
    | map u => cases hpl

/-- Reading a descriptor message ends with an object or an error. -/
theorem descriptor_read {limit id : Nat} {old m : Msg} {buf : List Byte} (h : readBinpb descriptorCfg limit id old buf = .ok m) :
    objLike false descriptorCfg (limit + 1) id m :=
  readBinpb_obj (k := 0) descriptor_schemaOk descriptor_unk descriptor_implicit (descriptor_default false) h

end HppProto
