import Verif.Proofs.TidyMerge
import Verif.Props.Members
/-!
# Claims C10, C35, C36: round trip and merging

Vocabulary (`Verif/Spec/Object.lean`). `schemaOk C`: the message types are as the code
generator makes them, with field numbers below 2^25. `objLike false C d id m`: `m` is an
object of type `id` with at most `d` levels of messages, its scalars in the range of their
C++ types. `objOk`: also, no −0.0 in a float field without presence. `tidy`: such −0.0
replaced by 0.0; the C++ objects compare equal. `mergeMsg C mv id dest src` is `merge(dest,
src)`, from a moved source if `mv`.
-/
namespace HppProto.Props
open HppProto HppProto.Spec

theorem demo_schemaOk : schemaOk demoCfg where
  distinct id := by
    match id with
    | 0 => exact demo_distinct
    | 1 =>
      intro n i j a b ha hb h1 h2
      match i, j with
      | 0, 0 => rfl
      | 1, 1 => rfl
      | 0, 1 => simp [demoCfg] at ha hb; subst ha hb; simp [slotKind] at h1 h2; omega
      | 1, 0 => simp [demoCfg] at ha hb; subst ha hb; simp [slotKind] at h1 h2; omega
      | _ + 2, _ => simp [demoCfg] at ha
      | _, _ + 2 => simp [demoCfg] at hb
    | 2 =>
      intro n i j a b ha hb h1 h2
      match i, j with
      | 0, 0 => rfl
      | _ + 1, _ => simp [demoCfg] at ha
      | _, _ + 1 => simp [demoCfg] at hb
    | _ + 3 => intro n i j a b ha; simp [demoCfg] at ha
  alts id alts h := by
    match id with
    | 0 => simp [demoCfg] at h; subst h; decide
    | 1 => simp [demoCfg] at h
    | 2 => simp [demoCfg] at h
    | _ + 3 => simp [demoCfg] at h
  oneofs := demo_noClosed
  range id n h := by
    have aux : ∀ {D : MsgD} {n : Nat}, (fieldKind D n).isSome → ∃ sd ∈ D.slots, ∃ m : BitVec 32, sd.hasNumber m = true ∧ m.toNat = n := by
      intro D n h
      unfold fieldKind at h
      rw [List.findSome?_isSome_iff] at h
      obtain ⟨sd, hsd, h⟩ := h
      refine ⟨sd, hsd, ?_⟩
      cases sd with
      | field m k c =>
        simp only [slotKind] at h
        split at h
        · rename_i e; exact ⟨m, by simp [SlotD.hasNumber], e⟩
        · cases h
      | oneof alts =>
        simp only [slotKind, Option.isSome_map] at h
        obtain ⟨a, ha⟩ := Option.isSome_iff_exists.1 h
        have h1 := List.mem_of_find?_eq_some ha
        have h2 := List.find?_some ha
        exact ⟨a.1, by simp only [SlotD.hasNumber, List.any_eq_true]; exact ⟨a, h1, by simp⟩, by simpa using h2⟩
    obtain ⟨sd, hsd, m, hm, rfl⟩ := aux h
    match id with
    | 0 =>
      simp [demoCfg] at hsd
      rcases hsd with rfl | rfl | rfl | rfl | rfl | rfl <;> simp [SlotD.hasNumber] at hm
      case inr.inr.inr.inr.inr => rcases hm with rfl | rfl <;> decide
      all_goals (subst hm; decide)
    | 1 =>
      simp [demoCfg] at hsd
      rcases hsd with rfl | rfl <;> simp [SlotD.hasNumber] at hm <;> subst hm <;> decide
    | 2 =>
      simp [demoCfg] at hsd
      subst hsd; simp [SlotD.hasNumber] at hm; subst hm; decide
    | _ + 3 => simp [demoCfg] at hsd
  maps id n k u h := by
    match id with
    | 0 => simp [demoCfg] at h; exact ⟨1, h.2.1, rfl⟩
    | 1 => simp [demoCfg] at h
    | 2 => simp [demoCfg] at h
    | _ + 3 => simp [demoCfg] at h
  entries id h := by
    match id with
    | 0 => simp [demoCfg] at h
    | 1 => exact ⟨_, _, _, rfl⟩
    | 2 => simp [demoCfg] at h
    | _ + 3 => simp [demoCfg] at h
  plain id n k card dflt sub h hc hk := by
    match id with
    | 0 => simp [demoCfg] at h; rcases hc with rfl | rfl <;> rcases hk with rfl | rfl <;> simp at h
    | 1 => simp [demoCfg] at h; rcases hc with rfl | rfl <;> rcases hk with rfl | rfl <;> simp at h
    | 2 => simp [demoCfg] at h; rcases hc with rfl | rfl <;> rcases hk with rfl | rfl <;> simp at h
    | _ + 3 => simp [demoCfg] at h
  defaults id n sc dflt h := by
    match id with
    | 0 => simp [demoCfg] at h; obtain ⟨-, rfl, rfl⟩ := h; exact ⟨0, rfl, by simp [inRange]⟩
    | 1 => simp [demoCfg] at h
    | 2 => simp [demoCfg] at h; obtain ⟨-, rfl, rfl⟩ := h; exact ⟨0, rfl, by decide⟩
    | _ + 3 => simp [demoCfg] at h

/-- The demo message is an object of its type. -/
theorem demo_obj : objOk demoCfg 3 0 demoMsg := by
  have empty : unkOk (demoCfg.schema 0) 1 [] := .inl rfl
  refine ⟨rfl, ?_, ?_⟩
  · intro p hp
    simp [demoCfg, demoMsg] at hp
    rcases hp with rfl | rfl | rfl | rfl | rfl | rfl
    · exact ⟨_, rfl, ⟨_, rfl, by simp [inRange]⟩, fun _ h => absurd h (by decide)⟩
    · exact .inr ⟨_, rfl, _, rfl, fun _ => by decide⟩
    · intro e he
      simp at he
      rcases he with rfl | rfl
      · exact ⟨rfl, _, rfl, by simp [inRange]⟩
      · exact ⟨rfl, _, rfl, by simp [inRange]⟩
    · refine ⟨?_, List.pairwise_singleton _ _⟩
      intro e he
      cases List.mem_singleton.1 he
      refine ⟨rfl, _, rfl, rfl, ?_, rfl⟩
      intro p hp
      simp [demoCfg] at hp
      rcases hp with rfl | rfl
      · exact ⟨_, rfl, _, rfl, by simp [inRange]⟩
      · exact ⟨_, rfl, _, rfl, fun _ => by decide⟩
    · refine .inr ⟨_, rfl, _, rfl, rfl, ?_, rfl⟩
      intro p hp
      simp [demoCfg] at hp
      subst hp
      exact ⟨_, rfl, ⟨_, rfl, by decide⟩, fun _ h => absurd h (by decide)⟩
    · refine .inr ⟨1, _, _, _, rfl, rfl, _, rfl, rfl, ?_, .inl rfl⟩
      intro p hp
      simp [demoCfg] at hp
      rcases hp with rfl | rfl | rfl | rfl | rfl | rfl
      · exact ⟨_, rfl, ⟨_, rfl, by simp [inRange]⟩, fun _ h => absurd h (by decide)⟩
      · exact .inl rfl
      · intro e he; cases he
      · exact ⟨fun e he => by (cases he), List.Pairwise.nil⟩
      · exact .inl rfl
      · exact .inl rfl
  · refine .inr ⟨[.varint 0x78 [0x78] [0x05]], by decide, by simp, ?_, ?_⟩
    · simp only [wfAll, Rec.wf, isTag, isVarint, and_true]
      decide
    · intro r hr
      cases List.mem_singleton.1 hr
      refine ⟨by decide, by decide, by simp [minimalTag, Rec.head, Rec.tag, leb], by decide⟩

/-! ## C10 -/

/-- C10. What is written by `write_binpb` is read back by `read_binpb` with the same
recursion limit: the result is the message that was written, except that −0.0 in a field
without presence, which is not written, is read as 0.0 (and compares equal). Writing does
succeed if the encoding is shorter than 2^31 − 1 bytes. Missing from the full claim: field
numbers from 2^25 on, for which it is false (`C10_large_number`). -/
theorem C10_round_trip_partial (C : Cfg) (hS : schemaOk C) (limit id : Nat) (m old : Msg) (buf : List Byte)
    (hm : objLike false C (limit + 1) id m) (hl : (wire C limit id m).length < 2 ^ 64) :
    (∀ out, writeBinpb C limit true id m buf = .ok (none, out) → readBinpb C limit id old out = .ok (tidy C (limit + 1) id m)) ∧
    (objOk C (limit + 1) id m → tidy C (limit + 1) id m = m) ∧
    ((wire C limit id m).length < 2 ^ 31 - 1 → ∃ out, writeBinpb C limit true id m buf = .ok (none, out)) := by
  have hN := numbers_obj hS
  obtain ⟨w1, w2⟩ := C09_written_bytes C hN limit id m buf hl
  refine ⟨?_, tidy_self _ _ _, fun h => ⟨_, w2 (nests_obj _ _ _ hm) (utf8_obj _ _ _ hm) h⟩⟩
  intro out hw
  obtain ⟨rfl, -, -, hlen⟩ := w1 out hw
  have hok := tidy_ok hS _ _ _ hm
  have he := encode_tidy _ _ _ hm
  obtain ⟨rs, -, -, -, h⟩ := below hS true (limit + 1) id _ hok (by rw [he]; exact Nat.lt_trans hlen (by decide))
  have h2 := (h (C.schema id).default (shape_default hS _ _)).2
  rw [he, merge_default hS _ _ _ hok] at h2
  rw [readBinpb_eq]
  exact (parseOnto_iff _ _ _ _ _ _).2 h2

/-- Its hypotheses are met by the demo message: 39 bytes, nested, with an unknown field. -/
example : schemaOk demoCfg ∧ objOk demoCfg (2 + 1) 0 demoMsg ∧ (wire demoCfg 2 0 demoMsg).length < 2 ^ 31 - 1 :=
  ⟨demo_schemaOk, demo_obj, by decide +kernel⟩

/-- `message B { optional uint32 big = 33554432; }`: the number is 2^25. -/
def bigCfg : Cfg where
  utf8 _ := true
  schema _ := { slots := [.field 0x2000000#32 (.scalar (.varint .u32)) .optional], unk := .none }

/-- C10 fails for a field with number 2^25: what was written is read as an unknown field, so
the message comes back empty. -/
theorem C10_large_number : ∃ out,
    writeBinpb bigCfg 100 true 0 ⟨[[(0, .num 7)]], []⟩ [] = .ok (none, out) ∧
    readBinpb bigCfg 100 0 ⟨[], []⟩ out = .ok ⟨[[]], []⟩ :=
  ⟨[0x80, 0x80, 0x80, 0x80, 0x01, 0x07], by decide +kernel, by with_unfolding_all rfl⟩

/-- −0.0 in a float field without presence is not written and comes back as 0.0. -/
theorem C10_negative_zero :
    writeBinpb demoCfg 2 true 2 ⟨[[(0, .num 0x80000000)]], []⟩ [] = .ok (none, []) ∧
    readBinpb demoCfg 2 2 ⟨[], []⟩ [] = .ok ⟨[[(0, .num 0)]], []⟩ ∧
    tidy demoCfg 3 2 ⟨[[(0, .num 0x80000000)]], []⟩ = ⟨[[(0, .num 0)]], []⟩ :=
  ⟨by decide +kernel, by with_unfolding_all rfl, by with_unfolding_all rfl⟩

/-! ## C36 -/

theorem written_records (C : Cfg) (hS : schemaOk C) {mv : Bool} {limit id : Nat} {b : Msg} (hb : objLike false C (limit + 1) id b)
    (hl : (wire C limit id b).length < 2 ^ 32) :
    ∃ rs, wfAll rs ∧ rawAll rs = wire C limit id b ∧ entryHead (C.schema id) (wire C limit id b) ∧
      ((C.schema id).isEntry = true → wire C limit id b ≠ []) ∧
      ∀ last a, shape C (limit + 1) id a →
        fold C (sem C limit) (C.schema id) last rs a (mergeMsg C mv id a (tidy C (limit + 1) id b)) := by
  have ok := tidy_ok hS _ _ _ hb
  have e := encode_tidy _ _ _ hb
  have hl' : (encode C isDefault (limit + 1) id (tidy C (limit + 1) id b)).length < 2 ^ 32 := by rw [e]; exact hl
  obtain ⟨rs, w1, w2, f⟩ := msg_records hS (below hS mv limit) ok hl'
  obtain ⟨-, -, -, h, -⟩ := below hS mv (limit + 1) id _ ok hl'
  rw [e] at w2 h
  refine ⟨rs, w1, w2, ?_, ?_, f⟩
  · intro he b l e1
    obtain ⟨b0, l0, e2, e3⟩ := h he
    cases e2.symm.trans e1; exact e3
  · intro he e1
    obtain ⟨b0, l0, e2, e3⟩ := h he
    cases e2.symm.trans e1

/-- C36. Reading the encoding of `a` followed by the encoding of `b` gives the message that
`merge(a, b)` gives, by copy or by move (up to −0.0 in fields without presence, which reading
turns into 0.0; C++ compares the two as equal). Missing from the full claim: field numbers
from 2^25 on, for which it is false (`C36_large_number`). -/
theorem C36_merge_is_parse_partial (C : Cfg) (hS : schemaOk C) (mv : Bool) (limit id : Nat) (a b old : Msg) (bufa bufb wa wb : List Byte)
    (ha : objLike false C (limit + 1) id a) (hb : objLike false C (limit + 1) id b)
    (hla : (wire C limit id a).length < 2 ^ 64) (hlb : (wire C limit id b).length < 2 ^ 64)
    (hwa : writeBinpb C limit true id a bufa = .ok (none, wa)) (hwb : writeBinpb C limit true id b bufb = .ok (none, wb)) :
    readBinpb C limit id old (wa ++ wb) = .ok (tidy C (limit + 1) id (mergeMsg C mv id a b)) := by
  have hN := numbers_obj hS
  obtain ⟨rfl, -, -, la⟩ := (C09_written_bytes C hN limit id a bufa hla).1 wa hwa
  obtain ⟨rfl, -, -, lb⟩ := (C09_written_bytes C hN limit id b bufb hlb).1 wb hwb
  obtain ⟨ra, a1, a2, a3, a4, fa⟩ := written_records C hS (mv := mv) ha (Nat.lt_trans la (by decide))
  obtain ⟨rb, b1, b2, b3, b4, fb⟩ := written_records C hS (mv := mv) hb (Nat.lt_trans lb (by decide))
  have ok := tidy_ok hS _ _ _ ha
  have f1 := fa none _ (shape_default hS _ _)
  rw [merge_default hS _ _ _ ok] at f1
  rw [tidy_merge hS (limit + 1) id a b (.inl ha) hb, readBinpb_eq]
  refine (parseOnto_iff _ _ _ _ _ _).2 ⟨ra ++ rb, wfAll_append.2 ⟨a1, b1⟩, by rw [rawAll_append, a2, b2], ?_,
    fold_append.2 ⟨_, f1, fb _ _ (shape_obj _ _ _ _ ok)⟩⟩
  intro he c l e
  cases hw : wire C limit id a with
  | nil => exact absurd hw (a4 he)
  | cons c' l' =>
    rw [hw] at e
    cases e
    exact a3 he c l' hw

/-- C36 fails for a field with number 2^25. -/
theorem C36_large_number : ∃ wa wb,
    writeBinpb bigCfg 100 true 0 ⟨[[(0, .num 7)]], []⟩ [] = .ok (none, wa) ∧
    writeBinpb bigCfg 100 true 0 ⟨[[(0, .num 8)]], []⟩ [] = .ok (none, wb) ∧
    mergeMsg bigCfg false 0 ⟨[[(0, .num 7)]], []⟩ ⟨[[(0, .num 8)]], []⟩ = ⟨[[(0, .num 8)]], []⟩ ∧
    readBinpb bigCfg 100 0 ⟨[], []⟩ (wa ++ wb) = .ok ⟨[[]], []⟩ :=
  ⟨[0x80, 0x80, 0x80, 0x80, 0x01, 0x07], [0x80, 0x80, 0x80, 0x80, 0x01, 0x08], by decide +kernel, by decide +kernel,
    by with_unfolding_all rfl, by with_unfolding_all rfl⟩

/-- C36, reading onto an object: reading the encoding of `b` into an object that holds `a`,
without clearing it first, merges. -/
theorem C36_parse_onto (C : Cfg) (hS : schemaOk C) (mv : Bool) (limit id : Nat) (a b : Msg) (buf wb : List Byte)
    (ha : objOk C (limit + 1) id a) (hb : objOk C (limit + 1) id b) (hlb : (wire C limit id b).length < 2 ^ 64)
    (hwb : writeBinpb C limit true id b buf = .ok (none, wb)) :
    parseOnto C limit id a wb = .ok (mergeMsg C mv id a b) := by
  obtain ⟨rfl, -, -, lb⟩ := (C09_written_bytes C (numbers_obj hS) limit id b buf hlb).1 wb hwb
  obtain ⟨_, _, _, _, h⟩ := below hS mv (limit + 1) id b hb (Nat.lt_trans lb (by decide))
  exact (parseOnto_iff _ _ _ _ _ _).2 (h a (shape_obj _ _ _ _ ha)).2

/-- Merging by copy and by move give the same message. -/
theorem C36_copy_is_move (C : Cfg) (hS : schemaOk C) (d id : Nat) (a b : Msg) (ha : objOk C d id a) (hb : objOk C d id b)
    (hl : (encode C isDefault d id b).length < 2 ^ 31 - 1) : mergeMsg C true id a b = mergeMsg C false id a b := by
  cases d with
  | zero => exact ha.elim
  | succ d =>
    have w := (C09_written_bytes C (numbers_obj hS) d id b [] (Nat.lt_trans hl (by decide))).2 (nests_obj _ _ _ hb) (utf8_obj _ _ _ hb) hl
    have h1 := C36_parse_onto C hS true d id a b [] _ ha hb (Nat.lt_trans hl (by decide)) w
    have h2 := C36_parse_onto C hS false d id a b [] _ ha hb (Nat.lt_trans hl (by decide)) w
    rw [h1] at h2
    injection h2

/-- The demo message merged with itself: the repeated field has four elements, the map one,
the unknown field is there twice. The bytes are those of twice the message. -/
example : ∃ m, readBinpb demoCfg 2 0 ⟨[], []⟩ (wire demoCfg 2 0 demoMsg ++ wire demoCfg 2 0 demoMsg) = .ok m ∧
    m = mergeMsg demoCfg false 0 demoMsg demoMsg ∧ (m.get 2).length = 4 ∧ (m.get 3).length = 1 ∧
    m.unk = [(0, [0x78, 0x05, 0x78, 0x05])] :=
  ⟨mergeMsg demoCfg false 0 demoMsg demoMsg, by with_unfolding_all rfl, rfl, by with_unfolding_all rfl, by with_unfolding_all rfl,
    by with_unfolding_all rfl⟩

/-! ## C35 -/

/-- A type whose oneofs have no message among their alternatives. -/
def plainOneofs (C : Cfg) : Prop := ∀ id alts, SlotD.oneof alts ∈ (C.schema id).slots → ∀ x ∈ alts, ∃ sc, x.2 = .scalar sc

/-- C35. Merging into an empty message gives the source. Merging an empty message changes
nothing if the type has no required members (and no NaN default). Merging is associative if
no oneof has a message among its alternatives. Objects merge to objects. Missing from the full claim: required
members and oneofs with messages, where it is false (`C35_required`, `C35_message_oneof`). -/
theorem C35_merge_laws_partial (C : Cfg) (hS : schemaOk C) (mv : Bool) (d id : Nat) (a b c : Msg)
    (ha : objOk C d id a) (hb : objOk C d id b) (hc : objOk C d id c) :
    mergeMsg C mv id (C.schema id).default a = a ∧
    (plainOmits (C.schema id) → mergeMsg C mv id a (C.schema id).default = a) ∧
    (plainOneofs C → mergeMsg C mv id (mergeMsg C mv id a b) c = mergeMsg C mv id a (mergeMsg C mv id b c)) ∧
    objOk C d id (mergeMsg C mv id a b) := by
  refine ⟨merge_default hS _ _ _ ha, fun h => merge_empty h ?_, fun h => merge_assoc hS h _ _ _ _ _ ha hb hc, merge_ok hS _ _ _ _ ha hb⟩
  cases d with
  | zero => exact ha.elim
  | succ d => exact ha.1

/-- `message P { int32 a = 1; repeated bytes b = 2; optional P c = 3; oneof o { bool x = 4; } }` -/
def plainCfg : Cfg where
  utf8 _ := true
  schema _ := { slots := [
    .field 1 (.scalar (.varint .i32)) (.implicit (.num 0)), .field 2 (.scalar (.str false)) (.repeated false),
    .field 3 (.msg 0) .optional, .oneof [(4, .scalar .bool)]], unk := .bytes }

theorem plain_schemaOk : schemaOk plainCfg where
  distinct id := by
    intro n i j a b ha hb h1 h2
    have slot : ∀ (i : Nat) a, (plainCfg.schema id).slots[i]? = some a → (slotKind n a).isSome → n = i + 1 := by
      intro i a ha h
      match i with
      | 0 => simp [plainCfg] at ha; subst ha; simp [slotKind] at h; omega
      | 1 => simp [plainCfg] at ha; subst ha; simp [slotKind] at h; omega
      | 2 => simp [plainCfg] at ha; subst ha; simp [slotKind] at h; omega
      | 3 => simp [plainCfg] at ha; subst ha; simp [slotKind] at h; omega
      | _ + 4 => simp [plainCfg] at ha
    have := slot i a ha h1
    have := slot j b hb h2
    omega
  alts id alts h := by simp [plainCfg] at h; subst h; decide
  oneofs id alts h := by simp [plainCfg] at h; subst h; simp
  range id n h := by
    unfold fieldKind at h
    simp [plainCfg, slotKind] at h
    have : n = 1 ∨ n = 2 ∨ n = 3 ∨ n = 4 := by
      by_cases h1 : n = 1
      · exact .inl h1
      · by_cases h2 : n = 2
        · exact .inr (.inl h2)
        · by_cases h3 : n = 3
          · exact .inr (.inr (.inl h3))
          · by_cases h4 : n = 4
            · exact .inr (.inr (.inr h4))
            · simp [Ne.symm h1, Ne.symm h2, Ne.symm h3, Ne.symm h4] at h
    omega
  maps id n k u h := by simp [plainCfg] at h
  entries id h := by simp [plainCfg] at h
  plain id n k card dflt sub h hc hk := by
    simp [plainCfg] at h; rcases hc with rfl | rfl <;> rcases hk with rfl | rfl <;> simp at h
  defaults id n sc dflt h := by simp [plainCfg] at h; obtain ⟨-, rfl, rfl⟩ := h; exact ⟨0, rfl, by simp [inRange]⟩

/-- The conditions of C35 on types are met by a recursive type with a oneof. -/
example : schemaOk plainCfg ∧ plainOneofs plainCfg ∧ plainOmits (plainCfg.schema 0) := by
  refine ⟨plain_schemaOk, ?_, ?_⟩
  · intro id alts h; simp [plainCfg] at h; subst h; simp
  · intro n k card h
    simp [plainCfg] at h
    rcases h with ⟨-, rfl, rfl⟩ | ⟨-, rfl, rfl⟩ | ⟨-, rfl, rfl⟩ <;> simp [isDefault]

/-- C35 fails where a oneof has a message alternative: `a = {y: {a: 5}}`, `b = {x: true}`,
`c = {y: {}}`. One way gives `{y: {}}`, the other `{y: {a: 5}}`. -/
theorem C35_message_oneof : ∃ a b c, objOk demoCfg 2 0 a ∧ objOk demoCfg 2 0 b ∧ objOk demoCfg 2 0 c ∧
    mergeMsg demoCfg false 0 (mergeMsg demoCfg false 0 a b) c ≠ mergeMsg demoCfg false 0 a (mergeMsg demoCfg false 0 b c) := by
  let M (x : BitVec 64) (o : List (Nat × Val)) : Msg := ⟨[[(0, .num x)], [], [], [], [], o], []⟩
  have ok : ∀ (d : Nat) (x : BitVec 64) (o : List (Nat × Val)), x = 0 ∨ x = 5 →
      slotOk true demoCfg (objOk demoCfg d) (.oneof [(6, .scalar .bool), (7, .msg 0)]) o → objOk demoCfg (d + 1) 0 (M x o) := by
    intro d x o hx ho
    refine ⟨rfl, ?_, .inl rfl⟩
    intro p hp
    simp [M, demoCfg] at hp
    rcases hp with rfl | rfl | rfl | rfl | rfl | rfl
    · refine ⟨_, rfl, ⟨_, rfl, ?_⟩, ?_⟩
      · rcases hx with rfl | rfl <;> simp [inRange]
      · rcases hx with rfl | rfl
        · intro _ _; rfl
        · intro _ h; exact absurd h (by decide)
    · exact .inl rfl
    · intro e he; cases he
    · exact ⟨fun e he => by (cases he), List.Pairwise.nil⟩
    · exact .inl rfl
    · exact ho
  refine ⟨M 0 [(1, .msg (M 5 []))], M 0 [(0, .num 1)], M 0 [(1, .msg (M 0 []))], ?_, ?_, ?_, ?_⟩
  · exact ok 1 0 _ (.inl rfl) (.inr ⟨1, 7, .msg 0, _, rfl, rfl, _, rfl, ok 0 5 [] (.inr rfl) (.inl rfl)⟩)
  · exact ok 1 0 _ (.inl rfl) (.inr ⟨0, 6, .scalar .bool, _, rfl, rfl, .inr rfl⟩)
  · exact ok 1 0 _ (.inl rfl) (.inr ⟨1, 7, .msg 0, _, rfl, rfl, _, rfl, ok 0 0 [] (.inl rfl) (.inl rfl)⟩)
  · intro h
    have := congrArg (wire demoCfg 1 0) h
    exact absurd this (by decide +kernel)

/-- `message R { required int32 r = 1; }` -/
def requiredCfg : Cfg where
  utf8 _ := true
  schema _ := { slots := [.field 1 (.scalar (.varint .i32)) (.always (.num 0))], unk := .none }

/-- C35 fails for required members: merging an empty message resets them. -/
theorem C35_required : objOk requiredCfg 1 0 ⟨[[(0, .num 5)]], []⟩ ∧
    mergeMsg requiredCfg false 0 ⟨[[(0, .num 5)]], []⟩ (requiredCfg.schema 0).default = ⟨[[(0, .num 0)]], []⟩ := by
  refine ⟨⟨rfl, ?_, rfl⟩, by with_unfolding_all rfl⟩
  intro p hp
  simp [requiredCfg] at hp
  subst hp
  exact ⟨_, rfl, _, rfl, by simp [inRange]⟩

end HppProto.Props
