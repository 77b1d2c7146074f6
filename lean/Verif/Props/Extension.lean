import Verif.Proofs.Extension
/-!
# Claims C42 and C43: `Any` and extensions

`extSet C limit owning ext n m x` is `x.set_to(m)` for an extension `x` with number `n` and
type `ext`; it gives the status and the changed message. `extGet` is `x.get_from(m)` and gives
the extension object after the call; `extIn` is `in(m)`. `owning` is true if the message keeps
its extensions in an associative container, as it does with the default traits; otherwise it
keeps a list of pairs. `wire C limit ext x` is the encoding of the extension. `tidy` (C10) only
replaces −0.0 by 0.0 in a field without presence.
-/
namespace HppProto.Props
open HppProto HppProto.Spec

/-! ## C43 -/

/-- C43. If `set_to` succeeds and the extension has a non-empty encoding (and, for a list of
pairs, the extension was not set before), then `in` is true, `get_from` into any object gives
the value that was set, and members and all other extensions, of whatever type, are
as they were. Missing from the full claim: values with an empty encoding and second settings in
a list of pairs, where it is false (`C43_empty_ignored`, `C43_list_accumulates`). -/
theorem C43_set_get_partial (C : Cfg) (hS : schemaOk C) (limit ext : Nat) (owning : Bool) (n : BitVec 32) (m m' x : Msg)
    (hx : objLike false C (limit + 1) ext x) (hl : (wire C limit ext x).length < 2 ^ 64)
    (hset : extSet C limit owning ext n m x = .ok (none, m')) (h0 : wire C limit ext x ≠ [])
    (hf : owning = false → extIn n m = false) :
    extIn n m' = true ∧ (∀ old, extGet C limit owning ext n m' old = .ok (tidy C (limit + 1) ext x)) ∧
    m'.slots = m.slots ∧
    ∀ limit' ext' n' old, n' ≠ n → extIn n' m' = extIn n' m ∧
      extGet C limit' owning ext' n' m' old = extGet C limit' owning ext' n' m old := by
  obtain ⟨hlen, -, rfl⟩ := extSet_ok hS hl hset
  rw [if_neg h0]
  cases owning with
  | true =>
    simp only [if_true]
    have hfind := fun k => extFind_assign (n := n) (k := k) (data := wire C limit ext x) m.unk
    refine ⟨?_, fun old => ?_, trivial, fun limit' ext' n' old hn => ⟨?_, ?_⟩⟩
    · unfold extIn; rw [← extFind_in, hfind, if_pos rfl]; rfl
    · unfold extGet
      simp only [if_true, hfind]
      exact read_wire hS hx hlen old
    · unfold extIn; rw [← extFind_in, hfind, if_neg hn, extFind_in]
    · unfold extGet; simp only [if_true, hfind, if_neg hn]
  | false =>
    have ha := hf rfl
    unfold extIn at ha
    simp only [Bool.false_eq_true, if_false]
    have hother : ∀ n', n' ≠ n → (decide (n.toNat = n'.toNat)) = false := fun n' hn => by
      simp only [decide_eq_false_iff_not]
      exact fun e => hn (BitVec.eq_of_toNat_eq e.symm)
    refine ⟨?_, fun old => ?_, trivial, fun limit' ext' n' old hn => ⟨?_, ?_⟩⟩
    · simp [extIn]
    · unfold extGet
      rw [if_neg (by simp), if_pos (by simp)]
      rw [getEntries_append, getEntries_skip ha]
      simp only [Res.bind, getEntries, if_true]
      have := read_wire hS hx hlen old
      unfold readBinpb at this
      rw [this]
      rfl
    · simp only [extIn, List.any_append, List.any_cons, List.any_nil, hother n' hn, Bool.or_false]
    · unfold extGet
      rw [if_neg (by simp)]
      simp only [Bool.false_eq_true, if_false, List.any_append, List.any_cons, List.any_nil, hother n' hn, Bool.or_false]
      split
      · rw [getEntries_append]
        cases getEntries C limit' ext' n' m.unk ((C.schema ext').reset old) with
        | ok y =>
          simp only [Res.bind, getEntries]
          rw [if_neg (fun e => hn (BitVec.eq_of_toNat_eq e.symm))]
        | _ => rfl
      · rfl

/-- C43, through the wire. If moreover the number is not that of a member of the message, and
the message is written and read back, then `get_from` on what was read gives the value that was
set, and every other extension reads as before. -/
theorem C43_survives_partial (C : Cfg) (hS : schemaOk C) (limit ext id : Nat) (owning : Bool) (n : BitVec 32) (m m' m'' x old : Msg)
    (out buf : List Byte)
    (he : extensionType (C.schema ext) n) (hu : (C.schema id).unk = .ext) (hk : fieldKind (C.schema id) n.toNat = none)
    (hm : objLike false C (limit + 1) id m) (hx : objLike false C (limit + 1) ext x) (hl : (wire C limit ext x).length < 2 ^ 64)
    (hset : extSet C limit owning ext n m x = .ok (none, m')) (h0 : wire C limit ext x ≠ [])
    (hf : owning = false → extIn n m = false) (hl' : (wire C limit id m').length < 2 ^ 64)
    (hw : writeBinpb C limit true id m' buf = .ok (none, out)) (hr : readBinpb C limit id old out = .ok m'') :
    (∀ old, extGet C limit owning ext n m'' old = .ok (tidy C (limit + 1) ext x)) ∧
    ∀ limit' ext' n' old, n' ≠ n → extIn n' m'' = extIn n' m ∧
      extGet C limit' owning ext' n' m'' old = extGet C limit' owning ext' n' m old := by
  obtain ⟨-, g1, g2, g3⟩ := C43_set_get_partial C hS limit ext owning n m m' x hx hl hset h0 hf
  obtain ⟨hlen, -, hm'⟩ := extSet_ok hS hl hset
  rw [if_neg h0] at hm'
  obtain ⟨m1, m2, m3⟩ := hm
  unfold unkOk at m3
  rw [hu] at m3
  obtain ⟨rs, e1, e2, e3⟩ := ext_unknown hS he hk hx hlen h0
  have hobj : objLike false C (limit + 1) id m' := by
    refine ⟨by rw [g2]; exact m1, by rw [g2]; exact m2, ?_⟩
    unfold unkOk
    rw [hu, hm']
    cases owning with
    | true =>
      simp only [if_true]
      refine ⟨?_, fun u h => ?_⟩
      · rw [assign_keys]
        split
        · exact m3.1
        · rename_i hni
          rw [List.nodup_append]
          refine ⟨m3.1, by simp, ?_⟩
          intro a ha b hb
          cases List.mem_singleton.1 hb
          rintro rfl
          exact hni ha
      · rcases assign_mem h with rfl | h
        · exact ⟨rs, e1, e2, e3⟩
        · exact m3.2 u h
    | false =>
      simp only [Bool.false_eq_true, if_false]
      have ha := hf rfl
      refine ⟨?_, fun u h => ?_⟩
      · rw [List.map_append, List.nodup_append]
        refine ⟨m3.1, by simp, ?_⟩
        intro a ha' b hb
        have : b = n.toNat := by simpa using hb
        subst this
        rintro rfl
        obtain ⟨q, q1, q2⟩ := List.mem_map.1 ha'
        unfold extIn at ha
        rw [List.any_eq_false] at ha
        exact ha q q1 (by simpa using q2)
      · rcases List.mem_append.1 h with h | h
        · exact m3.2 u h
        · cases List.mem_singleton.1 h
          exact ⟨rs, e1, e2, e3⟩
  have hread := (C10_round_trip_partial C hS limit id m' old buf hobj hl').1 out hw
  rw [hread] at hr
  injection hr with hr
  have hunk : m''.unk = m'.unk := by rw [← hr]; rfl
  have hget : ∀ limit' ext' n' old, extGet C limit' owning ext' n' m'' old = extGet C limit' owning ext' n' m' old := by
    intro limit' ext' n' old; unfold extGet; rw [hunk]
  refine ⟨fun old => by rw [hget]; exact g1 old, fun limit' ext' n' old hn => ?_⟩
  rw [hget]
  refine ⟨?_, (g3 limit' ext' n' old hn).2⟩
  rw [← (g3 limit' ext' n' old hn).1]
  unfold extIn; rw [hunk]

/-- C43, an extension that was never set: `in` is false and `get_from` leaves the object as it
is. -/
theorem C43_absent (C : Cfg) (limit ext : Nat) (owning : Bool) (n : BitVec 32) (m x : Msg) (h : extIn n m = false) :
    extGet C limit owning ext n m x = .ok x := by
  unfold extGet
  cases owning with
  | true =>
    have : extFind n m.unk = none := by
      unfold extIn at h
      rw [← extFind_in] at h
      simpa using h
    simp [this]
  | false =>
    unfold extIn at h
    simp [h]

/-- Where C43 fails: a value whose encoding is empty is not stored, and does not remove what was
stored. -/
theorem C43_empty_ignored (C : Cfg) (hS : schemaOk C) (limit ext : Nat) (owning : Bool) (n : BitVec 32) (m m' x : Msg)
    (h0 : wire C limit ext x = []) (hset : extSet C limit owning ext n m x = .ok (none, m')) : m' = m := by
  obtain ⟨-, -, h⟩ := extSet_ok hS (by rw [h0]; decide) hset
  rw [h, if_pos h0]

/-- Where C43 fails, second settings in a list of pairs: `get_from` then gives the earlier value
merged with the later one. -/
theorem C43_list_accumulates (C : Cfg) (hS : schemaOk C) (limit ext : Nat) (n : BitVec 32) (m m' x y old : Msg)
    (hx : objOk C (limit + 1) ext x) (hy : objOk C (limit + 1) ext y) (hl : (wire C limit ext x).length < 2 ^ 64)
    (hin : extIn n m = true) (hget : extGet C limit false ext n m old = .ok y)
    (hset : extSet C limit false ext n m x = .ok (none, m')) (h0 : wire C limit ext x ≠ []) :
    extGet C limit false ext n m' old = .ok (mergeMsg C false ext y x) := by
  obtain ⟨hlen, hw, rfl⟩ := extSet_ok hS hl hset
  rw [if_neg h0]
  unfold extIn at hin
  unfold extGet at hget ⊢
  rw [if_neg (by simp), if_pos hin] at hget
  rw [if_neg (by simp), if_pos (by simp)]
  simp only [Bool.false_eq_true, if_false]
  rw [getEntries_append, hget]
  simp only [Res.bind, getEntries, if_true]
  have := C36_parse_onto C hS false limit ext y x [] _ hy hx (Nat.lt_trans hlen (by decide)) hw
  rw [this]
  rfl

/-- `message M { optional int32 a = 1; extensions 100 to max; }`
`extend M { int32 x = 100 [implicit]; repeated int32 y = 101; E z = 102; }` with a nested message. -/
def extCfg : Cfg where
  utf8 _ := true
  schema
    | 0 => { slots := [.field 1 (.scalar (.varint .i32)) .optional], unk := .ext }
    | 1 => { slots := [.field 100 (.scalar (.varint .i32)) (.implicit (.num 0))], unk := .none }
    | 2 => { slots := [.field 101 (.scalar (.varint .i32)) (.repeated false)], unk := .none }
    | 3 => { slots := [.field 102 (.group 0) .optional], unk := .none }
    | _ => { slots := [], unk := .none }

theorem ext_schemaOk : schemaOk extCfg := by
  have one : ∀ id, (∃ n k c, (extCfg.schema id).slots = [.field n k c] ∧ 0 < n.toNat ∧ n.toNat < 2 ^ 25) ∨ (extCfg.schema id).slots = [] := by
    intro id
    match id with
    | 0 => exact .inl ⟨_, _, _, rfl, by decide, by decide⟩
    | 1 => exact .inl ⟨_, _, _, rfl, by decide, by decide⟩
    | 2 => exact .inl ⟨_, _, _, rfl, by decide, by decide⟩
    | 3 => exact .inl ⟨_, _, _, rfl, by decide, by decide⟩
    | _ + 4 => exact .inr rfl
  have noOne : ∀ id alts, SlotD.oneof alts ∉ (extCfg.schema id).slots := by
    intro id alts h
    rcases one id with ⟨n, k, c, e, -⟩ | e <;> rw [e] at h <;> simp at h
  refine ⟨?_, fun id alts h => absurd h (noOne id alts), fun id alts h => absurd h (noOne id alts), ?_, ?_, ?_, ?_, ?_⟩
  · intro id n i j a b ha hb _ _
    rcases one id with ⟨n, k, c, e, -⟩ | e <;> rw [e] at ha hb
    · match i, j with
      | 0, 0 => rfl
      | _ + 1, _ => simp at ha
      | _, _ + 1 => simp at hb
    · simp at ha
  · intro id n h
    rcases one id with ⟨m, k, c, e, h1, h2⟩ | e
    · simp only [fieldKind, e, List.findSome?_cons, List.findSome?_nil, slotKind] at h
      split at h
      · rename_i x he
        split at he
        · rename_i hh; exact hh ▸ ⟨h1, h2⟩
        · cases he
      · cases h
    · simp [fieldKind, e] at h
  · intro id n k u h
    match id with
    | 0 => simp [extCfg] at h
    | 1 => simp [extCfg] at h
    | 2 => simp [extCfg] at h
    | 3 => simp [extCfg] at h
    | _ + 4 => simp [extCfg] at h
  · intro id h
    match id with
    | 0 => simp [extCfg] at h
    | 1 => simp [extCfg] at h
    | 2 => simp [extCfg] at h
    | 3 => simp [extCfg] at h
    | _ + 4 => simp [extCfg] at h
  · intro id n k card dflt sub h hc hk
    match id with
    | 0 => simp [extCfg] at h; rcases hc with rfl | rfl <;> rcases hk with rfl | rfl <;> simp at h
    | 1 => simp [extCfg] at h; rcases hc with rfl | rfl <;> rcases hk with rfl | rfl <;> simp at h
    | 2 => simp [extCfg] at h; rcases hc with rfl | rfl <;> rcases hk with rfl | rfl <;> simp at h
    | 3 => simp [extCfg] at h; rcases hc with rfl | rfl <;> rcases hk with rfl | rfl <;> simp at h
    | _ + 4 => simp [extCfg] at h
  · intro id n sc dflt h
    match id with
    | 0 => simp [extCfg] at h
    | 1 => simp [extCfg] at h; obtain ⟨-, rfl, rfl⟩ := h; exact ⟨0, rfl, by simp [inRange]⟩
    | 2 => simp [extCfg] at h
    | 3 => simp [extCfg] at h
    | _ + 4 => simp [extCfg] at h

/-- A group extension holding a message, set on a message that has extension 101 already. -/
def extM : Msg := ⟨[[(0, .num 5)]], [(101, [0xa8, 0x06, 0x01])]⟩
def extX : Msg := ⟨[[(0, .msg ⟨[[(0, .num 7)]], []⟩)]], []⟩

/-- The hypotheses of the two theorems are met, and the results are as expected, in both
kinds of storage. -/
example : extensionType (extCfg.schema 3) 102 ∧ (extCfg.schema 0).unk = .ext ∧ fieldKind (extCfg.schema 0) 102 = none ∧
    wire extCfg 9 3 extX = [0xb3, 0x06, 0x08, 0x07, 0xb4, 0x06] ∧ extIn 102 extM = false := by
  refine ⟨⟨⟨_, _, rfl⟩, rfl, rfl⟩, rfl, rfl, by decide +kernel, by decide⟩

example (owning : Bool) : extSet extCfg 9 owning 3 102 extM extX = .ok (none, { extM with unk :=
      [(101, [0xa8, 0x06, 0x01]), (102, [0xb3, 0x06, 0x08, 0x07, 0xb4, 0x06])] }) := by
  cases owning <;> with_unfolding_all rfl

theorem extX_obj : objOk extCfg 10 3 extX := by
  refine ⟨rfl, ?_, rfl⟩
  intro p hp
  simp [extCfg, extX] at hp
  subst hp
  refine .inr ⟨_, rfl, _, rfl, rfl, ?_, by simp [unkOk, extCfg]⟩
  intro p hp
  simp [extCfg] at hp
  subst hp
  exact .inr ⟨_, rfl, _, rfl, by simp [inRange]⟩

theorem extM_obj : objOk extCfg 10 0 extM := by
  refine ⟨rfl, ?_, ?_⟩
  · intro p hp
    simp [extCfg, extM] at hp
    subst hp
    exact .inr ⟨_, rfl, _, rfl, by simp [inRange]⟩
  · refine ⟨by simp [extM], fun u hu => ?_⟩
    simp [extM] at hu
    subst hu
    refine ⟨[.varint 0x328 [0xa8, 0x06] [0x01]], by decide, ⟨by simp, ?_, ?_⟩, ?_⟩
    · simp only [wfAll, Rec.wf, isTag, isVarint, and_true]
      decide
    · intro r hr
      cases List.mem_singleton.1 hr
      refine ⟨by decide, rfl, ?_, by decide⟩
      simp [minimalTag, Rec.head, Rec.tag, leb]
    · intro r hr
      cases List.mem_singleton.1 hr
      decide

/-- C43 is false for an empty encoding: extension 100 holds 5, is set to 0, and reads 5. The
status of the call is success. -/
theorem C43_empty_wrong (owning : Bool) :
    extSet extCfg 9 owning 1 100 ⟨[[]], []⟩ ⟨[[(0, .num 5)]], []⟩ = .ok (none, ⟨[[]], [(100, [0xa0, 0x06, 0x05])]⟩) ∧
    extSet extCfg 9 owning 1 100 ⟨[[]], [(100, [0xa0, 0x06, 0x05])]⟩ ⟨[[(0, .num 0)]], []⟩ =
      .ok (none, ⟨[[]], [(100, [0xa0, 0x06, 0x05])]⟩) ∧
    extGet extCfg 9 owning 1 100 ⟨[[]], [(100, [0xa0, 0x06, 0x05])]⟩ ⟨[[(0, .num 0)]], []⟩ = .ok ⟨[[(0, .num 5)]], []⟩ := by
  cases owning <;> refine ⟨by with_unfolding_all rfl, by with_unfolding_all rfl, by with_unfolding_all rfl⟩

/-- C43 is false for a list of pairs: extension 101 is set to [1], then to [2], and reads [1, 2].
In an associative container it reads [2]. -/
theorem C43_list_wrong :
    extSet extCfg 9 false 2 101 ⟨[[]], [(101, [0xa8, 0x06, 0x01])]⟩ ⟨[[(0, .num 2)]], []⟩ =
      .ok (none, ⟨[[]], [(101, [0xa8, 0x06, 0x01]), (101, [0xa8, 0x06, 0x02])]⟩) ∧
    extGet extCfg 9 false 2 101 ⟨[[]], [(101, [0xa8, 0x06, 0x01]), (101, [0xa8, 0x06, 0x02])]⟩ ⟨[[]], []⟩ =
      .ok ⟨[[(0, .num 1), (0, .num 2)]], []⟩ ∧
    extSet extCfg 9 true 2 101 ⟨[[]], [(101, [0xa8, 0x06, 0x01])]⟩ ⟨[[(0, .num 2)]], []⟩ =
      .ok (none, ⟨[[]], [(101, [0xa8, 0x06, 0x02])]⟩) ∧
    extGet extCfg 9 true 2 101 ⟨[[]], [(101, [0xa8, 0x06, 0x02])]⟩ ⟨[[]], []⟩ = .ok ⟨[[(0, .num 2)]], []⟩ :=
  ⟨by with_unfolding_all rfl, by with_unfolding_all rfl, by with_unfolding_all rfl, by with_unfolding_all rfl⟩

/-! ## C42

`name` is the full name of message type `id`. -/

/-- A message type name: letters, digits, underscores and dots, so no slash and no zero. -/
def typeName (name : List Byte) : Prop := ∀ c ∈ name, c ≠ 0x2f ∧ c ≠ 0

/-- C42, exact acceptance. `unpack_any` reads the value if the type URL is anything followed by a
slash and the name of the type. It refuses every other type URL, those without a slash among
them, without looking at the value. -/
theorem C42_unpack (C : Cfg) (limit id : Nat) (name : List Byte) (hn : typeName name) (a : AnyMsg) (m : Msg) :
    ((∃ pre, a.typeUrl = pre ++ 0x2f :: name) → unpackAny C limit name id a m = readBinpb C limit id m a.value) ∧
    ((¬ ∃ pre, a.typeUrl = pre ++ 0x2f :: name) → unpackAny C limit name id a m = .err .invalidArgument) := by
  have hname := messageName_eq (fun c h => (hn c h).2)
  have hslash : (0x2f : Byte) ∉ name := fun h => (hn _ h).1 rfl
  constructor
  · rintro ⟨pre, e⟩
    unfold unpackAny
    rw [e, rfind_split hslash]
    simp only [Nat.zero_add]
    rw [if_pos]
    rw [hname, show pre ++ (0x2f : Byte) :: name = (pre ++ [0x2f]) ++ name by simp,
      show pre.length + 1 = (pre ++ [(0x2f : Byte)]).length by simp, List.drop_left]
  · intro hne
    unfold unpackAny
    by_cases h : (0x2f : Byte) ∈ a.typeUrl
    · obtain ⟨pre, rest, e, hr⟩ := last_split h
      rw [e, rfind_split hr]
      simp only [Nat.zero_add]
      rw [if_neg]
      rw [hname, show pre ++ (0x2f : Byte) :: rest = (pre ++ [0x2f]) ++ rest by simp,
        show pre.length + 1 = (pre ++ [(0x2f : Byte)]).length by simp, List.drop_left]
      rintro rfl
      exact hne ⟨pre, e⟩
    · rw [rfind_none.2 h]

/-- C42. A packed message is unpacked, into an object with any contents, as an equal message of
the same type (equal up to −0.0, see C10); unpacking it as a type with another name is refused. -/
theorem C42_pack_unpack (C : Cfg) (hS : schemaOk C) (limit id : Nat) (name : List Byte) (hn : typeName name) (a a' : AnyMsg) (m : Msg)
    (hm : objLike false C (limit + 1) id m) (hl : (wire C limit id m).length < 2 ^ 64)
    (hp : packAny C limit name id a m = .ok (none, a')) :
    (∀ old, unpackAny C limit name id a' old = .ok (tidy C (limit + 1) id m)) ∧
    ∀ limit' name' id' old, typeName name' → name' ≠ name → unpackAny C limit' name' id' a' old = .err .invalidArgument := by
  unfold packAny at hp
  change Res.bind _ _ = _ at hp
  have hnp : (0x2f : Byte) ∉ b!"type.googleapis.com" := by decide
  have hurl : messageTypeUrl name = b!"type.googleapis.com" ++ 0x2f :: name := rfl
  cases hw : writeBinpb C limit true id m a.value with
  | ok r =>
    obtain ⟨e, data⟩ := r
    rw [hw] at hp
    simp only [Res.bind] at hp
    injection hp with hp
    injection hp with h1 h2
    subst h1 h2
    refine ⟨fun old => ?_, fun limit' name' id' old hn' hne => ?_⟩
    · rw [(C42_unpack C limit id name hn _ old).1 ⟨_, hurl⟩]
      exact (C10_round_trip_partial C hS limit id m old _ hm hl).1 data hw
    · refine (C42_unpack C limit' id' name' hn' _ old).2 ?_
      rintro ⟨pre, e⟩
      apply hne
      have e' : b!"type.googleapis.com" ++ 0x2f :: name = pre ++ 0x2f :: name' := e
      have s1 := rfind_split (pre := b!"type.googleapis.com") (s := name) (i := 0) (fun h => (hn _ h).1 rfl)
      rw [e', rfind_split (fun h => (hn' _ h).1 rfl)] at s1
      have hlen : pre.length = (b!"type.googleapis.com").length := by
        simp only [Nat.zero_add, Option.some.injEq] at s1; exact s1
      have := (List.append_inj e' hlen.symm).2
      exact (List.cons.inj this).2.symm
  | _ => rw [hw] at hp; simp [Res.bind] at hp

/-- C42, packing does not fail on objects that are not too large, and the URL is the usual one. -/
theorem C42_pack_ok (C : Cfg) (hS : schemaOk C) (limit id : Nat) (name : List Byte) (a : AnyMsg) (m : Msg)
    (hm : objLike false C (limit + 1) id m) (hl : (wire C limit id m).length < 2 ^ 31 - 1) :
    packAny C limit name id a m = .ok (none, ⟨b!"type.googleapis.com/" ++ name, wire C limit id m⟩) := by
  unfold packAny
  change Res.bind _ _ = _
  rw [(C09_written_bytes C (numbers_obj hS) limit id m a.value (Nat.lt_trans hl (by decide))).2 (nests_obj _ _ _ hm) (utf8_obj _ _ _ hm) hl]
  rfl

/-- The demo message as `google.protobuf.Any` under the name `p.Demo`. -/
example : typeName b!"p.Demo" ∧ (wire demoCfg 2 0 demoMsg).length < 2 ^ 31 - 1 ∧ objOk demoCfg 3 0 demoMsg ∧
    unpackAny demoCfg 2 b!"p.Demo" 0 ⟨b!"/p.Demo", []⟩ ⟨[], []⟩ = .ok (demoCfg.schema 0).default ∧
    unpackAny demoCfg 2 b!"p.Demo" 0 ⟨b!"p.Demo", []⟩ ⟨[], []⟩ = .err .invalidArgument :=
  ⟨by unfold typeName; decide, by decide +kernel, demo_obj, by with_unfolding_all rfl, by with_unfolding_all rfl⟩

end HppProto.Props
