import Verif.Proofs.ReadMembers
import Verif.Props.Read
/-!
# Claims C20–C26, C51: what reading does to unknown fields, members and nesting

`Spec.recordsOf sd rs` are the records that belong to a member, `Spec.recVals` the scalars
in a record whether packed or not, `Spec.outside` those outside a closed enum,
`Spec.keptAs` what is kept of a record (`Verif/Spec/Values.lean`).
-/
namespace HppProto.Props
open HppProto HppProto.Spec

/-! ## C20 -/

/-- C20 and C22, types with unknown-field storage (`unknown_fields`). The storage holds,
record by record in input order, the bytes of each unknown record, one record for each
number outside a closed enum, and nothing for other records. Condition: unknown records
have minimal tags (otherwise false, `C20_overlong_corrupted`). -/
theorem C20_unknown_fields (C : Cfg) (limit id : Nat) (old m : Msg) (buf : List Byte) (rs : List Rec)
    (hu : (C.schema id).unk = .bytes) (hi : noImplicitClosed (C.schema id))
    (h : readBinpb C limit id old buf = .ok m) (hw : wfAll rs) (he : rawAll rs = buf)
    (hmin : ∀ r ∈ rs, fieldKind (C.schema id) (tagNum r.tag) = none → minimalTag r) :
    ∃ parts : List (List Byte), parts.length = rs.length ∧
      (∀ p ∈ rs.zip parts, keptAs (C.schema id) p.1 p.2) ∧ kept m = parts.flatten := by
  rw [readBinpb_eq] at h
  obtain ⟨rs', w', e', -, f⟩ := (parseOnto_iff _ _ _ _ _ _).1 h
  cases recs_unique hw w' (he.trans e'.symm)
  obtain ⟨nd, ks, parts, h1, h2, h3⟩ := fold_keptAs (by rw [hu]; simp) hi hw (m := (C.schema id).default) (by simp [MsgD.default]) f hmin
  refine ⟨parts, h1, h2, ?_⟩
  have z : ∀ p ∈ m.unk, p.1 = 0 := by
    intro p hp
    rcases ks p.1 (List.mem_map.2 ⟨p, hp, rfl⟩) with h | ⟨r, -, e⟩
    · simp [MsgD.default] at h
    · rw [e, hu]; rfl
  have e0 : kept m = keptUnder m 0 := by
    unfold kept keptUnder
    rw [List.filter_eq_self.2 (fun p hp => by simpa using z p hp)]
  rw [e0, h3, hu]
  have : (rs.zip parts).filter (fun p => decide (0 = keyOf .bytes (tagNum p.1.tag))) = rs.zip parts := by
    apply List.filter_eq_self.2; intro p _; simp [keyOf]
  rw [this]
  have e1 : ∀ (a : List Rec) (b : List (List Byte)), b.length = a.length → (a.zip b).flatMap Prod.snd = b.flatten := by
    intro a b hl
    rw [List.flatMap_def, List.map_snd_zip (by omega)]
  rw [e1 _ _ h1]
  simp [keptUnder, MsgD.default]

/-- C20, types without closed-enum fields: exactly the unknown records, byte for byte. -/
theorem C20_unknown_exact (C : Cfg) (limit id : Nat) (old m : Msg) (buf : List Byte) (rs : List Rec)
    (hu : (C.schema id).unk = .bytes)
    (hc : ∀ n vs, fieldKind (C.schema id) n ≠ some (.scalar (.enum (some vs))))
    (h : readBinpb C limit id old buf = .ok m) (hw : wfAll rs) (he : rawAll rs = buf)
    (hmin : ∀ r ∈ rs, fieldKind (C.schema id) (tagNum r.tag) = none → minimalTag r) :
    kept m = (rs.filter (fun r => (fieldKind (C.schema id) (tagNum r.tag)).isNone)).flatMap Rec.raw := by
  rw [readBinpb_eq] at h
  obtain ⟨rs', w', e', -, f⟩ := (parseOnto_iff _ _ _ _ _ _).1 h
  cases recs_unique hw w' (he.trans e'.symm)
  -- a closed enum without presence cannot be first with its number and still have another kind
  have key : ∀ {rs last m m'}, (m.unk.map Prod.fst).Nodup → (∀ p ∈ m.unk, p.1 = 0) →
      (∀ r ∈ rs, fieldKind (C.schema id) (tagNum r.tag) = none → minimalTag r) →
      fold C (sem C limit) (C.schema id) last rs m m' →
      kept m' = kept m ++ (rs.filter (fun r => (fieldKind (C.schema id) (tagNum r.tag)).isNone)).flatMap Rec.raw := by
    intro rs
    induction rs with
    | nil => intro last m m' _ _ _ h; cases h; simp
    | cons r rs ih =>
      intro last m m' nd z hmin h
      obtain ⟨m1, ⟨-, s⟩, f⟩ := h
      split at s
      · rename_i i hfi
        obtain ⟨sd, hs, s⟩ := s
        obtain ⟨es', u, k1, rfl⟩ := slotStep_eff.1 s
        obtain ⟨-, d2⟩ := slotEff_divert (find_has hfi hs) k1
        have hu0 : u = [] := by
          by_cases e : u = []
          · exact e
          · obtain ⟨vs, hk⟩ := d2 e
            exact absurd ((fieldKind_uses hfi hs).2 hk) (hc _ _)
        subst hu0
        have hk : fieldKind (C.schema id) (tagNum r.tag) ≠ none := by
          intro e; rw [← tagNumber_toNat, fieldKind_none, hfi] at e; cases e
        rw [ih (m := m.put i es') nd z (fun q hq => hmin q (List.mem_cons_of_mem _ hq)) f,
          List.filter_cons_of_neg (by simpa using hk)]
        rfl
      · rename_i hfi
        obtain ⟨-, rfl⟩ := s
        have hk : fieldKind (C.schema id) (tagNum r.tag) = none := by rw [← tagNumber_toNat, fieldKind_none, hfi]
        have cm := captured_minimal (hmin r List.mem_cons_self hk) (contd last r)
        rw [cm] at f
        have a := addUnk_kept (m := m) (mode := (C.schema id).unk) (by rw [hu]; simp) nd (tagNumber r.tag) r.raw
        have z1 : ∀ p ∈ (m.addUnk (C.schema id).unk (tagNumber r.tag) r.raw).unk, p.1 = 0 := by
          intro p hp
          rw [hu] at hp
          rcases ((unkAppend_keys 0 r.raw m.unk nd).2 p.1).1 (List.mem_map.2 ⟨p, hp, rfl⟩) with h | h
          · exact h
          · obtain ⟨q, hq, e⟩ := List.mem_map.1 h; rw [← e]; exact z q hq
        have e0 : ∀ m : Msg, (∀ p ∈ m.unk, p.1 = 0) → kept m = keptUnder m 0 := by
          intro m z
          unfold kept keptUnder
          rw [List.filter_eq_self.2 (fun p hp => by simpa using z p hp)]
        rw [ih a.1 z1 (fun q hq => hmin q (List.mem_cons_of_mem _ hq)) f, e0 _ z1, a.2 0, e0 m z,
          List.filter_cons_of_pos (by simp [hk])]
        simp [hu, keyOf]
  have := key (m := (C.schema id).default) (by simp [MsgD.default]) (by simp [MsgD.default]) hmin f
  simpa [kept, MsgD.default] using this

/-- C20, types whose storage is keyed by field number (extensions): under each number, its
records in order. -/
theorem C20_extensions (C : Cfg) (limit id : Nat) (old m : Msg) (buf : List Byte) (rs : List Rec)
    (hu : (C.schema id).unk = .ext) (hi : noImplicitClosed (C.schema id))
    (h : readBinpb C limit id old buf = .ok m) (hw : wfAll rs) (he : rawAll rs = buf)
    (hmin : ∀ r ∈ rs, fieldKind (C.schema id) (tagNum r.tag) = none → minimalTag r) :
    ∃ parts : List (List Byte), parts.length = rs.length ∧
      (∀ p ∈ rs.zip parts, keptAs (C.schema id) p.1 p.2) ∧
      (m.unk.map Prod.fst).Nodup ∧
      ∀ n, keptUnder m n = ((rs.zip parts).filter (fun p => n = tagNum p.1.tag)).flatMap Prod.snd := by
  rw [readBinpb_eq] at h
  obtain ⟨rs', w', e', -, f⟩ := (parseOnto_iff _ _ _ _ _ _).1 h
  cases recs_unique hw w' (he.trans e'.symm)
  obtain ⟨nd, -, parts, h1, h2, h3⟩ := fold_keptAs (by rw [hu]; simp) hi hw (m := (C.schema id).default) (by simp [MsgD.default]) f hmin
  refine ⟨parts, h1, h2, nd, fun n => ?_⟩
  rw [h3, hu]
  have e : keptUnder (C.schema id).default n = [] := rfl
  rw [e, List.nil_append]
  rfl

/-- C20, re-emission: the encoding of a message ends with what it keeps. -/
theorem C20_reemitted (C : Cfg) (limit id : Nat) (m : Msg) : ∃ members, wire C limit id m = members ++ kept m := ⟨_, rfl⟩

/-- C20, no influence: dropping the unknown records leaves every member as it was; and a
type without storage keeps nothing. -/
theorem C20_no_influence (C : Cfg) (limit id : Nat) (old m : Msg) (buf : List Byte) (rs : List Rec)
    (hE : (C.schema id).isEntry = false)
    (h : readBinpb C limit id old buf = .ok m) (hw : wfAll rs) (he : rawAll rs = buf) :
    (∃ m', readBinpb C limit id old (rawAll (rs.filter (fun r => (fieldKind (C.schema id) (tagNum r.tag)).isSome))) = .ok m' ∧
      m'.slots = m.slots) ∧
    ((C.schema id).unk = .none → m.unk = []) := by
  rw [readBinpb_eq] at h ⊢
  obtain ⟨rs', w', e', -, f⟩ := (parseOnto_iff _ _ _ _ _ _).1 h
  cases recs_unique hw w' (he.trans e'.symm)
  refine ⟨?_, fun hn => fold_unk_none hn f⟩
  obtain ⟨m', f', e⟩ := fold_filter (last2 := none) (m2 := (C.schema id).default) f rfl
  exact ⟨m', (parseOnto_iff _ _ _ _ _ _).2 ⟨_, wfAll_filter hw, rfl, by simp [entryHead, hE], f'⟩, e⟩

/-- Hypotheses of the C20 theorems, met by an input with a known field and two unknown
records: `{a: 5}`, field 15 = 5, field 16 = "x". -/
example : ∃ m rs, readBinpb demoCfg 2 0 ⟨[], []⟩ [0x08, 0x05, 0x78, 0x05, 0x82, 0x01, 0x01, 0x78] = .ok m ∧
    wfAll rs ∧ rawAll rs = [0x08, 0x05, 0x78, 0x05, 0x82, 0x01, 0x01, 0x78] ∧ rs.length = 3 ∧
    (∀ r ∈ rs, minimalTag r) ∧ kept m = [0x78, 0x05, 0x82, 0x01, 0x01, 0x78] := by
  refine ⟨_, [.varint 8 [0x08] [0x05], .varint 0x78 [0x78] [0x05], .len 0x82 [0x82, 0x01] [0x01] [0x78]],
    by with_unfolding_all rfl, ?_, by decide, rfl, ?_, by decide⟩
  · simp only [wfAll, Rec.wf, isTag, isVarint, and_true]
    decide
  · simp only [minimalTag]
    decide +kernel

/-- C20 fails for an unknown record whose tag is not minimal: the first byte of the tag is
lost, and the bytes kept (and written again) are not a record at all. -/
theorem C20_overlong_corrupted : ∃ m,
    readBinpb demoCfg 2 0 ⟨[], []⟩ [0xf8, 0x00, 0x05] = .ok m ∧ kept m = [0x00, 0x05] ∧
    wire demoCfg 2 0 m = [0x00, 0x05] ∧
    readBinpb demoCfg 2 0 ⟨[], []⟩ (wire demoCfg 2 0 m) = .err .badMessage :=
  ⟨⟨[[(0, .num 0)], [], [], [], [], []], [(0, [0x00, 0x05])]⟩, by with_unfolding_all rfl, by decide, by decide +kernel,
    by with_unfolding_all rfl⟩

/-! ## C21 -/

/-- C21. A repeated scalar field holds the scalars of its records in order, whether a record
is packed or not, and whatever the declared packing `p`. (Numbers outside a closed enum are
left out, C22.) -/
theorem C21_packed_unpacked (C : Cfg) (limit id : Nat) (old m : Msg) (buf : List Byte) (rs : List Rec)
    (hd : distinctNumbers (C.schema id)) (i : Nat) (n : BitVec 32) (sc : Scalar) (p : Bool)
    (hs : (C.schema id).slots[i]? = some (.field n (.scalar sc) (.repeated p)))
    (h : readBinpb C limit id old buf = .ok m) (hw : wfAll rs) (he : rawAll rs = buf) :
    m.get i = (((recordsOf (.field n (.scalar sc) (.repeated p)) rs).flatMap (recVals sc)).filter (allowed sc)).map (fun v => (0, v)) := by
  exact slotFold_repeated (wfAll_filter hw) (read_member h hd hs hw he)

/-- C21, as interchangeability: two inputs with the same pieces for the field, grouped into
records in any way, give the same list. -/
theorem C21_same_pieces (C C' : Cfg) (limit limit' id id' : Nat) (old old' m m' : Msg) (buf buf' : List Byte) (rs rs' : List Rec)
    (hd : distinctNumbers (C.schema id)) (hd' : distinctNumbers (C'.schema id')) (i i' : Nat) (n n' : BitVec 32) (sc : Scalar) (p p' : Bool)
    (hs : (C.schema id).slots[i]? = some (.field n (.scalar sc) (.repeated p)))
    (hs' : (C'.schema id').slots[i']? = some (.field n' (.scalar sc) (.repeated p')))
    (h : readBinpb C limit id old buf = .ok m) (hw : wfAll rs) (he : rawAll rs = buf)
    (h' : readBinpb C' limit' id' old' buf' = .ok m') (hw' : wfAll rs') (he' : rawAll rs' = buf')
    (hp : (recordsOf (.field n (.scalar sc) (.repeated p)) rs).flatMap (pieces sc) =
      (recordsOf (.field n' (.scalar sc) (.repeated p')) rs').flatMap (pieces sc)) :
    m.get i = m'.get i' := by
  rw [C21_packed_unpacked C limit id old m buf rs hd i n sc p hs h hw he,
    C21_packed_unpacked C' limit' id' old' m' buf' rs' hd' i' n' sc p' hs' h' hw' he']
  have e : ∀ l : List Rec, l.flatMap (recVals sc) = (l.flatMap (pieces sc)).map (pieceVal sc) := by
    intro l; rw [List.map_flatMap]; rfl
  rw [e, e, hp]

/-- `c: [1, -1, 1]` as one packed record, and as a plain, an empty packed and a packed
record with an unknown record in between. -/
example : ∃ m m', readBinpb demoCfg 2 0 ⟨[], []⟩ [0x1a, 0x03, 0x02, 0x01, 0x02] = .ok m ∧
    readBinpb demoCfg 2 0 ⟨[], []⟩ [0x18, 0x02, 0x1a, 0x00, 0x78, 0x05, 0x1a, 0x02, 0x01, 0x02] = .ok m' ∧
    m.get 2 = [(0, .num 1), (0, .num (BitVec.ofInt 64 (-1))), (0, .num 1)] ∧ m'.get 2 = m.get 2 ∧
    (recordsOf (.field 3 (.scalar (.varint .s32)) (.repeated true)) [.len 0x1a [0x1a] [0x03] [0x02, 0x01, 0x02]]).flatMap
        (pieces (.varint .s32)) =
      (recordsOf (.field 3 (.scalar (.varint .s32)) (.repeated true)) [.varint 0x18 [0x18] [0x02], .len 0x1a [0x1a] [0x00] [],
        .varint 0x78 [0x78] [0x05], .len 0x1a [0x1a] [0x02] [0x01, 0x02]]).flatMap (pieces (.varint .s32)) := by
  refine ⟨_, _, by with_unfolding_all rfl, by with_unfolding_all rfl, ?_, ?_, by decide⟩ <;> rfl

/-! ## C22 -/

/-- C22, repeated and optional closed-enum fields: a repeated field holds the numbers of its
records that are in the enum, in order; an optional field the last of them (and nothing if
there is none). The others are kept, see `C20_unknown_fields` with `Spec.keptAs`. -/
theorem C22_values (C : Cfg) (limit id : Nat) (old m : Msg) (buf : List Byte) (rs : List Rec)
    (hd : distinctNumbers (C.schema id)) (i : Nat) (n : BitVec 32) (vs : List (BitVec 64))
    (h : readBinpb C limit id old buf = .ok m) (hw : wfAll rs) (he : rawAll rs = buf) :
    (∀ p, (C.schema id).slots[i]? = some (.field n (.scalar (.enum (some vs))) (.repeated p)) →
      m.get i = (((recordsOf (.field n (.scalar (.enum (some vs))) (.repeated p)) rs).flatMap (recVals (.enum (some vs)))).filter
        (fun v => vs.contains v.bits)).map (fun v => (0, v))) ∧
    ((C.schema id).slots[i]? = some (.field n (.scalar (.enum (some vs))) .optional) →
      m.get i = ((((recordsOf (.field n (.scalar (.enum (some vs))) .optional) rs).flatMap (recVals (.enum (some vs)))).filter
        (fun v => vs.contains v.bits)).getLast?.toList).map (fun v => (0, v))) := by
  constructor
  · intro p hs
    exact C21_packed_unpacked C limit id old m buf rs hd i n _ p hs h hw he
  · intro hs
    have := slotFold_optional (wfAll_filter hw) (read_member h hd hs hw he)
    rw [this]
    show (match (((recordsOf (.field n (.scalar (.enum (some vs))) .optional) rs).flatMap (recVals (.enum (some vs)))).filter
        (fun v => vs.contains v.bits)).getLast? with | some v => [(0, v)] | none => []) = _
    split
    · rename_i e; rw [e]; rfl
    · rename_i e; rw [e]; rfl

/-- C22 at any depth: no closed-enum value in the message read, however nested, is outside
its enum. -/
theorem C22_never_outside (C : Cfg) (hdf : defaultsHave C enumVal) (limit id : Nat) (old m : Msg) (buf : List Byte)
    (h : readBinpb C limit id old buf = .ok m) : ∀ d, everyScalar C enumVal d id m := by
  rw [readBinpb_eq] at h
  exact parseOnto_good (good_enum hdf) h (fun d => default_every hdf d id)

/-- proto2 `enum E { A = 0; B = 1; C = -1; } optional E e = 1; repeated E f = 2;` -/
def enumCfg : Cfg where
  utf8 _ := true
  schema _ := { slots := [.field 1 (.scalar (.enum (some [0, 1, BitVec.ofInt 64 (-1)]))) .optional,
    .field 2 (.scalar (.enum (some [0, 1, BitVec.ofInt 64 (-1)]))) (.repeated false)], unk := .bytes }

/-- `e` is 1, then 7; `f` is packed 7, -1, 2^32, then 9. -/
def enumBuf : List Byte := [0x08, 0x01, 0x08, 0x07, 0x12, 0x10, 0x07, 0xff, 0xff, 0xff, 0xff, 0xff, 0xff, 0xff, 0xff, 0xff, 0x01,
  0x80, 0x80, 0x80, 0x80, 0x10, 0x10, 0x09]

example : ∃ m, readBinpb enumCfg 2 0 ⟨[], []⟩ enumBuf = .ok m ∧
    m.get 0 = [(0, .num 1)] ∧ m.get 1 = [(0, .num (BitVec.ofInt 64 (-1))), (0, .num 0)] ∧
    kept m = [0x08, 0x07, 0x10, 0x07, 0x10, 0x09] :=
  ⟨⟨[[(0, .num 1)], [(0, .num (BitVec.ofInt 64 (-1))), (0, .num 0)]], [(0, [0x08, 0x07, 0x10, 0x07, 0x10, 0x09])]⟩,
    by with_unfolding_all rfl, rfl, rfl, rfl⟩

example : defaultsHave enumCfg enumVal ∧ distinctNumbers (enumCfg.schema 0) ∧ noImplicitClosed (enumCfg.schema 0) := by
  refine ⟨?_, ?_, ?_⟩
  · intro id n k card dflt hm hc
    simp only [enumCfg, List.mem_cons, SlotD.field.injEq, List.not_mem_nil, or_false] at hm
    rcases hm with ⟨-, -, rfl⟩ | ⟨-, -, rfl⟩ <;> simp at hc
  · intro n i j a b ha hb h1 h2
    match i, j with
    | 0, 0 => rfl
    | 1, 1 => rfl
    | 0, 1 => simp [enumCfg] at ha hb; subst ha hb; simp [slotKind] at h1 h2; omega
    | 1, 0 => simp [enumCfg] at ha hb; subst ha hb; simp [slotKind] at h1 h2; omega
    | _ + 2, _ => simp [enumCfg] at ha
    | _, _ + 2 => simp [enumCfg] at hb
  · intro n vs dflt hm
    simp [enumCfg] at hm

/-! ## C23 -/

theorem plain_of_noClosed {C : Cfg} (hC : noClosedOneof C) {id i : Nat} {alts : List (BitVec 32 × Kind)}
    (hs : (C.schema id).slots[i]? = some (SlotD.oneof alts)) : plainAlts alts := by
  intro a ha
  have := hC id alts (List.mem_of_getElem? hs) a ha
  cases hk : a.2 with
  | scalar sc => cases sc with
    | enum c => cases c with
      | none => rfl
      | some vs => exact absurd hk (this vs)
    | _ => rfl
  | _ => rfl

/-- C23. Let `run` be the last records of a oneof that have one field number, `pre` those
before. Then the oneof holds the member with that number and nothing else; a scalar has the
value of the last record; and the oneof is the same as after reading `run` alone, so that
`pre` leaves no trace. -/
theorem C23_oneof_last (C : Cfg) (hC : noClosedOneof C) (limit id : Nat) (old m : Msg) (buf : List Byte) (rs : List Rec)
    (hd : distinctNumbers (C.schema id)) (hE : (C.schema id).isEntry = false)
    (i : Nat) (alts : List (BitVec 32 × Kind)) (hs : (C.schema id).slots[i]? = some (.oneof alts))
    (h : readBinpb C limit id old buf = .ok m) (hw : wfAll rs) (he : rawAll rs = buf)
    (pre run : List Rec) (last : Rec) (hr : recordsOf (.oneof alts) rs = pre ++ (run ++ [last]))
    (hrun : ∀ r ∈ run, tagNum r.tag = tagNum last.tag)
    (hpre : ∀ r, pre.getLast? = some r → tagNum r.tag ≠ tagNum last.tag) :
    (∃ j k v, alts[j]? = some (BitVec.ofNat 32 (tagNum last.tag), k) ∧ m.get i = [(j, v)] ∧
      ∀ sc, k = .scalar sc → recVals sc last = [v]) ∧
    (∃ m', readBinpb C limit id old (rawAll (run ++ [last])) = .ok m' ∧ m'.get i = m.get i) := by
  have hp := plain_of_noClosed hC hs
  have hf := read_member h hd hs hw he
  have hwr : wfAll (recordsOf (.oneof alts) rs) := wfAll_filter hw
  rw [hr] at hwr hf
  have hw2 := (wfAll_append.1 hwr).2
  constructor
  · rw [← List.append_assoc] at hf
    have hl : last.wf := by
      have := (wfAll_append.1 hw2).2
      unfold wfAll at this
      exact this.1
    obtain ⟨j, k, v, a, b, c⟩ := slotFold_oneof_last hp hl hf
    refine ⟨j, k, v, ?_, b, c⟩
    rw [a, ← tagNumber_toNat, BitVec.ofNat_toNat, BitVec.setWidth_eq]
  · have hf2 : slotFold C (sem C limit) (.oneof alts) (run ++ [last]) [] (m.get i) := by
      cases run with
      | nil => exact oneof_run hp hpre hf
      | cons r run =>
        have hn := hrun r List.mem_cons_self
        exact oneof_run hp (fun q hq => by rw [hn]; exact hpre q hq) hf
    rw [readBinpb_eq] at h ⊢
    obtain ⟨rs', w', e', -, f⟩ := (parseOnto_iff _ _ _ _ _ _).1 h
    cases recs_unique hw w' (he.trans e'.symm)
    have hnum := fold_numbers f
    obtain ⟨m', f', e⟩ := fold_of_slotFold (D := C.schema id) hs (last := none) (m := (C.schema id).default) (by simp [MsgD.default])
      (rs := run ++ [last]) (es' := m.get i) (by
        intro r hr'
        have : r ∈ recordsOf (.oneof alts) rs := by rw [hr]; exact List.mem_append_right _ hr'
        obtain ⟨h1, h2⟩ := List.mem_filter.1 this
        exact ⟨by rw [ofMember_eq hd hs]; exact h2, hnum r h1⟩)
      (by rw [default_get hs]; exact hf2)
    exact ⟨m', (parseOnto_iff _ _ _ _ _ _).2 ⟨_, hw2, rfl, by simp [entryHead, hE], f'⟩, e⟩

/-- A oneof none of whose members occurs stays empty. -/
theorem C23_oneof_absent (C : Cfg) (limit id : Nat) (old m : Msg) (buf : List Byte) (rs : List Rec)
    (hd : distinctNumbers (C.schema id)) (i : Nat) (alts : List (BitVec 32 × Kind))
    (hs : (C.schema id).slots[i]? = some (.oneof alts))
    (h : readBinpb C limit id old buf = .ok m) (hw : wfAll rs) (he : rawAll rs = buf)
    (hr : recordsOf (.oneof alts) rs = []) : m.get i = [] := by
  have hf := read_member h hd hs hw he
  rw [hr] at hf
  exact Eq.symm hf

theorem demo_distinct : distinctNumbers (demoCfg.schema 0) := by
  have slot : ∀ (n i : Nat) a, (demoCfg.schema 0).slots[i]? = some a → (slotKind n a).isSome →
      (n = i + 1 ∧ i < 5) ∨ (i = 5 ∧ (n = 6 ∨ n = 7)) := by
    intro n i a ha h
    match i with
    | 0 => simp [demoCfg] at ha; subst ha; simp [slotKind] at h; omega
    | 1 => simp [demoCfg] at ha; subst ha; simp [slotKind] at h; omega
    | 2 => simp [demoCfg] at ha; subst ha; simp [slotKind] at h; omega
    | 3 => simp [demoCfg] at ha; subst ha; simp [slotKind] at h; omega
    | 4 => simp [demoCfg] at ha; subst ha; simp [slotKind] at h; omega
    | 5 =>
      simp [demoCfg] at ha; subst ha
      by_cases h6 : n = 6
      · omega
      · by_cases h7 : n = 7
        · omega
        · simp [slotKind, List.find?, Ne.symm h6, Ne.symm h7] at h
    | _ + 6 => simp [demoCfg] at ha
  intro n i j a b ha hb h1 h2
  have := slot n i a ha h1
  have := slot n j b hb h2
  omega

/-- `x: true`, `y {a: 5}`, `y {b: "h"}`: the two records of `y` merge. -/
example : ∃ m, readBinpb demoCfg 2 0 ⟨[], []⟩ [0x30, 0x01, 0x3a, 0x02, 0x08, 0x05, 0x3a, 0x03, 0x12, 0x01, 0x68] = .ok m ∧
    m.get 5 = [(1, .msg ⟨[[(0, .num 5)], [(0, .bytes [0x68])], [], [], [], []], []⟩)] := by
  refine ⟨_, by with_unfolding_all rfl, rfl⟩

/-! ## C24 -/

/-- C24. A map field (kept in an associative container) holds one entry per key, and for
each key that occurs on the wire the last entry with that key. `entries` are the entries
of the records in order, each read by itself. -/
theorem C24_map_last (C : Cfg) (limit id : Nat) (old m : Msg) (buf : List Byte) (rs : List Rec)
    (hd : distinctNumbers (C.schema id)) (i : Nat) (n : BitVec 32) (eid : Nat)
    (hs : (C.schema id).slots[i]? = some (.field n (.msg eid) (.map true)))
    (h : readBinpb C limit id old buf = .ok m) (hw : wfAll rs) (he : rawAll rs = buf) :
    ∃ entries : List Msg, entries.length = (recordsOf (.field n (.msg eid) (.map true)) rs).length ∧
      (∀ p ∈ (recordsOf (.field n (.msg eid) (.map true)) rs).zip entries, ∃ t hd pre v, p.1 = .len t hd pre v ∧ 1 ≤ limit ∧
        ∀ o, readBinpb C (limit - 1) eid o v = .ok p.2) ∧
      (m.get i).Pairwise (fun a b => mapKey a.2 ≠ mapKey b.2) ∧
      (∀ a ∈ m.get i, ∃ e ∈ entries, a = (0, .msg e)) ∧
      (∀ e, (0, .msg e) ∈ m.get i ↔
        (entries.filter (fun x => mapKey (.msg x) = mapKey (.msg e))).getLast? = some e) := by
  obtain ⟨ms, h1, h2, h3⟩ := slotFold_map (read_member h hd hs hw he)
  simp only [SlotD.initial] at h3
  have asc : Asc (m.get i) := by rw [h3]; exact asc_insertAll _ (by simp [Asc])
  have z : ∀ p ∈ m.get i, p.1 = 0 := by rw [h3]; exact zero_insertAll _ (by simp)
  have lk : ∀ k, look (m.get i) k = ((ms.map Val.msg).filter (fun e => entryRank e = k)).getLast? := by
    intro k; rw [h3, look_insertAll k _ (by simp [Asc])]; simp [look]
  have lk2 : ∀ e, ((ms.map Val.msg).filter (fun x => entryRank x = entryRank (.msg e))).getLast? =
      ((ms.filter (fun x => mapKey (.msg x) = mapKey (.msg e))).getLast?).map Val.msg := by
    intro e
    rw [List.filter_map, List.getLast?_map]
    congr 3
    funext x
    simp only [Function.comp, entryRank_key]
  refine ⟨ms, h1, ?_, ?_, ?_, ?_⟩
  · intro p hp
    have := h2 p hp
    obtain ⟨r, e⟩ := p
    cases r with
    | len t hd' pre v =>
      refine ⟨t, hd', pre, v, rfl, ?_⟩
      obtain ⟨-, h4⟩ := this
      cases limit with
      | zero => exact h4.elim
      | succ L =>
        refine ⟨by omega, fun o => ?_⟩
        rw [readBinpb_eq]
        exact (parseOnto_iff _ _ _ _ _ _).2 h4
    | _ => exact this.elim
  · refine List.Pairwise.imp ?_ asc
    intro a b hab e
    exact lexLt_ne hab ((entryRank_key _ _).2 e)
  · intro a ha
    have := look_of_mem asc ha
    rw [lk] at this
    obtain ⟨e, hm, e2⟩ := List.mem_map.1 (List.mem_filter.1 (List.mem_of_getLast? this)).1
    exact ⟨e, hm, Prod.ext (z a ha) e2.symm⟩
  · intro e
    constructor
    · intro hm
      have := look_of_mem asc hm
      rw [lk] at this
      have h5 := lk2 e
      rw [show rk (0, Val.msg e) = entryRank (Val.msg e) from rfl] at this
      rw [h5] at this
      simpa using this
    · intro hl
      have h5 := lk2 e
      rw [hl, ← lk] at h5
      obtain ⟨a, ha, -⟩ := look_mem h5
      rw [← z _ ha]
      exact ha

/-- C24, missing value (or key): the entry type's default. -/
theorem C24_missing_default (C : Cfg) (limit id : Nat) (old m : Msg) (buf : List Byte) (rs : List Rec)
    (hd : distinctNumbers (C.schema id)) (i : Nat) (n : BitVec 32) (k : Kind) (dflt : Val)
    (hs : (C.schema id).slots[i]? = some (.field n k (.always dflt)))
    (h : readBinpb C limit id old buf = .ok m) (hw : wfAll rs) (he : rawAll rs = buf)
    (hr : recordsOf (.field n k (.always dflt)) rs = []) : m.get i = [(0, dflt)] := by
  have hf := read_member h hd hs hw he
  rw [hr] at hf
  exact Eq.symm hf

/-- `d: {7: "x"}, {3: "y"}, {7: "z"}, {9: missing}`. -/
example : ∃ m, readBinpb demoCfg 2 0 ⟨[], []⟩ [0x22, 0x05, 0x08, 0x07, 0x12, 0x01, 0x78, 0x22, 0x05, 0x08, 0x03, 0x12, 0x01, 0x79,
      0x22, 0x05, 0x08, 0x07, 0x12, 0x01, 0x7a, 0x22, 0x02, 0x08, 0x09] = .ok m ∧
    m.get 3 = [(0, .msg ⟨[[(0, .num 3)], [(0, .bytes [0x79])]], []⟩), (0, .msg ⟨[[(0, .num 7)], [(0, .bytes [0x7a])]], []⟩),
      (0, .msg ⟨[[(0, .num 9)], [(0, .bytes [])]], []⟩)] := by
  refine ⟨_, by with_unfolding_all rfl, rfl⟩

/-- Deviation from protobuf: an entry whose value comes before its key is refused. -/
theorem C24_value_first_refused :
    readBinpb demoCfg 2 0 ⟨[], []⟩ [0x22, 0x05, 0x12, 0x01, 0x78, 0x08, 0x07] = .err .badMessage := by
  with_unfolding_all rfl

/-! ## C25 -/

/-- C25. The records of an accepted input are determined by its bytes alone: whatever the
message types and limits, two readers see the same records, hence the same group
boundaries. In particular a reader that skips a group as unknown consumes what one that
parses it consumes. -/
theorem C25_records_unique (C : Cfg) (limit id : Nat) (old m : Msg) (buf : List Byte)
    (h : readBinpb C limit id old buf = .ok m) :
    ∃ rs, (wfAll rs ∧ rawAll rs = buf) ∧ ∀ rs', wfAll rs' → rawAll rs' = buf → rs' = rs := by
  rw [readBinpb_eq] at h
  obtain ⟨rs, w, e, -⟩ := (parseOnto_iff _ _ _ _ _ _).1 h
  exact ⟨rs, ⟨w, e⟩, fun rs' w' e' => recs_unique w' w (e'.trans e.symm)⟩

/-- C25, known group: a singular group field with one record has the value that its body,
the bytes between start and end tag, has as a message. -/
theorem C25_group_value (C : Cfg) (limit id : Nat) (old m : Msg) (buf : List Byte) (rs : List Rec)
    (hd : distinctNumbers (C.schema id)) (i : Nat) (n : BitVec 32) (gid : Nat) (hE : (C.schema gid).isEntry = false)
    (hs : (C.schema id).slots[i]? = some (.field n (.group gid) .optional))
    (h : readBinpb C limit id old buf = .ok m) (hw : wfAll rs) (he : rawAll rs = buf)
    (t : BitVec 32) (hd' tail : List Byte) (body : List Rec)
    (hr : recordsOf (.field n (.group gid) .optional) rs = [.group t hd' body tail]) :
    ∃ g, m.get i = [(0, .msg g)] ∧ 1 ≤ limit ∧ ∀ o, readBinpb C (limit - 1) gid o (rawAll body) = .ok g := by
  have hf := read_member h hd hs hw he
  rw [hr] at hf
  obtain ⟨es1, u, ⟨v, ⟨g, h1, rfl⟩, rfl, -⟩, e⟩ := hf
  refine ⟨g, Eq.symm e, ?_⟩
  have wb : wfAll body := by
    have := wfAll_filter (p := fun r => (slotKind (tagNum r.tag) (.field n (.group gid) .optional)).isSome) hw
    rw [show List.filter _ rs = _ from hr] at this
    unfold wfAll at this
    have := this.1
    unfold Rec.wf at this
    exact this.2.2.1
  cases limit with
  | zero => exact h1.elim
  | succ L =>
    refine ⟨by omega, fun o => ?_⟩
    rw [readBinpb_eq]
    exact (parseOnto_iff _ _ _ _ _ _).2 ⟨body, wb, rfl, by simp [entryHead, hE], h1⟩

/-- C25, missing or wrong end tag: an input that opens a group and continues with records
up to the end of input, or up to an end tag of another number, is never accepted, whether
the group is known or not. -/
theorem C25_unterminated (C : Cfg) (limit id : Nat) (old : Msg) (before : List Rec) (open_ : List Byte) (t : BitVec 32) (body : List Rec)
    (after : List Byte) (hb : wfAll before) (ho : isTag open_ t) (h3 : tagWt t = 3) (hbody : wfAll body)
    (ha : after = [] ∨ ∃ tail e rest, after = tail ++ rest ∧ isTag tail e ∧ tagWt e = 4 ∧ tagNum e ≠ tagNum t) :
    ∀ m, readBinpb C limit id old (rawAll before ++ open_ ++ rawAll body ++ after) ≠ .ok m := by
  intro m h
  rw [readBinpb_eq] at h
  obtain ⟨rs, w, e, -⟩ := (parseOnto_iff _ _ _ _ _ _).1 h
  have strip : ∀ (before : List Rec) (rs : List Rec) x, wfAll before → wfAll rs → rawAll rs = rawAll before ++ x → ∃ rs', wfAll rs' ∧ rawAll rs' = x := by
    intro before
    induction before with
    | nil => intro rs x _ w e; exact ⟨rs, w, by simpa [rawAll] using e⟩
    | cons b bs ih =>
      intro rs x wb w e
      unfold wfAll at wb
      cases rs with
      | nil =>
        have h1 := congrArg List.length e
        have h2 := isTag_pos (wf_tag wb.1).1
        rw [rawAll_cons] at h1
        simp only [rawAll, List.length_append, List.length_nil] at h1
        omega
      | cons r rs =>
        unfold wfAll at w
        rw [rawAll_cons, rawAll_cons, List.append_assoc, List.append_assoc, List.append_assoc] at e
        obtain ⟨rfl, e2⟩ := rec_inj w.1 wb.1 e
        exact ih rs x wb.2 w.2 e2
  obtain ⟨rs', w', e'⟩ := strip before rs (open_ ++ (rawAll body ++ after)) hb w (by rw [e]; simp)
  cases rs' with
  | nil =>
    have h1 := congrArg List.length e'
    have h2 := isTag_pos ho
    simp only [rawAll, List.length_append, List.length_nil] at h1
    omega
  | cons r rs' =>
    unfold wfAll at w'
    rw [rawAll_cons, List.append_assoc] at e'
    obtain ⟨hh, ht, e2⟩ := isTag_unique (wf_tag w'.1).1 ho e'
    have hwf := w'.1
    cases r with
    | varint t' hd v => unfold Rec.wf at hwf; simp only [Rec.tag] at ht; subst ht; omega
    | fixed t' hd v => unfold Rec.wf at hwf; simp only [Rec.tag] at ht; subst ht; omega
    | len t' hd p v => unfold Rec.wf at hwf; simp only [Rec.tag] at ht; subst ht; omega
    | group t' hd body' tail' =>
      unfold Rec.wf at hwf
      simp only [Rec.tag] at ht
      subst ht
      obtain ⟨-, -, wb', e4, it4, wt4, num4⟩ := hwf
      simp only [Rec.payload, List.append_assoc] at e2
      have stopA : Stop after := by
        rcases ha with rfl | ⟨tail, ce, rest, rfl, it, w4, -⟩
        · exact .inl rfl
        · exact .inr ⟨tail, ce, rest, rfl, it, w4⟩
      obtain ⟨rfl, e5⟩ := recs_inj wb' hbody (.inr ⟨tail', e4, _, rfl, it4, wt4⟩) stopA e2
      rcases ha with rfl | ⟨tail, e, rest, rfl, it, w4, hne⟩
      · have h1 := congrArg List.length e5
        have h2 := isTag_pos it4
        simp only [List.length_append, List.length_nil] at h1
        omega
      · obtain ⟨-, rfl, -⟩ := isTag_unique it4 it e5
        exact hne num4

/-- A known group (field 5), an unknown group (field 15) and the same with a wrong and with
no end tag. -/
example : (∃ m, readBinpb demoCfg 2 0 ⟨[], []⟩ [0x2b, 0x0d, 0x00, 0x00, 0x80, 0x3f, 0x2c] = .ok m ∧
      m.get 4 = [(0, .msg ⟨[[(0, .num 0x3f800000)]], []⟩)]) ∧
    (∃ m, readBinpb demoCfg 2 0 ⟨[], []⟩ [0x7b, 0x0b, 0x0c, 0x7c] = .ok m ∧ kept m = [0x7b, 0x0b, 0x0c, 0x7c]) ∧
    readBinpb demoCfg 2 0 ⟨[], []⟩ [0x2b, 0x0d, 0x00, 0x00, 0x80, 0x3f, 0x34] = .err .badMessage ∧
    readBinpb demoCfg 2 0 ⟨[], []⟩ [0x7b, 0x0b, 0x7c, 0x0c] = .err .badMessage ∧
    readBinpb demoCfg 2 0 ⟨[], []⟩ [0x7b] = .err .badMessage := by
  refine ⟨⟨_, by with_unfolding_all rfl, rfl⟩, ⟨_, by with_unfolding_all rfl, by decide⟩, ?_, ?_, ?_⟩ <;> with_unfolding_all rfl

/-! ## C26 -/

/-- C26. Of an input that some limit accepts, another limit `L` accepts exactly what nests at
most `L` levels below the root, with the same result, and refuses the rest with
`value_too_large`. -/
theorem C26_limit_exact (C : Cfg) (limit L id : Nat) (old m : Msg) (buf : List Byte) (rs : List Rec)
    (h : readBinpb C limit id old buf = .ok m) (hw : wfAll rs) (he : rawAll rs = buf) :
    (fits C (L + 1) id rs → readBinpb C L id old buf = .ok m) ∧
    (¬ fits C (L + 1) id rs → readBinpb C L id old buf = .err .valueTooLarge) := by
  rw [readBinpb_eq] at h ⊢
  obtain ⟨rs', w', e', hh, f⟩ := (parseOnto_iff _ _ _ _ _ _).1 h
  cases recs_unique hw w' (he.trans e'.symm)
  constructor
  · intro hf
    exact (parseOnto_iff _ _ _ _ _ _).2 ⟨rs, hw, he, hh, fold_of_fits C L f hf⟩
  · intro hf
    have hle : L ≤ limit := by
      by_cases hl : L ≤ limit
      · exact hl
      · exfalso
        rcases parseOnto_le C (show limit ≤ L by omega) id (C.schema id).default buf with e | e
        · rw [h] at e
          obtain ⟨rs', w', e'', -, f'⟩ := (parseOnto_iff _ _ _ _ _ _).1 e.symm
          cases recs_unique hw w' (he.trans e''.symm)
          exact hf (fold_fits C L f')
        · rw [h] at e; cases e
    rcases parseOnto_le C hle id (C.schema id).default buf with e | e
    · rw [h] at e
      obtain ⟨rs', w', e'', -, f'⟩ := (parseOnto_iff _ _ _ _ _ _).1 e
      cases recs_unique hw w' (he.trans e''.symm)
      exact absurd (fold_fits C L f') hf
    · exact e

/-- C26. A lower limit never changes the outcome into anything but the same outcome or
`value_too_large`, on any input, accepted or not. -/
theorem C26_limit_monotone (C : Cfg) (L limit id : Nat) (hL : L ≤ limit) (old : Msg) (buf : List Byte) :
    readBinpb C L id old buf = readBinpb C limit id old buf ∨ readBinpb C L id old buf = .err .valueTooLarge := by
  rw [readBinpb_eq, readBinpb_eq]
  exact parseOnto_le C hL id _ buf

/-- `y {y {}}`, two levels below the root, at limits 2 and 1; and two unknown groups. -/
example : (match readBinpb demoCfg 2 0 ⟨[], []⟩ [0x3a, 0x02, 0x3a, 0x00] with | .ok _ => true | _ => false) = true ∧
    readBinpb demoCfg 1 0 ⟨[], []⟩ [0x3a, 0x02, 0x3a, 0x00] = .err .valueTooLarge ∧
    (match readBinpb demoCfg 2 0 ⟨[], []⟩ [0x7b, 0x0b, 0x0c, 0x7c] with | .ok _ => true | _ => false) = true ∧
    readBinpb demoCfg 1 0 ⟨[], []⟩ [0x7b, 0x0b, 0x0c, 0x7c] = .err .valueTooLarge :=
  ⟨by decide +kernel, by with_unfolding_all rfl, by decide +kernel, by with_unfolding_all rfl⟩

/-! ## C51 -/

/-- C51, reading: every string in the message read that must be UTF-8 passes the validator,
at any depth. -/
theorem C51_read_utf8 (C : Cfg) (hdf : defaultsHave C (utf8Val C)) (limit id : Nat) (old m : Msg) (buf : List Byte)
    (h : readBinpb C limit id old buf = .ok m) : ∀ d, everyScalar C (utf8Val C) d id m := by
  rw [readBinpb_eq] at h
  exact parseOnto_good (good_utf8 hdf) h (fun d => default_every hdf d id)

example : defaultsHave demoCfg (utf8Val demoCfg) := by
  intro id n k card dflt hm hc
  match id with
  | 0 =>
    simp [demoCfg] at hm
    rcases hm with ⟨-, rfl, rfl⟩ | ⟨-, rfl, rfl⟩ | ⟨-, rfl, rfl⟩ | ⟨-, rfl, rfl⟩ | ⟨-, rfl, rfl⟩ <;> simp at hc
    intro h; cases h
  | 1 =>
    simp [demoCfg] at hm
    rcases hm with ⟨-, rfl, rfl⟩ | ⟨-, rfl, rfl⟩ <;> simp at hc
    · intro h; cases h
    · subst hc; intro _; rfl
  | 2 =>
    simp [demoCfg] at hm
    obtain ⟨-, rfl, rfl⟩ := hm
    intro h; cases h
  | _ + 3 => simp [demoCfg] at hm

/-- A string that is not UTF-8 is refused, in a map value too. -/
example : readBinpb demoCfg 2 0 ⟨[], []⟩ [0x12, 0x01, 0xff] = .err .badMessage ∧
    readBinpb demoCfg 2 0 ⟨[], []⟩ [0x22, 0x05, 0x08, 0x07, 0x12, 0x01, 0xff] = .err .badMessage := by
  constructor <;> with_unfolding_all rfl

end HppProto.Props
