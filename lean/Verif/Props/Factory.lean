import Verif.Proofs.FactoryTypes
import Verif.Proofs.DynamicReads
import Verif.Props.Pool
import Verif.Props.DynamicRound
import Verif.Spec.Meta

/-! # The factory of dynamic messages (C110, C111, C113) -/

namespace HppProto.Props
open Spec Meta

variable {E : FactoryEnv} {order : FileMap → FileMap} {fs : List FileProto} {F : Factory}

/-! ## C110: which sets of files are accepted, and which messages are found -/

theorem create_cases (E : FactoryEnv) (ho : ∀ m, (order m).Perm m) (fs : List FileProto) :
    ((∃ F, createFactory E order fs = .ok F) ∧ WellFormed fs ∧ FactoryOk E.float fs) ∨
    (createFactory E order fs = .err .invalidArgument ∧ ¬ (WellFormed fs ∧ FactoryOk E.float fs)) := by
  by_cases hw : WellFormed fs
  · obtain ⟨p, hp⟩ := (C71_accepts order ho fs).2 hw
    unfold createFactory
    rw [hp]
    rcases finish_sat ho hp E with ⟨a, b⟩ | ⟨a, b⟩
    · exact .inl ⟨⟨_, a⟩, hw, b⟩
    · exact .inr ⟨a, fun h => b h.2⟩
  · have := (C71_rejects order ho fs).1 hw
    refine .inr ⟨?_, fun h => hw h.1⟩
    unfold createFactory
    rw [this]
    rfl

/-- C110: a factory is made exactly from the well-formed sets of files in which the members of every oneof are next to
each other and every default value can be used, in whatever order hash maps yield their entries. -/
theorem C110_accepts (E : FactoryEnv) (order : FileMap → FileMap) (ho : ∀ m, (order m).Perm m) (fs : List FileProto) :
    (∃ F, createFactory E order fs = .ok F) ↔ WellFormed fs ∧ FactoryOk E.float fs := by
  rcases create_cases E ho fs with ⟨a, b⟩ | ⟨a, b⟩
  · exact ⟨fun _ => b, fun _ => a⟩
  · refine ⟨fun ⟨F, h⟩ => ?_, fun h => absurd h b⟩
    rw [a] at h
    cases h

/-- C110: every other set is rejected with an error; nothing undefined happens and no exception is thrown. -/
theorem C110_rejects (E : FactoryEnv) (order : FileMap → FileMap) (ho : ∀ m, (order m).Perm m) (fs : List FileProto) :
    ¬ (WellFormed fs ∧ FactoryOk E.float fs) ↔ createFactory E order fs = .err .invalidArgument := by
  rcases create_cases E ho fs with ⟨⟨F, a⟩, b⟩ | ⟨a, b⟩
  · refine ⟨fun h => absurd b h, fun h => ?_⟩
    rw [a] at h
    cases h
  · exact ⟨fun _ => a, fun _ => b⟩

/-- C110: a message is found under its full name, and nothing else is found. -/
theorem C110_names (ho : ∀ m, (order m).Perm m) (h : createFactory E order fs = .ok F) (name : List Byte) :
    (F.getMessage name).isSome ↔ ∃ d ∈ decls fs, d.name = name := by
  obtain ⟨hp, -, -⟩ := create_ok ho h
  unfold Factory.getMessage
  rw [Option.isSome_map, Option.isSome_iff_exists]
  constructor
  · rintro ⟨i, hi⟩
    rw [(C73_finds order ho hp name i).1] at hi
    obtain ⟨d, hd, e⟩ := Option.map_eq_some_iff.1 hi
    exact ⟨_, pool_decl ho hp hd, e⟩
  · rintro ⟨d, hd, rfl⟩
    obtain ⟨i, m, hi, rfl⟩ := pool_decl_get ho hp hd
    refine ⟨i, (C73_finds order ho hp _ i).1.2 ?_⟩
    rw [hi]
    rfl

/-- A declared message, its field number `k` and the descriptor of the field that the factory made of it. -/
theorem field_at (ho : ∀ m, (order m).Perm m) (h : createFactory E order fs = .ok F) {d : Decl} (hd : d ∈ decls fs)
    {i : Nat} {m : DynMsg} (hm : F.getMessage d.name = some (i, m)) :
    initPool order fs = .ok F.pool ∧ FactoryOk E.float fs ∧ m = (F.types i).dyn.empty ∧
    ∃ D : MsgDesc, F.pool.messages[i]? = some D ∧ d = ⟨D.fullName, D.proto, D.features⟩ ∧ ∃ ls n,
      F.types i = ⟨(listed F.pool D.fields).zipWith (resolvedField E F.pool) ls, n, D.proto.mapEntry, wellKnownOf E F.pool D⟩ ∧
      ls.length = (listed F.pool D.fields).length ∧ messageLayout F.pool D = some (ls, n) := by
  obtain ⟨hp, ht, hF⟩ := create_ok ho h
  obtain ⟨j, hj, e⟩ := Option.map_eq_some_iff.1 hm
  simp only [Prod.mk.injEq] at e
  obtain ⟨rfl, rfl⟩ := e
  obtain ⟨D, hD, e⟩ := Option.map_eq_some_iff.1 ((C73_finds order ho hp _ j).1.1 hj)
  have e' := nodup_inj (f := Decl.name) (pool_wellFormed ho hp).message_names hd (pool_decl ho hp hD) e.symm
  obtain ⟨ls, n, h1, h2, h3⟩ := types_at ho hp E hF hD
  exact ⟨hp, hF, rfl, D, hD, e', ls, n, by rw [ht]; exact h3, h2, h1⟩

/-- C110: the type of a message has the fields that the message declares, in order, under their names and numbers; and a
message that was just made has none of its fields set. -/
theorem C110_fields (ho : ∀ m, (order m).Perm m) (h : createFactory E order fs = .ok F) {d : Decl} (hd : d ∈ decls fs)
    {i : Nat} {m : DynMsg} (hm : F.getMessage d.name = some (i, m)) :
    (F.types i).fields.map (fun g => (g.name, g.jsonName, g.dyn.number, g.dyn.repeated, g.dyn.oneof)) =
      d.msg.fields.map (fun f => (f.name, f.jsonName, BitVec.ofInt 32 f.number, decide (f.label = 3), f.oneofIndex.map Int.toNat)) ∧
    (F.types i).entry = d.msg.mapEntry ∧
    ∀ g ∈ (F.types i).fields, g.dyn.hasValue m = false := by
  obtain ⟨hp, hF, rfl, D, hD, rfl, ls, n, hT, hl, hL2⟩ := field_at ho h hd hm
  have V := view_of order ho hp hD
  refine ⟨?_, by rw [hT], ?_⟩
  · rw [hT]
    show ((listed F.pool D.fields).zipWith (resolvedField E F.pool) ls).map _ = D.proto.fields.map _
    rw [zip_map (k := fun f : FieldDesc => (f.proto.name, f.proto.jsonName, BitVec.ofInt 32 f.proto.number, f.bits.repeated,
      f.proto.oneofIndex.map Int.toNat)) (fun _ _ => rfl) hl, ← V.protos, List.map_map]
    refine List.map_congr_left fun f hf => ?_
    have : f.bits.repeated = decide (f.proto.label = 3) := by
      rw [Bool.eq_iff_iff, bit_repeated ho hp hD hf, decide_eq_true_iff]
    rw [this]
    rfl
  · intro g hg
    unfold DynField.hasValue
    rw [show g.dyn.storage (F.types i).dyn.empty = (0, .zero) from empty_storage (F.types i).dyn g.dyn]
    unfold slotHasValue
    have ord : g.dyn.repeated = false → 1 ≤ g.dyn.layout.ordinal := by
      intro hr
      rw [hT] at hg
      unfold messageLayout at hL2
      rw [slotFields_eq ho hp hD] at hL2
      obtain ⟨s, L, -⟩ := layoutFields_laid (oneof_bound ho hp hD) hL2
      have hg' : g ∈ (listed F.pool D.fields).zipWith (resolvedField E F.pool) ls := hg
      obtain ⟨k, hk, e⟩ := List.getElem_of_mem hg'
      rw [List.getElem_zipWith] at e
      rw [List.length_zipWith] at hk
      have k1 : k < (listed F.pool D.fields).length := by omega
      have k2 : k < ls.length := by omega
      have e1 : g.dyn.layout = ls[k] := by rw [← e]; rfl
      have e2 : g.dyn.repeated = ((listed F.pool D.fields)[k]).bits.repeated := by rw [← e]; rfl
      rw [e1]
      have hpre : (((listed F.pool D.fields).map fun f => (⟨fieldOneof f, f.bits.repeated⟩ : SlotField)))[k]? =
          some ⟨fieldOneof (listed F.pool D.fields)[k], ((listed F.pool D.fields)[k]).bits.repeated⟩ := by
        rw [List.getElem?_map, List.getElem?_eq_getElem k1]
        rfl
      rw [slotFields_eq ho hp hD] at hpre
      cases ho' : fieldOneof (listed F.pool D.fields)[k] with
      | none =>
        have := (L.plain k _ ls[k] hpre (List.getElem?_eq_getElem k2) ho').1
        rw [show ((⟨fieldOneof (listed F.pool D.fields)[k], ((listed F.pool D.fields)[k]).bits.repeated⟩ : SlotField)).repeated = false from
          by rw [← e2]; exact hr] at this
        simp only [Bool.false_eq_true, if_false] at this
        omega
      | some o =>
        have := (L.memb k o ls[k] ⟨_, hpre, ho'⟩ (List.getElem?_eq_getElem k2)).1
        omega
    cases hr : g.dyn.repeated with
    | true => simp
    | false =>
      have := ord hr
      simp
      omega

/-- C111: a field holds values of the type that is declared. Missing from the full claim: map fields and fields in map
entries where messages are `DELIMITED` by a feature (C74). -/
theorem C111_kinds_partial (ho : ∀ m, (order m).Perm m) (h : createFactory E order fs = .ok F) {d : Decl} (hd : d ∈ decls fs)
    {i : Nat} {m : DynMsg} (hm : F.getMessage d.name = some (i, m)) {k : Nat} {f : FieldProto} {g : Json.JField}
    (hf : d.msg.fields[k]? = some f) (hg : (F.types i).fields[k]? = some g)
    (plain : f.type = 11 → (under d.features f.features).messageEncoding = 2 →
      d.msg.mapEntry = false ∧ ∀ e ∈ decls fs, f.typeName = b!"." ++ e.name → e.msg.mapEntry = false) :
    ∃ D, F.pool.messages[i]? = some D ∧ D.fullName = d.name ∧ KindRule F.pool D f (under d.features f.features) g.dyn.kind := by
  obtain ⟨hp, hF, rfl, D, hD, rfl, ls, n, hT, hl, hL2⟩ := field_at ho h hd hm
  refine ⟨D, hD, rfl, ?_⟩
  have V := view_of order ho hp hD
  rw [hT] at hg
  obtain ⟨x, l, hx, -, rfl⟩ := List.getElem?_zipWith_eq_some.1 hg
  have hx' := List.mem_of_getElem? hx
  have e : x.proto = f := by
    have := hf
    rw [show (⟨D.fullName, D.proto, D.features⟩ : Decl).msg.fields = D.proto.fields from rfl, ← V.protos, List.getElem?_map, hx] at this
    exact Option.some.inj this
  subst e
  replace plain : x.proto.type = 11 → x.features.messageEncoding = 2 →
      D.proto.mapEntry = false ∧ ∀ e ∈ decls fs, x.proto.typeName = b!"." ++ e.name → e.msg.mapEntry = false := by
    rw [V.features x hx']
    exact plain
  rw [show (⟨D.fullName, D.proto, D.features⟩ : Decl).features = D.features from rfl, ← V.features x hx']
  show KindRule F.pool D x.proto x.features (fieldKind F.pool x)
  have R := V.resolved x hx'
  have hb := own_bits ho hp hD hx'
  have hu : x.bits.utf8 = (x.proto.type == 9 && x.features.utf8 == 2) := hb.2.2.1
  have hdl : x.bits.delimited = (x.proto.type == 10 || (x.proto.type == 11 && x.features.messageEncoding == 2)) := hb.2.2.2.1
  unfold fieldKind
  rcases field_types (listed_type ho hp hD hx').type with h | h | h | h | h | h | h | h | h | h | h | h | h | h | h | h | h | h <;>
    simp only [h] <;> simp (config := { decide := true }) only [if_true, if_false]
  any_goals first
    | exact h
    | exact Or.inl (And.intro rfl h)
    | exact Or.inr (And.intro rfl (Or.inl h))
    | exact Or.inr (And.intro rfl (Or.inr h))
  · rw [hu, h]
    refine .inl ⟨h, ?_⟩
    simp
  · obtain ⟨j, M, hj, hM, hn, _⟩ := R.message (.inl h)
    rw [hdl, h, hj]
    exact ⟨M, hM, hn, .inl h⟩
  · obtain ⟨j, M, hj, hM, hn, hb⟩ := R.message (.inr h)
    rw [hdl, h, hj]
    by_cases he : x.features.messageEncoding = 2
    · rw [he]
      obtain ⟨g1, g2⟩ := plain h he
      refine ⟨M, hM, hn, .inr ⟨h, he, ?_, ?_⟩⟩
      · rw [g2 _ (pool_decl ho hp hM) hn]; simp
      · rw [g1]; simp
    · rw [if_neg (by simp [he])]
      refine ⟨M, hM, hn, h, ?_⟩
      rintro (e | ⟨_, e, _⟩)
      · omega
      · exact he e
  · exact .inr ⟨h, rfl⟩
  · obtain ⟨j, e, hj, he, hn⟩ := R.enum h
    refine ⟨h, e, List.mem_of_getElem? he, hn, ?_⟩
    have hce : isClosedEnum F.pool x = (e.features.enumType == 2) := by
      unfold isClosedEnum enumOf
      rw [if_pos h, hj]
      simp [he]
    rw [hce, hj]
    by_cases h2 : e.features.enumType = 2
    · rw [if_pos h2, if_pos (by simp [h2])]
      refine ⟨_, rfl, fun v => ?_⟩
      unfold enumNumbers
      rw [Option.getD_some, he]
      simp only [List.mem_map]
      constructor
      · rintro ⟨n, hn, rfl⟩; exact ⟨n, hn, rfl⟩
      · rintro ⟨n, hn, rfl⟩; exact ⟨n, hn, rfl⟩
    · rw [if_neg h2, if_neg (by simp [h2])]

/-! ## C111: reading and writing messages of an accepted set -/

/-- C111, what holds for every accepted set: field numbers are legal and distinct, only repeated numbers are packed, and
the fields of map entries have presence. -/
theorem C111_accepted (ho : ∀ m, (order m).Perm m) (h : createFactory E order fs = .ok F) :
    LegalNumbers F.types.dyn ∧ (∀ id, ((F.types.dyn id).fields.map DynField.number).Nodup) ∧ ∀ id, (F.types.dyn id).Pooled := by
  obtain ⟨hp, ht, hF⟩ := create_ok ho h
  rw [ht]
  exact ⟨fun id g hg => (types_numbers ho hp E hF id g hg).2, types_distinct ho hp E hF, types_pooled ho hp E hF⟩

/-- C111, reading: whatever the bytes, `read_binpb` into a message of a factory that was made of proper files succeeds
or fails; nothing undefined happens. Missing from the full claim: improper sets, which are accepted too and for which it is
false (`C112_no_value`), and maps with values of a closed enum. -/
theorem C111_reads_partial (ho : ∀ m, (order m).Perm m) (h : createFactory E order fs = .ok F) (hP : Proper fs) (hO : OpenMaps fs)
    {utf8 : List Byte → Bool} (hu : utf8 [] = true) (limit id : Nat) (old : DynMsg) (buf : List Byte) :
    (∃ m, dynRead F.types.dyn utf8 limit id old buf = .ok m) ∨ ∃ e, dynRead F.types.dyn utf8 limit id old buf = .err e := by
  obtain ⟨hp, ht, hF⟩ := create_ok ho h
  have hT := relaxed_ok (types_ok ho hp E hF hP)
  have := (C66_dynamic_read hT (types_readable ho hp E hF hP hO) hu limit id old ⟨[], []⟩ buf).1
  rw [relaxed_read] at this
  rw [ht]
  exact this

/-- C111, writing and reading: what a message of the factory holds is read back from what is written of it. Missing from
the full claim: what is missing in C67, maps that are `DELIMITED` by a feature (C74), and closed enums in maps and oneofs. -/
theorem C111_round_trip_partial (ho : ∀ m, (order m).Perm m) (h : createFactory E order fs = .ok F) (hP : Proper fs)
    (hO : OpenMaps fs) (hQ : PlainMaps fs) (hn : ∀ d ∈ decls fs, ∀ f ∈ d.msg.fields, f.number < 2 ^ 25)
    (hm : ∀ d ∈ decls fs, ∀ f ∈ d.msg.fields, f.oneofIndex ≠ none → f.type = 14 → ∀ e, EnumOf fs f e → e.features.enumType ≠ 2)
    {utf8 : List Byte → Bool} (hu : utf8 [] = true) {id : Nat} (root : (F.types.dyn id).entry = false) {m : DynMsg} {M : Msg}
    (holds : DynHolds F.types.dyn.relaxed True id m M) (limit : Nat)
    (fine : FineAt F.types.dyn (F.types.dyn.cfg utf8) (limit + 1) id m)
    (small : (wire (F.types.dyn.relaxed.cfg utf8) limit id M).length < 2 ^ 64) (old : DynMsg) (buf : List Byte) :
    (∀ out, dynWrite F.types.dyn utf8 limit true id m buf = .ok (none, out) →
      ∃ m', dynRead F.types.dyn utf8 limit id old out = .ok m' ∧ RestoredAt F.types.dyn (limit + 1) id m m') ∧
    ((wire (F.types.dyn.relaxed.cfg utf8) limit id M).length < 2 ^ 31 - 1 →
      ∃ out, dynWrite F.types.dyn utf8 limit true id m buf = .ok (none, out)) := by
  obtain ⟨hp, ht, hF⟩ := create_ok ho h
  obtain ⟨p, T⟩ := F
  replace ht : T = typesOf E p := ht
  subst ht
  refine C67_round_trip_partial (types_ok ho hp E hF hP) (types_pooled ho hp E hF) (types_readable ho hp E hF hP hO)
    (types_maps ho hp E hF hP hQ) hu ?_ ?_ root holds limit fine small old buf
  · intro i g hg
    refine ⟨(types_numbers ho hp E hF i g hg).1, ?_⟩
    obtain ⟨g', hg', rfl⟩ := List.mem_map.1 hg
    obtain ⟨d, hd, f, hf, l, rfl⟩ := types_field ho hp E hF hg'
    have V := view_of order ho hp hd
    have h1 := hn _ (pool_decl ho hp hd) f.proto (V.proto_mem f hf)
    have h2 := (listed_type ho hp hd hf).number
    have := ofInt_toNat (n := f.proto.number) (by omega)
    show (BitVec.ofInt 32 f.proto.number).toNat < 2 ^ 25
    omega
  · intro i g hg hone
    obtain ⟨g', hg', rfl⟩ := List.mem_map.1 hg
    obtain ⟨d, hd, f, hf, l, rfl⟩ := types_field ho hp E hF hg'
    have V := view_of order ho hp hd
    rw [← Bool.not_eq_true]
    intro hc
    obtain ⟨c1, c2⟩ := kind_closed (listed_type ho hp hd hf).type hc
    obtain ⟨x, x1, x2⟩ := closed_enum ho hp (V.mem f hf) c1 c2
    refine hm _ (pool_decl ho hp hd) f.proto (V.proto_mem f hf) ?_ c1 x x1 x2
    intro e
    exact hone (by show f.proto.oneofIndex.map Int.toNat = none; rw [e]; rfl)

/-! ## C113: default values -/

/-- C113: a field with presence that is not set reads as its default value. Missing from the full claim: the default value
of a `bytes` field is the text in the descriptor, which is not what it stands for (`C113_bytes`). -/
theorem C113_default_partial (ho : ∀ m, (order m).Perm m) (h : createFactory E order fs = .ok F) (hP : Proper fs) {d : Decl}
    (hd : d ∈ decls fs) {i : Nat} {m : DynMsg} (hm : F.getMessage d.name = some (i, m)) {k : Nat} {f : FieldProto}
    {g : Json.JField} (hf : d.msg.fields[k]? = some f) (hg : (F.types i).fields[k]? = some g)
    (presence : hasPresence False f (under d.features f.features)) (scalar : f.type ≠ 10 ∧ f.type ≠ 11)
    (m' : DynMsg) (unset : g.dyn.hasValue m' = false) :
    ∃ v, DefaultRule E.float fs f v ∧
      g.dyn.value m' = match v with
        | .bytes t => .str t
        | v => .num v.bits := by
  obtain ⟨hp, hF, rfl, D, hD, rfl, ls, n, hT, hl, hL2⟩ := field_at ho h hd hm
  have V := view_of order ho hp hD
  rw [hT] at hg
  obtain ⟨x, l, hx, -, rfl⟩ := List.getElem?_zipWith_eq_some.1 hg
  have hx' := List.mem_of_getElem? hx
  have e : x.proto = f := by
    have := hf
    rw [show (⟨D.fullName, D.proto, D.features⟩ : Decl).msg.fields = D.proto.fields from rfl, ← V.protos, List.getElem?_map, hx] at this
    exact Option.some.inj this
  subst e
  have hpres : hasPresence False x.proto x.features := by
    rw [V.features x hx']
    exact presence
  have hex := (explicit_presence ho hp E hP hD hx' l).2 ⟨hpres.1, .inr hpres⟩
  have hrep : x.bits.repeated = false := ((explicit_iff E x l).1 hex).1
  have hty := (listed_type ho hp hD hx').type
  refine ⟨fieldDefault E F.pool x, ?_, ?_⟩
  · unfold fieldDefault
    by_cases h9 : x.proto.type = 9 ∨ x.proto.type = 12
    · rw [if_pos h9]
      exact ⟨h9, rfl⟩
    rw [if_neg h9]
    by_cases h14 : x.proto.type = 14
    · rw [if_pos h14]
      refine .inr (.inr ⟨h14, ?_⟩)
      obtain ⟨j, e, -, he, h3, h4⟩ := pool_enumOf ho hp (V.mem x hx') h14
      obtain ⟨y, hy, y1, y2⟩ := (hF.defaults x.proto ((pool_field_mem ho hp _).2 ⟨x, V.mem x hx', rfl⟩)).enum h14
      obtain rfl := (h4 y).1 hy
      rw [h3]
      show ∃ e' n, EnumOf fs x.proto e' ∧ (enumDefault e.proto x).getD 0 = BitVec.ofInt 64 n ∧ _
      refine ⟨⟨e.fullName, e.proto, e.features⟩, ?_⟩
      unfold enumDefault
      cases hv : e.proto.values with
      | nil => exact absurd hv y1
      | cons v vs =>
        by_cases hdv : x.proto.defaultValue = []
        · refine ⟨v.2, hy, ?_, ?_⟩
          · have hb : (x.bits.presence || x.bits.required) = true := by
              rw [Bool.or_eq_true]
              rcases ((explicit_iff E x l).1 hex).2 with h | h | h
              · have hlab := (listed_type ho hp hD hx').label
                have h3 := hpres.1
                by_cases h2 : x.proto.label = 1
                · refine .inl ?_
                  rw [V.presence x hx']
                  unfold fieldBits
                  simp [h2, h]
                · exact .inr ((bit_required ho hp hD hx').2 (.inl (by omega)))
              · exact .inr h
              · exact .inl h
            simp [hdv, hb]
          · rw [if_pos hdv]
            rfl
        · obtain ⟨n, hn⟩ := y2 hdv
          refine ⟨n, hy, ?_, ?_⟩
          · simp only [hdv, ne_eq, not_false_eq_true, if_true]
            rw [(valueOf_iff _ _ _).2 hn]
            rfl
          · rw [if_neg hdv]
            exact hn
    rw [if_neg h14]
    by_cases hn : isNumeric x.proto.type
    · obtain ⟨v, hv⟩ := (hF.defaults x.proto ((pool_field_mem ho hp _).2 ⟨x, V.mem x hx', rfl⟩)).number hn
      rw [(parsedDefault_iff E _ hn v).2 hv]
      exact .inr (.inl ⟨hn, hv⟩)
    · have h8 : x.proto.type = 8 := by
        unfold isNumeric intType at hn
        have := scalar.1
        have := scalar.2
        rcases field_types hty with h | h | h | h | h | h | h | h | h | h | h | h | h | h | h | h | h | h <;>
          simp [h] at hn this h9 h14 scalar ⊢
      refine .inl ⟨h8, ?_⟩
      unfold parsedDefault
      rw [if_pos h8]
      rfl
  · unfold DynField.value DynField.numValue DynField.strValue
    rw [hex, unset, show (resolvedField E F.pool x l).dyn.repeated = false from hrep]
    show (if (fieldKind F.pool x).isNum = true then _ else if (fieldKind F.pool x).isStr = true then _ else _) = _
    have s1 := scalar.1
    have s2 := scalar.2
    have hk : (fieldKind F.pool x).isNum = !(x.proto.type == 9 || x.proto.type == 12) ∧
        (fieldKind F.pool x).isStr = (x.proto.type == 9 || x.proto.type == 12) := by
      unfold fieldKind
      rcases field_types hty with h | h | h | h | h | h | h | h | h | h | h | h | h | h | h | h | h | h <;>
        simp [h] at s1 s2 ⊢ <;> exact ⟨rfl, rfl⟩
    rw [hk.1, hk.2]
    unfold fieldDefault
    by_cases h9 : x.proto.type = 9 ∨ x.proto.type = 12
    · have : (x.proto.type == 9 || x.proto.type == 12) = true := by simpa using h9
      simp only [this, if_pos h9]
      simp [resolvedField, fieldDefault, h9, Val.str]
    · have : (x.proto.type == 9 || x.proto.type == 12) = false := by simpa using h9
      simp only [this, if_neg h9]
      by_cases h14 : x.proto.type = 14
      · simp [resolvedField, fieldDefault, h14, Val.bits]
      · simp [resolvedField, fieldDefault, h9, h14, Val.bits]

end HppProto.Props
