import Verif.Proofs.Factory
import Verif.Proofs.DynamicRelaxed
import Verif.Spec.JsonForm

/-! # The types of a factory: helper lemmas -/

namespace HppProto
open Spec Meta

theorem zip_map {α β γ δ : Type} {f : α → β → γ} {g : γ → δ} {k : α → δ} (e : ∀ a b, g (f a b) = k a) :
    ∀ {l : List α} {m : List β}, m.length = l.length → (l.zipWith f m).map g = l.map k
  | [], _, _ => by simp
  | _ :: _, [], h => by simp at h
  | a :: l, b :: m, h => by
    simp only [List.length_cons, Nat.add_right_cancel_iff] at h
    rw [List.zipWith_cons_cons, List.map_cons, List.map_cons, e, zip_map e h]

theorem zip_right {α β γ : Type} {f : α → β → γ} {g : γ → β} (e : ∀ a b, g (f a b) = b) :
    ∀ {l : List α} {m : List β}, m.length = l.length → (l.zipWith f m).map g = m
  | [], [], _ => by simp
  | [], _ :: _, h => by simp at h
  | _ :: _, [], h => by simp at h
  | a :: l, b :: m, h => by
    simp only [List.length_cons, Nat.add_right_cancel_iff] at h
    rw [List.zipWith_cons_cons, List.map_cons, e, zip_right e h]

theorem zip_mem {α β γ : Type} {f : α → β → γ} : ∀ {l : List α} {m : List β} {c : γ}, c ∈ l.zipWith f m →
    ∃ a ∈ l, ∃ b, c = f a b
  | [], _, _, h => by simp at h
  | _ :: _, [], _, h => by simp at h
  | a :: l, b :: m, c, h => by
    rw [List.zipWith_cons_cons, List.mem_cons] at h
    rcases h with rfl | h
    · exact ⟨a, List.mem_cons_self .., b, rfl⟩
    · obtain ⟨a', ha, b', e⟩ := zip_mem h
      exact ⟨a', List.mem_cons_of_mem _ ha, b', e⟩

/-- The types of fields that there are. -/
theorem field_types {t : Int} (h : 1 ≤ t ∧ t ≤ 18) : t = 1 ∨ t = 2 ∨ t = 3 ∨ t = 4 ∨ t = 5 ∨ t = 6 ∨ t = 7 ∨ t = 8 ∨ t = 9 ∨
    t = 10 ∨ t = 11 ∨ t = 12 ∨ t = 13 ∨ t = 14 ∨ t = 15 ∨ t = 16 ∨ t = 17 ∨ t = 18 := by omega

theorem kind_closed {p : Pool} {f : FieldDesc} (ht : 1 ≤ f.proto.type ∧ f.proto.type ≤ 18)
    (h : (fieldKind p f).closed = true) : f.proto.type = 14 ∧ isClosedEnum p f = true := by
  unfold fieldKind at h
  rcases field_types ht with e | e | e | e | e | e | e | e | e | e | e | e | e | e | e | e | e | e <;>
    simp [e, Kind.closed] at h <;> try exact ⟨e, by revert h; cases isClosedEnum p f <;> simp⟩
  all_goals (revert h; cases f.bits.delimited <;> simp)

theorem kind_msgType {p : Pool} {f : FieldDesc} (ht : 1 ≤ f.proto.type ∧ f.proto.type ≤ 18) {sid : Nat}
    (h : (fieldKind p f).msgType = some sid) : (f.proto.type = 10 ∨ f.proto.type = 11) ∧ f.type.getD 0 = sid ∧
      fieldKind p f = (if f.bits.delimited then .group sid else .msg sid) := by
  unfold fieldKind at h ⊢
  rcases field_types ht with e | e | e | e | e | e | e | e | e | e | e | e | e | e | e | e | e | e <;>
    simp [e, Kind.msgType] at h ⊢
  all_goals (revert h; cases f.bits.delimited <;> simp)

theorem kind_isNum {p : Pool} {f : FieldDesc} (ht : 1 ≤ f.proto.type ∧ f.proto.type ≤ 18)
    (h : ¬ (f.proto.type = 9 ∨ f.proto.type = 10 ∨ f.proto.type = 11 ∨ f.proto.type = 12)) :
    (fieldKind p f).isNum = true := by
  unfold fieldKind
  rcases field_types ht with e | e | e | e | e | e | e | e | e | e | e | e | e | e | e | e | e | e <;>
    simp [e] at h ⊢ <;> rfl

theorem kind_enum {p : Pool} {f : FieldDesc} (ht : 1 ≤ f.proto.type ∧ f.proto.type ≤ 18) {vs : List (BitVec 64)}
    (h : fieldKind p f = .scalar (.enum (some vs))) : f.proto.type = 14 ∧ vs = enumNumbers p (f.type.getD 0) := by
  unfold fieldKind at h
  rcases field_types ht with e | e | e | e | e | e | e | e | e | e | e | e | e | e | e | e | e | e <;>
    simp [e] at h
  · revert h; cases f.bits.delimited <;> simp
  · revert h; cases f.bits.delimited <;> simp
  · exact ⟨e, h.2.symm⟩

theorem kind_tied {E : FactoryEnv} {p : Pool} {f : FieldDesc} (ht : 1 ≤ f.proto.type ∧ f.proto.type ≤ 18) (l : SlotLayout) :
    (resolvedField E p f l).tied := by
  unfold Json.JField.tied resolvedField fieldType fieldKind
  rcases field_types ht with e | e | e | e | e | e | e | e | e | e | e | e | e | e | e | e | e | e <;>
    simp [e, Kind.isNum, Kind.isStr, Kind.msgType]
  all_goals (cases f.bits.delimited <;> simp)

theorem ofInt_toNat {n : Int} (h : 0 ≤ n ∧ n < 2 ^ 32) : ((BitVec.ofInt 32 n).toNat : Int) = n := by
  rw [BitVec.toNat_ofInt]
  omega

theorem ofInt_sext {n : Int} (h : -2147483648 ≤ n ∧ n ≤ 2147483647) :
    (((BitVec.ofInt 64 n).setWidth 32).signExtend 64) = BitVec.ofInt 64 n := by
  have h1 : ((BitVec.ofInt 64 n).setWidth 32).toInt = n := by
    rw [BitVec.toInt_setWidth, BitVec.toNat_ofInt, Int.bmod_def]
    omega
  apply BitVec.eq_of_toInt_eq
  rw [BitVec.toInt_signExtend_of_le (by decide), h1, BitVec.toInt_ofInt, Int.bmod_def]
  omega

section
variable {order : FileMap → FileMap} (ho : ∀ m, (order m).Perm m) {fs : List FileProto} {p : Pool}
  (h : initPool order fs = .ok p) (E : FactoryEnv)
include ho h

/-- The types of a factory in terms of the pool. -/
theorem types_at (hF : FactoryOk E.float fs) {i : Nat} {d : MsgDesc} (hd : p.messages[i]? = some d) :
    ∃ ls n, messageLayout p d = some (ls, n) ∧ ls.length = (listed p d.fields).length ∧
      typesOf E p i = ⟨(listed p d.fields).zipWith (resolvedField E p) ls, n, d.proto.mapEntry, wellKnownOf E p d⟩ := by
  have hs := (layout_iff ho h hd).2 (hF.oneofs _ (pool_decl ho h hd))
  obtain ⟨⟨ls, n⟩, hl⟩ := Option.isSome_iff_exists.1 hs
  have hl' := hl
  unfold messageLayout at hl'
  rw [slotFields_eq ho h hd] at hl'
  obtain ⟨s, L, -⟩ := layoutFields_laid (oneof_bound ho h hd) hl'
  have hlen := L.len
  rw [← slotFields_eq ho h hd, List.length_map] at hlen
  refine ⟨ls, n, hl, hlen, ?_⟩
  unfold typesOf
  rw [hd]
  show resolvedMessage E p d = _
  unfold resolvedMessage
  rw [hl]
  rfl

omit ho h in
theorem types_none {i : Nat} (hd : p.messages[i]? = none) : typesOf E p i = ⟨[], 0, false, .none⟩ := by
  unfold typesOf
  rw [hd]

/-- Every field of a type stands for a field of the message. -/
theorem types_field (hF : FactoryOk E.float fs) {i : Nat} {g : Json.JField} (hg : g ∈ (typesOf E p i).fields) :
    ∃ d, p.messages[i]? = some d ∧ ∃ f ∈ listed p d.fields, ∃ l, g = resolvedField E p f l := by
  cases hd : p.messages[i]? with
  | none =>
    rw [types_none E hd] at hg
    cases hg
  | some d =>
    obtain ⟨ls, n, -, -, e⟩ := types_at ho h E hF hd
    rw [e] at hg
    obtain ⟨f, hf, l, e⟩ := zip_mem hg
    exact ⟨d, rfl, f, hf, l, e⟩

theorem listed_type {i : Nat} {d : MsgDesc} (hd : p.messages[i]? = some d) {f : FieldDesc} (hf : f ∈ listed p d.fields) :
    FieldOk f.proto :=
  (view_of order ho h hd).fields.each _ ((view_of order ho h hd).proto_mem f hf)

theorem own_bits {i : Nat} {d : MsgDesc} (hd : p.messages[i]? = some d) {f : FieldDesc} (hf : f ∈ listed p d.fields) :
    f.bits.repeated = (fieldBits f.proto f.features).repeated ∧ f.bits.packed = (fieldBits f.proto f.features).packed ∧
    f.bits.utf8 = (fieldBits f.proto f.features).utf8 ∧ f.bits.delimited = (fieldBits f.proto f.features).delimited ∧
    f.bits.required = (fieldBits f.proto f.features).required := by
  have := (view_of order ho h hd).own f hf
  have h1 := congrArg FieldBits.repeated this
  have h2 := congrArg FieldBits.packed this
  have h3 := congrArg FieldBits.utf8 this
  have h4 := congrArg FieldBits.delimited this
  have h5 := congrArg FieldBits.required this
  exact ⟨h1, h2, h3, h4, h5⟩

theorem bit_repeated {i : Nat} {d : MsgDesc} (hd : p.messages[i]? = some d) {f : FieldDesc} (hf : f ∈ listed p d.fields) :
    f.bits.repeated = true ↔ f.proto.label = 3 := by
  rw [(own_bits ho h hd hf).1]
  unfold fieldBits
  simp

theorem bit_required {i : Nat} {d : MsgDesc} (hd : p.messages[i]? = some d) {f : FieldDesc} (hf : f ∈ listed p d.fields) :
    f.bits.required = true ↔ f.proto.label = 2 ∨ f.features.presence = 3 := by
  rw [(own_bits ho h hd hf).2.2.2.2]
  unfold fieldBits
  simp

omit ho h in
theorem explicit_iff (f : FieldDesc) (l : SlotLayout) : (resolvedField E p f l).dyn.explicit = true ↔
    f.bits.repeated = false ∧ (f.proto.oneofIndex.isSome = true ∨ f.bits.required = true ∨ f.bits.presence = true) := by
  unfold DynField.explicit DynField.presence presenceFor resolvedField fieldOneof
  simp only [Option.isSome_map]
  generalize f.bits.repeated = a, f.proto.oneofIndex.isSome = b, f.bits.required = c, f.bits.presence = d
  cases a <;> cases b <;> cases c <;> cases d <;> simp <;> decide

/-- The fields with presence are those that protobuf gives presence, and the fields of map entries. -/
theorem explicit_presence (hP : Proper fs) {i : Nat} {d : MsgDesc} (hd : p.messages[i]? = some d) {f : FieldDesc}
    (hf : f ∈ listed p d.fields) (l : SlotLayout) : (resolvedField E p f l).dyn.explicit = true ↔
      f.proto.label ≠ 3 ∧ (d.proto.mapEntry = true ∨ hasPresence False f.proto f.features) := by
  have V := view_of order ho h hd
  have hp := hP.presence _ (pool_decl ho h hd) f.proto (V.proto_mem f hf)
  rw [show (⟨d.fullName, d.proto, d.features⟩ : Decl).features = d.features from rfl, ← V.features f hf] at hp
  have hl := (listed_type ho h hd hf).label
  rw [explicit_iff, ← Bool.not_eq_true, bit_repeated ho h hd hf, bit_required ho h hd hf, V.presence f hf]
  unfold hasPresence required fieldBits
  simp only [Bool.or_eq_true, Bool.and_eq_true, beq_iff_eq, false_or, ne_eq]
  constructor
  · rintro ⟨h1, h2⟩
    refine ⟨h1, ?_⟩
    rcases h2 with h2 | h2 | h2 | h2
    · exact .inr ⟨h1, .inr (.inr (.inl h2))⟩
    · exact .inr ⟨h1, .inr (.inr (.inr (.inr (.inl h2))))⟩
    · exact .inl h2
    · obtain ⟨_, h3⟩ := h2
      refine .inr ⟨h1, ?_⟩
      rcases h3 with ((((h3 | h3) | h3) | h3) | h3) | h3
      · exact .inl h3
      · exact .inr (.inl h3)
      · exact .inr (.inr (.inr (.inl h3)))
      · exact .inr (.inr (.inl h3))
      · exact .inr (.inr (.inr (.inr (.inr (by omega)))))
      · exact .inr (.inr (.inr (.inr (.inr (by omega)))))
  · rintro ⟨h1, h2⟩
    refine ⟨h1, ?_⟩
    rcases h2 with h2 | ⟨_, h2⟩
    · exact .inr (.inr (.inl h2))
    · by_cases hl2 : f.proto.label = 2
      · exact .inr (.inl (.inl hl2))
      have hl1 : f.proto.label = 1 := by omega
      rcases h2 with h2 | h2 | h2 | h2 | h2 | h2
      · exact .inr (.inr (.inr ⟨hl1, .inl (.inl (.inl (.inl (.inl h2))))⟩))
      · exact .inr (.inr (.inr ⟨hl1, .inl (.inl (.inl (.inl (.inr h2))))⟩))
      · exact .inl h2
      · exact .inr (.inr (.inr ⟨hl1, .inl (.inl (.inl (.inr h2)))⟩))
      · exact .inr (.inl h2)
      · by_cases h3 : f.features.presence = 3
        · exact .inr (.inl (.inr h3))
        · by_cases h0 : f.features.presence = 0
          · exact .inr (.inr (.inr ⟨hl1, .inr h0⟩))
          · exact .inr (.inr (.inr ⟨hl1, .inl (.inr (by omega))⟩))

/-- The map entries of a proper set in terms of the pool. -/
theorem entry_fields (hP : Proper fs) {i : Nat} {d : MsgDesc} (hd : p.messages[i]? = some d) (he : d.proto.mapEntry = true) :
    ∃ k v, listed p d.fields = [k, v] ∧ k.proto.number = 1 ∧ v.proto.number = 2 ∧ k.proto.label = 1 ∧ v.proto.label = 1 ∧
      k.proto.oneofIndex = none ∧ v.proto.oneofIndex = none ∧
      (k.proto.type = 8 ∨ k.proto.type = 9 ∨ (intType k.proto.type).isSome) ∧
      ∀ d ∈ decls fs, (v.proto.type = 10 ∨ v.proto.type = 11) → v.proto.typeName = b!"." ++ d.name → d.msg.mapEntry = false := by
  have V := view_of order ho h hd
  obtain ⟨k, v, e, hr⟩ := (hP.entries _ (pool_decl ho h hd) he).pair
  have hp := V.protos
  rw [show d.proto.fields = [k, v] from e] at hp
  match hL : listed p d.fields, hp with
  | [a, b], hp =>
    simp only [List.map_cons, List.map_nil, List.cons.injEq, and_true] at hp
    obtain ⟨rfl, rfl⟩ := hp
    exact ⟨a, b, rfl, hr⟩
  | [], hp => simp at hp
  | [_], hp => simp at hp
  | _ :: _ :: _ :: _, hp => simp at hp

theorem default_zero (hP : Proper fs) {i : Nat} {d : MsgDesc} (hd : p.messages[i]? = some d) {f : FieldDesc}
    (hf : f ∈ listed p d.fields) (l : SlotLayout) (he : (resolvedField E p f l).dyn.explicit = false) :
    (fieldDefault E p f).bits = 0 ∧ (fieldDefault E p f).str = [] := by
  have V := view_of order ho h hd
  have hx : ¬ (f.proto.label ≠ 3 ∧ (d.proto.mapEntry = true ∨ hasPresence False f.proto f.features)) := by
    rw [← explicit_presence ho h E hP hd hf l, he]
    simp
  have hdef : f.proto.defaultValue = [] := by
    false_or_by_contra
    rename_i hn
    have := hP.defaults _ (pool_decl ho h hd) f.proto (V.proto_mem f hf) hn
    rw [show (⟨d.fullName, d.proto, d.features⟩ : Decl).features = d.features from rfl, ← V.features f hf] at this
    exact hx ⟨this.1, .inr this⟩
  unfold fieldDefault
  split
  · exact ⟨rfl, hdef⟩
  split
  · refine ⟨?_, rfl⟩
    show ((enumOf p f).bind fun e => enumDefault e.proto f).getD 0 = 0
    have hb : (f.bits.presence || f.bits.required) = false := by
      have hp := hP.presence _ (pool_decl ho h hd) f.proto (V.proto_mem f hf)
      rw [show (⟨d.fullName, d.proto, d.features⟩ : Decl).features = d.features from rfl, ← V.features f hf] at hp
      by_cases hr : f.bits.repeated = true
      · have h3 := (bit_repeated ho h hd hf).1 hr
        have hreq : f.bits.required = false := by
          rw [← Bool.not_eq_true, bit_required ho h hd hf]
          rintro (h | h)
          · omega
          · exact hp.2.2 h3 h
        have hm : d.proto.mapEntry = false := by
          rw [← Bool.not_eq_true]
          intro hm
          obtain ⟨k, v, e, _, _, hk, hv, _⟩ := entry_fields ho h hP hd hm
          rw [e] at hf
          simp only [List.mem_cons, List.not_mem_nil, or_false] at hf
          rcases hf with rfl | rfl <;> omega
        rw [hreq, V.presence f hf, hm]
        unfold fieldBits
        simp [h3]
      · have hn : ¬ (resolvedField E p f l).dyn.explicit = true := by rw [he]; simp
        rw [explicit_iff] at hn
        cases h1 : f.bits.presence <;> cases h2 : f.bits.required <;> simp [h1, h2, hr] at hn ⊢
    cases enumOf p f with
    | none => rfl
    | some e =>
      show (enumDefault e.proto f).getD 0 = 0
      unfold enumDefault
      rw [hb]
      split <;> simp [hdef]
  · refine ⟨?_, rfl⟩
    show (parsedDefault E f.proto).getD 0 = 0
    unfold parsedDefault
    rw [hdef]
    split
    · rfl
    · rfl

/-- The slots are those of the layout. -/
theorem types_ok (hF : FactoryOk E.float fs) (hP : Proper fs) (i : Nat) : ((typesOf E p).dyn i).Ok where
  laid := by
    cases hd : p.messages[i]? with
    | none =>
      refine ⟨0, ?_, ?_⟩
      · unfold Json.JTypes.dyn
        rw [types_none E hd]
        intro f hf
        cases hf
      · unfold Json.JTypes.dyn
        rw [types_none E hd]
        rfl
    | some d =>
      obtain ⟨ls, n, h1, h2, e⟩ := types_at ho h E hF hd
      unfold Json.JTypes.dyn
      rw [e]
      refine ⟨d.proto.oneofs.length, ?_, ?_⟩
      · intro g hg o hgo
        obtain ⟨g', hg', rfl⟩ := List.mem_map.1 hg
        obtain ⟨f, hf, l, rfl⟩ := zip_mem hg'
        obtain ⟨k, hk, rfl⟩ := Option.map_eq_some_iff.1 hgo
        have V := view_of order ho h hd
        have := V.fields.members _ (V.proto_mem f hf) k hk
        omega
      · unfold messageLayout at h1
        show layoutFields _ ((((listed p d.fields).zipWith (resolvedField E p) ls).map Json.JField.dyn).map DynField.slotField) =
          some ((((listed p d.fields).zipWith (resolvedField E p) ls).map Json.JField.dyn).map DynField.layout, n)
        rw [List.map_map, List.map_map, zip_map (k := fun f => (⟨fieldOneof f, f.bits.repeated⟩ : SlotField)) (fun _ _ => rfl) h2,
          zip_right (fun _ _ => rfl) h2]
        exact h1
  singularMembers := by
    intro g hg hr
    obtain ⟨g', hg', rfl⟩ := List.mem_map.1 hg
    obtain ⟨d, hd, f, hf, l, rfl⟩ := types_field ho h E hF hg'
    have V := view_of order ho h hd
    show f.proto.oneofIndex.map Int.toNat = none
    cases hk : f.proto.oneofIndex with
    | none => rfl
    | some k => exact absurd ((bit_repeated ho h hd hf).1 hr) (V.fields.members _ (V.proto_mem f hf) k hk).1
  zeroDefaults := by
    intro g hg he
    obtain ⟨g', hg', rfl⟩ := List.mem_map.1 hg
    obtain ⟨d, hd, f, hf, l, rfl⟩ := types_field ho h E hF hg'
    exact default_zero ho h E hP hd hf l he

/-- Packed fields are repeated numbers; the fields of map entries have presence. -/
theorem types_pooled (hF : FactoryOk E.float fs) (i : Nat) : ((typesOf E p).dyn i).Pooled where
  packed := by
    intro g hg hp
    obtain ⟨g', hg', rfl⟩ := List.mem_map.1 hg
    obtain ⟨d, hd, f, hf, l, rfl⟩ := types_field ho h E hF hg'
    have ho := own_bits ho h hd hf
    have hp : f.bits.packed = true := hp
    rw [ho.2.1] at hp
    unfold fieldBits at hp
    simp only [Bool.and_eq_true, beq_iff_eq, Bool.not_eq_true', Bool.or_eq_false_iff, beq_eq_false_iff_ne] at hp
    refine ⟨?_, ?_⟩
    · show f.bits.repeated = true
      rw [ho.1]
      unfold fieldBits
      simp [hp.1.1]
    · exact kind_isNum (listed_type ‹_› h hd hf).type (by omega)
  entryExplicit := by
    intro he g hg hr
    obtain ⟨g', hg', rfl⟩ := List.mem_map.1 hg
    obtain ⟨d, hd, f, hf, l, rfl⟩ := types_field ho h E hF hg'
    have V := view_of order ho h hd
    obtain ⟨_, _, _, _, e⟩ := types_at ho h E hF hd
    have he' : d.proto.mapEntry = true := by
      have : (typesOf E p i).entry = true := he
      rw [e] at this
      exact this
    rw [explicit_iff]
    refine ⟨hr, .inr (.inr ?_)⟩
    rw [V.presence f hf, he']
    rfl

theorem types_numbers (hF : FactoryOk E.float fs) (i : Nat) : ∀ g ∈ ((typesOf E p).dyn i).fields,
    0 < g.number.toNat ∧ g.number.toNat < 2 ^ 29 := by
  intro g hg
  obtain ⟨g', hg', rfl⟩ := List.mem_map.1 hg
  obtain ⟨d, hd, f, hf, l, rfl⟩ := types_field ho h E hF hg'
  have hn := (listed_type ho h hd hf).number
  have := ofInt_toNat (n := f.proto.number) (by omega)
  show 0 < (BitVec.ofInt 32 f.proto.number).toNat ∧ (BitVec.ofInt 32 f.proto.number).toNat < 2 ^ 29
  omega

theorem types_distinct (hF : FactoryOk E.float fs) (i : Nat) : (((typesOf E p).dyn i).fields.map DynField.number).Nodup := by
  cases hd : p.messages[i]? with
  | none =>
    unfold Json.JTypes.dyn
    rw [types_none E hd]
    exact List.nodup_nil
  | some d =>
    have V := view_of order ho h hd
    obtain ⟨ls, n, h1, h2, e⟩ := types_at ho h E hF hd
    unfold Json.JTypes.dyn
    rw [e]
    show ((((listed p d.fields).zipWith (resolvedField E p) ls).map Json.JField.dyn).map DynField.number).Nodup
    rw [List.map_map, zip_map (f := resolvedField E p) (g := DynField.number ∘ Json.JField.dyn) (k := fun f => BitVec.ofInt 32 f.proto.number)
      (fun _ _ => rfl) h2]
    have hn := V.fields.numbers
    rw [← V.protos, List.map_map] at hn
    unfold List.Nodup at hn ⊢
    rw [List.pairwise_map] at hn ⊢
    refine List.Pairwise.imp_of_mem ?_ hn
    intro a b ha hb hab e
    have h3 := (listed_type ho h hd ha).number
    have h4 := (listed_type ho h hd hb).number
    have h5 := ofInt_toNat (n := a.proto.number) (by omega)
    have h6 := ofInt_toNat (n := b.proto.number) (by omega)
    rw [e] at h5
    exact hab (by show a.proto.number = b.proto.number; omega)

/-- The message of a field in the types. -/
theorem sub_entry (hF : FactoryOk E.float fs) {f : FieldDesc} (hf : f ∈ p.fields)
    (ht : f.proto.type = 10 ∨ f.proto.type = 11) : ∃ d : MsgDesc, p.messages[f.type.getD 0]? = some d ∧
      f.proto.typeName = b!"." ++ d.fullName ∧ (typesOf E p (f.type.getD 0)).entry = d.proto.mapEntry := by
  obtain ⟨i, d, h1, h2, h3, -⟩ := pool_messageOf ho h hf ht
  obtain ⟨_, _, _, _, e⟩ := types_at ho h E hF h2
  rw [h1]
  exact ⟨d, h2, h3, by rw [Option.getD_some, e]⟩

theorem closed_enum {f : FieldDesc} (hf : f ∈ p.fields) (ht : f.proto.type = 14) (hc : isClosedEnum p f = true) :
    ∃ e, EnumOf fs f.proto e ∧ e.features.enumType = 2 := by
  obtain ⟨i, e, -, -, h3, h4⟩ := pool_enumOf ho h hf ht
  unfold isClosedEnum at hc
  rw [h3] at hc
  exact ⟨_, (h4 _).2 rfl, by simpa using hc⟩

/-- What reading relies on. -/
theorem types_readable (hF : FactoryOk E.float fs) (hP : Proper fs) (hO : OpenMaps fs) : (typesOf E p).dyn.relaxed.Readable where
  distinct i := by
    have := types_distinct ho h E hF i
    simp only [DynTypes.relaxed, List.map_map]
    exact this
  entries i he := by
    cases hd : p.messages[i]? with
    | none =>
      have : (typesOf E p i).entry = true := he
      rw [types_none E hd] at this
      cases this
    | some d =>
      obtain ⟨ls, n, h1, h2, e⟩ := types_at ho h E hF hd
      have he' : d.proto.mapEntry = true := by
        have : (typesOf E p i).entry = true := he
        rw [e] at this
        exact this
      have V := view_of order ho h hd
      obtain ⟨k, v, hL, k1, v1, k2, v2, k3, v3, k4, v4⟩ := entry_fields ho h hP hd he'
      have hk : k ∈ listed p d.fields := by rw [hL]; simp
      have hv : v ∈ listed p d.fields := by rw [hL]; simp
      rw [hL] at h2
      match ls, h2 with
      | [a, b], _ =>
        have hex : ∀ f ∈ listed p d.fields, f.proto.label = 1 → ∀ l, (resolvedField E p f l).dyn.explicit = true := by
          intro f hf hl l
          rw [explicit_iff, ← Bool.not_eq_true, bit_repeated ho h hd hf]
          refine ⟨by omega, .inr (.inr ?_)⟩
          rw [V.presence f hf, he']
          rfl
        have hrep : ∀ f ∈ listed p d.fields, f.proto.label = 1 → f.bits.repeated = false := by
          intro f hf hl
          rw [← Bool.not_eq_true, bit_repeated ho h hd hf]
          omega
        have hk10 : ¬ (k.proto.type = 10 ∨ k.proto.type = 11 ∨ k.proto.type = 14) := by
          intro hc
          rcases hc with hc | hc | hc <;> rw [hc] at k4 <;> simp [intType] at k4
        refine ⟨(resolvedField E p k a).dyn.relaxed, (resolvedField E p v b).dyn.relaxed, ?_, ?_, ?_, hrep k hk k2, hrep v hv v2,
          ?_, ?_, ?_, ?_, ?_, ?_, ?_, ?_⟩
        · show ((typesOf E p i).fields.map Json.JField.dyn).map DynField.relaxed = _
          rw [e, hL]
          rfl
        · show BitVec.ofInt 32 k.proto.number = 1
          rw [k1]
          rfl
        · show BitVec.ofInt 32 v.proto.number = 2
          rw [v1]
          rfl
        · show k.proto.oneofIndex.map Int.toNat = none
          rw [k3]
          rfl
        · show v.proto.oneofIndex.map Int.toNat = none
          rw [v3]
          rfl
        · rw [relaxed_explicit]
          exact hex k hk k2 a
        · rw [relaxed_explicit]
          exact hex v hv v2 b
        · show (fieldKind p k).msgType = none
          cases hm : (fieldKind p k).msgType with
          | none => rfl
          | some sid =>
            have := (kind_msgType (listed_type ho h hd hk).type hm).1
            exact absurd (by omega) hk10
        · show (fieldKind p k).closed = false
          rw [← Bool.not_eq_true]
          intro hc
          exact hk10 (.inr (.inr (kind_closed (listed_type ho h hd hk).type hc).1))
        · show (fieldKind p v).closed = false
          rw [← Bool.not_eq_true]
          intro hc
          obtain ⟨c1, c2⟩ := kind_closed (listed_type ho h hd hv).type hc
          obtain ⟨x, x1, x2⟩ := closed_enum ho h (V.mem v hv) c1 c2
          exact hO _ (pool_decl ho h hd) he' v.proto (V.proto_mem v hv) c1 x x1 x2
        · intro sid hs
          obtain ⟨c1, c2, -⟩ := kind_msgType (listed_type ho h hd hv).type hs
          obtain ⟨d', x1, x2, x3⟩ := sub_entry ho h E hF (V.mem v hv) c1
          show (typesOf E p sid).entry = false
          rw [← c2, x3]
          exact v4 _ (pool_decl ho h x1) c1 x2
  closed := by
    intro i g hg hc hr
    obtain ⟨g1, hg1, rfl⟩ := List.mem_map.1 hg
    obtain ⟨g2, hg2, rfl⟩ := List.mem_map.1 hg1
    obtain ⟨d, hd, f, hf, l, rfl⟩ := types_field ho h E hF hg2
    have V := view_of order ho h hd
    rw [relaxed_explicit]
    refine ⟨?_, rfl⟩
    obtain ⟨c1, c2⟩ := kind_closed (listed_type ho h hd hf).type hc
    obtain ⟨x, x1, x2⟩ := closed_enum ho h (V.mem f hf) c1 c2
    have hl : f.proto.label ≠ 3 := by
      rw [ne_eq, ← bit_repeated ho h hd hf, Bool.not_eq_true]
      exact hr
    rw [explicit_presence ho h E hP hd hf]
    refine ⟨hl, .inr ?_⟩
    false_or_by_contra
    rename_i hn
    rw [V.features f hf] at hn
    exact hP.openEnums _ (pool_decl ho h hd) f.proto (V.proto_mem f hf) c1 hl hn x x1 x2
  enums := by
    intro i g hg vs hk x hx
    obtain ⟨g1, hg1, rfl⟩ := List.mem_map.1 hg
    obtain ⟨g2, hg2, rfl⟩ := List.mem_map.1 hg1
    obtain ⟨d, hd, f, hf, l, rfl⟩ := types_field ho h E hF hg2
    have V := view_of order ho h hd
    obtain ⟨c1, rfl⟩ := kind_enum (listed_type ho h hd hf).type hk
    obtain ⟨j, e, e1, e2, -, -⟩ := pool_enumOf ho h (V.mem f hf) c1
    unfold enumNumbers at hx
    rw [e1, Option.getD_some, e2] at hx
    obtain ⟨n, hn, rfl⟩ := List.mem_map.1 hx
    obtain ⟨w, hw, rfl⟩ := List.mem_map.1 hn
    have := hP.numbers _ (pool_enum ho h e2) w hw
    exact ofInt_sext this

/-- Map entries are the elements of repeated fields. -/
theorem types_maps (hF : FactoryOk E.float fs) (hP : Proper fs) (hQ : PlainMaps fs) : (typesOf E p).dyn.MapsRepeated := by
  intro i g hg sid hs he
  obtain ⟨g2, hg2, rfl⟩ := List.mem_map.1 hg
  obtain ⟨d, hd, f, hf, l, rfl⟩ := types_field ho h E hF hg2
  have V := view_of order ho h hd
  obtain ⟨c1, c2, c3⟩ := kind_msgType (listed_type ho h hd hf).type hs
  obtain ⟨d', x1, x2, x3⟩ := sub_entry ho h E hF (V.mem f hf) c1
  have he' : d'.proto.mapEntry = true := by
    rw [← x3, c2]
    exact he
  obtain ⟨m1, m2⟩ := hP.maps _ (pool_decl ho h hd) f.proto (V.proto_mem f hf) _ (pool_decl ho h x1) c1 x2 he'
  have m3 := hQ _ (pool_decl ho h hd) f.proto (V.proto_mem f hf) _ (pool_decl ho h x1) m2 x2 he'
  rw [show (⟨d.fullName, d.proto, d.features⟩ : Decl).features = d.features from rfl, ← V.features f hf] at m3
  refine ⟨(bit_repeated ho h hd hf).2 m1, ?_⟩
  show fieldKind p f = _
  rw [c3, (own_bits ho h hd hf).2.2.2.1]
  unfold fieldBits
  simp [m2, m3]

end

end HppProto
