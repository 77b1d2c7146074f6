import Verif.Model.Factory
import Verif.Spec.Factory
import Verif.Proofs.MetaView
import Verif.Proofs.Decimal
import Verif.Props.Slots

/-! # What the factory accepts: helper lemmas -/

namespace HppProto
open Spec Meta

/-! ## Default values -/

theorem isDigit_iff (c : Byte) : isDigit c = true ↔ 48 ≤ c.toNat ∧ c.toNat ≤ 57 := by
  unfold isDigit
  simp

theorem fromStrView_numeral (lo hi : Int) (s : List Byte) (n : Int) :
    fromStrView lo hi s = some n ↔ Numeral (decide (lo < 0)) s n ∧ lo ≤ n ∧ n ≤ hi := by
  rw [fromStrView_iff]
  have hv : ∀ ds, decVal ds = digitsValue ds := fun _ => rfl
  simp only [hv]
  constructor
  · rintro ⟨neg, ds, h1, h2, h3, h4, h5, h6, h7⟩
    refine ⟨⟨ds, h3, fun c hc => (isDigit_iff c).1 (h4 c hc), ?_⟩, h6, h7⟩
    cases neg with
    | false => exact .inl ⟨by simpa using h2, by simpa using h5⟩
    | true => exact .inr ⟨by simpa using h1 rfl, by simpa using h2, by simpa using h5⟩
  · rintro ⟨⟨ds, h3, h4, h | ⟨h0, h1, h2⟩⟩, h6, h7⟩
    · exact ⟨false, ds, by simp, by simpa using h.1, h3, fun c hc => (isDigit_iff c).2 (h4 c hc), by simpa using h.2, h6, h7⟩
    · exact ⟨true, ds, fun _ => by simpa using h0, by simpa using h1, h3, fun c hc => (isDigit_iff c).2 (h4 c hc), by simpa using h2, h6, h7⟩

theorem numeral_ne {s : Bool} {t : List Byte} {n : Int} (h : Numeral s t n) : t ≠ [] := by
  obtain ⟨ds, h0, -, ⟨rfl, -⟩ | ⟨-, rfl, -⟩⟩ := h
  · exact h0
  · simp

/-- A field of a numeric type, as far as default values are concerned. -/
def isNumeric (type : Int) : Prop := type = 1 ∨ type = 2 ∨ (intType type).isSome

theorem parsed_int {lo hi : Int} {s : Bool} {b : Nat} (hs : s = decide (lo < 0))
    (hr : ∀ n, fitsBits s b n ↔ lo ≤ n ∧ n ≤ hi) (t : List Byte) (v : BitVec 64) :
    (fromStrView lo hi t).map (BitVec.ofInt 64) = some v ↔
      ∃ n, Numeral s t n ∧ fitsBits s b n ∧ v = BitVec.ofInt 64 n := by
  rw [Option.map_eq_some_iff]
  constructor
  · rintro ⟨n, h, rfl⟩
    rw [fromStrView_numeral, ← hs] at h
    exact ⟨n, h.1, (hr n).2 h.2, rfl⟩
  · rintro ⟨n, h1, h2, rfl⟩
    refine ⟨n, ?_, rfl⟩
    rw [fromStrView_numeral, ← hs]
    exact ⟨h1, (hr n).1 h2⟩

theorem parsedDefault_iff (E : FactoryEnv) (f : FieldProto) (h : isNumeric f.type) (v : BitVec 64) :
    parsedDefault E f = some v ↔ NumberOf E.float f.type f.defaultValue v := by
  have h8 : f.type ≠ 8 := by
    intro e
    unfold isNumeric intType at h
    rw [e] at h
    simp at h
  unfold parsedDefault
  rw [if_neg h8]
  unfold NumberOf
  by_cases ht : f.defaultValue = []
  · rw [if_pos ht]
    constructor
    · intro e
      cases e
      exact .inl ⟨ht, rfl⟩
    · rintro (⟨-, rfl⟩ | ⟨h, -⟩ | ⟨h, -⟩ | ⟨_, _, _, _, h, _⟩)
      · rfl
      · exact absurd ht h
      · exact absurd ht h
      · exact absurd ht (numeral_ne h)
  · rw [if_neg ht]
    by_cases h1 : f.type = 1
    · rw [if_pos h1]
      simp [ht, h1, intType]
    rw [if_neg h1]
    by_cases h2 : f.type = 2
    · rw [if_pos h2]
      simp [ht, h2, intType]
    rw [if_neg h2]
    have key : ∀ {s : Bool} {b : Nat}, intType f.type = some (s, b) →
        ((f.defaultValue = [] ∧ v = 0 ∨ f.defaultValue ≠ [] ∧ f.type = 1 ∧ E.float true f.defaultValue = some v ∨
          f.defaultValue ≠ [] ∧ f.type = 2 ∧ E.float false f.defaultValue = some v ∨
          ∃ s b n, intType f.type = some (s, b) ∧ Numeral s f.defaultValue n ∧ fitsBits s b n ∧ v = BitVec.ofInt 64 n) ↔
        ∃ n, Numeral s f.defaultValue n ∧ fitsBits s b n ∧ v = BitVec.ofInt 64 n) := by
      intro s b e
      simp only [ht, h1, h2, e, false_and, and_false, false_or, Option.some.injEq, Prod.mk.injEq]
      constructor
      · rintro ⟨s', b', n, ⟨rfl, rfl⟩, h⟩
        exact ⟨n, h⟩
      · rintro ⟨n, h⟩
        exact ⟨s, b, n, ⟨rfl, rfl⟩, h⟩
    by_cases h3 : f.type = 3 ∨ f.type = 16 ∨ f.type = 18
    · rw [if_pos h3, key (by unfold intType; rw [if_pos h3])]
      exact parsed_int (by simp) (fun n => by unfold fitsBits; simp; omega) _ _
    rw [if_neg h3]
    by_cases h4 : f.type = 4 ∨ f.type = 6
    · rw [if_pos h4, key (by unfold intType; rw [if_neg h3, if_pos h4])]
      exact parsed_int (by simp) (fun n => by unfold fitsBits maxU64; simp; omega) _ _
    rw [if_neg h4]
    by_cases h5 : f.type = 5 ∨ f.type = 15 ∨ f.type = 17
    · rw [if_pos h5, key (by unfold intType; rw [if_neg h3, if_neg h4, if_pos h5])]
      exact parsed_int (by simp [minI32]) (fun n => by unfold fitsBits minI32 maxI32; simp; omega) _ _
    rw [if_neg h5]
    by_cases h6 : f.type = 7 ∨ f.type = 13
    · rw [if_pos h6, key (by unfold intType; rw [if_neg h3, if_neg h4, if_neg h5, if_pos h6])]
      exact parsed_int (by simp) (fun n => by unfold fitsBits; simp; omega) _ _
    · unfold isNumeric intType at h
      rw [if_neg h3, if_neg h4, if_neg h5, if_neg h6] at h
      simp [h1, h2] at h

theorem parsedDefault_other (E : FactoryEnv) (f : FieldProto) (h : ¬ isNumeric f.type) :
    (parsedDefault E f).isSome := by
  unfold isNumeric intType at h
  unfold parsedDefault
  split
  · rfl
  split
  · rfl
  split
  · rename_i e; exact absurd (.inl e) h
  split
  · rename_i e; exact absurd (.inr (.inl e)) h
  rename_i h1 h2
  split
  · rename_i e; rw [if_pos e] at h; simp at h
  rename_i h3
  rw [if_neg h3] at h
  split
  · rename_i e; rw [if_pos e] at h; simp at h
  rename_i h4
  rw [if_neg h4] at h
  split
  · rename_i e; rw [if_pos e] at h; simp at h
  rename_i h5
  rw [if_neg h5] at h
  split
  · rename_i e; rw [if_pos e] at h; simp at h
  · rfl

theorem valueOf_iff (e : EnumProto) (name : List Byte) (n : Int) : e.valueOf name = some n ↔ ValueNamed e name n := by
  unfold EnumProto.valueOf ValueNamed
  rw [Option.map_eq_some_iff]
  constructor
  · rintro ⟨⟨a, m⟩, h, rfl⟩
    obtain ⟨h1, l, r, h2, h3⟩ := List.find?_eq_some_iff_append.1 h
    simp only [beq_iff_eq] at h1
    subst h1
    exact ⟨l, r, h2, fun v hv => by simpa using h3 v hv⟩
  · rintro ⟨l, r, h1, h2⟩
    refine ⟨(name, n), List.find?_eq_some_iff_append.2 ⟨by simp, l, r, h1, fun v hv => by simpa using h2 v hv⟩, rfl⟩

theorem enumDefault_isSome (e : EnumProto) (f : FieldDesc) :
    (enumDefault e f).isSome ↔ e.values ≠ [] ∧ (f.proto.defaultValue ≠ [] → ∃ n, ValueNamed e f.proto.defaultValue n) := by
  unfold enumDefault
  cases h : e.values with
  | nil => simp
  | cons v vs =>
    simp only [ne_eq, reduceCtorEq, not_false_eq_true, true_and]
    by_cases hd : f.proto.defaultValue = []
    · simp [hd]
      split <;> simp
    · simp [hd, Option.isSome_iff_exists, valueOf_iff]

/-! ## The pool -/

section
variable {order : FileMap → FileMap} (ho : ∀ m, (order m).Perm m) {fs : List FileProto} {p : Pool}
  (h : initPool order fs = .ok p)
include ho h

theorem pool_mirrors : Mirrors p fs := by
  have hs := initPool_sat order ho fs
  rw [h] at hs
  obtain ⟨⟨_, _, _, _, _, st⟩, _⟩ := hs
  exact st.mirrors

theorem pool_wellFormed : WellFormed fs := by
  have hs := initPool_sat order ho fs
  rw [h] at hs
  exact hs.2

theorem pool_resolved : ∀ f ∈ p.fields, Resolved p f := by
  have hs := initPool_sat order ho fs
  rw [h] at hs
  obtain ⟨⟨_, _, _, _, _, st⟩, _⟩ := hs
  exact fun f hf => st.resolvedField hf

theorem pool_field_mem (f : FieldProto) : f ∈ fieldDecls fs ↔ ∃ g ∈ p.fields, g.proto = f := by
  rw [← (pool_mirrors ho h).all_fields.mem_iff, List.mem_map]

theorem pool_decl {i : Nat} {d : MsgDesc} (hd : p.messages[i]? = some d) :
    (⟨d.fullName, d.proto, d.features⟩ : Decl) ∈ decls fs := by
  rw [← (pool_mirrors ho h).all_messages.mem_iff, List.mem_map]
  exact ⟨d, List.mem_of_getElem? hd, rfl⟩

theorem pool_enum {i : Nat} {e : EnumDesc} (he : p.enums[i]? = some e) :
    (⟨e.fullName, e.proto, e.features⟩ : EnumDecl) ∈ enumDecls fs := by
  rw [← (pool_mirrors ho h).all_enums.mem_iff, List.mem_map]
  exact ⟨e, List.mem_of_getElem? he, rfl⟩

theorem pool_decl_get {d : Decl} (hd : d ∈ decls fs) :
    ∃ (i : Nat) (m : MsgDesc), p.messages[i]? = some m ∧ d = ⟨m.fullName, m.proto, m.features⟩ := by
  rw [← (pool_mirrors ho h).all_messages.mem_iff, List.mem_map] at hd
  obtain ⟨m, hm, rfl⟩ := hd
  obtain ⟨i, hi⟩ := List.getElem?_of_mem hm
  exact ⟨i, m, hi, rfl⟩

omit ho h in
theorem nodup_inj {α β : Type} {f : α → β} {l : List α} (h : (l.map f).Nodup) {x y : α} (hx : x ∈ l) (hy : y ∈ l)
    (e : f x = f y) : x = y := by
  obtain ⟨i, hi⟩ := List.getElem?_of_mem hx
  obtain ⟨j, hj⟩ := List.getElem?_of_mem hy
  have := nodup_map_get h hi hj e
  subst this
  rw [hi] at hj
  exact Option.some.inj hj

/-- The enum of a field is the one its type names. -/
theorem pool_enumOf {f : FieldDesc} (hf : f ∈ p.fields) (ht : f.proto.type = 14) :
    ∃ i e, f.type = some i ∧ p.enums[i]? = some e ∧ enumOf p f = some e ∧
      ∀ x, EnumOf fs f.proto x ↔ x = ⟨e.fullName, e.proto, e.features⟩ := by
  obtain ⟨i, e, h1, h2, h3⟩ := (pool_resolved ho h f hf).enum ht
  refine ⟨i, e, h1, h2, ?_, ?_⟩
  · unfold enumOf
    rw [if_pos ht, h1]
    exact h2
  · intro x
    unfold EnumOf
    constructor
    · rintro ⟨a, b⟩
      refine nodup_inj (f := EnumDecl.name) (pool_wellFormed ho h).enum_names a (pool_enum ho h h2) ?_
      rw [h3] at b
      exact (List.append_cancel_left b).symm
    · rintro rfl
      exact ⟨pool_enum ho h h2, h3⟩

/-- The message of a field is the one its type names. -/
theorem pool_messageOf {f : FieldDesc} (hf : f ∈ p.fields) (ht : f.proto.type = 10 ∨ f.proto.type = 11) :
    ∃ i d, f.type = some i ∧ p.messages[i]? = some d ∧ f.proto.typeName = b!"." ++ d.fullName ∧
      f.bits.mapEntry = d.proto.mapEntry :=
  (pool_resolved ho h f hf).message ht

theorem defaults_iff (E : FactoryEnv) :
    p.fields.any (fun f => (parsedDefault E f.proto).isNone) = false ↔
      ∀ f ∈ fieldDecls fs, isNumeric f.type → ∃ v, NumberOf E.float f.type f.defaultValue v := by
  rw [List.any_eq_false]
  constructor
  · intro hp f hf hn
    obtain ⟨g, hg, rfl⟩ := (pool_field_mem ho h f).1 hf
    have := hp g hg
    rw [Option.isNone_iff_eq_none] at this
    obtain ⟨v, hv⟩ := Option.ne_none_iff_exists'.1 this
    exact ⟨v, (parsedDefault_iff E _ hn v).1 hv⟩
  · intro hp g hg
    by_cases hn : isNumeric g.proto.type
    · obtain ⟨v, hv⟩ := hp g.proto ((pool_field_mem ho h _).2 ⟨g, hg, rfl⟩) hn
      rw [(parsedDefault_iff E _ hn v).2 hv]
      simp
    · have := parsedDefault_other E _ hn
      rw [Option.isSome_iff_ne_none] at this
      rw [Option.isNone_iff_eq_none]
      exact this

theorem slotFields_eq {i : Nat} {d : MsgDesc} (hd : p.messages[i]? = some d) :
    ((listed p d.fields).map fun f => (⟨fieldOneof f, f.bits.repeated⟩ : SlotField)) =
      d.proto.fields.map fun f => ⟨f.oneofIndex.map Int.toNat, f.label == 3⟩ := by
  have V := view_of order ho h hd
  rw [← V.protos, List.map_map]
  refine List.map_congr_left fun f hf => ?_
  have : f.bits.repeated = (fieldBits f.proto f.features).repeated := by
    have := congrArg FieldBits.repeated (V.own f hf)
    exact this
  show (⟨fieldOneof f, f.bits.repeated⟩ : SlotField) = ⟨fieldOneof f, f.proto.label == 3⟩
  rw [this]
  rfl

theorem oneof_bound {i : Nat} {d : MsgDesc} (hd : p.messages[i]? = some d) :
    ∀ s ∈ d.proto.fields.map (fun f => (⟨f.oneofIndex.map Int.toNat, f.label == 3⟩ : SlotField)),
      ∀ o, s.oneof = some o → o < d.proto.oneofs.length := by
  have V := view_of order ho h hd
  intro s hs o ho'
  obtain ⟨f, hf, rfl⟩ := List.mem_map.1 hs
  obtain ⟨k, hk, rfl⟩ := Option.map_eq_some_iff.1 ho'
  obtain ⟨_, h0, h1⟩ := V.fields.members f hf k hk
  omega

theorem layout_iff {i : Nat} {d : MsgDesc} (hd : p.messages[i]? = some d) :
    (messageLayout p d).isSome ↔ OneofsOk d.proto := by
  have V := view_of order ho h hd
  unfold messageLayout
  rw [slotFields_eq ho h hd, Option.isSome_iff_exists, Props.C49_accepts (oneof_bound ho h hd)]
  have hpos : ∀ f ∈ d.proto.fields, ∀ k, f.oneofIndex = some k → 0 ≤ k := fun f hf k hk => (V.fields.members f hf k hk).2.1
  have hmem : ∀ (i o : Nat), Member (d.proto.fields.map fun f => (⟨f.oneofIndex.map Int.toNat, f.label == 3⟩ : SlotField)) i o ↔
      ∃ f, d.proto.fields[i]? = some f ∧ f.oneofIndex = some (o : Int) := by
    intro i o
    unfold Member
    rw [List.getElem?_map]
    constructor
    · rintro ⟨s, h1, h2⟩
      obtain ⟨f, hf, rfl⟩ := Option.map_eq_some_iff.1 h1
      obtain ⟨k, hk, e⟩ := Option.map_eq_some_iff.1 h2
      have := hpos f (List.mem_of_getElem? hf) k hk
      refine ⟨f, hf, ?_⟩
      rw [hk]
      congr 1
      omega
    · rintro ⟨f, hf, e⟩
      rw [hf]
      refine ⟨_, rfl, ?_⟩
      show f.oneofIndex.map Int.toNat = some o
      rw [e]
      rfl
  have hcount : ∀ o : Nat, ((d.proto.fields.map fun f => (⟨f.oneofIndex.map Int.toNat, f.label == 3⟩ : SlotField)).filter
      fun s => s.oneof == some o).length = (d.proto.fields.filter fun f => f.oneofIndex == some (o : Int)).length := by
    intro o
    rw [List.filter_map, List.length_map]
    congr 1
    refine List.filter_congr fun f hf => ?_
    show (f.oneofIndex.map Int.toNat == some o) = (f.oneofIndex == some (o : Int))
    cases hk : f.oneofIndex with
    | none => rfl
    | some k =>
      have := hpos f hf k hk
      rw [Option.map_some, Bool.eq_iff_iff, beq_iff_eq, beq_iff_eq, Option.some.injEq, Option.some.injEq]
      omega
  constructor
  · rintro ⟨h1, h2⟩
    refine ⟨?_, fun o => ?_⟩
    · intro i j k f g x o hij hjk hi hj hk hf hx
      have h0 := hpos f (List.mem_of_getElem? hi) o hf
      obtain ⟨g', hg', e⟩ := (hmem j o.toNat).1 (h1 i j k o.toNat hij hjk
        ((hmem _ _).2 ⟨f, hi, by rw [hf]; congr 1; omega⟩) ((hmem _ _).2 ⟨x, hk, by rw [hx]; congr 1; omega⟩))
      rw [hj] at hg'
      cases hg'
      rw [e]
      congr 1
      omega
    · by_cases h0 : 0 ≤ o
      · have := h2 o.toNat
        rw [hcount, show ((o.toNat : Nat) : Int) = o from by omega] at this
        exact this
      · rw [List.filter_eq_nil_iff.2 (fun f hf hk => h0 (hpos f hf o (by simpa using hk)))]
        simp
  · rintro ⟨h1, h2⟩
    refine ⟨?_, fun o => ?_⟩
    · intro i j k o hij hjk hi hk
      obtain ⟨f, hf, e1⟩ := (hmem _ _).1 hi
      obtain ⟨x, hx, e2⟩ := (hmem _ _).1 hk
      have hlt : j < d.proto.fields.length := by
        have := (List.getElem?_eq_some_iff.1 hx).1
        omega
      have hg := List.getElem?_eq_getElem hlt
      exact (hmem _ _).2 ⟨_, hg, h1 i j k f _ x o hij hjk hf hg hx e1 e2⟩
    · rw [hcount]
      exact h2 o

theorem layouts_iff : p.messages.any (fun d => (messageLayout p d).isNone) = false ↔ ∀ d ∈ decls fs, OneofsOk d.msg := by
  rw [List.any_eq_false]
  constructor
  · intro hp d hd
    obtain ⟨i, m, hi, rfl⟩ := pool_decl_get ho h hd
    have := hp m (List.mem_of_getElem? hi)
    rw [Option.isNone_iff_eq_none, ← ne_eq, ← Option.isSome_iff_ne_none] at this
    exact (layout_iff ho h hi).1 this
  · intro hp m hm
    obtain ⟨i, hi⟩ := List.getElem?_of_mem hm
    have := (layout_iff ho h hi).2 (hp _ (pool_decl ho h hi))
    rw [Option.isNone_iff_eq_none, ← ne_eq, ← Option.isSome_iff_ne_none]
    exact this

/-- The enums that fields are of have a value, and the default texts name one. -/
def EnumsFine (fs : List FileProto) (f : FieldProto) : Prop :=
  f.type = 14 → ∃ e, EnumOf fs f e ∧ e.enum.values ≠ [] ∧ (f.defaultValue ≠ [] → ∃ n, ValueNamed e.enum f.defaultValue n)

theorem checkEnums_sat : ∀ {L : List FieldDesc}, (∀ f ∈ L, f ∈ p.fields) →
    (checkEnums p L = .ok () ∧ ∀ f ∈ L, EnumsFine fs f.proto) ∨
    (checkEnums p L = .err .invalidArgument ∧ ¬ ∀ f ∈ L, EnumsFine fs f.proto)
  | [], _ => .inl ⟨rfl, by simp⟩
  | f :: L, hL => by
    have ih := checkEnums_sat (L := L) (fun g hg => hL g (List.mem_cons_of_mem _ hg))
    unfold checkEnums
    by_cases ht : f.proto.type = 14
    · rw [if_pos ht]
      obtain ⟨i, e, h1, h2, h3, h4⟩ := pool_enumOf ho h (hL f (List.mem_cons_self ..)) ht
      rw [h3]
      have key : EnumsFine fs f.proto ↔ (enumDefault e.proto f).isSome := by
        rw [enumDefault_isSome]
        constructor
        · intro hf
          obtain ⟨x, hx, h5⟩ := hf ht
          rw [(h4 x).1 hx] at h5
          exact h5
        · intro h5 _
          exact ⟨_, (h4 _).2 rfl, h5⟩
      show (if (enumDefault e.proto f).isNone then _ else _) = _ ∧ _ ∨ (if (enumDefault e.proto f).isNone then _ else _) = _ ∧ _
      by_cases hn : (enumDefault e.proto f).isNone
      · rw [if_pos hn]
        refine .inr ⟨rfl, fun hall => ?_⟩
        have := key.1 (hall f (List.mem_cons_self ..))
        rw [Option.isNone_iff_eq_none] at hn
        rw [hn] at this
        cases this
      · rw [if_neg hn]
        have hf : EnumsFine fs f.proto := key.2 (by rw [Option.isNone_iff_eq_none, ← ne_eq, ← Option.isSome_iff_ne_none] at hn; exact hn)
        rcases ih with ⟨a, b⟩ | ⟨a, b⟩
        · exact .inl ⟨a, List.forall_mem_cons.2 ⟨hf, b⟩⟩
        · exact .inr ⟨a, fun hall => b (fun g hg => hall g (List.mem_cons_of_mem _ hg))⟩
    · rw [if_neg ht]
      rcases ih with ⟨a, b⟩ | ⟨a, b⟩
      · exact .inl ⟨a, List.forall_mem_cons.2 ⟨fun e => absurd e ht, b⟩⟩
      · exact .inr ⟨a, fun hall => b (fun g hg => hall g (List.mem_cons_of_mem _ hg))⟩

/-- The types of a factory made from the pool. -/
def typesOf (E : FactoryEnv) (p : Pool) : Json.JTypes := fun i => match p.messages[i]? with
  | some d => resolvedMessage E p d
  | none => ⟨[], 0, false, .none⟩

theorem finish_sat (E : FactoryEnv) :
    (finishFactory E p = .ok ⟨p, typesOf E p⟩ ∧ FactoryOk E.float fs) ∨
    (finishFactory E p = .err .invalidArgument ∧ ¬ FactoryOk E.float fs) := by
  have hd := defaults_iff ho h E
  have hl := layouts_iff ho h
  have he := checkEnums_sat ho h (L := p.fields) (fun _ hf => hf)
  unfold finishFactory
  cases h1 : p.fields.any (fun f => (parsedDefault E f.proto).isNone) with
  | true =>
    refine .inr ⟨rfl, fun hf => ?_⟩
    rw [hd.2 (fun f hf' hn => (hf.defaults f hf').number hn)] at h1
    cases h1
  | false =>
    cases h2 : p.messages.any (fun d => (messageLayout p d).isNone) with
    | true =>
      refine .inr ⟨rfl, fun hf => ?_⟩
      rw [hl.2 hf.oneofs] at h2
      cases h2
    | false =>
      simp only [Bool.false_eq_true, if_false]
      rcases he with ⟨a, b⟩ | ⟨a, b⟩
      · rw [a]
        refine .inl ⟨rfl, hl.1 h2, fun f hf => ⟨hd.1 h1 f hf, ?_⟩⟩
        obtain ⟨g, hg, rfl⟩ := (pool_field_mem ho h f).1 hf
        exact b g hg
      · rw [a]
        refine .inr ⟨rfl, fun hf => b fun g hg => ?_⟩
        exact (hf.defaults g.proto ((pool_field_mem ho h _).2 ⟨g, hg, rfl⟩)).enum

end

theorem create_ok {E : FactoryEnv} {order : FileMap → FileMap} (ho : ∀ m, (order m).Perm m) {fs : List FileProto}
    {F : Factory} (h : createFactory E order fs = .ok F) :
    initPool order fs = .ok F.pool ∧ F.types = typesOf E F.pool ∧ FactoryOk E.float fs := by
  unfold createFactory at h
  cases hp : initPool order fs with
  | ok p =>
    rw [hp] at h
    replace h : finishFactory E p = .ok F := h
    rcases finish_sat ho hp E with ⟨a, b⟩ | ⟨a, b⟩
    · rw [a] at h
      cases h
      exact ⟨rfl, rfl, b⟩
    · rw [a] at h
      cases h
  | err e => rw [hp] at h; cases h
  | ub => rw [hp] at h; cases h
  | throw => rw [hp] at h; cases h
  | stuck => rw [hp] at h; cases h

end HppProto
