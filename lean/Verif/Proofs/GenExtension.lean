import Verif.Proofs.MetaOk
import Verif.Proofs.Extension
import Verif.Spec.GenExtension

/-! # The structs of extensions follow the rules -/

namespace HppProto
open Spec

namespace Meta

/-- What is known of every field of a pool. -/
structure Known (p : Pool) (f : FieldDesc) : Prop where
  ok : FieldOk f.proto
  own : f.bits.own = (fieldBits f.proto f.features).own
  resolved : Resolved p f

theorem known_of (order : FileMap → FileMap) (ho : ∀ m, (order m).Perm m)
    {fs : List FileProto} {p : Pool} (h : initPool order fs = .ok p) {f : FieldDesc} (hf : f ∈ p.fields) : Known p f := by
  have hs := initPool_sat order ho fs
  rw [h] at hs
  obtain ⟨⟨_, _, _, _, _, st⟩, hw⟩ := hs
  refine ⟨?_, st.ownFlags hf, st.resolvedField hf⟩
  have hm : f.proto ∈ fieldDecls fs := st.mirrors.all_fields.mem_iff.1 (List.mem_map.2 ⟨f, hf, rfl⟩)
  unfold fieldDecls at hm
  rcases List.mem_append.1 hm with hm | hm
  · obtain ⟨d, hd, hm⟩ := List.mem_flatMap.1 hm
    rcases List.mem_append.1 hm with hm | hm
    · exact (hw.fields d hd).each _ hm
    · exact hw.extensions d hd _ hm
  · obtain ⟨d, hd, hm⟩ := List.mem_flatMap.1 hm
    exact hw.file_extensions d hd _ hm

section
variable {p : Pool} {f : FieldDesc}

theorem Known.extendee (K : Known p f) (he : f.proto.extendee ≠ []) : f.extendee.isSome = true := by
  obtain ⟨i, _, hi, _⟩ := K.resolved.extendee he
  rw [hi]
  rfl

theorem Known.bits_utf8 (K : Known p f) : f.bits.utf8 = (f.proto.type == 9 && f.features.utf8 == 2) :=
  (congrArg FieldBits.utf8 K.own :)

theorem Known.bits_delimited (K : Known p f) :
    f.bits.delimited = (f.proto.type == 10 || (f.proto.type == 11 && f.features.messageEncoding == 2)) :=
  (congrArg FieldBits.delimited K.own :)

theorem Known.required (K : Known p f) (hr : ¬ Spec.required f.proto f.features) : f.bits.required = false := by
  have e : f.bits.required = (fieldBits f.proto f.features).required := (congrArg FieldBits.required K.own :)
  rw [e]
  unfold Spec.required at hr
  simp only [fieldBits]
  simp only [not_or] at hr
  simp [hr.1, hr.2]

theorem closedEnum_iff (K : Known p f) (hN : (p.enums.map (·.fullName)).Nodup) :
    isClosedEnum p f = true ↔ closedEnum p f.proto := by
  unfold closedEnum
  by_cases h14 : f.proto.type = 14
  · obtain ⟨i, e, hi, he, hn⟩ := K.resolved.enum h14
    have hc : isClosedEnum p f = (e.features.enumType == 2) := by
      unfold isClosedEnum enumOf
      rw [if_pos h14, hi]
      simp [he]
    rw [hc]
    constructor
    · intro h
      exact ⟨h14, e, List.mem_of_getElem? he, hn, eq_of_beq h⟩
    · rintro ⟨_, e', he', hn', h2⟩
      obtain ⟨k, hk⟩ := List.mem_iff_getElem?.1 he'
      have e1 : e.fullName = e'.fullName := by
        rw [hn] at hn'
        exact List.append_cancel_left hn'
      have := nodup_map_get hN he hk e1
      subst this
      rw [he] at hk
      cases hk
      simp [h2]
  · rw [isClosedEnum_false h14]
    simp [h14]

/-- The kind of value is the one of the rules. -/
theorem ext_kind (K : Known p f) :
    ExtKindRule p f.proto f.features (extKind p f) := by
  have R := K.resolved
  have hu : (extOptions p f).utf8 = (f.proto.type == 9 && f.features.utf8 == 2) := by
    simp only [extOptions, K.bits_utf8, K.bits_delimited]
    cases h : f.proto.type == 9 with
    | false => simp
    | true => simp [eq_of_beq h]
  have hgr : (extOptions p f).group = (f.proto.type == 10 || (f.proto.type == 11 && f.features.messageEncoding == 2)) := by
    simp only [extOptions, K.bits_delimited]
  have hcl : f.proto.type = 14 → (extOptions p f).closed = isClosedEnum p f := by
    intro h
    simp only [extOptions, K.bits_delimited, K.bits_utf8, h]
    simp
  unfold extKind
  rcases type_cases K.ok.type with h | h | h | h | h | h | h | h | h | h | h | h | h | h | h | h | h | h <;>
    simp only [cppType, h, valueKind] <;> simp (config := { decide := true }) only [if_true, if_false]
  any_goals first
    | exact h
    | exact Or.inl (And.intro rfl h)
    | exact Or.inr (And.intro rfl (Or.inl h))
    | exact Or.inr (And.intro rfl (Or.inr h))
  · rw [hu, h]
    refine .inl ⟨h, ?_⟩
    simp
  · obtain ⟨i, m, hi, hm, hn, _⟩ := R.message (.inl h)
    rw [hgr, h, hi]
    exact ⟨m, hm, hn, .inl h⟩
  · obtain ⟨i, m, hi, hm', hn, hb⟩ := R.message (.inr h)
    rw [hgr, h, hi]
    by_cases he : f.features.messageEncoding = 2
    · rw [he]
      exact ⟨m, hm', hn, .inr ⟨h, he, id, id⟩⟩
    · rw [if_neg (by simp [he])]
      refine ⟨m, hm', hn, h, ?_⟩
      rintro (e | ⟨_, e, _⟩)
      · omega
      · exact he e
  · rw [hu, h]
    exact .inr ⟨h, rfl⟩
  · obtain ⟨i, e, hi, he, hn⟩ := R.enum h
    refine ⟨h, e, List.mem_of_getElem? he, hn, ?_⟩
    have hce : isClosedEnum p f = (e.features.enumType == 2) := by
      unfold isClosedEnum enumOf
      rw [if_pos h, hi]
      simp [he]
    rw [hcl h, hce, hi]
    by_cases h2 : e.features.enumType = 2
    · rw [if_pos h2]
      refine ⟨enumNumbers p i, by simp [h2], fun v => ?_⟩
      unfold enumNumbers
      rw [he]
      simp [eq_comm]
    · rw [if_neg h2]
      simp [h2]

/-- The struct of an extension. -/
theorem library_ext (S : Setup) (dflt : FieldProto → Option Val) (fresh : Nat → Msg) (utf8 : List Byte → Bool) (w : Bool)
    {j : Nat} (hj : p.fields[j]? = some f) (he : f.extendee.isSome = true) :
    (library S dflt p fresh utf8 w).schema (extId p j) =
      { slots := [.field (BitVec.ofInt 32 f.proto.number) (extKind p f) (
            if f.proto.label = 3 then .repeated (extOptions p f).packed
            else if (extOptions p f).presence then .always ((extInit dflt p f).getD (zeroOf fresh (extKind p f)))
            else .implicit (if w then (extDefault dflt p f).getD (zeroOf fresh (extKind p f))
              else (extInit dflt p f).getD (zeroOf fresh (extKind p f))))]
        unk := .none } := by
  obtain ⟨i, hi⟩ := Option.isSome_iff_exists.1 he
  unfold library extId
  simp only
  rw [if_neg (by omega), Nat.add_sub_cancel_left, hj]
  simp only [extStruct, hi]

theorem library_class (S : Setup) (dflt : FieldProto → Option Val) (fresh : Nat → Msg) (utf8 : List Byte → Bool) (w : Bool)
    {id : Nat} (h : id < p.messages.length) :
    (library S dflt p fresh utf8 w).schema id = (classes S p fresh utf8 w).schema id := by
  unfold library
  simp only
  rw [if_pos h]

theorem library_cases (S : Setup) (dflt : FieldProto → Option Val) (fresh : Nat → Msg) (utf8 : List Byte → Bool) (w : Bool)
    (id : Nat) :
    id < p.messages.length ∨
    ((library S dflt p fresh utf8 w).schema id = { slots := [], unk := .none }) ∨
    ∃ j f, id = extId p j ∧ p.fields[j]? = some f ∧ f.extendee.isSome = true := by
  by_cases h : id < p.messages.length
  · exact .inl h
  · right
    cases hj : p.fields[id - p.messages.length]? with
    | none =>
      left
      unfold library
      simp only
      rw [if_neg h, hj]
    | some f =>
      cases he : f.extendee with
      | none =>
        left
        unfold library
        simp only
        rw [if_neg h, hj]
        simp only [extStruct, he]
      | some i => exact .inr ⟨_, f, by unfold extId; omega, hj, by rw [he]; rfl⟩

theorem Known.isExt (K : Known p f) (he : f.extendee.isSome = true) : f.proto.extendee ≠ [] := by
  intro h
  rw [K.resolved.no_extendee h] at he
  cases he

/-- The kind of a message. -/
theorem extKind_message (K : Known p f) {sub : Nat} (h : extKind p f = .msg sub ∨ extKind p f = .group sub) :
    (f.proto.type = 10 ∨ f.proto.type = 11) ∧ ∃ m, p.messages[sub]? = some m := by
  have ht : f.proto.type = 10 ∨ f.proto.type = 11 := by
    unfold extKind at h
    rcases type_cases K.ok.type with t | t | t | t | t | t | t | t | t | t | t | t | t | t | t | t | t | t <;>
      first
      | exact .inl t
      | exact .inr t
      | (simp only [cppType, t, valueKind] at h
         simp at h)
  refine ⟨ht, ?_⟩
  obtain ⟨i, m, hi, hm, _⟩ := K.resolved.message ht
  have : (cppType f).1 = .msg i ∧ (cppType f).2 = .void := by
    rcases ht with t | t <;> simp [cppType, t, hi]
  unfold extKind at h
  have e : valueKind p (cppType f) (extOptions p f) = if (extOptions p f).group then .group i else .msg i := by
    unfold valueKind
    rw [this.1, this.2]
  rw [e] at h
  split at h <;> rcases h with h | h <;> cases h <;> exact ⟨m, hm⟩

theorem scalar_rule (K : Known p f) {sc : Scalar} (hk : extKind p f = .scalar sc) :
    scalarRule f.proto f.features sc ∨ (f.proto.type = 14 ∧ ∃ c, sc = .enum c) := by
  have hr := ext_kind K
  rw [hk] at hr
  cases sc with
  | enum c => exact .inr ⟨hr.1, c, rfl⟩
  | varint _ => exact .inl hr
  | bool => exact .inl hr
  | fixed32 _ => exact .inl hr
  | fixed64 _ => exact .inl hr
  | str _ => exact .inl hr

theorem zero_value (K : Known p f) (fresh : Nat → Msg) (h1 : f.proto.type ≠ 10) (h2 : f.proto.type ≠ 11) :
    ∃ sc, extKind p f = .scalar sc ∧
      zeroOf fresh (extKind p f) = if f.proto.type = 9 ∨ f.proto.type = 12 then .bytes [] else .num 0 := by
  unfold extKind
  rcases type_cases K.ok.type with h | h | h | h | h | h | h | h | h | h | h | h | h | h | h | h | h | h <;>
    first
    | exact absurd h h1
    | exact absurd h h2
    | (simp only [cppType, h, valueKind]
       exact ⟨_, rfl, by simp [zeroOf]⟩)

theorem Known.number (K : Known p f) : ((BitVec.ofInt 32 f.proto.number).toNat : Int) = f.proto.number := by
  have := K.ok.number
  rw [BitVec.toNat_ofInt]
  omega

/-- Default and initializer of an extension are values of its type. -/
theorem ext_default_ok (K : Known p f) (hf : f ∈ p.fields) (he : f.proto.extendee ≠ []) {dflt : FieldProto → Option Val}
    {utf8 : List Byte → Bool} (hT : ExtDefaultsTyped dflt p utf8) (hu : utf8 [] = true) (hE : Accepted p) (fresh : Nat → Msg)
    (hl : f.proto.label = 1) {sc : Scalar} (hk : extKind p f = .scalar sc) {C : Cfg} (hC : C.utf8 = utf8) (hc : isClosedEnum p f = false) :
    scalarOk C sc ((extDefault dflt p f).getD (zeroOf fresh (.scalar sc))) := by
  have hrule := scalar_rule K hk
  unfold extDefault
  cases hv : dflt f.proto with
  | some v =>
    have := (hT f hf he v hv).2.2 sc hrule
    simp only [Option.getD_some]
    revert this
    cases sc <;> simp only [scalarOk] <;> first | exact id | (rw [hC]; exact id)
  | none =>
    simp only [hl, beq_self_eq_true, if_true]
    by_cases h14 : f.proto.type = 14
    · obtain ⟨i, e, hi, hie, hn⟩ := K.resolved.enum h14
      have hem := hE.enums e (List.mem_of_getElem? hie)
      have hsc : sc = .enum none := by
        have hcl : (extOptions p f).closed = false := by simp [extOptions, hc]
        unfold extKind at hk
        simp only [cppType, h14, valueKind, hcl] at hk
        simpa [eq_comm] using hk
      unfold enumOf
      rw [if_pos h14, hi]
      cases hnum : e.proto.numbers with
      | nil => exact absurd hnum hem.1
      | cons n ns =>
        have hb := hem.2.1 n (by rw [hnum]; exact .head _)
        simp only [Option.bind_some, hie, firstNumber, hnum, List.head?_cons, Option.map_some, Option.getD_some]
        rw [hsc]
        refine ⟨_, rfl, ?_, by simp⟩
        have : (BitVec.ofInt 64 n).toInt = n := by
          rw [BitVec.toInt_ofInt, Int.bmod_eq_of_le (by omega) (by omega)]
        simp only [inRange, this]
        omega
    · rw [enumOf_none h14]
      simp only [Option.bind_none, Option.getD_none]
      cases sc with
      | varint ty => cases ty <;> exact ⟨0, rfl, by simp [inRange]⟩
      | bool => exact .inl rfl
      | enum c =>
        rcases hrule with h | h
        · exact h.elim
        · exact absurd h.1 h14
      | fixed32 _ => exact ⟨0, rfl, by simp⟩
      | fixed64 _ => exact ⟨0, rfl⟩
      | str u => exact ⟨[], rfl, fun _ => by rw [hC]; exact hu⟩

theorem takeWhile_all {s : List Byte} (h : (0 : Byte) ∉ s) : s.takeWhile (· ≠ 0) = s := by
  induction s with
  | nil => rfl
  | cons a s ih =>
    have ha : a ≠ 0 := fun e => h (e ▸ .head _)
    rw [List.takeWhile_cons, if_pos (by simpa using ha), ih (fun hm => h (.tail _ hm))]

/-- Without zeros in strings, the initializer is the default. -/
theorem ext_init_same {dflt : FieldProto → Option Val} (hf : f ∈ p.fields) (he : f.proto.extendee ≠ [])
    (hs : ExtSupported dflt p) : extInit dflt p f = extDefault dflt p f := by
  unfold extInit
  split
  · next h9 =>
    unfold extDefault
    cases hv : dflt f.proto with
    | none =>
      simp only [enumOf_none (p := p) (f := f) (by omega), Option.bind_none]
      split <;> rfl
    | some v =>
      cases v with
      | bytes s =>
        show some (Val.bytes (s.takeWhile (· ≠ 0))) = some (Val.bytes s)
        rw [takeWhile_all (hs.strings f hf he h9 s hv)]
      | num _ => rfl
      | msg _ => rfl
  · rfl

variable {S : Setup} {dflt : FieldProto → Option Val} {fresh : Nat → Msg} {utf8 : List Byte → Bool}

/-- What is in the struct of an extension. -/
theorem ext_slot {C : Cfg} {w : Bool} (hC : C = library S dflt p fresh utf8 w) {j : Nat} (hj : p.fields[j]? = some f)
    (he : f.extendee.isSome = true) {sd : SlotD} (h : sd ∈ (C.schema (extId p j)).slots) :
    ∃ card, sd = .field (BitVec.ofInt 32 f.proto.number) (extKind p f) card ∧
      card = (if f.proto.label = 3 then .repeated (extOptions p f).packed
            else if (extOptions p f).presence then .always ((extInit dflt p f).getD (zeroOf fresh (extKind p f)))
            else .implicit (if w then (extDefault dflt p f).getD (zeroOf fresh (extKind p f))
              else (extInit dflt p f).getD (zeroOf fresh (extKind p f)))) := by
  rw [hC, library_ext S dflt fresh utf8 w hj he] at h
  exact ⟨_, List.mem_singleton.1 h, rfl⟩

/-- The messages in a class are classes. -/
theorem class_sub (hV : ∀ (i : Nat) (d : MsgDesc), p.messages[i]? = some d → View p d (listed p d.fields)) (hA : Accepted p)
    {w : Bool} {id : Nat} {n : BitVec 32} {k : Kind} {card : Card}
    (h : SlotD.field n k card ∈ ((classes S p fresh utf8 w).schema id).slots) {sub : Nat} (hk : k = .msg sub ∨ k = .group sub) :
    sub < p.messages.length := by
  rcases schema_cases S p fresh utf8 w id with ⟨_, e⟩ | ⟨d, hd, e⟩
  · rw [e] at h; simp at h
  · rw [e] at h
    have V := hV id d hd
    have hdm := List.mem_of_getElem? hd
    have done : ∀ g ∈ listed p d.fields, k = kindAt S p d g → sub < p.messages.length := by
      intro g hg e
      rw [e] at hk
      obtain ⟨_, m, hm, _⟩ := kind_message V hg hk
      exact (List.getElem?_eq_some_iff.1 hm).1
    cases he : d.proto.mapEntry with
    | true =>
      obtain ⟨x, y, e1, _, _, _, _, e'⟩ := entry_slots (S := S) (fresh := fresh) (w := w) V hA hdm he
      rw [e'] at h
      simp only [List.mem_cons, SlotD.field.injEq, List.not_mem_nil, or_false] at h
      rcases h with ⟨_, h, _⟩ | ⟨_, h, _⟩
      · exact done x (by rw [e1]; simp) h
      · exact done y (by rw [e1]; simp) h
    | false =>
      rw [class_slots he] at h
      obtain ⟨g, hg, ⟨_, h⟩ | ⟨c, rest, _, h2, h⟩⟩ := slots_cases V (fun f hf => V.noExtendee hA hdm hf) h
      · unfold fieldEntry slotOf at h
        simp only [SlotD.field.injEq] at h
        exact done g hg h.2.1
      · cases rest with
        | nil =>
          unfold oneofEntry slotOf at h
          simp only [SlotD.field.injEq] at h
          exact done g hg h.2.1
        | cons _ _ =>
          unfold oneofEntry slotOf at h
          cases h

/-- Reader and writer see the same. -/
theorem library_same (hK : ∀ f ∈ p.fields, Known p f) (hc : classes S p fresh utf8 true = classes S p fresh utf8 false)
    (hs : ExtSupported dflt p) : library S dflt p fresh utf8 true = library S dflt p fresh utf8 false := by
  unfold library
  rw [hc]
  congr 1
  funext id
  split
  · rfl
  · cases hj : p.fields[id - p.messages.length]? with
    | none => rfl
    | some f =>
      have hf := List.mem_of_getElem? hj
      cases he : f.extendee with
      | none => simp only [extStruct, he]
      | some i =>
        have K := hK f hf
        simp only [extStruct, he, ext_init_same hf (K.isExt (by rw [he]; rfl)) hs, ite_self]

theorem leb_ne (n : Nat) : leb n ≠ [] := by
  unfold leb
  split <;> simp

theorem record_ne (C : Cfg) (enc : Nat → Msg → List Byte) (n : BitVec 32) (k : Kind) (v : Val) : record C enc n k v ≠ [] := by
  have ht : ∀ t, tag n t ≠ [] := fun t => leb_ne _
  cases k <;> simp [record, lenRecord, ht]

theorem library_ok (hK : ∀ f ∈ p.fields, Known p f) (h0 : schemaOk (classes S p fresh utf8 false)) (hA : Accepted p)
    (hX : ExtAccepted p) (hs : ExtSupported dflt p) (hT : ExtDefaultsTyped dflt p utf8) (hu : utf8 [] = true)
    (hin : ∀ id n k card, id < p.messages.length → SlotD.field n k card ∈ ((classes S p fresh utf8 false).schema id).slots →
      ∀ sub, k = .msg sub ∨ k = .group sub → sub < p.messages.length)
    (hF : Fresh S p utf8 fresh) : schemaOk (library S dflt p fresh utf8 false) := by
  have hone : ∀ {j f}, p.fields[j]? = some f → f.extendee.isSome = true →
      ∃ n k card, ((library S dflt p fresh utf8 false).schema (extId p j)).slots = [.field n k card] ∧
        ((library S dflt p fresh utf8 false).schema (extId p j)).isEntry = false := by
    intro j f hj he
    rw [library_ext S dflt fresh utf8 false hj he]
    exact ⟨_, _, _, rfl, rfl⟩
  constructor
  · intro id n i j a b hi hj ha hb
    rcases library_cases (p := p) S dflt fresh utf8 false id with h | h | ⟨k, f, rfl, hk, he⟩
    · rw [library_class S dflt fresh utf8 false h] at hi hj
      exact h0.distinct id n i j a b hi hj ha hb
    · rw [h] at hi; simp at hi
    · obtain ⟨_, _, _, e, _⟩ := hone hk he
      rw [e] at hi hj
      match i, j with
      | 0, 0 => rfl
      | _ + 1, _ => simp at hi
      | _, _ + 1 => simp at hj
  · intro id alts hm
    rcases library_cases (p := p) S dflt fresh utf8 false id with h | h | ⟨k, f, rfl, hk, he⟩
    · rw [library_class S dflt fresh utf8 false h] at hm
      exact h0.alts id alts hm
    · rw [h] at hm; simp at hm
    · obtain ⟨_, _, _, e, _⟩ := hone hk he
      rw [e] at hm; simp at hm
  · intro id alts hm
    rcases library_cases (p := p) S dflt fresh utf8 false id with h | h | ⟨k, f, rfl, hk, he⟩
    · rw [library_class S dflt fresh utf8 false h] at hm
      exact h0.oneofs id alts hm
    · rw [h] at hm; simp at hm
    · obtain ⟨_, _, _, e, _⟩ := hone hk he
      rw [e] at hm; simp at hm
  · intro id n h
    rcases library_cases (p := p) S dflt fresh utf8 false id with h' | h' | ⟨k, f, rfl, hk, he⟩
    · rw [library_class S dflt fresh utf8 false h'] at h
      exact h0.range id n h
    · rw [h'] at h; simp [fieldKind] at h
    · have K := hK f (List.mem_of_getElem? hk)
      rw [library_ext S dflt fresh utf8 false hk he] at h
      simp only [fieldKind, List.findSome?_cons, List.findSome?_nil, slotKind] at h
      have h1 := K.ok.number
      have h2 := hs.numbers f (List.mem_of_getElem? hk) (K.isExt he)
      have h3 := K.number
      split at h
      · next x hx =>
        split at hx
        · next hn => omega
        · cases hx
      · cases h
  · intro id n k u hm
    rcases library_cases (p := p) S dflt fresh utf8 false id with h | h | ⟨j, f, rfl, hj, he⟩
    · rw [library_class S dflt fresh utf8 false h] at hm
      obtain ⟨eid, rfl, hE⟩ := h0.maps id n k u hm
      have := hin id n _ _ h hm eid (.inl rfl)
      exact ⟨eid, rfl, by rw [library_class S dflt fresh utf8 false this]; exact hE⟩
    · rw [h] at hm; simp at hm
    · obtain ⟨card, e1, e2⟩ := ext_slot rfl hj he hm
      cases e1
      split at e2
      · cases e2
      · split at e2 <;> cases e2
  · intro id hE
    rcases library_cases (p := p) S dflt fresh utf8 false id with h | h | ⟨j, f, rfl, hj, he⟩
    · rw [library_class S dflt fresh utf8 false h] at hE ⊢
      exact h0.entries id hE
    · rw [h] at hE; cases hE
    · obtain ⟨_, _, _, _, e⟩ := hone hj he
      rw [e] at hE; cases hE
  · intro id n k card v sub hm hc hk
    rcases library_cases (p := p) S dflt fresh utf8 false id with h | h | ⟨j, f, rfl, hj, he⟩
    · rw [library_class S dflt fresh utf8 false h] at hm
      have := hin id n _ _ h hm sub hk
      rw [library_class S dflt fresh utf8 false this]
      exact h0.plain id n k card v sub hm hc hk
    · rw [h] at hm; simp at hm
    · have hf := List.mem_of_getElem? hj
      have K := hK f hf
      obtain ⟨card', e1, e2⟩ := ext_slot rfl hj he hm
      cases e1
      obtain ⟨ht, m, hsub⟩ := extKind_message K hk
      have hlt : sub < p.messages.length := (List.getElem?_eq_some_iff.1 hsub).1
      rw [library_class S dflt fresh utf8 false hlt, ← hF sub]
      have hz : zeroOf fresh (extKind p f) = .msg (fresh sub) := by
        rcases hk with e | e <;> rw [e] <;> rfl
      have hd : extInit dflt p f = none := by
        rw [ext_init_same hf (K.isExt he) hs]
        unfold extDefault
        cases hv : dflt f.proto with
        | some v =>
          have := hT f hf (K.isExt he) v hv
          rcases ht with t | t
          · exact absurd t this.1
          · exact absurd t this.2.1
        | none =>
          simp only [enumOf_none (p := p) (f := f) (by omega), Option.bind_none]
          split <;> rfl
      rw [hd, Option.getD_none, hz] at e2
      split at e2
      · subst e2; rcases hc with hc | hc <;> cases hc
      · split at e2 <;> subst e2 <;> rcases hc with hc | hc <;> cases hc <;> rfl
  · intro id n sc v hm
    rcases library_cases (p := p) S dflt fresh utf8 false id with h | h | ⟨j, f, rfl, hj, he⟩
    · rw [library_class S dflt fresh utf8 false h] at hm
      have := h0.defaults id n sc v hm
      revert this
      cases sc <;> exact fun h => h
    · rw [h] at hm; simp at hm
    · have hf := List.mem_of_getElem? hj
      have K := hK f hf
      obtain ⟨card, e1, e2⟩ := ext_slot rfl hj he hm
      simp only [SlotD.field.injEq] at e1
      obtain ⟨_, hk, rfl⟩ := e1
      have hlab := K.ok.label
      have hreq := hX.required f hf (K.isExt he)
      have hl2 : f.proto.label ≠ 2 := fun e => hreq (.inl e)
      split at e2
      · cases e2
      · next hl3 =>
        have hl : f.proto.label = 1 := by omega
        split at e2
        · cases e2
        · next hp =>
          have hc : isClosedEnum p f = false := by
            cases hc : isClosedEnum p f with
            | false => rfl
            | true => exact absurd (by simp [extOptions, hc, he, hl]) hp
          simp only [Bool.false_eq_true, if_false, Card.implicit.injEq] at e2
          rw [e2, ext_init_same hf (K.isExt he) hs, ← hk]
          exact ext_default_ok K hf (K.isExt he) hT hu hA fresh hl hk.symm rfl hc

end

end Meta
end HppProto
