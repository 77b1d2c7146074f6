import Verif.Proofs.MetaClass

/-! # The classes of a file that reader and writer agree on -/

namespace HppProto
open Spec

namespace Meta

section
variable {S : Setup} {p : Pool} {d : MsgDesc} {L : List FieldDesc} {fresh : Nat → Msg} {w : Bool} {f : FieldDesc}

theorem emitClosed_none (h : f.proto.type ≠ 14) : emitClosed S p d f = isClosedEnum p f := by
  unfold emitClosed
  rw [isClosedEnum_false h]
  rfl

/-- The initializer of a plain member without presence is the value that the writer omits. -/
theorem slot_same (V : View p d L) (hA : Accepted p) (hd : d ∈ p.messages) (hD : DefaultsGiven S p)
    (hs : StringsReached S p) (he : d.proto.mapEntry = false) (hf : f ∈ L) (ho : f.proto.oneofIndex = none) :
    slotOf S p fresh true (fieldEntry S p d f) = slotOf S p fresh false (fieldEntry S p d f) := by
  unfold fieldEntry
  cases hh : holder S p d f with
  | plain init =>
    unfold slotOf
    simp only
    cases hp : (metaOptions S p d f).presence with
    | true => rfl
    | false =>
      obtain ⟨h1, ht1, ht2, hc, hr, hcl, hpk, hdl⟩ := plain_implicit V hA hd hf he ho hh hp
      by_cases ht : f.proto.type = 9 ∨ f.proto.type = 12
      · have hinit : init = none := by
          unfold holder at hh
          split at hh
          · cases hh
          · split at hh
            · cases hh
            · split at hh
              · next h => exact absurd h (by omega)
              · rw [if_neg (by simp [hc])] at hh
                cases hh; rfl
        have hdf : S.dflt d.fullName f.proto.number = none := by
          cases hv : S.dflt d.fullName f.proto.number with
          | none => rfl
          | some v =>
            have := string_optional V hA hd hD hs hf he ho ht h1 hr (by rw [hv]; rfl)
            rw [this] at hc; cases hc
        have hmd : metaDefault S p d f = none := by
          unfold metaDefault
          rw [defaultOf_none hdf (by omega)]
          split <;> rfl
        rw [hinit, hmd]
        rfl
      · have hinit : init = defaultOf S p d f := by
          unfold holder at hh
          split at hh
          · cases hh
          · split at hh
            · cases hh
            · split at hh
              · next h => exact absurd h (by omega)
              · rw [if_neg (by simp [hc])] at hh
                cases hh; rfl
        have hu : f.bits.utf8 = false := by
          rw [V.bits_utf8 hf]
          have : f.proto.type ≠ 9 := fun e => ht (.inl e)
          simp [fieldBits, this]
        have hmd : metaDefault S p d f = defaultOf S p d f := by
          unfold metaDefault
          have : (metaOptions S p d f).none = true := by
            have hp : presenceOpt S p d f = false := hp
            simp only [Opts.none, metaOptions, hp, hpk, hdl, hu, hcl]
            rfl
          rw [this]
          rfl
        rw [hinit, hmd]
        rfl
  | optional => rfl
  | «repeated» => rfl
  | map => rfl

theorem oneof_same (fs : List FieldDesc) :
    slotOf S p fresh true (oneofEntry S p d fs) = slotOf S p fresh false (oneofEntry S p d fs) := by
  match fs with
  | [] => rfl
  | [_] => rfl
  | _ :: _ :: _ => rfl

theorem slots_cases (V : View p d L) (hx : ∀ f ∈ L, f.extendee = none) {sd : SlotD} (h : sd ∈ slotsOf S p fresh w d L) :
    ∃ f ∈ L, (f.proto.oneofIndex = none ∧ sd = slotOf S p fresh w (fieldEntry S p d f)) ∨
      ∃ k rest, f.proto.oneofIndex = some k ∧ L.filter (fun g => g.proto.oneofIndex = some k) = f :: rest ∧
        sd = slotOf S p fresh w (oneofEntry S p d (f :: rest)) := by
  obtain ⟨e, he, rfl⟩ := List.mem_map.1 h
  obtain ⟨f, hf, he⟩ := List.mem_filterMap.1 he
  refine ⟨f, hf, ?_⟩
  rcases (entryAt_some V hx hf).1 he with ⟨h1, rfl⟩ | ⟨k, rest, h1, h2, rfl⟩
  · exact .inl ⟨h1, rfl⟩
  · exact .inr ⟨k, rest, h1, h2, rfl⟩

theorem slots_same (V : View p d L) (hA : Accepted p) (hd : d ∈ p.messages) (hD : DefaultsGiven S p)
    (hs : StringsReached S p) (he : d.proto.mapEntry = false) : slotsOf S p fresh true d L = slotsOf S p fresh false d L := by
  unfold slotsOf
  refine List.map_congr_left ?_
  intro e hm
  obtain ⟨f, hf, hfe⟩ := List.mem_filterMap.1 hm
  rcases (entryAt_some V (fun f hf => V.noExtendee hA hd hf) hf).1 hfe with ⟨h1, rfl⟩ | ⟨k, rest, h1, h2, rfl⟩
  · exact slot_same V hA hd hD hs he hf h1
  · exact oneof_same _

/-- Reader and writer use the same class. -/
theorem class_same (V : View p d (listed p d.fields)) (hA : Accepted p) (hd : d ∈ p.messages) (hD : DefaultsGiven S p)
    (hs : Supported S p) : classOf S p fresh true d = classOf S p fresh false d := by
  unfold classOf
  split
  · rfl
  · next he =>
    have he : d.proto.mapEntry = false := by simpa using he
    have e1 := slots_same (fresh := fresh) V hA hd hD hs.strings he
    unfold slotsOf at e1
    have e2 : unknownMode S p d true = unknownMode S p d false := by
      unfold unknownMode
      split
      · rfl
      · next hr =>
        cases hk : S.keeps with
        | false => simp
        | true =>
          have hne : (listed p d.fields).isEmpty = false := by
            cases hl : listed p d.fields with
            | nil =>
              have := V.protos
              rw [hl] at this
              rcases hs.empty hk d hd he with h | h
              · exact absurd this.symm h
              · exact absurd h hr
            | cons _ _ => rfl
          simp [hne]
    unfold entries
    rw [e1, e2]

/-- The values in a kind with presence or a default are of the right type. -/
theorem implicit_ok (V : View p d L) (hA : Accepted p) (hd : d ∈ p.messages) {utf8 : List Byte → Bool} (hT : DefaultsTyped S p utf8)
    (hu : utf8 [] = true) (he : d.proto.mapEntry = false) (hf : f ∈ L) (ho : f.proto.oneofIndex = none) {init : Option Val}
    (hh : holder S p d f = .plain init) (hp : presenceOpt S p d f = false) {sc : Scalar} (hk : kindAt S p d f = .scalar sc)
    {C : Cfg} (hC : C.utf8 = utf8) : scalarOk C sc (init.getD (zeroOf fresh (.scalar sc))) := by
  obtain ⟨h1, ht1, ht2, hc, hr, hcl, hpk, hdl⟩ := plain_implicit V hA hd hf he ho hh hp
  have hz : scalarOk C sc (zeroOf fresh (.scalar sc)) ∨ ∃ c, sc = .enum c := by
    cases sc with
    | varint ty => cases ty <;> exact .inl ⟨0, rfl, by simp [inRange]⟩
    | bool => exact .inl (.inl rfl)
    | enum c => exact .inr ⟨c, rfl⟩
    | fixed32 _ => exact .inl ⟨0, rfl, by simp⟩
    | fixed64 _ => exact .inl ⟨0, rfl⟩
    | str u => exact .inl ⟨[], rfl, fun _ => by rw [hC]; exact hu⟩
  have hrule : scalarRule f.proto (under d.features f.proto.features) sc ∨ (f.proto.type = 14 ∧ sc = .enum none) := by
    by_cases h14 : f.proto.type = 14
    · refine .inr ⟨h14, ?_⟩
      have hm : (metaOptions S p d f).closed = false := by simp [metaOptions, hcl]
      unfold kindAt at hk
      simp only [cppType, h14, valueKind, hm] at hk
      simpa [eq_comm] using hk
    · have hkr := kind_rule (S := S) V hf (fun e => absurd e ht2) (emitClosed_none h14)
      have hk' : valueKind p (cppType f) (metaOptions S p d f) = .scalar sc := hk
      rw [hk'] at hkr
      cases sc with
      | enum c => exact absurd hkr.1 h14
      | varint _ => exact .inl hkr
      | bool => exact .inl hkr
      | fixed32 _ => exact .inl hkr
      | fixed64 _ => exact .inl hkr
      | str _ => exact .inl hkr
  have hzero : f.proto.type ≠ 14 → scalarOk C sc (zeroOf fresh (.scalar sc)) := by
    intro h14
    rcases hz with h | ⟨c, rfl⟩
    · exact h
    · rcases hrule with h | h
      · exact h.elim
      · exact absurd h.1 h14
  have typed : ∀ v, S.dflt d.fullName f.proto.number = some v → scalarOk C sc v := by
    intro v hv
    have := hT d hd _ (V.proto_mem f hf) v hv sc hrule
    revert this
    cases sc <;> simp only [scalarOk] <;> first | exact id | (rw [hC]; exact id)
  have hdef : scalarOk C sc ((defaultOf S p d f).getD (zeroOf fresh (.scalar sc))) := by
    unfold defaultOf
    cases hv : S.dflt d.fullName f.proto.number with
    | some v => exact typed v hv
    | none =>
      simp only [h1, beq_self_eq_true, if_true]
      by_cases h14 : f.proto.type = 14
      · obtain ⟨i, e, hi, hie, hn⟩ := (V.resolved f hf).enum h14
        have hem := hA.enums e (List.mem_of_getElem? hie)
        have hsc : sc = .enum none := by
          rcases hrule with h | h
          · cases sc with
            | varint ty => cases ty <;> simp only [scalarRule] at h <;> omega
            | bool => simp only [scalarRule] at h; omega
            | enum c => exact h.elim
            | fixed32 _ => simp only [scalarRule] at h; omega
            | fixed64 _ => simp only [scalarRule] at h; omega
            | str _ => simp only [scalarRule] at h; omega
          · exact h.2
        unfold enumOf
        rw [if_pos h14, hi]
        cases hnum : e.proto.numbers with
        | nil => exact absurd hnum hem.1
        | cons n ns =>
          have hb := hem.2.1 n (by rw [hnum]; exact .head _)
          simp only [Option.bind_some, hie, firstNumber, hnum, List.head?_cons, Option.map_some, Option.getD_some]
          rw [hsc]
          refine ⟨_, rfl, ?_, by simp⟩
          have : (BitVec.ofInt 64 n).toInt = n := by
            rw [BitVec.toInt_ofInt, Int.bmod_eq_of_le (by omega) (by omega)]
          simp only [inRange, this]
          omega
      · rw [enumOf_none h14]
        exact hzero h14
  unfold holder at hh
  split at hh
  · cases hh
  · split at hh
    · cases hh
    · split at hh
      · next h => exact absurd h (by omega)
      · rw [if_neg (by simp [hc])] at hh
        split at hh
        · cases hh
          exact hzero (by omega)
        · cases hh
          exact hdef

/-- The kind of a message field. -/
theorem kind_message (V : View p d L) (hf : f ∈ L) {sub : Nat} (h : kindAt S p d f = .msg sub ∨ kindAt S p d f = .group sub) :
    (f.proto.type = 10 ∨ f.proto.type = 11) ∧ ∃ m, p.messages[sub]? = some m ∧ f.proto.typeName = b!"." ++ m.fullName := by
  have ht : f.proto.type = 10 ∨ f.proto.type = 11 := by
    by_cases h1 : f.proto.type = 10
    · exact .inl h1
    · by_cases h2 : f.proto.type = 11
      · exact .inr h2
      · obtain ⟨sc, hs, _⟩ := valueKind_scalar (S := S) (fresh := fun _ => ⟨[], []⟩) V hf h1 h2
        rw [hs] at h
        rcases h with h | h <;> cases h
  refine ⟨ht, ?_⟩
  obtain ⟨i, m, hi, hm, hn, _⟩ := (V.resolved f hf).message ht
  have : sub = i := by
    unfold kindAt at h
    rcases ht with ht | ht <;> simp only [cppType, ht, valueKind, hi] at h <;> simp at h <;> split at h <;> simp at h <;> exact h.symm
  rw [this]
  exact ⟨m, hm, hn⟩

theorem entry_fields (V : View p d L) (hA : Accepted p) (hd : d ∈ p.messages) (he : d.proto.mapEntry = true) :
    ∃ k v, L = [k, v] ∧ k.proto.number = 1 ∧ v.proto.number = 2 ∧ k.proto.type ≠ 10 ∧ k.proto.type ≠ 11 := by
  obtain ⟨k, v, h, h1, h2, _, _, _, _, h3⟩ := hA.entries d hd he
  have hp := V.protos
  rw [h] at hp
  obtain ⟨a, l, e1, ha, hl⟩ := List.map_eq_cons_iff.1 hp
  obtain ⟨b, l', e2, hb, hl'⟩ := List.map_eq_cons_iff.1 hl
  have hl' := List.map_eq_nil_iff.1 hl'
  simp only [List.mem_cons, List.not_mem_nil, or_false, not_or] at h3
  refine ⟨a, b, by rw [e1, e2, hl'], ?_, ?_, ?_, ?_⟩
  · rw [ha]; exact h1
  · rw [hb]; exact h2
  · rw [ha]; exact h3.2.2.1
  · rw [ha]; exact h3.2.2.2.1

theorem entry_slots (V : View p d (listed p d.fields)) (hA : Accepted p) (hd : d ∈ p.messages) (he : d.proto.mapEntry = true) :
    ∃ k v, listed p d.fields = [k, v] ∧ k.proto.number = 1 ∧ v.proto.number = 2 ∧ k.proto.type ≠ 10 ∧ k.proto.type ≠ 11 ∧
      classOf S p fresh w d = { slots := [.field 1 (kindAt S p d k) (.always (zeroOf fresh (kindAt S p d k))),
        .field 2 (kindAt S p d v) (.always (zeroOf fresh (kindAt S p d v)))], unk := .none, isEntry := true } := by
  obtain ⟨k, v, h1, h2, h3, h4, h5⟩ := entry_fields V hA hd he
  refine ⟨k, v, h1, h2, h3, h4, h5, ?_⟩
  unfold classOf entryMsg
  rw [if_pos he, h1]
  rfl

theorem class_slots (he : d.proto.mapEntry = false) :
    (classOf S p fresh w d).slots = slotsOf S p fresh w d (listed p d.fields) := by
  unfold classOf
  rw [if_neg (by simp [he])]
  rfl

theorem class_isEntry (he : d.proto.mapEntry = false) : (classOf S p fresh w d).isEntry = false := by
  unfold classOf
  rw [if_neg (by simp [he])]

/-- A plain member of a class is held as the class of the field says. -/
theorem plain_message (V : View p d L) (hf : f ∈ L) (he : d.proto.mapEntry = false) {init : Option Val}
    (hh : holder S p d f = .plain init) (ht : f.proto.type = 10 ∨ f.proto.type = 11) :
    init = none ∧ f.proto.label = 2 ∧ S.recursive d.fullName f.proto.number = false := by
  have hlab := (V.ok hf).label
  unfold holder at hh
  split at hh
  · cases hh
  · split at hh
    · cases hh
    · next h3 =>
      split at hh
      · cases hh
      · next hr =>
        cases hh
        simp only [Bool.or_eq_true, not_or, Bool.not_eq_true] at hr
        refine ⟨rfl, ?_, hr.1⟩
        by_cases h1 : f.proto.label = 1
        · rw [cppOptional_message V hf he h1 ht] at hr
          cases hr.2
        · omega

/-- A default-constructed object depends on the classes it contains only. -/
theorem default_congr (V : View p d (listed p d.fields)) (hA : Accepted p) {id : Nat} (hd : p.messages[id]? = some d)
    {a b : Nat → Msg} (h : ∀ sub, Nests S p id sub → a sub = b sub) :
    (classOf S p a false d).default = (classOf S p b false d).default := by
  have hdm := List.mem_of_getElem? hd
  cases he : d.proto.mapEntry with
  | true =>
    obtain ⟨k, v, hl, _, _, _, _, e⟩ := entry_slots (S := S) (fresh := a) (w := false) V hA hdm he
    obtain ⟨k', v', hl', _, _, _, _, e'⟩ := entry_slots (S := S) (fresh := b) (w := false) V hA hdm he
    rw [hl] at hl'
    cases hl'
    rw [e, e']
    have key : ∀ f ∈ listed p d.fields, zeroOf a (kindAt S p d f) = zeroOf b (kindAt S p d f) := by
      intro f hf
      cases hk : kindAt S p d f with
      | scalar sc => cases sc <;> rfl
      | msg sub =>
        obtain ⟨ht, m, hm, hn⟩ := kind_message V hf (.inl hk)
        have := h sub ⟨d, m, f.proto, hd, hm, V.proto_mem f hf, hn, ht, .inl he⟩
        simp only [zeroOf, this]
      | group sub =>
        obtain ⟨ht, m, hm, hn⟩ := kind_message V hf (.inr hk)
        have := h sub ⟨d, m, f.proto, hd, hm, V.proto_mem f hf, hn, ht, .inl he⟩
        simp only [zeroOf, this]
    rw [key k (by rw [hl]; simp), key v (by rw [hl]; simp)]
  | false =>
    unfold MsgD.default
    rw [class_slots he, class_slots he]
    unfold slotsOf
    rw [List.map_map, List.map_map]
    congr 1
    refine List.map_congr_left ?_
    intro e hm
    obtain ⟨f, hf, hfe⟩ := List.mem_filterMap.1 hm
    rcases (entryAt_some V (fun f hf => V.noExtendee hA hdm hf) hf).1 hfe with ⟨h1, rfl⟩ | ⟨k, rest, h1, h2, rfl⟩
    · unfold fieldEntry
      cases hh : holder S p d f with
      | plain init =>
        have key : init.getD (zeroOf a (kindAt S p d f)) = init.getD (zeroOf b (kindAt S p d f)) := by
          cases hk : kindAt S p d f with
          | scalar sc => cases sc <;> rfl
          | msg sub =>
            obtain ⟨ht, m, hm, hn⟩ := kind_message V hf (.inl hk)
            obtain ⟨_, hl, hr⟩ := plain_message V hf he hh ht
            have := h sub ⟨d, m, f.proto, hd, hm, V.proto_mem f hf, hn, ht, .inr ⟨hl, hr⟩⟩
            simp only [zeroOf, this]
          | group sub =>
            obtain ⟨ht, m, hm, hn⟩ := kind_message V hf (.inr hk)
            obtain ⟨_, hl, hr⟩ := plain_message V hf he hh ht
            have := h sub ⟨d, m, f.proto, hd, hm, V.proto_mem f hf, hn, ht, .inr ⟨hl, hr⟩⟩
            simp only [zeroOf, this]
        unfold kindAt at key
        simp only [Function.comp_apply, slotOf, key]
        split <;> rfl
      | optional => rfl
      | «repeated» => rfl
      | map => rfl
    · match rest with
      | [] => rfl
      | _ :: _ => rfl

/-- Objects of the classes, up to `n` levels deep. -/
def freshN (S : Setup) (p : Pool) (utf8 : List Byte → Bool) : Nat → Nat → Msg
  | 0, _ => ⟨[], []⟩
  | n + 1, id => ((classes S p (freshN S p utf8 n) utf8 false).schema id).default

theorem fresh_exists (hV : ∀ (i : Nat) (d : MsgDesc), p.messages[i]? = some d → View p d (listed p d.fields))
    (hA : Accepted p) (utf8 : List Byte → Bool)
    (r : Nat → Nat) (hr : ∀ id sub, Nests S p id sub → r sub < r id) : ∃ fresh, Fresh S p utf8 fresh := by
  have step : ∀ (a b : Nat → Msg) (id : Nat), (∀ sub, Nests S p id sub → a sub = b sub) →
      ((classes S p a utf8 false).schema id).default = ((classes S p b utf8 false).schema id).default := by
    intro a b id h
    unfold classes
    simp only
    cases hd : p.messages[id]? with
    | none => rfl
    | some d => exact default_congr (hV id d hd) hA hd h
  have stable : ∀ k id, r id < k → ∀ n m, r id < n → r id < m → freshN S p utf8 n id = freshN S p utf8 m id := by
    intro k
    induction k with
    | zero => intro id h; omega
    | succ k ih =>
      intro id hk n m hn hm
      match n, m, hn, hm with
      | n + 1, m + 1, hn, hm =>
        refine step _ _ id ?_
        intro sub hs
        have hlt := hr id sub hs
        exact ih sub (by omega) n m (by omega) (by omega)
  refine ⟨fun id => freshN S p utf8 (r id + 1) id, ?_⟩
  intro id
  refine step _ _ id ?_
  intro sub hs
  have hlt := hr id sub hs
  exact stable _ sub (Nat.lt_succ_self _) _ _ hlt (Nat.lt_succ_self _)

theorem schema_cases (S : Setup) (p : Pool) (fresh : Nat → Msg) (utf8 : List Byte → Bool) (w : Bool) (id : Nat) :
    (p.messages[id]? = none ∧ (classes S p fresh utf8 w).schema id = { slots := [], unk := .none }) ∨
    ∃ d, p.messages[id]? = some d ∧ (classes S p fresh utf8 w).schema id = classOf S p fresh w d := by
  unfold classes
  simp only
  cases p.messages[id]? with
  | none => exact .inl ⟨rfl, rfl⟩
  | some d => exact .inr ⟨d, rfl, rfl⟩

/-- Numbers of the fields of a class. -/
theorem class_number (V : View p d (listed p d.fields)) (hA : Accepted p) (hd : d ∈ p.messages) (n : Nat) (k : Kind) :
    (classOf S p fresh w d).slots.findSome? (slotKind n) = some k ↔
      ∃ f ∈ listed p d.fields, f.proto.number.toNat = n ∧ kindAt S p d f = k := by
  cases he : d.proto.mapEntry with
  | false =>
    rw [class_slots he]
    exact findKind V (fun f hf => V.noExtendee hA hd hf) n k
  | true =>
    obtain ⟨a, b, hl, h1, h2, _, _, e⟩ := entry_slots (S := S) (fresh := fresh) (w := w) V hA hd he
    rw [e, hl]
    simp only [List.findSome?_cons, slotKind, List.findSome?_nil, List.mem_cons, List.not_mem_nil, or_false,
      exists_eq_or_imp, exists_eq_left, h1, h2]
    by_cases n1 : n = 1
    · subst n1; simp
    · by_cases n2 : n = 2
      · subst n2; simp
      · have a1 : ¬ BitVec.toNat (1 : BitVec 32) = n := by simpa [eq_comm] using n1
        have a2 : ¬ BitVec.toNat (2 : BitVec 32) = n := by simpa [eq_comm] using n2
        have a3 : ¬ (1 : Int).toNat = n := by simpa [eq_comm] using n1
        have a4 : ¬ (2 : Int).toNat = n := by simpa [eq_comm] using n2
        rw [if_neg a1, if_neg a2]
        exact ⟨fun h => by simp at h, fun h => h.elim (fun h => absurd h.1 a3) (fun h => absurd h.1 a4)⟩

theorem slot_field_map {n : BitVec 32} {k : Kind} {u : Bool}
    (h : slotOf S p fresh w (fieldEntry S p d f) = .field n k (.map u)) :
    k = kindAt S p d f ∧ f.bits.mapEntry = true := by
  unfold fieldEntry at h
  cases hh : holder S p d f with
  | map =>
    rw [hh] at h
    unfold slotOf at h
    simp only [SlotD.field.injEq] at h
    refine ⟨h.2.1.symm, ?_⟩
    unfold holder at hh
    split at hh
    · assumption
    · split at hh
      · cases hh
      · split at hh
        · split at hh <;> cases hh
        · split at hh
          · cases hh
          · split at hh <;> cases hh
  | plain init =>
    rw [hh] at h
    unfold slotOf at h
    simp only [SlotD.field.injEq] at h
    have := h.2.2
    split at this <;> cases this
  | optional => rw [hh] at h; cases h
  | «repeated» => rw [hh] at h; cases h

theorem slot_field_plain {n : BitVec 32} {k : Kind} {card : Card} {v : Val}
    (h : slotOf S p fresh w (fieldEntry S p d f) = .field n k card) (hc : card = .implicit v ∨ card = .always v) :
    k = kindAt S p d f ∧ ∃ init, holder S p d f = .plain init ∧
      ((card = .always v ∧ presenceOpt S p d f = true ∧ v = init.getD (zeroOf fresh k)) ∨
       (card = .implicit v ∧ presenceOpt S p d f = false ∧
         v = if w then (metaDefault S p d f).getD (zeroOf fresh k) else init.getD (zeroOf fresh k))) := by
  unfold fieldEntry at h
  cases hh : holder S p d f with
  | plain init =>
    rw [hh] at h
    unfold slotOf at h
    simp only [SlotD.field.injEq] at h
    obtain ⟨_, h2, h3⟩ := h
    refine ⟨h2.symm, init, rfl, ?_⟩
    rw [h2] at h3
    cases hp : presenceOpt S p d f with
    | true =>
      rw [if_pos (show (metaOptions S p d f).presence = true from hp)] at h3
      rcases hc with hc | hc
      · rw [hc] at h3; cases h3
      · rw [hc] at h3; cases h3; exact .inl ⟨hc, rfl, rfl⟩
    | false =>
      rw [if_neg (by rw [show (metaOptions S p d f).presence = false from hp]; simp)] at h3
      rcases hc with hc | hc
      · rw [hc] at h3
        injection h3 with h3
        exact .inr ⟨hc, rfl, h3.symm⟩
      · rw [hc] at h3; cases h3
  | optional => rw [hh] at h; cases h; rcases hc with hc | hc <;> cases hc
  | «repeated» => rw [hh] at h; cases h; rcases hc with hc | hc <;> cases hc
  | map => rw [hh] at h; cases h; rcases hc with hc | hc <;> cases hc

theorem slot_oneof_field {fs : List FieldDesc} {n : BitVec 32} {k : Kind} {card : Card}
    (h : slotOf S p fresh w (oneofEntry S p d fs) = .field n k card) : card = .optional := by
  match fs with
  | [] => cases h
  | [_] => cases h; rfl
  | _ :: _ :: _ => cases h

theorem slot_oneof_alts {a : FieldDesc} {rest : List FieldDesc} {alts : List (BitVec 32 × Kind)}
    (h : slotOf S p fresh w (oneofEntry S p d (a :: rest)) = .oneof alts) :
    rest ≠ [] ∧ alts = (a :: rest).map fun f => (BitVec.ofInt 32 f.proto.number, kindAt S p d f) := by
  match rest with
  | [] => cases h
  | b :: rest =>
    refine ⟨by simp, ?_⟩
    unfold oneofEntry slotOf at h
    injection h with h
    rw [← h, List.map_map]
    rfl

theorem slot_field_ne {alts : List (BitVec 32 × Kind)} (h : slotOf S p fresh w (fieldEntry S p d f) = .oneof alts) : False := by
  unfold fieldEntry slotOf at h
  cases h

theorem schema_ok (hV : ∀ (i : Nat) (d : MsgDesc), p.messages[i]? = some d → View p d (listed p d.fields))
    (hA : Accepted p) (hs : Supported S p) {utf8 : List Byte → Bool} (hT : DefaultsTyped S p utf8)
    (hu : utf8 [] = true) (hF : Fresh S p utf8 fresh) : schemaOk (classes S p fresh utf8 false) := by
  have hx : ∀ {d}, d ∈ p.messages → ∀ {L}, View p d L → ∀ f ∈ L, f.extendee = none := fun hd _ V f hf => V.noExtendee hA hd hf
  constructor
  · intro id n i j a b hi hj ha hb
    rcases schema_cases S p fresh utf8 false id with ⟨_, e⟩ | ⟨d, hd, e⟩
    · rw [e] at hi; simp at hi
    · rw [e] at hi hj
      have V := hV id d hd
      have hdm := List.mem_of_getElem? hd
      cases he : d.proto.mapEntry with
      | false =>
        rw [class_slots he] at hi hj
        exact slots_distinct V (hx hdm V) n i j a b hi hj ha hb
      | true =>
        obtain ⟨x, y, _, _, _, _, _, e'⟩ := entry_slots (S := S) (fresh := fresh) (w := false) V hA hdm he
        rw [e'] at hi hj
        match i, j with
        | 0, 0 => rfl
        | 1, 1 => rfl
        | 0, 1 =>
          simp only [List.getElem?_cons_zero, List.getElem?_cons_succ, Option.some.injEq] at hi hj
          subst hi hj
          simp only [slotKind] at ha hb
          split at ha
          · next h1 =>
            split at hb
            · next h2 => exact absurd (h1.trans h2.symm) (by decide)
            · simp at hb
          · simp at ha
        | 1, 0 =>
          simp only [List.getElem?_cons_zero, List.getElem?_cons_succ, Option.some.injEq] at hi hj
          subst hi hj
          simp only [slotKind] at ha hb
          split at ha
          · next h1 =>
            split at hb
            · next h2 => exact absurd (h1.trans h2.symm) (by decide)
            · simp at hb
          · simp at ha
        | i + 2, _ => simp at hi
        | _, j + 2 => simp at hj
  · intro id alts hm
    rcases schema_cases S p fresh utf8 false id with ⟨_, e⟩ | ⟨d, hd, e⟩
    · rw [e] at hm; simp at hm
    · rw [e] at hm
      have V := hV id d hd
      have hdm := List.mem_of_getElem? hd
      cases he : d.proto.mapEntry with
      | true =>
        obtain ⟨x, y, _, _, _, _, _, e'⟩ := entry_slots (S := S) (fresh := fresh) (w := false) V hA hdm he
        rw [e'] at hm; simp at hm
      | false =>
        rw [class_slots he] at hm
        obtain ⟨f, hf, ⟨_, h⟩ | ⟨k, rest, h1, h2, h⟩⟩ := slots_cases V (hx hdm V) hm
        · exact (slot_field_ne h.symm).elim
        · obtain ⟨_, rfl⟩ := slot_oneof_alts h.symm
          rw [List.map_map, ← h2]
          have hn : (listed p d.fields).Pairwise (fun f g => f.proto.number ≠ g.proto.number) := by
            have := V.fields.numbers
            rw [← V.protos, List.map_map] at this
            exact List.pairwise_map.1 this
          refine List.pairwise_map.2 ((hn.filter _).imp_of_mem ?_)
          intro a b ha hb hne heq
          have ha := (List.mem_filter.1 ha).1
          have hb := (List.mem_filter.1 hb).1
          refine hne (congrArg (fun f => f.proto.number) (V.toNat_inj ha hb ?_))
          rw [← V.number_toNat ha, ← V.number_toNat hb]
          exact congrArg BitVec.toNat heq
  · intro id alts hm a ha vs hk
    rcases schema_cases S p fresh utf8 false id with ⟨_, e⟩ | ⟨d, hd, e⟩
    · rw [e] at hm; simp at hm
    · rw [e] at hm
      have V := hV id d hd
      have hdm := List.mem_of_getElem? hd
      cases he : d.proto.mapEntry with
      | true =>
        obtain ⟨x, y, _, _, _, _, _, e'⟩ := entry_slots (S := S) (fresh := fresh) (w := false) V hA hdm he
        rw [e'] at hm; simp at hm
      | false =>
        rw [class_slots he] at hm
        obtain ⟨f, hf, ⟨_, h⟩ | ⟨k, rest, h1, h2, h⟩⟩ := slots_cases V (hx hdm V) hm
        · exact (slot_field_ne h.symm).elim
        · obtain ⟨hr, rfl⟩ := slot_oneof_alts h.symm
          obtain ⟨g, hg, rfl⟩ := List.mem_map.1 ha
          have hk : kindAt S p d g = .scalar (.enum (some vs)) := hk
          have hgm := leader_mem h2 hg
          have hgL := hgm.1
          -- another member
          have hnd : ((f :: rest).map fun f => f.proto.number).Nodup := by
            rw [← h2]
            have := V.fields.numbers
            rw [← V.protos, List.map_map] at this
            exact List.pairwise_map.2 ((List.pairwise_map.1 this).filter _)
          have hother : ∃ g' ∈ f :: rest, g.proto.number ≠ g'.proto.number := by
            obtain ⟨r0, rest', rfl⟩ := List.exists_cons_of_ne_nil hr
            have hne : f.proto.number ≠ r0.proto.number := by
              simp only [List.map_cons, List.nodup_cons, List.mem_cons, not_or] at hnd
              exact hnd.1.1
            by_cases hgf : g.proto.number = f.proto.number
            · exact ⟨r0, by simp, by rw [hgf]; exact hne⟩
            · exact ⟨f, by simp, hgf⟩
          obtain ⟨g', hg', hne⟩ := hother
          have hgm' := leader_mem h2 hg'
          have h14 : g.proto.type = 14 := by
            by_cases h : g.proto.type = 14
            · exact h
            · exfalso
              by_cases hm1 : g.proto.type = 10 ∨ g.proto.type = 11
              · obtain ⟨i, m, hi, _⟩ := (V.resolved g hgL).message hm1
                unfold kindAt at hk
                rcases hm1 with t | t <;> simp only [cppType, t, valueKind] at hk <;> simp at hk <;> split at hk <;> cases hk
              · have hkr := kind_rule (S := S) V hgL (fun e => absurd (Or.inr e) hm1) (emitClosed_none h)
                have hk' : valueKind p (cppType g) (metaOptions S p d g) = _ := hk
                rw [hk'] at hkr
                exact h hkr.1
          obtain ⟨i, en, hi, hie, hn⟩ := (V.resolved g hgL).enum h14
          have hopen := hs.oneofs d hdm _ (V.proto_mem g hgL) _ (V.proto_mem g' hgm'.1) hne (by rw [hgm.2.1]; rfl)
            (by rw [hgm.2.1, hgm'.2.1]) en (List.mem_of_getElem? hie) h14 hn
          have hcl : (metaOptions S p d g).closed = false := by
            have : emitClosed S p d g = false := by
              have hci : isClosedEnum p g = false := by
                unfold isClosedEnum enumOf
                rw [if_pos h14, hi]
                simp [hie, hopen]
              unfold emitClosed
              rw [hci]
              rfl
            simp [metaOptions, this]
          unfold kindAt at hk
          simp only [cppType, h14, valueKind, hcl] at hk
          simp at hk
  · intro id n h
    obtain ⟨k, hk⟩ := Option.isSome_iff_exists.1 h
    rcases schema_cases S p fresh utf8 false id with ⟨_, e⟩ | ⟨d, hd, e⟩
    · unfold fieldKind at hk; rw [e] at hk; simp at hk
    · unfold fieldKind at hk
      rw [e] at hk
      have V := hV id d hd
      have hdm := List.mem_of_getElem? hd
      obtain ⟨f, hf, rfl, _⟩ := (class_number V hA hdm n k).1 hk
      have h1 := (V.ok hf).number
      have h2 := hs.numbers d hdm _ (V.proto_mem f hf)
      omega
  · intro id n k u hm
    rcases schema_cases S p fresh utf8 false id with ⟨_, e⟩ | ⟨d, hd, e⟩
    · rw [e] at hm; simp at hm
    · rw [e] at hm
      have V := hV id d hd
      have hdm := List.mem_of_getElem? hd
      cases he : d.proto.mapEntry with
      | true =>
        obtain ⟨x, y, _, _, _, _, _, e'⟩ := entry_slots (S := S) (fresh := fresh) (w := false) V hA hdm he
        rw [e'] at hm; simp at hm
      | false =>
        rw [class_slots he] at hm
        obtain ⟨f, hf, ⟨_, h⟩ | ⟨k', rest, h1, h2, h⟩⟩ := slots_cases V (hx hdm V) hm
        · obtain ⟨rfl, hb⟩ := slot_field_map h.symm
          have ht : f.proto.type = 10 ∨ f.proto.type = 11 := by
            by_cases ht : f.proto.type = 10 ∨ f.proto.type = 11
            · exact ht
            · rw [(V.resolved f hf).other (fun e => ht (.inl e)) (fun e => ht (.inr e))] at hb; cases hb
          obtain ⟨i, m, hi, hmm, hn, hbm⟩ := (V.resolved f hf).message ht
          have hme : m.proto.mapEntry = true := by rw [← hbm]; exact hb
          have hmem := List.mem_of_getElem? hmm
          have h11 := (hA.maps d hdm _ (V.proto_mem f hf) m hmem hme hn ht).2
          have henc := hs.maps d hdm _ (V.proto_mem f hf) ⟨h11, m, hmem, hn, hme⟩
          rw [← V.features f hf] at henc
          refine ⟨i, ?_, ?_⟩
          · unfold kindAt
            have : (metaOptions S p d f).group = false := by
              simp [metaOptions, V.bits_delimited hf, fieldBits, h11, henc]
            simp [cppType, h11, valueKind, this, hi]
          · rcases schema_cases S p fresh utf8 false i with ⟨e1, _⟩ | ⟨m', hm', e2⟩
            · rw [hmm] at e1; cases e1
            · rw [hmm] at hm'
              cases hm'
              obtain ⟨_, _, _, _, _, _, _, e3⟩ := entry_slots (S := S) (fresh := fresh) (w := false) (hV i m hmm) hA hmem hme
              rw [e2, e3]
        · cases slot_oneof_field h.symm
  · intro id hE
    rcases schema_cases S p fresh utf8 false id with ⟨_, e⟩ | ⟨d, hd, e⟩
    · rw [e] at hE; cases hE
    · have V := hV id d hd
      have hdm := List.mem_of_getElem? hd
      rw [e] at hE ⊢
      cases he : d.proto.mapEntry with
      | false => rw [class_isEntry he] at hE; cases hE
      | true =>
        obtain ⟨_, _, _, _, _, _, _, e3⟩ := entry_slots (S := S) (fresh := fresh) (w := false) V hA hdm he
        rw [e3]
        exact ⟨_, _, _, rfl⟩
  · intro id n k card v sub hm hc hk
    have hz : zeroOf fresh k = .msg ((classes S p fresh utf8 false).schema sub).default := by
      rcases hk with rfl | rfl <;> simp only [zeroOf] <;> rw [← hF sub]
    rw [← hz]
    rcases schema_cases S p fresh utf8 false id with ⟨_, e⟩ | ⟨d, hd, e⟩
    · rw [e] at hm; simp at hm
    · rw [e] at hm
      have V := hV id d hd
      have hdm := List.mem_of_getElem? hd
      cases he : d.proto.mapEntry with
      | true =>
        obtain ⟨x, y, _, _, _, _, _, e'⟩ := entry_slots (S := S) (fresh := fresh) (w := false) V hA hdm he
        rw [e'] at hm
        simp only [List.mem_cons, SlotD.field.injEq, List.not_mem_nil, or_false] at hm
        rcases hm with ⟨_, rfl, rfl⟩ | ⟨_, rfl, rfl⟩ <;> rcases hc with hc | hc <;> cases hc <;> rfl
      | false =>
        rw [class_slots he] at hm
        obtain ⟨f, hf, ⟨ho, h⟩ | ⟨k', rest, h1, h2, h⟩⟩ := slots_cases V (hx hdm V) hm
        · obtain ⟨rfl, init, hh, hv⟩ := slot_field_plain h.symm hc
          obtain ⟨ht, _⟩ := kind_message V hf hk
          obtain ⟨rfl, _, _⟩ := plain_message V hf he hh ht
          rcases hv with ⟨_, _, hv⟩ | ⟨_, _, hv⟩
          · exact hv
          · exact hv
        · have := slot_oneof_field h.symm
          rw [this] at hc
          rcases hc with hc | hc <;> cases hc
  · intro id n sc v hm
    rcases schema_cases S p fresh utf8 false id with ⟨_, e⟩ | ⟨d, hd, e⟩
    · rw [e] at hm; simp at hm
    · rw [e] at hm
      have V := hV id d hd
      have hdm := List.mem_of_getElem? hd
      cases he : d.proto.mapEntry with
      | true =>
        obtain ⟨x, y, _, _, _, _, _, e'⟩ := entry_slots (S := S) (fresh := fresh) (w := false) V hA hdm he
        rw [e'] at hm
        simp at hm
      | false =>
        rw [class_slots he] at hm
        obtain ⟨f, hf, ⟨ho, h⟩ | ⟨k', rest, h1, h2, h⟩⟩ := slots_cases V (hx hdm V) hm
        · obtain ⟨hk, init, hh, hv⟩ := slot_field_plain h.symm (.inl rfl)
          rcases hv with ⟨hv, _⟩ | ⟨_, hp, hv⟩
          · cases hv
          · rw [if_neg (by simp)] at hv
            rw [hv]
            exact implicit_ok V hA hdm hT hu he hf ho hh hp hk.symm rfl
        · cases slot_oneof_field h.symm

end

end Meta
end HppProto
