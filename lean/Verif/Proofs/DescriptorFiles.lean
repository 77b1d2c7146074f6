import Verif.Spec.DescriptorBytes
import Verif.Proofs.DescriptorTypes
/-! The descriptor messages of files are objects, and say what the files say. -/
namespace HppProto
open Spec

/-! ### Objects -/

/-- Members in order. -/
def allOk (C : Cfg) (P : Nat → Msg → Prop) : List SlotD → List (List (Nat × Val)) → Prop
  | [], [] => True
  | sd :: sds, es :: ess => slotOk true C P sd es ∧ allOk C P sds ess
  | _, _ => False

theorem allOk_zip {C : Cfg} {P} : ∀ {sds ess}, allOk C P sds ess →
    ess.length = sds.length ∧ ∀ p ∈ sds.zip ess, slotOk true C P p.1 p.2
  | [], [], _ => ⟨rfl, fun p hp => by cases hp⟩
  | sd :: sds, es :: ess, h => by
    obtain ⟨h1, h2⟩ := h
    obtain ⟨i1, i2⟩ := allOk_zip h2
    refine ⟨by simp [i1], fun p hp => ?_⟩
    rcases List.mem_cons.1 hp with rfl | hp
    · exact h1
    · exact i2 p hp
  | [], _ :: _, h => h.elim
  | _ :: _, [], h => h.elim

theorem obj_mk {d id : Nat} {ess : List (List (Nat × Val))}
    (h : allOk descriptorCfg (objOk descriptorCfg d) (descriptorCfg.schema id).slots ess) : objOk descriptorCfg (d + 1) id ⟨ess, []⟩ :=
  ⟨(allOk_zip h).1, (allOk_zip h).2, rfl⟩

section
variable {C : Cfg} {P : Nat → Msg → Prop} {n : BitVec 32}

theorem ok_text (t : List Byte) : slotOk true C P (textSlot n) (textMember t) := by
  refine ⟨_, rfl, ⟨t, rfl, by simp⟩, fun _ h => ?_⟩
  simp only [isDefault, Val.str, beq_iff_eq] at h
  rw [h]

theorem isInt32_zero : isInt32 0 := by unfold isInt32; decide
theorem isInt32_one : isInt32 1 := by unfold isInt32; decide

theorem toInt_ofInt32 {x : Int} (h : isInt32 x) : (BitVec.ofInt 64 x).toInt = x := by
  obtain ⟨h1, h2⟩ := h
  rw [BitVec.toInt_ofInt]
  exact Int.bmod_eq_of_le (by omega) (by omega)

theorem inRange_int {x : Int} (h : isInt32 x) : inRange .i32 (BitVec.ofInt 64 x) := by
  unfold inRange
  rw [toInt_ofInt32 h]
  exact h

theorem ok_int {x : Int} (h : isInt32 x) : slotOk true C P (intSlot n) (intMember x) := by
  refine ⟨_, rfl, ⟨_, rfl, inRange_int h⟩, fun _ h => ?_⟩
  simp only [isDefault, Val.bits, beq_iff_eq] at h
  rw [h]

theorem ok_enum {v : BitVec 64} {x : Int} (h : isInt32 x) : slotOk true C P (enumSlot n v) (intMember x) := by
  refine ⟨_, rfl, ⟨_, rfl, inRange_int h, by simp⟩, fun _ h => ?_⟩
  simp only [isDefault, Val.bits, beq_iff_eq] at h
  rw [h]

theorem ok_bool {v : BitVec 64} (b : Bool) : slotOk true C P (boolSlot n v) (boolMember b) := by
  refine ⟨_, rfl, ?_, fun _ h => ?_⟩
  · cases b
    · exact .inl rfl
    · exact .inr rfl
  · simp only [isDefault, Val.bits, beq_iff_eq] at h
    rw [h]

theorem ok_texts (ts : List (List Byte)) : slotOk true C P (textsSlot n) (ts.map fun t => (0, .bytes t)) := by
  intro e he
  obtain ⟨t, -, rfl⟩ := List.mem_map.1 he
  exact ⟨rfl, t, rfl, by simp⟩

theorem ok_list {id : Nat} {ms : List Msg} (h : ∀ m ∈ ms, P id m) : slotOk true C P (msgsSlot n id) (listMember ms) := by
  intro e he
  obtain ⟨m, hm, rfl⟩ := List.mem_map.1 he
  exact ⟨rfl, m, rfl, h m hm⟩

theorem ok_option {id : Nat} {o : Option Msg} (h : ∀ m, o = some m → P id m) : slotOk true C P (msgSlot n id) (optionMember o) := by
  cases o with
  | none => exact .inl rfl
  | some m => exact .inr ⟨_, rfl, m, rfl, h m rfl⟩

theorem ok_optInt {o : Option Int} (h : ∀ i, o = some i → isInt32 i) :
    slotOk true C P (.field n (.scalar (.varint .i32)) .optional) (o.toList.map fun i => (0, .num (BitVec.ofInt 64 i))) := by
  cases o with
  | none => exact .inl rfl
  | some m => exact .inr ⟨_, rfl, _, rfl, inRange_int (h m rfl)⟩

theorem ok_optBool (o : Option Bool) :
    slotOk true C P (.field n (.scalar .bool) .optional) (o.toList.map fun b => (0, .num (if b then 1 else 0))) := by
  cases o with
  | none => exact .inl rfl
  | some b =>
    refine .inr ⟨_, rfl, ?_⟩
    cases b
    · exact .inl rfl
    · exact .inr rfl

theorem ok_empty {k p} : slotOk true C P (.field n k (.repeated p)) [] := fun e he => by cases he

theorem ok_none {k} : slotOk true C P (.field n k .optional) [] := .inl rfl

end

theorem features_obj {F : Features} (h : featuresFit F) (d : Nat) : objOk descriptorCfg (d + 1) 26 (featuresMsg F) := by
  obtain ⟨h1, h2, h3, h4, h5, h6, h7, h8⟩ := h
  exact obj_mk ⟨ok_enum h1, ok_enum h2, ok_enum h3, ok_enum h4, ok_enum h5, ok_enum h6, ok_enum h7, ok_enum h8, trivial⟩

theorem featuresOption_obj {o : Option Features} (h : ∀ F, o = some F → featuresFit F) (d : Nat) :
    ∀ m, o.map featuresMsg = some m → objOk descriptorCfg (d + 1) 26 m := by
  intro m hm
  cases o with
  | none => cases hm
  | some F => cases hm; exact features_obj (h F rfl) d

theorem fieldOptions_obj {p : Option Bool} {o : Option Features} (h : ∀ F, o = some F → featuresFit F) (d : Nat) :
    ∀ m, fieldOptionsMsg p o = some m → objOk descriptorCfg (d + 2) 16 m := by
  intro m hm
  unfold fieldOptionsMsg at hm
  split at hm
  · cases hm
  · cases hm
    exact obj_mk ⟨ok_enum isInt32_zero, ok_optBool p, ok_enum isInt32_zero, ok_bool false, ok_bool false, ok_bool false, ok_bool false,
      ok_bool false, ok_enum isInt32_zero, ok_empty, ok_empty, ok_option (featuresOption_obj h d), ok_none, ok_empty, trivial⟩

theorem field_obj {f : FieldProto} (h : fieldFits f) (d : Nat) : objOk descriptorCfg (d + 3) 7 (fieldMsg f) := by
  obtain ⟨h1, h2, h3, h4, h5⟩ := h
  exact obj_mk ⟨ok_text _, ok_int h1, ok_enum h2, ok_enum h3, ok_text _, ok_text _, ok_text _, ok_optInt h4, ok_text _,
    ok_option (fieldOptions_obj h5 d), ok_bool _, trivial⟩

theorem oneof_obj {o : OneofProto} (h : oneofFits o) (d : Nat) : objOk descriptorCfg (d + 3) 8 (oneofMsg o) := by
  refine obj_mk ⟨ok_text _, ok_option ?_, trivial⟩
  intro m hm
  cases ho : o.features with
  | none => rw [ho] at hm; cases hm
  | some F =>
    rw [ho] at hm
    cases hm
    exact obj_mk ⟨ok_option (fun m hm => by cases hm; exact features_obj (h F ho) d), ok_empty, trivial⟩

theorem enum_obj {e : EnumProto} (h : enumFits e) (d : Nat) : objOk descriptorCfg (d + 3) 9 (enumMsg e) := by
  refine obj_mk ⟨ok_text _, ok_list ?_, ok_option ?_, ok_empty, ok_empty, ok_enum isInt32_zero, trivial⟩
  · intro m hm
    obtain ⟨v, hv, rfl⟩ := List.mem_map.1 hm
    exact obj_mk ⟨ok_text _, ok_int (h.1 v hv), ok_none, trivial⟩
  · intro m hm
    cases ho : e.features with
    | none => rw [ho] at hm; cases hm
    | some F =>
      rw [ho] at hm
      cases hm
      exact obj_mk ⟨ok_bool _, ok_bool _, ok_bool _, ok_option (fun m hm => by cases hm; exact features_obj (h.2 F ho) d), ok_empty, trivial⟩

theorem messageOptions_obj {p : Bool} {o : Option Features} (h : ∀ F, o = some F → featuresFit F) (d : Nat) :
    ∀ m, messageOptionsMsg p o = some m → objOk descriptorCfg (d + 2) 15 m := by
  intro m hm
  unfold messageOptionsMsg at hm
  split at hm
  · cases hm
  · cases hm
    exact obj_mk ⟨ok_bool _, ok_bool _, ok_bool _, ok_bool _, ok_bool _, ok_option (featuresOption_obj h d), ok_empty, trivial⟩

theorem message_obj : ∀ {d : Nat} {m : MsgProto}, messageFits d m → objOk descriptorCfg (d + 3) 2 (messageMsg d m)
  | 0, _, h => h.elim
  | d + 1, m, ⟨h1, h2, h3, h4, h5, h6⟩ => by
    refine obj_mk ⟨ok_text _, ok_list ?_, ok_list ?_, ok_list ?_, ok_list ?_, ok_empty, ok_list ?_,
      ok_option (messageOptions_obj h5 (d + 1)), ok_empty, ok_empty, ok_enum isInt32_zero, trivial⟩ <;> intro x hx <;>
      obtain ⟨y, hy, rfl⟩ := List.mem_map.1 hx
    · exact field_obj (h1 y hy) d
    · exact field_obj (h2 y hy) d
    · exact message_obj (h6 y hy)
    · exact enum_obj (h3 y hy) d
    · exact oneof_obj (h4 y hy) d

theorem fileOptions_obj {F : Features} (h : featuresFit F) (d : Nat) : objOk descriptorCfg (d + 2) 14 (fileOptionsMsg F) :=
  obj_mk ⟨ok_text _, ok_text _, ok_bool _, ok_bool _, ok_bool _, ok_enum isInt32_one, ok_text _, ok_bool _, ok_bool _, ok_bool _, ok_bool _,
    ok_bool _, ok_text _, ok_text _, ok_text _, ok_text _, ok_text _, ok_text _, ok_text _,
    ok_option (fun m hm => by cases hm; exact features_obj h d), ok_empty, trivial⟩

theorem file_obj {d : Nat} {f : FileProto} (h : fileFits d f) : objOk descriptorCfg (d + 4) 1 (fileMsg d f) := by
  obtain ⟨h1, h2, h3, h4, h5⟩ := h
  refine obj_mk ⟨ok_text _, ok_text _, ok_texts _, ok_empty, ok_empty, ok_empty, ok_list ?_, ok_list ?_, ok_empty, ok_list ?_, ok_option ?_,
    ok_none, ok_text _, ok_enum h1, trivial⟩
  · intro x hx; obtain ⟨y, hy, rfl⟩ := List.mem_map.1 hx; exact message_obj (h2 y hy)
  · intro x hx; obtain ⟨y, hy, rfl⟩ := List.mem_map.1 hx; exact enum_obj (h3 y hy) d
  · intro x hx; obtain ⟨y, hy, rfl⟩ := List.mem_map.1 hx; exact field_obj (h4 y hy) d
  · intro m hm
    cases ho : f.features with
    | none => rw [ho] at hm; cases hm
    | some F => rw [ho] at hm; cases hm; exact fileOptions_obj (h5 F ho) (d + 1)

theorem set_obj {d : Nat} {ms : List Msg} (h : ∀ m ∈ ms, objOk descriptorCfg d 1 m) : objOk descriptorCfg (d + 1) 0 (setMsg ms) :=
  obj_mk ⟨ok_list h, trivial⟩

/-! ### What they say -/

theorem featuresOf_msg {F : Features} (h : featuresFit F) : featuresOf (featuresMsg F) = F := by
  obtain ⟨h1, h2, h3, h4, h5, h6, h7, h8⟩ := h
  show Features.mk (BitVec.ofInt 64 _).toInt (BitVec.ofInt 64 _).toInt (BitVec.ofInt 64 _).toInt (BitVec.ofInt 64 _).toInt
    (BitVec.ofInt 64 _).toInt (BitVec.ofInt 64 _).toInt (BitVec.ofInt 64 _).toInt (BitVec.ofInt 64 _).toInt = F
  rw [toInt_ofInt32 h1, toInt_ofInt32 h2, toInt_ofInt32 h3, toInt_ofInt32 h4, toInt_ofInt32 h5, toInt_ofInt32 h6, toInt_ofInt32 h7,
    toInt_ofInt32 h8]

theorem flag_bit (b : Bool) : ((if b then 1 else 0 : BitVec 64) != 0) = b := by cases b <;> decide

theorem option_get {ess : List (List (Nat × Val))} {u : List (Nat × List Byte)} {i : Nat} {o : Option Msg} (h : ess[i]? = some (optionMember o)) :
    optionOf ⟨ess, u⟩ i = o := by
  simp only [optionOf, MsgOf.get, List.getD_eq_getElem?_getD, h, Option.getD_some]
  cases o <;> rfl

theorem list_get {ess : List (List (Nat × Val))} {u : List (Nat × List Byte)} {i : Nat} {ms : List Msg} (h : ess[i]? = some (listMember ms)) :
    itemsOf ⟨ess, u⟩ i = ms := by
  simp only [itemsOf, MsgOf.get, List.getD_eq_getElem?_getD, h, Option.getD_some, listMember, List.map_map]
  refine (List.map_congr_left (g := id) ?_).trans (List.map_id _)
  intro m _; rfl

theorem map_self {α β} {l : List α} {f : α → β} {g : β → α} (h : ∀ x ∈ l, g (f x) = x) : (l.map f).map g = l := by
  rw [List.map_map]
  exact (List.map_congr_left (g := id) h).trans (List.map_id _)

theorem features_back {o : Option Features} (h : ∀ F, o = some F → featuresFit F) : (o.map featuresMsg).map featuresOf = o := by
  cases o with
  | none => rfl
  | some F => simp [featuresOf_msg (h F rfl)]

theorem fieldOf_msg {f : FieldProto} (h : fieldFits f) : fieldOf (fieldMsg f) = f := by
  obtain ⟨h1, h2, h3, h4, h5⟩ := h
  have ho : optionOf (fieldMsg f) 9 = fieldOptionsMsg f.packed f.features := option_get rfl
  have e1 : (optionOf (fieldMsg f) 9).bind (fun o => (o.get 1).head?.map fun e => e.2.bits != 0) = f.packed := by
    rw [ho]
    unfold fieldOptionsMsg
    split
    · rename_i h; simp [h.1]
    · simp only [Option.bind_some, MsgOf.get]
      cases f.packed with
      | none => rfl
      | some b => cases b <;> rfl
  have e2 : optionFeatures (fieldMsg f) 9 11 = f.features := by
    unfold optionFeatures
    rw [ho]
    unfold fieldOptionsMsg
    split
    · rename_i h; simp [h.2]
    · simp only [Option.bind_some]
      rw [option_get (o := f.features.map featuresMsg) rfl]
      exact features_back h5
  have e3 : ((fieldMsg f).get 7).head?.map (fun e => e.2.bits.toInt) = f.oneofIndex := by
    cases hi : f.oneofIndex with
    | none => simp [fieldMsg, MsgOf.get, hi]
    | some i => simp [fieldMsg, MsgOf.get, hi, Val.bits, toInt_ofInt32 (h4 i hi)]
  unfold fieldOf
  rw [e1, e2, e3]
  have n1 : intOf (fieldMsg f) 1 = f.number := toInt_ofInt32 h1
  have n2 : intOf (fieldMsg f) 2 = f.label := toInt_ofInt32 h2
  have n3 : intOf (fieldMsg f) 3 = f.type := toInt_ofInt32 h3
  have n4 : flagOf (fieldMsg f) 10 = f.proto3Optional := flag_bit _
  rw [n1, n2, n3, n4]
  cases f; rfl

theorem oneofOf_msg {o : OneofProto} (h : oneofFits o) : oneofOf (oneofMsg o) = o := by
  have e : optionFeatures (oneofMsg o) 1 0 = o.features := by
    unfold optionFeatures
    rw [show optionOf (oneofMsg o) 1 = _ from option_get rfl]
    cases ho : o.features with
    | none => rfl
    | some F =>
      simp only [Option.map_some, Option.bind_some]
      rw [option_get (o := some (featuresMsg F)) rfl]
      simp [featuresOf_msg (h F ho)]
  unfold oneofOf
  rw [e]
  cases o; rfl

theorem enumOf_msg {e : EnumProto} (h : enumFits e) : enumOf (enumMsg e) = e := by
  have e1 : optionFeatures (enumMsg e) 2 3 = e.features := by
    unfold optionFeatures
    rw [show optionOf (enumMsg e) 2 = _ from option_get rfl]
    cases ho : e.features with
    | none => rfl
    | some F =>
      simp only [Option.map_some, Option.bind_some]
      rw [option_get (o := some (featuresMsg F)) rfl]
      simp [featuresOf_msg (h.2 F ho)]
  unfold enumOf
  rw [e1, show itemsOf (enumMsg e) 1 = _ from list_get rfl, map_self]
  · cases e; rfl
  · intro v hv
    show (_, (BitVec.ofInt 64 v.2).toInt) = v
    rw [toInt_ofInt32 (h.1 v hv)]
    rfl

theorem messageOf_msg : ∀ {d : Nat} {m : MsgProto}, messageFits d m → ∀ d', d ≤ d' → messageOf d' (messageMsg d m) = m
  | 0, _, h, _, _ => h.elim
  | d + 1, m, ⟨h1, h2, h3, h4, h5, h6⟩, 0, hd => by omega
  | d + 1, m, ⟨h1, h2, h3, h4, h5, h6⟩, d' + 1, hd => by
    unfold messageOf
    have ho : optionOf (messageMsg (d + 1) m) 7 = messageOptionsMsg m.mapEntry m.features := option_get rfl
    have e1 : ((optionOf (messageMsg (d + 1) m) 7).map fun o => flagOf o 3).getD false = m.mapEntry := by
      rw [ho]
      unfold messageOptionsMsg
      split
      · rename_i h; simp [h.1]
      · simp only [Option.map_some, Option.getD_some]
        exact flag_bit _
    have e2 : optionFeatures (messageMsg (d + 1) m) 7 5 = m.features := by
      unfold optionFeatures
      rw [ho]
      unfold messageOptionsMsg
      split
      · rename_i h; simp [h.2]
      · simp only [Option.bind_some]
        rw [option_get (o := m.features.map featuresMsg) rfl]
        exact features_back h5
    rw [e1, e2, show itemsOf (messageMsg (d + 1) m) 1 = _ from list_get rfl, show itemsOf (messageMsg (d + 1) m) 2 = _ from list_get rfl,
      show itemsOf (messageMsg (d + 1) m) 3 = _ from list_get rfl, show itemsOf (messageMsg (d + 1) m) 4 = _ from list_get rfl,
      show itemsOf (messageMsg (d + 1) m) 6 = _ from list_get rfl, map_self fun x hx => fieldOf_msg (h1 x hx),
      map_self fun x hx => fieldOf_msg (h2 x hx), map_self fun x hx => messageOf_msg (h6 x hx) d' (by omega),
      map_self fun x hx => enumOf_msg (h3 x hx), map_self fun x hx => oneofOf_msg (h4 x hx)]
    cases m; rfl

theorem fileOf_msg {d : Nat} {f : FileProto} (h : fileFits d f) {d' : Nat} (hd : d ≤ d') : fileOf d' (fileMsg d f) = f := by
  obtain ⟨h1, h2, h3, h4, h5⟩ := h
  have e1 : optionFeatures (fileMsg d f) 10 19 = f.features := by
    unfold optionFeatures
    rw [show optionOf (fileMsg d f) 10 = _ from option_get rfl]
    cases ho : f.features with
    | none => rfl
    | some F =>
      simp only [Option.map_some, Option.bind_some]
      rw [option_get (o := some (featuresMsg F)) rfl]
      simp [featuresOf_msg (h5 F ho)]
  have e2 : textsOf (fileMsg d f) 2 = f.deps := by
    show (f.deps.map _).map _ = _
    exact map_self fun x _ => rfl
  have e3 : intOf (fileMsg d f) 13 = f.edition := toInt_ofInt32 h1
  unfold fileOf
  rw [e1, e2, e3, show itemsOf (fileMsg d f) 6 = _ from list_get rfl, show itemsOf (fileMsg d f) 7 = _ from list_get rfl,
    show itemsOf (fileMsg d f) 9 = _ from list_get rfl, map_self fun x hx => messageOf_msg (h2 x hx) d' hd,
    map_self fun x hx => enumOf_msg (h3 x hx), map_self fun x hx => fieldOf_msg (h4 x hx)]
  cases f; rfl

end HppProto
