import Verif.Proofs.JsonLex
import Verif.Props.Slots

/-! # Writing JSON: the text spells the form -/

namespace HppProto.Json
open HppProto HppProto.Spec

/-- The text of a message; that of a map entry is a member without braces. -/
def Written (T : JTypes) (id : Nat) (j : JTree) (t : List Byte) : Prop :=
  if (T id).entry then ∃ p, j = .obj [p] ∧ SpellsMember p t else Spells j t

theorem all2_mono {α β : Type} {R Q : α → β → Prop} (h : ∀ a b, R a b → Q a b) :
    ∀ {as : List α} {bs : List β}, All2 R as bs → All2 Q as bs
  | [], [], _ => trivial
  | _ :: _, _ :: _, hr => ⟨h _ _ hr.1, all2_mono h hr.2⟩
  | [], _ :: _, hr => hr.elim
  | _ :: _, [], hr => hr.elim

theorem all2_length {α β : Type} {R : α → β → Prop} : ∀ {as : List α} {bs : List β}, All2 R as bs → as.length = bs.length
  | [], [], _ => rfl
  | _ :: _, _ :: _, h => by simp [all2_length h.2]
  | [], _ :: _, h => h.elim
  | _ :: _, [], h => h.elim

theorem mapRes_all2 {α β γ : Type} {R : α → β → Prop} {Q : β → γ → Prop} {g : α → Res γ}
    (h : ∀ a b, R a b → ∃ c, g a = .ok c ∧ Q b c) :
    ∀ {as : List α} {bs : List β}, All2 R as bs → ∃ cs, mapRes g as = .ok cs ∧ All2 Q bs cs
  | [], [], _ => ⟨[], rfl, trivial⟩
  | a :: as, b :: bs, hr => by
    obtain ⟨c, h1, h2⟩ := h a b hr.1
    obtain ⟨cs, h3, h4⟩ := mapRes_all2 h hr.2
    exact ⟨c :: cs, by simp [mapRes, h1, h3], h2, h4⟩
  | [], _ :: _, hr => hr.elim
  | _ :: _, [], hr => hr.elim

theorem all2_map {α β γ : Type} {R : α → β → Prop} {Q : β → γ → Prop} (g : α → γ) (h : ∀ a b, R a b → Q b (g a)) :
    ∀ {as : List α} {bs : List β}, All2 R as bs → All2 Q bs (as.map g)
  | [], [], _ => trivial
  | _ :: _, _ :: _, hr => ⟨h _ _ hr.1, all2_map g h hr.2⟩
  | [], _ :: _, hr => hr.elim
  | _ :: _, [], hr => hr.elim

theorem mapM_some {α : Type} : ∀ vs : List α, (vs.map some).mapM (m := Option) id = some vs
  | [] => rfl
  | v :: vs => by simp [mapM_some vs]

theorem spells_ne {j : JTree} {t : List Byte} (h : Spells j t) : t ≠ [] := by
  obtain ⟨c, u, rfl, _⟩ := spells_head h
  simp

theorem member_ne {p : JStr × JTree} {t : List Byte} (h : SpellsMember p t) : t ≠ [] := by
  obtain ⟨u, rfl⟩ := member_head h
  simp

theorem filter_all2 {X : Type} {Sp : X → List Byte → Prop} (h : ∀ x t, Sp x t → t ≠ []) :
    ∀ {xs : List X} {ts : List (List Byte)}, All2 Sp xs ts → ts.filter (· ≠ []) = ts
  | [], [], _ => rfl
  | x :: xs, t :: ts, hr => by
    have := filter_all2 h hr.2
    simp only [List.filter_cons, this]
    simp [h x t hr.1]
  | [], _ :: _, hr => hr.elim
  | _ :: _, [], hr => hr.elim

theorem listText_arr (o : JOpts) (ind : Nat) {js : List JTree} {ts : List (List Byte)} (h : All2 Spells js ts) :
    Spells (.arr js) (listText o ind 0x5b 0x5d ts) := by
  unfold listText
  rw [filter_all2 (fun _ _ => spells_ne) h]
  have := Spells.arr (items_of_seq (seq_intercalate (ws_line o (o.deeper ind)) (ws_line o ind) h (ws_line o (o.deeper ind))))
  simpa using this

theorem listText_obj (o : JOpts) (ind : Nat) {ms : List (JStr × JTree)} {ts : List (List Byte)}
    (h : All2 SpellsMember ms ts) : Spells (.obj ms) (listText o ind 0x7b 0x7d ts) := by
  unfold listText
  rw [filter_all2 (fun _ _ => member_ne) h]
  have := Spells.obj (members_of_seq (seq_intercalate (ws_line o (o.deeper ind)) (ws_line o ind) h (ws_line o (o.deeper ind))))
  simpa using this

/-! ## Numbers and strings -/

section
variable {T : JTypes} {G : Glaze} {utf8 : List Byte → Bool} {o : JOpts} (L : G.Lawful)

/-- The names of the values need no escapes and are not empty. -/
def EnumInfo.Named (E : EnumInfo) : Prop := ∀ p ∈ E.values, p.1 ≠ [] ∧ Plain p.1

theorem nameOf_mem {E : EnumInfo} {p : List Byte × BitVec 32} (h : p ∈ E.values) :
    ∃ q ∈ E.values, q.2 = p.2 ∧ E.nameOf p.2 = q.1 := by
  unfold EnumInfo.nameOf
  cases e : E.values.find? (fun q => q.2 == p.2) with
  | none => exact absurd (List.find?_eq_none.1 e p h) (by simp)
  | some q =>
    have := List.find?_some e
    exact ⟨q, List.mem_of_find?_eq_some e, by simpa using this, rfl⟩

theorem nameOf_none {E : EnumInfo} {v : BitVec 32} (h : ∀ p ∈ E.values, v ≠ p.2) : E.nameOf v = [] := by
  unfold EnumInfo.nameOf
  cases e : E.values.find? (fun q => q.2 == v) with
  | none => rfl
  | some q =>
    have := List.find?_some e
    exact absurd (by simpa using this : q.2 = v).symm (h q (List.mem_of_find?_eq_some e))

theorem signExtend_setWidth (x : BitVec 32) : (x.signExtend 64).setWidth 32 = x := by
  apply BitVec.eq_of_getLsbD_eq
  intro i hi
  simp [BitVec.getLsbD_signExtend, hi]
  omega

theorem setWidth_small {v : BitVec 64} (h0 : 0 ≤ v.toInt) (h1 : v.toInt < 2 ^ 31) :
    ((v.setWidth 32).toNat : Int) = v.toInt ∧ (v.setWidth 32).signExtend 64 = v := by
  have hn : (v.toNat : Int) = v.toInt := by
    rw [BitVec.toInt_eq_toNat_cond] at *
    split at h0 <;> split <;> omega
  have hlt : v.toNat < 2 ^ 31 := by omega
  have e : (v.setWidth 32).toNat = v.toNat := by
    rw [BitVec.toNat_setWidth]
    omega
  refine ⟨by rw [e, hn], ?_⟩
  apply BitVec.eq_of_toInt_eq
  rw [BitVec.toInt_signExtend_of_le (by decide), BitVec.toInt_eq_toNat_of_lt (by omega), e, hn]

theorem enum_spells {E : EnumInfo} (hE : E.Named) (hn : E.isNull = false) {v : BitVec 64} {j : JTree}
    (h : enumNamed E v j) : Spells j (enumText E v) := by
  unfold enumText
  simp only [hn, Bool.false_eq_true, if_false]
  rcases h with ⟨p, hp, rfl, rfl⟩ | ⟨hnone, h0, h1, rfl⟩
  · rw [signExtend_setWidth]
    obtain ⟨q, hq, _, e⟩ := nameOf_mem hp
    rw [e, if_neg (hE q hq).1]
    exact .str (spellsStr_plain (hE q hq).2)
  · obtain ⟨e1, e2⟩ := setWidth_small h0 h1
    rw [if_pos (nameOf_none (fun p hp e => hnone p hp (by rw [← e, e2])))]
    have : intText v.toInt = toDec (v.setWidth 32).toNat := by
      unfold intText
      rw [if_neg (by omega)]
      congr 1
      omega
    rw [← this]
    exact .num (numText_int (by omega))

include L

theorem num_spells {preserve : Bool} {ty : JType} (hE : ∀ E, ty = .enum E → E.Named) {v : BitVec 64} {j : JTree}
    (h : numForm G (writerStyle preserve) ty v j) : Spells j (numText G false ty v) := by
  cases ty with
  | int signed wide =>
    obtain ⟨n, hn, rfl⟩ := h
    obtain ⟨rfl, h1, h2⟩ := intForm_iff.mp hn
    cases wide with
    | true => exact .str (spellsStr_plain (intText_plain _))
    | false => exact .num (numText_int (intRange_small h1 h2))
  | float wide =>
    obtain ⟨h1, rfl⟩ := h
    exact .num (L.writeFloat _ _ h1)
  | bool =>
    rcases h with ⟨rfl, rfl⟩ | ⟨rfl, rfl⟩
    · exact .false
    · exact .true
  | enum E => exact enum_spells (hE E rfl) h.1 h.2
  | string => exact h.elim
  | bytes => exact h.elim
  | msg id => exact h.elim

theorem str_spells {ty : JType} {bs : List Byte} {j : JTree} (h : strForm utf8 ty bs j) :
    Spells j (strText G ty bs) := by
  cases ty with
  | string =>
    obtain ⟨_, rfl⟩ := h
    exact .str ⟨L.writeStr bs, by intro h; cases h⟩
  | bytes =>
    cases h
    exact .str (spellsStr_plain (base64_plain bs))
  | int _ _ => exact h.elim
  | float _ => exact h.elim
  | bool => exact h.elim
  | enum _ => exact h.elim
  | msg _ => exact h.elim

/-! ## Fields -/

/-- The writer of messages writes their form. -/
def Writes (T : JTypes) (form : Nat → DynMsg → JTree → Prop) (w : JWriter) : Prop :=
  ∀ ind id m j, form id m j → ∃ t, w ind id m = .ok t ∧ Written T id j t

variable {form : Nat → DynMsg → JTree → Prop} {w : JWriter} (hw : Writes T form w)
include hw

theorem write_field {f : JField} (hE : ∀ E, f.ty = .enum E → E.Named)
    (hmap : ∀ id, f.ty = .msg id → (T id).entry = true → f.dyn.repeated = true) {m : DynMsg} {j : JTree}
    (h : fieldForm T G utf8 (writerStyle o.preserve) form f m j) (ind : Nat) :
    ∃ t, writeField T G o w ind false f m = .ok t ∧ Spells j t := by
  have nums : (∀ id, f.ty ≠ .msg id) →
      (if f.dyn.repeated then
        ∃ vs js, f.dyn.value m = .nums (vs.map some) ∧ All2 (numForm G (writerStyle o.preserve) f.ty) vs js ∧ j = .arr js
      else ∃ v, f.dyn.value m = .num v ∧ numForm G (writerStyle o.preserve) f.ty v j) →
      ∃ t, writeField T G o w ind false f m = .ok t ∧ Spells j t := by
    intro hne h
    unfold writeField
    cases hr : f.dyn.repeated with
    | true =>
      simp only [hr, if_true] at h ⊢
      obtain ⟨vs, js, hv, hall, rfl⟩ := h
      refine ⟨_, ?_, listText_arr o ind (all2_map (Q := Spells) (numText G false f.ty) (fun _ _ => num_spells L hE) hall)⟩
      rw [hv]
      cases e : f.ty with
      | msg id => exact absurd e (hne id)
      | _ => simp only [mapM_some]
    | false =>
      simp only [hr, Bool.false_eq_true, if_false] at h ⊢
      obtain ⟨v, hv, hf⟩ := h
      refine ⟨_, ?_, num_spells L hE hf⟩
      rw [hv]
      cases e : f.ty with
      | msg id => exact absurd e (hne id)
      | _ => rfl
  have strs : (∀ id, f.ty ≠ .msg id) →
      (if f.dyn.repeated then ∃ vs js, f.dyn.value m = .strs vs ∧ All2 (strForm utf8 f.ty) vs js ∧ j = .arr js
      else ∃ bs, f.dyn.value m = .str bs ∧ strForm utf8 f.ty bs j) →
      ∃ t, writeField T G o w ind false f m = .ok t ∧ Spells j t := by
    intro hne h
    unfold writeField
    cases hr : f.dyn.repeated with
    | true =>
      simp only [hr, if_true] at h ⊢
      obtain ⟨vs, js, hv, hall, rfl⟩ := h
      refine ⟨_, ?_, listText_arr o ind (all2_map (Q := Spells) (strText G f.ty) (fun _ _ => str_spells L) hall)⟩
      rw [hv]
      cases e : f.ty with
      | msg id => exact absurd e (hne id)
      | _ => rfl
    | false =>
      simp only [hr, Bool.false_eq_true, if_false] at h ⊢
      obtain ⟨v, hv, hf⟩ := h
      refine ⟨_, ?_, str_spells L hf⟩
      rw [hv]
      cases e : f.ty with
      | msg id => exact absurd e (hne id)
      | _ => rfl
  unfold fieldForm at h
  cases e : f.ty with
  | msg id =>
    rw [e] at h
    simp only at h
    unfold writeField
    cases hr : f.dyn.repeated with
    | true =>
      simp only [hr, if_true] at h ⊢
      obtain ⟨ss, hv, h⟩ := h
      rw [hv, e]
      cases he : (T id).entry with
      | true =>
        simp only [he, if_true] at h
        obtain ⟨ms, hall, rfl⟩ := h
        obtain ⟨ts, h1, h2⟩ := mapRes_all2 (R := fun s p => form id s (.obj [p])) (Q := SpellsMember)
          (g := w (o.deeper ind) id) (by
            intro s p hs
            obtain ⟨t, ht, hwr⟩ := hw (o.deeper ind) id s _ hs
            unfold Written at hwr
            rw [if_pos he] at hwr
            obtain ⟨p', hp, hwr⟩ := hwr
            cases hp
            exact ⟨t, ht, hwr⟩) hall
        exact ⟨_, by simp [h1, he], listText_obj o ind h2⟩
      | false =>
        simp only [he, Bool.false_eq_true, if_false] at h
        obtain ⟨js, hall, rfl⟩ := h
        obtain ⟨ts, h1, h2⟩ := mapRes_all2 (R := form id) (Q := Spells)
          (g := w (o.deeper ind) id) (by
            intro s j hs
            obtain ⟨t, ht, hwr⟩ := hw (o.deeper ind) id s _ hs
            unfold Written at hwr
            rw [if_neg (by simp [he])] at hwr
            exact ⟨t, ht, hwr⟩) hall
        exact ⟨_, by simp [h1, he], listText_arr o ind h2⟩
    | false =>
      simp only [hr, Bool.false_eq_true, if_false] at h ⊢
      obtain ⟨s, hv, hs⟩ := h
      rw [hv, e]
      obtain ⟨t, ht, hwr⟩ := hw ind id s j hs
      have he : (T id).entry = false := by
        cases h' : (T id).entry with
        | false => rfl
        | true => rw [hmap id e h'] at hr; cases hr
      unfold Written at hwr
      rw [if_neg (by simp [he])] at hwr
      exact ⟨t, ht, hwr⟩
  | string => rw [e] at h strs; exact strs (by simp) h
  | bytes => rw [e] at h strs; exact strs (by simp) h
  | int _ _ => rw [e] at h nums; exact nums (by simp) h
  | float _ => rw [e] at h nums; exact nums (by simp) h
  | bool => rw [e] at h nums; exact nums (by simp) h
  | enum _ => rw [e] at h nums; exact nums (by simp) h

theorem write_members {D : JDesc} (hD : D.Ok T) {m : DynMsg} (ind : Nat) :
    ∀ {fs : List JField} {ms : List (JStr × JTree)}, (∀ f ∈ fs, f ∈ D.fields) →
      All2 (memberForm T (writerStyle o.preserve)
        (fun f => fieldForm T G utf8 (writerStyle o.preserve) form f m) m)
        (fs.filter fun f => f.dyn.hasValue m) ms →
      ∃ ts, writeMembers T G o w ind m fs = .ok ts ∧ All2 SpellsMember ms ts
  | [], [], _, _ => ⟨[], rfl, trivial⟩
  | [], _ :: _, _, h => h.elim
  | f :: fs, ms, hmem, h => by
    rw [List.filter_cons] at h
    rw [writeMembers]
    cases hv : f.dyn.hasValue m with
    | false =>
      simp only [hv, Bool.false_eq_true, if_false] at h ⊢
      exact write_members hD ind (fun g hg => hmem g (by simp [hg])) h
    | true =>
      simp only [hv, if_true] at h ⊢
      match ms, h with
      | p :: ms, ⟨⟨hk, hp, hform⟩, hrest⟩ =>
        obtain ⟨ts, h1, h2⟩ := write_members hD ind (fun g hg => hmem g (by simp [hg])) hrest
        have hf := hmem f (by simp)
        have hform' : fieldForm T G utf8 (writerStyle o.preserve) form f m p.2 := by
          rcases hform with h | h
          · exact h.2
          · rw [hv] at h; cases h.2.1
        obtain ⟨t, h3, h4⟩ := write_field L hw (fun E e p hp => (hD.enums f hf E e).2 p hp) (hD.maps f hf) hform' ind
        refine ⟨(G.writeStr (f.key o) ++ 0x3a :: o.space ++ t) :: ts, by simp [h1, h3], ?_, h2⟩
        have hkey : p.1.text = f.key o := hk
        have hplain : Plain (f.key o) := by
          unfold JField.key
          split
          · exact (hD.plain f hf).1
          · exact (hD.plain f hf).2
        have hps : p.1 = ⟨f.key o, true⟩ := by
          rw [← hkey, ← hp]
        have hstr : SpellsStr p.1 (G.writeStr (f.key o)) := by
          rw [hps, L.writePlain _ hplain]
          exact spellsStr_plain hplain
        have := SpellsMember.mk hstr ws_nil (ws_space o) h4
        simpa using this

/-- All members are of fields that are set, in the style of the writer. -/
theorem writer_members {D : JDesc} {m : DynMsg} {j : JTree} {field : JField → JTree → Prop}
    (h : objectForm T (writerStyle o.preserve) field D m j) :
    ∃ ms, j = .obj ms ∧ All2 (memberForm T (writerStyle o.preserve) field m)
      (D.fields.filter fun f => f.dyn.hasValue m) ms := by
  obtain ⟨fs, ms, hall, _, he, rfl⟩ := h
  simp only [writerStyle, if_true] at he
  refine ⟨ms, rfl, ?_⟩
  rw [← he]
  have : ∀ {fs : List JField} {ms : List (JStr × JTree)}, All2 (memberForm T (writerStyle o.preserve) field m) fs ms →
      fs.filter (fun f => f.dyn.hasValue m) = fs := by
    intro fs
    induction fs with
    | nil => intros; rfl
    | cons f fs ih =>
      intro ms h
      match ms, h with
      | p :: ms, ⟨⟨_, _, h⟩, hr⟩ =>
        rw [List.filter_cons, ih hr]
        rcases h with h | h
        · simp [h.1]
        · cases h.1
  rw [this hall]
  exact hall

end

/-! ## `google.protobuf.Value` -/

theorem hasValue_singular {f : DynField} (hr : f.repeated = false) (m : DynMsg) :
    f.hasValue m = true ↔ (f.storage m).1 = f.layout.ordinal := by
  simp [DynField.hasValue, slotHasValue, hr]

theorem active_value {T : JTypes} {D : JDesc} (hD : D.Ok T) (ho : ∀ f ∈ D.fields, f.dyn.oneof = some 0)
    (hl : D.fields.length ≤ 2 ^ 31) {m : DynMsg} {i : Nat} {f f0 : JField} (hf : D.fields[i]? = some f)
    (h0 : D.fields[0]? = some f0) (hv : f.dyn.hasValue m = true) : f0.dyn.active m = (i : Int) := by
  have hmem := List.mem_of_getElem? hf
  have hmem0 := List.mem_of_getElem? h0
  have hd : f.dyn ∈ D.dyn.fields := List.mem_map.2 ⟨f, hmem, rfl⟩
  have hd0 : f0.dyn ∈ D.dyn.fields := List.mem_map.2 ⟨f0, hmem0, rfl⟩
  obtain ⟨hr, _⟩ := hD.dyn.member_explicit hd (ho f hmem)
  have hs := hD.dyn.slot_of_sameOneof hd0 hd ⟨0, ho f0 hmem0, ho f hmem⟩
  have hst : f0.dyn.storage m = f.dyn.storage m := by simp [DynField.storage, hs]
  obtain ⟨count, hc, hlaid⟩ := hD.dyn.laid
  unfold DynField.active
  rw [hst, (hasValue_singular hr m).1 hv]
  refine (Props.C49_active (o := 0) (i := i) (j := 0) ?_ hlaid ?_ ?_ ?_ ?_ ?_).1
  · intro g hg o h
    obtain ⟨d, hd, rfl⟩ := List.mem_map.1 hg
    exact hc d hd o h
  · simpa [JDesc.dyn] using hl
  · exact ⟨f.dyn.slotField, by simp [JDesc.dyn, hf], ho f hmem⟩
  · exact ⟨f0.dyn.slotField, by simp [JDesc.dyn, h0], ho f0 hmem0⟩
  · simp [JDesc.dyn, hf]
  · simp [JDesc.dyn, h0]

section
variable {T : JTypes} {G : Glaze} {utf8 : List Byte → Bool} {o : JOpts} (L : G.Lawful) (hT : ∀ id, (T id).Ok T)

theorem value_layout {D : JDesc} (hD : D.Ok T) (hw : D.wk = .value) :
    D.fields.length = 6 ∧ (∀ f ∈ D.fields, f.dyn.oneof = some 0) := by
  obtain ⟨a, b, c, d, e, f, E, s, l, h, _, _, _, _, _, _, _, _, _, _, _, ho⟩ := hD.values hw
  exact ⟨by rw [h]; rfl, ho⟩

/-- A `Value` with a field set is not taken for one that is not set. -/
theorem unsetValue_false {id : Nat} (hD : (T id).Ok T) {m : DynMsg} {f : JField} (hf : f ∈ (T id).fields)
    (hv : f.dyn.hasValue m = true) : unsetValue T id m = false := by
  unfold unsetValue
  cases hw : (T id).wk with
  | value =>
    obtain ⟨hl, ho⟩ := value_layout hD hw
    obtain ⟨i, hi, rfl⟩ := List.getElem_of_mem hf
    have h0 : (T id).fields[0]? = some ((T id).fields[0]'(by omega)) := by simp [hl]
    rw [h0]
    simp only [active_value hD ho (by omega) (i := i) (by simp [hi]) h0 hv]
    simp
  | _ => rfl

include L hT

omit L hT in
/-- What the form of a message that is a `Value`, a `Struct` or a `ListValue` tells about the message. -/
def ShapedForm (T : JTypes) (G : Glaze) (utf8 : List Byte → Bool) (S : Style) (form : Nat → DynMsg → JTree → Prop) : Prop :=
  ∀ id m j, (T id).wk = .value ∨ (T id).wk = .struct ∨ (T id).wk = .listValue → form id m j →
    ∃ form', bodyForm T G utf8 S form' id m j

omit L hT in
theorem formAt_shaped (S : Style) (d : Nat) : ShapedForm T G utf8 S (FormAt T G utf8 S d) := by
  intro id m j _ h
  cases d with
  | zero => exact h.elim
  | succ d => exact ⟨_, h⟩

theorem write_entry {form : Nat → DynMsg → JTree → Prop} {w : JWriter}
    (hsh : ShapedForm T G utf8 (writerStyle o.preserve) form) {id : Nat} {m : DynMsg} {j : JTree}
    (hw : Writes T form w) (he : (T id).entry = true)
    (h : ∃ k v s x, (T id).fields = [k, v] ∧ k.dyn.hasValue m = true ∧ v.dyn.hasValue m = true ∧
      keyForm utf8 k m s ∧ fieldForm T G utf8 (writerStyle o.preserve) form v m x ∧
      j = .obj [(s, x)]) (ind : Nat) :
    ∃ t, writeEntry T G o w ind (T id) m = .ok t ∧ ∃ p, j = .obj [p] ∧ SpellsMember p t := by
  obtain ⟨k, v, s, x, hf, hk, hv, hkey, hx, rfl⟩ := h
  have hD := hT id
  obtain ⟨k', v', hf', hkr, hvr, hko, hvo, hkt⟩ := hD.entries he
  rw [hf] at hf'
  obtain ⟨rfl, rfl⟩ : k = k' ∧ v = v' := by simpa using hf'
  have hvm : v ∈ (T id).fields := by rw [hf]; simp
  obtain ⟨tv, hv1, hv2⟩ := write_field L hw (fun E e p hp => (hD.enums v hvm E e).2 p hp) (hD.maps v hvm) hx ind
  have hkey' : ∃ tk, writeEntryField T G o w ind true k m = .ok tk ∧ SpellsStr s tk := by
    unfold writeEntryField writeField
    unfold keyForm at hkey
    simp only [hkr, Bool.false_eq_true, if_false]
    cases e : k.ty with
    | string =>
      rw [e] at hkey
      obtain ⟨bs, hb, _, rfl⟩ := hkey
      rw [hb]
      exact ⟨_, rfl, L.writeStr bs, by intro h; cases h⟩
    | int signed wide =>
      rw [e] at hkey
      obtain ⟨n, _, hb, hn, rfl⟩ := hkey
      obtain ⟨rfl, _, _⟩ := intForm_iff.mp hn
      rw [hb]
      refine ⟨_, rfl, ?_⟩
      simp only [numText, Bool.true_or, if_true]
      exact spellsStr_plain (intText_plain _)
    | bool =>
      rw [e] at hkey
      obtain ⟨n, hb, h⟩ := hkey
      rw [hb]
      refine ⟨_, rfl, ?_⟩
      rcases h with ⟨rfl, rfl⟩ | ⟨rfl, rfl⟩
      · exact spellsStr_plain (v := b!"false") (by unfold Plain; decide)
      · exact spellsStr_plain (v := b!"true") (by unfold Plain; decide)
    | float _ => rw [e] at hkt; cases hkt
    | enum _ => rw [e] at hkt; cases hkt
    | bytes => rw [e] at hkt; cases hkt
    | msg _ => rw [e] at hkt; cases hkt
  obtain ⟨tk, hk1, hk2⟩ := hkey'
  have hv1' : writeEntryField T G o w ind false v m = .ok tv := by
    unfold writeEntryField
    rw [hv1]
    rfl
  have hloop : writeEntryLoop T G o w ind m true (T id).fields = .ok (tk ++ 0x3a :: o.space ++ tv) := by
    rw [hf]
    simp [writeEntryLoop, hk, hv, hk1, hv1']
  refine ⟨tk ++ 0x3a :: o.space ++ tv, ?_, (s, x), rfl, by simpa using SpellsMember.mk hk2 ws_nil (ws_space o) hv2⟩
  unfold writeEntry
  rw [hloop]
  simp only [hf, List.getElem?_cons_succ, List.getElem?_cons_zero]
  cases e : v.ty with
  | msg vid =>
    unfold fieldForm at hx
    rw [e] at hx
    simp only [hvr, Bool.false_eq_true, if_false] at hx
    obtain ⟨sub, hsub, hform⟩ := hx
    rw [hsub]
    simp only
    have : unsetValue T vid sub = false := by
      cases hwk : (T vid).wk with
      | value =>
        obtain ⟨form', _, hform⟩ := hsh vid sub x (.inl hwk) hform
        have hent : (T vid).entry = false := by
          cases h' : (T vid).entry with
          | false => rfl
          | true => rw [hD.maps v hvm vid e h'] at hvr; cases hvr
        simp only [hent, hwk, Bool.false_eq_true, if_false] at hform
        obtain ⟨f, hf, hfv, _⟩ := hform
        exact unsetValue_false (hT vid) hf hfv
      | _ => simp [unsetValue, hwk]
    rw [this]
    rfl
  | _ => simp

theorem write_body {form : Nat → DynMsg → JTree → Prop} {w : JWriter} (ih : Writes T form w)
    (hsh : ShapedForm T G utf8 (writerStyle o.preserve) form) :
    Writes T (bodyForm T G utf8 (writerStyle o.preserve) form) (writeBody T G o w) := by
    intro ind id m j h
    obtain ⟨hlen, h⟩ := h
    have hD := hT id
    have field : ∀ f ∈ (T id).fields, ∀ x, fieldForm T G utf8 (writerStyle o.preserve) form f m x →
        ∃ t, writeField T G o w ind false f m = .ok t ∧ Spells x t := fun f hf x hx =>
      write_field L ih (fun E e p hp => (hD.enums f hf E e).2 p hp) (hD.maps f hf) hx ind
    unfold writeBody
    simp only
    cases he : (T id).entry with
    | true =>
      simp only [he, if_true] at h ⊢
      obtain ⟨t, h1, h2⟩ := write_entry L hT hsh ih he h ind
      exact ⟨t, h1, by unfold Written; rw [if_pos he]; exact h2⟩
    | false =>
      simp only [he, Bool.false_eq_true, if_false] at h ⊢
      suffices ∃ t, _ = Res.ok t ∧ Spells j t by
        obtain ⟨t, h1, h2⟩ := this
        exact ⟨t, h1, by unfold Written; rw [if_neg (by simp [he])]; exact h2⟩
      cases hwk : (T id).wk with
      | any => rw [hwk] at h; exact h.elim
      | timestamp =>
        rw [hwk] at h
        obtain ⟨a, b, x, y, t, hf, ha, hb, ht, rfl⟩ := h
        refine ⟨quoted t, ?_, .str (spellsStr_plain (timestamp_plain ht))⟩
        simp [writeTwo, hf, ha, hb, ht]
      | duration =>
        rw [hwk] at h
        obtain ⟨a, b, x, y, t, hf, ha, hb, ht, rfl⟩ := h
        refine ⟨quoted t, ?_, .str (spellsStr_plain (duration_plain ht))⟩
        simp [writeTwo, hf, ha, hb, ht]
      | fieldMask =>
        rw [hwk] at h
        obtain ⟨f, ps, hf, hp, _, _, rfl⟩ := h
        refine ⟨quoted (fieldMaskEncode ps), by simp [writeMask, hf, hp], .str ⟨⟨_, (Props.C34_text ps).1, rfl⟩, ?_⟩⟩
        intro h; cases h
      | value =>
        rw [hwk] at h
        obtain ⟨f, hf, hv, h⟩ := h
        obtain ⟨hl, ho⟩ := value_layout hD hwk
        obtain ⟨i, hi, rfl⟩ := List.getElem_of_mem hf
        have h0 : (T id).fields[0]? = some ((T id).fields[0]'(by omega)) := by simp [hl]
        have hact := active_value hD ho (by omega) (i := i) (by simp [hi]) h0 hv
        have hred : writeAlternative T G o w ind (T id) m =
            writeField T G o w ind false (T id).fields[i] m := by
          unfold writeAlternative
          rw [h0]
          simp only [hact]
          rw [if_neg (by omega)]
          simp [hi, hv]
        simp only [hred]
        rcases h with ⟨E, hE, hnull, hval, rfl⟩ | h
        · refine ⟨b!"null", ?_, .null⟩
          have hr := (hD.dyn.member_explicit (f := (T id).fields[i].dyn) (List.mem_map.2 ⟨_, hf, rfl⟩) (ho _ hf)).1
          unfold writeField
          rw [hval, hE]
          simp [hr, numText, enumText, hnull]
        · exact field _ hf j h
      | struct =>
        rw [hwk] at h
        obtain ⟨f, hf, h⟩ := h
        obtain ⟨t, h1, h2⟩ := field f (by rw [hf]; simp) j h
        exact ⟨t, by simp [hf, h1], h2⟩
      | listValue =>
        rw [hwk] at h
        obtain ⟨f, hf, h⟩ := h
        obtain ⟨t, h1, h2⟩ := field f (by rw [hf]; simp) j h
        exact ⟨t, by simp [hf, h1], h2⟩
      | wrapper =>
        rw [hwk] at h
        obtain ⟨f, hf, hv, h⟩ := h
        obtain ⟨t, h1, h2⟩ := field f (by rw [hf]; simp) j h
        exact ⟨t, by simp [hf, hv, h1], h2⟩
      | none =>
        rw [hwk] at h
        obtain ⟨ms, rfl, hall⟩ := writer_members L ih h
        obtain ⟨ts, h1, h2⟩ := write_members L ih hD (o.deeper ind) (fs := (T id).fields) (fun f hf => hf) hall
        refine ⟨_, by simp [writeObject, h1]; rfl, ?_⟩
        have := Spells.obj (members_of_seq (seq_intercalate (ws_line o (o.deeper ind)) (ws_line o ind) h2 (ws_line o (o.deeper ind))))
        simpa using this

theorem write_level (d : Nat) : Writes T (FormAt T G utf8 (writerStyle o.preserve) d) (writeLevel T G o d) := by
  induction d with
  | zero => intro ind id m j h; exact h.elim
  | succ d ih => exact write_body L hT ih (formAt_shaped _ d)

end

end HppProto.Json
