import Verif.Proofs.JsonWrite

/-! # Reading JSON: numbers, strings, lists and fields -/

namespace HppProto.Json
open HppProto HppProto.Spec

section
variable {T : JTypes} {G : Glaze} {utf8 : List Byte → Bool} (L : G.Lawful)

theorem expect_ne {c : Byte} {s : List Byte} (h : look s ≠ c) : expect c s = .err .badMessage := by
  simp [expect, h]

theorem skipWs_starts {a : List Byte} (ha : Ws a) {c : Byte} (hc : isWs c = false) (s : List Byte) :
    skipWs (a ++ c :: s) = c :: s := by rw [skipWs_append ha, skipWs_cons hc]

theorem skipWs_spells {a t : List Byte} {j : JTree} (ha : Ws a) (h : Spells j t) (rest : List Byte) :
    skipWs (a ++ t ++ rest) = t ++ rest := by
  obtain ⟨c, u, rfl, hc⟩ := spells_head h
  have := (starter_facts (begins_starter hc)).1
  simpa using skipWs_starts ha this (u ++ rest)

theorem expectText_append (t s : List Byte) : expectText t (t ++ s) = .ok s := by
  unfold expectText
  rw [if_pos (by simp [List.isPrefixOf_iff_prefix])]
  simp

theorem readBool_true (s : List Byte) : readBool (b!"true" ++ s) = .ok (1, s) := by
  have : look (b!"true" ++ s) = 0x74 := rfl
  unfold readBool
  rw [if_pos this, expectText_append]
  rfl

theorem readBool_false (s : List Byte) : readBool (b!"false" ++ s) = .ok (0, s) := by
  have : look (b!"false" ++ s) ≠ 0x74 := by
    show (0x66 : Byte) ≠ 0x74
    decide
  unfold readBool
  rw [if_neg this, expectText_append]
  rfl

include L

theorem inQuotes_int {lo hi v : Int} (h1 : -2 ^ 63 ≤ lo) (h2 : hi < 2 ^ 64) (h3 : lo ≤ v) (h4 : v ≤ hi)
    (rest : List Byte) : inQuotes true (G.readInt lo hi) (quoted (intText v) ++ rest) = .ok (v, rest) := by
  unfold inQuotes quoted
  have := L.readInt lo hi v (0x22 :: rest) h1 h2 h3 h4 rfl
  simp only [if_true, List.cons_append, List.append_assoc, List.nil_append, expect_cons, res_bind_ok, this]

theorem readNum_spells {ty : JType} {v : BitVec 64} {j : JTree} (h : numForm G anyStyle ty v j) {a t rest : List Byte}
    (ht : Spells j t) (ha : Ws a) (hrest : numChar (look rest) = false) :
    readNum G false ty (a ++ t ++ rest) = .ok (v, rest) := by
  unfold readNum
  simp only [skipWs_spells ha ht]
  cases ty with
  | int signed wide =>
    obtain ⟨n, hn, rfl⟩ := h
    obtain ⟨rfl, h1, h2⟩ := intForm_iff.mp hn
    obtain ⟨b1, b2⟩ := intRange_bounds signed wide
    cases wide with
    | true =>
      cases ht with
      | str hs =>
        obtain ⟨_, rfl⟩ := hs.2 rfl
        have := inQuotes_int L b1 b2 h1 h2 rest
        unfold quoted at this
        simp only [Bool.or_true, this, res_bind_ok, ofInt_intOf]
    | false =>
      cases ht with
      | num _ =>
        have := L.readInt _ _ _ rest b1 b2 h1 h2 hrest
        simp only [Bool.or_false, inQuotes, Bool.false_eq_true, if_false, this, res_bind_ok, ofInt_intOf]
  | float wide =>
    obtain ⟨h1, rfl⟩ := h
    cases ht with
    | num _ => exact L.readFloat _ _ _ h1 hrest
  | bool =>
    rcases h with ⟨rfl, rfl⟩ | ⟨rfl, rfl⟩
    · cases ht
      exact readBool_false rest
    · cases ht
      exact readBool_true rest
  | enum E =>
    obtain ⟨hn, h⟩ := h
    simp only
    unfold readEnum
    rcases h with ⟨n, x, hv, rfl, hp, rfl⟩ | ⟨h1, h2, rfl⟩
    · cases ht with
      | str hs =>
        obtain ⟨_, rfl⟩ := hs.2 rfl
        have := L.readView n rest hp
        rw [if_neg (by simp)]
        simp only [List.cons_append, List.append_assoc, List.singleton_append] at this ⊢
        simp only [List.nil_append] at this ⊢
        simp only [this, res_bind_ok, hv]
    · cases ht with
      | num ht =>
        obtain ⟨c, u, e, hc⟩ := numText_head ht
        have hl : look (intText v.toInt ++ rest) ≠ 0x22 := by
          rw [e]
          exact (digit_starter hc).2.2.2.2.1
        rw [if_pos hl, L.readInt _ _ _ rest (by omega) (by omega) h1 (by omega) hrest]
        simp
  | string => exact h.elim
  | bytes => exact h.elim
  | msg id => exact h.elim

theorem readText_spells {ty : JType} {bs : List Byte} {j : JTree} (h : strForm utf8 ty bs j) {a t rest : List Byte}
    (ht : Spells j t) (ha : Ws a) : readText utf8 G ty (a ++ t ++ rest) = .ok (bs, rest) := by
  unfold readText
  simp only [skipWs_spells ha ht]
  cases ty with
  | string =>
    obtain ⟨hu, rfl⟩ := h
    cases ht with
    | str hs =>
      have := L.readStr _ _ rest hs.1
      simp only at this
      simp [this, hu]
  | bytes =>
    cases h
    cases ht with
    | str hs =>
      obtain ⟨hp, rfl⟩ := hs.2 rfl
      have := L.readView _ rest hp
      simp only [List.cons_append, List.append_assoc, List.singleton_append] at this ⊢
      simp only [List.nil_append] at this ⊢
      simp only [this, res_bind_ok, (Props.C29_base64 bs).2.2.2]
  | int _ _ => exact h.elim
  | float _ => exact h.elim
  | bool => exact h.elim
  | enum _ => exact h.elim
  | msg _ => exact h.elim

omit L

/-! ## Lists -/

/-- Items after leading whitespace. -/
theorem seq_strip {X : Type} {Sp : X → List Byte → Prop} (hhead : ∀ x t, Sp x t → ∃ c u, t = c :: u ∧ starter c = true)
    {xs : List X} {t : List Byte} (h : Seq Sp xs t) {c : Byte} (hc : isWs c = false) (rest : List Byte) :
    ∃ t', Seq Sp xs t' ∧ skipWs (t ++ c :: rest) = t' ++ c :: rest := by
  cases h with
  | nil ha => exact ⟨[], .nil ws_nil, by simp [skipWs_starts ha hc]⟩
  | @one x a t b ha hx hb =>
    obtain ⟨d, u, rfl, hd⟩ := hhead x t hx
    refine ⟨d :: u ++ b, by simpa using Seq.one ws_nil hx hb, ?_⟩
    simpa using skipWs_starts ha (starter_facts hd).1 (u ++ (b ++ c :: rest))
  | @more x y xs a t b r ha hx hb hr =>
    obtain ⟨d, u, rfl, hd⟩ := hhead x t hx
    refine ⟨d :: u ++ b ++ 0x2c :: r, by simpa using Seq.more ws_nil hx hb hr, ?_⟩
    simpa using skipWs_starts ha (starter_facts hd).1 (u ++ (b ++ (0x2c :: (r ++ c :: rest))))

theorem readElems_seq {X Y Z : Type} {Sp : X → List Byte → Prop} {R : Z → X → Prop} {Q : Z → Y → Prop}
    {one : List Byte → Res (Y × List Byte)} {c : Byte} (hc : isWs c = false) (hn : numChar c = false)
    (h : ∀ z x a t rest, R z x → Sp x t → Ws a → numChar (look rest) = false →
      ∃ y, one (a ++ t ++ rest) = .ok (y, rest) ∧ Q z y) (rest : List Byte) :
    ∀ {xs : List X} {t : List Byte}, Seq Sp xs t → xs ≠ [] → ∀ {zs : List Z}, All2 R zs xs →
      ∃ ys, readElems one xs.length (t ++ c :: rest) = .ok (ys, c :: rest) ∧ All2 Q zs ys
  | _, _, .nil _, hne, _, _ => absurd rfl hne
  | _, _, .one (x := x) (a := a) (t := t) (b := b) ha hx hb, _, zs, hall => by
    match zs, hall with
    | [z], ⟨hz, _⟩ =>
      obtain ⟨y, h1, h2⟩ := h z x a t (b ++ c :: rest) hz hx ha (numChar_ws hb hn _)
      refine ⟨[y], ?_, h2, trivial⟩
      simp only [List.length_cons, List.length_nil, readElems]
      rw [show a ++ t ++ b ++ c :: rest = a ++ t ++ (b ++ c :: rest) by simp, h1]
      simp [skipWs_starts hb hc]
    | _ :: _ :: _, ⟨_, h⟩ => exact h.elim
  | _, _, .more (x := x) (y := x') (xs := xs) (a := a) (t := t) (b := b) (r := r) ha hx hb hr, _, zs, hall => by
    match zs, hall with
    | z :: zs, ⟨hz, hzs⟩ =>
      obtain ⟨y, h1, h2⟩ := h z x a t (b ++ 0x2c :: (r ++ c :: rest)) hz hx ha (numChar_ws hb rfl _)
      obtain ⟨ys, h3, h4⟩ := readElems_seq hc hn h rest hr (by simp) hzs
      refine ⟨y :: ys, ?_, h2, h4⟩
      simp only [List.length_cons] at h3 ⊢
      rw [readElems]
      rw [show a ++ t ++ b ++ 0x2c :: r ++ c :: rest = a ++ t ++ (b ++ 0x2c :: (r ++ c :: rest)) by simp, h1]
      simp only [res_bind_ok, skipWs_starts hb (show isWs 0x2c = false from rfl)]
      rw [if_neg (by omega)]
      simp only [expect_cons, res_bind_ok, h3]

theorem readList_seq {X Y Z : Type} {Sp : X → List Byte → Prop} {R : Z → X → Prop} {Q : Z → Y → Prop}
    {one : List Byte → Res (Y × List Byte)} {opening closing : Byte} (ho : isWs opening = false)
    (hstop : closing = 0x5d ∨ closing = 0x7d) (hpass : ∀ x t, Sp x t → Passes G closing t)
    (hhead : ∀ x t, Sp x t → ∃ c u, t = c :: u ∧ starter c = true)
    (h : ∀ z x a t rest, R z x → Sp x t → Ws a → numChar (look rest) = false →
      ∃ y, one (a ++ t ++ rest) = .ok (y, rest) ∧ Q z y)
    {xs : List X} {t : List Byte} (hseq : Seq Sp xs t) {zs : List Z} (hall : All2 R zs xs) {a : List Byte} (ha : Ws a)
    (rest : List Byte) :
    ∃ ys, readList G one opening closing (a ++ (opening :: t ++ [closing]) ++ rest) = .ok (ys, rest) ∧ All2 Q zs ys := by
  have hc : isWs closing = false := by rcases hstop with rfl | rfl <;> rfl
  have hn : numChar closing = false := by rcases hstop with rfl | rfl <;> rfl
  obtain ⟨t', hseq', hstrip⟩ := seq_strip hhead hseq hc rest
  have hcount := countJson_seq hstop hpass hhead rest hseq'
  have helems : ∃ ys, readElems one xs.length (t' ++ closing :: rest) = .ok (ys, closing :: rest) ∧ All2 Q zs ys := by
    cases xs with
    | nil =>
      match zs, hall with
      | [], _ =>
        refine ⟨[], ?_, trivial⟩
        cases hseq' with
        | nil ha =>
          have e : skipWs (skipWs (t ++ closing :: rest)) = skipWs (t ++ closing :: rest) := by
            cases hseq with
            | nil ha' => rw [skipWs_starts ha' hc, skipWs_cons hc]
          rw [hstrip, skipWs_starts ha hc] at e
          simp [readElems, ← e]
    | cons x xs => exact readElems_seq hc hn h rest hseq' (by simp) hall
  obtain ⟨ys, h1, h2⟩ := helems
  refine ⟨ys, ?_, h2⟩
  unfold readList
  rw [show a ++ (opening :: t ++ [closing]) ++ rest = a ++ opening :: (t ++ closing :: rest) by simp,
    skipWs_starts ha ho]
  simp only [expect_cons, res_bind_ok, hstrip, hcount, h1, look_cons, if_true, List.tail_cons]

/-! ## Fields -/

/-- The message reader reads forms into new messages. -/
def Reads (T : JTypes) (form : Nat → DynMsg → JTree → Prop) (same : Nat → DynMsg → DynMsg → Prop) (r : JReader) : Prop :=
  ∀ id m j a t rest, form id m j → Written T id j t → Ws a → numChar (look rest) = false →
    ∃ m', r id (T id).dyn.empty (a ++ t ++ rest) = .ok (m', rest) ∧ same id m m'

/-- Only a `Value` is written as `null`. -/
def NullIsValue (T : JTypes) (form : Nat → DynMsg → JTree → Prop) (same : Nat → DynMsg → DynMsg → Prop) : Prop :=
  ∀ id s, form id s .null → (T id).wk = .value ∧ ∃ g, (T id).fields[0]? = some g ∧
    same id s (g.dyn.setNum 0 (T id).dyn.empty)

theorem readNull_other {a t rest : List Byte} {j : JTree} (hj : j ≠ .null) (ht : Spells j t) (ha : Ws a) :
    readNull (a ++ t ++ rest) = .ok none := by
  unfold readNull
  simp only [skipWs_spells ha ht]
  obtain ⟨c, u, rfl, hc⟩ := spells_head ht
  have : c ≠ 0x6e := by
    cases j with
    | null => exact absurd rfl hj
    | bool b => cases b <;> cases hc <;> decide
    | num t => exact (digit_starter hc).2.1
    | str s => cases hc; decide
    | arr xs => cases hc; decide
    | obj ms => cases hc; decide
  rw [if_neg (by exact this)]

theorem readNull_null {a rest : List Byte} (ha : Ws a) : readNull (a ++ b!"null" ++ rest) = .ok (some rest) := by
  unfold readNull
  simp only [skipWs_spells ha .null]
  have h1 : look (b!"null" ++ rest) = 0x6e := rfl
  have h2 : step (b!"null" ++ rest) = .ok (b!"ull" ++ rest) := rfl
  rw [if_pos h1, h2]
  simp only [res_bind_ok, expectText_append]

variable {form : Nat → DynMsg → JTree → Prop} {same : Nat → DynMsg → DynMsg → Prop} {r : JReader}

theorem not_null_list {f : JField} {m : DynMsg} {j : JTree} (hr : f.dyn.repeated = true)
    (h : fieldForm T G utf8 anyStyle form f m j) : j ≠ .null := by
  unfold fieldForm at h
  simp only [hr, if_true] at h
  split at h
  · obtain ⟨ss, _, h⟩ := h
    split at h <;> obtain ⟨_, _, rfl⟩ := h <;> simp
  · obtain ⟨_, _, _, _, rfl⟩ := h; simp
  · obtain ⟨_, _, _, _, rfl⟩ := h; simp
  · obtain ⟨_, _, _, _, rfl⟩ := h; simp

theorem numForm_not_null {S : Style} (hS : S.enum = enumEither) {ty : JType} {v : BitVec 64} {j : JTree}
    (h : numForm G S ty v j) : j ≠ .null := by
  cases ty with
  | int signed wide => obtain ⟨_, _, rfl⟩ := h; cases wide <;> simp
  | float _ => obtain ⟨_, rfl⟩ := h; simp
  | bool => rcases h with ⟨_, rfl⟩ | ⟨_, rfl⟩ <;> simp
  | enum E =>
    obtain ⟨_, h⟩ := h
    rw [hS] at h
    rcases h with ⟨_, _, _, _, _, rfl⟩ | ⟨_, _, rfl⟩ <;> simp
  | string => exact h.elim
  | bytes => exact h.elim
  | msg _ => exact h.elim

theorem strForm_not_null {ty : JType} {v : List Byte} {j : JTree} (h : strForm utf8 ty v j) : j ≠ .null := by
  cases ty with
  | string => obtain ⟨_, rfl⟩ := h; simp
  | bytes => cases h; simp
  | int _ _ => exact h.elim
  | float _ => exact h.elim
  | bool => exact h.elim
  | enum _ => exact h.elim
  | msg _ => exact h.elim

/-- What storing `st` in the slot of `f` makes of it. -/
def Stored (same : Nat → DynMsg → DynMsg → Prop) (f : JField) (m : DynMsg) (st : Nat × Cell) : Prop :=
  ∀ x, f.dyn.storage x = st → f.dyn.hasValue x = f.dyn.hasValue m ∧ sameField same f m x

theorem stored_num {f : JField} {m : DynMsg} {v : BitVec 64} (hr : f.dyn.repeated = false) (hk : f.dyn.kind.isNum = true)
    (hty : ∀ id, f.ty ≠ .msg id) (hm : f.dyn.hasValue m = true) (hv : f.dyn.value m = .num v) :
    Stored same f m (f.dyn.layout.ordinal, .num v) := by
  intro x hx
  have h1 : f.dyn.hasValue x = true := (hasValue_singular hr x).2 (by rw [hx])
  refine ⟨by rw [h1, hm], ?_⟩
  have : f.dyn.value x = f.dyn.value m := by
    rw [hv]
    unfold DynField.value DynField.numValue
    simp [hr, hk, h1, hx, Cell.asNum]
  unfold sameField
  split
  · exact absurd (by assumption) (hty _)
  · exact this

theorem stored_str {f : JField} {m : DynMsg} {v : List Byte} (hr : f.dyn.repeated = false) (hk : f.dyn.kind.isStr = true)
    (hty : ∀ id, f.ty ≠ .msg id) (hm : f.dyn.hasValue m = true) (hv : f.dyn.value m = .str v) :
    Stored same f m (f.dyn.layout.ordinal, .str v) := by
  intro x hx
  have h1 : f.dyn.hasValue x = true := (hasValue_singular hr x).2 (by rw [hx])
  refine ⟨by rw [h1, hm], ?_⟩
  have hn : f.dyn.kind.isNum = false := by
    cases e : f.dyn.kind.isNum with
    | false => rfl
    | true => rw [isStr_of_isNum e] at hk; cases hk
  have : f.dyn.value x = f.dyn.value m := by
    rw [hv]
    unfold DynField.value DynField.strValue
    simp [hr, hk, hn, h1, hx, Cell.asStr]
  unfold sameField
  split
  · exact absurd (by assumption) (hty _)
  · exact this

theorem stored_msg {f : JField} {m s s' : DynMsg} {id : Nat} (hr : f.dyn.repeated = false) (hk : f.dyn.kind.msgType = some id)
    (hty : f.ty = .msg id) (hm : f.dyn.hasValue m = true) (hv : f.dyn.value m = .msg s) (hs : same id s s') :
    Stored same f m (f.dyn.layout.ordinal, .msg s') := by
  intro x hx
  have h1 : f.dyn.hasValue x = true := (hasValue_singular hr x).2 (by rw [hx])
  refine ⟨by rw [h1, hm], ?_⟩
  obtain ⟨hn1, hn2⟩ := msgType_plain hk
  have : f.dyn.value x = .msg s' := by
    unfold DynField.value DynField.msgValue
    simp [hr, hn1, hn2, h1, hx]
  unfold sameField
  rw [hty]
  simp only [hr, Bool.false_eq_true, if_false]
  exact ⟨s, s', hv, this, hs⟩

theorem all2_eq {α : Type} : ∀ {as bs : List α}, All2 (fun a b => b = a) as bs → bs = as
  | [], [], _ => rfl
  | _ :: _, _ :: _, h => by rw [h.1, all2_eq h.2]
  | [], _ :: _, h => h.elim
  | _ :: _, [], h => h.elim

theorem hasValue_nums {f : DynField} (hr : f.repeated = true) {m : DynMsg} {n : Nat} (h : (f.storage m).1 = n) :
    f.hasValue m = decide (0 < n) := by
  simp [DynField.hasValue, slotHasValue, hr, h]

theorem decide_pos_length {α : Type} (l : List α) : decide (0 < l.length) = !l.isEmpty := by
  cases l <;> simp

include L

theorem read_field {f : JField} (htied : f.tied)
    (hmap : ∀ id, f.ty = .msg id → (T id).entry = true → f.dyn.repeated = true)
    (hr : Reads T form same r) (hnull : NullIsValue T form same) {m : DynMsg} {j : JTree}
    (h : fieldForm T G utf8 anyStyle form f m j) (hpresent : f.dyn.repeated = false → f.dyn.hasValue m = true)
    (hord : f.dyn.repeated = false → 0 < f.dyn.layout.ordinal) {m0 : DynMsg} (h0 : f.dyn.storage m0 = (0, .zero))
    {a t rest : List Byte} (ht : Spells j t) (ha : Ws a) (hrest : numChar (look rest) = false) :
    ∃ st, readField T utf8 G r f m0 (a ++ t ++ rest) = .ok (f.dyn.store m0 st, rest) ∧ Stored same f m st := by
  have nums : f.dyn.kind.isNum = true → (∀ id, f.ty ≠ .msg id) →
      (∀ m0 s, readRepeated T utf8 G r f m0 s = (do
        let (xs, s) ← readList G (readNum G false f.ty) 0x5b 0x5d s
        match f.dyn.elements m0 with
        | .nums old => .ok (f.dyn.store m0 (old.length + xs.length, .nums (old ++ xs.map some)), s)
        | _ => .ub)) →
      (∀ m0 s, readSingular T utf8 G r f m0 s = (do
        let (v, s) ← readNum G false f.ty s
        .ok (f.dyn.setNum v m0, s))) →
      (if f.dyn.repeated then
        ∃ vs js, f.dyn.value m = .nums (vs.map some) ∧ All2 (numForm G anyStyle f.ty) vs js ∧ j = .arr js
      else ∃ v, f.dyn.value m = .num v ∧ numForm G anyStyle f.ty v j) →
      ∃ st, readField T utf8 G r f m0 (a ++ t ++ rest) = .ok (f.dyn.store m0 st, rest) ∧ Stored same f m st := by
    intro hk hty erep esing h
    unfold readField
    cases hrep : f.dyn.repeated with
    | true =>
      simp only [hrep, if_true] at h ⊢
      obtain ⟨vs, js, hv, hall, rfl⟩ := h
      rw [readNull_other (by simp) ht ha]
      cases ht with
      | arr hitems =>
        obtain ⟨ys, h1, h2⟩ := readList_seq (G := G) (R := numForm G anyStyle f.ty) (Q := fun a b => b = a)
          (one := readNum G false f.ty) (opening := 0x5b) (closing := 0x5d) rfl (.inl rfl)
          (fun _ _ h => passes_spells L (.inl rfl) h)
          (fun _ _ h => by obtain ⟨c, u, e, hc⟩ := spells_head h; exact ⟨c, u, e, begins_starter hc⟩)
          (fun z x a t rest hz hx ha hn => ⟨z, readNum_spells L hz hx ha hn, rfl⟩) (seq_of_items hitems) hall ha rest
        rw [all2_eq h2] at h1
        have he : f.dyn.elements m0 = .nums [] := by
          unfold DynField.elements
          simp [h0, hk]
        refine ⟨(vs.length, .nums (vs.map some)), ?_, ?_⟩
        · simp only [res_bind_ok, erep, h1, he]
          simp
        · intro x hx
          have hx' : f.dyn.storage x = ((vs.map some).length, .nums (vs.map some)) := by rw [hx]; simp
          obtain ⟨v1, v2⟩ := value_nums hrep hk hx'
          obtain ⟨e1, _⟩ := elements_nums hrep hv
          refine ⟨by rw [v2, hasValue_nums hrep e1, decide_pos_length], ?_⟩
          unfold sameField
          split
          · exact absurd (by assumption) (hty _)
          · rw [v1, hv]
    | false =>
      simp only [hrep, Bool.false_eq_true, if_false] at h ⊢
      obtain ⟨v, hv, hform⟩ := h
      rw [readNull_other (numForm_not_null rfl hform) ht ha]
      refine ⟨_, ?_, stored_num hrep hk hty (hpresent hrep) hv⟩
      simp only [res_bind_ok, esing, readNum_spells L hform ht ha hrest]
      rfl
  have strs : f.dyn.kind.isStr = true → (∀ id, f.ty ≠ .msg id) →
      (∀ m0 s, readRepeated T utf8 G r f m0 s = (do
        let (xs, s) ← readList G (readText utf8 G f.ty) 0x5b 0x5d s
        match f.dyn.elements m0 with
        | .strs old => .ok (f.dyn.store m0 (old.length + xs.length, .strs (old ++ xs)), s)
        | _ => .ub)) →
      (∀ m0 s, readSingular T utf8 G r f m0 s = (do
        let (v, s) ← readText utf8 G f.ty s
        .ok (f.dyn.setStr v m0, s))) →
      (if f.dyn.repeated then ∃ vs js, f.dyn.value m = .strs vs ∧ All2 (strForm utf8 f.ty) vs js ∧ j = .arr js
      else ∃ v, f.dyn.value m = .str v ∧ strForm utf8 f.ty v j) →
      ∃ st, readField T utf8 G r f m0 (a ++ t ++ rest) = .ok (f.dyn.store m0 st, rest) ∧ Stored same f m st := by
    intro hk hty erep esing h
    have hn : f.dyn.kind.isNum = false := by
      cases e : f.dyn.kind.isNum with
      | false => rfl
      | true => rw [isStr_of_isNum e] at hk; cases hk
    unfold readField
    cases hrep : f.dyn.repeated with
    | true =>
      simp only [hrep, if_true] at h ⊢
      obtain ⟨vs, js, hv, hall, rfl⟩ := h
      rw [readNull_other (by simp) ht ha]
      cases ht with
      | arr hitems =>
        obtain ⟨ys, h1, h2⟩ := readList_seq (G := G) (R := strForm utf8 f.ty) (Q := fun a b => b = a)
          (one := readText utf8 G f.ty) (opening := 0x5b) (closing := 0x5d) rfl (.inl rfl)
          (fun _ _ h => passes_spells L (.inl rfl) h)
          (fun _ _ h => by obtain ⟨c, u, e, hc⟩ := spells_head h; exact ⟨c, u, e, begins_starter hc⟩)
          (fun z x a t rest hz hx ha hn => ⟨z, readText_spells L hz hx ha, rfl⟩) (seq_of_items hitems) hall ha rest
        rw [all2_eq h2] at h1
        have he : f.dyn.elements m0 = .strs [] := by
          unfold DynField.elements
          simp [h0, hk, hn]
        refine ⟨(vs.length, .strs vs), ?_, ?_⟩
        · simp only [res_bind_ok, erep, h1, he]
          simp
        · intro x hx
          obtain ⟨v1, v2⟩ := value_strs hrep hk hx
          obtain ⟨e1, _⟩ := elements_strs hrep hv
          refine ⟨by rw [v2, hasValue_nums hrep e1, decide_pos_length], ?_⟩
          unfold sameField
          split
          · exact absurd (by assumption) (hty _)
          · rw [v1, hv]
    | false =>
      simp only [hrep, Bool.false_eq_true, if_false] at h ⊢
      obtain ⟨v, hv, hform⟩ := h
      rw [readNull_other (strForm_not_null hform) ht ha]
      refine ⟨_, ?_, stored_str hrep hk hty (hpresent hrep) hv⟩
      simp only [res_bind_ok, esing, readText_spells L hform ht ha]
      rfl
  unfold JField.tied at htied
  unfold fieldForm at h
  cases e : f.ty with
  | msg id =>
    rw [e] at h htied
    simp only at h htied
    obtain ⟨hn1, hn2⟩ := msgType_plain htied
    cases hrep : f.dyn.repeated with
    | true =>
      simp only [hrep, if_true] at h
      obtain ⟨ss, hv, h⟩ := h
      have he : f.dyn.elements m0 = .msgs [] := by
        unfold DynField.elements
        simp [h0, hn1, hn2]
      have fin : ∀ {ys : List DynMsg}, All2 (same id) ss ys → Stored same f m (ys.length, .msgs ys) := by
        intro ys hall x hx
        obtain ⟨v1, v2⟩ := value_msgs hrep htied hx
        obtain ⟨e1, _⟩ := elements_msgs hrep hv
        refine ⟨by rw [v2, hasValue_nums hrep e1, all2_length hall, decide_pos_length], ?_⟩
        unfold sameField
        rw [e]
        simp only [hrep, if_true]
        exact ⟨ss, ys, hv, v1, hall⟩
      unfold readField
      cases hent : (T id).entry with
      | true =>
        simp only [hent, if_true] at h
        obtain ⟨ms, hall, rfl⟩ := h
        rw [readNull_other (by simp) ht ha]
        cases ht with
        | obj hmem =>
          obtain ⟨ys, h1, h2⟩ := readList_seq (G := G) (R := fun s p => form id s (.obj [p])) (Q := same id)
            (one := r id (T id).dyn.empty) (opening := 0x7b) (closing := 0x7d) rfl (.inr rfl)
            (fun _ _ h => passes_member L (.inr rfl) h)
            (fun _ _ h => by obtain ⟨u, e⟩ := member_head h; exact ⟨_, u, e, rfl⟩)
            (fun z x a t rest hz hx ha hn => hr id z _ a t rest hz
              (by unfold Written; rw [if_pos hent]; exact ⟨x, rfl, hx⟩) ha hn) (seq_of_members hmem) hall ha rest
          refine ⟨(ys.length, .msgs ys), ?_, fin h2⟩
          simp only [res_bind_ok, hrep, if_true]
          unfold readRepeated
          rw [e]
          simp only [hent, if_true, h1, res_bind_ok, he]
          simp
      | false =>
        simp only [hent, Bool.false_eq_true, if_false] at h
        obtain ⟨js, hall, rfl⟩ := h
        rw [readNull_other (by simp) ht ha]
        cases ht with
        | arr hitems =>
          obtain ⟨ys, h1, h2⟩ := readList_seq (G := G) (R := form id) (Q := same id)
            (one := r id (T id).dyn.empty) (opening := 0x5b) (closing := 0x5d) rfl (.inl rfl)
            (fun _ _ h => passes_spells L (.inl rfl) h)
            (fun _ _ h => by obtain ⟨c, u, e, hc⟩ := spells_head h; exact ⟨c, u, e, begins_starter hc⟩)
            (fun z x a t rest hz hx ha hn => hr id z _ a t rest hz
              (by unfold Written; rw [if_neg (by simp [hent])]; exact hx) ha hn) (seq_of_items hitems) hall ha rest
          refine ⟨(ys.length, .msgs ys), ?_, fin h2⟩
          simp only [res_bind_ok, hrep, if_true]
          unfold readRepeated
          rw [e]
          simp only [hent, Bool.false_eq_true, if_false, h1, res_bind_ok, he]
          simp
    | false =>
      simp only [hrep, Bool.false_eq_true, if_false] at h
      obtain ⟨s, hv, hform⟩ := h
      have hent : (T id).entry = false := by
        cases h' : (T id).entry with
        | false => rfl
        | true => rw [hmap id e h'] at hrep; cases hrep
      by_cases hj : j = .null
      · subst hj
        obtain ⟨hwk, g, hg, hsame⟩ := hnull id s hform
        cases ht
        refine ⟨_, ?_, stored_msg hrep htied e (hpresent hrep) hv hsame⟩
        unfold readField
        rw [readNull_null ha]
        simp only [res_bind_ok]
        unfold setNull
        rw [e]
        simp only [hwk, if_true, hrep, Bool.false_eq_true, if_false, hg, res_bind_ok]
      · obtain ⟨s', h1, h2⟩ := hr id s j a t rest hform (by unfold Written; rw [if_neg (by simp [hent])]; exact ht) ha hrest
        refine ⟨_, ?_, stored_msg hrep htied e (hpresent hrep) hv h2⟩
        unfold readField
        rw [readNull_other hj ht ha]
        simp only [res_bind_ok, hrep, Bool.false_eq_true, if_false]
        unfold readSingular
        rw [e]
        have htgt : f.dyn.target T.dyn id m0 = .ok (T id).dyn.empty := by
          unfold DynField.target
          have : f.dyn.hasValue m0 = false := by
            cases h' : f.dyn.hasValue m0 with
            | false => rfl
            | true =>
              have := (hasValue_singular hrep m0).1 h'
              have := hord hrep
              simp_all
          rw [if_neg (by simp [this])]
          rfl
        simp only [htgt, res_bind_ok, h1]
  | string =>
    rw [e] at h htied
    exact strs htied (by simp [e]) (by intros; simp only [readRepeated, e]; rfl) (by intros; simp only [readSingular, e])
      (by rw [e]; exact h)
  | bytes =>
    rw [e] at h htied
    exact strs htied (by simp [e]) (by intros; simp only [readRepeated, e]; rfl) (by intros; simp only [readSingular, e])
      (by rw [e]; exact h)
  | int _ _ =>
    rw [e] at h htied
    exact nums htied (by simp [e]) (by intros; simp only [readRepeated, e]; rfl) (by intros; simp only [readSingular, e])
      (by rw [e]; exact h)
  | float _ =>
    rw [e] at h htied
    exact nums htied (by simp [e]) (by intros; simp only [readRepeated, e]; rfl) (by intros; simp only [readSingular, e])
      (by rw [e]; exact h)
  | bool =>
    rw [e] at h htied
    exact nums htied (by simp [e]) (by intros; simp only [readRepeated, e]; rfl) (by intros; simp only [readSingular, e])
      (by rw [e]; exact h)
  | enum _ =>
    rw [e] at h htied
    exact nums htied (by simp [e]) (by intros; simp only [readRepeated, e]; rfl) (by intros; simp only [readSingular, e])
      (by rw [e]; exact h)

end

end HppProto.Json
