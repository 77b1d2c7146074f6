import Verif.Proofs.JsonRead

/-! # Reading JSON: all message types, and the round trip -/

namespace HppProto.Json
open HppProto HppProto.Spec

section
variable {T : JTypes} {G : Glaze} {utf8 : List Byte → Bool} (L : G.Lawful) (hT : ∀ id, (T id).Ok T)

include hT in
theorem null_is_body {form : Nat → DynMsg → JTree → Prop} (hsh : ShapedForm T G utf8 anyStyle form)
    (same : Nat → DynMsg → DynMsg → Prop) :
    NullIsValue T (bodyForm T G utf8 anyStyle form) (bodySame T same) := by
    intro id s h
    have hD := hT id
    obtain ⟨hlen, h⟩ := h
    cases he : (T id).entry with
    | true =>
      simp only [he, if_true] at h
      obtain ⟨_, _, _, _, _, _, _, _, _, h⟩ := h
      cases h
    | false =>
      simp only [he, Bool.false_eq_true, if_false] at h
      cases hwk : (T id).wk with
      | none =>
        rw [hwk] at h
        obtain ⟨_, _, _, _, _, h⟩ := h
        cases h
      | any => rw [hwk] at h; exact h.elim
      | timestamp =>
        rw [hwk] at h
        obtain ⟨_, _, _, _, _, _, _, _, _, h⟩ := h
        cases h
      | duration =>
        rw [hwk] at h
        obtain ⟨_, _, _, _, _, _, _, _, _, h⟩ := h
        cases h
      | fieldMask =>
        rw [hwk] at h
        obtain ⟨_, _, _, _, _, _, h⟩ := h
        cases h
      | struct =>
        rw [hwk] at h
        obtain ⟨f, hf, h⟩ := h
        obtain ⟨f', _, hf', hr, _⟩ := hD.structs hwk
        rw [hf] at hf'
        cases hf'
        exact absurd rfl (not_null_list hr h)
      | listValue =>
        rw [hwk] at h
        obtain ⟨f, hf, h⟩ := h
        obtain ⟨f', _, hf', hr, _⟩ := hD.lists hwk
        rw [hf] at hf'
        cases hf'
        exact absurd rfl (not_null_list hr h)
      | wrapper =>
        rw [hwk] at h
        obtain ⟨f, hf, _, h⟩ := h
        obtain ⟨f', hf', hr, hne, _⟩ := hD.wrappers hwk
        rw [hf] at hf'
        cases hf'
        unfold fieldForm at h
        simp only [hr, Bool.false_eq_true, if_false] at h
        split at h
        · exact absurd (by assumption) (hne _)
        · obtain ⟨_, _, h⟩ := h
          exact absurd rfl (strForm_not_null h)
        · obtain ⟨_, _, h⟩ := h
          exact absurd rfl (strForm_not_null h)
        · obtain ⟨_, _, h⟩ := h
          exact absurd rfl (numForm_not_null rfl h)
      | value =>
        rw [hwk] at h
        obtain ⟨f, hf, hv, h⟩ := h
        refine ⟨rfl, ?_⟩
        obtain ⟨nul, num, str, bool, struct, list, E, sid, lid, hfs, t1, t2, t3, t4, t5, t6, s1, s2, t7, l1, l2, ho⟩ :=
          hD.values hwk
        have hr : ∀ g ∈ (T id).fields, g.dyn.repeated = false := fun g hg =>
          (hD.dyn.member_explicit (dyn_mem hD hg) (ho g hg)).1
        have hnul : f = nul := by
          rw [hfs] at hf
          simp only [List.mem_cons, List.not_mem_nil, or_false] at hf
          rcases h with ⟨E', hE', _⟩ | h
          · rcases hf with rfl | rfl | rfl | rfl | rfl | rfl
            · rfl
            · rw [t3] at hE'; cases hE'
            · rw [t4] at hE'; cases hE'
            · rw [t5] at hE'; cases hE'
            · rw [t6] at hE'; cases hE'
            · rw [t7] at hE'; cases hE'
          · have hrf := hr f (by rw [hfs]; simpa using hf)
            unfold fieldForm at h
            simp only [hrf, Bool.false_eq_true, if_false] at h
            rcases hf with rfl | rfl | rfl | rfl | rfl | rfl
            · rfl
            · rw [t3] at h
              obtain ⟨_, _, h⟩ := h
              exact absurd rfl (numForm_not_null rfl h)
            · rw [t4] at h
              obtain ⟨_, _, h⟩ := h
              exact absurd rfl (strForm_not_null h)
            · rw [t5] at h
              obtain ⟨_, _, h⟩ := h
              exact absurd rfl (numForm_not_null rfl h)
            · rw [t6] at h
              obtain ⟨s', _, h⟩ := h
              obtain ⟨form', _, h⟩ := hsh sid s' _ (.inr (.inl s1)) h
              · simp only [s2, s1, Bool.false_eq_true, if_false] at h
                obtain ⟨g, hg, h⟩ := h
                obtain ⟨g', _, hg', hrg, _⟩ := (hT sid).structs s1
                rw [hg] at hg'
                cases hg'
                exact absurd rfl (not_null_list hrg h)
            · rw [t7] at h
              obtain ⟨s', _, h⟩ := h
              obtain ⟨form', _, h⟩ := hsh lid s' _ (.inr (.inr l1)) h
              · simp only [l2, l1, Bool.false_eq_true, if_false] at h
                obtain ⟨g, hg, h⟩ := h
                obtain ⟨g', _, hg', hrg, _⟩ := (hT lid).lists l1
                rw [hg] at hg'
                cases hg'
                exact absurd rfl (not_null_list hrg h)
        subst hnul
        refine ⟨f, by rw [hfs]; rfl, ?_⟩
        have hval : f.dyn.value s = .num 0 := by
          rcases h with ⟨_, _, _, h, _⟩ | h
          · exact h
          · unfold fieldForm at h
            simp only [hr f hf, t1, Bool.false_eq_true, if_false] at h
            obtain ⟨_, _, h⟩ := h
            rw [show numForm G anyStyle (.enum E) _ _ = (E.isNull = false ∧ _) from rfl, t2] at h
            cases h.1
        have htied := hD.tied f hf
        unfold JField.tied at htied
        rw [t1] at htied
        have hst : Stored same f s (f.dyn.layout.ordinal, .num 0) :=
          stored_num (hr f hf) htied (by simp [t1]) hv hval
        have hP := partly_store hD (partly_empty (D := T id) (m := s) (same := same)) hf hv (by simp) hst
        refine ⟨hP.length, ?_⟩
        rw [if_neg (by simp [hwk])]
        refine partly_all hD hP (fun g hg hgv => ?_)
        have := present_slot hD hg hf hgv hv (hD.dyn.slot_of_sameOneof (dyn_mem hD hg) (dyn_mem hD hf)
          ⟨0, ho g hg, ho f hf⟩)
        simp [this]

include hT in
theorem null_is_value (d : Nat) : NullIsValue T (FormAt T G utf8 anyStyle d) (SameAt T d) := by
  intro id s h
  cases d with
  | zero => exact h.elim
  | succ d => exact null_is_body hT (formAt_shaped anyStyle d) (SameAt T d) id s h

include L

theorem readKey {k : JField} {m : DynMsg} {s : JStr} (hform : keyForm utf8 k m s) {a t rest : List Byte}
    (ht : SpellsStr s t) (ha : Ws a) :
    (∃ bs, k.ty = .string ∧ k.dyn.value m = .str bs ∧ readText utf8 G .string (a ++ t ++ rest) = .ok (bs, rest)) ∨
    (∃ v, k.ty ≠ .string ∧ k.dyn.value m = .num v ∧ readNum G true k.ty (a ++ t ++ rest) = .ok (v, rest)) := by
  obtain ⟨u, hu⟩ := spellsStr_head ht
  have hskip : skipWs (a ++ t ++ rest) = t ++ rest := by
    rw [hu]
    simpa using skipWs_starts ha (show isWs 0x22 = false from rfl) (u ++ rest)
  unfold keyForm at hform
  cases e : k.ty with
  | string =>
    rw [e] at hform
    obtain ⟨bs, hb, hutf, rfl⟩ := hform
    refine .inl ⟨bs, rfl, hb, ?_⟩
    exact readText_spells L (ty := .string) (bs := bs) (j := .str ⟨bs, false⟩) ⟨hutf, rfl⟩ (.str ht) ha
  | int signed wide =>
    rw [e] at hform
    obtain ⟨v, n, hb, hn, rfl⟩ := hform
    obtain ⟨rfl, h1, h2⟩ := intForm_iff.mp hn
    refine .inr ⟨v, by simp, hb, ?_⟩
    obtain ⟨b1, b2⟩ := intRange_bounds signed wide
    obtain ⟨_, rfl⟩ := ht.2 rfl
    unfold readNum
    simp only [hskip, Bool.true_or]
    have := inQuotes_int L b1 b2 h1 h2 rest
    unfold quoted at this
    simp only [this, res_bind_ok, ofInt_intOf]
  | bool =>
    rw [e] at hform
    obtain ⟨v, hb, h⟩ := hform
    refine .inr ⟨v, by simp, hb, ?_⟩
    unfold readNum
    simp only [hskip]
    rcases h with ⟨rfl, rfl⟩ | ⟨rfl, rfl⟩
    · obtain ⟨_, rfl⟩ := ht.2 rfl
      unfold inQuotes
      have := readBool_false (0x22 :: rest)
      simp only [if_true, List.cons_append, List.nil_append, expect_cons, res_bind_ok] at this ⊢
      simp only [this, res_bind_ok, expect_cons]
    · obtain ⟨_, rfl⟩ := ht.2 rfl
      unfold inQuotes
      have := readBool_true (0x22 :: rest)
      simp only [if_true, List.cons_append, List.nil_append, expect_cons, res_bind_ok] at this ⊢
      simp only [this, res_bind_ok, expect_cons]
  | float _ => rw [e] at hform; exact hform.elim
  | enum _ => rw [e] at hform; exact hform.elim
  | bytes => rw [e] at hform; exact hform.elim
  | msg _ => rw [e] at hform; exact hform.elim

include hT

theorem read_entry {form : Nat → DynMsg → JTree → Prop} {same : Nat → DynMsg → DynMsg → Prop} {r : JReader}
    (hnull : NullIsValue T form same) {id : Nat} {m : DynMsg} {p : JStr × JTree}
    (ih : Reads T form same r) (he : (T id).entry = true)
    (h : ∃ k v s x, (T id).fields = [k, v] ∧ k.dyn.hasValue m = true ∧ v.dyn.hasValue m = true ∧
      keyForm utf8 k m s ∧ fieldForm T G utf8 anyStyle form v m x ∧ JTree.obj [p] = .obj [(s, x)])
    {a t rest : List Byte} (ht : SpellsMember p t) (ha : Ws a) (hrest : numChar (look rest) = false) :
    ∃ m', readEntry T utf8 G r (T id) (T id).dyn.empty (a ++ t ++ rest) = .ok (m', rest) ∧
      m'.length = (T id).slots ∧
      ∀ f ∈ (T id).fields, f.dyn.hasValue m' = f.dyn.hasValue m ∧ (f.dyn.hasValue m = true → sameField same f m m') := by
  obtain ⟨k, v, s, x, hf, hk, hv, hkey, hx, hp⟩ := h
  cases hp
  have hD := hT id
  obtain ⟨k', v', hf', hkr, hvr, hko, hvo, hkt⟩ := hD.entries he
  rw [hf] at hf'
  obtain ⟨rfl, rfl⟩ : k = k' ∧ v = v' := by simpa using hf'
  have hkm : k ∈ (T id).fields := by rw [hf]; simp
  have hvm : v ∈ (T id).fields := by rw [hf]; simp
  have hkv : v ≠ k := by
    intro e
    have := fields_nodup hD
    rw [hf, e] at this
    simp at this
  have htied := hD.tied k hkm
  unfold JField.tied at htied
  cases ht with
  | @mk _ _ sk a1 b1 tx hs ha1 hb1 htx =>
    have fin : ∀ st, Stored same k m st →
        ∃ m', readField T utf8 G r v (k.dyn.store (T id).dyn.empty st) (tx ++ rest) = .ok (m', rest) ∧
          Partly same (T id) m [k, v] m' := by
      intro st hst
      have h1 := partly_store hD (partly_empty (D := T id) (m := m) (same := same)) hkm hk (by simp) hst
      obtain ⟨m', h2, h3⟩ := read_present hD L ih hnull h1 hvm (by simpa using hkv) hv hx htx ws_nil hrest
      exact ⟨m', by simpa using h2, by simpa using h3⟩
    have done : ∀ {m'}, Partly same (T id) m [k, v] m' →
        m'.length = (T id).slots ∧
          ∀ f ∈ (T id).fields, f.dyn.hasValue m' = f.dyn.hasValue m ∧
            (f.dyn.hasValue m = true → sameField same f m m') := by
      intro m' h
      exact ⟨h.length, partly_all hD h (fun f hf' _ => by rw [hf] at hf'; exact hf')⟩
    have hcol : readColon (a1 ++ 0x3a :: b1 ++ tx ++ rest) = .ok (tx ++ rest) := by
      unfold readColon
      have := skipWs_starts ha1 (show isWs 0x3a = false from rfl) (b1 ++ tx ++ rest)
      simp only [List.append_assoc, List.cons_append] at this ⊢
      rw [this]
      simp only [expect_cons, res_bind_ok]
      rw [← List.append_assoc, skipWs_spells hb1 htx]
    have value : ∀ {m0 m'}, readField T utf8 G r v m0 (tx ++ rest) = .ok (m', rest) →
        (do
          match (← readNull (tx ++ rest)) with
          | some s => do
            let m ← setNull T v m0
            if v.isValue T then .ok (m, s) else .err .badMessage
          | none => readSingular T utf8 G r v m0 (tx ++ rest)) = Res.ok (m', rest) := by
      intro m0 m' h
      unfold readField at h
      simp only [hvr, Bool.false_eq_true, if_false] at h
      by_cases hx0 : x = .null
      · subst hx0
        cases htx
        have hn := readNull_null (rest := rest) ws_nil
        rw [List.nil_append] at hn
        rw [hn] at h ⊢
        simp only [res_bind_ok] at h ⊢
        have hval : v.isValue T = true := by
          unfold fieldForm at hx
          simp only [hvr, Bool.false_eq_true, if_false] at hx
          unfold JField.isValue
          split at hx
          · rename_i vid e
            obtain ⟨sub, _, hsub⟩ := hx
            simp [e, (hnull vid sub hsub).1]
          · obtain ⟨_, _, h⟩ := hx
            exact absurd rfl (strForm_not_null h)
          · obtain ⟨_, _, h⟩ := hx
            exact absurd rfl (strForm_not_null h)
          · obtain ⟨_, _, h⟩ := hx
            exact absurd rfl (numForm_not_null rfl h)
        simp only [hval, if_true]
        exact h
      · have hn := readNull_other (rest := rest) hx0 htx ws_nil
        rw [List.nil_append] at hn
        rw [hn] at h ⊢
        exact h
    have etext : a ++ (sk ++ a1 ++ 0x3a :: b1 ++ tx) ++ rest = a ++ sk ++ (a1 ++ 0x3a :: b1 ++ tx ++ rest) := by simp
    rw [etext]
    have hdone := fun {m'} => @done m'
    rw [hf] at hdone ⊢
    unfold readEntry
    rw [hf]
    simp only
    rcases readKey L hkey (rest := a1 ++ 0x3a :: b1 ++ tx ++ rest) hs ha with ⟨bs, e, hb, hread⟩ | ⟨n, e, hb, hread⟩
    · rw [e] at htied ⊢
      obtain ⟨m', h1, h2⟩ := fin _ (stored_str hkr htied (by simp [e]) hk hb)
      refine ⟨m', ?_, hdone h2⟩
      simp only [hread, res_bind_ok, hcol]
      exact value h1
    · have hty : ∀ id, k.ty ≠ .msg id := by
        intro id e'
        rw [e'] at hkt; cases hkt
      have htied' : k.dyn.kind.isNum = true := by
        cases e' : k.ty with
        | string => exact absurd e' e
        | int _ _ => rw [e'] at htied; exact htied
        | bool => rw [e'] at htied; exact htied
        | float _ => rw [e'] at hkt; cases hkt
        | enum _ => rw [e'] at hkt; cases hkt
        | bytes => rw [e'] at hkt; cases hkt
        | msg _ => rw [e'] at hkt; cases hkt
      obtain ⟨m', h1, h2⟩ := fin _ (stored_num hkr htied' hty hk hb)
      refine ⟨m', ?_, hdone h2⟩
      cases e' : k.ty with
      | string => exact absurd e' e
      | int _ _ =>
        rw [e'] at hread
        simp only [hread, res_bind_ok, hcol]
        exact value h1
      | bool =>
        rw [e'] at hread
        simp only [hread, res_bind_ok, hcol]
        exact value h1
      | float _ => rw [e'] at hkt; cases hkt
      | enum _ => rw [e'] at hkt; cases hkt
      | bytes => rw [e'] at hkt; cases hkt
      | msg _ => rw [e'] at hkt; cases hkt

omit L hT in
theorem two_values {D : JDesc} (hD : D.Ok T) {a b : JField} (hf : D.fields = [a, b]) (ta : a.ty = .int true true)
    (tb : b.ty = .int true false) (ra : a.dyn.repeated = false) (rb : b.dyn.repeated = false)
    (oa : a.dyn.oneof = none) (x y : BitVec 64) :
    let m' := b.dyn.setNum y (a.dyn.setNum x D.dyn.empty)
    m'.length = D.slots ∧ a.dyn.value m' = .num x ∧ b.dyn.value m' = .num y := by
  have ha : a ∈ D.fields := by rw [hf]; simp
  have hb : b ∈ D.fields := by rw [hf]; simp
  have hne : b.dyn.layout.slot ≠ a.dyn.layout.slot := by
    intro e
    rcases hD.dyn.same_slot (dyn_mem hD hb) (dyn_mem hD ha) e with h | ⟨⟨o, _, h⟩, _⟩
    · have := field_eq hD hb ha h
      have hn := fields_nodup hD
      rw [hf, this] at hn
      simp at hn
    · rw [oa] at h; cases h
  have ka := hD.tied a ha
  have kb := hD.tied b hb
  unfold JField.tied at ka kb
  rw [ta] at ka
  rw [tb] at kb
  have hl0 : D.dyn.empty.length = D.slots := by simp [DynDesc.empty, JDesc.dyn]
  refine ⟨by simp [DynField.setNum, hl0], ?_, ?_⟩
  · have hst : a.dyn.storage (b.dyn.setNum y (a.dyn.setNum x D.dyn.empty)) = (a.dyn.layout.ordinal, .num x) := by
      unfold DynField.setNum
      rw [storage_store_other hne, storage_store_self (by rw [hl0]; exact hD.dyn.slot_lt (dyn_mem hD ha))]
    have hv := (hasValue_singular ra _).2 (by rw [hst])
    unfold DynField.value DynField.numValue
    simp [ra, ka, hv, hst, Cell.asNum]
  · have hst : b.dyn.storage (b.dyn.setNum y (a.dyn.setNum x D.dyn.empty)) = (b.dyn.layout.ordinal, .num y) := by
      unfold DynField.setNum
      rw [storage_store_self (by rw [store_length, hl0]; exact hD.dyn.slot_lt (dyn_mem hD hb))]
    have hv := (hasValue_singular rb _).2 (by rw [hst])
    unfold DynField.value DynField.numValue
    simp [rb, kb, hv, hst, Cell.asNum]

theorem read_value {form : Nat → DynMsg → JTree → Prop} {same : Nat → DynMsg → DynMsg → Prop} {r : JReader}
    (hnull : NullIsValue T form same) (hsh : ShapedForm T G utf8 anyStyle form) {id : Nat} {m : DynMsg} {j : JTree}
    (ih : Reads T form same r) (hwk : (T id).wk = .value)
    {f : JField} (hf : f ∈ (T id).fields) (hv : f.dyn.hasValue m = true)
    (h : (∃ E, f.ty = .enum E ∧ E.isNull = true ∧ f.dyn.value m = .num 0 ∧ j = .null) ∨
      fieldForm T G utf8 anyStyle form f m j)
    {a t rest : List Byte} (ht : Spells j t) (ha : Ws a) (hrest : numChar (look rest) = false) :
    ∃ m', readAlternative T utf8 G r (T id) (T id).dyn.empty (a ++ t ++ rest) = .ok (m', rest) ∧
      m'.length = (T id).slots ∧
      ∀ f ∈ (T id).fields, f.dyn.hasValue m' = f.dyn.hasValue m ∧ (f.dyn.hasValue m = true → sameField same f m m') := by
  have hD := hT id
  obtain ⟨nul, num, str, bool, struct, list, E, sid, lid, hfs, t1, t2, t3, t4, t5, t6, s1, s2, t7, l1, l2, ho⟩ := hD.values hwk
  have hr : ∀ g ∈ (T id).fields, g.dyn.repeated = false := fun g hg =>
    (hD.dyn.member_explicit (dyn_mem hD hg) (ho g hg)).1
  have done : ∀ {m'}, Partly same (T id) m [f] m' →
      m'.length = (T id).slots ∧
        ∀ f ∈ (T id).fields, f.dyn.hasValue m' = f.dyn.hasValue m ∧
          (f.dyn.hasValue m = true → sameField same f m m') := by
    intro m' h
    refine ⟨h.length, partly_all hD h (fun g hg hgv => ?_)⟩
    have := present_slot hD hg hf hgv hv (hD.dyn.slot_of_sameOneof (dyn_mem hD hg) (dyn_mem hD hf)
      ⟨0, ho g hg, ho f hf⟩)
    simp [this]
  have dispatch : fieldForm T G utf8 anyStyle form f m j →
      ∃ m', readField T utf8 G r f (T id).dyn.empty (t ++ rest) = .ok (m', rest) ∧
        Partly same (T id) m [f] m' := by
    intro h
    obtain ⟨m', h1, h2⟩ := read_present hD L ih hnull (partly_empty (D := T id) (m := m)) hf (by simp) hv h ht ws_nil hrest
    exact ⟨m', by simpa using h1, by simpa using h2⟩
  unfold readAlternative
  simp only [skipWs_spells ha ht]
  have hrf := hr f hf
  have hf' := hf
  rw [hfs] at hf'
  simp only [List.mem_cons, List.not_mem_nil, or_false] at hf'
  rcases h with ⟨E', hE', _, hval, rfl⟩ | h
  · have : f = nul := by
      rcases hf' with rfl | rfl | rfl | rfl | rfl | rfl
      · rfl
      · rw [t3] at hE'; cases hE'
      · rw [t4] at hE'; cases hE'
      · rw [t5] at hE'; cases hE'
      · rw [t6] at hE'; cases hE'
      · rw [t7] at hE'; cases hE'
    subst this
    cases ht
    have htied := hD.tied f hf
    unfold JField.tied at htied
    rw [t1] at htied
    have hP := partly_store hD (partly_empty (D := T id) (m := m) (same := same)) hf hv (by simp)
      (stored_num hrf htied (by simp [t1]) hv hval)
    refine ⟨_, ?_, done (by simpa using hP)⟩
    have h1 : look (b!"null" ++ rest) = 0x6e := rfl
    have h2 : step (b!"null" ++ rest) = .ok (b!"ull" ++ rest) := rfl
    rw [if_pos h1, h2]
    simp only [res_bind_ok, expectText_append, hfs, List.getElem?_cons_zero]
    rfl
  · obtain ⟨m', h1, h2⟩ := dispatch h
    refine ⟨m', ?_, done h2⟩
    obtain ⟨c, u, rfl, hc⟩ := spells_head ht
    have hlook : look (c :: u ++ rest) = c := rfl
    simp only [hlook]
    unfold fieldForm at h
    simp only [hrf, Bool.false_eq_true, if_false] at h
    rcases hf' with rfl | rfl | rfl | rfl | rfl | rfl
    · rw [t1] at h
      obtain ⟨_, _, h⟩ := h
      rw [show numForm G anyStyle (.enum E) _ _ = (E.isNull = false ∧ _) from rfl, t2] at h
      cases h.1
    · rw [t3] at h
      obtain ⟨_, _, _, rfl⟩ := h
      obtain ⟨_, c1, c2, c3, c4, c5, c6⟩ := digit_starter hc
      rw [if_neg c1, if_neg (by rintro (e | e); exact c2 e; exact c3 e), if_neg c4, if_neg c5, if_neg c6, hfs]
      exact h1
    · rw [t4] at h
      obtain ⟨_, _, _, rfl⟩ := h
      cases hc
      rw [if_neg (by decide), if_neg (by decide), if_pos rfl, hfs]
      exact h1
    · rw [t5] at h
      obtain ⟨_, _, h⟩ := h
      rcases h with ⟨_, rfl⟩ | ⟨_, rfl⟩
      · cases hc
        rw [if_neg (by decide), if_pos (by decide), hfs]
        exact h1
      · cases hc
        rw [if_neg (by decide), if_pos (by decide), hfs]
        exact h1
    · rw [t6] at h
      obtain ⟨s', _, h⟩ := h
      have hj : ∃ ms, j = .obj ms := by
        obtain ⟨form', _, h⟩ := hsh sid s' _ (.inr (.inl s1)) h
        · simp only [s2, s1, Bool.false_eq_true, if_false] at h
          obtain ⟨g, hg, h⟩ := h
          obtain ⟨g', eid, hg', hrg, te, ee⟩ := (hT sid).structs s1
          rw [hg] at hg'
          cases hg'
          unfold fieldForm at h
          simp only [hrg, te, ee, if_true] at h
          obtain ⟨_, _, ms, _, rfl⟩ := h
          exact ⟨ms, rfl⟩
      obtain ⟨ms, rfl⟩ := hj
      cases hc
      rw [if_neg (by decide), if_neg (by decide), if_neg (by decide), if_neg (by decide), if_pos rfl, hfs]
      exact h1
    · rw [t7] at h
      obtain ⟨s', _, h⟩ := h
      have hj : ∃ ms, j = .arr ms := by
        obtain ⟨form', _, h⟩ := hsh lid s' _ (.inr (.inr l1)) h
        · simp only [l2, l1, Bool.false_eq_true, if_false] at h
          obtain ⟨g, hg, h⟩ := h
          obtain ⟨g', eid, hg', hrg, te, ee, _⟩ := (hT lid).lists l1
          rw [hg] at hg'
          cases hg'
          unfold fieldForm at h
          simp only [hrg, te, ee, if_true, Bool.false_eq_true, if_false] at h
          obtain ⟨_, _, ms, _, rfl⟩ := h
          exact ⟨ms, rfl⟩
      obtain ⟨ms, rfl⟩ := hj
      cases hc
      rw [if_neg (by decide), if_neg (by decide), if_neg (by decide), if_pos rfl, hfs]
      exact h1

/-- A message of one field that is always written. -/
theorem read_single {form : Nat → DynMsg → JTree → Prop} {same : Nat → DynMsg → DynMsg → Prop} {r : JReader}
    (hnull : NullIsValue T form same) {id : Nat} {m : DynMsg} {j : JTree}
    (ih : Reads T form same r) {f : JField}
    (hf : (T id).fields = [f]) (hv : f.dyn.repeated = false → f.dyn.hasValue m = true)
    (h : fieldForm T G utf8 anyStyle form f m j)
    {a t rest : List Byte} (ht : Spells j t) (ha : Ws a) (hrest : numChar (look rest) = false) :
    ∃ m', readField T utf8 G r f (T id).dyn.empty (a ++ t ++ rest) = .ok (m', rest) ∧
      m'.length = (T id).slots ∧
      ∀ f ∈ (T id).fields, f.dyn.hasValue m' = f.dyn.hasValue m ∧ (f.dyn.hasValue m = true → sameField same f m m') := by
  have hD := hT id
  have hfm : f ∈ (T id).fields := by rw [hf]; simp
  have hl0 : (T id).dyn.empty.length = (T id).slots := by simp [DynDesc.empty, JDesc.dyn]
  obtain ⟨st, h1, h2⟩ := read_field L (hD.tied f hfm) (hD.maps f hfm) ih hnull h hv
    (hD.dyn.ordinal_pos (dyn_mem hD hfm)) (storage_empty f.dyn (T id).dyn) ht ha hrest
  refine ⟨_, h1, by simp [hl0], ?_⟩
  intro g hg
  rw [hf] at hg
  cases List.mem_singleton.1 hg
  obtain ⟨h3, h4⟩ := h2 _ (storage_store_self (by rw [hl0]; exact hD.dyn.slot_lt (dyn_mem hD hfm)) st)
  exact ⟨h3, fun _ => h4⟩

theorem read_body {form : Nat → DynMsg → JTree → Prop} {same : Nat → DynMsg → DynMsg → Prop} {r : JReader}
    (ih : Reads T form same r) (hnull : NullIsValue T form same) (hsh : ShapedForm T G utf8 anyStyle form) :
    Reads T (bodyForm T G utf8 anyStyle form) (bodySame T same) (readBody T utf8 G r) := by
    intro id m j a t rest h ht ha hrest
    have hD := hT id
    obtain ⟨hlen, h⟩ := h
    unfold readBody
    simp only
    unfold Written at ht
    have hl0 : (T id).dyn.empty.length = (T id).slots := by simp [DynDesc.empty, JDesc.dyn]
    cases he : (T id).entry with
    | true =>
      simp only [he, if_true] at h ht ⊢
      obtain ⟨p, rfl, ht⟩ := ht
      obtain ⟨m', h1, h2, h3⟩ := read_entry L hT hnull ih he h ht ha hrest
      refine ⟨m', h1, h2, ?_⟩
      rw [if_neg (by simp [he])]
      exact h3
    | false =>
      simp only [he, Bool.false_eq_true, if_false] at h ht ⊢
      cases hwk : (T id).wk with
      | any => rw [hwk] at h; exact h.elim
      | timestamp =>
        rw [hwk] at h
        obtain ⟨x, y, s, n, u, hf, hx, hy, hu, rfl⟩ := h
        obtain ⟨x', y', hf', tx, ty, rx, ry, ox, oy⟩ := hD.timestamps (.inl hwk)
        rw [hf] at hf'
        obtain ⟨rfl, rfl⟩ : x = x' ∧ y = y' := by simpa using hf'
        obtain ⟨h1, h2, h3⟩ := two_values hD hf tx ty rx ry ox s n
        refine ⟨_, ?_, h1, ?_⟩
        · unfold readTwo
          simp only [skipWs_spells ha ht]
          cases ht with
          | str hs =>
            obtain ⟨hp, rfl⟩ := hs.2 rfl
            have hview := L.readView u rest hp
            have hdec : timestampDecode u = some (s.toInt, n.toInt) := by
              by_cases hok : Props.timestampOk s.toInt n.toInt
              · obtain ⟨q, _, _, _, h4, _, h5⟩ := (Props.C32_round_trip s.toInt n.toInt).1 hok
                rw [h4] at hu
                cases hu
                exact h5
              · rw [(Props.C32_round_trip s.toInt n.toInt).2 hok] at hu; cases hu
            simp only [List.cons_append, List.append_assoc, List.nil_append] at hview ⊢
            simp only [hview, res_bind_ok, hdec, hf, BitVec.ofInt_toInt]
        · rw [if_pos ⟨he, by simp [hwk]⟩, hf]
          intro f hf
          simp only [List.mem_cons, List.not_mem_nil, or_false] at hf
          rcases hf with rfl | rfl
          · rw [h2, hx]
          · rw [h3, hy]
      | duration =>
        rw [hwk] at h
        obtain ⟨x, y, s, n, u, hf, hx, hy, hu, rfl⟩ := h
        obtain ⟨x', y', hf', tx, ty, rx, ry, ox, oy⟩ := hD.timestamps (.inr hwk)
        rw [hf] at hf'
        obtain ⟨rfl, rfl⟩ : x = x' ∧ y = y' := by simpa using hf'
        obtain ⟨h1, h2, h3⟩ := two_values hD hf tx ty rx ry ox s n
        refine ⟨_, ?_, h1, ?_⟩
        · unfold readTwo
          simp only [skipWs_spells ha ht]
          cases ht with
          | str hs =>
            obtain ⟨hp, rfl⟩ := hs.2 rfl
            have hview := L.readView u rest hp
            have hdec : durationDecode u = some (s.toInt, n.toInt) := by
              by_cases hok : durationOk s.toInt n.toInt
              · obtain ⟨q, h4, h5⟩ := (Props.C31_round_trip s.toInt n.toInt).1 hok
                rw [h4] at hu
                cases hu
                exact h5
              · rw [(Props.C31_round_trip s.toInt n.toInt).2 hok] at hu; cases hu
            simp only [List.cons_append, List.append_assoc, List.nil_append] at hview ⊢
            simp only [hview, res_bind_ok, hdec, hf, BitVec.ofInt_toInt]
        · rw [if_pos ⟨he, by simp [hwk]⟩, hf]
          intro f hf
          simp only [List.mem_cons, List.not_mem_nil, or_false] at hf
          rcases hf with rfl | rfl
          · rw [h2, hx]
          · rw [h3, hy]
      | fieldMask =>
        rw [hwk] at h
        obtain ⟨f, ps, hf, hp, hc, hne, rfl⟩ := h
        obtain ⟨f', hf', tf, rf⟩ := hD.masks hwk
        rw [hf] at hf'
        cases hf'
        have hfm : f ∈ (T id).fields := by rw [hf]; simp
        have hk := hD.tied f hfm
        unfold JField.tied at hk
        rw [tf] at hk
        simp only at hk
        have hdec : fieldMaskDecode (List.intercalate [0x2c] ps) = ps := by
          have := (Props.C34_round_trip ps).2 ⟨hc, hne⟩
          rw [(Props.C34_text ps).1] at this
          simpa using this
        have hread : G.readStr (skipWs (a ++ t ++ rest)) = .ok (List.intercalate [0x2c] ps, rest) := by
          rw [skipWs_spells ha ht]
          cases ht with
          | str hs => exact L.readStr _ _ rest hs.1
        have fin : ∀ m', m'.length = (T id).slots → f.dyn.value m' = .strs ps → bodySame T same id m m' := by
          intro m' h1 h2
          refine ⟨h1, ?_⟩
          rw [if_pos ⟨he, by simp [hwk]⟩, hf]
          intro g hg
          rw [List.mem_singleton.1 hg, h2, hp]
        by_cases h0 : List.intercalate [0x2c] ps = []
        · rw [h0] at hdec hread
          have : ps = [] := by rw [← hdec]; rfl
          subst this
          refine ⟨(T id).dyn.empty, ?_, fin _ hl0 ?_⟩
          · unfold readMask
            simp only [hread, res_bind_ok, if_true]
          · have hn : f.dyn.kind.isNum = false := by
              cases e : f.dyn.kind.isNum with
              | false => rfl
              | true => rw [isStr_of_isNum e] at hk; cases hk
            unfold DynField.value DynField.elements
            simp [rf, hk, hn, storage_empty]
        · refine ⟨f.dyn.setStrs ps (T id).dyn.empty, ?_, fin _ (by simp [DynField.setStrs, hl0]) ?_⟩
          · unfold readMask
            simp only [hread, res_bind_ok, if_neg h0, hf, hdec]
          · exact (value_strs rf hk (storage_store_self (by rw [hl0]; exact hD.dyn.slot_lt (dyn_mem hD hfm)) _)).1
      | value =>
        rw [hwk] at h
        obtain ⟨f, hf, hv, h⟩ := h
        obtain ⟨m', h1, h2, h3⟩ := read_value L hT hnull hsh ih hwk hf hv h ht ha hrest
        refine ⟨m', h1, h2, ?_⟩
        rw [if_neg (by simp [hwk])]
        exact h3
      | struct =>
        rw [hwk] at h
        obtain ⟨f, hf, h⟩ := h
        obtain ⟨f', _, hf', rf, _⟩ := hD.structs hwk
        rw [hf] at hf'
        cases hf'
        obtain ⟨m', h1, h2, h3⟩ := read_single L hT hnull ih hf (by simp [rf]) h ht ha hrest
        refine ⟨m', by simp only [hf, List.getElem?_cons_zero, h1], h2, ?_⟩
        rw [if_neg (by simp [hwk])]
        exact h3
      | listValue =>
        rw [hwk] at h
        obtain ⟨f, hf, h⟩ := h
        obtain ⟨f', _, hf', rf, _⟩ := hD.lists hwk
        rw [hf] at hf'
        cases hf'
        obtain ⟨m', h1, h2, h3⟩ := read_single L hT hnull ih hf (by simp [rf]) h ht ha hrest
        refine ⟨m', by simp only [hf, List.getElem?_cons_zero, h1], h2, ?_⟩
        rw [if_neg (by simp [hwk])]
        exact h3
      | wrapper =>
        rw [hwk] at h
        obtain ⟨f, hf, hv, h⟩ := h
        obtain ⟨m', h1, h2, h3⟩ := read_single L hT hnull ih hf (fun _ => hv) h ht ha hrest
        refine ⟨m', by simp only [hf, List.getElem?_cons_zero, h1], h2, ?_⟩
        rw [if_neg (by simp [hwk])]
        exact h3
      | none =>
        rw [hwk] at h
        obtain ⟨m', h1, h2, h3⟩ := read_object hD L ih hnull h ht ha
        refine ⟨m', h1, h2, ?_⟩
        rw [if_neg (by simp [hwk])]
        exact h3

theorem read_level (d : Nat) : Reads T (FormAt T G utf8 anyStyle d) (SameAt T d) (readLevel T utf8 G d) := by
  induction d with
  | zero => intro id m j a t rest h; exact h.elim
  | succ d ih => exact read_body L hT ih (null_is_value hT d) (formAt_shaped anyStyle d)

end

end HppProto.Json
