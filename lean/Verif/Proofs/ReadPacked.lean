import Verif.Proofs.ReadValue
/-! Packed lists: the reader takes exactly the announced bytes. -/
namespace HppProto
open Spec

theorem varint_shape {k bs} (h : isVarint k bs) : ∃ i t, bs = i ++ [t] ∧ t.msb = false ∧ ∀ b ∈ i, b.msb = true := by
  obtain ⟨⟨h1, h2, h3⟩, h4⟩ := varintLen_some.1 h
  have hn := isVarint_ne_nil h
  refine ⟨bs.dropLast, bs.getLast hn, (List.dropLast_concat_getLast hn).symm, ?_, ?_⟩
  · rw [List.getLast_eq_getElem]
    simpa [memOf, List.getElem?_eq_getElem (show bs.length - 1 < bs.length by omega)] using h3
  · intro b hb
    obtain ⟨i, hi, rfl⟩ := List.mem_iff_getElem.1 hb
    simp only [List.length_dropLast] at hi
    have := h2 i (by omega)
    simpa [memOf, List.getElem?_eq_getElem (show i < bs.length by omega)] using this

theorem countTerm_varint {k bs} (h : isVarint k bs) : countTerm bs = 1 := by
  obtain ⟨i, t, rfl, ht, hi⟩ := varint_shape h
  unfold countTerm
  rw [List.countP_append, List.countP_eq_zero.2]
  · simp [ht]
  · intro b hb; simp [hi b hb]

theorem countTerm_append (a b : List Byte) : countTerm (a ++ b) = countTerm a + countTerm b := List.countP_append

theorem countTerm_flatten {k} : ∀ {vs : List (List Byte)}, (∀ x ∈ vs, isVarint k x) → countTerm vs.flatten = vs.length
  | [], _ => rfl
  | x :: vs, h => by
    rw [List.flatten_cons, countTerm_append, countTerm_varint (h x (by simp)),
      countTerm_flatten (fun y hy => h y (by simp [hy])), List.length_cons]; omega

/-- Empty or ending with a byte that ends a varint. -/
def endsTerm (a : List Byte) : Prop := a = [] ∨ ∃ i t, a = i ++ [t] ∧ t.msb = false

theorem endsTerm_append {a b : List Byte} (ha : endsTerm a) (hb : endsTerm b) : endsTerm (a ++ b) := by
  rcases hb with rfl | ⟨i, t, rfl, ht⟩
  · simpa using ha
  · exact .inr ⟨a ++ i, t, by simp, ht⟩

theorem endsTerm_flatten {k} : ∀ {vs : List (List Byte)}, (∀ x ∈ vs, isVarint k x) → endsTerm vs.flatten
  | [], _ => .inl rfl
  | x :: vs, h => by
    rw [List.flatten_cons]
    refine endsTerm_append ?_ (endsTerm_flatten (fun y hy => h y (by simp [hy])))
    obtain ⟨i, t, e, ht, -⟩ := varint_shape (h x (by simp))
    exact .inr ⟨i, t, e, ht⟩

theorem endsTerm_pos {a : List Byte} (h : endsTerm a) (h0 : a ≠ []) : 0 < countTerm a := by
  rcases h with rfl | ⟨i, t, rfl, ht⟩
  · exact absurd rfl h0
  · rw [countTerm_append]; simp [countTerm, ht]

theorem endsTerm_last {a : List Byte} (h0 : a ≠ []) : endsTerm a ↔ (a.getD (a.length - 1) 0).msb = false := by
  have e : a.getD (a.length - 1) 0 = a.getLast h0 := by
    rw [List.getLast_eq_getElem, List.getD_eq_getElem?_getD,
      List.getElem?_eq_getElem (by have := List.length_pos_iff.2 h0; omega)]; rfl
  rw [e]
  constructor
  · rintro (h | ⟨i, t, rfl, ht⟩)
    · exact absurd h h0
    · simpa using ht
  · intro h
    exact .inr ⟨_, _, (List.dropLast_concat_getLast h0).symm, h⟩

theorem endsTerm_suffix {a b : List Byte} (h : endsTerm (a ++ b)) : endsTerm b := by
  by_cases hb : b = []
  · exact .inl hb
  · rcases h with h | ⟨i, t, e, ht⟩
    · simp at h; exact absurd h.2 hb
    · refine .inr ⟨b.dropLast, b.getLast hb, (List.dropLast_concat_getLast hb).symm, ?_⟩
      have h2 : (a ++ b).getLast (by simp [hb]) = t := by simp [e]
      rw [List.getLast_append_right hb] at h2
      rw [h2]; exact ht

theorem prefix_eq {a b x y : List Byte} (e : a ++ x = b ++ y) (hc : countTerm a = countTerm b)
    (ha : endsTerm a) (hb : endsTerm b) : a = b := by
  rcases List.append_eq_append_iff.1 e with ⟨z, h1, h2⟩ | ⟨z, h1, h2⟩
  · subst h1
    rw [countTerm_append] at hc
    have : z = [] := by
      by_cases hz : z = []
      · exact hz
      · have := endsTerm_pos (endsTerm_suffix hb) hz; omega
    simp [this]
  · subst h1
    rw [countTerm_append] at hc
    have : z = [] := by
      by_cases hz : z = []
      · exact hz
      · have := endsTerm_pos (endsTerm_suffix ha) hz; omega
    simp [this]

theorem rdPackedBools_iff : ∀ {c l n bs}, rdPackedBools c l = some (n, bs) ↔
    ∃ vs : List (List Byte), vs.length = c ∧ (∀ x ∈ vs, isVarint 10 x) ∧ (∃ more, l = vs.flatten ++ more) ∧
      n = vs.flatten.length ∧ bs = vs.map (fun x => (parseBool (memOf x)).2)
  | 0, l, n, bs => by
    simp only [rdPackedBools]
    constructor
    · intro h; cases h; exact ⟨[], rfl, by simp, ⟨l, rfl⟩, rfl, rfl⟩
    · rintro ⟨vs, h1, -, -, h4, h5⟩
      have : vs = [] := List.length_eq_zero_iff.1 h1
      subst this; simp [h4, h5]
  | c + 1, l, n, bs => by
    simp only [rdPackedBools]
    constructor
    · intro h
      split at h
      · rename_i n1 b1 hb
        obtain ⟨x, more, rfl, rfl, hx, rfl⟩ := rdBool_iff.1 hb
        rw [Option.map_eq_some_iff] at h
        obtain ⟨⟨k, l'⟩, h1, h2⟩ := h
        rw [List.drop_left] at h1
        obtain ⟨vs, g1, g2, ⟨mo, g3⟩, g4, g5⟩ := rdPackedBools_iff.1 h1
        cases h2
        refine ⟨x :: vs, by simp [g1], ?_, ⟨mo, by simp [g3]⟩, by simp [g4], by simp [g5]⟩
        intro y hy
        rcases List.mem_cons.1 hy with rfl | hy
        · exact hx
        · exact g2 y hy
      · cases h
    · rintro ⟨vs, h1, h2, ⟨more, h3⟩, h4, h5⟩
      cases vs with
      | nil => simp at h1
      | cons x vs =>
        rw [List.flatten_cons, List.append_assoc] at h3
        have hb : rdBool l = some (x.length, (parseBool (memOf x)).2) :=
          rdBool_iff.2 ⟨x, vs.flatten ++ more, h3, rfl, h2 x (by simp), rfl⟩
        rw [hb]
        simp only
        rw [h3, List.drop_left, rdPackedBools_iff.2 ⟨vs, by simpa using h1, fun y hy => h2 y (by simp [hy]),
          ⟨more, rfl⟩, rfl, rfl⟩]
        simp [h4, h5]

theorem rdPacked_iff {ty : VarTy} : ∀ {c l xs}, rdPacked ty c l = some xs ↔
    ∃ vs : List (List Byte), vs.length ≤ c ∧ (∀ x ∈ vs, isVarint ty.mix.maxLen x) ∧ l = vs.flatten ∧
      xs = vs.map (fun x => (ty.parse (memOf x)).2)
  | 0, l, xs => by
    simp only [rdPacked]
    constructor
    · intro h
      split at h
      · cases h
        rename_i h; exact ⟨[], by simp, by simp, by simpa using h, rfl⟩
      · cases h
    · rintro ⟨vs, h1, -, h4, h5⟩
      have : vs = [] := List.length_eq_zero_iff.1 (by omega)
      subst this; simp [h4, h5]
  | c + 1, l, xs => by
    simp only [rdPacked]
    by_cases hl : l.isEmpty = true
    · rw [if_pos hl]
      constructor
      · intro h; cases h; exact ⟨[], by simp, by simp, by simpa using hl, rfl⟩
      · rintro ⟨vs, h1, h2, h4, h5⟩
        cases vs with
        | nil => simp [h5]
        | cons x vs =>
          rw [h4] at hl
          have := isVarint_ne_nil (h2 x (by simp))
          simp at hl
          exact absurd hl.1 this
    rw [if_neg hl]
    constructor
    · intro h
      split at h
      · rename_i n1 b1 hb
        obtain ⟨x, more, rfl, rfl, hx, rfl⟩ := rdVarint_iff.1 hb
        rw [Option.map_eq_some_iff] at h
        obtain ⟨l', h1, h2⟩ := h
        rw [List.drop_left] at h1
        obtain ⟨vs, g1, g2, g3, g5⟩ := rdPacked_iff.1 h1
        cases h2
        refine ⟨x :: vs, by simp [g1], ?_, by simp [g3], by simp [g5]⟩
        intro y hy
        rcases List.mem_cons.1 hy with rfl | hy
        · exact hx
        · exact g2 y hy
      · cases h
    · rintro ⟨vs, h1, h2, h3, h5⟩
      cases vs with
      | nil => simp at h3; simp [h3] at hl
      | cons x vs =>
        rw [List.flatten_cons] at h3
        have hb : rdVarint ty l = some (x.length, (ty.parse (memOf x)).2) :=
          rdVarint_iff.2 ⟨x, vs.flatten, h3, rfl, h2 x (by simp), rfl⟩
        rw [hb]
        simp only
        rw [h3, List.drop_left, rdPacked_iff.2 ⟨vs, by simpa using h1, fun y hy => h2 y (by simp [hy]), rfl, rfl⟩]
        simp [h5]

theorem ops_numVarints {n : Nat} {s : Flat} {c} (hn : n ≠ 0) : flatOps.numVarints n s = .ok (some c) ↔
    ∃ v s', Adv s v s' ∧ v.length = n ∧ endsTerm v ∧ c = countTerm v := by
  show (if n = 0 then Res.ub
    else if n ≤ s.rest.length then
      (if (s.rest.getD (n - 1) 0).msb then .ok none else .ok (some (countTerm (s.rest.take n))))
    else .ok none) = _ ↔ _
  rw [if_neg hn]
  have key : ∀ v s', Adv s v s' → v.length = n → (s.rest.getD (n - 1) 0) = v.getD (v.length - 1) 0 := by
    intro v s' a hv
    rw [a.1, List.getD_eq_getElem?_getD, List.getElem?_append_left (by omega), ← hv, List.getD_eq_getElem?_getD]
  constructor
  · intro h
    split at h
    · rename_i hle
      obtain ⟨v, a, hv⟩ := adv_consume.1 ⟨hle, rfl⟩
      have k := key v _ a hv
      have h0 : v ≠ [] := by rintro rfl; simp at hv; omega
      split at h
      · cases h
      · rename_i hm
        refine ⟨v, _, a, hv, (endsTerm_last h0).2 (by rw [← k]; simpa using hm), ?_⟩
        cases h
        rw [← hv, take_of_adv a]
    · cases h
  · rintro ⟨v, s', a, hv, he, rfl⟩
    have k := key v _ a hv
    have h0 : v ≠ [] := by rintro rfl; simp at hv; omega
    have := a.length
    rw [if_pos (by omega), k, if_neg (by rw [(endsTerm_last h0).1 he]; simp), ← hv, take_of_adv a]

theorem ops_packedVarints {ty : VarTy} {v : List Byte} {s t s' : Flat} {c vs} (a : Adv s v t) :
    flatOps.packedVarints ty v.length c s = .ok (s', vs) ↔ s' = t ∧ rdPacked ty c v = some vs := by
  show (match rdPacked ty c (s.rest.take v.length) with
    | some vs => Res.ok (s.consume v.length, vs)
    | none => .err .badMessage) = _ ↔ _
  rw [take_of_adv a]
  have e : s.consume v.length = t := by
    rw [consume_adv a.1]; exact (Adv.unique ⟨a.1, rfl⟩ a)
  rw [e]
  cases rdPacked ty c v <;> simp [eq_comm]

theorem readPackedElems_iff (sc : Scalar) {n : Nat} {s s' : Flat} {vs} (hn : n ≠ 0) :
    readPackedElems flatOps sc n s = .ok (s', vs) ↔
    ∃ v, v.length = n ∧ Adv s v s' ∧ packedVals sc v = some vs := by
  have varints : ∀ (ty : VarTy) (f : List (BitVec 64) → List Val),
      (flatOps.numVarints n s >>= fun o => match o with
        | some c => do let (s, vs) ← flatOps.packedVarints ty n c s; .ok (s, f vs)
        | none => .err .badMessage) = .ok (s', vs) ↔
      ∃ v, v.length = n ∧ Adv s v s' ∧ (rdPacked ty (countTerm v) v).map f = some vs := by
    intro ty f
    rw [res_bind_ok]
    constructor
    · rintro ⟨o, h1, h2⟩
      cases o with
      | none => cases h2
      | some c =>
        obtain ⟨v, t, a, hv, he, rfl⟩ := (ops_numVarints hn).1 h1
        simp only [res_bind_ok] at h2
        obtain ⟨⟨t', xs⟩, h3, h4⟩ := h2
        rw [← hv, ops_packedVarints a] at h3
        obtain ⟨rfl, h3⟩ := h3
        cases h4
        exact ⟨v, hv, a, by rw [h3]; rfl⟩
    · rintro ⟨v, hv, a, h⟩
      rw [Option.map_eq_some_iff] at h
      obtain ⟨xs, h1, rfl⟩ := h
      obtain ⟨ws, g1, g2, g3, g4⟩ := rdPacked_iff.1 h1
      refine ⟨some (countTerm v), (ops_numVarints hn).2 ⟨v, s', a, hv, by rw [g3]; exact endsTerm_flatten g2, rfl⟩, ?_⟩
      simp only [res_bind_ok]
      refine ⟨(s', xs), ?_, rfl⟩
      rw [← hv, ops_packedVarints a]
      exact ⟨rfl, h1⟩
  cases sc with
  | varint ty => exact varints ty _
  | enum c => exact varints .i64 _
  | str u => simp [readPackedElems, packedVals]
  | fixed32 f =>
    simp only [readPackedElems, packedVals]
    by_cases h4 : n % 4 = 0
    · rw [if_pos h4]
      simp only [res_bind_ok]
      constructor
      · rintro ⟨⟨t, bs⟩, h1, h2⟩
        obtain ⟨a, hl⟩ := ops_raw.1 h1
        cases h2
        exact ⟨bs, hl, a, by rw [hl, if_pos h4]⟩
      · rintro ⟨v, hv, a, h⟩
        rw [hv, if_pos h4] at h
        cases h
        exact ⟨(s', v), ops_raw.2 ⟨a, hv⟩, rfl⟩
    · rw [if_neg h4]
      constructor
      · intro h; cases h
      · rintro ⟨v, hv, a, h⟩
        rw [hv, if_neg h4] at h; cases h
  | fixed64 f =>
    simp only [readPackedElems, packedVals]
    by_cases h4 : n % 8 = 0
    · rw [if_pos h4]
      simp only [res_bind_ok]
      constructor
      · rintro ⟨⟨t, bs⟩, h1, h2⟩
        obtain ⟨a, hl⟩ := ops_raw.1 h1
        cases h2
        exact ⟨bs, hl, a, by rw [hl, if_pos h4]⟩
      · rintro ⟨v, hv, a, h⟩
        rw [hv, if_pos h4] at h
        cases h
        exact ⟨(s', v), ops_raw.2 ⟨a, hv⟩, rfl⟩
    · rw [if_neg h4]
      constructor
      · intro h; cases h
      · rintro ⟨v, hv, a, h⟩
        rw [hv, if_neg h4] at h; cases h
  | bool =>
    simp only [readPackedElems, packedVals, res_bind_ok]
    constructor
    · rintro ⟨o, h1, h2⟩
      cases o with
      | none => cases h2
      | some c =>
        obtain ⟨v, t, a, hv, he, rfl⟩ := (ops_numVarints hn).1 h1
        simp only [res_bind_ok] at h2
        obtain ⟨⟨t', xs⟩, h3, h4⟩ := h2
        change (match rdPackedBools (countTerm v) s.rest with
          | some (n, bs) => Res.ok (s.consume n, bs)
          | none => .err .badMessage) = _ at h3
        cases hb : rdPackedBools (countTerm v) s.rest with
        | none => rw [hb] at h3; cases h3
        | some p =>
          obtain ⟨k, bs⟩ := p
          rw [hb] at h3
          cases h3; cases h4
          obtain ⟨ws, g1, g2, ⟨mo, g3⟩, g4, g5⟩ := rdPackedBools_iff.1 hb
          have hf : ws.flatten = v := by
            refine prefix_eq (x := mo) (y := t.rest) ?_ ?_ (endsTerm_flatten g2) he
            · rw [← g3, a.1]
            · rw [countTerm_flatten g2, g1]
          rw [hf] at g4
          refine ⟨v, hv, ?_, ?_⟩
          · rw [g4, consume_adv a.1]; exact ⟨a.1, rfl⟩
          · rw [rdPackedBools_iff.2 ⟨ws, g1, g2, ⟨[], by simp [hf]⟩, rfl, g5⟩]
            simp [hf]
    · rintro ⟨v, hv, a, h⟩
      rw [Option.bind_eq_some_iff] at h
      obtain ⟨⟨k, bs⟩, h1, h2⟩ := h
      simp only at h2
      split at h2
      · rename_i hk
        cases h2
        obtain ⟨ws, g1, g2, ⟨mo, g3⟩, g4, g5⟩ := rdPackedBools_iff.1 h1
        have hmo : mo = [] := by
          have := congrArg List.length g3
          rw [List.length_append] at this
          exact List.length_eq_zero_iff.1 (by omega)
        subst hmo
        rw [List.append_nil] at g3
        refine ⟨some (countTerm v), (ops_numVarints hn).2 ⟨v, s', a, hv, by rw [g3]; exact endsTerm_flatten g2, rfl⟩, ?_⟩
        simp only [res_bind_ok]
        refine ⟨(s', bs), ?_, rfl⟩
        show (match rdPackedBools (countTerm v) s.rest with
          | some (n, bs) => Res.ok (s.consume n, bs)
          | none => .err .badMessage) = _
        rw [rdPackedBools_iff.2 ⟨ws, g1, g2, ⟨s'.rest, by rw [← g3]; exact a.1⟩, rfl, g5⟩]
        simp only
        rw [← g3, consume_adv a.1, (Adv.unique ⟨a.1, rfl⟩ a : (⟨v.reverse ++ s.prev, s'.rest⟩ : Flat) = s')]
      · cases h2

theorem readPacked_iff (mode number sc i m) {h tag} (ht : isTag h tag) (hw : tagWt tag = 2) {s s' : Flat} {m'} :
    readPacked flatOps mode number sc i m s = .ok (s', m') ↔
    At h tag s s' (fun r => ∃ t h p v, r = .len t h p v ∧ packedStep mode number sc i v m m') := by
  rw [at_len ht hw]
  unfold readPacked
  rw [res_bind_ok]
  constructor
  · rintro ⟨⟨t, n⟩, h1, h2⟩
    obtain ⟨p, a1, hp, hn⟩ := ops_varint.1 h1
    have hv := u32_value hp
    rw [← hn] at hv
    simp only at h2
    split at h2
    · rename_i hz
      cases h2
      refine ⟨p, [], hp, ?_, by simpa using a1, _, _, _, _, rfl, ?_⟩
      · rw [← hv, hz]; rfl
      · simp [packedStep]
    · rename_i hz
      have hz' : n.toNat ≠ 0 := fun e => hz (BitVec.eq_of_toNat_eq (by simpa using e))
      rw [res_bind_ok] at h2
      obtain ⟨⟨t', vs⟩, h3, h4⟩ := h2
      obtain ⟨v, hl, a2, hvs⟩ := (readPackedElems_iff sc hz').1 h3
      cases h4
      refine ⟨p, v, hp, by rw [← hv, hl], a1.trans a2, _, _, _, _, rfl, ?_⟩
      unfold packedStep
      rw [if_neg (by rintro rfl; simp at hl; omega)]
      exact ⟨vs, hvs, rfl⟩
  · rintro ⟨p, v, hp, hv, a, t1, h1, p1, v1, e, hs⟩
    cases e
    obtain ⟨t, a1, a2⟩ := a.split
    refine ⟨(t, _), ops_varint.2 ⟨p, a1, hp, rfl⟩, ?_⟩
    have hv' := u32_value hp
    rw [hv] at hv'
    simp only
    unfold packedStep at hs
    split at hs
    · rename_i hz
      subst hz
      have : (VarTy.u32.parse (memOf p)).2 = 0 := BitVec.eq_of_toNat_eq (by rw [hv']; rfl)
      rw [if_pos this, hs, (Adv.refl t).unique a2]
    · rename_i hz
      have hz' : (VarTy.u32.parse (memOf p)).2.toNat ≠ 0 := by
        rw [hv']; exact fun e => hz (List.length_eq_zero_iff.1 e)
      rw [if_neg (fun e => hz' (by rw [e]; rfl)), res_bind_ok]
      obtain ⟨vs, hvs, rfl⟩ := hs
      exact ⟨(s', vs), (readPackedElems_iff sc hz').2 ⟨v, hv'.symm, a2, hvs⟩, rfl⟩

end HppProto
