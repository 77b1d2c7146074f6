import Verif.Spec.GenJson
import Verif.Proofs.JsonLevel
import Verif.Proofs.ReadProj
import Verif.Proofs.Merge

/-!
# Reading the JSON of generated messages
-/

namespace HppProto.Json
open HppProto

/-- What `r` reads from the text of a JSON form is the message. -/
def GReads (T : GTypes) (form : Nat → Msg → JTree → Prop) (r : GReader) : Prop :=
  ∀ id m j a t rest, form id m j → Spells j t → Ws a → numChar (look rest) = false →
    r id (T id).default (a ++ t ++ rest) = .ok (m, rest)

theorem readColon_spells {a b t rest : List Byte} {j : JTree} (ha : Ws a) (hb : Ws b) (ht : Spells j t) :
    readColon (a ++ 0x3a :: (b ++ (t ++ rest))) = .ok (t ++ rest) := by
  unfold readColon
  rw [skipWs_starts ha (show isWs 0x3a = false from rfl)]
  simp only [expect_cons, res_bind_ok]
  rw [← List.append_assoc, skipWs_spells hb ht]

theorem look_comma (s : List Byte) : look (0x2c :: s) ≠ 0x7d := by
  show (0x2c : Byte) ≠ 0x7d
  decide

section
variable {T : GTypes} {G : Glaze} {utf8 : List Byte → Bool} {form : Nat → Msg → JTree → Prop} {r : GReader}

/-- Only the form of enums depends on the style. -/
theorem gen_num_any {ty : JType} {v : BitVec 64} {j : JTree} (h : numForm G genAnyStyle.num ty v j) :
    numForm G anyStyle ty v j := by
  cases ty <;> exact h

theorem gen_not_null {ty : JType} {v : Val} {j : JTree} (hm : ∀ id, ty ≠ .msg id)
    (h : gValForm G utf8 genAnyStyle form ty v j) : j ≠ .null := by
  unfold gValForm at h
  split at h
  · exact absurd rfl (hm _)
  · obtain ⟨_, _, h⟩ := h; exact strForm_not_null h
  · obtain ⟨_, _, h⟩ := h; exact strForm_not_null h
  · obtain ⟨_, _, h⟩ := h; exact numForm_not_null rfl h

variable (L : G.Lawful) (hr : GReads T form r)
include L

theorem gen_read_key {ty : JType} {v : Val} {s : JStr} (h : gKeyForm utf8 ty v s) {a t rest : List Byte}
    (ht : SpellsStr s t) (ha : Ws a) : genReadKey utf8 G ty (a ++ t ++ rest) = .ok (v, rest) := by
  obtain ⟨u, hu⟩ := spellsStr_head ht
  have hskip : skipWs (a ++ t ++ rest) = t ++ rest := by
    rw [hu]
    simpa using skipWs_starts ha (show isWs 0x22 = false from rfl) (u ++ rest)
  unfold gKeyForm at h
  unfold genReadKey
  cases ty with
  | string =>
    obtain ⟨bs, rfl, hutf, rfl⟩ := h
    have := readText_spells (utf8 := utf8) (rest := rest) L (ty := .string) (bs := bs) (j := .str ⟨bs, false⟩) ⟨hutf, rfl⟩ (.str ht) ha
    simp only [this, res_bind_ok]
  | int signed wide =>
    obtain ⟨x, n, rfl, hn, rfl⟩ := h
    obtain ⟨rfl, h1, h2⟩ := intForm_iff.mp hn
    obtain ⟨b1, b2⟩ := intRange_bounds signed wide
    obtain ⟨_, rfl⟩ := ht.2 rfl
    unfold readNum
    simp only [hskip, Bool.true_or]
    have := inQuotes_int L b1 b2 h1 h2 rest
    unfold quoted at this
    simp only [this, res_bind_ok, ofInt_intOf]
  | bool =>
    unfold readNum
    simp only [hskip]
    rcases h with ⟨rfl, rfl⟩ | ⟨rfl, rfl⟩
    · obtain ⟨_, rfl⟩ := ht.2 rfl
      unfold inQuotes
      have := readBool_false (0x22 :: rest)
      simp only [if_true, List.cons_append, List.nil_append, expect_cons, res_bind_ok] at this ⊢
      simp only [this, res_bind_ok, expect_cons]
    · obtain ⟨_, rfl⟩ := ht.2 rfl
      unfold inQuotes
      have := readBool_true (0x22 :: rest)
      simp only [if_true, List.cons_append, List.nil_append, expect_cons, res_bind_ok] at this ⊢
      simp only [this, res_bind_ok, expect_cons]
  | float _ => exact h.elim
  | enum _ => exact h.elim
  | bytes => exact h.elim
  | msg _ => exact h.elim

include hr

theorem gen_read_val {ty : JType} {v : Val} {j : JTree} (h : gValForm G utf8 genAnyStyle form ty v j)
    {a t rest : List Byte} (ht : Spells j t) (ha : Ws a) (hrest : numChar (look rest) = false) :
    genReadVal T utf8 G r ty (a ++ t ++ rest) = .ok (v, rest) := by
  cases ty with
  | msg id =>
    obtain ⟨m, rfl, h⟩ := h
    unfold genReadVal
    simp only [hr id m j a t rest h ht ha hrest, res_bind_ok]
  | string =>
    obtain ⟨bs, rfl, h⟩ := h
    unfold genReadVal
    simp only [readText_spells L h ht ha, res_bind_ok]
  | bytes =>
    obtain ⟨bs, rfl, h⟩ := h
    unfold genReadVal
    simp only [readText_spells L h ht ha, res_bind_ok]
  | int _ _ =>
    obtain ⟨x, rfl, h⟩ := h
    unfold genReadVal
    simp only [readNum_spells L (gen_num_any h) ht ha hrest, res_bind_ok]
  | float _ =>
    obtain ⟨x, rfl, h⟩ := h
    unfold genReadVal
    simp only [readNum_spells L (gen_num_any h) ht ha hrest, res_bind_ok]
  | bool =>
    obtain ⟨x, rfl, h⟩ := h
    unfold genReadVal
    simp only [readNum_spells L (gen_num_any h) ht ha hrest, res_bind_ok]
  | enum _ =>
    obtain ⟨x, rfl, h⟩ := h
    unfold genReadVal
    simp only [readNum_spells L (gen_num_any h) ht ha hrest, res_bind_ok]

theorem gen_read_entry {D : GDesc} {e : Val} {p : JStr × JTree} (h : gEntryForm G utf8 genAnyStyle form D e p)
    {a t rest : List Byte} (ht : SpellsMember p t) (ha : Ws a) (hrest : numChar (look rest) = false) :
    genReadEntry T utf8 G r D (a ++ t ++ rest) = .ok (e, rest) := by
  obtain ⟨k, kc, x, xc, kv, xv, hs, rfl, hk, hx⟩ := h
  cases ht with
  | @mk _ _ sk a1 b1 tx hsk ha1 hb1 htx =>
    have e : a ++ (sk ++ a1 ++ 0x3a :: b1 ++ tx) ++ rest = a ++ sk ++ (a1 ++ 0x3a :: (b1 ++ (tx ++ rest))) := by simp
    have hv := gen_read_val L hr hx (rest := rest) htx ws_nil hrest
    rw [List.nil_append] at hv
    unfold genReadEntry
    simp only [hs, e, gen_read_key L hk hsk ha, res_bind_ok, readColon_spells ha1 hb1 htx, hv]

/-- The loop that reads a map into a sorted container. -/
theorem gen_read_map_more (rest : List Byte) {D : GDesc} {ps : List (JStr × JTree)} {t : List Byte}
    (hseq : Seq SpellsMember ps t) :
    ∀ {vs : List Val} {es : List (Nat × Val)}, All2 (gEntryForm G utf8 genAnyStyle form D) vs ps →
      ∀ fuel, ps.length < fuel →
      genReadMap T utf8 G r D fuel false es (following ps t ++ 0x7d :: rest) = .ok (insertAll vs es, rest) := by
  induction hseq with
  | nil ha =>
    intro vs es hall fuel hfuel
    cases all2_nil_right hall
    obtain ⟨fuel, rfl⟩ : ∃ k, fuel = k + 1 := ⟨fuel - 1, by simp at hfuel; omega⟩
    rw [genReadMap]
    simp [following, insertAll]
  | @one p a t b ha hx hb =>
    intro vs es hall fuel hfuel
    obtain ⟨v, vs, rfl, hv, hrest⟩ := all2_cons_right hall
    cases all2_nil_right hrest
    obtain ⟨fuel, rfl⟩ : ∃ k, fuel = k + 1 + 1 := ⟨fuel - 2, by simp at hfuel; omega⟩
    have e : following [p] (a ++ t ++ b) ++ 0x7d :: rest = 0x2c :: (a ++ t ++ (b ++ 0x7d :: rest)) := by
      simp [following]
    obtain ⟨u, hu⟩ := member_head hx
    have e2 : skipWs (a ++ t ++ (b ++ 0x7d :: rest)) = t ++ (b ++ 0x7d :: rest) := by
      rw [hu]
      simpa using skipWs_starts ha (show isWs 0x22 = false from rfl) (u ++ (b ++ 0x7d :: rest))
    have h3 := gen_read_entry L hr hv hx ws_nil (numChar_ws hb (show numChar 0x7d = false from rfl) rest)
    rw [List.nil_append] at h3
    rw [e, genReadMap, if_neg (look_comma _)]
    simp only [Bool.false_eq_true, if_false, expect_cons, res_bind_ok, e2, h3]
    rw [skipWs_starts hb rfl, genReadMap]
    simp [insertAll]
  | @more p q ms a t b r' ha hx hb hrr ih =>
    intro vs es hall fuel hfuel
    obtain ⟨v, vs, rfl, hv, hrest⟩ := all2_cons_right hall
    obtain ⟨fuel, rfl⟩ : ∃ k, fuel = k + 1 := ⟨fuel - 1, by omega⟩
    have e : following (p :: q :: ms) (a ++ t ++ b ++ 0x2c :: r') ++ 0x7d :: rest =
        0x2c :: (a ++ t ++ (b ++ 0x2c :: (r' ++ 0x7d :: rest))) := by
      simp [following]
    obtain ⟨u, hu⟩ := member_head hx
    have e2 : skipWs (a ++ t ++ (b ++ 0x2c :: (r' ++ 0x7d :: rest))) = t ++ (b ++ 0x2c :: (r' ++ 0x7d :: rest)) := by
      rw [hu]
      simpa using skipWs_starts ha (show isWs 0x22 = false from rfl) (u ++ (b ++ 0x2c :: (r' ++ 0x7d :: rest)))
    have h3 := gen_read_entry L hr hv hx ws_nil (numChar_ws hb (show numChar 0x2c = false from rfl) (r' ++ 0x7d :: rest))
    rw [List.nil_append] at h3
    have h4 := ih (es := insertOrAssign v es) hrest fuel (by rw [List.length_cons] at hfuel; omega)
    rw [e, genReadMap, if_neg (look_comma _)]
    simp only [Bool.false_eq_true, if_false, expect_cons, res_bind_ok, e2, h3]
    rw [skipWs_starts hb rfl]
    simpa [following, insertAll] using h4

theorem gen_read_map {D : GDesc} {ps : List (JStr × JTree)} {vs : List Val} {es : List (Nat × Val)}
    (hall : All2 (gEntryForm G utf8 genAnyStyle form D) vs ps) {t rest : List Byte} (hseq : Seq SpellsMember ps t) :
    genReadMap T utf8 G r D ((skipWs (t ++ 0x7d :: rest)).length + 1) true es (skipWs (t ++ 0x7d :: rest)) =
      .ok (insertAll vs es, rest) := by
  obtain ⟨t', hseq', hstrip⟩ := seq_strip (fun _ _ h => by obtain ⟨u, e⟩ := member_head h; exact ⟨_, u, e, rfl⟩) hseq
    (show isWs 0x7d = false from rfl) rest
  have hlen : ps.length < (skipWs (t ++ 0x7d :: rest)).length + 1 := by
    rw [hstrip]
    have := seq_length hseq'
    simp
    omega
  generalize hfuel : (skipWs (t ++ 0x7d :: rest)).length + 1 = fuel at hlen ⊢
  cases hseq with
  | nil ha =>
    cases all2_nil_right hall
    obtain ⟨fuel, rfl⟩ : ∃ k, fuel = k + 1 := ⟨fuel - 1, by omega⟩
    rw [skipWs_starts ha rfl, genReadMap]
    simp [insertAll]
  | @one p a' t b ha' hx hb =>
    obtain ⟨v, vs, rfl, hv, hrest⟩ := all2_cons_right hall
    cases all2_nil_right hrest
    obtain ⟨fuel, rfl⟩ : ∃ k, fuel = k + 1 + 1 := ⟨fuel - 2, by simp at hlen; omega⟩
    obtain ⟨u, hu⟩ := member_head hx
    have e : skipWs (a' ++ t ++ b ++ 0x7d :: rest) = t ++ (b ++ 0x7d :: rest) := by
      rw [hu]
      simpa using skipWs_starts ha' (show isWs 0x22 = false from rfl) (u ++ (b ++ 0x7d :: rest))
    have h3 := gen_read_entry L hr hv hx ws_nil (numChar_ws hb (show numChar 0x7d = false from rfl) rest)
    rw [List.nil_append] at h3
    have hl : look (t ++ (b ++ 0x7d :: rest)) ≠ 0x7d := by
      rw [hu]
      show (0x22 : Byte) ≠ 0x7d
      decide
    rw [e, genReadMap, if_neg hl]
    simp only [if_true, res_bind_ok, h3]
    rw [skipWs_starts hb rfl, genReadMap]
    simp [insertAll]
  | @more p q ms a' t b r' ha' hx hb hrr =>
    obtain ⟨v, vs, rfl, hv, hrest⟩ := all2_cons_right hall
    obtain ⟨fuel, rfl⟩ : ∃ k, fuel = k + 1 := ⟨fuel - 1, by omega⟩
    obtain ⟨u, hu⟩ := member_head hx
    have e : skipWs (a' ++ t ++ b ++ 0x2c :: r' ++ 0x7d :: rest) = t ++ (b ++ 0x2c :: (r' ++ 0x7d :: rest)) := by
      rw [hu]
      simpa using skipWs_starts ha' (show isWs 0x22 = false from rfl) (u ++ (b ++ 0x2c :: (r' ++ 0x7d :: rest)))
    have h3 := gen_read_entry L hr hv hx ws_nil (numChar_ws hb (show numChar 0x2c = false from rfl) (r' ++ 0x7d :: rest))
    rw [List.nil_append] at h3
    have hl : look (t ++ (b ++ 0x2c :: (r' ++ 0x7d :: rest))) ≠ 0x7d := by
      rw [hu]
      show (0x22 : Byte) ≠ 0x7d
      decide
    have h4 := gen_read_map_more L hr rest hrr (es := insertOrAssign v es) hrest fuel (by rw [List.length_cons] at hlen; omega)
    rw [e, genReadMap, if_neg hl]
    simp only [if_true, res_bind_ok, h3]
    rw [skipWs_starts hb rfl]
    simpa [following, insertAll] using h4

omit L hr

/-- Entries with different keys, inserted in any order, give the sorted container. -/
theorem insertAll_perm {vs : List Val} {es : List (Nat × Val)} (hasc : Asc es)
    (hp : es.Perm (vs.map fun v => (0, v))) : insertAll vs [] = es := by
  have hzero : ∀ p ∈ es, p.1 = 0 := by
    intro p hpm
    obtain ⟨v, _, rfl⟩ := List.mem_map.1 (hp.mem_iff.1 hpm)
    rfl
  have hnil : Asc ([] : List (Nat × Val)) := List.Pairwise.nil
  refine asc_ext (asc_insertAll vs hnil) hasc (zero_insertAll vs (by simp)) hzero ?_
  intro k
  have hp' : ((es.map Prod.snd).filter (fun e => entryRank e = k)).Perm (vs.filter (fun e => entryRank e = k)) := by
    have := hp.map Prod.snd
    rw [List.map_map, show (Prod.snd ∘ fun v : Val => ((0 : Nat), v)) = id from rfl, List.map_id] at this
    exact this.filter _
  have hd : ((es.map Prod.snd).filter (fun e => entryRank e = k)).Pairwise (fun a b => entryRank a ≠ entryRank b) := by
    refine List.Pairwise.filter _ (List.pairwise_map.2 (hasc.imp ?_))
    intro a b h
    exact lexLt_ne h
  have hk : ∀ e ∈ (es.map Prod.snd).filter (fun e => entryRank e = k), entryRank e = k := by
    intro e he
    simpa using (List.mem_filter.1 he).2
  rw [look_insertAll k vs hnil, ← look_map_filter k hasc]
  generalize (es.map Prod.snd).filter (fun e => decide (entryRank e = k)) = l at hp' hd hk
  have : HppProto.look ([] : List (Nat × Val)) k = none := rfl
  rw [this, Option.or_none]
  match l, hp', hd, hk with
  | [], hp', _, _ => rw [List.nil_perm.1 hp']
  | [x], hp', _, _ => rw [List.singleton_perm.1 hp']
  | x :: y :: l, _, hd, hk =>
    have := (List.pairwise_cons.1 hd).1 y (by simp)
    rw [hk x (by simp), hk y (by simp)] at this
    exact absurd rfl this

theorem GSlot.field_name {D : GDesc} {f : GName} {card : Card} (h : .field f card ∈ D.slots) : f ∈ D.names := by
  unfold GDesc.names
  rw [List.mem_flatMap]
  exact ⟨_, h, by simp⟩

include L

theorem gen_read_elems {R : Val → JTree → Prop} {one : List Byte → Res (Val × List Byte)}
    (h : ∀ z x a t rest, R z x → Spells x t → Ws a → numChar (look rest) = false → one (a ++ t ++ rest) = .ok (z, rest))
    {js : List JTree} {vs : List Val} (hall : All2 R vs js) {a t rest : List Byte} (ht : Spells (.arr js) t) (ha : Ws a) :
    readList G one 0x5b 0x5d (a ++ t ++ rest) = .ok (vs, rest) := by
  cases ht with
  | arr hi =>
    obtain ⟨ys, h1, h2⟩ := readList_seq (opening := 0x5b) (closing := 0x5d) (one := one) (R := R) (Q := fun a b => b = a) rfl (.inl rfl)
      (fun x t h => passes_spells L (.inl rfl) h)
      (fun x t h => by obtain ⟨c, u, e, hc⟩ := spells_head h; exact ⟨c, u, e, begins_starter hc⟩)
      (fun z x a t rest h1 h2 h3 h4 => ⟨z, h z x a t rest h1 h2 h3 h4, rfl⟩) (seq_of_items hi) hall ha rest
    rw [h1, all2_eq h2]

theorem gen_read_members_list {R : Val → JStr × JTree → Prop} {one : List Byte → Res (Val × List Byte)}
    (h : ∀ z x a t rest, R z x → SpellsMember x t → Ws a → numChar (look rest) = false → one (a ++ t ++ rest) = .ok (z, rest))
    {ps : List (JStr × JTree)} {vs : List Val} (hall : All2 R vs ps) {a t rest : List Byte} (ht : Spells (.obj ps) t) (ha : Ws a) :
    readList G one 0x7b 0x7d (a ++ t ++ rest) = .ok (vs, rest) := by
  cases ht with
  | obj hi =>
    obtain ⟨ys, h1, h2⟩ := readList_seq (opening := 0x7b) (closing := 0x7d) (one := one) (R := R) (Q := fun a b => b = a) rfl (.inr rfl)
      (fun x t h => passes_member L (.inr rfl) h)
      (fun x t h => by obtain ⟨u, e⟩ := member_head h; exact ⟨_, u, e, rfl⟩)
      (fun z x a t rest h1 h2 h3 h4 => ⟨z, h z x a t rest h1 h2 h3 h4, rfl⟩) (seq_of_members hi) hall ha rest
    rw [h1, all2_eq h2]

include hr

/-- A repeated field or a map, read into an empty one. -/
theorem gen_read_list {f : GName} {card : Card} (hc : (∃ p, card = .repeated p) ∨ ∃ u, card = .map u)
    {es : List (Nat × Val)} {j : JTree} (h : gFieldForm T G utf8 genAnyStyle form f card es j)
    {a t rest : List Byte} (ht : Spells j t) (ha : Ws a) :
    genReadList T utf8 G r f card [] (a ++ t ++ rest) = .ok (es, rest) := by
  rcases hc with ⟨p, rfl⟩ | ⟨u, rfl⟩
  · obtain ⟨vs, js, rfl, hall, rfl⟩ := h
    unfold genReadList
    simp only
    rw [gen_read_elems L (fun z x a t rest h1 h2 h3 h4 => gen_read_val L hr h1 h2 h3 h4) hall ht ha]
    simp
  · obtain ⟨id, vs, ps, hty, hall, rfl, h⟩ := h
    unfold genReadList
    simp only [hty]
    cases u with
    | false =>
      simp only [Bool.false_eq_true, if_false] at h ⊢
      rw [gen_read_members_list L (fun z x a t rest h1 h2 h3 h4 => gen_read_entry L hr h1 h2 h3 h4) hall ht ha]
      simp [h]
    | true =>
      simp only [if_true] at h ⊢
      obtain ⟨hasc, hp⟩ := h
      have hp : es.Perm (vs.map fun v => (0, v)) := by simpa [genAnyStyle] using hp
      rw [skipWs_spells ha ht]
      cases ht with
      | obj hi =>
        simp only [List.cons_append, List.append_assoc, List.nil_append, expect_cons, res_bind_ok]
        rw [gen_read_map L hr hall (seq_of_members hi), insertAll_perm hasc hp]

theorem gen_list_not_null {f : GName} {card : Card} (hc : (∃ p, card = .repeated p) ∨ ∃ u, card = .map u)
    {es : List (Nat × Val)} {j : JTree} (h : gFieldForm T G utf8 genAnyStyle form f card es j) : j ≠ .null := by
  rcases hc with ⟨p, rfl⟩ | ⟨u, rfl⟩
  · obtain ⟨vs, js, rfl, hall, rfl⟩ := h
    simp
  · obtain ⟨id, vs, ps, hty, hall, rfl, h⟩ := h
    simp

theorem gen_read_field {D : GDesc} (hD : D.Ok T) {f : GName} {card : Card} (hf : .field f card ∈ D.slots)
    {es : List (Nat × Val)} {j : JTree} (h : gFieldForm T G utf8 genAnyStyle form f card es j)
    {a t rest : List Byte} (ht : Spells j t) (ha : Ws a) (hrest : numChar (look rest) = false) :
    genReadField T utf8 G r f card (GSlot.initial (.field f card)) (a ++ t ++ rest) = .ok (es, rest) := by
  unfold genReadField
  cases card with
  | «always» d =>
    obtain ⟨v, rfl, hv, hE⟩ := h
    simp only [GSlot.initial]
    have : genReadPlain T utf8 G r f.ty [(0, d)] (a ++ t ++ rest) = .ok (v, rest) := by
      have hval := gen_read_val L hr hv ht ha hrest
      cases hty : f.ty with
      | msg id =>
        cases hD.required f d hf id hty
        rw [hty] at hv
        obtain ⟨m, rfl, hm⟩ := hv
        unfold genReadPlain
        simp only [hr id m j a t rest hm ht ha hrest, res_bind_ok]
      | string =>
        rw [hty] at hv
        obtain ⟨bs, rfl, hutf, rfl⟩ := hv
        unfold genReadPlain
        simp only [skipWs_spells ha ht]
        cases ht with
        | str hs => simp only [L.readStr _ _ rest hs.1, res_bind_ok]
      | enum E =>
        obtain ⟨s, rfl⟩ := hE rfl E hty
        rw [hty] at hval
        unfold genReadVal readNum at hval
        unfold genReadPlain
        simp only [skipWs_spells ha ht] at hval ⊢
        cases ht with
        | str hs =>
          obtain ⟨u, rfl⟩ := spellsStr_head hs
          rw [if_pos (show look (0x22 :: u ++ rest) = 0x22 from rfl)]
          exact hval
      | bytes => rw [hty] at hval; exact hval
      | int _ _ => rw [hty] at hval; exact hval
      | float _ => rw [hty] at hval; exact hval
      | bool => rw [hty] at hval; exact hval
    simp only [this, res_bind_ok]
  | implicit d =>
    obtain ⟨v, rfl, hv⟩ := h
    simp only [readNull_other (gen_not_null (hD.implicits f d hf) hv) ht ha, gen_read_val L hr hv ht ha hrest, res_bind_ok]
  | optional =>
    obtain ⟨v, rfl, hv, hn⟩ := h
    have : genReadOptional T utf8 G r f.ty [] (a ++ t ++ rest) = .ok (v, rest) := by
      have hval := gen_read_val L hr hv ht ha hrest
      unfold genReadOptional
      cases hty : f.ty <;> (rw [hty] at hval; exact hval)
    simp only [readNull_other (hn rfl) ht ha, GSlot.initial, this, res_bind_ok]
  | «repeated» p =>
    simp only [readNull_other (gen_list_not_null L hr (.inl ⟨_, rfl⟩) h) ht ha, res_bind_ok, GSlot.initial,
      gen_read_list L hr (.inl ⟨_, rfl⟩) h ht ha]
  | map u =>
    simp only [readNull_other (gen_list_not_null L hr (.inr ⟨_, rfl⟩) h) ht ha, res_bind_ok, GSlot.initial,
      gen_read_list L hr (.inr ⟨_, rfl⟩) h ht ha]

omit L hr

theorem gen_read_field_null {f : GName} {card : Card} (hc : ∀ d, card ≠ .always d) (es : List (Nat × Val))
    {a rest : List Byte} (ha : Ws a) :
    genReadField T utf8 G r f card es (a ++ b!"null" ++ rest) = .ok (GSlot.initial (.field f card), rest) := by
  unfold genReadField
  cases card with
  | «always» d => exact absurd rfl (hc d)
  | implicit _ => simp only [readNull_null ha, res_bind_ok]
  | optional => simp only [readNull_null ha, res_bind_ok]
  | «repeated» _ => simp only [readNull_null ha, res_bind_ok]
  | map _ => simp only [readNull_null ha, res_bind_ok]

/-- The fields of a member of a class. -/
def GSlot.alts : GSlot → List GName
  | .field f _ => [f]
  | .oneof alts => alts

/-- No key for two fields. -/
def KeysApart (fs : List GName) : Prop := fs.Pairwise fun f g =>
    f.jsonName ≠ g.jsonName ∧ f.jsonName ≠ g.name ∧ f.name ≠ g.jsonName ∧ f.name ≠ g.name

theorem named_iff {key : List Byte} {f : GName} : f.named key = true ↔ key = f.jsonName ∨ key = f.name := by
  unfold GName.named
  rw [Bool.or_eq_true, beq_iff_eq, beq_iff_eq, eq_comm, eq_comm (a := f.name)]

theorem findIdx_named {key : List Byte} : ∀ {alts : List GName} {a : Nat} {f : GName}, KeysApart alts → alts[a]? = some f →
    f.named key = true → alts.findIdx? (GName.named key) = some a
  | [], a, f, _, h, _ => by simp at h
  | g :: alts, 0, f, _, h, hn => by
    cases h
    simp [List.findIdx?_cons, hn]
  | g :: alts, a + 1, f, hk, h, hn => by
    obtain ⟨h1, h2⟩ := List.pairwise_cons.1 hk
    have hm : f ∈ alts := List.mem_of_getElem? (by simpa using h)
    have hg : g.named key = false := by
      obtain ⟨a1, a2, a3, a4⟩ := h1 f hm
      cases hg : g.named key with
      | false => rfl
      | true =>
        rcases named_iff.1 hg with e | e <;> rcases named_iff.1 hn with e' | e' <;> rw [e] at e'
        · exact absurd e' a1
        · exact absurd e' a2
        · exact absurd e' a3
        · exact absurd e' a4
    rw [List.findIdx?_cons, hg]
    simp [findIdx_named h2 (by simpa using h) hn]

theorem find_named {key : List Byte} {sl : GSlot} {a : Nat} {f : GName} (hk : KeysApart sl.alts) (h : sl.alts[a]? = some f)
    (hn : f.named key = true) : sl.find key = some a := by
  cases sl with
  | field g card =>
    have : a = 0 ∧ g = f := by
      cases a with
      | zero => simpa [GSlot.alts] using h
      | succ a => simp [GSlot.alts] at h
    obtain ⟨rfl, rfl⟩ := this
    simp [GSlot.find, hn]
  | oneof alts => exact findIdx_named hk h hn

theorem find_other {key : List Byte} {sl : GSlot} (h : ∀ g ∈ sl.alts, g.named key = false) : sl.find key = none := by
  cases sl with
  | field g card => simp [GSlot.find, h g (by simp [GSlot.alts])]
  | oneof alts =>
    unfold GSlot.find
    rw [List.findIdx?_eq_none_iff]
    exact h

theorem findKey_named {key : List Byte} {f : GName} (hn : f.named key = true) : ∀ {slots : List GSlot} {i k a : Nat} {sl : GSlot},
    KeysApart (slots.flatMap GSlot.alts) → slots[i]? = some sl → sl.alts[a]? = some f → findKey key k slots = some (k + i, a, sl)
  | [], i, _, _, _, _, h, _ => by simp at h
  | sl :: slots, 0, k, a, _, hk, h, ha => by
    cases h
    rw [List.flatMap_cons] at hk
    have := (List.pairwise_append.1 hk).1
    rw [findKey, find_named this ha hn]
    rfl
  | s0 :: slots, i + 1, k, a, sl, hk, h, ha => by
    rw [List.flatMap_cons] at hk
    obtain ⟨_, h2, h3⟩ := List.pairwise_append.1 hk
    have hm : f ∈ slots.flatMap GSlot.alts :=
      List.mem_flatMap.2 ⟨sl, List.mem_of_getElem? (by simpa using h), List.mem_of_getElem? ha⟩
    have hother : ∀ g ∈ s0.alts, g.named key = false := by
      intro g hg
      obtain ⟨a1, a2, a3, a4⟩ := h3 g hg f hm
      cases hg : g.named key with
      | false => rfl
      | true =>
        rcases named_iff.1 hg with e | e <;> rcases named_iff.1 hn with e' | e' <;> rw [e] at e'
        · exact absurd e' a1
        · exact absurd e' a2
        · exact absurd e' a3
        · exact absurd e' a4
    rw [findKey, find_other hother]
    simp only
    rw [findKey_named hn h2 (by simpa using h) ha]
    simp
    omega

theorem names_alts (D : GDesc) : D.names = D.slots.flatMap GSlot.alts := by
  unfold GDesc.names
  congr 1

/-- Some members of the class are read, the others as in a new object. -/
structure GPartly (D : GDesc) (m : Msg) (P : List (Nat × Nat)) (cur : Msg) : Prop where
  unk : cur.unk = []
  length : cur.slots.length = D.slots.length
  fields : ∀ t ∈ P, ∀ f c, D.slots[t.1]? = some (.field f c) → t.2 = 0
  done : ∀ i sl, D.slots[i]? = some sl → (∃ a, (i, a) ∈ P) → cur.get i = m.get i
  rest : ∀ i sl, D.slots[i]? = some sl → (∀ a, (i, a) ∉ P) → cur.get i = sl.initial

theorem default_get {D : GDesc} {i : Nat} {sl : GSlot} (h : D.slots[i]? = some sl) : D.default.get i = sl.initial := by
  unfold GDesc.default
  simp [MsgOf.get, h]

theorem gpartly_default (D : GDesc) (m : Msg) : GPartly D m [] D.default where
  unk := rfl
  length := by simp [GDesc.default]
  fields := by simp
  done := by simp
  rest i sl h _ := default_get h

theorem gpartly_put {D : GDesc} {m cur : Msg} {P : List (Nat × Nat)} (h : GPartly D m P cur) {t : Nat × Nat} {sl : GSlot}
    (ht : D.slots[t.1]? = some sl) (h0 : ∀ f c, sl = .field f c → t.2 = 0) :
    GPartly D m (t :: P) (cur.put t.1 (m.get t.1)) where
  unk := h.unk
  length := by rw [put_length, h.length]
  fields := by
    intro u hu f c hf
    rcases List.mem_cons.1 hu with rfl | hu
    · rw [ht] at hf
      exact h0 f c (Option.some.inj hf)
    · exact h.fields u hu f c hf
  done := by
    intro i sl' hi ⟨a, ha⟩
    have hl : i < cur.slots.length := by
      rw [h.length]
      exact (List.getElem?_eq_some_iff.1 hi).1
    by_cases e : i = t.1
    · subst e
      exact get_put_self hl
    · rw [get_put_ne (fun x => e x.symm)]
      refine h.done i sl' hi ⟨a, ?_⟩
      rcases List.mem_cons.1 ha with rfl | ha
      · exact absurd rfl e
      · exact ha
  rest := by
    intro i sl' hi ha
    have e : i ≠ t.1 := by
      rintro rfl
      exact ha t.2 (by simp)
    rw [get_put_ne (fun x => e x.symm)]
    exact h.rest i sl' hi (fun a hm => ha a (by simp [hm]))

theorem msg_ext {m m' : Msg} (hu : m.unk = m'.unk) (hl : m.slots.length = m'.slots.length)
    (h : ∀ i, i < m.slots.length → m.get i = m'.get i) : m = m' := by
  cases m with
  | mk s u =>
    cases m' with
    | mk s' u' =>
      cases hu
      congr 1
      refine List.ext_getElem hl (fun i h1 h2 => ?_)
      have := h i h1
      simpa [MsgOf.get, List.getD_eq_getElem?_getD, h1, show i < s'.length from h2] using this

include L hr

/-- One member after its key. -/
theorem gen_read_slot {D : GDesc} (hD : D.Ok T) {m cur : Msg} {P : List (Nat × Nat)} (h : GPartly D m P cur) {t : Nat × Nat}
    (hP : t ∉ P) {p : JStr × JTree} (hm : gMemberForm T G utf8 genAnyStyle form D m t p) :
    ∃ sl f, D.slots[t.1]? = some sl ∧ sl.alts[t.2]? = some f ∧ f.named p.1.text = true ∧ (∀ g c, sl = .field g c → t.2 = 0) ∧
      ∀ a s rest, Spells p.2 s → Ws a → numChar (look rest) = false →
        genReadSlot T utf8 G r sl t.2 (cur.get t.1) (a ++ s ++ rest) = .ok (m.get t.1, rest) := by
  obtain ⟨_, hm⟩ := hm
  split at hm
  · exact hm.elim
  · rename_i f card hs
    obtain ⟨h0, hkey, hm⟩ := hm
    refine ⟨_, f, hs, by simp [h0, GSlot.alts], named_iff.2 hkey, fun _ _ _ => h0, ?_⟩
    intro a s rest hsp ha hrest
    have hini : cur.get t.1 = GSlot.initial (.field f card) := by
      refine h.rest _ _ hs (fun b hb => ?_)
      have := h.fields _ hb f card hs
      simp only at this
      apply hP
      rw [show t = (t.1, t.2) from rfl, h0, ← this]
      exact hb
    unfold genReadSlot
    simp only
    rcases hm with hm | ⟨_, hc, he, hn⟩
    · rw [hini]
      exact gen_read_field L hr hD (List.mem_of_getElem? hs) hm hsp ha hrest
    · rw [hn] at hsp
      cases hsp
      rw [gen_read_field_null hc _ ha, he]
  · rename_i alts hs
    obtain ⟨f, hf, hkey, hm⟩ := hm
    refine ⟨_, f, hs, hf, named_iff.2 hkey, (fun _ _ e => by cases e), ?_⟩
    intro a s rest hsp ha hrest
    unfold genReadSlot
    simp only
    rcases hm with ⟨v, hv, hform, hn⟩ | ⟨_, he, hn⟩
    · simp only [readNull_other (hn rfl) hsp ha, res_bind_ok, hf, gen_read_val L hr hform hsp ha hrest, hv]
    · rw [hn] at hsp
      cases hsp
      simp only [readNull_null ha, res_bind_ok, he]

/-- One member. -/
theorem gen_read_member {D : GDesc} (hD : D.Ok T) {m cur : Msg} {P : List (Nat × Nat)} (h : GPartly D m P cur) {t : Nat × Nat}
    (hP : t ∉ P) {p : JStr × JTree} (hm : gMemberForm T G utf8 genAnyStyle form D m t p) {s rest : List Byte}
    (hs : SpellsMember p s) (hrest : numChar (look rest) = false) :
    GPartly D m (t :: P) (cur.put t.1 (m.get t.1)) ∧
    (∀ fuel, genReadMembers T utf8 G r D (fuel + 1) true cur (s ++ rest) =
      genReadMembers T utf8 G r D fuel false (cur.put t.1 (m.get t.1)) (skipWs rest)) ∧
    (∀ fuel a, Ws a → genReadMembers T utf8 G r D (fuel + 1) false cur (0x2c :: (a ++ s ++ rest)) =
      genReadMembers T utf8 G r D fuel false (cur.put t.1 (m.get t.1)) (skipWs rest)) := by
  obtain ⟨sl, f, h1, h2, h3, h4, h5⟩ := gen_read_slot L hr hD h hP hm
  have hfind : findKey p.1.text 0 D.slots = some (t.1, t.2, sl) := by
    have hk := hD.keys
    rw [names_alts] at hk
    have := findKey_named (k := 0) h3 hk h1 h2
    simpa using this
  have hplain := hm.1
  obtain ⟨u, hu⟩ := member_head hs
  have hl : look (s ++ rest) ≠ 0x7d := by
    rw [hu]
    show (0x22 : Byte) ≠ 0x7d
    decide
  have hskip : ∀ a, Ws a → skipWs (a ++ s ++ rest) = s ++ rest := by
    intro a ha
    rw [hu]
    simpa using skipWs_starts ha (show isWs 0x22 = false from rfl) (u ++ rest)
  cases hs with
  | @mk k x sk a1 b1 tx hsk ha1 hb1 htx =>
    have e : (sk ++ a1 ++ 0x3a :: b1 ++ tx) ++ rest = sk ++ (a1 ++ 0x3a :: (b1 ++ (tx ++ rest))) := by simp
    have hview : G.readView (sk ++ (a1 ++ 0x3a :: (b1 ++ (tx ++ rest)))) = .ok (k.text, a1 ++ 0x3a :: (b1 ++ (tx ++ rest))) := by
      obtain ⟨hp, he⟩ := hsk.2 hplain
      have := L.readView _ (a1 ++ 0x3a :: (b1 ++ (tx ++ rest))) hp
      rw [he]
      simpa using this
    have hslot := h5 [] tx rest htx ws_nil hrest
    rw [List.nil_append] at hslot
    refine ⟨gpartly_put h h1 h4, ?_, ?_⟩
    · intro fuel
      rw [genReadMembers, if_neg hl]
      simp only [if_true, res_bind_ok]
      rw [e]
      simp only [hview, res_bind_ok, readColon_spells ha1 hb1 htx, hfind, hslot]
    · intro fuel a ha
      rw [genReadMembers, if_neg (look_comma _)]
      simp only [Bool.false_eq_true, if_false, expect_cons, res_bind_ok]
      rw [hskip a ha, e]
      simp only [hview, res_bind_ok, readColon_spells ha1 hb1 htx, hfind, hslot]

theorem gen_read_members {D : GDesc} (hD : D.Ok T) {m : Msg} (rest : List Byte) {ps : List (JStr × JTree)} {t : List Byte}
    (hseq : Seq SpellsMember ps t) :
    ∀ {ts : List (Nat × Nat)} {P : List (Nat × Nat)} {cur : Msg}, GPartly D m P cur → (∀ x ∈ ts, x ∉ P) → ts.Nodup →
      All2 (gMemberForm T G utf8 genAnyStyle form D m) ts ps →
      ∀ fuel, ps.length < fuel →
      ∃ cur', genReadMembers T utf8 G r D fuel false cur (following ps t ++ 0x7d :: rest) = .ok (cur', rest) ∧
        GPartly D m (ts.reverse ++ P) cur' := by
  induction hseq with
  | nil ha =>
    intro ts P cur h _ _ hall fuel hfuel
    cases all2_nil_right hall
    obtain ⟨fuel, rfl⟩ : ∃ k, fuel = k + 1 := ⟨fuel - 1, by simp at hfuel; omega⟩
    refine ⟨cur, ?_, by simpa using h⟩
    rw [genReadMembers]
    simp [following]
  | @one p a t b ha hx hb =>
    intro ts P cur h hf hnd hall fuel hfuel
    obtain ⟨u, ts, rfl, hu, hrest⟩ := all2_cons_right hall
    cases all2_nil_right hrest
    obtain ⟨fuel, rfl⟩ : ∃ k, fuel = k + 1 + 1 := ⟨fuel - 2, by simp at hfuel; omega⟩
    obtain ⟨h1, _, h3⟩ := gen_read_member L hr hD h (hf u (by simp)) hu hx (rest := b ++ 0x7d :: rest) (numChar_ws hb rfl _)
    refine ⟨_, ?_, by simpa using h1⟩
    have e : following [p] (a ++ t ++ b) ++ 0x7d :: rest = 0x2c :: (a ++ t ++ (b ++ 0x7d :: rest)) := by
      simp [following]
    rw [e, h3 _ a ha, skipWs_starts hb rfl, genReadMembers]
    simp
  | @more p q ms a t b r' ha hx hb hrr ih =>
    intro ts P cur h hf hnd hall fuel hfuel
    obtain ⟨u, ts, rfl, hu, hrest⟩ := all2_cons_right hall
    obtain ⟨fuel, rfl⟩ : ∃ k, fuel = k + 1 := ⟨fuel - 1, by omega⟩
    obtain ⟨h1, _, h3⟩ := gen_read_member L hr hD h (hf u (by simp)) hu hx (rest := b ++ 0x2c :: (r' ++ 0x7d :: rest)) (numChar_ws hb rfl _)
    obtain ⟨n1, n2⟩ := List.nodup_cons.1 hnd
    obtain ⟨m'', h4, h5⟩ := ih h1 (fun x hx => by
        intro hm
        rcases List.mem_cons.1 hm with rfl | hm
        · exact n1 hx
        · exact hf x (by simp [hx]) hm) n2 hrest fuel
      (by rw [List.length_cons] at hfuel; omega)
    refine ⟨m'', ?_, by simpa using h5⟩
    have e : following (p :: q :: ms) (a ++ t ++ b ++ 0x2c :: r') ++ 0x7d :: rest =
        0x2c :: (a ++ t ++ (b ++ 0x2c :: (r' ++ 0x7d :: rest))) := by
      simp [following]
    rw [e, h3 _ a ha, skipWs_starts hb rfl]
    simpa [following] using h4

theorem gen_read_object {id : Nat} (hD : (T id).Ok T) (hwk : (T id).wk = .none) {m : Msg} {j : JTree} (hunk : m.unk = [])
    (hlen : m.slots.length = (T id).slots.length)
    (h : gObjectForm T G utf8 genAnyStyle form (T id) m j) {a t rest : List Byte} (ht : Spells j t) (ha : Ws a) :
    genReadBody T utf8 G r id (T id).default (a ++ t ++ rest) = .ok (m, rest) := by
  obtain ⟨ts, ps, hall, hnd, habs, _, rfl⟩ := h
  have final : ∀ {cur : Msg}, GPartly (T id) m ts.reverse cur → cur = m := by
    intro cur hc
    refine msg_ext (hc.unk.trans hunk.symm) (hc.length.trans hlen.symm) (fun i hi => ?_)
    obtain ⟨sl, hsl⟩ : ∃ sl, (T id).slots[i]? = some sl := ⟨_, List.getElem?_eq_getElem (by rw [← hc.length]; exact hi)⟩
    by_cases hex : ∃ a, (i, a) ∈ ts
    · obtain ⟨a, ha⟩ := hex
      exact hc.done i sl hsl ⟨a, by simpa using ha⟩
    · have hno : ∀ a, (i, a) ∉ ts := fun a ha => hex ⟨a, ha⟩
      rw [hc.rest i sl hsl (fun a ha => hno a (by simpa using ha)), habs i sl hsl hno]
  unfold genReadBody
  simp only [hwk]
  cases ht with
  | obj hm =>
    rename_i t
    have hseq := seq_of_members hm
    have e : a ++ (0x7b :: t ++ [0x7d]) ++ rest = a ++ 0x7b :: (t ++ 0x7d :: rest) := by simp
    rw [e, skipWs_starts ha rfl]
    simp only [expect_cons, res_bind_ok]
    obtain ⟨t', hseq', hstrip⟩ := seq_strip (fun _ _ h => by obtain ⟨u, e⟩ := member_head h; exact ⟨_, u, e, rfl⟩) hseq
      (show isWs 0x7d = false from rfl) rest
    have hlen : ps.length < (skipWs (t ++ 0x7d :: rest)).length + 1 := by
      rw [hstrip]
      have := seq_length hseq'
      simp
      omega
    generalize hfuel : (skipWs (t ++ 0x7d :: rest)).length + 1 = fuel at hlen ⊢
    have h0 := gpartly_default (T id) m
    cases hseq with
    | nil ha =>
      cases all2_nil_right hall
      obtain ⟨fuel, rfl⟩ : ∃ k, fuel = k + 1 := ⟨fuel - 1, by omega⟩
      rw [skipWs_starts ha rfl, genReadMembers]
      have := final (by simpa using h0)
      simp [this]
    | @one p a' t b ha' hx hb =>
      obtain ⟨u, ts, rfl, hu, hrest⟩ := all2_cons_right hall
      cases all2_nil_right hrest
      obtain ⟨fuel, rfl⟩ : ∃ k, fuel = k + 1 + 1 := ⟨fuel - 2, by simp at hlen; omega⟩
      obtain ⟨h1, h2, _⟩ := gen_read_member L hr hD h0 (by simp) hu hx (rest := b ++ 0x7d :: rest) (numChar_ws hb rfl _)
      have hfin := final (by simpa using h1)
      obtain ⟨w, hw⟩ := member_head hx
      have e : skipWs (a' ++ t ++ b ++ 0x7d :: rest) = t ++ (b ++ 0x7d :: rest) := by
        rw [hw]
        simpa using skipWs_starts ha' (show isWs 0x22 = false from rfl) (w ++ (b ++ 0x7d :: rest))
      rw [e, h2, skipWs_starts hb rfl, genReadMembers, hfin]
      simp
    | @more p q ms a' t b r' ha' hx hb hrr =>
      obtain ⟨u, ts, rfl, hu, hrest⟩ := all2_cons_right hall
      obtain ⟨fuel, rfl⟩ : ∃ k, fuel = k + 1 := ⟨fuel - 1, by omega⟩
      obtain ⟨h1, h2, _⟩ := gen_read_member L hr hD h0 (by simp) hu hx (rest := b ++ 0x2c :: (r' ++ 0x7d :: rest)) (numChar_ws hb rfl _)
      obtain ⟨n1, n2⟩ := List.nodup_cons.1 hnd
      obtain ⟨cur, h4, h5⟩ := gen_read_members L hr hD rest hrr h1 (fun x hx => by
          intro hm
          rcases List.mem_cons.1 hm with rfl | hm
          · exact n1 hx
          · cases hm) n2 hrest fuel (by rw [List.length_cons] at hlen; omega)
      have hfin := final (by simpa using h5)
      obtain ⟨w, hw⟩ := member_head hx
      have e : skipWs (a' ++ t ++ b ++ 0x2c :: r' ++ 0x7d :: rest) = t ++ (b ++ 0x2c :: (r' ++ 0x7d :: rest)) := by
        rw [hw]
        simpa using skipWs_starts ha' (show isWs 0x22 = false from rfl) (w ++ (b ++ 0x2c :: (r' ++ 0x7d :: rest)))
      rw [e, h2, skipWs_starts hb rfl]
      rw [hfin] at h4
      simpa [following] using h4

/-- The only field of a message, when it is a repeated field or a map. -/
theorem gen_read_sole {id : Nat} {f : GName} {card : Card} (hs : (T id).slots = [.field f card])
    (hc : (∃ p, card = .repeated p) ∨ ∃ u, card = .map u) {m : Msg} {j : JTree}
    (h : gSoleForm T G utf8 genAnyStyle form id m j) {a t rest : List Byte} (ht : Spells j t) (ha : Ws a) :
    genReadSole T utf8 G r id (T id).default (a ++ t ++ rest) = .ok (m, rest) := by
  obtain ⟨f', card', es, hs', rfl, hf⟩ := h
  rw [hs] at hs'
  cases hs'
  have h0 : (T id).default = ⟨[[]], []⟩ := by
    unfold GDesc.default
    rw [hs]
    rcases hc with ⟨p, rfl⟩ | ⟨u, rfl⟩ <;> rfl
  unfold genReadSole
  rw [hs, h0]
  simp only [MsgOf.get, List.getD_cons_zero, gen_read_list L hr hc hf ht ha, res_bind_ok]
  rfl

theorem gen_sole_tree {id : Nat} {f : GName} {card : Card} (hs : (T id).slots = [.field f card]) {m : Msg} {j : JTree}
    (h : gSoleForm T G utf8 genAnyStyle form id m j) :
    (∀ p, card = .repeated p → ∃ js, j = .arr js) ∧ (∀ u, card = .map u → ∃ ps, j = .obj ps) := by
  obtain ⟨f', card', es, hs', rfl, hf⟩ := h
  rw [hs] at hs'
  cases hs'
  constructor
  · rintro p rfl
    obtain ⟨_, js, _, _, rfl⟩ := hf
    exact ⟨js, rfl⟩
  · rintro u rfl
    obtain ⟨_, _, ps, _, _, rfl, _⟩ := hf
    exact ⟨ps, rfl⟩

theorem gen_read_value {id : Nat} (hD : (T id).Ok T) (hwk : (T id).wk = .value) {m : Msg} {j : JTree} (hunk : m.unk = [])
    (h : ∃ alts a v f, (T id).slots = [.oneof alts] ∧ m.slots = [[(a, v)]] ∧ alts[a]? = some f ∧
        match f.ty with
        | .enum _ => v = .num 0 ∧ j = .null
        | .msg sid => ∃ s, v = .msg s ∧ gSoleForm T G utf8 genAnyStyle form sid s j
        | ty => gValForm G utf8 genAnyStyle form ty v j)
    {a t rest : List Byte} (ht : Spells j t) (ha : Ws a) (hrest : numChar (look rest) = false) :
    genReadValue T utf8 G r (T id) (T id).default (a ++ t ++ rest) = .ok (m, rest) := by
  obtain ⟨alts, k, v, f, hs, hm, hf, hv⟩ := h
  obtain ⟨nul, num, str, bool, struct, list, E, sid, lid, sf, sc, lf, lc, hs', t1, t2, t3, t4, t5, t6, s1, t7, l1⟩ := hD.values hwk
  rw [hs] at hs'
  obtain rfl : alts = [nul, num, str, bool, struct, list] := by simpa using hs'
  have h0 : (T id).default = ⟨[[]], []⟩ := by
    unfold GDesc.default
    rw [hs]
    rfl
  have hput : ∀ x, (⟨[[]], []⟩ : Msg).put 0 [x] = ⟨[[x]], []⟩ := fun x => rfl
  have hmm : m = ⟨[[(k, v)]], []⟩ := by
    cases m with
    | mk s u => cases hm; cases hunk; rfl
  unfold genReadValue
  simp only [skipWs_spells ha ht, h0, hs, hput]
  obtain ⟨c, u, e, hc⟩ := spells_head ht
  have hlook : look (t ++ rest) = c := by rw [e]; rfl
  rw [hlook]
  have plain : ∀ {ty : JType} {v : Val}, gValForm G utf8 genAnyStyle form ty v j → (∀ id, ty ≠ .msg id) →
      genReadAlt T utf8 G r ty (t ++ rest) = .ok (v, rest) := by
    intro ty v hv hty
    have := gen_read_val L hr hv ht ws_nil hrest
    rw [List.nil_append] at this
    unfold genReadAlt
    split
    · exact absurd rfl (hty _)
    · exact this
  have sole : ∀ {id : Nat} {f : GName} {card : Card} {s : Msg}, (T id).slots = [.field f card] →
      ((∃ p, card = .repeated p) ∨ ∃ u, card = .map u) → gSoleForm T G utf8 genAnyStyle form id s j →
      genReadAlt T utf8 G r (.msg id) (t ++ rest) = .ok (.msg s, rest) := by
    intro id f card s h1 h2 h3
    have := gen_read_sole L hr h1 h2 h3 (rest := rest) ht ws_nil
    rw [List.nil_append] at this
    unfold genReadAlt
    simp only [this, res_bind_ok]
  rw [hmm]
  match k, hf with
  | 0, hf =>
    obtain rfl : nul = f := by simpa using hf
    rw [t1] at hv
    obtain ⟨rfl, rfl⟩ := hv
    cases hc
    cases ht
    have : valueAlt 0x6e = some 0 := by decide
    simp only [this, expectText_append, res_bind_ok]
  | 1, hf =>
    obtain rfl : num = f := by simpa using hf
    rw [t3] at hv
    have hv' := hv
    obtain ⟨_, _, _, rfl⟩ := hv'
    have : valueAlt c = some 1 := by
      have hd : (isDigit c || c == 0x2d) = true := by simpa [JTree.begins] using hc
      have : c ≠ 0x6e := (digit_starter hc).2.1
      unfold valueAlt
      rw [if_neg this, if_pos hd]
    simp only [this, List.getElem?_cons_succ, List.getElem?_cons_zero, t3, plain hv (by simp), res_bind_ok]
  | 2, hf =>
    obtain rfl : str = f := by simpa using hf
    rw [t4] at hv
    have hv' := hv
    obtain ⟨_, _, _, rfl⟩ := hv'
    cases hc
    have : valueAlt 0x22 = some 2 := by decide
    simp only [this, List.getElem?_cons_succ, List.getElem?_cons_zero, t4, plain hv (by simp), res_bind_ok]
  | 3, hf =>
    obtain rfl : bool = f := by simpa using hf
    rw [t5] at hv
    have hv' := hv
    obtain ⟨_, _, hb⟩ := hv'
    have : valueAlt c = some 3 := by
      rcases hb with ⟨_, rfl⟩ | ⟨_, rfl⟩ <;> cases hc <;> decide
    simp only [this, List.getElem?_cons_succ, List.getElem?_cons_zero, t5, plain hv (by simp), res_bind_ok]
  | 4, hf =>
    obtain rfl : struct = f := by simpa using hf
    rw [t6] at hv
    obtain ⟨s, rfl, hv⟩ := hv
    obtain ⟨ps, rfl⟩ := (gen_sole_tree L hr s1 hv).2 _ rfl
    cases hc
    have : valueAlt 0x7b = some 4 := by decide
    simp only [this, List.getElem?_cons_succ, List.getElem?_cons_zero, t6, sole s1 (.inr ⟨_, rfl⟩) hv, res_bind_ok]
  | 5, hf =>
    obtain rfl : list = f := by simpa using hf
    rw [t7] at hv
    obtain ⟨s, rfl, hv⟩ := hv
    obtain ⟨ps, rfl⟩ := (gen_sole_tree L hr l1 hv).1 _ rfl
    cases hc
    have : valueAlt 0x5b = some 5 := by decide
    simp only [this, List.getElem?_cons_succ, List.getElem?_cons_zero, t7, sole l1 (.inl ⟨_, rfl⟩) hv, res_bind_ok]
  | k + 6, hf => simp at hf

end

/-- The reader gives the message from every text of its form. -/
theorem gen_read_level {T : GTypes} {G : Glaze} {utf8 : List Byte → Bool} (L : G.Lawful) (hT : ∀ id, (T id).Ok T) :
    ∀ d, GReads T (GFormAt T G utf8 genAnyStyle d) (genReadLevel T utf8 G d) := by
  intro d
  induction d with
  | zero => intro id m j a t rest h; exact h.elim
  | succ d ih =>
    intro id m j a t rest h ht ha hrest
    have hD := hT id
    obtain ⟨hunk, hlen, h⟩ := h
    rw [genReadLevel]
    cases hwk : (T id).wk with
    | none =>
      rw [hwk] at h
      exact gen_read_object L ih hD hwk hunk hlen h ht ha
    | any => rw [hwk] at h; exact h.elim
    | timestamp =>
      rw [hwk] at h
      obtain ⟨x, y, u, hm, hu, rfl⟩ := h
      obtain ⟨fa, fb, ca, cb, hs, _⟩ := hD.timestamps (.inl hwk)
      unfold genReadBody
      simp only [hwk]
      unfold genReadTwo
      simp only [skipWs_spells ha ht]
      cases ht with
      | str hs' =>
        obtain ⟨hp, rfl⟩ := hs'.2 rfl
        have hview := L.readView u rest hp
        have hdec : timestampDecode u = some (x.toInt, y.toInt) := by
          by_cases hok : Props.timestampOk x.toInt y.toInt
          · obtain ⟨q, _, _, _, h4, _, h5⟩ := (Props.C32_round_trip x.toInt y.toInt).1 hok
            rw [h4] at hu
            cases hu
            exact h5
          · rw [(Props.C32_round_trip x.toInt y.toInt).2 hok] at hu; cases hu
        simp only [List.cons_append, List.append_assoc, List.nil_append] at hview ⊢
        simp only [hview, res_bind_ok, hdec, BitVec.ofInt_toInt]
        cases m with
        | mk s u =>
          cases hm; cases hunk
          unfold GDesc.default
          rw [hs]
          rfl
    | duration =>
      rw [hwk] at h
      obtain ⟨x, y, u, hm, hu, rfl⟩ := h
      obtain ⟨fa, fb, ca, cb, hs, _⟩ := hD.timestamps (.inr hwk)
      unfold genReadBody
      simp only [hwk]
      unfold genReadTwo
      simp only [skipWs_spells ha ht]
      cases ht with
      | str hs' =>
        obtain ⟨hp, rfl⟩ := hs'.2 rfl
        have hview := L.readView u rest hp
        have hdec : durationDecode u = some (x.toInt, y.toInt) := by
          by_cases hok : Spec.durationOk x.toInt y.toInt
          · obtain ⟨q, h4, h5⟩ := (Props.C31_round_trip x.toInt y.toInt).1 hok
            rw [h4] at hu
            cases hu
            exact h5
          · rw [(Props.C31_round_trip x.toInt y.toInt).2 hok] at hu; cases hu
        simp only [List.cons_append, List.append_assoc, List.nil_append] at hview ⊢
        simp only [hview, res_bind_ok, hdec, BitVec.ofInt_toInt]
        cases m with
        | mk s u =>
          cases hm; cases hunk
          unfold GDesc.default
          rw [hs]
          rfl
    | fieldMask =>
      rw [hwk] at h
      obtain ⟨ps, hm, hc, hne, rfl⟩ := h
      obtain ⟨f, c, hs, _⟩ := hD.masks hwk
      have hdec : fieldMaskDecode (List.intercalate [0x2c] ps) = ps := by
        have := (Props.C34_round_trip ps).2 ⟨hc, hne⟩
        rw [(Props.C34_text ps).1] at this
        simpa using this
      unfold genReadBody
      simp only [hwk]
      unfold genReadMask
      simp only [skipWs_spells ha ht]
      cases ht with
      | str hs' =>
        simp only [L.readStr _ _ rest hs'.1, res_bind_ok, hdec]
        cases m with
        | mk s u =>
          cases hm; cases hunk
          unfold GDesc.default
          rw [hs]
          rfl
    | value =>
      rw [hwk] at h
      unfold genReadBody
      simp only [hwk]
      exact gen_read_value L ih hD hwk hunk h ht ha hrest
    | struct =>
      rw [hwk] at h
      obtain ⟨f, u, _, _, _, _, _, _, hs, _⟩ := hD.structs hwk
      unfold genReadBody
      simp only [hwk]
      exact gen_read_sole L ih hs (.inr ⟨_, rfl⟩) h ht ha
    | listValue =>
      rw [hwk] at h
      obtain ⟨f, p, hs⟩ := hD.lists hwk
      unfold genReadBody
      simp only [hwk]
      exact gen_read_sole L ih hs (.inl ⟨_, rfl⟩) h ht ha
    | wrapper =>
      rw [hwk] at h
      obtain ⟨f, c, v, hs, hm, hv⟩ := h
      unfold genReadBody
      simp only [hwk]
      unfold genReadWrapper
      rw [hs]
      simp only [gen_read_val L ih hv ht ha hrest, res_bind_ok]
      cases m with
      | mk s u =>
        cases hm; cases hunk
        unfold GDesc.default
        rw [hs]
        rfl

/-- Nothing in the text is left over. -/
theorem gen_read_text {T : GTypes} {G : Glaze} {utf8 : List Byte → Bool} (L : G.Lawful) (hT : ∀ id, (T id).Ok T)
    {d id : Nat} {m old : Msg} {j : JTree} (h : GFormAt T G utf8 genAnyStyle d id m j) {t : List Byte} (ht : JsonText j t) :
    genRead T utf8 G d id old t = .ok m := by
  obtain ⟨a, u, b, ha, hu, hb, rfl⟩ := ht
  have hb' : numChar (look b) = false := by
    have := numChar_ws hb (show numChar 0 = false from rfl) []
    cases b with
    | nil => rfl
    | cons c b => exact this
  have e : skipWs b = [] := by
    have := skipWs_append (s := []) hb
    simpa [skipWs] using this
  rw [genRead, gen_read_level L hT d id m j a u b h hu ha hb']
  simp only [res_bind_ok]
  rw [if_pos e]

end HppProto.Json
