import Verif.Spec.GenJson
import Verif.Proofs.JsonWrite
/-! The writer of generated messages writes the JSON form. -/
namespace HppProto.Json
open HppProto

theorem genList_arr (o : JOpts) (ind : Nat) {js : List JTree} {ts : List (List Byte)} (h : All2 Spells js ts) :
    Spells (.arr js) (genList o ind 0x5b 0x5d ts) := by
  have := Spells.arr (items_of_seq (seq_intercalate (ws_line o (o.deeper ind)) (ws_line o ind) h (ws_line o (o.deeper ind))))
  simpa [genList] using this

theorem genList_obj (o : JOpts) (ind : Nat) {ms : List (JStr × JTree)} {ts : List (List Byte)}
    (h : All2 SpellsMember ms ts) : Spells (.obj ms) (genList o ind 0x7b 0x7d ts) := by
  have := Spells.obj (members_of_seq (seq_intercalate (ws_line o (o.deeper ind)) (ws_line o ind) h (ws_line o (o.deeper ind))))
  simpa [genList] using this

theorem setWidth_range {v : BitVec 64} (h0 : -2 ^ 31 ≤ v.toInt) (h1 : v.toInt < 2 ^ 31) :
    (v.setWidth 32).toInt = v.toInt ∧ (v.setWidth 32).signExtend 64 = v := by
  have e : (v.setWidth 32).toInt = v.toInt := by
    have : (v.setWidth 32).toInt = v.toInt.bmod (2 ^ 32) := by
      rw [BitVec.toInt_eq_toNat_bmod, BitVec.toNat_setWidth, BitVec.toInt_eq_toNat_bmod]
      simp only [Int.bmod_def]
      omega
    rw [this, Int.bmod_def]
    omega
  refine ⟨e, ?_⟩
  apply BitVec.eq_of_toInt_eq
  rw [BitVec.toInt_signExtend_of_le (by decide), e]

theorem gen_enum_spells {E : EnumInfo} (hE : E.Named) (hn : E.isNull = false) {v : BitVec 64} {j : JTree}
    (h : enumFirst E v j) : Spells j (genEnumText E v) := by
  unfold genEnumText
  simp only [hn, Bool.false_eq_true, if_false]
  rcases h with ⟨p, hp, rfl, rfl⟩ | ⟨hnone, h0, h1, rfl⟩
  · rw [signExtend_setWidth]
    obtain ⟨q, hq, _, e⟩ := nameOf_mem hp
    rw [e, if_neg (hE q hq).1]
    exact .str (spellsStr_plain (hE q hq).2)
  · obtain ⟨e1, e2⟩ := setWidth_range h0 h1
    rw [if_pos (nameOf_none (fun p hp e => hnone p hp (by rw [← e, e2]))), e1]
    exact .num (numText_int (by omega))

theorem strs_map : ∀ ps : List (List Byte), (ps.map fun p => ((0 : Nat), Val.bytes p)).map (fun e => e.2.str) = ps
  | [] => rfl
  | p :: ps => by
    have := strs_map ps
    rw [List.map_cons, List.map_cons, this]
    rfl

/-- The style of the writer, lossy or not. -/
structure GStyle.Written (S : GStyle) (preserve always : Bool) : Prop where
  key : ∀ f k, S.key f k → k = if preserve then f.name else f.jsonName
  enum : ∀ E v j, S.enum E v j → enumFirst E v j
  shown : S.shown = some (Shown always)
  nulls : S.nulls = false

theorem genStyle_written (preserve always lossy : Bool) : (genStyle preserve always lossy).Written preserve always :=
  ⟨fun _ _ h => h, fun _ _ _ h => h, rfl, rfl⟩

/-- The writer writes the form. -/
def GWrites (form : Nat → Msg → JTree → Prop) (w : GWriter) : Prop :=
  ∀ ind id m j, form id m j → ∃ t, w ind id m = .ok t ∧ Spells j t

section
variable {T : GTypes} {G : Glaze} {utf8 : List Byte → Bool} {o : GOpts} {S : GStyle}
  {form : Nat → Msg → JTree → Prop} {w : GWriter} (L : G.Lawful)
  (hS : S.Written o.jopts.preserve o.always) (hw : GWrites form w)

include L hS in
theorem gen_num_spells {q : Bool} {ty : JType} (hE : ∀ E, ty = .enum E → E.Named) (hq : q = true ∨ ∀ s, ty ≠ .int s true)
    {v : BitVec 64} {j : JTree} (h : numForm G S.num ty v j) : Spells j (genNumText G q ty v) := by
  cases ty with
  | int signed wide =>
    obtain ⟨n, hn, rfl⟩ := h
    obtain ⟨rfl, h1, h2⟩ := intForm_iff.mp hn
    cases wide with
    | true =>
      rcases hq with rfl | hq
      · exact .str (spellsStr_plain (intText_plain _))
      · exact absurd rfl (hq signed)
    | false => simpa [genNumText] using Spells.num (numText_int (intRange_small h1 h2))
  | float wide =>
    obtain ⟨h1, rfl⟩ := h
    exact .num (L.writeFloat _ _ h1)
  | bool =>
    rcases h with ⟨rfl, rfl⟩ | ⟨rfl, rfl⟩
    · exact .false
    · exact .true
  | enum E => exact gen_enum_spells (hE E rfl) h.1 (hS.enum _ _ _ h.2)
  | string => exact h.elim
  | bytes => exact h.elim
  | msg id => exact h.elim

include L hS hw in
theorem gen_val {q : Bool} {ty : JType} (hE : ∀ E, ty = .enum E → E.Named) (hq : q = true ∨ ∀ s, ty ≠ .int s true)
    {v : Val} {j : JTree} (h : gValForm G utf8 S form ty v j) (ind : Nat) :
    ∃ t, genVal G w ind q ty v = .ok t ∧ Spells j t := by
  cases ty with
  | msg id =>
    obtain ⟨m, rfl, h⟩ := h
    exact hw ind id m j h
  | string =>
    obtain ⟨bs, rfl, h⟩ := h
    exact ⟨_, rfl, str_spells L h⟩
  | bytes =>
    obtain ⟨bs, rfl, h⟩ := h
    exact ⟨_, rfl, str_spells L h⟩
  | int _ _ => obtain ⟨x, rfl, h⟩ := h; exact ⟨_, rfl, gen_num_spells L hS hE hq h⟩
  | float _ => obtain ⟨x, rfl, h⟩ := h; exact ⟨_, rfl, gen_num_spells L hS hE hq h⟩
  | bool => obtain ⟨x, rfl, h⟩ := h; exact ⟨_, rfl, gen_num_spells L hS hE hq h⟩
  | enum _ => obtain ⟨x, rfl, h⟩ := h; exact ⟨_, rfl, gen_num_spells L hS hE hq h⟩

include L in
theorem gen_key {ty : JType} {v : Val} {s : JStr} (h : gKeyForm utf8 ty v s) :
    ∃ t, genKey G ty v = .ok t ∧ SpellsStr s t := by
  cases ty with
  | string =>
    obtain ⟨bs, rfl, _, rfl⟩ := h
    exact ⟨_, rfl, L.writeStr bs, by intro h; cases h⟩
  | int signed wide =>
    obtain ⟨x, n, rfl, hn, rfl⟩ := h
    obtain ⟨rfl, _, _⟩ := intForm_iff.mp hn
    exact ⟨_, rfl, spellsStr_plain (intText_plain _)⟩
  | bool =>
    rcases h with ⟨rfl, rfl⟩ | ⟨rfl, rfl⟩
    · exact ⟨_, rfl, spellsStr_plain (by unfold Plain; decide)⟩
    · exact ⟨_, rfl, spellsStr_plain (by unfold Plain; decide)⟩
  | _ => exact h.elim

theorem named_mem {D : GDesc} {f : GName} {c : Card} (h : .field f c ∈ D.slots) : f ∈ D.names :=
  List.mem_flatMap.2 ⟨_, h, by simp⟩

theorem alt_mem {D : GDesc} {f : GName} {alts : List GName} (h : .oneof alts ∈ D.slots) (hf : f ∈ alts) : f ∈ D.names :=
  List.mem_flatMap.2 ⟨_, h, hf⟩

theorem GDesc.Ok.named {D : GDesc} (hD : D.Ok T) {f : GName} (h : f ∈ D.names) : ∀ E, f.ty = .enum E → E.Named :=
  fun E e => (hD.enums f h E e).2

include L hS hw in
theorem gen_entry {D : GDesc} (hD : D.Ok T) {e : Val} {p : JStr × JTree} (h : gEntryForm G utf8 S form D e p) (ind : Nat) :
    ∃ t, genEntry G o w ind D e = .ok t ∧ SpellsMember p t := by
  obtain ⟨k, kc, x, xc, kv, xv, hs, rfl, hk, hx⟩ := h
  obtain ⟨kt, h1, h2⟩ := gen_key L hk
  obtain ⟨xt, h3, h4⟩ := gen_val L hS hw (q := true)
    (hD.named (named_mem (f := x) (c := xc) (by rw [hs]; simp))) (.inl rfl) hx ind
  refine ⟨kt ++ 0x3a :: o.jopts.space ++ xt, by simp [genEntry, hs, h1, h3], ?_⟩
  have := SpellsMember.mk (a := []) h2 ws_nil (ws_space o.jopts) h4
  simpa using this

include L hS hw in
theorem gen_field (hT : ∀ id, (T id).Ok T) {f : GName} (hE : ∀ E, f.ty = .enum E → E.Named) {card : Card}
    {es : List (Nat × Val)} {j : JTree} (h : gFieldForm T G utf8 S form f card es j) (ind : Nat) :
    ∃ t, genField T G o w ind f card es = .ok t ∧ Spells j t := by
  cases card with
  | implicit d =>
    obtain ⟨v, rfl, h⟩ := h
    exact gen_val L hS hw hE (.inl rfl) h ind
  | always d =>
    obtain ⟨v, rfl, h, _⟩ := h
    exact gen_val L hS hw hE (.inl rfl) h ind
  | optional =>
    obtain ⟨v, rfl, h, _⟩ := h
    exact gen_val L hS hw hE (.inl rfl) h ind
  | «repeated» p =>
    obtain ⟨vs, js, rfl, h, rfl⟩ := h
    have hm : ∀ vs : List Val, mapRes (fun e : Nat × Val => genVal G w (o.jopts.deeper ind) true f.ty e.2) (vs.map fun v => (0, v)) =
        mapRes (fun v => genVal G w (o.jopts.deeper ind) true f.ty v) vs := by
      intro vs
      induction vs with
      | nil => rfl
      | cons v vs ih => simp only [List.map_cons, mapRes, ih]
    obtain ⟨ts, h1, h2⟩ := mapRes_all2 (g := fun v => genVal G w (o.jopts.deeper ind) true f.ty v)
      (Q := Spells) (fun v j h => gen_val L hS hw hE (.inl rfl) h _) h
    exact ⟨_, by simp [genField, hm, h1]; rfl, genList_arr _ _ h2⟩
  | map u =>
    obtain ⟨id, vs, ps, hty, h, rfl, hu⟩ := h
    have hes : es = vs.map fun v => (0, v) := by
      cases u
      · exact hu
      · have := hu.2
        rw [hS.shown] at this
        exact this
    subst hes
    have hm : ∀ vs : List Val, mapRes (fun e : Nat × Val => genEntry G o w (o.jopts.deeper ind) (T id) e.2) (vs.map fun v => (0, v)) =
        mapRes (fun v => genEntry G o w (o.jopts.deeper ind) (T id) v) vs := by
      intro vs
      induction vs with
      | nil => rfl
      | cons v vs ih => simp only [List.map_cons, mapRes, ih]
    obtain ⟨ts, h1, h2⟩ := mapRes_all2 (g := fun v => genEntry G o w (o.jopts.deeper ind) (T id) v)
      (Q := SpellsMember) (fun v j h => gen_entry L hS hw (hT id) h _) h
    exact ⟨_, by simp [genField, hty, hm, h1]; rfl, genList_obj _ _ h2⟩

theorem genShown_iff {f : GName} {card : Card} {es : List (Nat × Val)} :
    genShown o f card es = true ↔ Shown o.always (.field f card) es := by
  cases card <;> simp [genShown, Shown]

include L hS in
theorem gen_member {D : GDesc} (hD : D.Ok T) {f : GName} (hf : f ∈ D.names) {p : JStr × JTree} {t : List Byte}
    (hk : S.key f p.1.text) (hp : p.1.plain = true) (h : Spells p.2 t) : SpellsMember p (genMember G o f t) := by
  obtain ⟨⟨k, pl⟩, x⟩ := p
  subst hp
  have hk : k = f.key o := hS.key _ _ hk
  subst hk
  have hpl : Plain (f.key o) := by
    unfold GName.key
    split
    · exact (hD.plain f hf).1
    · exact (hD.plain f hf).2
  have := SpellsMember.mk (a := []) (spellsStr_plain hpl) ws_nil (ws_space o.jopts) h
  unfold genMember
  rw [L.writePlain _ hpl]
  simpa [quoted] using this

include L hS hw in
theorem gen_slot (hT : ∀ id, (T id).Ok T) {D : GDesc} (hD : D.Ok T) (hN : D.NarrowOneofs) {m : Msg} {t : Nat × Nat}
    {p : JStr × JTree} {sl : GSlot} (hsl : D.slots[t.1]? = some sl) (hs : Shown o.always sl (m.get t.1))
    (h : gMemberForm T G utf8 S form D m t p) (ind : Nat) :
    ∃ x, genSlot T G o w ind sl (m.get t.1) = .ok [x] ∧ SpellsMember p x := by
  obtain ⟨hp, h⟩ := h
  have hmem := List.mem_of_getElem? hsl
  rw [hsl] at h
  cases sl with
  | field f card =>
    obtain ⟨_, hk, h⟩ := h
    rcases h with h | ⟨hn, _⟩
    · obtain ⟨x, h1, h2⟩ := gen_field L hS hw hT (hD.named (named_mem hmem)) h ind
      exact ⟨_, by simp [genSlot, genShown_iff.2 hs, h1], gen_member L hS hD (named_mem hmem) hk hp h2⟩
    · rw [hS.nulls] at hn; cases hn
  | oneof alts =>
    obtain ⟨f, hf, hk, h⟩ := h
    rcases h with ⟨v, hv, h, _⟩ | ⟨hn, _⟩
    · have hfm := List.mem_of_getElem? hf
      obtain ⟨x, h1, h2⟩ := gen_val L hS hw (q := false) (hD.named (alt_mem hmem hfm))
        (.inr (hN alts hmem f hfm)) h ind
      exact ⟨_, by simp [genSlot, hv, hf, h1], gen_member L hS hD (alt_mem hmem hfm) hk hp h2⟩
    · rw [hS.nulls] at hn; cases hn

theorem genSlot_hidden {sl : GSlot} {es : List (Nat × Val)} {ind : Nat} (h : ¬ Shown o.always sl es) :
    genSlot T G o w ind sl es = .ok [] := by
  cases sl with
  | field f card =>
    simp only [genSlot]
    rw [if_neg (fun h' => h (genShown_iff.1 h'))]
  | oneof alts =>
    cases es with
    | nil => rfl
    | cons e es => exact absurd (by simp [Shown]) h

include L hS hw in
theorem gen_members (hT : ∀ id, (T id).Ok T) {D : GDesc} (hD : D.Ok T) (hN : D.NarrowOneofs) {m : Msg} (ind : Nat) :
    ∀ (sls : List GSlot) (ess : List (List (Nat × Val))) (i : Nat), sls.length = ess.length →
      (∀ k, D.slots[i + k]? = sls[k]?) → (∀ k, m.slots[i + k]? = ess[k]?) →
      ∀ (ts : List (Nat × Nat)) (ps : List (JStr × JTree)), All2 (gMemberForm T G utf8 S form D m) ts ps →
      (ts.map (·.1)).Pairwise (· < ·) → (∀ t ∈ ts, i ≤ t.1) →
      (∀ k sl, i ≤ k → D.slots[k]? = some sl → (Shown o.always sl (m.get k) ↔ ∃ a, (k, a) ∈ ts)) →
      ∃ xs, genMembers T G o w ind sls ess = .ok xs ∧ All2 SpellsMember ps xs := by
  intro sls
  induction sls with
  | nil =>
    intro ess i _ hd _ ts ps hall hp hge hsh
    cases ts with
    | nil =>
      cases ps with
      | nil => exact ⟨[], rfl, trivial⟩
      | cons _ _ => exact hall.elim
    | cons t ts =>
      cases ps with
      | nil => exact hall.elim
      | cons p ps =>
        have h1 := hall.1.2
        have := hge t (by simp)
        have e := hd (t.1 - i)
        rw [show i + (t.1 - i) = t.1 by omega] at e
        rw [e] at h1
        exact h1.elim
  | cons sl sls ih =>
    intro ess i hlen hd hm ts ps hall hp hge hsh
    cases ess with
    | nil => simp at hlen
    | cons es ess =>
      have hd0 : D.slots[i]? = some sl := by simpa using hd 0
      have hm0 : m.get i = es := by
        have : m.slots[i]? = some es := by simpa using hm 0
        simp [MsgOf.get, List.getD, this]
      have next := ih ess (i + 1) (by simpa using hlen) (fun k => by rw [Nat.add_right_comm]; exact hd (k + 1))
        (fun k => by rw [Nat.add_right_comm]; exact hm (k + 1))
      have hiff := hsh i sl (Nat.le_refl _) hd0
      cases ts with
      | nil =>
        have hns : ¬ Shown o.always sl (m.get i) := fun h => by simpa using hiff.1 h
        obtain ⟨xs, h1, h2⟩ := next _ _ hall hp (by simp) (fun k sl' hk h => hsh k sl' (by omega) h)
        rw [hm0] at hns
        exact ⟨xs, by simp [genMembers, genSlot_hidden hns, h1], h2⟩
      | cons t ts =>
        by_cases ht : t.1 = i
        · cases ps with
          | nil => exact hall.elim
          | cons p ps =>
            subst ht
            have hs : Shown o.always sl (m.get t.1) := hiff.2 ⟨t.2, by simp⟩
            obtain ⟨x, hx1, hx2⟩ := gen_slot L hS hw hT hD hN hd0 hs hall.1 ind
            simp only [List.map_cons, List.pairwise_cons] at hp
            obtain ⟨xs, h1, h2⟩ := next _ _ hall.2 hp.2 (fun u hu => hp.1 u.1 (List.mem_map.2 ⟨u, hu, rfl⟩)) (fun k sl' hk h => by
              rw [hsh k sl' (by omega) h]
              constructor
              · rintro ⟨a, ha⟩
                rcases List.mem_cons.1 ha with e | ha
                · rw [← e] at hk; simp only at hk; omega
                · exact ⟨a, ha⟩
              · rintro ⟨a, ha⟩
                exact ⟨a, List.mem_cons_of_mem _ ha⟩)
            rw [hm0] at hx1
            exact ⟨x :: xs, by simp [genMembers, hx1, h1], hx2, h2⟩
        · have hge' : ∀ u ∈ t :: ts, i + 1 ≤ u.1 := by
            intro u hu
            have := hge t (by simp)
            rcases List.mem_cons.1 hu with rfl | hu
            · omega
            · simp only [List.map_cons, List.pairwise_cons] at hp
              have := hp.1 u.1 (List.mem_map.2 ⟨u, hu, rfl⟩)
              omega
          have hns : ¬ Shown o.always sl (m.get i) := fun h => by
            obtain ⟨a, ha⟩ := hiff.1 h
            have := hge' _ ha
            simp only at this
            omega
          obtain ⟨xs, h1, h2⟩ := next _ _ hall hp hge' (fun k sl' hk h => hsh k sl' (by omega) h)
          rw [hm0] at hns
          exact ⟨xs, by simp [genMembers, genSlot_hidden hns, h1], h2⟩

include L hS hw in
theorem gen_sole (hT : ∀ id, (T id).Ok T) {id : Nat} {m : Msg} {j : JTree}
    (h : gSoleForm T G utf8 S form id m j) (ind : Nat) :
    ∃ t, genSole T G o w ind id m = .ok t ∧ Spells j t := by
  obtain ⟨f, card, es, hs, rfl, h⟩ := h
  obtain ⟨t, h1, h2⟩ := gen_field L hS hw hT ((hT id).named (named_mem (f := f) (c := card) (by rw [hs]; simp))) h ind
  exact ⟨t, by simp [genSole, hs, h1], h2⟩

end

section
variable {T : GTypes} {G : Glaze} {utf8 : List Byte → Bool} {o : GOpts} {S : GStyle} (L : G.Lawful)
  (hS : S.Written o.jopts.preserve o.always) (hT : ∀ id, (T id).Ok T) (hN : ∀ id, (T id).NarrowOneofs)

include hT in
/-- All entries of a `Struct` that has a form are set. -/
theorem setEntry_form {d id : Nat} (hwk : (T id).wk = .struct) {f : GName} {card : Card} (hs : (T id).slots = [.field f card])
    {es : List (Nat × Val)} {j : JTree} (h : gFieldForm T G utf8 S (GFormAt T G utf8 S d) f card es j) :
    ∀ e ∈ es, setEntry e.2 = true := by
  obtain ⟨f', u, eid, k, kc, x, xc, vid, hs', hty, hes, hx, hv⟩ := (hT id).structs hwk
  rw [hs] at hs'
  cases hs'
  obtain ⟨id', vs, ps, hty', h, rfl, hu⟩ := h
  rw [hty] at hty'
  cases hty'
  have hmem : ∀ e ∈ es, e.2 ∈ vs := by
    intro e he
    have : e ∈ vs.map (fun v => ((0 : Nat), v)) := by
      cases u
      · rw [show es = _ from hu] at he; exact he
      · have := hu.2
        split at this
        · rw [this] at he; exact he
        · exact this.mem_iff.1 he
    obtain ⟨v, hv, rfl⟩ := List.mem_map.1 this
    exact hv
  intro e he
  have : ∀ {vs : List Val} {ps : List (JStr × JTree)}, All2 (gEntryForm G utf8 S (GFormAt T G utf8 S d) (T eid)) vs ps →
      ∀ v ∈ vs, setEntry v = true := by
    intro vs
    induction vs with
    | nil => intro _ _ v hv; cases hv
    | cons v vs ih =>
      intro ps h v' hv'
      cases ps with
      | nil => exact h.elim
      | cons p ps =>
        rcases List.mem_cons.1 hv' with rfl | hv'
        · obtain ⟨k', kc', x', xc', kv, xv, e1, rfl, _, hxv⟩ := h.1
          rw [hes] at e1
          cases e1
          simp only [gValForm, hx] at hxv
          obtain ⟨s, rfl, hf⟩ := hxv
          cases d with
          | zero => exact hf.elim
          | succ d =>
            obtain ⟨_, _, hf⟩ := hf
            rw [hv] at hf
            obtain ⟨alts, a, v, g, _, hm, _⟩ := hf
            obtain ⟨slots, unk⟩ := s
            simp only at hm
            subst hm
            rfl
        · exact ih h.2 v' hv'
  exact this h _ (hmem e he)

include L hS hT hN in
theorem gen_level (d : Nat) : GWrites (GFormAt T G utf8 S d) (genLevel T G o d) := by
  induction d with
  | zero => intro ind id m j h; exact h.elim
  | succ d ih =>
    intro ind id m j h
    obtain ⟨hunk, hlen, h⟩ := h
    have hD := hT id
    rw [genLevel]
    unfold genBody
    cases hwk : (T id).wk with
    | any => rw [hwk] at h; exact h.elim
    | timestamp =>
      rw [hwk] at h
      obtain ⟨x, y, t, hm, ht, rfl⟩ := h
      exact ⟨quoted t, by simp [genTwo, hm, ht], .str (spellsStr_plain (timestamp_plain ht))⟩
    | duration =>
      rw [hwk] at h
      obtain ⟨x, y, t, hm, ht, rfl⟩ := h
      exact ⟨quoted t, by simp [genTwo, hm, ht], .str (spellsStr_plain (duration_plain ht))⟩
    | fieldMask =>
      rw [hwk] at h
      obtain ⟨ps, hm, _, _, rfl⟩ := h
      refine ⟨quoted (fieldMaskEncode ps), ?_, .str ⟨⟨_, (Props.C34_text ps).1, rfl⟩, by intro h; cases h⟩⟩
      have : (ps.map fun p => ((0 : Nat), Val.bytes p)).map (fun e => e.2.str) = ps := by
        exact strs_map ps
      simp only [genMask, hm, this]
    | value =>
      rw [hwk] at h
      obtain ⟨alts, a, v, f, hs, hm, hf, h⟩ := h
      have hmem : .oneof alts ∈ (T id).slots := by rw [hs]; simp
      have hfm := List.mem_of_getElem? hf
      simp only [genValue, hs, hm, hf]
      cases hty : f.ty with
      | enum E =>
        rw [hty] at h
        obtain ⟨rfl, rfl⟩ := h
        obtain ⟨nul, num, str, bool, struct, list, E', sid, lid, sf, sc, lf, lc, e1, e2, e3, e4, e5, e6, e7, _, e8, _⟩ := hD.values hwk
        rw [hs] at e1
        cases e1
        have : E = E' := by
          simp only [List.mem_cons, List.not_mem_nil, or_false] at hfm
          rcases hfm with rfl | rfl | rfl | rfl | rfl | rfl <;> simp_all
        subst this
        exact ⟨b!"null", by simp [genVal, genNumText, genEnumText, e3], .null⟩
      | msg sid =>
        rw [hty] at h
        obtain ⟨s, rfl, h⟩ := h
        exact gen_sole L hS ih hT h ind
      | _ =>
        rw [hty] at h
        exact gen_val L hS ih (fun E e => by cases e) (.inr (hty ▸ hN id alts hmem f hfm)) h ind
    | struct =>
      rw [hwk] at h
      have h' := h
      obtain ⟨f, card, es, hs, rfl, hfm⟩ := h'
      have : es.filter (fun e => setEntry e.2) = es :=
        List.filter_eq_self.2 (setEntry_form hT hwk hs hfm)
      obtain ⟨t, h1, h2⟩ := gen_sole L hS ih hT h ind
      refine ⟨t, ?_, h2⟩
      rw [← h1]
      simp [genStruct, genSole, hs, this]
    | listValue =>
      rw [hwk] at h
      exact gen_sole L hS ih hT h ind
    | wrapper =>
      rw [hwk] at h
      obtain ⟨f, card, v, hs, hm, h⟩ := h
      simp only [genWrapper, hs, hm]
      exact gen_val L hS ih (hD.named (named_mem (f := f) (c := card) (by rw [hs]; simp))) (.inl rfl) h ind
    | none =>
      rw [hwk] at h
      obtain ⟨ts, ps, hall, hnd, _, hsh, rfl⟩ := h
      rw [hS.shown] at hsh
      obtain ⟨hp, hsh⟩ := hsh
      obtain ⟨xs, h1, h2⟩ := gen_members L hS ih hT hD (hN id) (o.jopts.deeper ind) (T id).slots m.slots 0 hlen.symm
        (fun k => by simp) (fun k => by simp) _ _ hall hp (fun _ _ => Nat.zero_le _) (fun k sl _ h => hsh k sl h)
      exact ⟨_, by simp [h1]; rfl, genList_obj _ _ h2⟩

end

end HppProto.Json
