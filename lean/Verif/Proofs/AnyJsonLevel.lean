import Verif.Proofs.AnyJsonRead

/-! # `google.protobuf.Any` in JSON at every depth -/

namespace HppProto.Json
open HppProto HppProto.Spec

section
variable {T : JTypes} {G : Glaze} {utf8 : List Byte → Bool} {E : AnyEnv}

theorem two_strings {D : JDesc} (hD : D.Ok T) {a b : JField} (hf : D.fields = [a, b]) (ta : a.ty = .string)
    (tb : b.ty = .bytes) (ra : a.dyn.repeated = false) (rb : b.dyn.repeated = false)
    (oa : a.dyn.oneof = none) (x y : List Byte) :
    let m' := b.dyn.setStr y (a.dyn.setStr x D.dyn.empty)
    m'.length = D.slots ∧ a.dyn.hasValue m' = true ∧ a.dyn.value m' = .str x ∧ b.dyn.value m' = .str y := by
  have ha : a ∈ D.fields := by rw [hf]; simp
  have hb : b ∈ D.fields := by rw [hf]; simp
  have hne : b.dyn.layout.slot ≠ a.dyn.layout.slot := by
    intro e
    rcases hD.dyn.same_slot (dyn_mem hD hb) (dyn_mem hD ha) e with h | ⟨⟨o, _, h⟩, _⟩
    · have := field_eq hD hb ha h
      have hn := fields_nodup hD
      rw [hf, this] at hn
      simp at hn
    · rw [oa] at h; cases h
  have ka := hD.tied a ha
  have kb := hD.tied b hb
  unfold JField.tied at ka kb
  rw [ta] at ka
  rw [tb] at kb
  have ka' : a.dyn.kind.isNum = false := by
    cases e : a.dyn.kind.isNum with
    | false => rfl
    | true => rw [isStr_of_isNum e] at ka; cases ka
  have kb' : b.dyn.kind.isNum = false := by
    cases e : b.dyn.kind.isNum with
    | false => rfl
    | true => rw [isStr_of_isNum e] at kb; cases kb
  have hl0 : D.dyn.empty.length = D.slots := by simp [DynDesc.empty, JDesc.dyn]
  have hst : a.dyn.storage (b.dyn.setStr y (a.dyn.setStr x D.dyn.empty)) = (a.dyn.layout.ordinal, .str x) := by
    unfold DynField.setStr
    rw [storage_store_other hne, storage_store_self (by rw [hl0]; exact hD.dyn.slot_lt (dyn_mem hD ha))]
  have hv := (hasValue_singular ra _).2 (by rw [hst])
  refine ⟨by simp [DynField.setStr, hl0], hv, ?_, ?_⟩
  · unfold DynField.value DynField.strValue
    simp [ra, ka, ka', hv, hst, Cell.asStr]
  · have hst : b.dyn.storage (b.dyn.setStr y (a.dyn.setStr x D.dyn.empty)) = (b.dyn.layout.ordinal, .str y) := by
      unfold DynField.setStr
      rw [storage_store_self (by rw [store_length, hl0]; exact hD.dyn.slot_lt (dyn_mem hD hb))]
    have hv := (hasValue_singular rb _).2 (by rw [hst])
    unfold DynField.value DynField.strValue
    simp [rb, kb, kb', hv, hst, Cell.asStr]

/-- The reader of the payload of an `Any`. -/
def ReadsMembers (T : JTypes) (payload : Nat → DynMsg → JTree → Prop) (same : Nat → DynMsg → DynMsg → Prop) (r : JReader) :
    Prop :=
  ∀ id p ms s rest, (T id).wk = .none → (∀ p ∈ ms, isTypeMember p = true → p.1.plain = true) →
    payload id p (.obj (ms.filter fun p => !isTypeMember p)) → AtMembers true ms s rest →
    ∃ p', r id (T id).dyn.empty s = .ok (p', rest) ∧ same id p p'

/-- The keys of a payload. -/
def PayloadKeys (payload : Nat → DynMsg → JTree → Prop) : Prop :=
  ∀ id p ms, payload id p (.obj ms) → ∀ q ∈ ms, q.1.plain = true ∧ isTypeMember q = false

theorem read_any (hE : AnyTypes T) (L : G.Lawful) (N : E.Lawful) {can : Nat → DynMsg → Prop}
    {value payload : Nat → DynMsg → JTree → Prop} {same : Nat → DynMsg → DynMsg → Prop} {l : AnyReaders}
    (hcan : ∀ pid p p', can pid p → same pid p p' → ∃ out, dynWrite T.dyn utf8 E.limit true pid p' [] = .ok (none, out))
    (hv : Reads T value same l.msg) (hp : ReadsMembers T payload same l.payload) (hk : PayloadKeys payload)
    {id : Nat} (hwk : (T id).wk = .any) {m : DynMsg} {j : JTree}
    (h : anyForm T utf8 E anyStyle can value payload id m j) {w t rest : List Byte} (ht : Spells j t) (hw : Ws w) :
    ∃ m', readAny T utf8 G E l (T id) (T id).dyn.empty (w ++ t ++ rest) = .ok (m', rest) ∧ anySame T utf8 E same id m m' := by
  obtain ⟨hlen, u, v, url, bytes, pid, p, ms, hf, hu, huv, hvv, hh, hc, hms, hj⟩ := h
  obtain ⟨a, b, rfl, rfl⟩ := hj
  obtain ⟨u', v', hf', tu, tv, ru, rv, ou, ov⟩ := hE.any id hwk
  rw [hf] at hf'
  cases hf'
  have hkeys : ∀ q ∈ a ++ b, q.1.plain = true ∧ isTypeMember q = false := by
    intro q hq
    split at hms
    · exact hk pid p _ hms q hq
    · obtain ⟨x, _, e⟩ := hms
      rw [e] at hq
      simp only [List.mem_singleton] at hq
      subst hq
      exact ⟨rfl, rfl⟩
  obtain ⟨P, ms, h1, h2, h3⟩ := get_type L N (rest := rest) (fun q hq => (hkeys q hq).1) (fun q hq => (hkeys q hq).2)
    (url_ne hh.1) hw ht
  have hpay : ∃ p', (if (T pid).wk ≠ .none then readKnownValue T G E l.msg pid P
      else l.payload pid (T pid).dyn.empty P) = .ok (p', rest) ∧ same pid p p' := by
    by_cases hn : (T pid).wk = .none
    · rw [if_pos hn] at hms
      rw [if_neg (by simp [hn])]
      have hfil : ms.filter (fun p => !isTypeMember p) = a ++ b := by
        have fa : ∀ c : List (JStr × JTree), (∀ q ∈ c, isTypeMember q = false) → c.filter (fun p => !isTypeMember p) = c := by
          intro c hc
          rw [List.filter_eq_self]
          intro q hq
          simp [hc q hq]
        rcases h3 with rfl | ⟨rfl, rfl⟩
        · rw [List.filter_append, List.filter_cons_of_neg (by simp [isTypeMember, typeKey]), fa a fun q hq => (hkeys q (by simp [hq])).2,
            fa b fun q hq => (hkeys q (by simp [hq])).2]
        · exact fa _ fun q hq => (hkeys q (by simpa using hq)).2
      refine hp pid p ms P rest hn ?_ (by rw [hfil]; exact hms) h2
      intro q hq _
      rcases h3 with rfl | ⟨rfl, rfl⟩
      · simp only [List.mem_append, List.mem_cons] at hq
        rcases hq with hq | rfl | hq
        · exact (hkeys q (by simp [hq])).1
        · rfl
        · exact (hkeys q (by simp [hq])).1
      · exact (hkeys q (by simpa using hq)).1
    · rw [if_neg hn] at hms
      rw [if_pos hn]
      obtain ⟨x, hx, e⟩ := hms
      have he : (T pid).entry = false := by
        cases he : (T pid).entry with
        | false => rfl
        | true => exact absurd (hE.entry pid he) hn
      have hsub : ∀ q, (q ∈ a ∨ q ∈ b) → q = (⟨b!"value", true⟩, x) := by
        intro q hq
        have : q ∈ a ++ b := by simpa using hq
        rw [e] at this
        simpa using this
      have hex : ∃ q, (q ∈ a ∨ q ∈ b) ∧ q.1 ≠ typeKey :=
        ⟨(⟨b!"value", true⟩, x), by rw [← List.mem_append, e]; simp, by simp [typeKey]⟩
      refine read_known L N hv he hx (ms := ms) ?_ ?_ h2
      · intro q hq
        rcases h3 with rfl | ⟨rfl, rfl⟩
        · simp only [List.mem_append, List.mem_cons] at hq
          rcases hq with hq | rfl | hq
          · exact .inl (hsub q (.inl hq))
          · exact .inr rfl
          · exact .inl (hsub q (.inr hq))
        · exact .inl (hsub q (.inr hq))
      · obtain ⟨q, hq, hne⟩ := hex
        refine ⟨q, ?_, hne⟩
        rcases h3 with rfl | ⟨rfl, rfl⟩
        · simp only [List.mem_append, List.mem_cons]
          exact hq.imp (fun x => x) .inr
        · simpa using hq
  obtain ⟨p', h4, h5⟩ := hpay
  obtain ⟨out, h6⟩ := hcan pid p p' hc h5
  obtain ⟨g1, g2, g3, g4⟩ := two_strings (hE.ok id) hf tu tv ru rv ou url out
  refine ⟨v.dyn.setStr out (u.dyn.setStr url (T id).dyn.empty), ?_, g1, u, v, url, bytes, out, pid, p, p', hf, huv, hvv, g2, g3,
    g4, hh, h6, h5⟩
  unfold readAny readAnyBody
  rw [h1]
  simp only [res_bind_ok, typeOf_url hh.1]
  split
  · rw [if_pos (by assumption)] at h4
    simp only [h4, res_bind_ok, encodePayload, h6, if_true, hf]
  · rw [if_neg (by assumption)] at h4
    simp only [h4, res_bind_ok, encodePayload, h6, if_true, hf]

theorem anyFormAt_succ {S : Style} {can : Nat → DynMsg → Prop} {bare : Bool} {d : Nat} {place : Place} (hp : place ≠ .payload)
    {id : Nat} {m : DynMsg} {j : JTree} (h : AnyFormAt T G utf8 E S can bare (d + 1) place id m j) :
    ((T id).entry = true ∧ bodyForm T G utf8 S (AnyFormAt T G utf8 E S can bare d .outside) id m j) ∨
    ((T id).entry = false ∧ (T id).wk = .any ∧
      anyForm T utf8 E S can (AnyFormAt T G utf8 E S can bare d place) (AnyFormAt T G utf8 E S can bare d .payload) id m j) ∨
    ((T id).entry = false ∧ (T id).wk ≠ .any ∧ ((T id).wk = .none → bare = true ∨ place = .outside) ∧
      bodyForm T G utf8 S (AnyFormAt T G utf8 E S can bare d place) id m j) := by
  have form : if (T id).entry then bodyForm T G utf8 S (AnyFormAt T G utf8 E S can bare d .outside) id m j
    else match (T id).wk with
      | .any =>
        anyForm T utf8 E S can (AnyFormAt T G utf8 E S can bare d place) (AnyFormAt T G utf8 E S can bare d .payload) id m j
      | .none => (bare = true ∨ place = .outside) ∧ bodyForm T G utf8 S (AnyFormAt T G utf8 E S can bare d place) id m j
      | _ => bodyForm T G utf8 S (AnyFormAt T G utf8 E S can bare d place) id m j := by
    cases place with
    | payload => exact absurd rfl hp
    | outside => exact h
    | inside => exact h
  cases he : (T id).entry with
  | true => rw [he] at form; exact .inl ⟨rfl, form⟩
  | false =>
    rw [he] at form
    simp only [Bool.false_eq_true, if_false] at form
    cases hwk : (T id).wk with
    | any => rw [hwk] at form; exact .inr (.inl ⟨rfl, rfl, form⟩)
    | none => rw [hwk] at form; exact .inr (.inr ⟨rfl, by simp, fun _ => form.1, form.2⟩)
    | _ => rw [hwk] at form; exact .inr (.inr ⟨rfl, by simp, by simp, form⟩)

theorem anySameAt_body {d : Nat} {id : Nat} {m m' : DynMsg} (hne : (T id).entry = true ∨ (T id).wk ≠ .any)
    (h : bodySame T (AnySameAt T utf8 E d) id m m') : AnySameAt T utf8 E (d + 1) id m m' := by
  rw [AnySameAt, if_neg]
  · exact h
  · rintro ⟨h1, h2⟩
    rcases hne with h | h
    · rw [h] at h1; cases h1
    · exact h h2

theorem any_null (hE : AnyTypes T) (can : Nat → DynMsg → Prop) (bare : Bool) (d : Nat) {place : Place} (hp : place ≠ .payload) :
    NullIsValue T (AnyFormAt T G utf8 E anyStyle can bare d place) (AnySameAt T utf8 E d) := by
  intro id s h
  cases d with
  | zero => exact h.elim
  | succ d =>
    rcases anyFormAt_succ hp h with ⟨he, h⟩ | ⟨_, _, h⟩ | ⟨he, hwk, _, h⟩
    · obtain ⟨h1, g, h2, h3⟩ := null_is_body hE.ok (anyForm_shaped anyStyle can bare d (by simp)) _ id s h
      exact ⟨h1, g, h2, anySameAt_body (.inl he) h3⟩
    · obtain ⟨_, u, v, url, bytes, pid, p, ms, _, _, _, _, _, _, _, hj⟩ := h
      obtain ⟨a, b, _, hj⟩ := hj
      cases hj
    · obtain ⟨h1, g, h2, h3⟩ := null_is_body hE.ok (anyForm_shaped anyStyle can bare d hp) _ id s h
      exact ⟨h1, g, h2, anySameAt_body (.inr hwk) h3⟩

theorem all2_mem_right {α β : Type} {R : α → β → Prop} : ∀ {as : List α} {bs : List β}, All2 R as bs → ∀ {b}, b ∈ bs →
    ∃ a ∈ as, R a b
  | [], _ :: _, h, _, _ => h.elim
  | _ :: _, _ :: _, h, b, hb => by
    rcases List.mem_cons.1 hb with rfl | hb
    · exact ⟨_, by simp, h.1⟩
    · obtain ⟨a, h1, h2⟩ := all2_mem_right h.2 hb
      exact ⟨a, by simp [h1], h2⟩

theorem payload_keys (hE : AnyTypes T) (can : Nat → DynMsg → Prop) (bare : Bool) (d : Nat) :
    PayloadKeys (AnyFormAt T G utf8 E anyStyle can bare d .payload) := by
  intro id p ms h q hq
  cases d with
  | zero => exact h.elim
  | succ d =>
    obtain ⟨_, fs, ms', h1, h2, _, h4⟩ := h
    cases h4
    obtain ⟨f, hf, hk, hpl, _⟩ := all2_mem_right h1 hq
    refine ⟨hpl, ?_⟩
    have := hE.named id f (h2 f hf)
    unfold isTypeMember
    rcases hk with hk | hk <;> rw [hk] <;> simp [this]

theorem read_any_levels (hE : AnyTypes T) (L : G.Lawful) (N : E.Lawful) (bare : Bool) (d : Nat) :
    (∀ place, place ≠ .payload → Reads T (AnyFormAt T G utf8 E anyStyle (Encodable T utf8 E) bare d place) (AnySameAt T utf8 E d)
      (anyReaders T utf8 G E d).msg) ∧
    ReadsMembers T (AnyFormAt T G utf8 E anyStyle (Encodable T utf8 E) bare d .payload) (AnySameAt T utf8 E d)
      (anyReaders T utf8 G E d).payload := by
  induction d with
  | zero => exact ⟨fun place _ _ _ _ _ _ _ h => h.elim, fun _ _ _ _ _ _ _ h => h.elim⟩
  | succ d ih =>
    obtain ⟨ihm, ihp⟩ := ih
    constructor
    · intro place hplace id m j a t rest h ht ha hrest
      simp only [anyReaders]
      have body : ∀ place, place ≠ .payload → ((T id).entry = true ∨ (T id).wk ≠ .any) →
          bodyForm T G utf8 anyStyle (AnyFormAt T G utf8 E anyStyle (Encodable T utf8 E) bare d place) id m j →
          ∃ m', readBody T utf8 G (anyReaders T utf8 G E d).msg id (T id).dyn.empty (a ++ t ++ rest) = .ok (m', rest) ∧
            AnySameAt T utf8 E (d + 1) id m m' := by
        intro place hp hne h
        obtain ⟨m', h1, h2⟩ := read_body L hE.ok (ihm place hp) (any_null hE _ bare d hp) (anyForm_shaped _ _ bare d hp)
          id m j a t rest h ht ha hrest
        exact ⟨m', h1, anySameAt_body hne h2⟩
      rcases anyFormAt_succ hplace h with ⟨he, h⟩ | ⟨he, hwk, h⟩ | ⟨he, hwk, _, h⟩
      · rw [if_neg (by simp [he])]
        exact body _ (by simp) (.inl he) h
      · rw [if_pos ⟨he, hwk⟩]
        unfold Written at ht
        rw [if_neg (by simp [he])] at ht
        obtain ⟨m', h1, h2⟩ := read_any hE L N (fun pid p p' hc hs => hc d p' hs) (ihm place hplace) ihp
          (payload_keys hE _ bare d) hwk h (rest := rest) ht ha
        refine ⟨m', h1, ?_⟩
        rw [AnySameAt, if_pos ⟨he, hwk⟩]
        exact h2
      · rw [if_neg (by simp [hwk])]
        exact body _ hplace (.inr hwk) h
    · intro id p ms s rest hwk hty h hat
      obtain ⟨m', h1, h2, h3⟩ := read_opened L (hE.ok id) (ihm .inside (by simp)) (any_null hE _ bare d (by simp)) N hty h.2 hat
      refine ⟨m', h1, anySameAt_body (.inr (by simp [hwk])) ⟨h2, ?_⟩⟩
      rw [if_neg (by simp [hwk])]
      exact h3

/-! ## The form that is written is one of those that are read -/

variable {preserve : Bool}

theorem object_weaken (hT : ∀ id, (T id).Ok T) {form form' : Nat → DynMsg → JTree → Prop}
    (ih : ∀ id m j, form id m j → form' id m j) {id : Nat} {m : DynMsg} {j : JTree}
    (h : objectForm T (writerStyle preserve) (fun f => fieldForm T G utf8 (writerStyle preserve) form f m) (T id) m j) :
    objectForm T anyStyle (fun f => fieldForm T G utf8 anyStyle form' f m) (T id) m j := by
  have hf : ∀ f ∈ (T id).fields, ∀ x, fieldForm T G utf8 (writerStyle preserve) form f m x →
      fieldForm T G utf8 anyStyle form' f m x :=
    fun f hf x h => field_weaken ih ((hT id).enums f hf) h
  obtain ⟨fs, ms, h1, h2, h3, h4⟩ := h
  refine ⟨fs, ms, all2_mono_mem (fun f hfm p hp => ?_) h1, h2, ?_, h4⟩
  · obtain ⟨k1, k2, k3⟩ := hp
    refine ⟨?_, k2, ?_⟩
    · replace k1 : p.1.text = if preserve then f.name else f.jsonName := k1
      split at k1
      · exact .inr k1
      · exact .inl k1
    · rcases k3 with ⟨k3, k4⟩ | ⟨k3, _⟩
      · exact .inl ⟨k3, hf f (h2 f hfm) _ k4⟩
      · cases k3
  · replace h3 : fs.filter (fun f => f.dyn.hasValue m) = (T id).fields.filter (fun f => f.dyn.hasValue m) := h3
    show (fs.filter (fun f => f.dyn.hasValue m)).Perm ((T id).fields.filter (fun f => f.dyn.hasValue m))
    rw [h3]

theorem any_weaken (hT : ∀ id, (T id).Ok T) (can can' : Nat → DynMsg → Prop) (hcan : ∀ id p, can id p → can' id p)
    (bare bare' : Bool) (hb : bare = true → bare' = true) (d : Nat) : ∀ place id m j,
    AnyFormAt T G utf8 E (writerStyle preserve) can bare d place id m j → AnyFormAt T G utf8 E anyStyle can' bare' d place id m j := by
  induction d with
  | zero => exact fun _ _ _ _ h => h
  | succ d ih =>
    have main : ∀ place, place ≠ .payload → ∀ id m j, AnyFormAt T G utf8 E (writerStyle preserve) can bare (d + 1) place id m j →
        if (T id).entry then bodyForm T G utf8 anyStyle (AnyFormAt T G utf8 E anyStyle can' bare' d .outside) id m j
        else match (T id).wk with
        | .any =>
          anyForm T utf8 E anyStyle can' (AnyFormAt T G utf8 E anyStyle can' bare' d place)
            (AnyFormAt T G utf8 E anyStyle can' bare' d .payload) id m j
        | .none => (bare' = true ∨ place = .outside) ∧
          bodyForm T G utf8 anyStyle (AnyFormAt T G utf8 E anyStyle can' bare' d place) id m j
        | _ => bodyForm T G utf8 anyStyle (AnyFormAt T G utf8 E anyStyle can' bare' d place) id m j := by
      intro place hp id m j h
      rcases anyFormAt_succ hp h with ⟨he, h⟩ | ⟨he, hwk, h⟩ | ⟨he, hwk, hbare, h⟩
      · rw [if_pos he]
        exact body_weaken hT (ih .outside) h
      · rw [if_neg (by simp [he]), hwk]
        obtain ⟨hl, u, v, url, bytes, pid, p, ms, h1, h2, h3, h4, h5, h6, h7, h8⟩ := h
        refine ⟨hl, u, v, url, bytes, pid, p, ms, h1, h2, h3, h4, h5, hcan _ _ h6, ?_, ?_⟩
        · split at h7
          · rw [if_pos (by assumption)]; exact ih _ _ _ _ h7
          · rw [if_neg (by assumption)]
            obtain ⟨x, h7, e⟩ := h7
            exact ⟨x, ih _ _ _ _ h7, e⟩
        · exact ⟨[], ms, rfl, h8⟩
      · have hbody := body_weaken (G := G) (utf8 := utf8) hT (ih place) h
        rw [if_neg (by simp [he])]
        cases e : (T id).wk with
        | any => exact absurd e hwk
        | none => exact ⟨(hbare e).imp hb (fun x => x), hbody⟩
        | _ => exact hbody
    intro place id m j h
    cases place with
    | payload => exact ⟨h.1, object_weaken hT (ih .inside) h.2⟩
    | outside => exact main .outside (by simp) id m j h
    | inside => exact main .inside (by simp) id m j h

end

end HppProto.Json
