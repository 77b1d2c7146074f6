import Verif.Spec.AnyJson
import Verif.Proofs.JsonLevel

/-! # Messages that can be the payload of an `Any` -/

namespace HppProto.Json
open HppProto HppProto.Spec

/-- The field is read as the same value in both messages; messages in it are related. -/
def Agree (Q : Nat → DynMsg → DynMsg → Prop) (f : DynField) (m m' : DynMsg) : Prop :=
  f.value m' = f.value m ∨ ∃ t, f.kind.msgType = some t ∧
    ((∃ s s', f.value m = .msg s ∧ f.value m' = .msg s' ∧ Q t s s') ∨
      ∃ ss ss', f.value m = .msgs ss ∧ f.value m' = .msgs ss' ∧ All2 (Q t) ss ss')

/-- The same fields are set, to the same values. -/
def AgreeAll (Q : Nat → DynMsg → DynMsg → Prop) (fs : List DynField) (m m' : DynMsg) : Prop :=
  ∀ f ∈ fs, f.hasValue m' = f.hasValue m ∧ (f.hasValue m = true → Agree Q f m m')

theorem present_same {Q : Nat → DynMsg → DynMsg → Prop} {f : DynField} {m m' : DynMsg} (h1 : f.hasValue m' = f.hasValue m)
    (h2 : f.hasValue m = true → Agree Q f m m') : f.present m' = f.present m := by
  unfold DynField.present
  split
  · next hr =>
    have : ∀ x : DynMsg, ((f.storage x).1 != 0) = f.hasValue x := by
      intro x
      unfold DynField.hasValue slotHasValue
      rw [if_pos hr]
      cases (f.storage x).1 <;> rfl
    rw [this, this, h1]
  · rw [h1]
    split
    · rfl
    · next hv =>
      have hv : f.hasValue m = true := by simpa using hv
      rcases h2 hv with h | ⟨t, h, _⟩
      · rw [h]
      · simp [h]

theorem present_hasValue {f : DynField} {m : DynMsg} (h : f.present m = .ok true) : f.hasValue m = true := by
  unfold DynField.present at h
  split at h
  · next hr =>
    simp only [Res.ok.injEq] at h
    unfold DynField.hasValue slotHasValue
    rw [if_pos hr]
    revert h
    cases (f.storage m).1 <;> intro h
    · cases h
    · rfl
  · split at h
    · cases h
    · next hv => simpa using hv

theorem kind_of_msgType {k : Kind} {t : Nat} (h : k.msgType = some t) : k = .msg t ∨ k = .group t := by
  cases k <;> simp [Kind.msgType] at h
  · exact .inl (by rw [h])
  · exact .inr (by rw [h])

theorem countAll_same {r : DynMsg → Res (Nat × Bool)} : ∀ {ss ss' : List DynMsg}, All2 (fun s s' => r s' = r s) ss ss' →
    dynCountAll r ss' = dynCountAll r ss
  | [], [], _ => rfl
  | _ :: _, _ :: _, h => by rw [dynCountAll, dynCountAll, h.1, countAll_same h.2]

theorem sizeAll_same {r : DynMsg → CacheSt → Res (Nat × CacheSt)} {f : DynField} {delimited : Bool} :
    ∀ {ss ss' : List DynMsg} (acc : Nat) (st : CacheSt), All2 (fun s s' => r s' = r s) ss ss' →
    dynSizeAll (dynSizeOne r f delimited) acc ss' st = dynSizeAll (dynSizeOne r f delimited) acc ss st
  | [], [], _, _, _ => rfl
  | s :: _, s' :: _, acc, st, h => by
    have e : dynSizeOne r f delimited s' st = dynSizeOne r f delimited s st := by
      unfold dynSizeOne
      rw [h.1]
    rw [dynSizeAll, dynSizeAll, e]
    simp only [sizeAll_same _ _ h.2]

theorem serAll_same {cache : List Nat} {r : DynMsg → Nat → SerOut} {f : DynField} {delimited : Bool} :
    ∀ {ss ss' : List DynMsg}, All2 (fun s s' => r s' = r s) ss ss' →
    serAll (dynSerOne cache r f delimited) ss' = serAll (dynSerOne cache r f delimited) ss
  | [], [], _ => rfl
  | s :: _, s' :: _, h => by
    funext pos
    have e : dynSerOne cache r f delimited s' = dynSerOne cache r f delimited s := by
      funext pos
      unfold dynSerOne
      rw [h.1]
    rw [serAll, serAll, e, serAll_same h.2]

section
variable {m m' : DynMsg}

theorem count_same (rec : Nat → DynMsg → Res (Nat × Bool)) : ∀ (fs : List DynField),
    AgreeAll (fun t s s' => rec t s' = rec t s) fs m m' → dynCountFields rec m' fs = dynCountFields rec m fs
  | [], _ => rfl
  | f :: fs, h => by
    have hf := h f (by simp)
    have ih := count_same rec fs fun g hg => h g (by simp [hg])
    unfold dynCountFields
    rw [present_same hf.1 hf.2, ih]
    cases hp : f.present m with
    | ok b =>
      simp only [res_bind_ok]
      cases b with
      | false => rfl
      | true =>
        have e : dynCountField rec f m' = dynCountField rec f m := by
          unfold dynCountField
          rcases hf.2 (present_hasValue hp) with h | ⟨t, hk, ⟨s, s', h1, h2, h3⟩ | ⟨ss, ss', h1, h2, h3⟩⟩
          · rw [h]
          · rcases kind_of_msgType hk with hk | hk <;> simp [hk, h1, h2, Reading.content, h3]
          · have hl := all2_length h3
            rcases kind_of_msgType hk with hk | hk <;> simp [hk, h1, h2, Reading.content, countAll_same h3, hl]
        rw [e]
    | _ => rfl

theorem size_same (rec : Nat → DynMsg → CacheSt → Res (Nat × CacheSt)) : ∀ (fs : List DynField) (acc : Nat) (st : CacheSt),
    AgreeAll (fun t s s' => rec t s' = rec t s) fs m m' → dynSizeFields rec m' acc fs st = dynSizeFields rec m acc fs st
  | [], _, _, _ => rfl
  | f :: fs, acc, st, h => by
    have hf := h f (by simp)
    have ih := fun acc st => size_same rec fs acc st fun g hg => h g (by simp [hg])
    unfold dynSizeFields
    rw [present_same hf.1 hf.2]
    simp only [ih]
    cases hp : f.present m with
    | ok b =>
      simp only [res_bind_ok]
      cases b with
      | false => rfl
      | true =>
        have e : dynSizeField rec f m' st = dynSizeField rec f m st := by
          unfold dynSizeField
          rcases hf.2 (present_hasValue hp) with h | ⟨t, hk, ⟨s, s', h1, h2, h3⟩ | ⟨ss, ss', h1, h2, h3⟩⟩
          · rw [h]
          · rcases kind_of_msgType hk with hk | hk <;> simp [hk, h1, h2, Reading.content, dynSizeOne, h3]
          · rcases kind_of_msgType hk with hk | hk <;> simp [hk, h1, h2, Reading.content, sizeAll_same _ _ h3]
        rw [e]
    | _ => rfl

theorem ser_same (utf8 : List Byte → Bool) (cache : List Nat) (rec : Nat → DynMsg → Nat → SerOut) :
    ∀ (fs : List DynField) (pos : Nat), AgreeAll (fun t s s' => rec t s' = rec t s) fs m m' →
    dynSerFields utf8 cache rec m' fs pos = dynSerFields utf8 cache rec m fs pos
  | [], _, _ => rfl
  | f :: fs, pos, h => by
    have hf := h f (by simp)
    have ih : dynSerFields utf8 cache rec m' fs = dynSerFields utf8 cache rec m fs :=
      funext fun pos => ser_same utf8 cache rec fs pos fun g hg => h g (by simp [hg])
    unfold dynSerFields
    rw [present_same hf.1 hf.2, ih]
    cases hp : f.present m with
    | ok b =>
      cases b with
      | false => rfl
      | true =>
        have e : dynSerField utf8 cache rec f m' pos = dynSerField utf8 cache rec f m pos := by
          unfold dynSerField
          rcases hf.2 (present_hasValue hp) with h | ⟨t, hk, ⟨s, s', h1, h2, h3⟩ | ⟨ss, ss', h1, h2, h3⟩⟩
          · rw [h]
          · rcases kind_of_msgType hk with hk | hk <;> simp [hk, h1, h2, Reading.content, dynSerOne, h3]
          · rcases kind_of_msgType hk with hk | hk <;> simp [hk, h1, h2, Reading.content, serAll_same h3]
        simp only [e]
    | _ => rfl

end

/-- The same fields are set, to the same values, at every depth. -/
def Alike (T : DynTypes) : (d : Nat) → (id : Nat) → DynMsg → DynMsg → Prop
  | 0, _, _, _ => False
  | d + 1, id, m, m' => AgreeAll (Alike T d) (T id).fields m m'

theorem AgreeAll.mono {Q Q' : Nat → DynMsg → DynMsg → Prop} (hq : ∀ t s s', Q t s s' → Q' t s s') {fs : List DynField}
    {m m' : DynMsg} (h : AgreeAll Q fs m m') : AgreeAll Q' fs m m' := by
  intro f hf
  refine ⟨(h f hf).1, fun hv => ?_⟩
  rcases (h f hf).2 hv with h | ⟨t, hk, ⟨s, s', h1, h2, h3⟩ | ⟨ss, ss', h1, h2, h3⟩⟩
  · exact .inl h
  · exact .inr ⟨t, hk, .inl ⟨s, s', h1, h2, hq t s s' h3⟩⟩
  · exact .inr ⟨t, hk, .inr ⟨ss, ss', h1, h2, all2_mono (hq t) h3⟩⟩

/-- Messages that are alike are written alike. -/
theorem write_alike {T : DynTypes} {d id : Nat} {m m' : DynMsg} (h : Alike T d id m m') (utf8 : List Byte → Bool) (limit : Nat)
    (growable : Bool) (buf : List Byte) : dynWrite T utf8 limit growable id m' buf = dynWrite T utf8 limit growable id m buf := by
  have h1 : ∀ k d id m m', Alike T d id m m' → dynCount T k id m' = dynCount T k id m := by
    intro k
    induction k with
    | zero => intro d id m m' _; rfl
    | succ k ih =>
      intro d id m m' h
      cases d with
      | zero => exact h.elim
      | succ d => exact count_same _ _ (AgreeAll.mono (ih d) h)
  have h2 : ∀ k d id m m', Alike T d id m m' → dynSize T k id m' = dynSize T k id m := by
    intro k
    induction k with
    | zero => intro d id m m' _; rfl
    | succ k ih =>
      intro d id m m' h
      cases d with
      | zero => exact h.elim
      | succ d => exact funext fun st => size_same _ _ _ _ (AgreeAll.mono (ih d) h)
  have h3 : ∀ cache k d id m m', Alike T d id m m' → dynSer T utf8 cache k id m' = dynSer T utf8 cache k id m := by
    intro cache k
    induction k with
    | zero => intro d id m m' _; rfl
    | succ k ih =>
      intro d id m m' h
      cases d with
      | zero => exact h.elim
      | succ d => exact funext fun st => ser_same _ _ _ _ _ (AgreeAll.mono (ih d) h)
  unfold dynWrite dynWriteWithCache
  simp only [h1 _ _ _ _ _ h, h2 _ _ _ _ _ h, h3 _ _ _ _ _ _ h]

/-- The message is no timestamp, duration, field mask or `Any`, and has none in it. -/
def Regular (T : JTypes) : (d : Nat) → (id : Nat) → DynMsg → Prop
  | 0, _, _ => False
  | d + 1, id, p =>
    ((T id).entry = true ∨ ((T id).wk ≠ .any ∧ (T id).wk ≠ .timestamp ∧ (T id).wk ≠ .duration ∧ (T id).wk ≠ .fieldMask)) ∧
    ∀ f ∈ (T id).fields, f.dyn.hasValue p = true → ∀ t, f.ty = .msg t →
      (∀ s, f.dyn.value p = .msg s → Regular T d t s) ∧ ∀ ss, f.dyn.value p = .msgs ss → ∀ s ∈ ss, Regular T d t s

theorem regular_alike {T : JTypes} (hT : ∀ id, (T id).Ok T) {utf8 : List Byte → Bool} {E : AnyEnv} : ∀ (d k : Nat) {id : Nat}
    {p p' : DynMsg}, Regular T k id p → AnySameAt T utf8 E d id p p' → Alike T.dyn d id p p'
  | 0, _, _, _, _, _, h => h.elim
  | _ + 1, 0, _, _, _, hr, _ => hr.elim
  | d + 1, k + 1, id, p, p', hr, h => by
    obtain ⟨kind, hr⟩ := hr
    rw [AnySameAt, if_neg (fun e => kind.elim (fun k => by rw [k] at e; cases e.1) fun k => k.1 e.2)] at h
    obtain ⟨_, h⟩ := h
    rw [if_neg fun e => kind.elim (fun k => by rw [k] at e; cases e.1)
      fun k => e.2.elim k.2.1 fun h => h.elim k.2.2.1 k.2.2.2] at h
    intro f hf
    obtain ⟨g, hg, rfl⟩ := List.mem_map.1 hf
    obtain ⟨e1, e2⟩ := h g hg
    refine ⟨e1, fun hv => ?_⟩
    have hs := e2 hv
    unfold sameField at hs
    split at hs
    · next t ht =>
      have hk : g.dyn.kind.msgType = some t := by
        have := (hT id).tied g hg
        unfold JField.tied at this
        rw [ht] at this
        exact this
      obtain ⟨r1, r2⟩ := hr g hg hv t ht
      refine .inr ⟨t, hk, ?_⟩
      split at hs
      · obtain ⟨ss, ss', h1, h2, h3⟩ := hs
        refine .inr ⟨ss, ss', h1, h2, ?_⟩
        have hall := r2 ss h1
        clear h1 h2
        induction ss generalizing ss' with
        | nil => cases ss' with
          | nil => trivial
          | cons => exact h3.elim
        | cons s ss ih => cases ss' with
          | nil => exact h3.elim
          | cons s' ss' => exact ⟨regular_alike hT d k (hall s (by simp)) h3.1, ih ss' h3.2 fun x hx => hall x (by simp [hx])⟩
      · obtain ⟨s, s', h1, h2, h3⟩ := hs
        exact .inl ⟨s, s', h1, h2, regular_alike hT d k (r1 s h1) h3⟩
    · exact .inl hs

/-- A message that can be encoded, and has no timestamps, durations, field masks and `Any`s in it. -/
theorem encodable_regular {T : JTypes} (hT : ∀ id, (T id).Ok T) {utf8 : List Byte → Bool} {E : AnyEnv} {k id : Nat} {p : DynMsg}
    (regular : Regular T k id p) (enc : ∃ out, dynWrite T.dyn utf8 E.limit true id p [] = .ok (none, out)) :
    Encodable T utf8 E id p := by
  intro d p' h
  obtain ⟨out, enc⟩ := enc
  exact ⟨out, by rw [write_alike (regular_alike hT d k regular h), enc]⟩

end HppProto.Json
