import Verif.Proofs.StaticType
import Verif.Spec.DynamicPool
import Verif.Model.DynamicWrite

/-! The pieces that the fields of a dynamic message contribute. Helper lemmas for
`Verif/Props/DynamicWrite.lean`. -/

namespace HppProto


theorem DynDesc.Ok.nodup {D : DynDesc} (hD : D.Ok) : D.fields.Nodup := by
  obtain ⟨_, s, h, _⟩ := hD.laidOut
  rw [List.Nodup, List.pairwise_iff_getElem]
  intro i j hi hj hij e
  have hli : (D.fields.map DynField.layout)[i]? = some D.fields[i].layout := by simp [hi]
  have hlj : (D.fields.map DynField.layout)[j]? = some D.fields[j].layout := by simp [hj]
  rcases (h.share i j _ _ hli hlj).1 (by rw [e]) with e' | ⟨o, h1, h2⟩
  · omega
  · have := h.run i j o _ _ h1 h2 hli hlj
    rw [e] at this
    omega

section
variable (rel : Nat → DynMsg → Msg → Prop) (m : DynMsg)

/-- The pieces one field contributes. -/
inductive FieldItems (f : DynField) : List Item → Prop
  | absent (hp : f.present m = .ok false) : FieldItems f []
  | num {v sc} (hp : f.present m = .ok true) (hk : f.kind = .scalar sc)
      (hpack : f.packed = false) (hc : (f.value m).content = .ok (.num v)) :
      FieldItems f [.one f.number f.kind (.num v)]
  | str {bs sc} (hp : f.present m = .ok true) (hk : f.kind = .scalar (.str sc))
      (hpack : f.packed = false) (hc : (f.value m).content = .ok (.str bs)) :
      FieldItems f [.one f.number f.kind (.bytes bs)]
  | packed {vs sc} (hp : f.present m = .ok true) (hk : f.kind = .scalar sc) (hs : sc.packable = true)
      (hpack : f.packed = true) (hrep : f.repeated = true)
      (hc : (f.value m).content = .ok (.nums vs)) :
      FieldItems f [.packed f.number sc (vs.map .num)]
  | nums {vs sc} (hp : f.present m = .ok true) (hk : f.kind = .scalar sc) (hs : sc.packable = true)
      (hpack : f.packed = false) (hc : (f.value m).content = .ok (.nums vs)) :
      FieldItems f (vs.map fun v => .one f.number f.kind (.num v))
  | strs {vs u} (hp : f.present m = .ok true) (hk : f.kind = .scalar (.str u))
      (hpack : f.packed = false) (hc : (f.value m).content = .ok (.strs vs)) :
      FieldItems f (vs.map fun bs => .one f.number f.kind (.bytes bs))
  | msg {s N id} (hp : f.present m = .ok true) (hk : f.kind.msgType = some id)
      (hc : (f.value m).content = .ok (.msg s)) (hr : rel id s N) :
      FieldItems f [.one f.number f.kind (.msg N)]
  | msgs {ss Ns id} (hp : f.present m = .ok true) (hk : f.kind.msgType = some id)
      (hc : (f.value m).content = .ok (.msgs ss)) (hl : ss.length = Ns.length)
      (hr : ∀ p ∈ ss.zip Ns, rel id p.1 p.2) :
      FieldItems f (Ns.map fun N => .one f.number f.kind (.msg N))

/-- The pieces several fields contribute. -/
inductive FieldsItems : List DynField → List Item → Prop
  | nil : FieldsItems [] []
  | cons {f fs its its'} (h : FieldItems rel m f its) (t : FieldsItems fs its') :
      FieldsItems (f :: fs) (its ++ its')

variable {rel m}

theorem FieldsItems.append {fs gs its its'} (h : FieldsItems rel m fs its)
    (h' : FieldsItems rel m gs its') : FieldsItems rel m (fs ++ gs) (its ++ its') := by
  induction h with
  | nil => exact h'
  | cons h _ ih => rw [List.append_assoc]; exact .cons h ih

theorem FieldsItems.absent {fs : List DynField} (h : ∀ f ∈ fs, f.present m = .ok false) :
    FieldsItems rel m fs [] := by
  induction fs with
  | nil => exact .nil
  | cons f fs ih =>
    exact .cons (its := []) (.absent (h f (List.mem_cons_self ..)))
      (ih fun g hg => h g (List.mem_cons_of_mem _ hg))

theorem FieldsItems.single {f : DynField} {its} (h : FieldItems rel m f its) :
    FieldsItems rel m [f] its := by
  have := FieldsItems.cons h .nil
  simpa using this

/-- One of several fields is there. -/
theorem FieldsItems.one {fs : List DynField} {j : Nat} {f : DynField} {its}
    (hj : fs[j]? = some f) (h : FieldItems rel m f its)
    (ho : ∀ j' g, fs[j']? = some g → j' ≠ j → g.present m = .ok false) :
    FieldsItems rel m fs its := by
  induction fs generalizing j with
  | nil => simp at hj
  | cons a as ih =>
    cases j with
    | zero =>
      simp only [List.getElem?_cons_zero, Option.some.injEq] at hj
      subst hj
      have : FieldsItems rel m as [] := FieldsItems.absent (by
        intro g hg
        obtain ⟨i, hi, rfl⟩ := List.getElem_of_mem hg
        exact ho (i + 1) _ (by simp [hi]) (by omega))
      simpa using FieldsItems.cons h this
    | succ j =>
      have := ih (j := j) (by simpa using hj) (fun j' g hg hne =>
        ho (j' + 1) g (by simpa using hg) (by omega))
      exact .cons (its := []) (.absent (ho 0 a rfl (by omega))) this

theorem mapM_some {α} (xs : List α) : (xs.map some).mapM id = some xs := by
  induction xs with
  | nil => rfl
  | cons x xs ih => simp [List.mapM_cons, ih]

theorem isDefault_default (f : DynField) (v : Val) :
    isDefault f.kind f.default v = isDefault f.kind f.dflt v := by
  unfold isDefault DynField.default
  cases hk : f.kind with
  | scalar sc => cases sc <;> first | rfl | (rename_i b; cases b <;> rfl)
  | msg _ => rfl
  | group _ => rfl

theorem isDefault_zero {f : DynField} (hm : f.kind.msgType = none) (h0 : f.dflt.bits = 0) :
    isDefault f.kind f.dflt f.default = true := by
  unfold isDefault DynField.default
  cases hk : f.kind with
  | scalar sc =>
    cases sc with
    | fixed32 b =>
      cases b
      · exact beq_iff_eq.2 rfl
      · show f32Eq (BitVec.setWidth 32 f.dflt.bits) (BitVec.setWidth 32 f.dflt.bits) = true
        rw [h0]
        decide
    | fixed64 b =>
      cases b
      · exact beq_iff_eq.2 rfl
      · show f64Eq f.dflt.bits f.dflt.bits = true
        rw [h0]
        decide
    | _ => exact beq_iff_eq.2 rfl
  | msg _ => simp [hk, Kind.msgType] at hm
  | group _ => simp [hk, Kind.msgType] at hm

/-- A field that is absent contributes nothing. -/
theorem present_absent {f : DynField} (hr : f.repeated = false) (hv : f.hasValue m = false) :
    f.present m = .ok false := by
  simp [DynField.present, hr, hv]

theorem content_num {f : DynField} {x} (h : f.value m = .num x) :
    (f.value m).content = .ok (.num x) := by rw [h]; rfl

/-- What a present singular field contributes. -/
theorem items_value {f : DynField} (hr : f.repeated = false) (hv : f.hasValue m = true)
    (hpack : f.packed = false) {v : Val} (h : holdsValue rel f m v) :
    FieldItems rel m f (if f.kind.msgType.isSome || f.explicit || !isDefault f.kind f.dflt v
      then [.one f.number f.kind v] else []) := by
  unfold holdsValue at h
  split at h
  · next u hk =>
    obtain ⟨bs, hb, rfl⟩ := h
    have hc : (f.value m).content = .ok (.str bs) := by rw [hb]; rfl
    have hp : f.present m = .ok (f.explicit || !isDefault f.kind f.dflt (.bytes bs)) := by
      unfold DynField.present
      simp only [hr, hv, hk, Kind.msgType, Bool.not_true, Bool.false_eq_true, if_false,
        Option.isSome_none, Bool.false_or]
      cases f.explicit
      · simp only [Bool.false_eq_true, if_false]
        rw [hb]
        rfl
      · rfl
    have e : f.kind.msgType.isSome = false := by rw [hk]; rfl
    rw [e, Bool.false_or]
    split
    · next hif => rw [hif] at hp; exact .str hp hk hpack hc
    · next hif => rw [Bool.not_eq_true] at hif; rw [hif] at hp; exact .absent hp
  · next sc hns hk =>
    obtain ⟨x, hb, rfl⟩ := h
    have hc := content_num hb
    have hp : f.present m = .ok (f.explicit || !isDefault f.kind f.dflt (.num x)) := by
      unfold DynField.present
      simp only [hr, hv, hk, Kind.msgType, Bool.not_true, Bool.false_eq_true, if_false,
        Option.isSome_none, Bool.false_or]
      cases f.explicit
      · simp only [Bool.false_eq_true, if_false]
        rw [hb]
        rfl
      · rfl
    have e : f.kind.msgType.isSome = false := by rw [hk]; rfl
    rw [e, Bool.false_or]
    split
    · next hif => rw [hif] at hp; exact .num hp hk hpack hc
    · next hif => rw [Bool.not_eq_true] at hif; rw [hif] at hp; exact .absent hp
  all_goals
    next id hk =>
    obtain ⟨s, N, hb, rfl, hrel⟩ := h
    have hm : f.kind.msgType = some id := by rw [hk]; rfl
    have hp : f.present m = .ok true := by simp [DynField.present, hr, hv, hm]
    rw [hm]
    simp only [Option.isSome_some, Bool.true_or, if_true]
    exact .msg hp hm (by rw [hb]; rfl) hrel

/-- What a repeated field contributes. -/
theorem items_list {f : DynField} (hr : f.repeated = true) (hpack : f.packed = true → f.kind.isNum = true)
    {vs : List Val} (h : holdsList rel f m vs) (T : DynTypes) (blank : Nat → Msg) (entry : Bool) :
    FieldItems rel m f (slotItems (.field f.number f.kind (f.card T blank entry))
      (vs.map fun v => (0, v))) := by
  have hcard : (∃ id, f.kind = .msg id) ∧ f.card T blank entry = .map false ∨
      f.card T blank entry = .repeated f.packed := by
    unfold DynField.card
    rw [if_pos hr]
    cases f.kind with
    | msg id =>
      dsimp only
      split
      · exact Or.inl ⟨⟨_, rfl⟩, rfl⟩
      · exact Or.inr rfl
    | _ => exact Or.inr rfl
  have plain : f.packed = false ∨ f.kind.isNum = false →
      slotItems (.field f.number f.kind (f.card T blank entry)) (vs.map fun v => (0, v)) =
        vs.map fun v => .one f.number f.kind v := by
    intro hpk
    unfold slotItems
    rcases hcard with ⟨_, e⟩ | e
    · rw [e]; simp only [List.map_map]; rfl
    · rw [e]
      cases hp : f.packed with
      | false => simp only [List.map_map]; rfl
      | true =>
        rw [hp] at hpk
        have hn : f.kind.isNum = false := by simpa using hpk
        have := hpack hp
        rw [hn] at this
        cases this
  unfold holdsList at h
  have hpres : ∀ n, (f.storage m).1 = n → f.present m = .ok (n != 0) := by
    intro n hn; simp [DynField.present, hr, hn]
  split at h
  · next u hk =>
    obtain ⟨bs, hb, rfl⟩ := h
    have hnp : f.packed = false := by
      cases hp : f.packed with
      | false => rfl
      | true => have := hpack hp; rw [hk] at this; simp [Kind.isNum] at this
    rw [plain (Or.inl hnp)]
    have hp := hpres _ (elements_strs hr hb).1
    cases bs with
    | nil => exact .absent hp
    | cons b bs =>
      have := FieldItems.strs (rel := rel) (m := m) hp hk hnp (by rw [hb]; rfl)
      rw [List.map_map]
      exact this
  · next sc hns hk =>
    obtain ⟨xs, hb, rfl⟩ := h
    have hp := hpres _ (elements_nums hr hb).1
    have hc : (f.value m).content = .ok (.nums xs) := by
      rw [hb]; simp only [Reading.content, mapM_some]
    have hs : sc.packable = true := by cases sc <;> simp_all [Scalar.packable]
    cases hpk : f.packed with
    | false =>
      rw [plain (Or.inl hpk)]
      cases xs with
      | nil => exact .absent hp
      | cons x xs =>
        have := FieldItems.nums (rel := rel) (m := m) hp hk hs hpk hc
        rw [List.map_map]
        exact this
    | true =>
      have e : f.card T blank entry = .repeated true := by
        rcases hcard with ⟨⟨_, e⟩, _⟩ | e
        · rw [hk] at e; cases e
        · rw [e, hpk]
      unfold slotItems
      rw [e, hk]
      simp only [hs, if_true]
      cases xs with
      | nil => exact .absent hp
      | cons x xs =>
        have := FieldItems.packed (rel := rel) (m := m) hp hk hs hpk hr hc
        rw [List.map_map, List.map_map]
        exact this
  all_goals
    next id hk =>
    obtain ⟨ss, Ns, hb, rfl, hl, hrel⟩ := h
    have hn : f.kind.isNum = false := by rw [hk]; rfl
    have hm : f.kind.msgType = some id := by rw [hk]; rfl
    rw [plain (Or.inr hn)]
    have hp := hpres _ (elements_msgs hr hb).1
    cases Ns with
    | nil =>
      rw [hl] at hp
      exact .absent hp
    | cons N Ns =>
      rw [hl] at hp
      have := FieldItems.msgs (rel := rel) (m := m) hp hm (by rw [hb]; rfl) hl hrel
      rw [List.map_map]
      exact this

end

/-- What a member of the generated message contributes is what the fields contribute. -/
theorem group_items {T : DynTypes} {D : DynDesc} (hD : D.Ok) (hP : D.Pooled)
    {rel : Nat → DynMsg → Msg → Prop} {m : DynMsg} {g : List DynField}
    (hg : g ∈ groupFields D.fields) {blank : Nat → Msg} {es : List (Nat × Val)}
    (h : holdsSlot True rel (staticSlot T blank D.entry g).initial D.entry g m es) :
    FieldsItems rel m g (slotItems (staticSlot T blank D.entry g) es) := by
  have hmem : ∀ f ∈ g, f ∈ D.fields := fun f hf => mem_of_group hg hf
  have hsing : ∀ f ∈ g, f.repeated = false → f.packed = false := by
    intro f hf hr
    cases hp : f.packed with
    | false => rfl
    | true => have := (hP.packed f (hmem f hf) hp).1; rw [hr] at this; cases this
  have hnod : g.Nodup := by
    have := hD.nodup
    rw [← groupFields_flatten D.fields] at this
    exact (List.pairwise_flatten.1 this).1 g hg
  rcases h with ⟨j, f, v, hj, hr, hv, hval, rfl⟩ | ⟨habs, rfl⟩ | ⟨f, vs, rfl, hr, hl, rfl⟩
  · have hf : f ∈ g := List.mem_of_getElem? hj
    have hit := items_value hr hv (hsing f hf hr) hval
    by_cases hplain : ∃ f', g = [f'] ∧ f'.oneof = none
    · obtain ⟨f', rfl, hno⟩ := hplain
      cases List.mem_singleton.1 hf
      have hj0 : j = 0 := by have := (List.getElem?_eq_some_iff.1 hj).1; simpa using this
      subst hj0
      refine FieldsItems.single ?_
      have e : slotItems (staticSlot T blank D.entry [f]) [(0, v)] =
          if f.kind.msgType.isSome || f.explicit || !isDefault f.kind f.dflt v
            then [.one f.number f.kind v] else [] := by
        unfold staticSlot
        simp only [hno]
        unfold slotItems DynField.card
        simp only [hr, Bool.false_eq_true, if_false]
        cases hm : f.kind.msgType with
        | some id =>
          simp only [Option.isSome_some, Bool.true_or, if_true]
          cases D.entry <;> rfl
        | none =>
          simp only [Option.isSome_none, Bool.false_or]
          by_cases hmust : f.must D.entry = true
          · rw [if_pos hmust]
            have hexp : (f.explicit || !isDefault f.kind f.dflt v) = true ∨ D.entry = true := by
              unfold DynField.must at hmust
              rcases Bool.or_eq_true _ _ ▸ hmust with h | h
              · left
                simp [DynField.explicit, DynField.presence, presenceFor, hr, hno, h]
              · exact Or.inr h
            rcases hexp with hexp | hexp
            · rw [if_pos hexp]; rfl
            · rw [hP.entryExplicit hexp f (hmem f (by simp)) hr]; rfl
          · rw [if_neg hmust]
            cases he : f.explicit with
            | true => simp
            | false =>
              simp only [Bool.false_eq_true, if_false, Bool.false_or]
              simp only [isDefault_default]
              cases hd : isDefault f.kind f.dflt v
              · rw [List.filter_cons_of_pos (by simp [hd])]; rfl
              · rw [List.filter_cons_of_neg (by simp [hd])]; rfl
      rw [e]
      exact hit
    · have hone : ∃ o, ∀ f' ∈ g, f'.oneof = some o := by
        rcases groupFields_shape _ g hg with ⟨f', rfl⟩ | h
        · cases ho : f'.oneof with
          | none => exact absurd ⟨f', rfl, ho⟩ hplain
          | some o => exact ⟨o, fun x hx => by cases List.mem_singleton.1 hx; exact ho⟩
        · exact h
      obtain ⟨o, ho⟩ := hone
      have hex := (hD.member_explicit (hmem f hf) (ho f hf)).2
      rw [hex] at hit
      simp only [Bool.or_true, Bool.true_or, if_true] at hit
      have e : slotItems (staticSlot T blank D.entry g) [(j, v)] = [.one f.number f.kind v] := by
        have : staticSlot T blank D.entry g = .oneof (g.map fun f => (f.number, f.kind)) := by
          unfold staticSlot
          split
          · next f' => rw [ho f' (by simp)]; rfl
          · rfl
        rw [this]
        simp [slotItems, hj]
      rw [e]
      refine FieldsItems.one hj hit fun j' g' hj' hne => ?_
      have hg' : g' ∈ g := List.mem_of_getElem? hj'
      have hr' := (hD.member_explicit (hmem g' hg') (ho g' hg')).1
      refine present_absent hr' ?_
      have hso : SameOneof f g' := ⟨o, ho f hf, ho g' hg'⟩
      have hslot := hD.slot_of_sameOneof (hmem f hf) (hmem g' hg') hso
      rcases hD.same_slot (hmem f hf) (hmem g' hg') hslot with e' | ⟨_, hord⟩
      · exfalso
        subst e'
        obtain ⟨h1, e1⟩ := List.getElem?_eq_some_iff.1 hj
        obtain ⟨h2, e2⟩ := List.getElem?_eq_some_iff.1 hj'
        exact hne ((List.getElem_inj hnod).1 (e2.trans e1.symm))
      · unfold DynField.hasValue slotHasValue at hv ⊢
        rw [hr] at hv
        rw [hr']
        simp only [Bool.false_eq_true, if_false, beq_iff_eq] at hv
        simp only [Bool.false_eq_true, if_false, beq_eq_false_iff_ne, ne_eq]
        have : g'.storage m = f.storage m := by unfold DynField.storage; rw [hslot]
        rw [this, hv]
        exact hord
  · have hnil : slotItems (staticSlot T blank D.entry g) (staticSlot T blank D.entry g).initial = [] := by
      unfold staticSlot
      split
      · next f =>
        obtain ⟨hr, hv, hmust⟩ := habs f (by simp)
        have hmust := hmust trivial
        cases ho : f.oneof with
        | some o => rfl
        | none =>
          dsimp only
          unfold DynField.card
          rw [if_neg (by simp [hr])]
          cases hm : f.kind.msgType with
          | some id =>
            have : D.entry = false := by
              unfold DynField.must at hmust
              exact (Bool.or_eq_false_iff.1 hmust).2
            rw [this]
            rfl
          | none =>
            dsimp only
            rw [if_neg (by simp [hmust])]
            cases he : f.explicit with
            | true => rfl
            | false =>
              simp only [Bool.false_eq_true, if_false, SlotD.initial, slotItems]
              rw [List.filter_cons_of_neg (by
                rw [isDefault_default, isDefault_zero hm (hD.zeroDefaults f (hmem f (by simp)) he).1]
                simp)]
              rfl
      · rfl
    rw [hnil]
    exact FieldsItems.absent fun f hf => present_absent (habs f hf).1 (habs f hf).2.1
  · have hno := hD.singularMembers f (hmem f (by simp)) hr
    have : staticSlot T blank D.entry [f] = .field f.number f.kind (f.card T blank D.entry) := by
      simp [staticSlot, hno]
    rw [this]
    exact FieldsItems.single (items_list hr (fun hp => (hP.packed f (hmem f (by simp)) hp).2) hl T blank D.entry)

end HppProto
