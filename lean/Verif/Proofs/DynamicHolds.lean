import Verif.Proofs.StaticType
import Verif.Props.DynamicHistory

/-! Every dynamic message corresponds to a generated message. Helper lemmas for
`Verif/Props/DynamicWrite.lean`. -/

namespace HppProto
open Props

section
variable {T : DynTypes} {full : Prop}

theorem holdsValue_mono {rel rel' : Nat → DynMsg → Msg → Prop} (h : ∀ id s N, rel id s N → rel' id s N)
    {f m v} (hv : holdsValue rel f m v) : holdsValue rel' f m v := by
  unfold holdsValue at hv ⊢
  split at hv
  · exact hv
  · exact hv
  all_goals
    obtain ⟨s, N, h1, h2, h3⟩ := hv
    exact ⟨s, N, h1, h2, h _ _ _ h3⟩

theorem holdsList_mono {rel rel' : Nat → DynMsg → Msg → Prop} (h : ∀ id s N, rel id s N → rel' id s N)
    {f m vs} (hv : holdsList rel f m vs) : holdsList rel' f m vs := by
  unfold holdsList at hv ⊢
  split at hv
  · exact hv
  · exact hv
  all_goals
    obtain ⟨ss, Ns, h1, h2, h3, h4⟩ := hv
    exact ⟨ss, Ns, h1, h2, h3, fun p hp => h _ _ _ (h4 p hp)⟩

theorem holdsSlot_mono {rel rel' : Nat → DynMsg → Msg → Prop} (h : ∀ id s N, rel id s N → rel' id s N)
    {init entry fs m es} (hs : holdsSlot full rel init entry fs m es) :
    holdsSlot full rel' init entry fs m es := by
  rcases hs with ⟨j, f, v, h1, h2, h3, h4, h5⟩ | h2 | ⟨f, vs, h1, h2, h3, h4⟩
  · exact Or.inl ⟨j, f, v, h1, h2, h3, holdsValue_mono h h4, h5⟩
  · exact Or.inr (Or.inl h2)
  · exact Or.inr (Or.inr ⟨f, vs, h1, h2, holdsList_mono h h3, h4⟩)

theorem HoldsAt.succ : ∀ (d : Nat) {id : Nat} {m : DynMsg} {M : Msg}, HoldsAt T full d id m M →
    HoldsAt T full (d + 1) id m M
  | 0, _, _, _, h => h.elim
  | d + 1, _, _, _, ⟨h1, h2, h3, h4⟩ =>
    ⟨h1, h2, h3, fun i fs hi => holdsSlot_mono (fun _ _ _ h => HoldsAt.succ d h) (h4 i fs hi)⟩

theorem HoldsAt.le {d d' : Nat} (hd : d ≤ d') {id : Nat} {m : DynMsg} {M : Msg} (h : HoldsAt T full d id m M) :
    HoldsAt T full d' id m M := by
  induction hd with
  | refl => exact h
  | step _ ih => exact ih.succ

/-- What the field API reads when nothing is undefined. -/
theorem value_num_cases {f : DynField} {m : DynMsg} (hr : f.repeated = false) (hk : f.kind.isNum = true)
    (hd : f.value m ≠ .undefined) : ∃ x, f.value m = .num x := by
  unfold DynField.value at hd ⊢
  rw [if_neg (by simp [hr]), if_pos hk] at hd ⊢
  unfold DynField.numValue at hd ⊢
  split
  · exact ⟨_, rfl⟩
  · next h =>
    rw [if_neg h] at hd
    cases h' : (f.storage m).2.asNum with
    | some v => exact ⟨v, rfl⟩
    | none => rw [h'] at hd; exact absurd rfl hd

theorem value_str_cases {f : DynField} {m : DynMsg} (hr : f.repeated = false) (hk : f.kind.isStr = true)
    (hd : f.value m ≠ .undefined) : ∃ x, f.value m = .str x := by
  have hn : f.kind.isNum = false := by
    cases e : f.kind.isNum with
    | false => rfl
    | true => rw [isStr_of_isNum e] at hk; cases hk
  unfold DynField.value at hd ⊢
  rw [if_neg (by simp [hr]), if_neg (by simp [hn]), if_pos hk] at hd ⊢
  unfold DynField.strValue at hd ⊢
  split
  · exact ⟨_, rfl⟩
  · next h =>
    rw [if_neg h] at hd
    cases h' : (f.storage m).2.asStr with
    | some v => exact ⟨v, rfl⟩
    | none => rw [h'] at hd; exact absurd rfl hd

theorem value_msg_cases {f : DynField} {m : DynMsg} {id : Nat} (hr : f.repeated = false)
    (hk : f.kind.msgType = some id) (hv : f.hasValue m = true)
    (hd : f.value m ≠ .undefined) : ∃ s, f.value m = .msg s := by
  obtain ⟨h1, h2⟩ := msgType_plain hk
  unfold DynField.value at hd ⊢
  rw [if_neg (by simp [hr]), if_neg (by simp [h1]), if_neg (by simp [h2])] at hd ⊢
  unfold DynField.msgValue at hd ⊢
  rw [if_pos hv] at hd ⊢
  cases h : (f.storage m).2 with
  | msg s => exact ⟨s, rfl⟩
  | _ => rw [h] at hd; exact absurd rfl hd

theorem map_some_of_none_notMem {α} : ∀ (l : List (Option α)), none ∉ l → ∃ xs : List α, l = xs.map some
  | [], _ => ⟨[], rfl⟩
  | none :: l, h => by simp at h
  | some x :: l, h => by
    obtain ⟨xs, rfl⟩ := map_some_of_none_notMem l (by intro hm; exact h (List.mem_cons_of_mem _ hm))
    exact ⟨x :: xs, rfl⟩

theorem value_nums_cases {f : DynField} {m : DynMsg} (hr : f.repeated = true) (hk : f.kind.isNum = true)
    (hd : f.value m ≠ .undefined) (hf : f.fits False (f.storage m)) :
    ∃ xs : List (BitVec 64), f.value m = .nums (xs.map some) := by
  unfold DynField.value at hd ⊢
  rw [if_pos hr] at hd ⊢
  unfold DynField.elements at hd ⊢
  simp only [hk, if_true] at hd ⊢
  unfold DynField.fits at hf
  rw [if_pos hr] at hf
  cases h : (f.storage m).2 with
  | nums vs =>
    rw [h] at hf hd
    simp only at hf hd ⊢
    rw [if_pos hf.2.1]
    obtain ⟨xs, e⟩ := map_some_of_none_notMem (vs.take (f.storage m).1) (by
      intro hm; exact (hf.2.2.resolve_left _root_.id) (List.mem_of_mem_take hm))
    exact ⟨xs, by rw [e]⟩
  | zero =>
    rw [h] at hf
    simp only at hf ⊢
    exact ⟨[], by rw [if_pos hf]; rfl⟩
  | _ => rw [h] at hd; exact absurd rfl hd

theorem value_strs_cases {f : DynField} {m : DynMsg} (hr : f.repeated = true) (hk : f.kind.isStr = true)
    (hd : f.value m ≠ .undefined) : ∃ xs, f.value m = .strs xs := by
  have hn : f.kind.isNum = false := by
    cases e : f.kind.isNum with
    | false => rfl
    | true => rw [isStr_of_isNum e] at hk; cases hk
  unfold DynField.value at hd ⊢
  rw [if_pos hr] at hd ⊢
  unfold DynField.elements at hd ⊢
  simp only [hk, hn, if_true, Bool.false_eq_true, if_false] at hd ⊢
  cases h : (f.storage m).2 with
  | strs vs =>
    rw [h] at hd
    simp only at hd ⊢
    split
    · exact ⟨_, rfl⟩
    · next h' => rw [if_neg h'] at hd; exact absurd rfl hd
  | zero =>
    rw [h] at hd
    simp only at hd ⊢
    split
    · exact ⟨_, rfl⟩
    · next h' => rw [if_neg h'] at hd; exact absurd rfl hd
  | _ => rw [h] at hd; exact absurd rfl hd

theorem value_msgs_cases {f : DynField} {m : DynMsg} {id : Nat} (hr : f.repeated = true)
    (hk : f.kind.msgType = some id) (hd : f.value m ≠ .undefined) : ∃ ss, f.value m = .msgs ss := by
  obtain ⟨h1, h2⟩ := msgType_plain hk
  unfold DynField.value at hd ⊢
  rw [if_pos hr] at hd ⊢
  unfold DynField.elements at hd ⊢
  simp only [h1, h2, Bool.false_eq_true, if_false] at hd ⊢
  cases h : (f.storage m).2 with
  | msgs vs =>
    rw [h] at hd
    simp only at hd ⊢
    split
    · exact ⟨_, rfl⟩
    · next h' => rw [if_neg h'] at hd; exact absurd rfl hd
  | zero =>
    rw [h] at hd
    simp only at hd ⊢
    split
    · exact ⟨_, rfl⟩
    · next h' => rw [if_neg h'] at hd; exact absurd rfl hd
  | _ => rw [h] at hd; exact absurd rfl hd

/-- Messages of a list, each with its generated message, to one depth. -/
theorem holds_list {sid : Nat} : ∀ (ss : List DynMsg), (∀ s ∈ ss, ∃ N, DynHolds T full sid s N) →
    ∃ d Ns, ss.length = Ns.length ∧ ∀ p ∈ ss.zip Ns, HoldsAt T full d sid p.1 p.2
  | [], _ => ⟨0, [], rfl, by simp⟩
  | s :: ss, h => by
    obtain ⟨d, Ns, hl, hall⟩ := holds_list ss fun s hs => h s (List.mem_cons_of_mem _ hs)
    obtain ⟨N, d', hN⟩ := h s (List.mem_cons_self ..)
    refine ⟨max d d', N :: Ns, by simp [hl], fun p hp => ?_⟩
    simp only [List.zip_cons_cons, List.mem_cons] at hp
    rcases hp with rfl | hp
    · exact hN.le (Nat.le_max_right ..)
    · exact (hall p hp).le (Nat.le_max_left ..)

/-- Members of a generated message, one by one, to one depth. -/
theorem holds_slots {m : DynMsg} {entry : Bool} {init : List DynField → List (Nat × Val)} :
    ∀ (gs : List (List DynField)),
    (∀ g ∈ gs, ∃ d es, holdsSlot full (HoldsAt T full d) (init g) entry g m es) →
    ∃ (d : Nat) (Ms : List (List (Nat × Val))), Ms.length = gs.length ∧ ∀ i g, gs[i]? = some g →
      holdsSlot full (HoldsAt T full d) (init g) entry g m (Ms.getD i [])
  | [], _ => ⟨0, [], rfl, by simp⟩
  | g :: gs, h => by
    obtain ⟨d, Ms, hl, hall⟩ := holds_slots gs fun g hg => h g (List.mem_cons_of_mem _ hg)
    obtain ⟨d', es, hes⟩ := h g (List.mem_cons_self ..)
    refine ⟨max d d', es :: Ms, by simp [hl], fun i g' hi => ?_⟩
    cases i with
    | zero =>
      simp only [List.getElem?_cons_zero, Option.some.injEq] at hi
      subst hi
      exact holdsSlot_mono (fun _ _ _ h => HoldsAt.le (Nat.le_max_right d d') h) hes
    | succ i =>
      have := hall i g' (by simpa using hi)
      simp only [List.getD_cons_succ]
      exact holdsSlot_mono (fun _ _ _ h => HoldsAt.le (Nat.le_max_left d d') h) this

end

theorem DynPart.trans {T : DynTypes} {id m sid s tid t} (h : DynPart T id m sid s) (h' : DynPart T sid s tid t) :
    DynPart T id m tid t := by
  induction h' with
  | self => exact h
  | field _ hf hr hk hv ih => exact .field ih hf hr hk hv
  | element _ hf hr hk hv hs ih => exact .element ih hf hr hk hv hs

/-- A well-formed dynamic message without indeterminate numbers corresponds to a generated message. -/
theorem wf_holds {T : DynTypes} (hT : ∀ id, (T id).Ok) {full : Prop} {id : Nat} {m : DynMsg}
    (h : DynWF T False id m)
    (hc : full → ∀ sid s, DynPart T id m sid s → ∀ f ∈ (T sid).fields, f.repeated = false →
      f.must (T sid).entry = true → f.hasValue s = true) :
    ∃ M, DynHolds T full id m M := by
  induction h with
  | mk id m hlen hwords hfits hsub hsubs ihsub ihsubs =>
    have hw : DynWF T False id m := .mk id m hlen hwords hfits hsub hsubs
    have hdef : ∀ f ∈ (T id).fields, f.value m ≠ .undefined := fun f hf => hw.defined hT hf
    have hsubHolds : ∀ f ∈ (T id).fields, f.repeated = false → ∀ sid, f.kind.msgType = some sid → ∀ s,
        f.value m = .msg s → ∃ N, DynHolds T full sid s N := by
      intro f hf hr sid hk s hs
      obtain ⟨hv, hst⟩ := value_msg_storage hr hk hs
      exact ihsub f hf (Or.inr hv) sid hk s (by rw [hst]) fun hfull tid t ht =>
        hc hfull tid t (DynPart.trans (.field .self hf hr hk hs) ht)
    have hsubsHolds : ∀ f ∈ (T id).fields, f.repeated = true → ∀ sid, f.kind.msgType = some sid → ∀ ss,
        f.value m = .msgs ss → ∀ s ∈ ss, ∃ N, DynHolds T full sid s N := by
      intro f hf hr sid hk ss hs s hmem
      rcases value_msgs_storage hr hk hs with ⟨_, e⟩ | ⟨vs, e, e'⟩
      · rw [e] at hmem; cases hmem
      · have : s ∈ vs := by rw [e'] at hmem; exact List.mem_of_mem_take hmem
        exact ihsubs f hf (Or.inl ((hT _).singularMembers _ hf hr)) sid hk vs e s this fun hfull tid t ht =>
          hc hfull tid t (DynPart.trans (.element .self hf hr hk hs hmem) ht)
    obtain ⟨d, Ms, hl, hall⟩ := holds_slots (T := T) (full := full) (m := m) (entry := (T id).entry)
      (init := fun fs => (staticSlot T T.blank (T id).entry fs).initial) (groupFields (T id).fields) (by
      intro g hg
      have hmem : ∀ f ∈ g, f ∈ (T id).fields := fun f hf => mem_of_group hg hf
      by_cases hsome : ∃ f ∈ g, f.repeated = false ∧ f.hasValue m = true
      · obtain ⟨f, hf, hr, hv⟩ := hsome
        obtain ⟨j, hj, e⟩ := List.getElem_of_mem hf
        have hj : g[j]? = some f := by rw [List.getElem?_eq_some_iff]; exact ⟨hj, e⟩
        have : ∃ d v, holdsValue (HoldsAt T full d) f m v := by
          unfold holdsValue
          cases hk : f.kind with
          | scalar sc =>
            cases sc with
            | str u =>
              obtain ⟨x, e⟩ := value_str_cases hr (by rw [hk]; rfl) (hdef f (hmem f hf))
              exact ⟨0, _, x, e, rfl⟩
            | _ =>
              obtain ⟨x, e⟩ := value_num_cases hr (by rw [hk]; rfl) (hdef f (hmem f hf))
              exact ⟨0, _, x, e, rfl⟩
          | msg sid =>
            obtain ⟨s, e⟩ := value_msg_cases (id := sid) hr (by rw [hk]; rfl) hv (hdef f (hmem f hf))
            obtain ⟨N, d, hN⟩ := hsubHolds f (hmem f hf) hr sid (by rw [hk]; rfl) s e
            exact ⟨d, _, s, N, e, rfl, hN⟩
          | group sid =>
            obtain ⟨s, e⟩ := value_msg_cases (id := sid) hr (by rw [hk]; rfl) hv (hdef f (hmem f hf))
            obtain ⟨N, d, hN⟩ := hsubHolds f (hmem f hf) hr sid (by rw [hk]; rfl) s e
            exact ⟨d, _, s, N, e, rfl, hN⟩
        obtain ⟨d, v, hd⟩ := this
        exact ⟨d, _, Or.inl ⟨j, f, v, hj, hr, hv, hd, rfl⟩⟩
      · by_cases hrep : ∃ f ∈ g, f.repeated = true
        · obtain ⟨f, hf, hr⟩ := hrep
          have hg1 : g = [f] := by
            rcases groupFields_shape _ g hg with ⟨f', rfl⟩ | ⟨o, ho⟩
            · rw [List.mem_singleton.1 hf]
            · have := (hT id).singularMembers f (hmem f hf) hr
              rw [ho f hf] at this
              cases this
          have hdf := hdef f (hmem f hf)
          have : ∃ d vs, holdsList (HoldsAt T full d) f m vs := by
            unfold holdsList
            cases hk : f.kind with
            | scalar sc =>
              cases sc with
              | str u =>
                obtain ⟨x, e⟩ := value_strs_cases hr (by rw [hk]; rfl) hdf
                exact ⟨0, _, x, e, rfl⟩
              | _ =>
                obtain ⟨x, e⟩ := value_nums_cases hr (by rw [hk]; rfl) hdf
                  (hfits f (hmem f hf) (Or.inl ((hT id).singularMembers f (hmem f hf) hr)))
                exact ⟨0, _, x, e, rfl⟩
            | msg sid =>
              obtain ⟨ss, e⟩ := value_msgs_cases (id := sid) hr (by rw [hk]; rfl) hdf
              obtain ⟨d, Ns, h1, h2⟩ := holds_list ss (hsubsHolds f (hmem f hf) hr sid (by rw [hk]; rfl) ss e)
              exact ⟨d, _, ss, Ns, e, rfl, h1, h2⟩
            | group sid =>
              obtain ⟨ss, e⟩ := value_msgs_cases (id := sid) hr (by rw [hk]; rfl) hdf
              obtain ⟨d, Ns, h1, h2⟩ := holds_list ss (hsubsHolds f (hmem f hf) hr sid (by rw [hk]; rfl) ss e)
              exact ⟨d, _, ss, Ns, e, rfl, h1, h2⟩
          obtain ⟨d, vs, hd⟩ := this
          exact ⟨d, _, Or.inr (Or.inr ⟨f, vs, hg1, hr, hd, rfl⟩)⟩
        · refine ⟨0, _, Or.inr (Or.inl ⟨fun f hf => ?_, rfl⟩)⟩
          have hr : f.repeated = false := by
            cases e : f.repeated with
            | false => rfl
            | true => exact absurd ⟨f, hf, e⟩ hrep
          have hv : f.hasValue m = false := by
            cases e : f.hasValue m with
            | false => rfl
            | true => exact absurd ⟨f, hf, hr, e⟩ hsome
          refine ⟨hr, hv, fun hfull => ?_⟩
          cases e : f.must (T id).entry with
          | false => rfl
          | true =>
            rw [hc hfull id m .self f (hmem f hf) hr e] at hv
            cases hv)
    exact ⟨⟨Ms, []⟩, d + 1, hlen, rfl, hl, hall⟩

end HppProto
